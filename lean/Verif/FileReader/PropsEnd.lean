import Verif.FileReader.Props

namespace Verif.FileReader
open Verif.BitStream (Byte Word Mem RErr bytesBits_length)
open Verif.BitStream.Spec (fieldBits bytesBits)
open Spec

/-! ### The whole file -/

/-- C93. Asked for at least as many bytes as the file has, the reader gives the file, when the answers come in time. After that it says that it is at the end, and every
field raises an end of data. -/
theorem whole_file (kind : Kind) (size : Nat) (file : List Byte) (junk junk' : Mem) (sched : Nat → Bool) (h5 : 5 ≤ size) (hp : Spec.Punctual kind sched)
    (n : Nat) (hn : file.length ≤ n) :
    ∃ s', readBytes (create kind size file junk junk' sched) n = .ok (file, s') ∧ (atend s').1 = true ∧
      ∀ w, 1 ≤ w → w ≤ 32 → (getbits s' w).toOption = none ∧ getbits s' w = .error .endOfData := by
  obtain ⟨mid, G, hf, ht, hc, hk, _, hs⟩ := create_good kind size file junk junk' sched h5
  have hP : Punctual (create kind size file junk junk' sched) := by rw [Punctual, hk, hs]; exact hp
  obtain ⟨s', pre', mid', e, g, k, t⟩ := readLoop_end (n + 1) true _ n [] mid (by omega) G hP (by rw [hc]) (by rw [hf, ht]; omega)
  rw [ht, hf, List.drop_zero] at e
  have hl := base_length g.base
  have htt := g.base.tot
  have hcu := g.base.cur
  rw [k.file] at hl
  have hm : mid' = [] := List.length_eq_zero_iff.1 (by omega)
  subst hm
  refine ⟨s', e, ?_, ?_⟩
  · obtain ⟨b, s1, a1, _, _, _, _, _, _, _, a9, _⟩ := atend_good g
    rw [a1]; exact a9 rfl (by simp at hl; omega)
  · intro w h1 h2
    have : getbits s' w = .error .endOfData := by
      have hfull : s'.cur = 8 * s'.bufLen := by simp at hl; omega
      rw [getbits, nextbits, if_neg (by omega), ensure, if_pos (by omega), fill_end g]
    exact ⟨by rw [this]; rfl, this⟩

example : ∃ s', readBytes (create .async 5 exampleFile (fun _ => 7) (fun _ => 8) (fun _ => true)) 20 = .ok (exampleFile, s') :=
  let ⟨s', h, _⟩ := whole_file .async 5 exampleFile (fun _ => 7) (fun _ => 8) (fun _ => true) (by decide) (Or.inr fun _ => rfl) 20 (by decide)
  ⟨s', h⟩

/-! ### Fields in pages -/

theorem page_arith (size q cur w : Nat) (hs : 1 ≤ size) (hcur : cur ≤ 8 * size) (hover : 8 * size < cur + w)
    (h : (8 * (size * q) + cur) / (8 * size) = (8 * (size * q) + cur + w - 1) / (8 * size)) : cur = 8 * size := by
  by_contra hne
  have hlt : cur < 8 * size := by omega
  have e1 : (8 * (size * q) + cur) / (8 * size) = q := by
    rw [show 8 * (size * q) + cur = cur + (8 * size) * q by rw [Nat.mul_assoc]; omega, Nat.add_mul_div_left _ _ (by omega), Nat.div_eq_of_lt hlt]; omega
  have e2 : q + 1 ≤ (8 * (size * q) + cur + w - 1) / (8 * size) := by
    rw [Nat.le_div_iff_mul_le (by omega)]
    have : (q + 1) * (8 * size) = 8 * (size * q) + 8 * size := by
      rw [Nat.add_mul, Nat.one_mul, Nat.mul_comm q, Nat.mul_assoc]
    omega
  omega

theorem page_step {s : St} {pre mid : List Byte} (G : Good s pre mid) (hpun : Punctual s) (hpage : pre.length % s.size = 0) (w : Nat) (h1 : 1 ≤ w) (h2 : w ≤ 32)
    (hin : s.tot / (8 * s.size) = (s.tot + w - 1) / (8 * s.size)) (hfit : s.tot + w ≤ 8 * s.file.length) :
    ∃ x s' pre' mid', getbits s w = .ok (x, s') ∧ Good s' pre' mid' ∧ pre'.length % s'.size = 0 ∧ Keeps s s' ∧ s'.tot = s.tot + w ∧
      fieldBits x w = ((bytesBits s.file).drop s.tot).take w ∧ x.toNat < 2 ^ w := by
  have hs := G.base.size
  have htot := G.base.tot
  have hcur := G.base.cur
  rcases nextbits_good G w h1 h2 hfit with ⟨_, np⟩ | ⟨x, s', pre', mid', e, g, k, t, f, hb, hw, c⟩
  · exact absurd hpun np
  · have hfull : 8 * s.bufLen < s.cur + w → mid ≠ [] → s.cur = 8 * s.size ∧ s.bufLen = s.size := by
      intro ho hm
      have hbl := G.base.full hm
      obtain ⟨q, hq⟩ := Nat.dvd_of_mod_eq_zero hpage
      refine ⟨page_arith s.size q s.cur w (by omega) (by omega) (by omega) ?_, hbl⟩
      rw [htot, hq] at hin; exact hin
    have hg : Good s' pre' mid' := by
      rcases g with g | ⟨_, g1, g2⟩
      · exact g
      · exfalso
        apply g1
        have hl := base_length G.base
        have hm : mid ≠ [] := by intro hm; rw [hm] at hl; simp at hl; omega
        obtain ⟨e1, e2⟩ := hfull g2 hm
        omega
    refine ⟨x, forward s' w, pre', mid', by rw [getbits_eq, e], forward_good hg w f, ?_, k.trans (forward_keeps _ _), by show s'.tot + w = _; rw [t], hb, hw⟩
    show pre'.length % s'.size = 0
    rw [k.size]
    rcases c with ⟨_, c, _⟩ | ⟨c1, c2, _, c4⟩
    · rw [c]; exact hpage
    · obtain ⟨e1, _⟩ := hfull c1 c2
      rw [c4, e1, show 8 * s.size / 8 = s.size by omega, Nat.add_mod_right]; exact hpage

theorem page_run : ∀ (ns : List Nat) (s : St) (pre mid : List Byte), Good s pre mid → Punctual s → pre.length % s.size = 0 → inPages s.size s.tot ns →
    s.tot + ns.sum ≤ 8 * s.file.length →
    ∃ outs s' pre' mid', run s (ns.map .bits) = (outs, .ok s') ∧ Good s' pre' mid' ∧ Keeps s s' ∧ s'.tot = s.tot + ns.sum ∧
      outs.flatMap outBits = ((bytesBits s.file).drop s.tot).take ns.sum ∧ (∀ o ∈ outs, inWidth o) ∧ List.Forall₂ answers (ns.map .bits) outs := by
  intro ns
  induction ns with
  | nil =>
    intro s pre mid G _ _ _ _
    exact ⟨[], s, pre, mid, rfl, G, Keeps.refl s, rfl, by simp, by simp, List.Forall₂.nil⟩
  | cons n ns ih =>
    intro s pre mid G hp hpage hin hfit
    obtain ⟨h1, h2, h3, h4⟩ := hin
    simp only [List.sum_cons] at hfit
    obtain ⟨x, s', pre', mid', e, g, pg, k, t, b, w⟩ := page_step G hp hpage n h1 h2 h3 (by omega)
    obtain ⟨outs, s2, pre2, mid2, e2, g2, k2, t2, b2, w2, f2⟩ := ih s' pre' mid' g (k.punctual.2 hp) pg (by rw [k.size, t]; exact h4)
      (by rw [t, k.file]; omega)
    refine ⟨.word n x :: outs, s2, pre2, mid2, ?_, g2, k.trans k2, by rw [t2, t, List.sum_cons]; omega, ?_, ?_, List.Forall₂.cons rfl f2⟩
    · simp only [List.map_cons, run, step, e, e2]
    · simp only [List.flatMap_cons, List.sum_cons]
      rw [b2, k.file, t, List.take_add, List.drop_drop]
      rw [show outBits (.word n x) = fieldBits x n from rfl, b]
    · intro o ho
      rcases List.mem_cons.1 ho with rfl | ho
      · exact w
      · exact w2 o ho

/-- C93 (partial: no field lies across a page boundary, answers in time). Fields are right up to the last bit of the file; `eof()` is true when and only when all of it has been read, and then
the next field raises an end of data. -/
theorem pages_partial (kind : Kind) (size : Nat) (file : List Byte) (junk junk' : Mem) (sched : Nat → Bool) (ns : List Nat) (h5 : 5 ≤ size)
    (hp : Spec.Punctual kind sched) (hin : inPages size 0 ns) (hfit : ns.sum ≤ 8 * file.length) :
    ∃ outs s', run (create kind size file junk junk' sched) (ns.map .bits) = (outs, .ok s') ∧
      outs.flatMap outBits = (bytesBits file).take ns.sum ∧ (∀ o ∈ outs, inWidth o) ∧ List.Forall₂ answers (ns.map .bits) outs ∧
      ((atend s').1 = true ↔ ns.sum = 8 * file.length) ∧
      (ns.sum = 8 * file.length → ∀ w, 1 ≤ w → w ≤ 32 → getbits s' w = .error .endOfData) := by
  obtain ⟨mid, G, hf, ht, hc, hk, hsz, hs⟩ := create_good kind size file junk junk' sched h5
  have hP : Punctual (create kind size file junk junk' sched) := by rw [Punctual, hk, hs]; exact hp
  obtain ⟨outs, s', pre', mid', e, g, k, t, b, w, f⟩ := page_run ns _ [] mid G hP (by simp) (by rw [hsz, ht]; exact hin) (by rw [ht, hf]; omega)
  rw [hf, ht, List.drop_zero] at b
  rw [ht] at t
  have hl := base_length g.base
  have htt := g.base.tot
  have hcu := g.base.cur
  rw [k.file, hf] at hl
  have hiff : (mid' = [] ∧ 8 * s'.bufLen ≤ s'.cur) ↔ ns.sum = 8 * file.length := by
    constructor
    · rintro ⟨hm, hc⟩
      rw [hm] at hl; simp at hl; omega
    · intro h
      exact ⟨List.length_eq_zero_iff.1 (by omega), by omega⟩
  refine ⟨outs, s', e, b, w, f, ?_, ?_⟩
  · obtain ⟨bb, s1, a1, _, _, _, _, _, _, a8, _, _⟩ := atend_good g
    rw [a1, ← hiff]
    exact a8 (k.punctual.2 hP)
  · intro h w h1 h2
    obtain ⟨hm, hc⟩ := hiff.2 h
    subst hm
    rw [getbits, nextbits, if_neg (by omega), ensure, if_pos (by omega), fill_end g]

/-- Bytes, 16 bit fields and 32 bit fields lie in pages when they are aligned. -/
example : inPages 8 0 [8, 8, 16, 32, 32, 16, 8, 8] ∧ [8, 8, 16, 32, 32, 16, 8, 8].sum = 8 * (exampleFile.take 16).length :=
  ⟨by simp [inPages], by decide⟩

/-! ### What goes wrong at the end -/

/-- C93: an asynchronous file ends early. A file of 10 bytes through buffers of 5, when the answer to the second read has not come yet: after 5 bytes `eof()` is true and the next byte raises
an end of data; a read of 10 bytes gives 5. -/
theorem early_end_witness :
    numbers (run (create .async 5 [1, 2, 3, 4, 5, 6, 7, 8, 9, 10] (fun _ => 0) (fun _ => 0) (fun _ => false)) [.bits 8, .bits 32]) = [1, 0x02030405] ∧
    (run (create .async 5 [1, 2, 3, 4, 5, 6, 7, 8, 9, 10] (fun _ => 0) (fun _ => 0) (fun _ => false)) [.bits 8, .bits 32, .bits 8]).2.toOption.isNone = true ∧
    ((run (create .async 5 [1, 2, 3, 4, 5, 6, 7, 8, 9, 10] (fun _ => 0) (fun _ => 0) (fun _ => false)) [.bits 8, .bits 32]).2.toOption.map fun s => (atend s).1) =
      some true ∧
    (readBytes (create .async 5 [1, 2, 3, 4, 5, 6, 7, 8, 9, 10] (fun _ => 0) (fun _ => 0) (fun _ => false)) 10).toOption.map (·.1) = some [1, 2, 3, 4, 5] := by
  decide +kernel

/-- C93: a field that begins in the file and ends after it is filled up with zeros when it begins at a page boundary: 7 bytes, buffers of 5, a field of 32 bits at byte 5. -/
theorem zero_padding_witness :
    numbers (run (create .sync 5 [1, 2, 3, 4, 5, 6, 7] (fun _ => 0) (fun _ => 0) (fun _ => false)) [.bits 8, .bits 32, .bits 32]) = [1, 0x02030405, 0x06070000] := by
  decide +kernel

/-- C93: a read that leaves one, two or three bytes of a small file raises an end of data, although there are enough bytes: for every file that fits the buffer. -/
theorem read_leaves_few (kind : Kind) (size : Nat) (file : List Byte) (junk junk' : Mem) (sched : Nat → Bool) (h5 : 5 ≤ size) (hl : file.length ≤ size)
    (n : Nat) (h1 : 1 ≤ n) (h2 : n < file.length) (h3 : file.length ≤ n + 3) :
    readBytes (create kind size file junk junk' sched) n = .error .endOfData := by
  obtain ⟨mid, G, hf, ht, hc, hk, hsz, hs⟩ := create_good kind size file junk junk' sched h5
  have hb := base_length G.base
  rw [hf] at hb
  have hm : mid = [] := by
    by_contra hm
    have := G.base.full hm
    have : 0 < mid.length := List.length_pos_iff.2 hm
    rw [hsz] at *
    simp at hb; omega
  subst hm
  simp at hb
  obtain ⟨b, s1, a1, a2, a3, a4, a5, a6, a7, _, _, _⟩ := atend_good G
  have hbf : b = false := by
    cases b with
    | false => rfl
    | true => have := (a7 rfl).2.2; omega
  subst hbf
  have G1 := forward_good a2 (8 * n) (by rw [a5, a6]; omega)
  have e : nextbits (forward s1 (8 * n)) 32 = .error .endOfData := by
    rw [nextbits, if_neg (by omega), ensure, if_pos (by show s1.bufLen * 8 < s1.cur + 8 * n + 32; omega), fill_end G1]
  have er : readOnce s1 n = .error .endOfData := by
    rw [readOnce]; simp only; rw [if_pos (by omega)]
    show (match nextbits (forward s1 (8 * n)) 32 with | .error e => _ | .ok (_, s) => _) = _
    rw [e]
  rw [readBytes, readLoop, if_neg (by omega), a1]
  simp only [if_true, er]

example : (5 : Nat) ≤ 8 ∧ [(1 : Byte), 2, 3, 4, 5, 6, 7].length ≤ 8 ∧ 6 < [(1 : Byte), 2, 3, 4, 5, 6, 7].length := by decide

end Verif.FileReader
