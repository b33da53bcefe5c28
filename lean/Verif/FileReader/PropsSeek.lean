import Verif.FileReader.SeekLemmas

namespace Verif.FileReader
open Verif.BitStream (Byte Word Mem RErr bytesBits_length)
open Verif.BitStream.Spec (fieldBits bytesBits)
open Spec

/-! ### Calls one after another -/

/-- One call. -/
theorem call_inv {s : St} (H : Inv s) (hp : Punctual s) (c : Call) (hc : proper s.size s.tot c) (hfit : after s.tot c + 64 ≤ 8 * s.file.length) :
    ∃ o s', call s c = .ok (o, s') ∧ Inv s' ∧ Keeps s s' ∧ s'.tot = after s.tot c ∧
      ∀ cs rest, answered s.file (after s.tot c) cs rest → answered s.file s.tot (c :: cs) (o ++ rest) := by
  have hal := inv_align H
  cases c with
  | bits n =>
    obtain ⟨h1, h2⟩ := hc
    have hf : s.tot + n + 64 ≤ 8 * s.file.length := hfit
    rcases getbits_inv H n h1 h2 (by omega) with ⟨_, np⟩ | ⟨x, s', e, i, k, t, b, w⟩
    · exact absurd hp np
    · refine ⟨[.word n x], s', by simp only [call, step, e, gave], i, k, t, fun cs rest ha => ?_⟩
      exact ⟨x, rest, rfl, b, w, ha⟩
  | bytes n =>
    have hf : s.tot + 8 * n + 64 ≤ 8 * s.file.length := hfit
    have h8 : s.tot % 8 = 0 := hc
    rcases readLoop_inv (n + 1) true s n (by omega) H (by omega) (by omega) with ⟨_, np⟩ | ⟨d, s', e, i, k, l, b, t, _, p⟩
    · exact absurd hp np
    · have hd := p hp
      refine ⟨[.data d], s', by simp only [call, step, readBytes, e, gave], i, k, by rw [t, hd]; rfl, fun cs rest ha => ?_⟩
      exact ⟨d, rest, rfl, by rw [hd] at b; exact b, ha⟩
  | seek q =>
    obtain ⟨h8, h32⟩ := hc
    have hf : 8 * q + 64 ≤ 8 * s.file.length := hfit
    obtain ⟨s', e, i, k, t⟩ := seek_inv H hp (by omega) q (by omega) (fun _ => h32)
    exact ⟨[], s', by simp only [call, e, moved], i, k, t, fun cs rest ha => ha⟩
  | skip n =>
    obtain ⟨s', e, i, k, t⟩ := skip_inv H hp n hc hfit
    exact ⟨[], s', by simp only [call, e, moved], i, k, t, fun cs rest ha => ha⟩
  | skipBytes n =>
    obtain ⟨s', e, i, k, t⟩ := skipLoop_inv (8 * n + 1) s (8 * n) (by omega) H hp hfit
    exact ⟨[], s', by simp only [call, skipBytes, e, moved], i, k, t, fun cs rest ha => ha⟩
  | align n =>
    obtain ⟨s', e, i, k, t⟩ := align_inv H hp n hc.1 hc.2 hfit
    exact ⟨[], s', by simp only [call, e, moved], i, k, t, fun cs rest ha => ha⟩

theorem calls_inv : ∀ (cs : List Call) (s : St), Inv s → Punctual s → allProper s.size s.file.length s.tot cs →
    ∃ outs s', calls s cs = (outs, .ok s') ∧ Inv s' ∧ s'.tot = afterAll s.tot cs ∧ answered s.file s.tot cs outs := by
  intro cs
  induction cs with
  | nil => intro s H _ _; exact ⟨[], s, rfl, H, rfl, rfl⟩
  | cons c cs ih =>
    intro s H hp h
    obtain ⟨h1, h2, h3⟩ := h
    obtain ⟨o, s1, e, i, k, t, ha⟩ := call_inv H hp c h1 h2
    obtain ⟨outs, s2, e2, i2, t2, a2⟩ := ih s1 i (k.punctual.2 hp) (by rw [k.size, k.file, t]; exact h3)
    refine ⟨o ++ outs, s2, by simp only [calls, e, e2], i2, by rw [t2, t]; rfl, ha cs outs ?_⟩
    rw [k.file, t] at a2; exact a2

/-! ### C94 -/

/-- C94 (partial: calls that end at least 8 bytes before the end of the file, at positions below 4 GB, `set_position` at byte boundaries, skips of less than a buffer, answers of the disk in
time). Any sequence of reads and moves gives what the file has at the position the calls lead to, and `get_position` gives that position. -/
theorem moves_partial (kind : Kind) (size : Nat) (file : List Byte) (junk junk' : Mem) (sched : Nat → Bool) (cs : List Call) (h5 : 5 ≤ size)
    (hp : Spec.Punctual kind sched) (hc : allProper size file.length 0 cs) :
    ∃ outs s', calls (create kind size file junk junk' sched) cs = (outs, .ok s') ∧ answered file 0 cs outs ∧ position s' = afterAll 0 cs / 8 := by
  obtain ⟨mid, G, hf, ht, _, hk, hsz, hs⟩ := create_good kind size file junk junk' sched h5
  have hP : Punctual (create kind size file junk junk' sched) := by rw [Punctual, hk, hs]; exact hp
  obtain ⟨outs, s', e, _, t, a⟩ := calls_inv cs _ ⟨[], mid, Or.inl G⟩ hP (by rw [hf, ht, hsz]; exact hc)
  rw [hf, ht] at a
  rw [ht] at t
  exact ⟨outs, s', e, a, by rw [position, t]⟩

/-- 40 bytes through buffers of 5. -/
def exampleCalls : List Call := [.bits 3, .align 16, .seek 20, .bytes 2, .skip 37, .bits 11, .seek 1, .skipBytes 9, .bytes 7]

example : allProper 5 40 0 exampleCalls := by simp [exampleCalls, allProper, proper, after]

/-- The size of the buffers when the program does not choose one (8 KB, bitstream.h 48) allows every argument of `skipbits`. -/
example (n : Nat) (h : n < 2 ^ 16) (t : Nat) : proper 8192 t (.skip n) := by show n < 8 * 8192; omega

/-- C94 (partial: as before for the position). After moving to any place in the file, the rest of the file can be read up to its last byte. -/
theorem seek_rest_partial (kind : Kind) (size : Nat) (file : List Byte) (junk junk' : Mem) (sched : Nat → Bool) (h5 : 5 ≤ size)
    (hp : Spec.Punctual kind sched) (p n : Nat) (hle : p ≤ file.length) (h32 : p < 2 ^ 32) (hn : file.length ≤ p + n) :
    ∃ s' s'', seek (create kind size file junk junk' sched) p = .ok s' ∧ position s' = p ∧ readBytes s' n = .ok (file.drop p, s'') ∧ position s'' = file.length := by
  obtain ⟨mid, G, hf, ht, hc, hk, hsz, hs⟩ := create_good kind size file junk junk' sched h5
  have hP : Punctual (create kind size file junk junk' sched) := by rw [Punctual, hk, hs]; exact hp
  obtain ⟨m, k, q, t, h1, h2, _, h4⟩ := look_good G
  have hn' : (look (create kind size file junk junk' sched)).pending = none := by rw [h1]; exact h4 hP
  have hK : Keeps (create kind size file junk junk' sched) (look (create kind size file junk junk' sched)) := ⟨by rw [h1], by rw [h1], by rw [h1], by rw [h1]⟩
  obtain ⟨s', e, ⟨pre', mid', g⟩, k', t', c'⟩ := seekMoved_good h2 hn' (hK.punctual.2 hP) (by rw [h1, hc]) p (by rw [hK.file, hf]; exact hle) (fun _ => h32)
  have hfile : s'.file = file := by rw [k'.file, hK.file, hf]
  obtain ⟨s2, pre2, mid2, e2, g2, k2, t2⟩ := readLoop_end (n + 1) true s' n pre' mid' (by omega) g ((hK.trans k').punctual.2 hP) c' (by rw [hfile, t']; omega)
  refine ⟨s', s2, by rw [seek_none hn', e], by rw [position, t']; omega, ?_, by rw [position, t2, hfile]; omega⟩
  rw [readBytes, e2, hfile, t', show 8 * p / 8 = p by omega]

example : (17 : Nat) ≤ exampleFile.length ∧ exampleFile.length ≤ 17 + 3 := by decide

/-! ### What goes wrong -/

theorem reload_tot (s : St) (t : Nat) : reload (atTot s t) = atTot (reload s) t := by
  obtain ⟨u, hu⟩ : ∃ u, u = wait s := ⟨_, rfl⟩
  obtain ⟨v, hv⟩ : ∃ v : St, v = { u with bufLen := 0, shadowLen := 0, cur := 0, loadShadow := false } := ⟨_, rfl⟩
  have e1 : reload (atTot s t) = internalRead { internalRead (atTot v t) u.size false with loadShadow := true } (internalRead (atTot v t) u.size false).size true := by
    rw [reload_eq, wait_tot, ← hu, hv]; rfl
  have e2 : reload s = internalRead { internalRead v u.size false with loadShadow := true } (internalRead v u.size false).size true := by
    rw [reload_eq, ← hu, hv]
  rw [e1, e2, internalRead_tot]
  generalize internalRead v u.size false = w
  exact internalRead_tot { w with loadShadow := true } t w.size true

/-- C94: positions of 4 GB and more. The position a synchronous file is moved to is cut to 32 bits: `get_position` gives the position asked for, but what is read comes from 4 GB before it
(for every file and every position that is not in the first two buffers). -/
theorem far_seek_witness (size : Nat) (file : List Byte) (junk junk' : Mem) (sched : Nat → Bool) (h5 : 5 ≤ size) (p : Nat) (h32 : 2 ^ 32 ≤ p) (hs : 2 * size ≤ p)
    (hlen : p < file.length) :
    ∃ s' x s'', seek (create .sync size file junk junk' sched) p = .ok s' ∧ position s' = p ∧ getbits s' 8 = .ok (x, s'') ∧
      fieldBits x 8 = ((bytesBits file).drop (8 * (p % 2 ^ 32))).take 8 := by
  obtain ⟨mid, G, hf, ht, hc, hk, hsz, hsc⟩ := create_good .sync size file junk junk' sched h5
  have hP : Punctual (create .sync size file junk junk' sched) := Or.inl hk
  obtain ⟨m, k, q, t, h1, h2, _, h4⟩ := look_good G
  obtain ⟨u, hu⟩ : ∃ u, u = look (create .sync size file junk junk' sched) := ⟨_, rfl⟩
  rw [← hu] at h1 h2
  have hn' : u.pending = none := by rw [h1]; exact h4 hP
  have huf : u.file = file := by rw [h1]; exact hf
  have huk : u.kind = .sync := by rw [h1]; exact hk
  have hus : u.size = size := by rw [h1]; exact hsz
  obtain ⟨p1, p2, p3, p4, p5⟩ := good_pos h2 hn'
  have hbl := h2.base.len
  rw [huf] at p5
  have hpm : p % 2 ^ 32 < file.length := by omega
  obtain ⟨v, hv⟩ : ∃ v : St, v = { u with pos := p % 2 ^ 32, feof := false, tot := 8 * (p % 2 ^ 32) } := ⟨_, rfl⟩
  have hseek : seek (create .sync size file junk junk' sched) p = .ok (atTot (reload v) (8 * p)) := by
    rw [seek_none (by rw [← hu]; exact hn'), ← hu, seekMoved]
    simp only
    rw [if_neg (by rintro ⟨h, _⟩; simp only [List.length_nil] at p1; omega), if_neg (by rintro ⟨a, b⟩; have := p5 a; omega), if_neg (by simp)]
    have e : ({ storageSeek u p with tot := 8 * p } : St) = atTot v (8 * p) := by
      have e1 : storageSeek u p = { u with pos := p % 2 ^ 32, feof := false } := by simp only [storageSeek, huk]
      rw [e1, hv]; rfl
    rw [e, reload_tot]
  obtain ⟨mid', g, k', t', c'⟩ := reload_good v (by rw [hv]; exact hus ▸ h5) (by rw [hv]; show p % 2 ^ 32 ≤ u.file.length; rw [huf]; omega) (by rw [hv]) (by rw [hv]; exact fun _ => rfl)
  have hvf : (reload v).file = file := by rw [k'.file, hv]; exact huf
  have hvt : (reload v).tot = 8 * (p % 2 ^ 32) := by rw [t', hv]
  have hvP : Punctual (reload v) := Or.inl (by rw [k'.kind, hv]; exact huk)
  rcases nextbits_good g 8 (by omega) (by omega) (by rw [hvt, hvf]; omega) with ⟨_, np⟩ | ⟨x, s2, _, _, e2, _, _, _, _, b, _⟩
  · exact absurd hvP np
  · refine ⟨_, x, { atTot s2 (8 * p) with cur := s2.cur + 8, tot := 8 * p + 8 }, hseek, by rw [position]; show 8 * p / 8 = p; omega, ?_, ?_⟩
    · rw [getbits, nextbits_tot, e2]; rfl
    · rw [b, hvf, hvt]

example : (2 ^ 32 ≤ 2 ^ 32 + 7) ∧ 2 * 8192 ≤ 2 ^ 32 + 7 ∧ 2 ^ 32 + 7 < (List.replicate (2 ^ 32 + 100) (0 : Byte)).length := by
  rw [List.length_replicate]; omega

/-- The numbers that are read and the position after that, if there was no exception. -/
def readings (r : List Out × Except SErr St) : List Nat × Except SErr Nat :=
  (numbers (r.1, .error .ub), match r.2 with | .ok s => .ok (position s) | .error e => .error e)

/-- The bytes 1, 2, 3, ... -/
def counting (n : Nat) : List Byte := (List.range n).map (fun i => BitVec.ofNat 8 (i + 1))

/-- C94: after a field that ends inside a byte, moving to a byte of the buffer moves to the middle of the byte. -/
theorem unaligned_seek_witness :
    readings (calls (create .sync 5 (counting 40) (fun _ => 0) (fun _ => 0) (fun _ => false)) [.bits 4, .seek 2, .bits 8]) = ([0, 0x30], .ok 3) := by decide +kernel

/-- C94: an asynchronous file whose answer is late: moving to byte 8, which contains 9, moves to byte 5. -/
theorem late_seek_witness :
    readings (calls (create .async 5 (counting 40) (fun _ => 0) (fun _ => 0) (fun _ => false)) [.bits 24, .bits 24, .seek 8, .bits 8]) =
      ([0x010203, 0x040506, 6], .ok 6) := by decide +kernel

/-- C94: moving past the end of a file whose last bytes are not in the buffer yet; the next field then uses memory before the buffer. -/
theorem past_end_witness :
    readings (calls (create .sync 5 (counting 7) (fun _ => 0) (fun _ => 0) (fun _ => false)) [.seek 9, .bits 8]) = ([], .error (.reader .ub)) := by decide +kernel

/-- C94: a skip of more than both buffers goes twice as far: after skipping 10 bytes, byte 20 is read, which contains 21. -/
theorem long_skip_witness :
    readings (calls (create .sync 5 (counting 40) (fun _ => 0) (fun _ => 0) (fun _ => false)) [.skip 80, .bits 8]) = ([21], .ok 21) := by decide +kernel

/-- C94: skipping past the buffer of an asynchronous file whose answer is late ends with a time out, because the lock the answer needs is held. -/
theorem late_skip_witness :
    readings (calls (create .async 5 (counting 40) (fun _ => 0) (fun _ => 0) (fun _ => false)) [.skip 48, .bits 8]) = ([], .error .timeout) := by decide +kernel

end Verif.FileReader
