import Verif.FileReader.LoopLemmas
import Mathlib.Data.List.Forall2

namespace Verif.FileReader
open Verif.BitStream (Byte Word Mem RErr bytesBits_length)
open Verif.BitStream.Spec (fieldBits bytesBits)
open Spec

/-! ### Calls one after another -/

/-- How far the calls reach, and that the end of the file is far enough away. -/
def fits (len t : Nat) : List Op → Prop
  | [] => True
  | .bits n :: ops => t + n + 32 ≤ 8 * len ∧ fits len (t + n) ops
  | .bytes n :: ops => t + 8 * n + 64 ≤ 8 * len ∧ fits len (t + 8 * n) ops

theorem inv_align {s : St} (H : Inv s) : s.tot % 8 = s.cur % 8 := by
  obtain ⟨pre, mid, G | B⟩ := H
  · have := G.base.tot; omega
  · have := B.base.tot; omega

/-- One call. -/
theorem step_inv {s : St} (H : Inv s) (op : Op) (t : Nat) (hok : ok t [op]) (hfit : fits s.file.length t [op]) (htot : s.tot ≤ t) (h8 : s.tot % 8 = t % 8) :
    (step s op = .error .endOfData ∧ ¬ Punctual s) ∨
    ∃ o s', step s op = .ok (o, s') ∧ Inv s' ∧ Keeps s s' ∧ s.tot ≤ s'.tot ∧ s'.tot ≤ t + asked [op] ∧ s'.tot % 8 = (t + asked [op]) % 8 ∧
      outBits o = ((bytesBits s.file).drop s.tot).take (s'.tot - s.tot) ∧ inWidth o ∧ (Punctual s → answers op o ∧ s'.tot = s.tot + asked [op]) := by
  cases op with
  | bits n =>
    obtain ⟨h1, h2, _⟩ := hok
    have hf : t + n + 32 ≤ 8 * s.file.length := hfit.1
    have ha : asked [.bits n] = n := by simp [asked]
    rw [ha]
    rcases getbits_inv H n h1 h2 (by omega) with ⟨e, np⟩ | ⟨x, s', e, i, k, t', b, w⟩
    · left; exact ⟨by rw [step, e], np⟩
    · right
      refine ⟨.word n x, s', by rw [step, e], i, k, by omega, by omega, by omega, ?_, w, fun _ => ⟨rfl, t'⟩⟩
      rw [t', show s.tot + n - s.tot = n by omega]; exact b
  | bytes n =>
    obtain ⟨h1, _⟩ := hok
    have hf : t + 8 * n + 64 ≤ 8 * s.file.length := hfit.1
    have ha : asked [.bytes n] = 8 * n := by simp [asked]
    rw [ha]
    have hc := inv_align H
    rcases readLoop_inv (n + 1) true s n (by omega) H (by omega) (by omega) with ⟨e, np⟩ | ⟨d, s', e, i, k, l, b, t', _, p⟩
    · left; exact ⟨by rw [step, readBytes, e], np⟩
    · right
      refine ⟨.data d, s', by rw [step, readBytes, e], i, k, by omega, by omega, by omega, ?_, trivial, fun hp => ⟨p hp, by rw [t', p hp]⟩⟩
      show bytesBits d = _
      rw [t', show s.tot + 8 * d.length - s.tot = 8 * d.length by omega]
      conv => lhs; rw [b, bytesBits_take, bytesBits_drop]
      rw [show 8 * (s.tot / 8) = s.tot by omega]

theorem run_inv : ∀ (ops : List Op) (s : St) (t : Nat), Inv s → ok t ops → fits s.file.length t ops → s.tot ≤ t → s.tot % 8 = t % 8 →
    (∃ l, (run s ops).1.flatMap outBits = ((bytesBits s.file).drop s.tot).take l ∧ (Punctual s → l = asked ops)) ∧ (∀ o ∈ (run s ops).1, inWidth o) ∧
    (((run s ops).2 = .error .endOfData ∧ ¬ Punctual s) ∨
      ∃ s', (run s ops).2 = .ok s' ∧ (run s ops).1.length = ops.length ∧ (Punctual s → List.Forall₂ answers ops (run s ops).1)) := by
  intro ops
  induction ops with
  | nil => intro s t _ _ _ _ _; exact ⟨⟨0, by simp [run], fun _ => rfl⟩, by simp [run], Or.inr ⟨s, rfl, rfl, fun _ => List.Forall₂.nil⟩⟩
  | cons op ops ih =>
    intro s t H hok hfit htot h8
    have hok1 : ok t [op] := by cases op <;> simp only [ok] at hok ⊢ <;> tauto
    have hok2 : ok (t + asked [op]) ops := by cases op <;> simp only [ok, asked, Nat.add_zero] at hok ⊢ <;> tauto
    have hfit1 : fits s.file.length t [op] := by cases op <;> simp only [fits] at hfit ⊢ <;> tauto
    have hfit2 : fits s.file.length (t + asked [op]) ops := by cases op <;> simp only [fits, asked, Nat.add_zero] at hfit ⊢ <;> tauto
    have hask : asked (op :: ops) = asked [op] + asked ops := by cases op <;> simp [asked]
    rcases step_inv H op t hok1 hfit1 htot h8 with ⟨e, np⟩ | ⟨o, s', e, i, k, t1, t2, t3, b, w, p⟩
    · have hr : run s (op :: ops) = ([], .error .endOfData) := by rw [run, e]
      rw [hr]
      exact ⟨⟨0, by simp, fun hp => absurd hp np⟩, by simp, Or.inl ⟨rfl, np⟩⟩
    · have hr : run s (op :: ops) = (o :: (run s' ops).1, (run s' ops).2) := by rw [run, e]
      obtain ⟨⟨l, hl, hlp⟩, hw, hend⟩ := ih s' (t + asked [op]) i hok2 (by rw [k.file]; exact hfit2) t2 t3
      rw [hr]
      refine ⟨⟨(s'.tot - s.tot) + l, ?_, ?_⟩, ?_, ?_⟩
      · simp only [List.flatMap_cons]
        rw [b, hl, k.file, List.take_add, List.drop_drop, show s.tot + (s'.tot - s.tot) = s'.tot by omega]
      · intro hp
        rw [hlp (k.punctual.2 hp), hask, (p hp).2]; omega
      · intro o' ho
        rcases List.mem_cons.1 ho with rfl | ho
        · exact w
        · exact hw o' ho
      · rcases hend with ⟨e2, np⟩ | ⟨s2, e2, len, f⟩
        · exact Or.inl ⟨e2, fun hp => np (k.punctual.2 hp)⟩
        · exact Or.inr ⟨s2, e2, by simp [len], fun hp => List.Forall₂.cons (p hp).1 (f (k.punctual.2 hp))⟩

theorem fits_of_asked (len : Nat) : ∀ (ops : List Op) (t : Nat), t + asked ops + 64 ≤ 8 * len → fits len t ops := by
  intro ops
  induction ops with
  | nil => intro _ _; trivial
  | cons op ops ih =>
    intro t h
    cases op with
    | bits n => simp only [asked] at h; exact ⟨by omega, ih _ (by omega)⟩
    | bytes n => simp only [asked] at h; exact ⟨by omega, ih _ (by omega)⟩

theorem fits_fields (len : Nat) : ∀ (ns : List Nat) (t : Nat), t + ns.sum + 32 ≤ 8 * len → fits len t (ns.map .bits) := by
  intro ns
  induction ns with
  | nil => intro _ _; trivial
  | cons n ns ih =>
    intro t h
    simp only [List.sum_cons] at h
    exact ⟨by omega, ih _ (by omega)⟩

theorem ok_fields (ns : List Nat) (h : ∀ n ∈ ns, 1 ≤ n ∧ n ≤ 32) (t : Nat) : ok t (ns.map .bits) := by
  induction ns generalizing t with
  | nil => trivial
  | cons n ns ih => exact ⟨(h n (by simp)).1, (h n (by simp)).2, ih (fun m hm => h m (by simp [hm])) _⟩

theorem asked_fields (ns : List Nat) : asked (ns.map .bits) = ns.sum := by
  induction ns with
  | nil => rfl
  | cons n ns ih => simp [asked, ih]

/-! ### C53 -/

/-- C53 (partial: calls that end at least 8 bytes before the end of the file). Whatever is asked for, and whenever the answers of the disk come: what a program gets is the
beginning of the file. The calls can only be cut short by an early end of data. -/
theorem file_prefix_partial (kind : Kind) (size : Nat) (file : List Byte) (junk junk' : Mem) (sched : Nat → Bool) (ops : List Op) (h5 : 5 ≤ size)
    (hok : ok 0 ops) (hfit : asked ops + 64 ≤ 8 * file.length) :
    (run (create kind size file junk junk' sched) ops).1.flatMap outBits <+: bytesBits file ∧
    (∀ o ∈ (run (create kind size file junk junk' sched) ops).1, inWidth o) ∧
    ((run (create kind size file junk junk' sched) ops).2 = .error .endOfData ∨
      (run (create kind size file junk junk' sched) ops).1.length = ops.length) := by
  obtain ⟨mid, G, hf, ht, _⟩ := create_good kind size file junk junk' sched h5
  obtain ⟨⟨l, hl, _⟩, hw, he⟩ := run_inv ops _ 0 ⟨[], mid, Or.inl G⟩ hok (by rw [hf]; exact fits_of_asked _ _ _ (by omega)) (by omega) (by omega)
  refine ⟨?_, hw, ?_⟩
  · rw [hl, hf, ht, List.drop_zero]; exact List.take_prefix _ _
  · rcases he with he | ⟨_, _, he, _⟩
    · exact Or.inl he.1
    · exact Or.inr he

/-- C53 (partial: as before). When the answers come in time, in particular for synchronous files, every call is answered, in full. -/
theorem file_read_partial (kind : Kind) (size : Nat) (file : List Byte) (junk junk' : Mem) (sched : Nat → Bool) (ops : List Op) (h5 : 5 ≤ size)
    (hp : Spec.Punctual kind sched) (hok : ok 0 ops) (hfit : asked ops + 64 ≤ 8 * file.length) :
    (run (create kind size file junk junk' sched) ops).1.flatMap outBits = (bytesBits file).take (asked ops) ∧
    (∀ o ∈ (run (create kind size file junk junk' sched) ops).1, inWidth o) ∧
    List.Forall₂ answers ops (run (create kind size file junk junk' sched) ops).1 := by
  obtain ⟨mid, G, hf, ht, _, hk, _, hs⟩ := create_good kind size file junk junk' sched h5
  have hP : Punctual (create kind size file junk junk' sched) := by rw [Punctual, hk, hs]; exact hp
  obtain ⟨⟨l, hl, hlp⟩, hw, he⟩ := run_inv ops _ 0 ⟨[], mid, Or.inl G⟩ hok (by rw [hf]; exact fits_of_asked _ _ _ (by omega)) (by omega) (by omega)
  refine ⟨?_, hw, ?_⟩
  · rw [hl, hf, ht, List.drop_zero, hlp hP]
  · rcases he with he | ⟨_, _, _, he⟩
    · exact absurd hP he.2
    · exact he hP

/-- C53 (partial: fields that end at least 4 bytes before the end of the file). -/
theorem file_fields_partial (kind : Kind) (size : Nat) (file : List Byte) (junk junk' : Mem) (sched : Nat → Bool) (ns : List Nat) (h5 : 5 ≤ size)
    (hp : Spec.Punctual kind sched) (hn : ∀ n ∈ ns, 1 ≤ n ∧ n ≤ 32) (hfit : ns.sum + 32 ≤ 8 * file.length) :
    (run (create kind size file junk junk' sched) (ns.map .bits)).1.flatMap outBits = (bytesBits file).take ns.sum ∧
    (∀ o ∈ (run (create kind size file junk junk' sched) (ns.map .bits)).1, inWidth o) ∧
    List.Forall₂ answers (ns.map .bits) (run (create kind size file junk junk' sched) (ns.map .bits)).1 := by
  obtain ⟨mid, G, hf, ht, _, hk, _, hs⟩ := create_good kind size file junk junk' sched h5
  have hP : Punctual (create kind size file junk junk' sched) := by rw [Punctual, hk, hs]; exact hp
  obtain ⟨⟨l, hl, hlp⟩, hw, he⟩ := run_inv (ns.map .bits) _ 0 ⟨[], mid, Or.inl G⟩ (ok_fields ns hn 0) (by rw [hf]; exact fits_fields _ _ _ (by omega)) (by omega) (by omega)
  refine ⟨?_, hw, ?_⟩
  · rw [hl, hf, ht, List.drop_zero, hlp hP, asked_fields]
  · rcases he with he | ⟨_, _, _, he⟩
    · exact absurd hP he.2
    · exact he hP

/-- A file of 20 bytes through buffers of 5: fields that lie across the buffers, and bytes. -/
def exampleFile : List Byte := (List.range 20).map (fun i => BitVec.ofNat 8 (17 * i + 1))
example : ok 0 [.bits 4, .bits 12, .bits 24, .bits 8, .bytes 3, .bits 24] ∧ asked [.bits 4, .bits 12, .bits 24, .bits 8, .bytes 3, .bits 24] + 64 ≤ 8 * exampleFile.length ∧
    Spec.Punctual .sync (fun _ => false) := ⟨by simp [ok], by decide, Or.inl rfl⟩

/-- The numbers that are read. -/
def numbers (r : List Out × Except RErr St) : List Nat :=
  r.1.flatMap fun | .word _ x => [x.toNat] | .data d => d.map (·.toNat)

/-- C53: in the last bytes the reader gives wrong data. A file of 9 bytes through buffers of 5: the last byte of the file, 9, is read as 6, the first byte that was in the shadow
buffer. -/
theorem last_bytes_witness : numbers (run (create .sync 5 [1, 2, 3, 4, 5, 6, 7, 8, 9] (fun _ => 0) (fun _ => 0) (fun _ => false)) [.bits 24, .bits 24, .bits 16, .bits 8]) =
    [0x010203, 0x040506, 0x0708, 6] := by decide +kernel

end Verif.FileReader
