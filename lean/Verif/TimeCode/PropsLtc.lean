import Mathlib.Tactic.IntervalCases
import Mathlib.Data.Nat.Bitwise
import Mathlib.Data.List.Induction
import Verif.TimeCode.Props
/-
C134: linear time code words are read. C135: bi-phase mark code is read.
-/
namespace Verif.TimeCode
open Verif.TimeCode.Spec

/-! ### the shift register -/

/-- All the bits of a list pushed. -/
def pushAll {L : Nat} (s : Shift L) (bits : List Bool) : Shift L := bits.foldl push s

/-- The number a list of bits continues. -/
def valFrom (r : Nat) (bits : List Bool) : Nat := bits.foldl (fun v b => 2 * v + b.toNat) r

theorem valFrom_append (r : Nat) (a b : List Bool) : valFrom r (a ++ b) = valFrom (valFrom r a) b := by
  simp [valFrom, List.foldl_append]

theorem valFrom_eq (bits : List Bool) : ∀ r, valFrom r bits = r * 2 ^ bits.length + valFrom 0 bits := by
  induction bits with
  | nil => intro r; simp [valFrom]
  | cons b bs ih =>
    intro r
    have h1 := ih (2 * r + b.toNat)
    have h2 := ih (2 * 0 + b.toNat)
    simp only [valFrom, List.foldl_cons, List.length_cons] at *
    rw [h1, h2, Nat.pow_succ]
    ring

theorem valFrom_lt (bits : List Bool) : valFrom 0 bits < 2 ^ bits.length := by
  induction bits with
  | nil => simp [valFrom]
  | cons b bs ih =>
    have h : valFrom 0 (b :: bs) = b.toNat * 2 ^ bs.length + valFrom 0 bs := by
      rw [← valFrom_eq]; simp [valFrom]
    rw [h, List.length_cons, Nat.pow_succ]
    cases b <;> simp <;> omega

/-- a group of bits can be taken out of the number -/
theorem valFrom_field (r : Nat) (p t q : List Bool) : valFrom r (p ++ t ++ q) / 2 ^ q.length % 2 ^ t.length = valFrom 0 t := by
  rw [valFrom_append, valFrom_eq q, Nat.mul_comm, Nat.mul_add_div (by positivity), Nat.div_eq_of_lt (valFrom_lt q), Nat.add_zero,
    valFrom_append, valFrom_eq t, Nat.mul_comm, Nat.mul_add_mod, Nat.mod_eq_of_lt (valFrom_lt t)]

/-- what the three registers hold after a number of bits -/
structure Rel {L : Nat} (s : Shift L) (r : Nat) : Prop where
  check : s.check.toNat = r % 2 ^ 16
  two : s.two.toNat % 2 ^ 32 = r / 2 ^ 16 % 2 ^ 32
  one : s.one.toNat % 2 ^ 32 = r / 2 ^ 48 % 2 ^ 32

theorem top_bit {L : Nat} (k : Nat) (hk : k < L) (x : BitVec L) :
    (BitVec.ofNat L (2 ^ k) &&& x ≠ 0) ↔ x.toNat / 2 ^ k % 2 = 1 := by
  have h : (BitVec.ofNat L (2 ^ k) &&& x).toNat = 2 ^ k * (x.toNat / 2 ^ k % 2) := by
    rw [BitVec.toNat_and, BitVec.toNat_ofNat, Nat.mod_eq_of_lt (Nat.pow_lt_pow_right (by decide) hk), Nat.two_pow_and,
      Nat.testBit_eq_decide_div_mod_eq]
    rcases Nat.mod_two_eq_zero_or_one (x.toNat / 2 ^ k) with h | h <;> simp [h]
  rw [ne_eq, ← BitVec.toNat_inj, h]
  have := Nat.two_pow_pos k
  rcases Nat.mod_two_eq_zero_or_one (x.toNat / 2 ^ k) with h | h <;> simp [h]

theorem shift_in {L : Nat} (hL : 1 < L) (x : BitVec L) (p : Prop) [Decidable p] :
    ((x <<< 1) ||| (if p then 1 else 0)).toNat = (2 * x.toNat + if p then 1 else 0) % 2 ^ L := by
  have h1 : (1 : BitVec L).toNat = 1 := by simp [BitVec.toNat_ofNat, Nat.mod_eq_of_lt (Nat.one_lt_two_pow (by omega : L ≠ 0))]
  have e : 2 ^ L = 2 * 2 ^ (L - 1) := by rw [← Nat.pow_succ']; congr 1; omega
  rw [BitVec.toNat_or, BitVec.toNat_shiftLeft, Nat.shiftLeft_eq]
  split
  · rw [h1, e]
    have h3 : x.toNat * 2 ^ 1 % (2 * 2 ^ (L - 1)) = 2 * (x.toNat % 2 ^ (L - 1)) := by
      rw [Nat.pow_one, Nat.mul_comm, Nat.mul_mod_mul_left]
    rw [h3]
    have h4 := or_add (x.toNat % 2 ^ (L - 1)) 1 1 (by decide)
    rw [Nat.pow_one, Nat.mul_comm] at h4
    rw [h4]
    have e3 := Nat.div_add_mod x.toNat (2 ^ (L - 1))
    have e4 := Nat.mod_lt x.toNat (Nat.two_pow_pos (L - 1))
    have e5 : 2 * x.toNat + 1 = 2 * (x.toNat % 2 ^ (L - 1)) + 1 + 2 * 2 ^ (L - 1) * (x.toNat / 2 ^ (L - 1)) := by
      conv => lhs; rw [← e3]
      ring
    have e6 := congrArg (· % (2 * 2 ^ (L - 1))) e5
    simp only [Nat.add_mul_mod_self_left] at e6
    rw [e6]
    generalize x.toNat % 2 ^ (L - 1) = a at e4 ⊢
    generalize 2 ^ (L - 1) = b at e4 ⊢
    rw [Nat.mod_eq_of_lt (by omega)]
  · simp [Nat.mul_comm]

theorem push_rel {L : Nat} (hL : 32 ≤ L) (s : Shift L) (r : Nat) (h : Rel s r) (b : Bool) : Rel (push s b) (2 * r + b.toNat) := by
  have hd : 2 ^ 32 ∣ 2 ^ L := Nat.pow_dvd_pow 2 hL
  have c1 := (top_bit 15 (by decide : 15 < 16) s.check)
  have c2 := (top_bit 31 (by omega : 31 < L) s.two)
  have m2 : s.two.toNat / 2 ^ 31 % 2 = s.two.toNat % 2 ^ 32 / 2 ^ 31 := by omega
  obtain ⟨h1, h2, h3⟩ := h
  have hb : (if b = true then 1 else 0) = b.toNat := by cases b <;> rfl
  constructor
  · simp only [push]
    rw [shift_in (by decide)]
    rw [hb, h1]; omega
  · simp only [push]
    rw [shift_in (by omega), Nat.mod_mod_of_dvd _ hd]
    simp only [show (0x8000#16 : BitVec 16) = BitVec.ofNat 16 (2 ^ 15) from rfl, c1, h1]
    cases b <;> simp only [Bool.toNat_true, Bool.toNat_false] <;> split <;> omega
  · simp only [push]
    rw [shift_in (by omega), Nat.mod_mod_of_dvd _ hd]
    simp only [show (BitVec.ofNat L 0x80000000) = BitVec.ofNat L (2 ^ 31) from rfl, c2, m2, h2]
    cases b <;> simp only [Bool.toNat_true, Bool.toNat_false] <;> split <;> omega

theorem pushAll_rel {L : Nat} (hL : 32 ≤ L) (bits : List Bool) : ∀ (s : Shift L) (r : Nat), Rel s r → Rel (pushAll s bits) (valFrom r bits) := by
  induction bits with
  | nil => intro s r h; exact h
  | cons b bs ih => intro s r h; exact ih _ _ (push_rel hL s r h b)

/-- every state of the registers is the state after some number -/
theorem exists_rel {L : Nat} (s : Shift L) : ∃ r, Rel s r := by
  have h1 := s.check.isLt
  have h2 : s.two.toNat % 2 ^ 32 < 2 ^ 32 := Nat.mod_lt _ (by decide)
  have h3 : s.one.toNat % 2 ^ 32 < 2 ^ 32 := Nat.mod_lt _ (by decide)
  refine ⟨(s.one.toNat % 2 ^ 32) * 2 ^ 48 + (s.two.toNat % 2 ^ 32) * 2 ^ 16 + s.check.toNat, ?_, ?_, ?_⟩ <;> omega

theorem field_val {L : Nat} (hL : 32 ≤ L) (mask shift w : Nat) (x : BitVec L) (hm : mask < 2 ^ 32) (h : mask >>> shift = 2 ^ w - 1)
    (hw : shift + w ≤ 32) (hw' : w ≤ 16) : field mask shift x = x.toNat % 2 ^ 32 / 2 ^ shift % 2 ^ w := by
  have h32 : 2 ^ 32 ≤ 2 ^ L := Nat.pow_le_pow_right (by decide) hL
  rw [field, BitVec.toNat_ushiftRight, BitVec.toNat_and, BitVec.toNat_ofNat, Nat.mod_eq_of_lt (Nat.lt_of_lt_of_le hm h32),
    Nat.shiftRight_and_distrib, h, Nat.and_comm, Nat.and_two_pow_sub_one_eq_mod, Nat.shiftRight_eq_div_pow]
  rw [Nat.mod_eq_of_lt (b := 2 ^ 16) (Nat.lt_of_lt_of_le (Nat.mod_lt _ (Nat.two_pow_pos w)) (Nat.pow_le_pow_right (by decide) hw'))]
  rw [show (32 : Nat) = shift + (32 - shift) by omega, Nat.pow_add, Nat.mod_mul_right_div_self]
  rw [Nat.mod_mod_of_dvd _ (Nat.pow_dvd_pow 2 (by omega : w ≤ 32 - shift))]

theorem low_length (n w : Nat) : (low n w).length = w := by simp [low]

/-- a field of a word: where it lies -/
structure At (l x : List Bool) (before behind : Nat) : Prop where
  split : ∃ p q, l = p ++ x ++ q ∧ p.length = before ∧ q.length = behind

theorem sync_length : sync.length = 16 := rfl

/-- The groups of bits of a word. -/
def groups (t : TC) (e : Extra) : List (List Bool) :=
  [low (t.frames % 10) 4, low (e.user 0) 4, low (t.frames / 10) 2, [e.flags 0, e.flags 1], low (e.user 1) 4,
   low (t.seconds % 10) 4, low (e.user 2) 4, low (t.seconds / 10) 3, [e.flags 2], low (e.user 3) 4,
   low (t.minutes % 10) 4, low (e.user 4) 4, low (t.minutes / 10) 3, [e.flags 3], low (e.user 5) 4,
   low (t.hours % 10) 4, low (e.user 6) 4, low (t.hours / 10) 2, [e.flags 4, e.flags 5], low (e.user 7) 4, sync]

theorem flat21 (l0 l1 l2 l3 l4 l5 l6 l7 l8 l9 l10 l11 l12 l13 l14 l15 l16 l17 l18 l19 l20 : List Bool) :
    l0 ++ l1 ++ l2 ++ l3 ++ l4 ++ l5 ++ l6 ++ l7 ++ l8 ++ l9 ++ l10 ++ l11 ++ l12 ++ l13 ++ l14 ++ l15 ++ l16 ++ l17 ++ l18 ++ l19 ++ l20 =
    [l0, l1, l2, l3, l4, l5, l6, l7, l8, l9, l10, l11, l12, l13, l14, l15, l16, l17, l18, l19, l20].flatten := by
  simp only [List.flatten_cons, List.flatten_nil, List.append_nil, List.append_assoc]

theorem word_groups (t : TC) (e : Extra) : word t e = (groups t e).flatten := by
  unfold word groups
  exact flat21 _ _ _ _ _ _ _ _ _ _ _ _ _ _ _ _ _ _ _ _ _

theorem groups_lengths (t : TC) (e : Extra) :
    (groups t e).map List.length = [4, 4, 2, 2, 4, 4, 4, 3, 1, 4, 4, 4, 3, 1, 4, 4, 4, 2, 2, 4, 16] := by
  simp only [groups, List.map_cons, List.map_nil, low_length, List.length_cons, List.length_nil, sync_length]

theorem at_group (t : TC) (e : Extra) (i : Nat) (x : List Bool) (h : (groups t e)[i]? = some x) :
    At (word t e) x ([4, 4, 2, 2, 4, 4, 4, 3, 1, 4, 4, 4, 3, 1, 4, 4, 4, 2, 2, 4, 16].take i).sum
      ([4, 4, 2, 2, 4, 4, 4, 3, 1, 4, 4, 4, 3, 1, 4, 4, 4, 2, 2, 4, 16].drop (i + 1)).sum := by
  obtain ⟨hi, hx⟩ := List.getElem?_eq_some_iff.1 h
  refine ⟨⟨((groups t e).take i).flatten, ((groups t e).drop (i + 1)).flatten, ?_, ?_, ?_⟩⟩
  · rw [word_groups, ← hx]
    conv => lhs; rw [← List.take_append_drop i (groups t e), List.drop_eq_getElem_cons hi]
    rw [List.flatten_append, List.flatten_cons, List.append_assoc]
  · rw [List.length_flatten, List.map_take, groups_lengths]
  · rw [List.length_flatten, List.map_drop, groups_lengths]

theorem word_at (t : TC) (e : Extra) :
    At (word t e) (low (t.frames % 10) 4) 0 76 ∧
    At (word t e) (low (t.frames / 10) 2) 8 70 ∧
    At (word t e) (low (t.seconds % 10) 4) 16 60 ∧
    At (word t e) (low (t.seconds / 10) 3) 24 53 ∧
    At (word t e) (low (t.minutes % 10) 4) 32 44 ∧
    At (word t e) (low (t.minutes / 10) 3) 40 37 ∧
    At (word t e) (low (t.hours % 10) 4) 48 28 ∧
    At (word t e) (low (t.hours / 10) 2) 56 22 ∧
    At (word t e) (sync) 64 0 :=
  ⟨at_group t e 0 _ rfl, at_group t e 2 _ rfl, at_group t e 5 _ rfl, at_group t e 7 _ rfl, at_group t e 10 _ rfl,
   at_group t e 12 _ rfl, at_group t e 15 _ rfl, at_group t e 17 _ rfl, at_group t e 20 _ rfl⟩

theorem At.val {l x : List Bool} {b k : Nat} (h : At l x b k) (r : Nat) : valFrom r l / 2 ^ k % 2 ^ x.length = valFrom 0 x := by
  obtain ⟨p, q, rfl, _, rfl⟩ := h.split
  exact valFrom_field r p x q

theorem At.low {l : List Bool} {n w b k : Nat} (h : At l (low n w) b k) (r : Nat) : valFrom r l / 2 ^ k % 2 ^ w = valFrom 0 (low n w) := by
  have := h.val r
  rwa [low_length] at this

theorem At.get {l x : List Bool} {b k : Nat} (h : At l x b k) (i : Nat) (hi : i < x.length) : l.getD (b + i) false = x.getD i false := by
  obtain ⟨p, q, rfl, rfl, _⟩ := h.split
  simp only [List.getD_eq_getElem?_getD]
  rw [List.append_assoc, List.getElem?_append_right (by omega), Nat.add_sub_cancel_left, List.getElem?_append_left hi]

theorem At.getLow {l : List Bool} {n w b k : Nat} (h : At l (Spec.low n w) b k) (i : Nat) (hi : i < w) : l.getD (b + i) false = n.testBit i := by
  rw [h.get i (by rw [low_length]; exact hi)]
  simp [Spec.low, hi]

theorem units_back : ∀ d < 16, decodeUnits (valFrom 0 (low d 4)) = d := by decide
theorem six_back : ∀ d < 8, decode6Tens (valFrom 0 (low d 3)) = d := by decide
theorem three_back : ∀ d < 4, decode3Tens (valFrom 0 (low d 2)) = d := by decide

/-- C134: when the 80 bits of a word have come in, whatever came before, the register is found to hold a word, and the
time code of this word is read from it. -/
theorem word_read {L : Nat} (hL : 32 ≤ L) (s : Shift L) (t : TC) (e : Extra) (ht : Proper 30 t) :
    (pushAll s (word t e)).isValid = true ∧ getTimeCode (pushAll s (word t e)) = { t with nFrames := 25 } := by
  obtain ⟨r, hr⟩ := exists_rel s
  obtain ⟨h1, h2, h3⟩ := pushAll_rel hL (word t e) s r hr
  obtain ⟨p1, p2, p3, p4⟩ := ht
  obtain ⟨g0, g1, g2, g3, g4, g5, g6, g7, g8⟩ := word_at t e
  have A : ∀ n : Nat, ∀ b k w, b + k + w ≤ b + 32 → n / 2 ^ b % 2 ^ 32 / 2 ^ k % 2 ^ w = n / 2 ^ (b + k) % 2 ^ w := by
    intro n b k w hk
    rw [show (32 : Nat) = k + (32 - k) by omega, Nat.pow_add, Nat.mod_mul_right_div_self,
      Nat.mod_mod_of_dvd _ (Nat.pow_dvd_pow 2 (by omega : w ≤ 32 - k)), Nat.div_div_eq_div_mul, ← Nat.pow_add]
  constructor
  · simp only [Shift.isValid, decide_eq_true_eq]
    apply BitVec.eq_of_toNat_eq
    rw [h1]
    have := g8.val r
    rw [show valFrom 0 sync = 16381 by decide, show sync.length = 16 by decide, Nat.pow_zero, Nat.div_one] at this
    rw [this]; rfl
  · simp only [getTimeCode]
    rw [field_val hL 0x00C00000 22 2 _ (by decide) (by decide) (by decide) (by decide),
      field_val hL 0xF0000000 28 4 _ (by decide) (by decide) (by decide) (by decide),
      field_val hL 0x000000E0 5 3 _ (by decide) (by decide) (by decide) (by decide),
      field_val hL 0x0000F000 12 4 _ (by decide) (by decide) (by decide) (by decide),
      field_val hL 0x00E00000 21 3 _ (by decide) (by decide) (by decide) (by decide),
      field_val hL 0xF0000000 28 4 _ (by decide) (by decide) (by decide) (by decide),
      field_val hL 0x000000C0 6 2 _ (by decide) (by decide) (by decide) (by decide),
      field_val hL 0x0000F000 12 4 _ (by decide) (by decide) (by decide) (by decide), h2, h3,
      A _ 48 22 2 (by decide), A _ 48 28 4 (by decide), A _ 48 5 3 (by decide), A _ 48 12 4 (by decide),
      A _ 16 21 3 (by decide), A _ 16 28 4 (by decide), A _ 16 6 2 (by decide), A _ 16 12 4 (by decide)]
    rw [g0.low, g1.low, g2.low, g3.low, g4.low, g5.low, g6.low, g7.low, units_back _ (by omega), units_back _ (by omega), units_back _ (by omega), units_back _ (by omega),
      three_back _ (by omega), three_back _ (by omega), six_back _ (by omega), six_back _ (by omega)]
    cases t
    simp only [TC.mk.injEq, and_true]
    omega

/-! ### no word is found where there is none -/

theorem valFrom_testBit (bits : List Bool) : ∀ k, (valFrom 0 bits).testBit k = (decide (k < bits.length) && bits.getD (bits.length - 1 - k) false) := by
  induction bits using List.reverseRecOn with
  | nil => intro k; simp [valFrom]
  | append_singleton bs b ih =>
    intro k
    have h : valFrom 0 (bs ++ [b]) = 2 * valFrom 0 bs + b.toNat := by rw [valFrom_append]; simp [valFrom]
    rw [h]
    cases k with
    | zero =>
      rw [Nat.testBit_zero]
      cases b <;> simp [Nat.add_mod]
    | succ k =>
      rw [Nat.testBit_succ, show (2 * valFrom 0 bs + b.toNat) / 2 = valFrom 0 bs by cases b <;> simp <;> omega, ih]
      by_cases hk : k < bs.length
      · have h1 : (bs ++ [b]).length - 1 - (k + 1) = bs.length - 1 - k := by simp; omega
        rw [h1]
        have h2 : bs.length - 1 - k < bs.length := by omega
        simp only [List.getD_eq_getElem?_getD, List.getElem?_append_left h2, List.length_append, List.length_singleton]
        simp [hk]
      · simp [hk]

/-- the positions of a word that cannot all be ones -/
theorem word_zeros (t : TC) (e : Extra) (ht : Proper 30 t) :
    (∀ g < 8, ∃ i < 4, (word t e).getD (8 * g + i) false = false) ∧ (word t e).getD 64 false = false ∧
    (word t e).getD 65 false = false ∧ (word t e).getD 78 false = false := by
  obtain ⟨p1, p2, p3, p4⟩ := ht
  obtain ⟨g0, g1, g2, g3, g4, g5, g6, g7, g8⟩ := word_at t e
  have u : ∀ d < 10, ∃ i < 4, Nat.testBit d i = false := by decide
  have w3 : ∀ d < 6, ∃ i < 3, Nat.testBit d i = false := by decide
  have w2 : ∀ d < 3, ∃ i < 2, Nat.testBit d i = false := by decide
  refine ⟨?_, g8.get 0 (by decide), g8.get 1 (by decide), g8.get 14 (by decide)⟩
  intro g hg
  have four : ∀ d b k, At (word t e) (Spec.low d 4) b k → d < 10 → ∃ i < 4, (word t e).getD (b + i) false = false := by
    intro d b k h hd
    obtain ⟨i, hi, hz⟩ := u d hd
    exact ⟨i, hi, by rw [h.getLow i hi, hz]⟩
  have three : ∀ d b k, At (word t e) (Spec.low d 3) b k → d < 6 → ∃ i < 4, (word t e).getD (b + i) false = false := by
    intro d b k h hd
    obtain ⟨i, hi, hz⟩ := w3 d hd
    exact ⟨i, by omega, by rw [h.getLow i hi, hz]⟩
  have two : ∀ d b k, At (word t e) (Spec.low d 2) b k → d < 3 → ∃ i < 4, (word t e).getD (b + i) false = false := by
    intro d b k h hd
    obtain ⟨i, hi, hz⟩ := w2 d hd
    exact ⟨i, by omega, by rw [h.getLow i hi, hz]⟩
  have c : g = 0 ∨ g = 1 ∨ g = 2 ∨ g = 3 ∨ g = 4 ∨ g = 5 ∨ g = 6 ∨ g = 7 := by omega
  rcases c with rfl | rfl | rfl | rfl | rfl | rfl | rfl | rfl
  · exact four _ _ _ g0 (by omega)
  · exact two _ _ _ g1 (by omega)
  · exact four _ _ _ g2 (by omega)
  · exact three _ _ _ g3 (by omega)
  · exact four _ _ _ g4 (by omega)
  · exact three _ _ _ g5 (by omega)
  · exact four _ _ _ g6 (by omega)
  · exact two _ _ _ g7 (by omega)

theorem word_length (t : TC) (e : Extra) : (word t e).length = 80 := by
  obtain ⟨p, q, h, hp, hq⟩ := (word_at t e).1.split
  rw [h]; simp only [List.length_append, low_length, hp, hq]

/-- a bit of a sequence of words -/
theorem words_get (ws : List (TC × Extra)) : ∀ (q j : Nat) (w : TC × Extra), ws[q]? = some w → j < 80 →
    (ws.flatMap (fun w => word w.1 w.2))[80 * q + j]? = (word w.1 w.2)[j]? := by
  induction ws with
  | nil => intro q j w h; simp at h
  | cons x xs ih =>
    intro q j w h hj
    rw [List.flatMap_cons]
    cases q with
    | zero =>
      simp at h; subst h
      rw [List.getElem?_append_left (by rw [word_length]; omega)]
      simp
    | succ q =>
      rw [List.getElem?_append_right (by rw [word_length]; omega), word_length, show 80 * (q + 1) + j - 80 = 80 * q + j by omega]
      exact ih q j w (by simpa using h) hj

theorem words_length (ws : List (TC × Extra)) : (ws.flatMap (fun w => word w.1 w.2)).length = 80 * ws.length := by
  induction ws with
  | nil => rfl
  | cons x xs ih => rw [List.flatMap_cons, List.length_append, ih, word_length, List.length_cons]; omega

theorem words_take (ws : List (TC × Extra)) : ∀ q, (ws.flatMap (fun w => word w.1 w.2)).take (80 * q) = (ws.take q).flatMap (fun w => word w.1 w.2) := by
  induction ws with
  | nil => intro q; simp
  | cons x xs ih =>
    intro q
    cases q with
    | zero => simp
    | succ q =>
      rw [List.flatMap_cons, List.take_succ_cons, List.flatMap_cons, List.take_append, word_length,
        List.take_of_length_le (by rw [word_length]; omega), show 80 * (q + 1) - 80 = 80 * q by omega, ih]

/-- C134: from a sequence of words, read from the beginning with cleared registers, a word is found exactly when all its
80 bits have come in, and then its own time code is read. -/
theorem words_found {L : Nat} (hL : 32 ≤ L) (ws : List (TC × Extra)) (h : ∀ w ∈ ws, Proper 30 w.1) (n : Nat)
    (hn : n ≤ (ws.flatMap (fun w => word w.1 w.2)).length) :
    ((pushAll ({} : Shift L) ((ws.flatMap (fun w => word w.1 w.2)).take n)).isValid = true ↔ 0 < n ∧ n % 80 = 0) ∧
    ∀ (k : Nat) (w : TC × Extra), n = 80 * (k + 1) → ws[k]? = some w →
      getTimeCode (pushAll ({} : Shift L) ((ws.flatMap (fun w => word w.1 w.2)).take n)) = { w.1 with nFrames := 25 } := by
  have hlen := words_length ws
  have full : ∀ (k : Nat) (w : TC × Extra), n = 80 * (k + 1) → ws[k]? = some w →
      (pushAll ({} : Shift L) ((ws.flatMap (fun w => word w.1 w.2)).take n)).isValid = true ∧
      getTimeCode (pushAll ({} : Shift L) ((ws.flatMap (fun w => word w.1 w.2)).take n)) = { w.1 with nFrames := 25 } := by
    intro k w hk hw
    obtain ⟨hk', hw'⟩ := List.getElem?_eq_some_iff.1 hw
    rw [hk, words_take, List.take_succ_eq_append_getElem hk', hw', List.flatMap_append, List.flatMap_singleton,
      show ∀ a b, pushAll ({} : Shift L) (a ++ b) = pushAll (pushAll ({} : Shift L) a) b from fun a b => by simp [pushAll, List.foldl_append]]
    exact word_read hL _ w.1 w.2 (h w (by rw [← hw']; exact List.getElem_mem _))
  refine ⟨⟨?_, ?_⟩, fun k w hk hw => (full k w hk hw).2⟩
  · intro hv
    by_contra hcon
    obtain ⟨bits, hbits⟩ : ∃ b, b = (ws.flatMap (fun w => word w.1 w.2)).take n := ⟨_, rfl⟩
    have hbl : bits.length = n := by rw [hbits, List.length_take]; omega
    rw [← hbits] at hv
    simp only [Shift.isValid, decide_eq_true_eq] at hv
    have hr := (pushAll_rel hL bits ({} : Shift L) 0 ⟨by simp, by simp, by simp⟩).check
    rw [← hv] at hr
    have ones : ∀ k, 2 ≤ k → k ≤ 13 → k < n ∧ bits.getD (n - 1 - k) false = true := by
      intro k h2 h13
      have h1 := congrArg (fun v => Nat.testBit v k) hr
      simp only [Nat.testBit_mod_two_pow] at h1
      rw [valFrom_testBit] at h1
      have h3 : (0x3FFD#16).toNat.testBit k = true := by interval_cases k <;> decide
      rw [h3, hbl] at h1
      simp only [show decide (k < 16) = true by simp; omega, Bool.true_and] at h1
      have := h1.symm
      simpa using this
    have hn14 := (ones 13 (by decide) (by decide)).1
    have one : ∀ i, n - 14 ≤ i → i ≤ n - 3 → bits.getD i false = true := by
      intro i h1 h2
      have := (ones (n - 1 - i) (by omega) (by omega)).2
      rwa [show n - 1 - (n - 1 - i) = i by omega] at this
    have inw : ∀ q j, q < ws.length → j < 80 → 80 * q + j < n → ∃ w ∈ ws, bits.getD (80 * q + j) false = (word w.1 w.2).getD j false ∧
        ws[q]? = some w := by
      intro q j hq hj hi
      refine ⟨ws[q], List.getElem_mem _, ?_, List.getElem?_eq_getElem hq⟩
      rw [hbits]
      simp only [List.getD_eq_getElem?_getD, List.getElem?_take, if_pos hi]
      rw [words_get ws q j _ (List.getElem?_eq_getElem hq) hj]
    obtain ⟨q, j, rfl, hj⟩ : ∃ q j, n = 80 * q + j ∧ j < 80 := ⟨n / 80, n % 80, by omega, by omega⟩
    have hj0 : 0 < j := by
      rcases Nat.eq_zero_or_pos j with h0 | h0
      · exfalso; apply hcon; omega
      · exact h0
    have hq : q < ws.length := by omega
    by_cases c1 : j ≤ 12
    · have hq0 : 0 < q := by omega
      obtain ⟨w, hw, hb, _⟩ := inw (q - 1) 78 (by omega) (by decide) (by omega)
      have := one (80 * (q - 1) + 78) (by omega) (by omega)
      rw [hb, (word_zeros w.1 w.2 (h w hw)).2.2.2] at this
      simp at this
    by_cases c2 : j ≤ 70
    · obtain ⟨w, hw, _, hwq⟩ := inw q 0 hq (by decide) (by omega)
      obtain ⟨g, hg1, hg2, hg3⟩ : ∃ g, j ≤ 8 * g + 14 ∧ 8 * g + 6 ≤ j ∧ g < 8 := ⟨(j - 7) / 8, by omega, by omega, by omega⟩
      obtain ⟨i, hi, hz⟩ := (word_zeros w.1 w.2 (h w hw)).1 g hg3
      obtain ⟨w', hw', hb, hwq'⟩ := inw q (8 * g + i) hq (by omega) (by omega)
      rw [hwq] at hwq'; simp at hwq'; subst hwq'
      have := one (80 * q + (8 * g + i)) (by omega) (by omega)
      rw [hb, hz] at this
      simp at this
    · by_cases c3 : j ≤ 78
      · obtain ⟨w, hw, hb, _⟩ := inw q 64 hq (by decide) (by omega)
        have := one (80 * q + 64) (by omega) (by omega)
        rw [hb, (word_zeros w.1 w.2 (h w hw)).2.1] at this
        simp at this
      · obtain ⟨w, hw, hb, _⟩ := inw q 65 hq (by decide) (by omega)
        have := one (80 * q + 65) (by omega) (by omega)
        rw [hb, (word_zeros w.1 w.2 (h w hw)).2.2.1] at this
        simp at this
  · rintro ⟨h0, h80⟩
    obtain ⟨k, hk⟩ : ∃ k, n = 80 * (k + 1) := ⟨n / 80 - 1, by omega⟩
    have hkl : k < ws.length := by omega
    exact (full k ws[k] hk (List.getElem?_eq_getElem hkl)).1

/-! ### bi-phase mark code -/

theorem biphase_in_step (bs : List Bool) : ∀ level, biphaseAll ⟨level, true⟩ (biphase level bs) = bs := by
  induction bs with
  | nil => intro l; rfl
  | cons b bs ih =>
    intro l
    cases l <;> cases b <;> simp [biphase, biphaseAll, pushBiphase, ih]

/-- C135: the bits of a bi-phase mark coded signal are read, whatever the polarity is and whatever came before, from the
first zero on; when the reader is in step before, all of them are. -/
theorem biphase_read (s : Biphase) (level : Bool) (hs : s.prev = level) (ones : Nat) (bs : List Bool) :
    (s.state = true → biphaseAll s (biphase level bs) = bs) ∧
    ∃ junk, biphaseAll s (biphase level (List.replicate ones true ++ false :: bs)) = junk ++ false :: bs := by
  obtain ⟨p, st⟩ := s
  simp only at hs
  subst hs
  refine ⟨fun h => by simp only at h; subst h; exact biphase_in_step bs p, ?_⟩
  cases st with
  | true => exact ⟨List.replicate ones true, biphase_in_step _ p⟩
  | false =>
    induction ones generalizing p with
    | zero =>
      refine ⟨[true], ?_⟩
      have := biphase_in_step bs (!p)
      cases p <;> simp_all [biphase, biphaseAll, pushBiphase]
    | succ n ih =>
      obtain ⟨junk, hj⟩ := ih p
      refine ⟨true :: junk, ?_⟩
      cases p <;> simp_all [List.replicate_succ, biphase, biphaseAll, pushBiphase]

/-- Two words one after the other, read through the bi-phase reader that was out of step: the second time code is found. -/
example : Proper 30 { hours := 10, minutes := 59, seconds := 8, frames := 24 } ∧
    (let e : Extra := ⟨fun _ => 5, fun i => i = 2⟩
     let w := word { hours := 10, minutes := 59, seconds := 8, frames := 24 } e ++ word { hours := 10, minutes := 59, seconds := 9, frames := 0 } e
     let s : Shift 64 := pushAll {} (biphaseAll ⟨true, false⟩ (biphase true w))
     s.isValid = true ∧ getTimeCode s = { hours := 10, minutes := 59, seconds := 9, frames := 0 }) := by
  refine ⟨by simp [Proper], ?_⟩
  decide +kernel

end Verif.TimeCode
