import Verif.Fields.Spec
import Verif.BitStream.Props
namespace Verif.Fields

@[simp] theorem natBits_length (n : Nat) : ∀ v, (natBits v n).length = n := by
  induction n with
  | zero => intro v; rfl
  | succ n ih => intro v; simp [natBits, ih]

theorem bitsNat_append (l : List Bool) (b : Bool) : bitsNat (l ++ [b]) = 2 * bitsNat l + b.toNat := by
  simp [bitsNat]

theorem bitsNat_natBits (n : Nat) : ∀ v, bitsNat (natBits v n) = v % 2 ^ n := by
  induction n with
  | zero => intro v; simp [natBits, bitsNat, Nat.mod_one]
  | succ n ih =>
    intro v
    rw [natBits, bitsNat_append, ih, Nat.pow_succ]
    have h1 : v % (2 ^ n * 2) = v % 2 + 2 * (v / 2 % 2 ^ n) := by
      rw [Nat.mul_comm, Nat.mod_mul]
    have h2 : (v % 2 == 1).toNat = v % 2 := by
      rcases Nat.mod_two_eq_zero_or_one v with h | h <;> simp [h]
    rw [h1, h2]; omega

theorem natBits_bitsNat (l : List Bool) : natBits (bitsNat l) l.length = l := by
  have key : ∀ (n : Nat) (l : List Bool), l.length = n → natBits (bitsNat l) n = l := by
    intro n
    induction n with
    | zero => intro l h; simp [List.eq_nil_of_length_eq_zero h, natBits]
    | succ n ih =>
      intro l h
      have hne : l ≠ [] := by intro h0; simp [h0] at h
      have hd : l = l.dropLast ++ [l.getLast hne] := (List.dropLast_concat_getLast hne).symm
      have hl : l.dropLast.length = n := by simp [h]
      rw [hd, bitsNat_append, natBits]
      have h1 : (2 * bitsNat l.dropLast + (l.getLast hne).toNat) / 2 = bitsNat l.dropLast := by
        cases l.getLast hne <;> simp <;> omega
      have h2 : ((2 * bitsNat l.dropLast + (l.getLast hne).toNat) % 2 == 1) = l.getLast hne := by
        cases l.getLast hne <;> simp <;> omega
      rw [h1, h2, ih _ hl]
  exact key _ l rfl

theorem bitsNat_lt (l : List Bool) : bitsNat l < 2 ^ l.length := by
  have := bitsNat_natBits l.length (bitsNat l)
  rw [natBits_bitsNat] at this
  rw [this]; exact Nat.mod_lt _ (Nat.two_pow_pos _)

theorem bitsOf_append (a b : List UInt8) : bitsOf (a ++ b) = bitsOf a ++ bitsOf b := by simp [bitsOf]

theorem bitsOf_length (a : List UInt8) : (bitsOf a).length = 8 * a.length := by
  induction a with
  | nil => rfl
  | cons b a ih =>
    have : bitsOf (b :: a) = natBits b.toNat 8 ++ bitsOf a := by simp [bitsOf]
    rw [this, List.length_append, natBits_length, ih]; simp; omega

theorem bitsOf_bytesOfBits (k : Nat) : ∀ (l : List Bool), l.length = 8 * k →
    bitsOf (bytesOfBits l) = l ∧ (bytesOfBits l).length = k := by
  induction k with
  | zero => intro l h
            obtain rfl : l = [] := List.eq_nil_of_length_eq_zero (by omega)
            exact ⟨rfl, rfl⟩
  | succ k ih =>
    intro l h
    match l, h with
    | a :: b :: c :: d :: e :: f :: g :: i :: rest, h =>
      simp only [List.length_cons] at h
      obtain ⟨h1, h2⟩ := ih rest (by omega)
      rw [bytesOfBits]
      refine ⟨?_, by simp [h2]⟩
      have hlt : bitsNat [a, b, c, d, e, f, g, i] < 256 := by
        have := bitsNat_lt [a, b, c, d, e, f, g, i]
        simpa using this
      have h3 : natBits (UInt8.ofNat (bitsNat [a, b, c, d, e, f, g, i])).toNat 8 = [a, b, c, d, e, f, g, i] := by
        rw [UInt8.toNat_ofNat_of_lt' hlt]
        exact natBits_bitsNat [a, b, c, d, e, f, g, i]
      have h4 : bitsOf (UInt8.ofNat (bitsNat [a, b, c, d, e, f, g, i]) :: bytesOfBits rest) =
          natBits (UInt8.ofNat (bitsNat [a, b, c, d, e, f, g, i])).toNat 8 ++ bitsOf (bytesOfBits rest) := by
        simp [bitsOf]
      rw [h4, h3, h1]; rfl

/-- number of bits of a field list -/
def width (fs : List (Nat × Nat)) : Nat := (fs.map (·.1)).sum

theorem putBits_length (fs : List (Nat × Nat)) : (putBits fs).length = width fs := by
  induction fs with
  | nil => rfl
  | cons f fs ih =>
    have : putBits (f :: fs) = natBits f.2 f.1 ++ putBits fs := by simp [putBits]
    rw [this, List.length_append, natBits_length, ih]; simp [width]

theorem readBits_put (fs : List (Nat × Nat)) : ∀ (rest : List Bool),
    readBits (fs.map (·.1)) (putBits fs ++ rest) = some (fs.map (fun f => f.2 % 2 ^ f.1)) := by
  induction fs with
  | nil => intro rest; rfl
  | cons f fs ih =>
    intro rest
    have h1 : putBits (f :: fs) = natBits f.2 f.1 ++ putBits fs := by simp [putBits]
    rw [h1, List.append_assoc, List.map_cons, readBits, if_pos (by simp)]
    have ht : (natBits f.2 f.1 ++ (putBits fs ++ rest)).take f.1 = natBits f.2 f.1 := by
      rw [List.take_append_of_le_length (by simp), List.take_of_length_le (by simp)]
    have hd : (natBits f.2 f.1 ++ (putBits fs ++ rest)).drop f.1 = putBits fs ++ rest := by
      have := natBits_length f.1 f.2
      conv => lhs; arg 1; rw [← this]
      exact List.drop_left
    rw [ht, hd, ih rest, bitsNat_natBits]; rfl

theorem pack_length (fs : List (Nat × Nat)) (k : Nat) (h : width fs = 8 * k) : (pack fs).length = k :=
  (bitsOf_bytesOfBits k _ (by rw [putBits_length, h])).2

theorem bitsOf_pack (fs : List (Nat × Nat)) (k : Nat) (h : width fs = 8 * k) : bitsOf (pack fs) = putBits fs :=
  (bitsOf_bytesOfBits k _ (by rw [putBits_length, h])).1

/-- Packed fields are read back, each modulo its width. -/
theorem read_pack (fs : List (Nat × Nat)) (k : Nat) (h : width fs = 8 * k) (rest : List UInt8) :
    read (fs.map (·.1)) (pack fs ++ rest) = some (fs.map (fun f => f.2 % 2 ^ f.1)) := by
  rw [read, bitsOf_append, bitsOf_pack fs k h]
  exact readBits_put fs _

theorem putBits_append (a b : List (Nat × Nat)) : putBits (a ++ b) = putBits a ++ putBits b := by simp [putBits]

theorem pack_append (a b : List (Nat × Nat)) (k : Nat) (h : width a = 8 * k) : pack (a ++ b) = pack a ++ pack b := by
  rw [pack, putBits_append]
  have gen : ∀ (k : Nat) (l r : List Bool), l.length = 8 * k → bytesOfBits (l ++ r) = bytesOfBits l ++ bytesOfBits r := by
    intro k
    induction k with
    | zero => intro l r h
              obtain rfl : l = [] := List.eq_nil_of_length_eq_zero (by omega)
              simp [bytesOfBits]
    | succ k ih =>
      intro l r h
      match l, h with
      | a :: b :: c :: d :: e :: f :: g :: i :: rest, h =>
        simp only [List.length_cons] at h
        simp only [List.cons_append, bytesOfBits]
        rw [ih rest r (by omega)]
  exact gen k _ _ (by rw [putBits_length, h])

theorem natBits_range (n : Nat) : ∀ v, natBits v n = (List.range n).map (fun i => v.testBit (n - 1 - i)) := by
  induction n with
  | zero => intro v; rfl
  | succ n ih =>
    intro v
    rw [natBits, ih, List.range_succ, List.map_append, List.map_singleton]
    congr 1
    · apply List.map_congr_left
      intro i hi
      simp only [List.mem_range] at hi
      rw [show n + 1 - 1 - i = (n - 1 - i) + 1 by omega, Nat.testBit_succ]
    · simp [Nat.testBit_zero]; rfl

/-- The bits denoted by the `putbits` calls of property C05 are the bits written down here. -/
theorem opsBits_putBits (fs : List (Nat × Nat)) :
    Verif.BitStream.Spec.opsBits (fs.map (fun f => .put (BitVec.ofNat 32 f.2) f.1)) =
      putBits (fs.map (fun f => (f.1, f.2 % 2 ^ 32))) := by
  induction fs with
  | nil => rfl
  | cons f fs ih =>
    have h1 : putBits ((f :: fs).map (fun f => (f.1, f.2 % 2 ^ 32))) =
        natBits (f.2 % 2 ^ 32) f.1 ++ putBits (fs.map (fun f => (f.1, f.2 % 2 ^ 32))) := by simp [putBits]
    rw [h1, List.map_cons, Verif.BitStream.Spec.opsBits, ih, natBits_range]
    congr 1

/-- Two neighbouring fields are one field. -/
theorem natBits_concat (n : Nat) : ∀ (a m b : Nat), natBits a m ++ natBits b n = natBits (a * 2 ^ n + b % 2 ^ n) (m + n) := by
  induction n with
  | zero => intro a m b; simp [natBits, Nat.mod_one]
  | succ n ih =>
    intro a m b
    have e0 : a * (2 * 2 ^ n) = 2 * (a * 2 ^ n) := by rw [Nat.mul_left_comm]
    have e1 : (a * 2 ^ (n + 1) + b % 2 ^ (n + 1)) / 2 = a * 2 ^ n + (b / 2) % 2 ^ n := by
      rw [Nat.pow_succ, Nat.mul_comm (2 ^ n) 2, Nat.mod_mul, e0]; omega
    have e2 : (a * 2 ^ (n + 1) + b % 2 ^ (n + 1)) % 2 = b % 2 := by
      rw [Nat.pow_succ, Nat.mul_comm (2 ^ n) 2, Nat.mod_mul, e0]; omega
    rw [← Nat.add_assoc, natBits, natBits, ← List.append_assoc, ih, e1, e2]

theorem natBits_mod (n : Nat) : ∀ v, natBits (v % 2 ^ n) n = natBits v n := by
  induction n with
  | zero => intro v; rfl
  | succ n ih =>
    intro v
    rw [natBits, natBits]
    have h1 : v % 2 ^ (n + 1) / 2 = v / 2 % 2 ^ n := by
      rw [Nat.pow_succ, Nat.mul_comm (2 ^ n) 2, Nat.mod_mul]; omega
    have h2 : v % 2 ^ (n + 1) % 2 = v % 2 := by
      rw [Nat.pow_succ, Nat.mul_comm (2 ^ n) 2, Nat.mod_mul]; omega
    rw [h1, h2, ih]

theorem pack_congr (a b : List (Nat × Nat)) (h : putBits a = putBits b) : pack a = pack b := by rw [pack, pack, h]

theorem pack_byte (v : Nat) : pack [(8, v)] = [UInt8.ofNat v] := by
  have h : putBits [(8, v)] = natBits v 8 := by simp [putBits]
  have h2 : (pack [(8, v)]).length = 1 := pack_length _ 1 rfl
  have h3 := bitsOf_pack [(8, v)] 1 rfl
  match hp : pack [(8, v)], h2 with
  | [x], _ =>
    rw [hp, h] at h3
    have h4 : natBits x.toNat 8 = natBits v 8 := by simpa [bitsOf] using h3
    have h5 := congrArg bitsNat h4
    rw [bitsNat_natBits, bitsNat_natBits] at h5
    congr 1
    apply UInt8.toNat_inj.mp
    have := x.toNat_lt
    simp only [UInt8.toNat_ofNat']
    omega

theorem pack_word (v : Nat) :
    pack [(32, v)] = [UInt8.ofNat (v / 2 ^ 24), UInt8.ofNat (v / 2 ^ 16), UInt8.ofNat (v / 2 ^ 8), UInt8.ofNat v] := by
  have h : pack [(32, v)] = pack ([(8, v / 2 ^ 24)] ++ ([(8, v / 2 ^ 16)] ++ ([(8, v / 2 ^ 8)] ++ [(8, v)]))) := by
    apply pack_congr
    simp only [putBits, List.flatMap_append, List.flatMap_cons, List.flatMap_nil, List.append_nil]
    have e : ∀ m n, natBits (v / 2 ^ n) m ++ natBits v n = natBits v (m + n) := by
      intro m n; rw [natBits_concat, Nat.div_add_mod']
    rw [e 8 8, e 8 (8 + 8), e 8 (8 + (8 + 8))]
  rw [h, pack_append _ _ 1 rfl, pack_append _ _ 1 rfl, pack_append _ _ 1 rfl]
  simp only [pack_byte]
  rfl

theorem read_singleton (x : UInt8) (rest : List UInt8) : read [8] (x :: rest) = some [x.toNat] := by
  have h : pack [(8, x.toNat)] = [x] := by rw [pack_byte]; simp
  have := read_pack [(8, x.toNat)] 1 rfl rest
  rw [h] at this
  have hx := x.toNat_lt
  simpa [Nat.mod_eq_of_lt (show x.toNat < 256 by omega)] using this

end Verif.Fields
