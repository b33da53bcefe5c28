import Verif.Esds.Model
import Verif.Esds.Spec
import Verif.H264.PropsSps

namespace Verif.Esds
open Verif.BitStream (Byte Mem RErr RState rInit getbits nextbits skipbits)
open Verif.H264 (Parser u many opt flag At Reads at_init reads_u bits_length at_drop reads_many)
open Verif.H264.Spec (bits flagBits Bytes)
open Spec

/-- Like `Reads`, with what follows fixed: for readers that look ahead. -/
def ReadsTo {α : Type} (p : Parser α) (b rest : List Bool) (v : α) : Prop :=
  ∀ s : RState, At s (b ++ rest) → ∃ s', p s = .ok (v, s') ∧ At s' rest

theorem Reads.to {α : Type} {p : Parser α} {b : List Bool} {v : α} (h : Reads p b v) (rest : List Bool) : ReadsTo p b rest v := by
  intro s hs
  obtain ⟨s', h1, h2, _⟩ := h s rest hs
  exact ⟨s', h1, h2⟩

theorem ReadsTo.bind {α β : Type} {p : Parser α} {f : α → Parser β} {b c rest : List Bool} {v : α} {w : β} (h : ReadsTo p b (c ++ rest) v)
    (k : ReadsTo (f v) c rest w) : ReadsTo (p >>= f) (b ++ c) rest w := by
  intro s hs
  rw [List.append_assoc] at hs
  obtain ⟨s', h1, h2⟩ := h s hs
  obtain ⟨s'', k1, k2⟩ := k s' h2
  refine ⟨s'', ?_, k2⟩
  show StateT.bind p f s = _
  simp only [StateT.bind, h1]
  exact k1

theorem ReadsTo.pure {α : Type} (v : α) (rest : List Bool) : ReadsTo (Pure.pure v) [] rest v := fun s hs => ⟨s, rfl, hs⟩

theorem ReadsTo.map {α β : Type} {p : Parser α} {b rest : List Bool} {v : α} (g : α → β) (h : ReadsTo p b rest v) :
    ReadsTo (p >>= fun x => Pure.pure (g x)) b rest (g v) := by
  have := ReadsTo.bind (c := []) (f := fun x => Pure.pure (g x)) h (ReadsTo.pure (g v) rest)
  rwa [List.append_nil] at this

/-- A step that takes nothing. -/
theorem ReadsTo.look {α β : Type} {p : Parser α} {f : α → Parser β} {b rest : List Bool} {v : α} {w : β} (h : ReadsTo p [] (b ++ rest) v)
    (k : ReadsTo (f v) b rest w) : ReadsTo (p >>= f) b rest w := ReadsTo.bind (b := []) h k

theorem peek_to (t : Nat) (ht : t < 256) (rest : List Bool) : ReadsTo (peek 8) [] (bits 8 t ++ rest) t := by
  intro s hs
  obtain ⟨s', h1, _, _⟩ := reads_u 8 t (by omega) (by omega) ht s rest hs
  refine ⟨s, ?_, hs⟩
  simp only [u, getbits] at h1
  simp only [peek]
  cases hn : nextbits s 8 with
  | error e => rw [hn] at h1; simp at h1
  | ok x => rw [hn] at h1; simp at h1; simp [h1.1]

theorem atEnd_to (rest : List Bool) : ReadsTo atEnd [] rest (decide (rest = [])) := by
  intro s hs
  refine ⟨s, ?_, hs⟩
  have := hs.pos
  simp only [List.nil_append] at this
  have e : decide (8 * s.len ≤ s.cur) = decide (rest = []) := by
    apply decide_eq_decide.2
    rw [← List.length_eq_zero_iff]
    omega
  simp [atEnd, e]

theorem skip_to (b rest : List Bool) : ReadsTo (skip b.length) b rest () := by
  intro s hs
  have hp := hs.pos
  rw [List.length_append] at hp
  have hd := at_drop hs
  refine ⟨_, rfl, ?_⟩
  rw [skipbits, if_neg (by omega)]
  exact hd

theorem get_to (rest : List Bool) {β : Type} {f : RState → Parser β} {b : List Bool} {w : β}
    (h : ∀ s : RState, b.length + rest.length ≤ 8 * s.len → ReadsTo (f s) b rest w) : ReadsTo (get >>= f) b rest w := by
  intro s hs
  have := hs.pos
  rw [List.length_append] at this
  obtain ⟨s', h1, h2⟩ := h s (by omega) s hs
  exact ⟨s', h1, h2⟩

theorem u_to (n v : Nat) (h1 : 1 ≤ n) (h2 : n ≤ 32) (hv : v < 2 ^ n) (rest : List Bool) : ReadsTo (u n) (bits n v) rest v :=
  Reads.to (reads_u n v h1 h2 hv) rest

theorem flag_bits (b : Bool) : flagBits b = bits 1 b.toNat := by cases b <;> decide

/-- A flag read as a number. -/
theorem u1_to (b : Bool) (rest : List Bool) : ReadsTo (u 1) (flagBits b) rest b.toNat := by
  rw [flag_bits]
  exact u_to 1 _ (by omega) (by omega) (by cases b <;> decide) rest

/-- A flag and 7 bits are a byte. -/
theorem byte_split (b : Bool) (v : Nat) (h : v < 128) : flagBits b ++ bits 7 v = bits 8 (v + 128 * b.toNat) := by
  cases b
  · revert h; revert v; decide +kernel
  · revert h; revert v; decide +kernel

/-! ### Lengths -/

theorem lengthBits_succ (k v : Nat) : lengthBits (k + 1) v = flagBits (0 < k) ++ bits 7 (v / 128 ^ k % 128) ++ lengthBits k (v % 128 ^ k) := by
  rw [lengthBits, List.range_succ_eq_map, List.flatMap_cons, List.flatMap_map]
  congr 1
  · simp
  · rw [lengthBits]
    apply List.flatMap_congr
    intro i hi
    rw [List.mem_range] at hi
    congr 1
    · simp
    · congr 1
      show v / 128 ^ (k + 1 - 1 - (i + 1)) % 128 = v % 128 ^ k / 128 ^ (k - 1 - i) % 128
      rw [show k + 1 - 1 - (i + 1) = k - 1 - i by omega]
      have e : 128 ^ k = 128 ^ (k - 1 - i) * 128 ^ (i + 1) := by rw [← pow_add]; congr 1; omega
      rw [e, Nat.mod_mul_right_div_self, pow_succ, Nat.mod_mul_left_mod]

theorem lengthLoop_to : ∀ (k fuel size v : Nat) (rest : List Bool), k + 1 ≤ fuel → v < 128 ^ (k + 1) → size * 128 ^ (k + 1) + v < 2 ^ 32 →
    ReadsTo (lengthLoop fuel size) (lengthBits (k + 1) v) rest (size * 128 ^ (k + 1) + v) := by
  intro k
  induction k with
  | zero =>
    intro fuel size v rest hf hv hs
    obtain ⟨f, rfl⟩ : ∃ f, fuel = f + 1 := ⟨fuel - 1, by omega⟩
    have e : lengthBits (0 + 1) v = bits 8 v ++ [] := by
      rw [lengthBits_succ]
      simp only [pow_zero, Nat.div_one]
      rw [byte_split _ _ (Nat.mod_lt _ (by omega))]
      simp [lengthBits, Nat.mod_eq_of_lt (show v < 128 by simpa using hv)]
    rw [e]
    refine ReadsTo.bind (u_to 8 v (by omega) (by omega) (by simp at hv; omega) _) ?_
    simp only [zero_add, pow_one] at hv hs ⊢
    rw [if_neg (by omega)]
    have e2 : size * 128 % 2 ^ 32 + v % 128 = size * 128 + v := by rw [Nat.mod_eq_of_lt (by omega), Nat.mod_eq_of_lt hv]
    rw [e2]
    exact ReadsTo.pure _ _
  | succ k ih =>
    intro fuel size v rest hf hv hs
    obtain ⟨f, rfl⟩ : ∃ f, fuel = f + 1 := ⟨fuel - 1, by omega⟩
    obtain ⟨p, hp⟩ : ∃ p, p = 128 ^ (k + 1) := ⟨_, rfl⟩
    have hp0 : 0 < p := by rw [hp]; exact Nat.pow_pos (by omega)
    rw [lengthBits_succ, ← hp, byte_split _ _ (Nat.mod_lt _ (by omega))]
    have hpe : 128 ^ (k + 1 + 1) = p * 128 := by rw [hp, pow_succ]
    rw [hpe] at hv hs ⊢
    have hd : v / p < 128 := Nat.div_lt_of_lt_mul hv
    have hdm := Nat.div_add_mod v p
    have hm : v % p < p := Nat.mod_lt _ hp0
    have hx : size * (p * 128) + v = (size * 128 + v / p) * p + v % p := by
      rw [Nat.add_mul, mul_comm (v / p) p]; rw [add_assoc, hdm]; ring
    have hle : size * 128 + v / p ≤ (size * 128 + v / p) * p := Nat.le_mul_of_pos_right _ hp0
    rw [hx] at hs ⊢
    clear hx hdm hv
    generalize v / p = q at *
    generalize v % p = r at *
    have h32 : size * 128 + q < 2 ^ 32 := lt_of_le_of_lt hle (by omega)
    refine ReadsTo.bind (u_to 8 _ (by omega) (by omega) (by simp; omega) _) ?_
    simp only [Nat.zero_lt_succ, decide_true, Bool.toNat_true]
    rw [Nat.mod_eq_of_lt hd, if_pos (by omega)]
    have e2 : size * 128 % 2 ^ 32 + (q + 128 * 1) % 128 = size * 128 + q := by
      rw [Nat.mod_eq_of_lt (by omega)]; omega
    rw [e2]
    rw [hp] at hm hs ⊢
    exact ih f _ _ rest (by omega) hm hs

theorem lengthBits_length (k v : Nat) : (lengthBits k v).length = 8 * k := by
  simp [lengthBits, List.length_flatMap, flagBits, bits_length]
  omega

/-- A descriptor's tag and length. -/
theorem descriptor_to (tag k n : Nat) (rest : List Bool) (ht : tag < 256) (hk : 1 ≤ k) (hn : n < 128 ^ k) (h31 : n < 2 ^ 31) :
    ReadsTo descriptor (bits 8 tag ++ lengthBits k n) rest (tag, n) := by
  obtain ⟨k, rfl⟩ : ∃ j, k = j + 1 := ⟨k - 1, by omega⟩
  refine ReadsTo.bind (u_to 8 tag (by omega) (by omega) (by omega) _) ?_
  refine get_to rest fun s hs => ?_
  rw [lengthBits_length] at hs
  have h := lengthLoop_to k (8 * s.len + 1) 0 n rest (by omega) hn (by omega)
  rw [Nat.zero_mul, Nat.zero_add] at h
  have := ReadsTo.bind (c := []) (rest := rest) (f := fun length => (do
    if 2 ^ 31 ≤ length then throw .ub
    return (tag, length) : Parser (Nat × Nat))) h (w := (tag, n)) (by
      dsimp only
      rw [if_neg (by omega)]
      exact ReadsTo.pure _ _)
  rwa [List.append_nil] at this

theorem byteBits_length (l : List (BitVec 8)) : (byteBits l).length = 8 * l.length := by
  simp [byteBits, List.length_flatMap, bits_length]
  omega

theorem bytes_to (l : List (BitVec 8)) (rest : List Bool) : ReadsTo (many (u 8) l.length) (byteBits l) rest (l.map BitVec.toNat) :=
  Reads.to (reads_many (fun x : BitVec 8 => bits 8 x.toNat) BitVec.toNat l fun x _ => reads_u 8 _ (by omega) (by omega) x.isLt) rest

/-- The decoder specific information. -/
theorem extension_to (k : Nat) (l : List (BitVec 8)) (rest : List Bool) (h : DescOk k (byteBits l)) :
    ReadsTo extension (desc 5 k (byteBits l)) rest ⟨5, l.length, l.map BitVec.toNat⟩ := by
  obtain ⟨h1, h2, h3⟩ := h
  have hl : (byteBits l).length / 8 = l.length := by rw [byteBits_length]; omega
  rw [desc, hl, ← List.append_assoc]
  rw [hl] at h2 h3
  refine ReadsTo.bind (descriptor_to 5 k l.length _ (by omega) h1 h2 h3) ?_
  dsimp only
  rw [if_neg (by omega), if_neg (by omega)]
  exact ReadsTo.map _ (bytes_to l rest)

end Verif.Esds
