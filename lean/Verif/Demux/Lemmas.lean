import Verif.Demux.Model
import Verif.Demux.Spec
import Verif.Fields.Lemmas
import Mathlib.Data.List.Induction
import Mathlib.Tactic.Conv
namespace Verif.Demux
open Fields

theorem bitsOf_drop (b : List UInt8) (k : Nat) : (bitsOf b).drop (8 * k) = bitsOf (b.drop k) := by
  by_cases h : k ≤ b.length
  · conv_lhs => rw [← List.take_append_drop k b, bitsOf_append]
    exact List.drop_left' (by rw [bitsOf_length, List.length_take]; omega)
  · rw [List.drop_eq_nil_of_le (by rw [bitsOf_length]; omega), List.drop_eq_nil_of_le (by omega)]; rfl

theorem bitsOf_take (b : List UInt8) (k : Nat) : (bitsOf b).take (8 * k) = bitsOf (b.take k) := by
  by_cases h : k ≤ b.length
  · conv_lhs => rw [← List.take_append_drop k b, bitsOf_append]
    exact List.take_left' (by rw [bitsOf_length, List.length_take]; omega)
  · rw [List.take_of_length_le (by rw [bitsOf_length]; omega), List.take_of_length_le (by omega)]

theorem bytesOfBits_cons (b : UInt8) (l : List Bool) : bytesOfBits (natBits b.toNat 8 ++ l) = b :: bytesOfBits l := by
  have e : natBits b.toNat 8 = [b.toNat / 2 / 2 / 2 / 2 / 2 / 2 / 2 % 2 == 1, b.toNat / 2 / 2 / 2 / 2 / 2 / 2 % 2 == 1, b.toNat / 2 / 2 / 2 / 2 / 2 % 2 == 1,
      b.toNat / 2 / 2 / 2 / 2 % 2 == 1, b.toNat / 2 / 2 / 2 % 2 == 1, b.toNat / 2 / 2 % 2 == 1, b.toNat / 2 % 2 == 1, b.toNat % 2 == 1] := rfl
  have hb := bitsNat_natBits 8 b.toNat
  rw [e] at hb ⊢
  simp only [List.cons_append, List.nil_append, bytesOfBits]
  rw [hb, Nat.mod_eq_of_lt b.toNat_lt]
  simp

theorem bytesOfBits_bitsOf (b : List UInt8) : bytesOfBits (bitsOf b) = b := by
  induction b with
  | nil => rfl
  | cons x l ih =>
    rw [bitsOf, List.flatMap_cons, bytesOfBits_cons]
    rw [bitsOf] at ih
    rw [ih]

theorem takeBytes_ok (a rest : List UInt8) (n : Nat) (h : a.length = n) : takeBytes n (bitsOf (a ++ rest)) = some (a, bitsOf rest) := by
  rw [takeBytes, if_pos (by rw [bitsOf_length, List.length_append]; omega), bitsOf_take, bitsOf_drop, bytesOfBits_bitsOf,
    List.take_left' h, List.drop_left' h]

theorem readBits_append (ws : List Nat) : ∀ (s t : List Bool) (vs : List Nat), readBits ws s = some vs → readBits ws (s ++ t) = some vs := by
  induction ws with
  | nil => intro s t vs h; simpa [readBits] using h
  | cons w ws ih =>
    intro s t vs h
    rw [readBits] at h ⊢
    split at h
    · next hw =>
      rw [if_pos (by rw [List.length_append]; omega), List.take_append_of_le_length hw, List.drop_append_of_le_length hw]
      obtain ⟨v, hv, rfl⟩ := Option.map_eq_some_iff.mp h
      rw [ih _ t v hv]; rfl
    · simp at h

theorem read_append (ws : List Nat) (a b : List UInt8) (vs : List Nat) (h : read ws a = some vs) : read ws (a ++ b) = some vs := by
  rw [Fields.read, bitsOf_append]; exact readBits_append ws _ _ vs h

/-- Reading in two steps. -/
theorem readBits_cat (ws vs : List Nat) : ∀ (s : List Bool) (xs : List Nat), readBits (ws ++ vs) s = some xs →
    readBits ws s = some (xs.take ws.length) ∧ readBits vs (s.drop ws.sum) = some (xs.drop ws.length) := by
  induction ws with
  | nil => intro s xs h; simpa [readBits] using h
  | cons w ws ih =>
    intro s xs h
    rw [List.cons_append, readBits] at h
    split at h
    · next hw =>
      obtain ⟨v, hv, rfl⟩ := Option.map_eq_some_iff.mp h
      have := ih _ v hv
      rw [readBits, if_pos hw, this.1]
      refine ⟨rfl, ?_⟩
      rw [List.sum_cons, ← List.drop_drop, this.2]
      rfl
    · simp at h

/-- Two readings one after the other. -/
theorem readBits_glue : ∀ (ws vs : List Nat) (s : List Bool) (xs ys : List Nat), readBits ws s = some xs → readBits vs (s.drop ws.sum) = some ys →
    readBits (ws ++ vs) s = some (xs ++ ys) := by
  intro ws
  induction ws with
  | nil => intro vs s xs ys h1 h2; simp only [readBits, Option.some.injEq] at h1; subst h1; simpa using h2
  | cons w ws ih =>
    intro vs s xs ys h1 h2
    rw [readBits] at h1
    split at h1
    · next hw =>
      obtain ⟨v, hv, rfl⟩ := Option.map_eq_some_iff.mp h1
      rw [List.cons_append, readBits, if_pos hw, ih vs _ v ys hv (by rw [List.drop_drop]; rwa [List.sum_cons] at h2)]
      rfl
    · simp at h1

theorem bitsNat_append' (l : List Bool) : ∀ m, bitsNat (m ++ l) = bitsNat m * 2 ^ l.length + bitsNat l := by
  induction l using List.reverseRecOn with
  | nil => intro m; simp [bitsNat]
  | append_singleton l b ih =>
    intro m
    rw [← List.append_assoc, bitsNat_append, ih, bitsNat_append, List.length_append, List.length_singleton, Nat.pow_succ]
    generalize bitsNat m = x
    generalize 2 ^ l.length = y
    have : x * (y * 2) = 2 * (x * y) := by rw [← Nat.mul_assoc]; exact Nat.mul_comm _ _
    omega

/-- A field read in two parts. -/
theorem readBits_split (a b : Nat) (ws : List Nat) (s : List Bool) (v : Nat) (vs : List Nat) (h : readBits ((a + b) :: ws) s = some (v :: vs)) :
    readBits (a :: b :: ws) s = some (v / 2 ^ b :: v % 2 ^ b :: vs) := by
  rw [readBits] at h
  split at h
  · next hw =>
    obtain ⟨x, hx, he⟩ := Option.map_eq_some_iff.mp h
    obtain ⟨h1, h2⟩ := List.cons.inj he
    subst h2
    rw [readBits, if_pos (by omega), readBits, if_pos (by rw [List.length_drop]; omega), List.drop_drop, hx]
    have ht : s.take (a + b) = s.take a ++ (s.drop a).take b := List.take_add ..
    have hlen : ((s.drop a).take b).length = b := by rw [List.length_take, List.length_drop]; omega
    rw [ht, bitsNat_append', hlen] at h1
    have hlt : bitsNat ((s.drop a).take b) < 2 ^ b := by have := bitsNat_lt ((s.drop a).take b); rwa [hlen] at this
    rw [← h1]
    have hp : 0 < 2 ^ b := Nat.two_pow_pos b
    rw [Nat.mul_comm, Nat.mul_add_div hp, Nat.div_eq_of_lt hlt, Nat.mul_add_mod, Nat.mod_eq_of_lt hlt]
    simp
  · simp at h

/-- Two fields read as one. -/
theorem readBits_join (a b : Nat) (ws : List Nat) (s : List Bool) (v w : Nat) (vs : List Nat) (h : readBits (a :: b :: ws) s = some (v :: w :: vs)) :
    readBits ((a + b) :: ws) s = some ((v * 2 ^ b + w) :: vs) := by
  rw [readBits] at h
  split at h
  · next hw =>
    obtain ⟨x, hx, he⟩ := Option.map_eq_some_iff.mp h
    obtain ⟨h1, rfl⟩ := List.cons.inj he
    rw [readBits] at hx
    split at hx
    · next hw2 =>
      obtain ⟨y, hy, he2⟩ := Option.map_eq_some_iff.mp hx
      obtain ⟨h3, rfl⟩ := List.cons.inj he2
      rw [List.length_drop] at hw2
      rw [readBits, if_pos (by omega), ← List.drop_drop, hy]
      have ht : s.take (a + b) = s.take a ++ (s.drop a).take b := List.take_add ..
      have hlen : ((s.drop a).take b).length = b := by rw [List.length_take, List.length_drop]; omega
      rw [ht, bitsNat_append', hlen, h1, h3]
      rfl
    · simp at hx
  · simp at h

/-- Behind the first field. -/
theorem readBits_tail (w : Nat) (ws : List Nat) (s : List Bool) (v : Nat) (vs : List Nat) (h : readBits (w :: ws) s = some (v :: vs)) :
    readBits ws (s.drop w) = some vs := by
  rw [readBits] at h
  split at h
  · obtain ⟨x, hx, he⟩ := Option.map_eq_some_iff.mp h
    rw [hx, (List.cons.inj he).2]
  · simp at h

theorem readBits_lt (ws : List Nat) : ∀ (s : List Bool) (vs : List Nat), readBits ws s = some vs → ws.sum ≤ s.length := by
  induction ws with
  | nil => intro s vs _; simp
  | cons w ws ih =>
    intro s vs h
    rw [readBits] at h
    split at h
    · obtain ⟨x, hx, _⟩ := Option.map_eq_some_iff.mp h
      have := ih _ _ hx
      rw [List.length_drop] at this
      rw [List.sum_cons]; omega
    · simp at h

theorem readBits_some (ws : List Nat) : ∀ (s : List Bool), ws.sum ≤ s.length → ∃ vs, readBits ws s = some vs ∧ vs.length = ws.length := by
  induction ws with
  | nil => intro s _; exact ⟨[], rfl, rfl⟩
  | cons w ws ih =>
    intro s h
    rw [List.sum_cons] at h
    obtain ⟨vs, hv, hl⟩ := ih (s.drop w) (by rw [List.length_drop]; omega)
    exact ⟨bitsNat (s.take w) :: vs, by rw [readBits, if_pos (by omega), hv]; rfl, by simp [hl]⟩

theorem readBits_bound (ws : List Nat) : ∀ (s : List Bool) (vs : List Nat), readBits ws s = some vs →
    vs.length = ws.length ∧ ∀ (i v : Nat), vs[i]? = some v → ∃ w, ws[i]? = some w ∧ v < 2 ^ w := by
  induction ws with
  | nil =>
    intro s vs h
    rw [readBits] at h; simp only [Option.some.injEq] at h; subst h
    exact ⟨rfl, by intro i v h; simp at h⟩
  | cons w ws ih =>
    intro s vs h
    rw [readBits] at h
    split at h
    · next hw =>
      obtain ⟨x, hx, rfl⟩ := Option.map_eq_some_iff.mp h
      obtain ⟨h1, h2⟩ := ih _ _ hx
      refine ⟨by simp [h1], ?_⟩
      intro i v hi
      cases i with
      | zero =>
        simp only [List.getElem?_cons_zero, Option.some.injEq] at hi ⊢
        refine ⟨w, rfl, ?_⟩
        subst hi
        have := bitsNat_lt (s.take w)
        rwa [List.length_take, Nat.min_eq_left hw] at this
      | succ i => simp only [List.getElem?_cons_succ] at hi ⊢; exact h2 i v hi
    · simp at h

theorem takeBits_of (ws : List Nat) (s : List Bool) (vs : List Nat) (h : readBits ws s = some vs) : takeBits ws s = some (vs, s.drop ws.sum) := by
  rw [takeBits, h]; rfl

end Verif.Demux
