import Verif.H264.Model
import Verif.H264.Spec
import Verif.BitStream.Props
import Mathlib.Tactic

namespace Verif.H264
open Verif.BitStream (Byte Word Mem RErr RState rInit getbits nextbits skipbits bitAt)
open Spec

/-! ### Reading from a bit string -/

/-- The rest of the data is `b`. -/
structure At (s : RState) (b : List Bool) : Prop where
  len : s.len < 2 ^ 29
  pos : s.cur + b.length = 8 * s.len
  data : (List.range b.length).map (fun i => bitAt s.mem (s.cur + i)) = b
  tot : s.tot = s.cur

/-- The reader takes exactly these bits and gives this value. -/
def Reads {α : Type} (p : Parser α) (b : List Bool) (v : α) : Prop :=
  ∀ (s : RState) (rest : List Bool), At s (b ++ rest) → ∃ s', p s = .ok (v, s') ∧ At s' rest ∧ s'.cur = s.cur + b.length

theorem Reads.bind {α β : Type} {p : Parser α} {f : α → Parser β} {b c : List Bool} {v : α} {w : β} (h : Reads p b v) (k : Reads (f v) c w) :
    Reads (p >>= f) (b ++ c) w := by
  intro s rest hs
  rw [List.append_assoc] at hs
  obtain ⟨s', h1, h2, h3⟩ := h s (c ++ rest) hs
  obtain ⟨s'', k1, k2, k3⟩ := k s' rest h2
  refine ⟨s'', ?_, k2, by rw [k3, h3, List.length_append]; omega⟩
  show StateT.bind p f s = _
  simp only [StateT.bind, h1]
  exact k1

theorem Reads.pure {α : Type} (v : α) : Reads (Pure.pure v) [] v := fun s rest hs => ⟨s, rfl, hs, by simp⟩

/-- The last step. -/
theorem Reads.map {α β : Type} {p : Parser α} {b : List Bool} {v : α} (g : α → β) (h : Reads p b v) : Reads (p >>= fun x => Pure.pure (g x)) b (g v) := by
  have := Reads.bind h (Reads.pure (g v)) (f := fun x => Pure.pure (g x))
  rwa [List.append_nil] at this

theorem bits_length (n v : Nat) : (bits n v).length = n := by simp [bits]

theorem at_drop {s : RState} {b c : List Bool} (h : At s (b ++ c)) : At { s with cur := s.cur + b.length, tot := s.tot + b.length } c := by
  obtain ⟨h1, h2, h3, h4⟩ := h
  rw [List.length_append] at h2 h3
  refine ⟨h1, by simpa [Nat.add_assoc] using h2, ?_, by simp [h4]⟩
  rw [Verif.BitStream.range_map_add] at h3
  have := (List.append_inj h3 (by simp)).2
  simpa [Nat.add_assoc] using this

theorem reads_u (n v : Nat) (h1 : 1 ≤ n) (h2 : n ≤ 32) (hv : v < 2 ^ n) : Reads (u n) (bits n v) v := by
  intro s rest hs
  obtain ⟨x, hx, hxb⟩ := Verif.BitStream.nextbits_spec s n h1 h2 hs.len (by have := hs.pos; rw [List.length_append, bits_length] at this; omega)
  have hd := at_drop hs
  rw [bits_length] at hd
  refine ⟨{ s with cur := s.cur + n, tot := s.tot + n }, ?_, hd, by simp [bits_length]⟩
  simp only [u, getbits, hx]
  congr 2
  have hdata := hs.data
  rw [List.length_append, bits_length, Verif.BitStream.range_map_add] at hdata
  have hb := (List.append_inj hdata (by simp [bits_length])).1
  apply Nat.eq_of_testBit_eq
  intro j
  rw [BitVec.testBit_toNat, hxb]
  by_cases hj : j < n
  · simp only [decide_eq_true hj, Bool.true_and]
    have := congrArg (fun l => l[n - 1 - j]?) hb
    simp only [bits, List.getElem?_map] at this
    rw [List.getElem?_range (by omega)] at this
    simp only [Option.map_some, Option.some.injEq] at this
    rw [show n - 1 - (n - 1 - j) = j by omega] at this
    rw [← this]; congr 1; omega
  · rw [decide_eq_false hj, Bool.false_and]
    exact (Nat.testBit_lt_two_pow (lt_of_lt_of_le hv (Nat.pow_le_pow_right (by omega) (by omega)))).symm

theorem reads_flag (b : Bool) : Reads flag (flagBits b) b := by
  have h := reads_u 1 b.toNat (le_refl _) (by omega) (by cases b <;> simp)
  have hb : bits 1 b.toNat = flagBits b := by cases b <;> decide
  rw [hb] at h
  have := Reads.map (fun x => decide (x ≠ 0)) h
  have e : decide (b.toNat ≠ 0) = b := by cases b <;> rfl
  rw [e] at this
  exact this

/-! ### Exp-Golomb codes -/

theorem zerosLoop_spec (v : Nat) : ∀ (z fuel n : Nat), z < fuel → Reads (zerosLoop fuel n) (List.replicate z false ++ [true]) (n + z) := by
  intro z
  induction z with
  | zero =>
    intro fuel n hf
    obtain ⟨f, rfl⟩ : ∃ f, fuel = f + 1 := ⟨fuel - 1, by omega⟩
    have h1 : Reads (u 1) [true] 1 := reads_u 1 1 (le_refl _) (by omega) (by omega)
    have h2 := Reads.bind (f := fun x => if x = 0 then zerosLoop f (n + 1) else Pure.pure n) h1 (by rw [if_neg (by omega)]; exact Reads.pure n)
    exact h2
  | succ z ih =>
    intro fuel n hf
    obtain ⟨f, rfl⟩ : ∃ f, fuel = f + 1 := ⟨fuel - 1, by omega⟩
    have h1 : Reads (u 1) [false] 0 := reads_u 1 0 (le_refl _) (by omega) (by omega)
    have h2 := Reads.bind (f := fun x => if x = 0 then zerosLoop f (n + 1) else Pure.pure n) h1 (by rw [if_pos rfl]; exact ih f (n + 1) (by omega))
    rw [show n + 1 + z = n + (z + 1) by omega] at h2
    exact h2

theorem bits_head (n v : Nat) (h : 2 ^ n ≤ v) (h2 : v < 2 ^ (n + 1)) : bits (n + 1) v = true :: bits n (v - 2 ^ n) := by
  have hv : v = 2 ^ n + (v - 2 ^ n) := by omega
  have hlt : v - 2 ^ n < 2 ^ n := by rw [Nat.pow_succ] at h2; omega
  rw [bits, List.range_succ_eq_map, List.map_cons, List.map_map]
  congr 1
  · rw [hv, show n + 1 - 1 - 0 = n by omega, Nat.testBit_two_pow_add_eq, Nat.testBit_lt_two_pow hlt]; rfl
  · rw [bits]
    apply List.map_congr_left
    intro i hi
    rw [List.mem_range] at hi
    simp only [Function.comp]
    rw [show n + 1 - 1 - (i + 1) = n - 1 - i by omega]
    conv_lhs => rw [hv]
    rw [Nat.testBit_two_pow_add_gt (by omega)]

theorem ueBits_eq (v : Nat) : ueBits v = (List.replicate (Nat.log2 (v + 1)) false ++ [true]) ++ bits (Nat.log2 (v + 1)) (v + 1 - 2 ^ Nat.log2 (v + 1)) := by
  rw [ueBits, bits_head _ _ (Nat.log2_self_le (by omega)) (Nat.lt_log2_self)]
  simp

theorem reads_ue (v : Nat) (hv : v + 1 < 2 ^ 31) : Reads ue (ueBits v) v := by
  obtain ⟨z, hz⟩ : ∃ z, z = Nat.log2 (v + 1) := ⟨_, rfl⟩
  have h1 : 2 ^ z ≤ v + 1 := by rw [hz]; exact Nat.log2_self_le (by omega)
  have h2 : v + 1 < 2 ^ (z + 1) := by rw [hz]; exact Nat.lt_log2_self
  have hz31 : z < 31 := by
    by_contra hge
    have : 2 ^ 31 ≤ 2 ^ z := Nat.pow_le_pow_right (by omega) (by omega)
    omega
  intro s rest hs
  rw [ueBits_eq, ← hz] at hs ⊢
  have hlen : z < 8 * s.len + 1 := by
    have := hs.pos
    simp only [List.length_append, List.length_replicate, bits_length, List.length_singleton] at this
    omega
  have hr : Reads (zerosLoop (8 * s.len + 1) 0 >>= fun zeros => (do
      if zeros = 0 then return 0
      let trailer ← u zeros
      if 31 ≤ zeros then throw .ub
      return 2 ^ zeros - 1 + trailer : Parser Nat)) ((List.replicate z false ++ [true]) ++ bits z (v + 1 - 2 ^ z)) v := by
    refine Reads.bind (zerosLoop_spec v z (8 * s.len + 1) 0 hlen) ?_
    rw [Nat.zero_add]
    by_cases h0 : z = 0
    · subst h0
      have : v = 0 := by simp at h2; omega
      subst this
      simp only [if_true]
      exact Reads.pure 0
    · simp only [h0, if_false]
      have := reads_u z (v + 1 - 2 ^ z) (by omega) (by omega) (by rw [Nat.pow_succ] at h2; omega)
      have := Reads.map (fun t => 2 ^ z - 1 + t) this
      rw [show 2 ^ z - 1 + (v + 1 - 2 ^ z) = v by have : 0 < 2 ^ z := Nat.two_pow_pos z; omega] at this
      simp only [show ¬ 31 ≤ z by omega, if_false]
      exact this
  obtain ⟨s', k1, k2, k3⟩ := hr s rest hs
  exact ⟨s', k1, k2, k3⟩

theorem reads_se (v : Int) (hv : v.natAbs ≤ 2 ^ 23) : Reads se (seBits v) v := by
  obtain ⟨k, hk⟩ : ∃ k, k = (if 0 < v then 2 * v.toNat - 1 else 2 * (-v).toNat) := ⟨_, rfl⟩
  have hk2 : k ≤ 2 ^ 24 := by rw [hk]; split <;> omega
  have hf : toFloat k = k := by
    rw [toFloat]
    split
    · rfl
    · obtain rfl : k = 2 ^ 24 := by omega
      decide +kernel
  have hval : (if (k + 1) % 2 = 0 then (1 : Int) else -1) * (((k + 1) / 2 : Nat) : Int) = v := by
    rw [hk]
    split
    · obtain ⟨n, hn⟩ : ∃ n : Nat, v = n + 1 := ⟨v.toNat - 1, by omega⟩
      rw [hn, show 2 * ((n : Int) + 1).toNat - 1 + 1 = 2 * (n + 1) by omega, if_pos (by omega)]
      simp
    · obtain ⟨n, hn⟩ : ∃ n : Nat, v = -(n : Int) := ⟨(-v).toNat, by omega⟩
      rw [hn, show 2 * (- -(n : Int)).toNat = 2 * n by omega, if_neg (by omega)]
      have : (2 * n + 1) / 2 = n := by omega
      rw [this]; simp
  have h1 := reads_ue k (by omega)
  have h2 : Reads se (ueBits k ++ []) v := by
    refine Reads.bind h1 ?_
    simp only [hf]
    rw [if_neg (by omega)]
    have := Reads.pure ((if (k + 1) % 2 = 0 then (1 : Int) else -1) * (((k + 1) / 2 : Nat) : Int))
    rw [hval] at this
    rw [← hval] at this ⊢
    simpa [hval] using this
  rw [List.append_nil, hk] at h2
  exact h2

end Verif.H264
