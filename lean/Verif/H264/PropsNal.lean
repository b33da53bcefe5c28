import Verif.H264.Model
import Verif.H264.Spec
import Mathlib.Tactic

namespace Verif.H264
open Verif.BitStream (Byte Word Mem RErr RState)
open Spec (escape escapeFrom)

/-! ### Escaping -/

theorem escape_ne {b : Byte} (hb : b ≠ 0) (rest : List Byte) : escape (b :: rest) = b :: escape rest := by
  have h1 : escapeFrom 0 (b :: rest) = b :: escapeFrom 0 rest := by rw [escapeFrom, if_neg (by omega), if_neg hb]
  rw [escape, h1, escape, List.cons_append]
  congr 2
  cases rest with
  | nil => rw [if_neg (fun h => hb (Option.some.inj (List.getLast?_singleton.symm.trans h))), if_neg (by simp)]
  | cons c r => rw [List.getLast?_cons_cons]

theorem escape_zero_ne {b : Byte} (hb : b ≠ 0) (rest : List Byte) : escape (0 :: b :: rest) = 0 :: escape (b :: rest) := by
  rw [escape_ne hb]
  simp only [escape]
  rw [List.getLast?_cons_cons]
  simp only [escapeFrom, hb, if_false, if_true]
  simp only [show ¬ (2 ≤ 0 ∧ (0 : Byte).toNat ≤ 3) by omega, show ¬ (2 ≤ 0 + 1 ∧ b.toNat ≤ 3) by omega, if_false, List.cons_append]
  congr 3
  cases rest with
  | nil => rw [if_neg (fun h => hb (Option.some.inj (List.getLast?_singleton.symm.trans h))), if_neg (by simp)]
  | cons c r => rw [List.getLast?_cons_cons]

theorem escape_zero_zero_le {c : Byte} (hc : c.toNat ≤ 3) (rest : List Byte) : escape (0 :: 0 :: c :: rest) = 0 :: 0 :: 3 :: escape (c :: rest) := by
  simp only [escape, List.getLast?_cons_cons, escapeFrom, if_true]
  simp only [show ¬ (2 ≤ 0 ∧ (0 : Byte).toNat ≤ 3) by omega, show ¬ (2 ≤ 0 + 1 ∧ (0 : Byte).toNat ≤ 3) by omega, if_false,
    show (2 ≤ 0 + 1 + 1 ∧ c.toNat ≤ 3) from ⟨by omega, hc⟩, if_true, List.cons_append, show ¬ (2 ≤ 0 ∧ c.toNat ≤ 3) by omega]
  simp

theorem escape_zero_zero_gt {c : Byte} (hc : ¬ c.toNat ≤ 3) (rest : List Byte) : escape (0 :: 0 :: c :: rest) = 0 :: 0 :: escape (c :: rest) := by
  have h0 : c ≠ 0 := by rintro rfl; simp at hc
  simp only [escape, List.getLast?_cons_cons, escapeFrom, if_true, h0, if_false]
  simp only [show ¬ (2 ≤ 0 ∧ (0 : Byte).toNat ≤ 3) by omega, show ¬ (2 ≤ 0 + 1 ∧ (0 : Byte).toNat ≤ 3) by omega, if_false,
    show ¬ (2 ≤ 0 + 1 + 1 ∧ c.toNat ≤ 3) by omega, List.cons_append, show ¬ (2 ≤ 0 ∧ c.toNat ≤ 3) by omega]

theorem decodeLoop_ne {x : Byte} (hx : x ≠ 0) {l : List Byte} (hl : l ≠ []) : decodeLoop (x :: l) = x :: decodeLoop l := by
  match l, hl with
  | [y], _ => simp only [decodeLoop]
  | y :: z :: r, _ => rw [decodeLoop, if_neg (fun h => hx h.1)]

theorem escape_nil {p : List Byte} (h : escape p = []) : p = [] := by
  cases p with
  | nil => rfl
  | cons b r =>
    simp only [escape, escapeFrom] at h
    simp at h

/-- What the decoder makes of an escaped payload: the payload, unless that ends with a byte 3, which is lost. -/
theorem decode_escape : ∀ (n : Nat) (p : List Byte), p.length ≤ n → decodeLoop (escape p) = if p.getLast? = some 3 then p.dropLast else p := by
  intro n
  induction n with
  | zero =>
    intro p hp
    obtain rfl : p = [] := List.length_eq_zero_iff.mp (by omega)
    rfl
  | succ n ih =>
    intro p hp
    match p, hp with
    | [], _ => rfl
    | [b], _ =>
      by_cases h0 : b = 0
      · subst h0; rfl
      · rw [escape_ne h0]
        show decodeLoop [b] = _
        rw [decodeLoop]
        by_cases h3 : b = 3 <;> simp [h3]
    | b :: c :: r, hp =>
      have hlast : (b :: c :: r).getLast? = (c :: r).getLast? := List.getLast?_cons_cons
      have hdrop : (b :: c :: r).dropLast = b :: (c :: r).dropLast := rfl
      have hih := ih (c :: r) (by simp at hp ⊢; omega)
      by_cases h0 : b = 0
      · subst h0
        by_cases hc0 : c = 0
        · subst hc0
          match r, hp, hlast, hdrop, hih with
          | [], _, _, _, _ => rfl
          | d :: r, hp, hlast, hdrop, hih =>
            have hih2 := ih (d :: r) (by simp at hp ⊢; omega)
            have hlast2 : (0 :: d :: r : List Byte).getLast? = (d :: r).getLast? := List.getLast?_cons_cons
            by_cases hd : d.toNat ≤ 3
            · rw [escape_zero_zero_le hd, decodeLoop, if_pos (by simp), hih2, hlast, hlast2]
              split
              · simp
              · rfl
            · have hd0 : d ≠ 0 := by rintro rfl; simp at hd
              have hd3 : d ≠ 3 := by rintro rfl; simp at hd
              have e : escape (0 :: d :: r) = 0 :: escape (d :: r) := escape_zero_ne hd0 r
              rw [escape_zero_zero_gt hd]
              have : decodeLoop (0 :: 0 :: escape (d :: r)) = 0 :: decodeLoop (0 :: escape (d :: r)) := by
                rw [escape_ne hd0, decodeLoop, if_neg (fun h => hd3 h.2.2)]
              rw [this, ← e, hih, hlast]
              split <;> simp
        · rw [escape_zero_ne hc0]
          have : decodeLoop (0 :: escape (c :: r)) = 0 :: decodeLoop (escape (c :: r)) := by
            rw [escape_ne hc0]
            cases hr : escape r with
            | nil => simp only [decodeLoop]
            | cons x l => rw [decodeLoop, if_neg (fun h => hc0 h.2.1)]
          rw [this, hih, hlast]
          split <;> simp
      · rw [escape_ne h0, decodeLoop_ne h0 (fun h => by have := escape_nil h; simp at this), hih, hlast]
        split <;> simp

/-- C40 (partial: payloads that do not end with a byte 3). A NAL unit escaped as the standard says is decoded to its header and its payload. -/
theorem nal_roundtrip_partial (ref type : Nat) (hr : ref < 4) (ht : type < 32) (payload : List Byte) (h3 : payload.getLast? ≠ some 3) :
    decodeNal (BitVec.ofNat 8 (ref * 32 + type) :: escape payload) = some ⟨ref, type, BitVec.ofNat 8 (ref * 32 + type) :: payload⟩ := by
  have h1 := decode_escape payload.length payload (le_refl _)
  rw [if_neg h3] at h1
  have h2 : (BitVec.ofNat 8 (ref * 32 + type)).toNat = ref * 32 + type := by rw [BitVec.toNat_ofNat, Nat.mod_eq_of_lt (by omega)]
  simp only [decodeNal, h1, h2]
  congr 2 <;> omega

example : escape [0, 0, 1, 0, 0, 0, 0, 3, 9] = [0, 0, 3, 1, 0, 0, 3, 0, 0, 3, 3, 9] ∧ ([0, 0, 1, 0, 0, 0, 0, 3, 9] : List Byte).getLast? ≠ some 3 := by
  decide +kernel

/-- C40 fails for every payload that ends with a byte 3, as a parameter set may: that byte is lost. -/
theorem nal_loses_last_three (h : Byte) (payload : List Byte) : ∃ nal, decodeNal (h :: escape (payload ++ [3])) = some nal ∧ nal.rbsp = h :: payload := by
  refine ⟨_, rfl, ?_⟩
  have := decode_escape _ (payload ++ [3]) (le_refl _)
  rw [if_pos (by simp)] at this
  rw [this]; simp

/-! ### In place -/

theorem inPlaceLoop_spec (n : Nat) : ∀ (fuel idx w : Nat) (m : Mem), idx ≤ n → n - idx < fuel → w ≤ idx + 1 →
    (∀ i, i < w → (inPlaceLoop n fuel idx w m).1 i = m i) ∧ w ≤ (inPlaceLoop n fuel idx w m).2 ∧ (inPlaceLoop n fuel idx w m).2 ≤ n + 1 ∧
      (List.range ((inPlaceLoop n fuel idx w m).2 - w)).map (fun i => (inPlaceLoop n fuel idx w m).1 (w + i)) =
        decodeLoop ((List.range (n - idx)).map fun i => m (idx + 1 + i)) := by
  intro fuel
  induction fuel with
  | zero => intro idx w m _ h _; omega
  | succ fuel ih =>
    intro idx w m hidx hf hw
    simp only [inPlaceLoop]
    by_cases hlt : idx < n
    · rw [if_pos hlt]
      have hrange : ∀ k, 0 < k → ∀ (g : Nat → Byte), (List.range k).map g = g 0 :: (List.range (k - 1)).map fun i => g (i + 1) := by
        intro k hk g
        obtain ⟨j, rfl⟩ : ∃ j, k = j + 1 := ⟨k - 1, by omega⟩
        rw [List.range_succ_eq_map, List.map_cons, List.map_map]
        rfl
      have hL1 := hrange (n - idx) (by omega) fun i => m (idx + 1 + i)
      by_cases hlast : idx + 1 = n ∧ m (idx + 1) = 3
      · rw [if_pos hlast, hL1, show n - idx - 1 = 0 by omega]
        refine ⟨fun _ _ => rfl, le_refl _, by simp; omega, ?_⟩
        simp [decodeLoop, hlast.2]
      · rw [if_neg hlast]
        by_cases h3 : idx + 2 < n ∧ m (idx + 1) = 0 ∧ m (idx + 2) = 0 ∧ m (idx + 3) = 3
        · rw [if_pos h3]
          obtain ⟨m', hm'⟩ : ∃ m' : Mem, m' = fun i => if i = w ∨ i = w + 1 then 0 else m i := ⟨_, rfl⟩
          rw [← hm']
          obtain ⟨i1, i2, i3, i4⟩ := ih (idx + 3) (w + 2) m' (by omega) (by omega) (by omega)
          obtain ⟨R, hR⟩ : ∃ R, R = inPlaceLoop n fuel (idx + 3) (w + 2) m' := ⟨_, rfl⟩
          rw [← hR] at i1 i2 i3 i4 ⊢
          refine ⟨fun i hi => ?_, by omega, i3, ?_⟩
          · rw [i1 i (by omega), hm']; simp only; rw [if_neg (by omega)]
          · rw [hL1, hrange (n - idx - 1) (by omega), hrange (n - idx - 1 - 1) (by omega)]
            rw [decodeLoop, if_pos ⟨h3.2.1, h3.2.2.1, h3.2.2.2⟩]
            rw [hrange (R.2 - w) (by omega), hrange (R.2 - w - 1) (by omega)]
            rw [show R.1 (w + 0) = 0 by rw [i1 _ (by omega), hm']; simp, show R.1 (w + (0 + 1)) = 0 by rw [i1 _ (by omega), hm']; simp]
            congr 2
            have e1 : (List.range (n - (idx + 3))).map (fun i => m' (idx + 3 + 1 + i)) =
                (List.range (n - idx - 1 - 1 - 1)).map fun i => m (idx + 1 + (i + 1 + 1 + 1)) := by
              rw [show n - idx - 1 - 1 - 1 = n - (idx + 3) by omega]
              apply List.map_congr_left
              intro i _
              rw [hm']; simp only
              rw [if_neg (by omega)]
              congr 1; omega
            rw [e1] at i4
            rw [← i4, show R.2 - (w + 2) = R.2 - w - 1 - 1 by omega]
            apply List.map_congr_left
            intro i _
            exact congrArg R.1 (by omega)
        · rw [if_neg h3]
          obtain ⟨m', hm'⟩ : ∃ m' : Mem, m' = fun i => if i = w then m (idx + 1) else m i := ⟨_, rfl⟩
          rw [← hm']
          obtain ⟨i1, i2, i3, i4⟩ := ih (idx + 1) (w + 1) m' (by omega) (by omega) (by omega)
          obtain ⟨R, hR⟩ : ∃ R, R = inPlaceLoop n fuel (idx + 1) (w + 1) m' := ⟨_, rfl⟩
          rw [← hR] at i1 i2 i3 i4 ⊢
          refine ⟨fun i hi => ?_, by omega, i3, ?_⟩
          · rw [i1 i (by omega), hm']; simp only; rw [if_neg (by omega)]
          · have e1 : (List.range (n - (idx + 1))).map (fun i => m' (idx + 1 + 1 + i)) = (List.range (n - idx - 1)).map fun i => m (idx + 1 + (i + 1)) := by
              rw [show n - idx - 1 = n - (idx + 1) by omega]
              apply List.map_congr_left
              intro i _
              rw [hm']; simp only
              rw [if_neg (by omega)]
              congr 1; omega
            rw [e1] at i4
            have hdec : decodeLoop ((List.range (n - idx)).map fun i => m (idx + 1 + i)) =
                m (idx + 1) :: decodeLoop ((List.range (n - idx - 1)).map fun i => m (idx + 1 + (i + 1))) := by
              rw [hL1]
              by_cases h1 : idx + 1 = n
              · rw [show n - idx - 1 = 0 by omega]
                have : m (idx + 1) ≠ 3 := fun h => hlast ⟨h1, h⟩
                simp only [List.range_zero, List.map_nil, decodeLoop, Nat.add_zero]; rw [if_neg this]
              · rw [hrange (n - idx - 1) (by omega)]
                by_cases h2 : idx + 2 = n
                · rw [show n - idx - 1 - 1 = 0 by omega]
                  simp only [List.range_zero, List.map_nil]
                  rw [decodeLoop]; rfl
                · rw [hrange (n - idx - 1 - 1) (by omega)]
                  rw [decodeLoop, if_neg (fun h => h3 ⟨by omega, h.1, h.2.1, h.2.2⟩)]
                  
            rw [hdec, ← i4, hrange (R.2 - w) (by omega), show R.1 (w + 0) = m (idx + 1) by rw [i1 _ (by omega), hm']; simp,
              show R.2 - (w + 1) = R.2 - w - 1 by omega]
            congr 1
            apply List.map_congr_left
            intro i _
            exact congrArg R.1 (by omega)
    · rw [if_neg hlt, show n - idx = 0 by omega]
      exact ⟨fun _ _ => rfl, le_refl _, by simp; omega, by simp [decodeLoop]⟩

/-- C40: decoding over the input gives the same bytes as decoding to other memory, for every unit. -/
theorem nal_in_place (unit : List Byte) (m : Mem) (hm : ∀ i (h : i < unit.length), m i = unit[i]) (hu : unit ≠ []) :
    ∃ nal, decodeNal unit = some nal ∧ nal.rbsp = (List.range (decodeInPlace unit.length m).2).map (decodeInPlace unit.length m).1 := by
  match unit, hu with
  | h :: rest, _ =>
    refine ⟨_, rfl, ?_⟩
    simp only [decodeInPlace, List.length_cons, Nat.add_sub_cancel]
    obtain ⟨i1, i2, i3, i4⟩ := inPlaceLoop_spec rest.length (rest.length + 1) 0 1 m (by omega) (by omega) (by omega)
    obtain ⟨R, hR⟩ : ∃ R, R = inPlaceLoop rest.length (rest.length + 1) 0 1 m := ⟨_, rfl⟩
    rw [← hR] at i1 i2 i3 i4 ⊢
    have e : ((List.range (rest.length - 0)).map fun i => m (0 + 1 + i)) = rest := by
      apply List.ext_getElem (by simp)
      intro i h1 h2
      have := hm (i + 1) (by simp; omega)
      simp only [List.getElem_map, List.getElem_range]
      rw [show 0 + 1 + i = i + 1 by omega, this]; rfl
    rw [e] at i4
    obtain ⟨j, hj⟩ : ∃ j, R.2 = j + 1 := ⟨R.2 - 1, by omega⟩
    rw [hj, List.range_succ_eq_map, List.map_cons, List.map_map, ← i4, hj, show j + 1 - 1 = j by omega]
    congr 1
    · rw [i1 0 (by omega)]; exact (hm 0 (by simp)).symm
    · apply List.map_congr_left
      intro i _
      show R.1 (1 + i) = R.1 (i + 1)
      rw [Nat.add_comm]

example : (decodeInPlace 7 fun i => ([0x65, 0, 0, 3, 1, 0, 9] : List Byte).getD i 0).2 = 6 := by decide +kernel

end Verif.H264
