import Verif.BitStream.Spec

namespace Verif.BitStream
open Spec

/-- bit `i` of memory, most significant bit of each byte first -/
def bitAt (m : Mem) (i : Nat) : Bool := (m (i / 8)).getLsbD (7 - i % 8)

theorem tmask_aux : ∀ n : Fin 33, ∀ j : Fin 32,
    (tmaskTable.getD n.val 0).getLsbD j.val = decide (j.val < n.val) := by decide +kernel

theorem tmask_len : tmaskTable.length = 33 := rfl

theorem tmask_some (n : Nat) (h : n ≤ 32) :
    ∃ m, tmaskTable[n]? = some m ∧ ∀ j, m.getLsbD j = decide (j < n) := by
  have hl : n < tmaskTable.length := by rw [tmask_len]; omega
  refine ⟨tmaskTable[n], List.getElem?_eq_getElem hl, fun j => ?_⟩
  by_cases hj : j < 32
  · have := tmask_aux ⟨n, by omega⟩ ⟨j, hj⟩
    simpa [List.getD, List.getElem?_eq_getElem hl] using this
  · rw [BitVec.getLsbD_of_ge _ _ (by omega)]
    have : ¬ j < n := by omega
    simp [this]

theorem tmask_none (n : Nat) (h : 32 < n) : tmaskTable[n]? = none := by
  apply List.getElem?_eq_none; rw [tmask_len]; omega

theorem bitAt_orByte (s : WState) (j : Nat) (b : Byte) (i : Nat) :
    bitAt (orByte s j b).mem i = (bitAt s.mem i || (decide (i / 8 = j) && b.getLsbD (7 - i % 8))) := by
  simp only [bitAt, orByte]
  by_cases h : i / 8 = j <;> simp [h]

theorem shr_byte (tmp : Word) (k j : Nat) (hj : j < 8) :
    ((tmp >>> k).setWidth 8 : BitVec 8).getLsbD j = tmp.getLsbD (k + j) := by
  simp [hj]

theorem set_byte (tmp : Word) (j : Nat) (hj : j < 8) :
    (tmp.setWidth 8 : BitVec 8).getLsbD j = tmp.getLsbD j := by
  simp [hj]

/-- the four (or five) byte writes set exactly the bits `cur .. cur+n-1` -/
theorem putCore_bits (s s' : WState) (value val : Word) (n : Nat) (hn : n ≤ 32)
    (hv : ∀ j, val.getLsbD j = (decide (j < n) && value.getLsbD j))
    (h : putCore s value val n = some s') (i : Nat) :
    bitAt s'.mem i = (bitAt s.mem i ||
      (decide (s.cur ≤ i ∧ i < s.cur + n) && value.getLsbD (s.cur + n - 1 - i))) := by
  obtain ⟨a, b, hb8, hcur⟩ : ∃ a b, b < 8 ∧ s.cur = 8 * a + b := ⟨s.cur / 8, s.cur % 8, by omega, by omega⟩
  obtain ⟨q, r, hr8, hi⟩ : ∃ q r, r < 8 ∧ i = 8 * q + r := ⟨i / 8, i % 8, by omega, by omega⟩
  have hda : s.cur / 8 = a := by omega
  have hdb : s.cur % 8 = b := by omega
  have hdq : i / 8 = q := by omega
  have hdr : i % 8 = r := by omega
  unfold putCore at h
  simp only [hda, hdb] at h
  split at h
  · contradiction
  split at h
  · rename_i h0 h1
    injection h with h
    subst h
    simp only [bitAt_orByte, hdq, hdr]
    rw [shr_byte _ _ _ (by omega), shr_byte _ _ _ (by omega), shr_byte _ _ _ (by omega),
      set_byte _ _ (by omega)]
    simp only [BitVec.getLsbD_shiftLeft, hv]
    by_cases hin : s.cur ≤ i ∧ i < s.cur + n
    · rw [decide_eq_true hin, Bool.true_and]
      have hk : q = a ∨ q = a + 1 ∨ q = a + 2 ∨ q = a + 3 := by
        omega
      have e : ∀ c, c + 8 * (q - a) = 24 →
          c + (7 - r) - (32 - n - b) = s.cur + n - 1 - i := by intro c hc; omega
      have e0 := e 0
      simp only [Nat.zero_add] at e0
      clear hda hdb hdq hdr
      rcases hk with hk | hk | hk | hk
      · have hd : decide (q = a + 1) = false := by simp; omega
        have hd2 : decide (q = a + 2) = false := by simp; omega
        have hd3 : decide (q = a + 3) = false := by simp; omega
        rw [hd, hd2, hd3, decide_eq_true hk, e 24 (by omega)]
        have a1 : decide (24 + (7 - r) < 32) = true := by simp; omega
        have a2 : decide (24 + (7 - r) < 32 - n - b) = false := by simp; omega
        have a3 : decide (s.cur + n - 1 - i < n) = true := by simp; omega
        simp [a1, a2, a3]
      · have hd : decide (q = a) = false := by simp; omega
        have hd2 : decide (q = a + 2) = false := by simp; omega
        have hd3 : decide (q = a + 3) = false := by simp; omega
        rw [hd, hd2, hd3, decide_eq_true hk, e 16 (by omega)]
        have a1 : decide (16 + (7 - r) < 32) = true := by simp; omega
        have a2 : decide (16 + (7 - r) < 32 - n - b) = false := by simp; omega
        have a3 : decide (s.cur + n - 1 - i < n) = true := by simp; omega
        simp [a1, a2, a3]
      · have hd : decide (q = a) = false := by simp; omega
        have hd2 : decide (q = a + 1) = false := by simp; omega
        have hd3 : decide (q = a + 3) = false := by simp; omega
        rw [hd, hd2, hd3, decide_eq_true hk, e 8 (by omega)]
        have a1 : decide (8 + (7 - r) < 32) = true := by simp; omega
        have a2 : decide (8 + (7 - r) < 32 - n - b) = false := by simp; omega
        have a3 : decide (s.cur + n - 1 - i < n) = true := by simp; omega
        simp [a1, a2, a3]
      · have hd : decide (q = a) = false := by simp; omega
        have hd2 : decide (q = a + 1) = false := by simp; omega
        have hd3 : decide (q = a + 2) = false := by simp; omega
        rw [hd, hd2, hd3, decide_eq_true hk, e0 (by omega)]
        have a1 : decide ((7 - r) < 32) = true := by simp; omega
        have a2 : decide ((7 - r) < 32 - n - b) = false := by simp; omega
        have a3 : decide (s.cur + n - 1 - i < n) = true := by simp; omega
        simp [a1, a2, a3]
    · rw [decide_eq_false hin, Bool.false_and, Bool.or_false]
      have key : ∀ k c, c + 8 * k = 24 →
          (decide (q = a + k) && (decide (c + (7 - r) < 32) &&
            !decide (c + (7 - r) < 32 - n - b) &&
            (decide (c + (7 - r) - (32 - n - b) < n) &&
              value.getLsbD (c + (7 - r) - (32 - n - b))))) = false := by
        intro k c hc
        by_cases hk : q = a + k
        · by_cases h2 : c + (7 - r) < 32 - n - b
          · simp [h2]
          · have : ¬ (c + (7 - r) - (32 - n - b) < n) := by omega
            simp [this]
        · simp [hk]
      have k0 := key 0 24 rfl
      have k1 := key 1 16 rfl
      have k2 := key 2 8 rfl
      have k3 := key 3 0 rfl
      rw [Nat.add_zero] at k0
      simp only [Nat.zero_add] at k3
      rw [k0, k1, k2, k3]
      simp
  · rename_i h0 h1
    injection h with h
    subst h
    simp only [bitAt_orByte, hdq, hdr]
    rw [shr_byte _ _ _ (by omega), shr_byte _ _ _ (by omega), shr_byte _ _ _ (by omega),
      set_byte _ _ (by omega), set_byte _ _ (by omega)]
    simp only [BitVec.getLsbD_shiftLeft, BitVec.getLsbD_ushiftRight, hv]
    by_cases hin : s.cur ≤ i ∧ i < s.cur + n
    · rw [decide_eq_true hin, Bool.true_and]
      have hk : q = a ∨ q = a + 1 ∨ q = a + 2 ∨
          q = a + 3 ∨ q = a + 4 := by omega
      have e : ∀ c, c + 8 * (q - a) = 24 →
          n + b - 32 + (c + (7 - r)) = s.cur + n - 1 - i := by intro c hc; omega
      have e0 := e 0
      simp only [Nat.zero_add] at e0
      have a3 : decide (s.cur + n - 1 - i < n) = true := by simp; omega
      clear hda hdb hdq hdr
      rcases hk with hk | hk | hk | hk | hk
      · have hd : decide (q = a + 1) = false := by simp; omega
        have hd2 : decide (q = a + 2) = false := by simp; omega
        have hd3 : decide (q = a + 3) = false := by simp; omega
        have hd4 : decide (q = a + 4) = false := by simp; omega
        rw [hd, hd2, hd3, hd4, decide_eq_true hk, e 24 (by omega)]
        simp [a3]
      · have hd : decide (q = a) = false := by simp; omega
        have hd2 : decide (q = a + 2) = false := by simp; omega
        have hd3 : decide (q = a + 3) = false := by simp; omega
        have hd4 : decide (q = a + 4) = false := by simp; omega
        rw [hd, hd2, hd3, hd4, decide_eq_true hk, e 16 (by omega)]
        simp [a3]
      · have hd : decide (q = a) = false := by simp; omega
        have hd2 : decide (q = a + 1) = false := by simp; omega
        have hd3 : decide (q = a + 3) = false := by simp; omega
        have hd4 : decide (q = a + 4) = false := by simp; omega
        rw [hd, hd2, hd3, hd4, decide_eq_true hk, e 8 (by omega)]
        simp [a3]
      · have hd : decide (q = a) = false := by simp; omega
        have hd2 : decide (q = a + 1) = false := by simp; omega
        have hd3 : decide (q = a + 2) = false := by simp; omega
        have hd4 : decide (q = a + 4) = false := by simp; omega
        rw [hd, hd2, hd3, hd4, decide_eq_true hk, e0 (by omega)]
        simp [a3]
      · have hd : decide (q = a) = false := by simp; omega
        have hd2 : decide (q = a + 1) = false := by simp; omega
        have hd3 : decide (q = a + 2) = false := by simp; omega
        have hd4 : decide (q = a + 3) = false := by simp; omega
        have e4 : 7 - r - (8 - (n + b - 32)) = s.cur + n - 1 - i := by omega
        rw [hd, hd2, hd3, hd4, decide_eq_true hk, e4]
        have a1 : decide (7 - r < 32) = true := by simp; omega
        have a2 : decide (7 - r < 8 - (n + b - 32)) = false := by simp; omega
        simp [a1, a2]
    · rw [decide_eq_false hin, Bool.false_and, Bool.or_false]
      have key : ∀ k c, c + 8 * k = 24 →
          (decide (q = a + k) &&
            (decide (n + b - 32 + (c + (7 - r)) < n) &&
              value.getLsbD (n + b - 32 + (c + (7 - r))))) = false := by
        intro k c hc
        by_cases hk : q = a + k
        · have : ¬ (n + b - 32 + (c + (7 - r)) < n) := by omega
          simp [this]
        · simp [hk]
      have k0 := key 0 24 rfl
      have k1 := key 1 16 rfl
      have k2 := key 2 8 rfl
      have k3 := key 3 0 rfl
      have k4 : (decide (q = a + 4) && (decide (7 - r < 32) &&
          !decide (7 - r < 8 - (n + b - 32)) &&
          value.getLsbD (7 - r - (8 - (n + b - 32))))) = false := by
        by_cases hk : q = a + 4
        · have : (7 - r < 8 - (n + b - 32)) := by omega
          simp [this]
        · simp [hk]
      rw [Nat.add_zero] at k0
      simp only [Nat.zero_add] at k3
      rw [k0, k1, k2, k3, k4]
      simp

theorem putCore_fields (s s' : WState) (value val : Word) (n : Nat) (h : putCore s value val n = some s') :
    s'.size = s.size ∧ s'.cur = s.cur + n ∧ s'.tot = s.tot + n ∧ s'.out = s.out ∧
    s'.hi = max s.hi (s.cur / 8 + (if n + s.cur % 8 ≤ 32 then 4 else 5)) := by
  unfold putCore at h
  simp only at h
  split at h
  · contradiction
  split at h
  · rename_i h1
    injection h with h; subst h
    refine ⟨rfl, rfl, rfl, rfl, ?_⟩
    simp only [orByte, h1, if_true]; omega
  · rename_i h1
    injection h with h; subst h
    refine ⟨rfl, rfl, rfl, rfl, ?_⟩
    simp only [orByte, h1, if_false]; omega

theorem putCore_some (s : WState) (value val : Word) (n : Nat) (hn : 1 ≤ n) :
    ∃ s', putCore s value val n = some s' := by
  unfold putCore
  simp only
  rw [if_neg (by omega)]
  split <;> exact ⟨_, rfl⟩

/-! lists of bits -/

theorem range_map_add {α} (f : Nat → α) (a b : Nat) :
    (List.range (a + b)).map f = (List.range a).map f ++ (List.range b).map (fun i => f (a + i)) := by
  rw [List.range_add, List.map_append, List.map_map]; rfl

theorem bytesBits_append (a b : List Byte) : bytesBits (a ++ b) = bytesBits a ++ bytesBits b := by
  simp [bytesBits]

theorem bytesBits_range (m : Mem) (l : Nat) :
    bytesBits ((List.range l).map m) = (List.range (8 * l)).map (bitAt m) := by
  induction l with
  | zero => rfl
  | succ l ih =>
    rw [List.range_succ, List.map_append, bytesBits_append, ih, Nat.mul_succ, range_map_add]
    congr 1
    simp only [bytesBits, List.map_cons, List.map_nil, List.flatMap_cons, List.flatMap_nil, List.append_nil,
      fieldBits]
    apply List.map_congr_left
    intro i hi
    rw [List.mem_range] at hi
    simp only [bitAt]
    rw [show (8 * l + i) / 8 = l by omega, show (8 * l + i) % 8 = i by omega]

theorem fieldBits_length {w} (v : BitVec w) (n : Nat) : (fieldBits v n).length = n := by simp [fieldBits]

theorem bytesBits_length (bs : List Byte) : (bytesBits bs).length = 8 * bs.length := by
  induction bs with
  | nil => rfl
  | cons b bs ih =>
    simp only [bytesBits, List.flatMap_cons, List.length_append, fieldBits_length] at *
    rw [ih]; simp; omega

/-- Writer invariant: `bits` is everything written so far. -/
structure WInv (s : WState) (beyond : Mem) (bits : List Bool) : Prop where
  size5 : 5 ≤ s.size
  sizeMax : s.size < 2 ^ 29
  cur : s.cur ≤ 8 * s.size
  content : bytesBits s.out ++ (List.range s.cur).map (bitAt s.mem) = bits
  zero : ∀ i, s.cur ≤ i → i < 8 * s.size → bitAt s.mem i = false
  far : ∀ j, s.size ≤ j → s.mem j = beyond j

theorem winit_inv (size : Nat) (beyond : Mem) (h5 : 5 ≤ size) (hm : size < 2 ^ 29) :
    WInv (wInit size beyond) beyond [] := by
  refine ⟨h5, hm, by simp [wInit], by simp [wInit, bytesBits], ?_, ?_⟩
  · intro i _ hi
    have hi' : i < 8 * size := hi
    have : i / 8 < size := by omega
    simp [bitAt, wInit, this]
  · intro j hj
    have hj' : size ≤ j := hj
    have : ¬ j < size := by omega
    simp [wInit, this]

theorem flushBuf_inv (s : WState) (beyond : Mem) (bits : List Bool) (h : WInv s beyond bits) :
    WInv (flushBuf s) beyond bits ∧ (flushBuf s).cur = s.cur % 8 ∧ (flushBuf s).size = s.size ∧
      (flushBuf s).tot = s.tot ∧ (flushBuf s).hi ≤ max s.hi s.size := by
  obtain ⟨h5, hm, hc, hcon, hz, hf⟩ := h
  by_cases h8 : s.cur % 8 ≠ 0
  · have hcs : s.cur / 8 < s.size := by omega
    refine ⟨⟨by simpa [flushBuf, h8] using h5, by simpa [flushBuf, h8] using hm, ?_, ?_, ?_, ?_⟩, ?_, ?_, ?_, ?_⟩
    · simp only [flushBuf, h8, if_true, ne_eq, not_false_eq_true]; omega
    · simp only [flushBuf, h8, if_true, ne_eq, not_false_eq_true]
      rw [← hcon, bytesBits_append, bytesBits_range, List.append_assoc]
      congr 1
      conv => rhs; rw [show s.cur = 8 * (s.cur / 8) + s.cur % 8 by omega, range_map_add]
      congr 1
      · apply List.map_congr_left
        intro i hi
        rw [List.mem_range] at hi
        simp only [bitAt]
        rw [show i / 8 = 0 by omega, if_pos rfl,
          show (8 * (s.cur / 8) + i) / 8 = s.cur / 8 by omega, show (8 * (s.cur / 8) + i) % 8 = i % 8 by omega]
    · intro i hi hi2
      simp only [flushBuf, h8, if_true, ne_eq, not_false_eq_true] at hi hi2
      simp only [bitAt, flushBuf, h8, if_true, ne_eq, not_false_eq_true]
      by_cases hi0 : i / 8 = 0
      · rw [if_pos hi0]
        have := hz (8 * (s.cur / 8) + i) (by omega) (by omega)
        simp only [bitAt] at this
        rwa [show (8 * (s.cur / 8) + i) / 8 = s.cur / 8 by omega,
          show (8 * (s.cur / 8) + i) % 8 = i % 8 by omega] at this
      · rw [if_neg hi0, if_pos (by omega)]; simp
    · intro j hj
      simp only [flushBuf, h8, if_true, ne_eq, not_false_eq_true] at hj
      simp only [flushBuf, h8, if_true, ne_eq, not_false_eq_true]
      rw [if_neg (by omega), if_neg (by omega)]; exact hf j hj
    · simp [flushBuf, h8]
    · simp [flushBuf, h8]
    · simp [flushBuf, h8]
    · simp only [flushBuf, h8, if_true, ne_eq, not_false_eq_true]; omega
  · have h8' : s.cur % 8 = 0 := by omega
    refine ⟨⟨by simpa [flushBuf, h8'] using h5, by simpa [flushBuf, h8'] using hm, ?_, ?_, ?_, ?_⟩, ?_, ?_, ?_, ?_⟩
    · simp [flushBuf, h8']
    · simp only [flushBuf, h8', ne_eq, not_true_eq_false, if_false]
      rw [← hcon, bytesBits_append, bytesBits_range]
      simp only [List.range_zero, List.map_nil, List.append_nil]
      rw [show 8 * (s.cur / 8) = s.cur by omega]
    · intro i hi hi2
      simp only [flushBuf, h8', ne_eq, not_true_eq_false, if_false] at hi hi2
      simp only [bitAt, flushBuf, h8', ne_eq, not_true_eq_false, if_false]
      rw [if_pos (by omega)]; simp
    · intro j hj
      simp only [flushBuf, h8', ne_eq, not_true_eq_false, if_false] at hj
      simp only [flushBuf, h8', ne_eq, not_true_eq_false, if_false]
      rw [if_neg (by omega)]; exact hf j hj
    · simp [flushBuf, h8']
    · simp [flushBuf, h8']
    · simp [flushBuf, h8']
    · simp only [flushBuf, h8', ne_eq, not_true_eq_false, if_false]; omega

theorem putCore_inv (s : WState) (beyond : Mem) (bits : List Bool) (value val : Word) (n : Nat)
    (hinv : WInv s beyond bits) (hn1 : 1 ≤ n) (hn : n ≤ 32) (hfit : s.cur + n ≤ 8 * s.size)
    (hv : ∀ j, val.getLsbD j = (decide (j < n) && value.getLsbD j)) :
    ∃ s', putCore s value val n = some s' ∧ WInv s' beyond (bits ++ fieldBits value n) ∧
      s'.tot = s.tot + n ∧ s'.size = s.size ∧ s'.hi ≤ max s.hi (s.size + 3) ∧ s'.cur = s.cur + n ∧
      s'.out = s.out := by
  obtain ⟨s', hs'⟩ := putCore_some s value val n hn1
  obtain ⟨f1, f2, f3, f4, f5⟩ := putCore_fields s s' value val n hs'
  have hb := putCore_bits s s' value val n hn hv hs'
  obtain ⟨h5, hm, hc, hcon, hz, hf⟩ := hinv
  refine ⟨s', hs', ⟨by omega, by omega, by omega, ?_, ?_, ?_⟩, f3, f1, ?_, f2, f4⟩
  · rw [f4, f2, range_map_add, ← hcon, List.append_assoc]
    congr 1
    congr 1
    · apply List.map_congr_left
      intro i hi
      rw [List.mem_range] at hi
      rw [hb i]
      have : ¬ (s.cur ≤ i ∧ i < s.cur + n) := by omega
      simp [this]
    · apply List.map_congr_left
      intro i hi
      rw [List.mem_range] at hi
      rw [hb]
      have hin : (s.cur ≤ s.cur + i ∧ s.cur + i < s.cur + n) := by omega
      rw [hz _ (by omega) (by omega), decide_eq_true hin,
        show s.cur + n - 1 - (s.cur + i) = n - 1 - i by omega]
      simp
  · intro i hi hi2
    rw [f2] at hi
    rw [f1] at hi2
    rw [hb, hz i (by omega) hi2]
    have : ¬ (s.cur ≤ i ∧ i < s.cur + n) := by omega
    simp [this]
  · intro j hj
    rw [f1] at hj
    rw [← hf j hj]
    -- bytes at or beyond `size` get no new bit
    apply BitVec.eq_of_getLsbD_eq
    intro k hk
    have := hb (8 * j + (7 - k))
    have hout : ¬ (s.cur ≤ 8 * j + (7 - k) ∧ 8 * j + (7 - k) < s.cur + n) := by omega
    rw [decide_eq_false hout, Bool.false_and, Bool.or_false] at this
    simp only [bitAt] at this
    rwa [show (8 * j + (7 - k)) / 8 = j by omega, show 7 - (8 * j + (7 - k)) % 8 = k by omega] at this
  · rw [f5]
    split <;> omega

theorem putbits_inv (s : WState) (beyond : Mem) (bits : List Bool) (value : Word) (n : Nat)
    (hinv : WInv s beyond bits) (hn1 : 1 ≤ n) (hn : n ≤ 32) :
    ∃ s', putbits s value n = some s' ∧ WInv s' beyond (bits ++ fieldBits value n) ∧
      s'.tot = s.tot + n ∧ s'.size = s.size ∧ s'.hi ≤ max s.hi (s.size + 3) := by
  obtain ⟨m, hm, hmb⟩ := tmask_some n hn
  have hv : ∀ j, (value &&& m).getLsbD j = (decide (j < n) && value.getLsbD j) := by
    intro j; rw [BitVec.getLsbD_and, hmb, Bool.and_comm]
  have hmod : s.size * 8 % 2 ^ 32 = 8 * s.size := by
    have := hinv.sizeMax; omega
  simp only [putbits, hm, hmod]
  split
  · obtain ⟨hi, hc, hs, ht, hh⟩ := flushBuf_inv s beyond bits hinv
    have h5 := hinv.size5
    obtain ⟨s', a, b, c, d, e, _, _⟩ := putCore_inv (flushBuf s) beyond bits value (value &&& m) n hi hn1 hn
      (by rw [hc, hs]; omega) hv
    exact ⟨s', a, b, by rw [c, ht], by rw [d, hs], by rw [hs] at e; omega⟩
  · obtain ⟨s', a, b, c, d, e, _, _⟩ := putCore_inv s beyond bits value (value &&& m) n hinv hn1 hn
      (by omega) hv
    exact ⟨s', a, b, c, d, e⟩

theorem flush_inv (s : WState) (beyond : Mem) (bits : List Bool) (hinv : WInv s beyond bits) :
    WInv (flush s) beyond bits ∧ (flush s).cur = s.cur % 8 ∧ (flush s).size = s.size ∧
      (flush s).tot = s.tot ∧ (flush s).hi ≤ max s.hi s.size := by
  unfold flush
  split
  · exact flushBuf_inv s beyond bits hinv
  · exact ⟨hinv, by omega, rfl, rfl, by omega⟩

theorem WInv.length {s beyond bits} (h : WInv s beyond bits) :
    bits.length = 8 * s.out.length + s.cur := by
  rw [← h.content, List.length_append, bytesBits_length]; simp

theorem wRun_inv (ops : List WOp) : ∀ (s : WState) (beyond : Mem) (bits : List Bool),
    WInv s beyond bits → s.tot = bits.length → ok bits.length ops →
    ∃ s', wRun s ops = some s' ∧ WInv s' beyond (bits ++ opsBits ops) ∧
      s'.tot = (bits ++ opsBits ops).length ∧ s'.size = s.size ∧ s'.hi ≤ max s.hi (s.size + 3) := by
  induction ops with
  | nil =>
    intro s beyond bits hi ht _
    exact ⟨s, rfl, by simpa [opsBits] using hi, by simpa [opsBits] using ht, rfl, by omega⟩
  | cons op ops ih =>
    intro s beyond bits hi ht hok
    cases op with
    | put v n =>
      obtain ⟨h1, h2, h3⟩ := hok
      obtain ⟨s1, a, b, c, d, e⟩ := putbits_inv s beyond bits v n hi h1 h2
      have hl : (bits ++ fieldBits v n).length = bits.length + n := by simp [fieldBits_length]
      obtain ⟨s', a', b', c', d', e'⟩ := ih s1 beyond _ b (by rw [c, ht, hl]) (by rw [hl]; exact h3)
      refine ⟨s', ?_, ?_, ?_, by rw [d', d], by rw [d] at e'; omega⟩
      · simp only [wRun, wStep, a, Option.bind_some]; exact a'
      · simpa [opsBits] using b'
      · simpa [opsBits] using c'
    | flush =>
      obtain ⟨b, c, d, t, e⟩ := flush_inv s beyond bits hi
      obtain ⟨s', a', b', c', d', e'⟩ := ih (flush s) beyond _ b (by rw [t, ht]) hok
      refine ⟨s', ?_, b', c', by rw [d', d], by rw [d] at e'; omega⟩
      simp only [wRun, wStep, Option.bind_some]; exact a'
    | bytes bs =>
      obtain ⟨h1, h2⟩ := hok
      obtain ⟨b, c, d, t, e⟩ := flush_inv s beyond bits hi
      have hc0 : (flush s).cur = 0 := by
        have := hi.length; omega
      have hl : (bits ++ bytesBits bs).length = bits.length + bs.length * 8 := by
        rw [List.length_append, bytesBits_length]; omega
      have hinv' : WInv (writeDirect s bs) beyond (bits ++ bytesBits bs) := by
        obtain ⟨i1, i2, i3, i4, i5, i6⟩ := b
        refine ⟨i1, i2, i3, ?_, i5, i6⟩
        show bytesBits ((flush s).out ++ bs) ++ (List.range (flush s).cur).map (bitAt (flush s).mem) = _
        rw [hc0] at i4 ⊢
        rw [bytesBits_append, ← i4]; simp
      obtain ⟨s', a', b', c', d', e'⟩ := ih (writeDirect s bs) beyond _ hinv'
        (by rw [hl]; show (flush s).tot + bs.length * 8 = _; rw [t, ht]) (by rw [hl]; exact h2)
      refine ⟨s', ?_, ?_, ?_, ?_, ?_⟩
      · simp only [wRun, wStep, Option.bind_some]; exact a'
      · simpa [opsBits] using b'
      · simpa [opsBits] using c'
      · rw [d']; exact d
      · have h1 : (writeDirect s bs).size = s.size := d
        have h2 : (writeDirect s bs).hi ≤ max s.hi s.size := e
        rw [h1] at e'; omega

/-! reader -/

theorem load_byte (m : Mem) (i j : Nat) (hj : j < 32) :
    (((m i).setWidth 32 <<< 24) ||| ((m (i + 1)).setWidth 32 <<< 16) |||
        ((m (i + 2)).setWidth 32 <<< 8) ||| (m (i + 3)).setWidth 32 : Word).getLsbD j
      = bitAt m (8 * i + (31 - j)) := by
  simp only [BitVec.getLsbD_or, BitVec.getLsbD_shiftLeft, BitVec.getLsbD_setWidth, bitAt]
  by_cases h1 : j < 8
  · rw [show (8 * i + (31 - j)) / 8 = i + 3 by omega, show 7 - (8 * i + (31 - j)) % 8 = j by omega]
    have a : decide (j < 24) = true := by simp; omega
    have b : decide (j < 16) = true := by simp; omega
    simp [hj, h1, a, b]
  · by_cases h2 : j < 16
    · rw [show (8 * i + (31 - j)) / 8 = i + 2 by omega, show 7 - (8 * i + (31 - j)) % 8 = j - 8 by omega]
      have a : decide (j < 24) = true := by simp; omega
      have c : (m (i + 3)).getLsbD j = false := BitVec.getLsbD_of_ge _ _ (by omega)
      have d : decide (j - 8 < 32) = true := by simp; omega
      simp [hj, h1, a, h2, c, d]
    · by_cases h3 : j < 24
      · rw [show (8 * i + (31 - j)) / 8 = i + 1 by omega, show 7 - (8 * i + (31 - j)) % 8 = j - 16 by omega]
        have c : (m (i + 3)).getLsbD j = false := BitVec.getLsbD_of_ge _ _ (by omega)
        have c2 : (m (i + 2)).getLsbD (j - 8) = false := BitVec.getLsbD_of_ge _ _ (by omega)
        have d : decide (j - 16 < 32) = true := by simp; omega
        simp [hj, h2, h3, c, c2, d]
      · rw [show (8 * i + (31 - j)) / 8 = i by omega, show 7 - (8 * i + (31 - j)) % 8 = j - 24 by omega]
        have c : (m (i + 3)).getLsbD j = false := BitVec.getLsbD_of_ge _ _ (by omega)
        have c2 : (m (i + 2)).getLsbD (j - 8) = false := BitVec.getLsbD_of_ge _ _ (by omega)
        have c3 : (m (i + 1)).getLsbD (j - 16) = false := BitVec.getLsbD_of_ge _ _ (by omega)
        have d : decide (j - 24 < 32) = true := by simp; omega
        simp [hj, h3, c, c2, c3, d]

/-- `nextbits` returns the next `n` bits as a number and they lie inside the buffer. -/
theorem nextbits_spec (s : RState) (n : Nat) (h1 : 1 ≤ n) (h2 : n ≤ 32) (hl : s.len < 2 ^ 29)
    (hfit : s.cur + n ≤ 8 * s.len) :
    ∃ x, nextbits s n = .ok x ∧
      ∀ j, x.getLsbD j = (decide (j < n) && bitAt s.mem (s.cur + n - 1 - j)) := by
  obtain ⟨m, hm, hmb⟩ := tmask_some n h2
  have hmod : s.len * 8 % 2 ^ 32 = 8 * s.len := by omega
  simp only [nextbits, hm, hmod]
  rw [if_neg (by omega), if_neg (by omega)]
  split
  · rename_i h3
    refine ⟨_, rfl, ?_⟩
    intro j
    rw [BitVec.getLsbD_and, hmb, Bool.and_comm]
    by_cases hj : j < n
    · simp only [decide_eq_true hj, Bool.true_and]
      rw [BitVec.getLsbD_ushiftRight, load_byte _ _ _ (by omega)]
      congr 1; omega
    · simp [hj]
  · rename_i h3
    refine ⟨_, rfl, ?_⟩
    intro j
    rw [BitVec.getLsbD_and, hmb, Bool.and_comm]
    by_cases hj : j < n
    · simp only [decide_eq_true hj, Bool.true_and]
      rw [BitVec.getLsbD_or, BitVec.getLsbD_shiftLeft, BitVec.getLsbD_ushiftRight, BitVec.getLsbD_setWidth]
      by_cases hk : j < s.cur % 8 + n - 32
      · rw [decide_eq_true hk]
        simp only [Bool.not_true, Bool.and_false, Bool.false_and, Bool.false_or, bitAt]
        rw [show (s.cur + n - 1 - j) / 8 = s.cur / 8 + 4 by omega,
          show 7 - (s.cur + n - 1 - j) % 8 = 8 - (s.cur % 8 + n - 32) + j by omega]
        have : decide (8 - (s.cur % 8 + n - 32) + j < 32) = true := by simp; omega
        rw [this, Bool.true_and]
      · rw [decide_eq_false hk]
        have hz : (s.mem (s.cur / 8 + 4)).getLsbD (8 - (s.cur % 8 + n - 32) + j) = false :=
          BitVec.getLsbD_of_ge _ _ (by omega)
        rw [hz, load_byte _ _ _ (by omega), decide_eq_true (show j < 32 by omega)]
        simp only [Bool.not_false, Bool.and_false, Bool.true_and, Bool.or_false]
        congr 1; omega
    · simp [hj]

theorem nextbits_end (s : RState) (n : Nat) (h2 : n ≤ 32) (hl : s.len < 2 ^ 29)
    (hfit : 8 * s.len < s.cur + n) : nextbits s n = .error .endOfData := by
  obtain ⟨m, hm, _⟩ := tmask_some n h2
  have hmod : s.len * 8 % 2 ^ 32 = 8 * s.len := by omega
  simp only [nextbits, hm, hmod]
  rw [if_pos (by omega)]

theorem word_of_bits (x : Word) (m : Mem) (cur n : Nat) (v : Word) (_hn : n ≤ 32)
    (hx : ∀ j, x.getLsbD j = (decide (j < n) && bitAt m (cur + n - 1 - j)))
    (hb : (List.range n).map (fun i => bitAt m (cur + i)) = fieldBits v n) :
    x.toNat = v.toNat % 2 ^ n := by
  apply Nat.eq_of_testBit_eq
  intro j
  rw [Nat.testBit_mod_two_pow, BitVec.testBit_toNat, BitVec.testBit_toNat, hx]
  by_cases hj : j < n
  · simp only [decide_eq_true hj, Bool.true_and]
    have := congrArg (fun l => l[n - 1 - j]?) hb
    simp only [fieldBits, List.getElem?_map] at this
    rw [List.getElem?_range (by omega)] at this
    simp only [Option.map_some, Option.some.injEq] at this
    rw [show n - 1 - (n - 1 - j) = j by omega] at this
    rw [← this]; congr 1; omega
  · simp [hj]

theorem getMany_spec (fs : List (Word × Nat)) : ∀ (s : RState), s.len < 2 ^ 29 →
    (∀ f ∈ fs, 1 ≤ f.2 ∧ f.2 ≤ 32) →
    s.cur + (fs.map (·.2)).sum ≤ 8 * s.len →
    (List.range ((fs.map (·.2)).sum)).map (fun i => bitAt s.mem (s.cur + i)) =
      fs.flatMap (fun f => fieldBits f.1 f.2) →
    ∃ xs s', getMany s (fs.map (·.2)) = .ok (xs, s') ∧
      xs.map BitVec.toNat = fs.map (fun f => f.1.toNat % 2 ^ f.2) ∧
      s'.cur = s.cur + (fs.map (·.2)).sum ∧ s'.tot = s.tot + (fs.map (·.2)).sum ∧
      s'.len = s.len ∧ s'.mem = s.mem := by
  induction fs with
  | nil => intro s _ _ _ _; exact ⟨[], s, rfl, rfl, rfl, rfl, rfl, rfl⟩
  | cons f fs ih =>
    intro s hl hw hfit hb
    simp only [List.map_cons, List.sum_cons] at hfit hb ⊢
    obtain ⟨hf1, hf2⟩ := hw f (by simp)
    obtain ⟨x, hx, hxb⟩ := nextbits_spec s f.2 hf1 hf2 hl (by omega)
    rw [range_map_add, List.flatMap_cons] at hb
    obtain ⟨hb1, hb2⟩ := List.append_inj hb (by simp [fieldBits_length])
    obtain ⟨xs, s', h1, h2, h3, h4, h5, h6⟩ := ih { s with cur := s.cur + f.2, tot := s.tot + f.2 } hl
      (fun g hg => hw g (by simp [hg])) (by simpa using (by omega : s.cur + f.2 + (fs.map (·.2)).sum ≤ 8 * s.len))
      (by simpa [Nat.add_assoc] using hb2)
    refine ⟨x :: xs, s', ?_, ?_, ?_, ?_, h5, h6⟩
    · simp only [getMany, getbits, hx, h1]
    · simp only [List.map_cons, h2]
      rw [word_of_bits x s.mem s.cur f.2 f.1 hf2 hxb hb1]
    · rw [h3]; simp; omega
    · rw [h4]; simp; omega

theorem rInit_bits (bs : List Byte) (beyond : Mem) :
    (List.range (8 * bs.length)).map (bitAt (rInit bs beyond).mem) = bytesBits bs := by
  rw [← bytesBits_range]
  congr 1
  apply List.ext_getElem
  · simp
  · intro i h1 h2
    simp [rInit, List.getElem?_eq_getElem h2]

end Verif.BitStream
