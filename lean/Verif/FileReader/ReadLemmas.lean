import Verif.FileReader.Lemmas

namespace Verif.FileReader
open Verif.BitStream (Byte Word Mem RErr tmaskTable bitAt range_map_add bytesBits_append bytesBits_length bytesBits_range fieldBits_length nextbits_spec RState tmask_some)
open Verif.BitStream.Spec (fieldBits bytesBits)

/-! ### Bits of bytes -/

theorem bytesBits_drop (l : List Byte) (a : Nat) : bytesBits (l.drop a) = (bytesBits l).drop (8 * a) := by
  by_cases h : a ≤ l.length
  · conv => rhs; rw [← List.take_append_drop a l, bytesBits_append]
    have hl : (bytesBits (l.take a)).length = 8 * a := by rw [bytesBits_length, List.length_take]; congr 1; omega
    rw [List.drop_left' hl]
  · rw [List.drop_of_length_le (by omega), List.drop_of_length_le (by rw [bytesBits_length]; omega)]; rfl

theorem bytesBits_take (l : List Byte) (a : Nat) : bytesBits (l.take a) = (bytesBits l).take (8 * a) := by
  by_cases h : a ≤ l.length
  · conv => rhs; rw [← List.take_append_drop a l, bytesBits_append]
    have hl : (bytesBits (l.take a)).length = 8 * a := by rw [bytesBits_length, List.length_take]; congr 1; omega
    rw [List.take_left' hl]
  · rw [List.take_of_length_le (by omega), List.take_of_length_le (by rw [bytesBits_length]; omega)]

theorem slice_bits (m : Mem) (n : Nat) : bytesBits (slice m 0 n) = (List.range (8 * n)).map (bitAt m) := by
  rw [← bytesBits_range]
  congr 1
  simp [slice]

/-! ### The bits in the buffer -/

theorem extract_shift (mem : Mem) (cur n : Nat) : extract mem cur n = extract (fun i => mem (cur / 8 + i)) (cur % 8) n := by
  have h1 : cur % 8 % 8 = cur % 8 := by omega
  have h2 : cur % 8 / 8 = 0 := by omega
  simp only [extract, h1, h2, Nat.zero_add, Nat.add_zero]

theorem extract_spec (mem : Mem) (cur n : Nat) (h1 : 1 ≤ n) (h2 : n ≤ 32) :
    ∃ x, extract mem cur n = .ok x ∧ ∀ j, x.getLsbD j = (decide (j < n) && bitAt mem (cur + n - 1 - j)) := by
  obtain ⟨x, hx, hb⟩ := nextbits_spec (⟨fun i => mem (cur / 8 + i), 5, cur % 8, 0⟩ : RState) n h1 h2 (by show 5 < 2 ^ 29; decide) (by show cur % 8 + n ≤ 40; omega)
  refine ⟨x, ?_, ?_⟩
  · rw [extract_shift, ← hx]
    obtain ⟨m, hm, _⟩ := tmask_some n h2
    simp only [extract, Verif.BitStream.nextbits, hm]
    rw [if_neg (show ¬ cur % 8 + n > 5 * 8 % 2 ^ 32 by omega)]
  · intro j
    rw [hb j]
    by_cases hj : j < n
    · simp only [decide_eq_true hj, Bool.true_and, bitAt]
      rw [show (cur + n - 1 - j) / 8 = cur / 8 + (cur % 8 + n - 1 - j) / 8 by omega, show (cur + n - 1 - j) % 8 = (cur % 8 + n - 1 - j) % 8 by omega]
    · simp [hj]

/-- What is in the buffer is what is in the file. -/
theorem base_bits {s : St} {pre mid : List Byte} (B : Base s pre mid) (w : Nat) (hfit : s.cur + w ≤ 8 * s.bufLen) :
    ((bytesBits s.file).drop s.tot).take w = (List.range w).map (fun i => bitAt s.buf (s.cur + i)) := by
  rw [B.tot, ← List.drop_drop, ← bytesBits_drop, B.file, List.drop_append_of_le_length (Nat.le_refl _), List.drop_of_length_le (Nat.le_refl _), List.nil_append,
    bytesBits_append, slice_bits]
  rw [show 8 * s.bufLen = s.cur + (w + (8 * s.bufLen - s.cur - w)) by omega, range_map_add, range_map_add]
  simp only [List.append_assoc]
  rw [List.drop_append_of_le_length (by simp), List.drop_of_length_le (by simp), List.nil_append,
    List.take_append_of_le_length (by simp), List.take_of_length_le (by simp)]

theorem base_field {s : St} {pre mid : List Byte} (B : Base s pre mid) (w : Nat) (h1 : 1 ≤ w) (h2 : w ≤ 32) (hfit : s.cur + w ≤ 8 * s.bufLen) :
    ∃ x, extract s.buf s.cur w = .ok x ∧ fieldBits x w = ((bytesBits s.file).drop s.tot).take w ∧ x.toNat < 2 ^ w := by
  obtain ⟨x, hx, hb⟩ := extract_spec s.buf s.cur w h1 h2
  refine ⟨x, hx, ?_, ?_⟩
  · rw [base_bits B w hfit, fieldBits]
    apply List.map_congr_left
    intro i hi
    have := List.mem_range.1 hi
    rw [hb, decide_eq_true (by omega), Bool.true_and]; congr 1; omega
  · apply Nat.lt_pow_two_of_testBit
    intro i hi
    rw [BitVec.testBit_toNat, hb, decide_eq_false (by omega), Bool.false_and]

/-! ### The next field -/

theorem base_length {s : St} {pre mid : List Byte} (B : Base s pre mid) : s.file.length = pre.length + s.bufLen + mid.length := by
  rw [B.file]; simp [slice_length]; omega

theorem nextbits_state {s : St} {pre mid : List Byte} (G : Good s pre mid) (w : Nat) (h1 : 1 ≤ w) (h2 : w ≤ 32) (h : s.cur + w ≤ 8 * s.bufLen ∨ mid ≠ []) :
    (nextbits s w = .error .endOfData ∧ ¬ Punctual s ∧ s.shadowLen = 0 ∧ s.eof = true) ∨
    ∃ x s' pre' mid', nextbits s w = .ok (x, s') ∧ extract s'.buf s'.cur w = .ok x ∧
      (Good s' pre' mid' ∨ (Bad s' pre' mid' ∧ s.cur / 8 ≠ s.bufLen ∧ 8 * s.bufLen < s.cur + w)) ∧ Keeps s s' ∧ s'.tot = s.tot ∧ s'.cur % 8 = s.cur % 8 ∧
      ((s' = s ∧ pre' = pre ∧ s.cur + w ≤ 8 * s.bufLen) ∨
        (8 * s.bufLen < s.cur + w ∧ mid ≠ [] ∧ s'.cur = s.cur % 8 ∧ pre'.length = pre.length + s.cur / 8)) := by
  by_cases hc : s.cur + w ≤ 8 * s.bufLen
  · right
    obtain ⟨x, hx, _⟩ := extract_spec s.buf s.cur w h1 h2
    refine ⟨x, s, pre, mid, ?_, hx, Or.inl G, Keeps.refl s, rfl, rfl, Or.inl ⟨rfl, rfl, hc⟩⟩
    rw [nextbits, if_neg (by omega), ensure, if_neg (by omega)]
    simp only [hx]
  · have hm : mid ≠ [] := by rcases h with h | h
                             · exact absurd h hc
                             · exact h
    rcases fill_good G hm (by have := G.base.cur; omega) with ⟨e, np, e2, e3⟩ | ⟨s', pre', mid', e, g, k, t, c, p⟩
    · left
      refine ⟨?_, np, e2, e3⟩
      rw [nextbits, if_neg (by omega), ensure, if_pos (by omega), e]
    · right
      obtain ⟨x, hx, _⟩ := extract_spec s'.buf s'.cur w h1 h2
      refine ⟨x, s', pre', mid', ?_, hx, ?_, k, t, by rw [c]; omega, Or.inr ⟨by omega, hm, c, p⟩⟩
      · rw [nextbits, if_neg (by omega), ensure, if_pos (by omega), e]
        simp only [hx]
      · rcases g with g | ⟨g, g'⟩
        · exact Or.inl g
        · exact Or.inr ⟨g, g', by omega⟩

theorem good_base_of {s' : St} {pre' mid' : List Byte} {P : Prop} (g : Good s' pre' mid' ∨ (Bad s' pre' mid' ∧ P)) : Base s' pre' mid' := by
  rcases g with g | g
  · exact g.base
  · exact g.1.base

/-- After the buffer has been filled the field is in it, if it is in the file. -/
theorem fit_after {s' : St} {pre' mid' : List Byte} (B : Base s' pre' mid') (w : Nat) (h2 : w ≤ 32) (hcur : s'.cur < 8) (hfit : s'.tot + w ≤ 8 * s'.file.length) :
    s'.cur + w ≤ 8 * s'.bufLen := by
  have hl := base_length B
  have ht := B.tot
  have hs := B.size
  by_cases hm : mid' = []
  · rw [hm] at hl; simp at hl; omega
  · have := B.full hm; omega

theorem nextbits_good {s : St} {pre mid : List Byte} (G : Good s pre mid) (w : Nat) (h1 : 1 ≤ w) (h2 : w ≤ 32) (hfit : s.tot + w ≤ 8 * s.file.length) :
    (nextbits s w = .error .endOfData ∧ ¬ Punctual s) ∨
    ∃ x s' pre' mid', nextbits s w = .ok (x, s') ∧ (Good s' pre' mid' ∨ (Bad s' pre' mid' ∧ s.cur / 8 ≠ s.bufLen ∧ 8 * s.bufLen < s.cur + w)) ∧ Keeps s s' ∧
      s'.tot = s.tot ∧ s'.cur + w ≤ 8 * s'.bufLen ∧ fieldBits x w = ((bytesBits s.file).drop s.tot).take w ∧ x.toNat < 2 ^ w ∧
      ((s' = s ∧ pre' = pre ∧ s.cur + w ≤ 8 * s.bufLen) ∨
        (8 * s.bufLen < s.cur + w ∧ mid ≠ [] ∧ s'.cur = s.cur % 8 ∧ pre'.length = pre.length + s.cur / 8)) := by
  have hl := base_length G.base
  have ht := G.base.tot
  have hcase : s.cur + w ≤ 8 * s.bufLen ∨ mid ≠ [] := by
    by_cases hm : mid = []
    · left; rw [hm] at hl; simp at hl; omega
    · exact Or.inr hm
  rcases nextbits_state G w h1 h2 hcase with ⟨e, np, _⟩ | ⟨x, s', pre', mid', e, ex, g, k, t, c8, c⟩
  · exact Or.inl ⟨e, np⟩
  · right
    have B := good_base_of g
    have hfit' : s'.cur + w ≤ 8 * s'.bufLen := by
      rcases c with ⟨rfl, _, c⟩ | ⟨_, _, c, _⟩
      · exact c
      · exact fit_after B w h2 (by omega) (by rw [t, k.file]; exact hfit)
    obtain ⟨y, hy, hb, hw⟩ := base_field B w h1 h2 hfit'
    have : x = y := by rw [ex] at hy; exact Except.ok.inj hy
    subst this
    refine ⟨x, s', pre', mid', e, g, k, t, hfit', ?_, hw, c⟩
    rw [hb, k.file, t]

theorem nextbits_bad {s : St} {pre mid : List Byte} (B : Base s pre mid) (w : Nat) (h1 : 1 ≤ w) (h2 : w ≤ 32) (hfit : s.cur + w ≤ 8 * s.bufLen) :
    ∃ x, nextbits s w = .ok (x, s) ∧ fieldBits x w = ((bytesBits s.file).drop s.tot).take w ∧ x.toNat < 2 ^ w := by
  obtain ⟨x, hx, hb, hw⟩ := base_field B w h1 h2 hfit
  refine ⟨x, ?_, hb, hw⟩
  rw [nextbits, if_neg (by omega), ensure, if_neg (by omega)]
  simp only [hx]

/-! ### Moving on -/

def forward (s : St) (w : Nat) : St := { s with cur := s.cur + w, tot := s.tot + w }

theorem forward_base {s : St} {pre mid : List Byte} (B : Base s pre mid) (w : Nat) (h : s.cur + w ≤ 8 * s.bufLen) : Base (forward s w) pre mid :=
  ⟨B.file, by show s.tot + w = 8 * pre.length + (s.cur + w); have := B.tot; omega, h, B.len, B.full, B.size⟩

theorem forward_good {s : St} {pre mid : List Byte} (G : Good s pre mid) (w : Nat) (h : s.cur + w ≤ 8 * s.bufLen) : Good (forward s w) pre mid :=
  ⟨forward_base G.base w h, G.load, G.pos, G.last, G.rest⟩

theorem forward_bad {s : St} {pre mid : List Byte} (G : Bad s pre mid) (w : Nat) (h : s.cur + w ≤ 8 * s.bufLen) : Bad (forward s w) pre mid :=
  ⟨forward_base G.base w h, G.none, G.few, G.load, G.eof, G.pos, G.shadow⟩

theorem forward_keeps (s : St) (w : Nat) : Keeps s (forward s w) := ⟨rfl, rfl, rfl, rfl⟩

/-- A reader somewhere in a file. -/
def Inv (s : St) : Prop := ∃ pre mid, Good s pre mid ∨ Bad s pre mid

theorem getbits_eq (s : St) (w : Nat) :
    getbits s w = match nextbits s w with | .error e => .error e | .ok (x, s') => .ok (x, forward s' w) := rfl

theorem getbits_inv {s : St} (H : Inv s) (w : Nat) (h1 : 1 ≤ w) (h2 : w ≤ 32) (hfit : s.tot + w + 32 ≤ 8 * s.file.length) :
    (getbits s w = .error .endOfData ∧ ¬ Punctual s) ∨
    ∃ x s', getbits s w = .ok (x, s') ∧ Inv s' ∧ Keeps s s' ∧ s'.tot = s.tot + w ∧ fieldBits x w = ((bytesBits s.file).drop s.tot).take w ∧ x.toNat < 2 ^ w := by
  obtain ⟨pre, mid, G | B⟩ := H
  · rcases nextbits_good G w h1 h2 (by omega) with ⟨e, np⟩ | ⟨x, s', pre', mid', e, g, k, t, f, hb, hw, _⟩
    · left; exact ⟨by rw [getbits_eq, e], np⟩
    · right
      refine ⟨x, forward s' w, by rw [getbits_eq, e], ⟨pre', mid', ?_⟩, k.trans (forward_keeps _ _), ?_, hb, hw⟩
      · rcases g with g | g
        · exact Or.inl (forward_good g w f)
        · exact Or.inr (forward_bad g.1 w f)
      · show s'.tot + w = _; rw [t]
  · right
    have hl := base_length B.base
    have ht := B.base.tot
    have hf := B.few
    have hfit' : s.cur + w ≤ 8 * s.bufLen := by omega
    obtain ⟨x, e, hb, hw⟩ := nextbits_bad B.base w h1 h2 hfit'
    exact ⟨x, forward s w, by rw [getbits_eq, e], ⟨pre, mid, Or.inr (forward_bad B w hfit')⟩, forward_keeps _ _, rfl, hb, hw⟩

/-! ### Bytes -/

theorem base_bytes {s : St} {pre mid : List Byte} (B : Base s pre mid) (n : Nat) (h8 : s.cur % 8 = 0) (h : s.cur + 8 * n ≤ 8 * s.bufLen) :
    slice s.buf (s.cur / 8) n = (s.file.drop (s.tot / 8)).take n := by
  have ht : s.tot / 8 = pre.length + s.cur / 8 := by have := B.tot; omega
  rw [ht, ← List.drop_drop, B.file, List.drop_left' rfl]
  have hc : s.cur / 8 ≤ s.bufLen := by omega
  rw [List.drop_append_of_le_length (by rw [slice_length]; exact hc), slice_drop, Nat.zero_add,
    List.take_append_of_le_length (by rw [slice_length]; omega), slice_take _ _ _ _ (by omega)]

theorem segments (file : List Byte) (p a b : Nat) : (file.drop p).take a ++ (file.drop (p + a)).take b = (file.drop p).take (a + b) := by
  rw [← List.drop_drop, List.take_add]

theorem atend_eq (s : St) : atend s = ((look s).eof && decide ((look s).shadowLen = 0) && decide (8 * (look s).bufLen ≤ (look s).cur), look s) := rfl

/-- `atend` keeps the state, up to the arrival of an answer. -/
theorem atend_good {s : St} {pre mid : List Byte} (G : Good s pre mid) :
    ∃ b s', atend s = (b, s') ∧ Good s' pre mid ∧ Keeps s s' ∧ s'.tot = s.tot ∧ s'.cur = s.cur ∧ s'.bufLen = s.bufLen ∧
      (b = true → s.shadowLen = 0 ∧ s.eof = true ∧ 8 * s.bufLen ≤ s.cur) ∧ (Punctual s → (b = true ↔ (mid = [] ∧ 8 * s.bufLen ≤ s.cur))) ∧
      (mid = [] → 8 * s.bufLen ≤ s.cur → b = true) ∧ (b = false → ¬ (s'.shadowLen = 0 ∧ s'.eof = true ∧ 8 * s'.bufLen ≤ s'.cur)) := by
  obtain ⟨m, k, p, t, h1, h2, h3, h4⟩ := look_good G
  have hempty : mid = [] → (look s).shadowLen = 0 ∧ (look s).eof = true := by
    intro hm
    have hs := h2.base.size
    rw [hm] at h2
    rcases h2.rest with ⟨_, r2, _, r4⟩ | ⟨d, _, _, r3, r4, _⟩
    · have hl := congrArg List.length r2
      simp only [List.length_nil, List.length_append, slice_length] at hl
      refine ⟨by omega, ?_⟩
      rcases r4 with r4 | r4
      · exact r4
      · omega
    · exfalso
      have hl := congrArg List.length r4
      simp only [List.length_nil, List.length_append, slice_length] at hl
      exact r3 (List.length_eq_zero_iff.1 (by omega))
  have hb : (look s).bufLen = s.bufLen := by rw [h1]
  have hcu : (look s).cur = s.cur := by rw [h1]
  have hk : (look s).shadowLen = k := by rw [h1]
  have he : (look s).eof = s.eof := by rw [h1]; rfl
  refine ⟨_, _, atend_eq s, h2, ⟨by rw [h1], by rw [h1], by rw [h1], by rw [h1]⟩, by rw [h1], hcu, hb, ?_, ?_, ?_, ?_⟩
  · intro h
    simp only [Bool.and_eq_true, decide_eq_true_eq, hk, he, hb, hcu] at h
    exact ⟨by omega, h.1.1, h.2⟩
  · intro hp
    simp only [Bool.and_eq_true, decide_eq_true_eq]
    constructor
    · rintro ⟨⟨e1, e2⟩, e3⟩
      refine ⟨?_, by rw [hb, hcu] at e3; exact e3⟩
      rcases h2.rest with ⟨_, r2, _, _⟩ | ⟨d, r1, _⟩
      · rw [r2, e2, h2.last e1]; rfl
      · rw [h1] at r1; simp only at r1; rw [h4 hp] at r1; cases r1
    · rintro ⟨e1, e2⟩
      obtain ⟨e3, e4⟩ := hempty e1
      exact ⟨⟨e4, e3⟩, by rw [hb, hcu]; exact e2⟩
  · intro hm hc
    obtain ⟨e3, e4⟩ := hempty hm
    simp only [Bool.and_eq_true, decide_eq_true_eq]
    exact ⟨⟨e4, e3⟩, by rw [hb, hcu]; exact hc⟩
  · rintro h ⟨e1, e2, e3⟩
    simp [e1, e2, e3] at h

end Verif.FileReader
