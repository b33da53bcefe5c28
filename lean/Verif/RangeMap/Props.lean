import Verif.RangeMap.Model
/-!
Property C34: range map lookup.
-/
namespace Verif.RangeMap
variable {T : Type}

/-- key at an index, 0 outside -/
def ky (m : RMap T) (i : Nat) : Nat := match m[i]? with | some e => e.1 | none => 0

theorem key_some (m : RMap T) (i : Nat) (h : i < m.length) : key m i = some (ky m i) := by
  simp [key, ky, h]

theorem cond_eq (m : RMap T) (k i : Nat) (h : i < m.length) :
    cond m k i = some (decide ((0 < i ∧ ky m (i - 1) ≥ k) ∨ ky m i < k)) := by
  simp only [cond, h, if_true, key_some m i h]
  by_cases h0 : 0 < i
  · simp [h0, key_some m (i - 1) (by omega)]
  · simp [h0]

theorem body_eq (m : RMap T) (k i lower upper : Nat) (h : i < m.length) :
    body m k i lower upper =
      (let u := if 0 < i ∧ ky m (i - 1) ≥ k then i - 1 else upper
       let l := if ky m i < k then (if lower = i then lower + 1 else i) else lower
       some (if u > l then (u - l) / 2 + l else l, l, u)) := by
  simp only [body, key_some m i h]
  by_cases h0 : 0 < i
  · simp [h0, key_some m (i - 1) (by omega)]
  · simp [h0]

/-- what the loop keeps, for any keys at all -/
structure SInv (m : RMap T) (k idx lower upper : Nat) : Prop where
  ln : lower < m.length
  ph : (lower ≤ idx ∧ idx ≤ upper ∧ upper < m.length ∧ ky m upper ≥ k) ∨ (upper < lower ∧ idx = lower)
  lo : lower = 0 ∨ ky m lower < k ∨ ky m (lower - 1) < k
  z : upper < lower → 0 < lower

theorem search_ok (m : RMap T) (k : Nat) (hlast : ky m (m.length - 1) ≥ k) :
    ∀ (fuel idx lower upper : Nat), SInv m k idx lower upper →
    (m.length - lower) + (upper - lower) ≤ fuel →
    ∃ i, search m k fuel idx lower upper = some i ∧ i < m.length ∧ ky m i ≥ k ∧ (0 < i → ky m (i - 1) < k) := by
  intro fuel
  induction fuel with
  | zero => intro idx lower upper h hf; have := h.ln; omega
  | succ fuel ih =>
    intro idx lower upper h hf
    obtain ⟨hln, hph, hlo, hz⟩ := h
    have hi : idx < m.length := by omega
    have hc := cond_eq m k idx hi
    rw [search.eq_2, hc]
    by_cases hcond : (0 < idx ∧ ky m (idx - 1) ≥ k) ∨ ky m idx < k
    · simp only [hcond, decide_true, body_eq m k idx lower upper hi]
      by_cases hlow : ky m idx < k
      · have hne : idx ≠ m.length - 1 := by intro he; rw [he] at hlow; omega
        have hne2 : idx ≤ upper → upper < m.length ∧ ky m upper ≥ k → idx ≠ upper := by
          intro _ hh he; rw [he] at hlow; omega
        by_cases hup : 0 < idx ∧ ky m (idx - 1) ≥ k
        · simp only [hlow, hup, if_true, and_self]
          by_cases hll : lower = idx
          · subst hll
            simp only [if_true]
            rw [if_neg (by omega)]
            refine ih _ _ _ ⟨by omega, Or.inr ⟨by omega, rfl⟩, Or.inr (Or.inr (by simpa using hlow)), by omega⟩ (by omega)
          · simp only [hll, if_false]
            rw [if_neg (by omega)]
            refine ih _ _ _ ⟨by omega, Or.inr ⟨by omega, rfl⟩, Or.inr (Or.inl hlow), by omega⟩ (by omega)
        · simp only [hlow, hup, if_true, if_false]
          by_cases hll : lower = idx
          · subst hll
            simp only [if_true]
            rcases hph with ⟨p1, p2, p3, p4⟩ | ⟨p1, p2⟩
            · have := hne2 p2 ⟨p3, p4⟩
              split
              · refine ih _ _ _ ⟨by omega, Or.inl ⟨by omega, by omega, p3, p4⟩,
                  Or.inr (Or.inr (by simpa using hlow)), by omega⟩ (by omega)
              · refine ih _ _ _ ⟨by omega, Or.inl ⟨by omega, by omega, p3, p4⟩,
                  Or.inr (Or.inr (by simpa using hlow)), by omega⟩ (by omega)
            · rw [if_neg (by omega)]
              refine ih _ _ _ ⟨by omega, Or.inr ⟨by omega, rfl⟩,
                  Or.inr (Or.inr (by simpa using hlow)), by omega⟩ (by omega)
          · simp only [hll, if_false]
            rcases hph with ⟨p1, p2, p3, p4⟩ | ⟨p1, p2⟩
            · have := hne2 p2 ⟨p3, p4⟩
              rw [if_pos (by omega)]
              refine ih _ _ _ ⟨by omega, Or.inl ⟨by omega, by omega, p3, p4⟩,
                  Or.inr (Or.inl hlow), by omega⟩ (by omega)
            · omega
      · have hup : 0 < idx ∧ ky m (idx - 1) ≥ k := by omega
        simp only [hlow, hup, if_false, if_true, and_self]
        -- the lower bound is left of idx, or the invariant on `lower` is contradicted
        have hlt : lower < idx := by
          rcases hph with ⟨p1, p2, p3, p4⟩ | ⟨p1, p2⟩
          · rcases Nat.lt_or_ge lower idx with h | h
            · exact h
            · exfalso
              have : lower = idx := by omega
              subst this
              omega
          · exfalso
            subst p2
            have := hz p1
            omega
        rcases hph with ⟨p1, p2, p3, p4⟩ | ⟨p1, p2⟩
        · split
          · refine ih _ _ _ ⟨by omega, Or.inl ⟨by omega, by omega, by omega, hup.2⟩, hlo, by omega⟩ (by omega)
          · refine ih _ _ _ ⟨by omega, Or.inl ⟨by omega, by omega, by omega, hup.2⟩, hlo, by omega⟩ (by omega)
        · omega
    · simp only [hcond, decide_false]
      exact ⟨idx, rfl, hi, by omega, by omega⟩

theorem ky_head (m : RMap T) (e : Nat × T) (h : m.head? = some e) : ky m 0 = e.1 ∧ 0 < m.length := by
  cases m with
  | nil => simp at h
  | cons a m => simp at h; subst h; simp [ky]

theorem ky_last (m : RMap T) (e : Nat × T) (h : m.getLast? = some e) : ky m (m.length - 1) = e.1 := by
  rw [List.getLast?_eq_getElem?] at h
  simp [ky, h]

/-- C34. For every non-empty content (even unsorted) and every key, `get` ends without leaving the vector; the
result is: the first entry with code -1 when its key is above, the last with code 1 when its key is below,
otherwise (code 0) an entry whose key is not below and whose predecessor's is. -/
theorem range_map_total (m : RMap T) (k : Nat) (hne : m ≠ []) :
    ∃ code i e, get m k = some (code, e.1, e.2) ∧ m[i]? = some e ∧
      ((code = -1 ∧ i = 0 ∧ k < e.1) ∨
       (code = 1 ∧ i = m.length - 1 ∧ e.1 < k) ∨
       (code = 0 ∧ k ≤ e.1 ∧ (∀ a, m[0]? = some a → a.1 ≤ k) ∧ ∀ p, 0 < i → m[i - 1]? = some p → p.1 < k)) := by
  obtain ⟨e0, he0⟩ : ∃ e, m.head? = some e := by cases m with | nil => simp at hne | cons a _ => exact ⟨a, rfl⟩
  obtain ⟨el, hel⟩ : ∃ e, m.getLast? = some e := by
    cases h : m.getLast? with
    | none => simp [List.getLast?_eq_none_iff] at h; exact absurd h hne
    | some e => exact ⟨e, rfl⟩
  obtain ⟨hk0, hlen⟩ := ky_head m e0 he0
  have hkl := ky_last m el hel
  simp only [get, he0, hel]
  by_cases h1 : e0.1 > k
  · refine ⟨-1, 0, e0, by simp [h1], ?_, Or.inl ⟨rfl, rfl, h1⟩⟩
    rw [← he0, List.head?_eq_getElem?]
  · by_cases h2 : el.1 < k
    · refine ⟨1, m.length - 1, el, by simp [h1, h2], ?_, Or.inr (Or.inl ⟨rfl, rfl, h2⟩)⟩
      rw [← hel, List.getLast?_eq_getElem?]
    · simp only [h1, h2, if_false]
      obtain ⟨i, s1, s2, s3, s4⟩ := search_ok m k (by rw [hkl]; omega) (2 * m.length) (m.length / 2) 0 (m.length - 1)
        ⟨hlen, Or.inl ⟨Nat.zero_le _, by omega, by omega, by rw [hkl]; omega⟩, Or.inl rfl, by omega⟩ (by omega)
      have hgi : m[i]? = some (m[i]'s2) := List.getElem?_eq_getElem s2
      refine ⟨0, i, m[i]'s2, by simp [s1, hgi], hgi, Or.inr (Or.inr ⟨rfl, ?_, ?_, ?_⟩)⟩
      · simp only [ky, hgi] at s3; exact s3
      · intro a ha
        rw [List.head?_eq_getElem?, ha] at he0
        simp at he0; subst he0; omega
      · intro p hp hpp
        have := s4 hp
        simp only [ky, hpp] at this; exact this

/-- C34. With keys in increasing order (equal neighbours allowed) the code 0 result is the first entry whose key
is not below the key looked up. -/
theorem range_map_first (m : RMap T) (k : Nat) (hs : m.Pairwise (fun a b => a.1 ≤ b.1)) (a z : Nat × T)
    (ha : m.head? = some a) (hz : m.getLast? = some z) :
    get m k =
      if k < a.1 then some (-1, a.1, a.2)
      else if z.1 < k then some (1, z.1, z.2)
      else (m.find? (fun e => decide (k ≤ e.1))).map (fun e => (0, e.1, e.2)) := by
  have hne : m ≠ [] := by intro h; simp [h] at ha
  obtain ⟨code, i, e, hg, hi, hcase⟩ := range_map_total m k hne
  rw [List.head?_eq_getElem?] at ha
  rw [List.getLast?_eq_getElem?] at hz
  have hil : i < m.length := by
    rcases Nat.lt_or_ge i m.length with h | h
    · exact h
    · rw [List.getElem?_eq_none h] at hi; simp at hi
  have hsort : ∀ (x y : Nat) (ex ey : Nat × T), m[x]? = some ex → m[y]? = some ey → x ≤ y → ex.1 ≤ ey.1 := by
    intro x y ex ey hx hy hxy
    rcases Nat.eq_or_lt_of_le hxy with h | h
    · subst h; rw [hx] at hy; simp at hy; subst hy; exact Nat.le_refl _
    · have hyl : y < m.length := by
        rcases Nat.lt_or_ge y m.length with h | h
        · exact h
        · rw [List.getElem?_eq_none h] at hy; simp at hy
      have := List.pairwise_iff_getElem.1 hs x y (by omega) hyl h
      rw [List.getElem?_eq_getElem (by omega)] at hx
      rw [List.getElem?_eq_getElem hyl] at hy
      simp only [Option.some.injEq] at hx hy
      rw [hx, hy] at this; exact this
  have h0i := hsort 0 i a e ha hi (Nat.zero_le _)
  have hiz := hsort i (m.length - 1) e z hi hz (by omega)
  rcases hcase with ⟨rfl, rfl, hk⟩ | ⟨rfl, rfl, hk⟩ | ⟨rfl, hk, hfirst, hp⟩
  · rw [ha] at hi; simp at hi; subst hi
    rw [hg, if_pos hk]
  · rw [hz] at hi; simp at hi; subst hi
    rw [hg, if_neg (by omega), if_pos hk]
  · rw [if_neg, if_neg (by omega), hg]
    · have : m.find? (fun e => decide (k ≤ e.1)) = some e := by
        rw [List.find?_eq_some_iff_getElem]
        rw [List.getElem?_eq_getElem hil] at hi
        simp only [Option.some.injEq] at hi
        refine ⟨by simpa using hk, i, hil, hi, ?_⟩
        intro j hj
        have hp' := hp (m[i - 1]'(by omega)) (by omega) (List.getElem?_eq_getElem (by omega))
        have := hsort j (i - 1) _ _ (List.getElem?_eq_getElem (by omega)) (List.getElem?_eq_getElem (by omega)) (by omega)
        simp; omega
      rw [this]; rfl
    · have := hfirst a ha
      omega

/-- three runs ending at 4, 4 (empty run) and 9 -/
example : get [(4, 'a'), (4, 'b'), (9, 'c')] 4 = some (0, 4, 'a') ∧
    get [(4, 'a'), (4, 'b'), (9, 'c')] 5 = some (0, 9, 'c') ∧
    get [(4, 'a'), (4, 'b'), (9, 'c')] 3 = some (-1, 4, 'a') ∧
    get [(4, 'a'), (4, 'b'), (9, 'c')] 10 = some (1, 9, 'c') := by decide

end Verif.RangeMap
