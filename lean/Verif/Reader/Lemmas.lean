import Verif.Reader.Spec
namespace Verif.Reader
open Verif.Tables Verif.RangeMap Verif.Reader.Spec

/-- What is left to deliver from a stream. -/
def Rem (s : Track × Nat) (l : List Sample) : Prop := ∃ xs, Holds s.1 xs ∧ l = xs.drop s.2

theorem holds_count {t : Track} {xs : List Sample} (h : Holds t xs) : t.count = xs.length := by
  have h1 := h t.count
  have h2 := h xs.length
  simp only [Track.pick, ge_iff_le, Nat.le_refl, if_true, Option.some.injEq] at h1
  have h3 : xs.length ≤ t.count := by
    by_contra hc
    rw [List.getElem?_eq_getElem (by omega)] at h1
    simp at h1
  rcases Nat.lt_or_ge xs.length t.count with hlt | hge
  · exfalso
    simp only [Track.pick, ge_iff_le, show ¬ t.count ≤ xs.length by omega, if_false, List.getElem?_eq_none (Nat.le_refl xs.length)] at h2
    simp only [Option.bind_eq_bind, Option.bind_eq_some_iff, Option.pure_def, Option.some.injEq] at h2
    obtain ⟨_, _, _, _, _, _, _, _, _, _, _, _, hh⟩ := h2
    simp at hh
  · omega

theorem rem_pick {s : Track × Nat} {l : List Sample} (h : Rem s l) : s.1.pick s.2 = some l.head? := by
  obtain ⟨xs, hx, rfl⟩ := h
  rw [hx, List.head?_drop]

theorem rem_zero {s : Track × Nat} {l : List Sample} (h : Rem s l) (h0 : s.1.count = 0) : l = [] := by
  obtain ⟨xs, hx, rfl⟩ := h
  rw [holds_count hx, List.length_eq_zero_iff] at h0
  simp [h0]

theorem rem_length {s : Track × Nat} {l : List Sample} (h : Rem s l) : l.length = s.1.count - s.2 := by
  obtain ⟨xs, hx, rfl⟩ := h
  simp [holds_count hx]

theorem rem_next {t : Track} {p : Nat} {l : List Sample} (h : Rem (t, p) l) (hl : l ≠ []) :
    p < t.count ∧ Rem (t, p + 1) l.tail := by
  obtain ⟨xs, hx, rfl⟩ := h
  simp only [ne_eq, List.drop_eq_nil_iff, Nat.not_le] at hl
  refine ⟨by simpa [holds_count hx] using hl, xs, hx, by simp⟩

theorem scanMin_spec : ∀ (ss : List (Track × Nat)) (ls : List (List Sample)), List.Forall₂ Rem ss ls →
    ∀ (i : Nat) (s : Option Nat) (last : Nat),
    (scanMin i ss s last = some none ∧ max64 ≤ last ∧ ∀ l ∈ ls, ∀ y, l.head? = some y → max64 ≤ y.offset) ∨
    ∃ s' last', scanMin i ss s last = some (some (s', last')) ∧ last' ≤ last ∧
      (∀ l ∈ ls, ∀ y, l.head? = some y → last' ≤ y.offset) ∧
      ((s' = s ∧ last' = last) ∨ ∃ j l x, s' = some (i + j) ∧ ls[j]? = some l ∧ l.head? = some x ∧ x.offset = last') := by
  intro ss ls h
  induction h with
  | nil => intro i s last; exact .inr ⟨s, last, rfl, Nat.le_refl _, by simp, .inl ⟨rfl, rfl⟩⟩
  | @cons a l ss ls ha hrest ih =>
    obtain ⟨t, p⟩ := a
    intro i s last
    have shift : ∀ (s1 : Option Nat) (last1 : Nat), (∀ y, l.head? = some y → last1 ≤ y.offset) → last1 ≤ last →
        ((s1 = s ∧ last1 = last) ∨ ∃ x, s1 = some i ∧ l.head? = some x ∧ x.offset = last1) →
        scanMin i ((t, p) :: ss) s last = scanMin (i + 1) ss s1 last1 →
        (scanMin i ((t, p) :: ss) s last = some none ∧ max64 ≤ last ∧
          ∀ l' ∈ l :: ls, ∀ y, l'.head? = some y → max64 ≤ y.offset) ∨
        ∃ s' last', scanMin i ((t, p) :: ss) s last = some (some (s', last')) ∧ last' ≤ last ∧
          (∀ l' ∈ l :: ls, ∀ y, l'.head? = some y → last' ≤ y.offset) ∧
          ((s' = s ∧ last' = last) ∨
            ∃ j l' x, s' = some (i + j) ∧ (l :: ls)[j]? = some l' ∧ l'.head? = some x ∧ x.offset = last') := by
      intro s1 last1 hl1 hle hs1 heq
      rw [heq]
      rcases ih (i + 1) s1 last1 with ⟨e, h1, h2⟩ | ⟨s', last', e, h1, h2, h3⟩
      · left
        refine ⟨e, by omega, ?_⟩
        intro l' hl' y hy
        rcases List.mem_cons.1 hl' with rfl | hl'
        · have := hl1 y hy; omega
        · exact h2 l' hl' y hy
      · right
        refine ⟨s', last', e, by omega, ?_, ?_⟩
        · intro l' hl' y hy
          rcases List.mem_cons.1 hl' with rfl | hl'
          · have := hl1 y hy; omega
          · exact h2 l' hl' y hy
        · rcases h3 with ⟨h3, h4⟩ | ⟨j, l', x, e1, e2, e3, e4⟩
          · rcases hs1 with ⟨h5, h6⟩ | ⟨x, hx1, hx2, hx3⟩
            · exact .inl ⟨h3.trans h5, h4.trans h6⟩
            · exact .inr ⟨0, l, x, by rw [h3, hx1]; rfl, rfl, hx2, by omega⟩
          · exact .inr ⟨j + 1, l', x, by rw [e1]; congr 1; omega, by simpa using e2, e3, e4⟩
    by_cases h0 : t.count = 0
    · have hl := rem_zero ha h0
      subst hl
      exact shift s last (by simp) (Nat.le_refl _) (.inl ⟨rfl, rfl⟩) (by simp [scanMin, h0])
    · have hp := rem_pick ha
      simp only at hp
      cases hh : l.head? with
      | some x =>
        rw [hh] at hp
        by_cases hlt : x.offset < last
        · refine shift (some i) x.offset ?_ (by omega) (.inr ⟨x, rfl, hh, rfl⟩) (by simp [scanMin, h0, hp, hlt])
          intro y hy; rw [hh] at hy; simp at hy; subst hy; exact Nat.le_refl _
        · refine shift s last ?_ (Nat.le_refl _) (.inl ⟨rfl, rfl⟩) (by simp [scanMin, h0, hp, hlt])
          intro y hy; rw [hh] at hy; simp at hy; subst hy; omega
      | none =>
        rw [hh] at hp
        by_cases hr : ss.isEmpty ∧ last = max64
        · left
          have hs : ss = [] := by simpa using hr.1
          subst hs
          cases hrest
          refine ⟨by simp [scanMin, h0, hp, hr.2], Nat.le_of_eq hr.2.symm, ?_⟩
          intro l' hl' y hy
          simp only [List.mem_singleton] at hl'
          subst hl'
          rw [hh] at hy; simp at hy
        · refine shift s last ?_ (Nat.le_refl _) (.inl ⟨rfl, rfl⟩) ?_
          · intro y hy; rw [hh] at hy; simp at hy
          · rw [scanMin, if_neg h0, hp]; simp only [if_neg hr]

theorem scanEq_spec : ∀ (ss : List (Track × Nat)) (ls : List (List Sample)), List.Forall₂ Rem ss ls →
    ∀ (i last : Nat), scanEq i ss last = some none ∨
    ∃ j l x, scanEq i ss last = some (some (i + j)) ∧ ls[j]? = some l ∧ l.head? = some x ∧ x.offset = last := by
  intro ss ls h
  induction h with
  | nil => intro i last; exact .inl rfl
  | @cons a l ss ls ha hrest ih =>
    obtain ⟨t, p⟩ := a
    intro i last
    have shift : scanEq i ((t, p) :: ss) last = scanEq (i + 1) ss last →
        scanEq i ((t, p) :: ss) last = some none ∨
        ∃ j l' x, scanEq i ((t, p) :: ss) last = some (some (i + j)) ∧ (l :: ls)[j]? = some l' ∧ l'.head? = some x ∧
          x.offset = last := by
      intro heq
      rw [heq]
      rcases ih (i + 1) last with e | ⟨j, l', x, e, e1, e2, e3⟩
      · exact .inl e
      · exact .inr ⟨j + 1, l', x, by rw [e]; congr 2; omega, by simpa using e1, e2, e3⟩
    by_cases h0 : t.count = 0
    · exact shift (by simp [scanEq, h0])
    · have hp := rem_pick ha
      simp only at hp
      cases hh : l.head? with
      | some x =>
        rw [hh] at hp
        by_cases hlt : x.offset = last
        · right; exact ⟨0, l, x, by simp [scanEq, h0, hp, hlt], rfl, hh, hlt⟩
        · exact shift (by simp [scanEq, h0, hp, hlt])
      | none =>
        rw [hh] at hp
        exact shift (by simp [scanEq, h0, hp])

/-- a stream to deliver from is found, whenever there is one -/
theorem find_spec (ss : List (Track × Nat)) (ls : List (List Sample)) (h : List.Forall₂ Rem ss ls)
    (hmax : ∀ l ∈ ls, ∀ x ∈ l, x.offset < max64) (last : Nat) :
    ((∀ l ∈ ls, l = []) ∧ ∃ last', find ss 15 last = some (none, last')) ∨
    ∃ s l x, find ss 15 last = some (some s, x.offset) ∧ ls[s]? = some l ∧ l.head? = some x ∧
      (x.offset = last ∨ ∀ l ∈ ls, ∀ y, l.head? = some y → x.offset ≤ y.offset) := by
  have hmem : ∀ l ∈ ls, ∀ y, l.head? = some y → y.offset < max64 :=
    fun l hl y hy => hmax l hl y (List.mem_of_head? hy)
  -- from last = 0 with at least three tries left
  have hmin : ∀ k, ((∀ l ∈ ls, l = []) ∧ ∃ last', find ss (k + 1) 0 = some (none, last')) ∨
      (∀ l ∈ ls, l = []) ∧ find ss (k + 1) 0 = find ss k max64 ∨
      ∃ s l x, find ss (k + 1) 0 = some (some s, x.offset) ∧ ls[s]? = some l ∧ l.head? = some x ∧
        ∀ l ∈ ls, ∀ y, l.head? = some y → x.offset ≤ y.offset := by
    intro k
    rcases scanMin_spec ss ls h 0 none max64 with ⟨e, _, e2⟩ | ⟨s', last', e, e1, e2, e3⟩
    · left
      refine ⟨?_, max64, by simp [find, e]⟩
      intro l hl
      cases hh : l.head? with
      | none => simpa using hh
      | some y => have := e2 l hl y hh; have := hmem l hl y hh; omega
    · rcases e3 with ⟨e3, e4⟩ | ⟨j, l, x, f1, f2, f3, f4⟩
      · subst e3; subst e4
        right; left
        refine ⟨?_, by simp [find, e]⟩
        intro l hl
        cases hh : l.head? with
        | none => simpa using hh
        | some y => have := e2 l hl y hh; have := hmem l hl y hh; omega
      · right; right
        subst f4
        exact ⟨j, l, x, by simp [find, e, f1], f2, f3, e2⟩
  -- exhausted streams
  have hex : (∀ l ∈ ls, l = []) → ∀ k last, ∃ last', find ss k last = some (none, last') := by
    intro hall k
    induction k with
    | zero => intro last; exact ⟨last, rfl⟩
    | succ k ih =>
      intro last
      by_cases h0 : last = 0
      · subst h0
        rcases hmin k with ⟨_, e⟩ | ⟨_, e⟩ | ⟨s, l, x, e, e1, e2, e3⟩
        · exact e
        · rw [e]; exact ih _
        · have := hall l (List.mem_of_getElem? e1); subst this; simp at e2
      · rw [find, if_neg h0]
        rcases scanEq_spec ss ls h 0 last with e | ⟨j, l, x, e, e1, e2, e3⟩
        · rw [e]; exact ih 0
        · have := hall l (List.mem_of_getElem? e1); subst this; simp at e2
  by_cases hall : ∀ l ∈ ls, l = []
  · exact .inl ⟨hall, hex hall 15 last⟩
  · right
    by_cases h0 : last = 0
    · subst h0
      rcases hmin 14 with ⟨hh, _⟩ | ⟨hh, _⟩ | ⟨s, l, x, e, e1, e2, e3⟩
      · exact absurd hh hall
      · exact absurd hh hall
      · exact ⟨s, l, x, e, e1, e2, .inr e3⟩
    · rw [show (15 : Nat) = 14 + 1 from rfl, find, if_neg h0]
      rcases scanEq_spec ss ls h 0 last with e | ⟨j, l, x, e, e1, e2, e3⟩
      · rw [e]
        simp only
        rcases hmin 13 with ⟨hh, _⟩ | ⟨hh, _⟩ | ⟨s, l, x, e, e1, e2, e3⟩
        · exact absurd hh hall
        · exact absurd hh hall
        · exact ⟨s, l, x, e, e1, e2, .inr e3⟩
      · rw [e]
        refine ⟨j, l, x, by simp [e3], e1, e2, .inl e3⟩

theorem forall₂_get {α β : Type} {R : α → β → Prop} {as : List α} {bs : List β} (h : List.Forall₂ R as bs) :
    ∀ (i : Nat) (b : β), bs[i]? = some b → ∃ a, as[i]? = some a ∧ R a b := by
  induction h with
  | nil => intro i b h; simp at h
  | cons ha _ ih =>
    intro i b hb
    cases i with
    | zero => simp at hb; subst hb; exact ⟨_, rfl, ha⟩
    | succ i => simpa using ih i b (by simpa using hb)

theorem forall₂_set {α β : Type} {R : α → β → Prop} {as : List α} {bs : List β} (h : List.Forall₂ R as bs) :
    ∀ (i : Nat) (a : α) (b : β), R a b → List.Forall₂ R (as.set i a) (bs.set i b) := by
  induction h with
  | nil => intro i a b h; simp
  | cons ha hr ih =>
    intro i a b hb
    cases i with
    | zero => exact .cons hb hr
    | succ i => exact .cons ha (ih i a b hb)

/-- one call of the reading function -/
theorem next_spec (r : Reader) (ls : List (List Sample)) (h : List.Forall₂ Rem r.streams ls)
    (hin : Inside ls r.mdatEnd) (hmax : r.mdatEnd < max64) :
    ((∀ l ∈ ls, l = []) ∧ ∃ r', next r = some (false, none, r')) ∨
    ∃ s l x r', next r = some (true, some (s, x), r') ∧ ls[s]? = some l ∧ l.head? = some x ∧
      (x.offset = r.last ∨ ∀ l ∈ ls, ∀ y, l.head? = some y → x.offset ≤ y.offset) ∧
      r'.mdatEnd = r.mdatEnd ∧ r'.last = x.offset + x.size ∧ List.Forall₂ Rem r'.streams (ls.set s l.tail) ∧
      r'.streams.map (·.1) = r.streams.map (·.1) := by
  have hoff : ∀ l ∈ ls, ∀ x ∈ l, x.offset < max64 := by
    intro l hl x hx; have := hin l hl x hx; omega
  rcases find_spec r.streams ls h hoff r.last with ⟨hall, last', e⟩ | ⟨s, l, x, e, e1, e2, e3⟩
  · left
    exact ⟨hall, { r with last := last' }, by simp only [next, e]⟩
  · right
    obtain ⟨⟨t, p⟩, ht, hrem⟩ := forall₂_get h s l e1
    have hp := rem_pick hrem
    have hl : l ≠ [] := by intro hc; subst hc; simp at e2
    obtain ⟨hlt, hrem'⟩ := rem_next hrem hl
    have hle := hin l (List.mem_of_getElem? e1) x (List.mem_of_head? e2)
    have hmod : (x.offset + x.size) % 2 ^ 64 = x.offset + x.size := by
      apply Nat.mod_eq_of_lt; simp only [max64] at hmax; omega
    refine ⟨s, l, x, { r with streams := moveNext r.streams s, last := x.offset + x.size }, ?_, e1, e2, e3, rfl, rfl, ?_, ?_⟩
    · simp only [next, e, ht, hp, e2, hmod, hle, decide_true]
    · simp only [moveNext, ht, hlt, if_true]
      exact forall₂_set h s _ _ hrem'
    · simp only [moveNext, ht]
      rw [List.map_set]
      apply List.ext_getElem?
      intro i
      rw [List.getElem?_set]
      split
      · rename_i hi; subst hi
        have : s < r.streams.length := (List.getElem?_eq_some_iff.1 ht).1
        simp [this]
        have := List.getElem?_eq_some_iff.1 ht
        obtain ⟨h1, h2⟩ := this
        rw [h2]
      · rfl

end Verif.Reader
