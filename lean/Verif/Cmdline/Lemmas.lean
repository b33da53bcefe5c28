import Verif.Cmdline.Spec
/-
The ordered map of commands.
-/
namespace Verif.Cmdline

theorem toNat_inj {a b : Char} (h : a.toNat = b.toNat) : a = b := Char.ext (UInt32.toNat_inj.mp h)

theorem less_irrefl : ∀ a : Str, less a a = false := by
  intro a
  induction a with
  | nil => rfl
  | cons c a ih => simp [less, ih]

theorem less_trans : ∀ a b c : Str, less a b = true → less b c = true → less a c = true := by
  intro a
  induction a with
  | nil =>
    intro b c h1 h2
    cases c with
    | nil => cases b <;> simp [less] at h2
    | cons x c => simp [less]
  | cons x a ih =>
    intro b c h1 h2
    cases b with
    | nil => simp [less] at h1
    | cons y b =>
      cases c with
      | nil => simp [less] at h2
      | cons z c =>
        rw [less] at h1 h2 ⊢
        by_cases h : x.toNat < y.toNat
        · by_cases h' : z.toNat < y.toNat
          · rw [if_neg (by omega), if_pos h'] at h2; simp at h2
          · rw [if_pos (by omega)]
        · rw [if_neg h] at h1
          by_cases h' : y.toNat < x.toNat
          · rw [if_pos h'] at h1; simp at h1
          · rw [if_neg h'] at h1
            by_cases g : y.toNat < z.toNat
            · rw [if_pos (by omega)]
            · rw [if_neg g] at h2
              by_cases g' : z.toNat < y.toNat
              · rw [if_pos g'] at h2; simp at h2
              · rw [if_neg g'] at h2
                rw [if_neg (by omega), if_neg (by omega)]
                exact ih b c h1 h2

theorem less_total : ∀ a b : Str, a = b ∨ less a b = true ∨ less b a = true := by
  intro a
  induction a with
  | nil => intro b; cases b <;> simp [less]
  | cons x a ih =>
    intro b
    cases b with
    | nil => simp [less]
    | cons y b =>
      simp only [less]
      by_cases h : x.toNat < y.toNat
      · right; left; rw [if_pos h]
      · by_cases h' : y.toNat < x.toNat
        · right; right; rw [if_pos h']
        · have : x = y := toNat_inj (by omega)
          subst this
          simp only [Nat.lt_irrefl, if_false]
          rcases ih b with h | h | h
          · left; rw [h]
          · right; left; exact h
          · right; right; exact h

/-- Ordered by name. -/
def Sorted (m : Map) : Prop := m.Pairwise fun x y => less x.1 y.1 = true

theorem mem_set (m : Map) (hs : Sorted m) (n : Str) (i : Item) (x : Str × Item) : x ∈ set m n i ↔ x = (n, i) ∨ (x ∈ m ∧ x.1 ≠ n) := by
  induction m with
  | nil => simp [set]
  | cons y m ih =>
    obtain ⟨h1, h2⟩ := List.pairwise_cons.mp hs
    rw [set]
    by_cases e : y.1 = n
    · rw [if_pos e]
      simp only [List.mem_cons]
      constructor
      · rintro (h | h)
        · exact Or.inl h
        · refine Or.inr ⟨Or.inr h, ?_⟩
          intro hx
          have := h1 x h
          rw [e, hx, less_irrefl] at this
          simp at this
      · rintro (h | ⟨h | h, hx⟩)
        · exact Or.inl h
        · rw [h] at hx; exact absurd e hx
        · exact Or.inr h
    · rw [if_neg e]
      by_cases l : less n y.1 = true
      · rw [if_pos l]
        simp only [List.mem_cons]
        constructor
        · rintro (h | h | h)
          · exact Or.inl h
          · exact Or.inr ⟨Or.inl h, by rw [h]; exact e⟩
          · refine Or.inr ⟨Or.inr h, ?_⟩
            intro hx
            have := less_trans _ _ _ l (h1 x h)
            rw [hx, less_irrefl] at this
            simp at this
        · rintro (h | ⟨h | h, hx⟩)
          · exact Or.inl h
          · exact Or.inr (Or.inl h)
          · exact Or.inr (Or.inr h)
      · rw [if_neg l]
        simp only [List.mem_cons, ih h2]
        constructor
        · rintro (h | h | ⟨h, hx⟩)
          · exact Or.inr ⟨Or.inl h, by rw [h]; exact e⟩
          · exact Or.inl h
          · exact Or.inr ⟨Or.inr h, hx⟩
        · rintro (h | ⟨h | h, hx⟩)
          · exact Or.inr (Or.inl h)
          · exact Or.inl h
          · exact Or.inr (Or.inr ⟨h, hx⟩)

theorem set_sorted (m : Map) (hs : Sorted m) (n : Str) (i : Item) : Sorted (set m n i) := by
  induction m with
  | nil => exact List.pairwise_singleton _ _
  | cons y m ih =>
    obtain ⟨h1, h2⟩ := List.pairwise_cons.mp hs
    rw [set]
    by_cases e : y.1 = n
    · rw [if_pos e]
      refine List.pairwise_cons.mpr ⟨?_, h2⟩
      intro x hx
      have := h1 x hx
      rw [e] at this
      exact this
    · rw [if_neg e]
      by_cases l : less n y.1 = true
      · rw [if_pos l]
        refine List.pairwise_cons.mpr ⟨?_, hs⟩
        intro x hx
        rcases List.mem_cons.mp hx with h | h
        · rw [h]; exact l
        · exact less_trans _ _ _ l (h1 x h)
      · rw [if_neg l]
        refine List.pairwise_cons.mpr ⟨?_, ih h2⟩
        intro x hx
        rcases (mem_set m h2 n i x).mp hx with h | ⟨h, _⟩
        · rw [h]
          rcases less_total y.1 n with h' | h' | h'
          · exact absurd h' e
          · exact h'
          · exact absurd h' l
        · exact h1 x h

theorem find_iff (m : Map) (hs : Sorted m) (n : Str) (i : Item) : find m n = some i ↔ (n, i) ∈ m := by
  induction m with
  | nil => simp [find]
  | cons y m ih =>
    obtain ⟨h1, h2⟩ := List.pairwise_cons.mp hs
    by_cases e : y.1 = n
    · have : find (y :: m) n = some y.2 := by simp [find, e]
      rw [this, List.mem_cons]
      constructor
      · intro h; left; rw [← e, ← Option.some.inj h]
      · rintro (h | h)
        · rw [← h]
        · have := h1 _ h
          rw [e, less_irrefl] at this
          simp at this
    · have : find (y :: m) n = find m n := by simp [find, e]
      rw [this, ih h2, List.mem_cons]
      constructor
      · exact Or.inr
      · rintro (h | h)
        · rw [← h] at e; exact absurd rfl e
        · exact h

theorem find_none (m : Map) (hs : Sorted m) (n : Str) : find m n = none ↔ ∀ i, (n, i) ∉ m := by
  constructor
  · intro h i hi
    rw [← find_iff m hs n i] at hi
    rw [h] at hi; simp at hi
  · intro h
    cases hf : find m n with
    | none => rfl
    | some i => exact absurd ((find_iff m hs n i).mp hf) (h i)

theorem find_set (m : Map) (hs : Sorted m) (n : Str) (i : Item) (k : Str) : find (set m n i) k = if k = n then some i else find m k := by
  have hs' := set_sorted m hs n i
  by_cases e : k = n
  · rw [if_pos e, find_iff _ hs', mem_set m hs]
    left; rw [e]
  · rw [if_neg e]
    cases hf : find m k with
    | none =>
      rw [find_none _ hs']
      intro j hj
      rcases (mem_set m hs n i _).mp hj with h | ⟨h, _⟩
      · exact e (congrArg Prod.fst h)
      · exact (find_none m hs k).mp hf j h
    | some j =>
      rw [find_iff _ hs', mem_set m hs]
      exact Or.inr ⟨(find_iff m hs k j).mp hf, e⟩

end Verif.Cmdline
