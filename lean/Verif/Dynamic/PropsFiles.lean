import Verif.Dynamic.Props

/-!
Files and ends of segments: C29, C30, C31, C68, C69.
-/
namespace Verif.Dynamic
open Spec

/-! ### C29 -/

/-- The files registered for a bitrate by a history of `Add` calls. -/
def pathsOf {P : Type} (h : List (Int × P)) : List (Int × P) := h.foldl (fun m e => bitrateAdd m e.1 e.2) []

/-- Adding to a map that has entries. -/
theorem bitrateAdd_find {P : Type} (m : List (Int × P)) (hs : Sorted m) (s : Int) (p : P) (hm : m ≠ [] ∨ s ≤ 0) :
    Sorted (bitrateAdd m s p) ∧ bitrateAdd m s p ≠ [] ∧
    ∀ x, mapFind (bitrateAdd m s p) x = (mapFind m x).or (if s = x then some p else none) := by
  have hc : ¬ (m.length = 0 ∧ s > 0) := by
    rintro ⟨h1, h2⟩
    rcases hm with h | h
    · exact h (List.length_eq_zero_iff.mp h1)
    · omega
  simp only [bitrateAdd, if_neg hc]
  by_cases hn : (mapFind m s).isNone = true
  · rw [if_pos hn]
    refine ⟨mapSet_sorted _ _ hs, ?_, ?_⟩
    · intro he
      have := (keys_mapSet (m := m) s p s).mpr (Or.inl rfl)
      rw [he] at this; simp at this
    · intro x
      rw [mapFind_mapSet]
      by_cases hx : s = x
      · subst hx
        rw [Option.isNone_iff_eq_none.mp hn]; simp
      · simp [hx]
  · rw [if_neg hn]
    have hsome : ∃ v, mapFind m s = some v := by
      cases h : mapFind m s with
      | none => rw [h] at hn; simp at hn
      | some v => exact ⟨v, rfl⟩
    obtain ⟨v, hv⟩ := hsome
    refine ⟨hs, ?_, ?_⟩
    · rintro rfl; simp [mapFind] at hv
    · intro x
      by_cases hx : s = x
      · subst hx; rw [hv]; rfl
      · simp [hx]

theorem pathsOf_spec {P : Type} (h : List (Int × P)) : Sorted (pathsOf h) ∧ (h ≠ [] → pathsOf h ≠ []) ∧
    ∀ x, mapFind (pathsOf h) x = firstAt (registrations h) x := by
  have key : ∀ (todo done m : List (Int × P)), Sorted m → m ≠ [] → (∀ x, mapFind m x = firstAt done x) →
      Sorted (todo.foldl (fun m e => bitrateAdd m e.1 e.2) m) ∧ todo.foldl (fun m e => bitrateAdd m e.1 e.2) m ≠ [] ∧
      ∀ x, mapFind (todo.foldl (fun m e => bitrateAdd m e.1 e.2) m) x = firstAt (done ++ todo) x := by
    intro todo
    induction todo with
    | nil => intro done m h1 h2 h3; simpa using ⟨h1, h2, h3⟩
    | cons e todo ih =>
      intro done m h1 h2 h3
      obtain ⟨b1, b2, b3⟩ := bitrateAdd_find m h1 e.1 e.2 (Or.inl h2)
      have := ih (done ++ [e]) (bitrateAdd m e.1 e.2) b1 b2 (by
        intro x
        rw [b3, h3]
        simp only [firstAt, List.find?_append, List.find?_singleton]
        cases List.find? (fun e => decide (e.1 = x)) done with
        | some _ => simp
        | none => by_cases hx : e.1 = x <;> simp [hx])
      simpa using this
  cases h with
  | nil => exact ⟨by simp [pathsOf, Sorted], by simp, by simp [pathsOf, mapFind, registrations, firstAt]⟩
  | cons e h =>
    obtain ⟨s, p⟩ := e
    simp only [pathsOf, List.foldl_cons, registrations]
    by_cases hs : s > 0
    · have e1 : bitrateAdd ([] : List (Int × P)) s p = bitrateAdd [(0, p)] s p := by
        have c1 : (([] : List (Int × P)).length = 0 ∧ s > 0) := ⟨rfl, hs⟩
        have c2 : ¬ (([(0, p)] : List (Int × P)).length = 0 ∧ s > 0) := by simp
        simp only [bitrateAdd, if_pos c1, if_neg c2]
        rfl
      rw [e1, if_pos hs]
      have := key ((s, p) :: h) [(0, p)] [(0, p)] (by simp [Sorted]) (by simp) (by
        intro x
        simp only [mapFind, firstAt, List.find?_singleton]
        by_cases hx : (0 : Int) = x <;> simp [hx])
      exact ⟨this.1, fun _ => this.2.1, this.2.2⟩
    · obtain ⟨b1, b2, b3⟩ := bitrateAdd_find ([] : List (Int × P)) (by simp [Sorted]) s p (Or.inr (by omega))
      rw [if_neg hs]
      have := key h [(s, p)] (bitrateAdd [] s p) b1 b2 (by
        intro x
        rw [b3]
        simp only [mapFind, firstAt, List.find?_singleton]
        by_cases hx : s = x <;> simp [hx])
      exact ⟨this.1, fun _ => this.2.1, by simpa using this.2.2⟩

theorem lowerBound_spec {V : Type} : ∀ (m : List (Int × V)) (t : Int), Sorted m → lowerBound m t ≤ m.length ∧
    ∀ i e, m[i]? = some e → (i < lowerBound m t ↔ e.1 < t) := by
  intro m t
  induction m with
  | nil => intro _; simp [lowerBound]
  | cons a m ih =>
    intro hs
    obtain ⟨h1, h2⟩ := sorted_cons.mp hs
    obtain ⟨k, v⟩ := a
    obtain ⟨i1, i2⟩ := ih h2
    simp only [lowerBound]
    split
    · rename_i hk
      refine ⟨by simp; omega, ?_⟩
      intro i e he
      cases i with
      | zero => simp at he; subst he; simp [hk]
      | succ i =>
        simp only [List.getElem?_cons_succ] at he
        have := i2 i e he
        omega
    · rename_i hk
      refine ⟨by simp, ?_⟩
      intro i e he
      cases i with
      | zero => simp at he; subst he; simp only; omega
      | succ i =>
        simp only [List.getElem?_cons_succ] at he
        have := h1 e (List.mem_of_getElem? he)
        simp only at this
        omega

theorem find_of_getElem {V : Type} : ∀ (m : List (Int × V)) (i : Nat) (e : Int × V), Sorted m → m[i]? = some e →
    mapFind m e.1 = some e.2 := by
  intro m
  induction m with
  | nil => intro i e _ h; simp at h
  | cons a m ih =>
    intro i e hs h
    obtain ⟨h1, h2⟩ := sorted_cons.mp hs
    obtain ⟨k, v⟩ := a
    cases i with
    | zero => simp at h; subst h; simp [mapFind]
    | succ i =>
      simp only [List.getElem?_cons_succ] at h
      have := h1 e (List.mem_of_getElem? h)
      simp only at this
      simp only [mapFind]
      rw [if_neg (by omega)]
      exact ih i e h2 h

theorem sorted_index {V : Type} {m : List (Int × V)} (hs : Sorted m) {i j : Nat} {a b : Int × V} (hi : m[i]? = some a) (hj : m[j]? = some b) :
    i < j ↔ a.1 < b.1 := by
  have key : ∀ {i j : Nat} {a b : Int × V}, m[i]? = some a → m[j]? = some b → i < j → a.1 < b.1 := by
    intro i j a b hi hj hij
    have hp := hs
    simp only [Sorted] at hp
    rw [List.pairwise_iff_getElem] at hp
    obtain ⟨hil, rfl⟩ := List.getElem?_eq_some_iff.mp hi
    obtain ⟨hjl, rfl⟩ := List.getElem?_eq_some_iff.mp hj
    have h := hp i j (by simpa using hil) (by simpa using hjl) hij
    rw [List.getElem_map, List.getElem_map] at h
    exact h
  constructor
  · exact key hi hj
  · intro h
    rcases Nat.lt_trichotomy i j with h' | h' | h'
    · exact h'
    · subst h'; rw [hi] at hj; injection hj with hj; subst hj; omega
    · have := key hj hi h'; omega

/-- The entry `get_path` chooses. -/
theorem iteratorPath_spec {P : Type} (m : List (Int × P)) (t : Int) (hs : Sorted m) (hm : m ≠ []) :
    ∃ e, m[iteratorPath m t]? = some e ∧
      ((e.1 ≤ t ∧ ∀ x ∈ m, x.1 ≤ t → x.1 ≤ e.1) ∨ ((∀ x ∈ m, t < x.1) ∧ ∀ x ∈ m, e.1 ≤ x.1)) := by
  obtain ⟨l1, l2⟩ := lowerBound_spec m t hs
  have hlen : 0 < m.length := List.length_pos_iff.mpr hm
  simp only [iteratorPath]
  generalize lowerBound m t = i at l1 l2
  have hle : ∀ {a x : Int × P} {j : Nat}, m[j]? = some a → x ∈ m → (∀ n, m[n]? = some x → n ≤ j) → x.1 ≤ a.1 := by
    intro a x j ha hx hn
    obtain ⟨n, hn'⟩ := List.mem_iff_getElem?.mp hx
    have h1 := hn n hn'
    rcases Nat.lt_or_eq_of_le h1 with h | h
    · exact Int.le_of_lt ((sorted_index hs hn' ha).mp h)
    · subst h; rw [ha] at hn'; injection hn' with h'; rw [h']; exact Int.le_refl _
  by_cases hi : i = m.length
  · have hc : i ≠ 0 ∧ (i = m.length ∨ (m[i]?).map (·.1) ≠ some t) := ⟨by omega, Or.inl hi⟩
    rw [if_pos hc]
    obtain ⟨a, ha⟩ : ∃ a, m[i - 1]? = some a := ⟨m[i - 1], List.getElem?_eq_getElem (by omega)⟩
    refine ⟨a, ha, Or.inl ⟨Int.le_of_lt ((l2 _ _ ha).mp (by omega)), ?_⟩⟩
    intro x hx _
    refine hle ha hx ?_
    intro n hn
    have := (List.getElem?_eq_some_iff.mp hn).1
    omega
  · obtain ⟨b, hb⟩ : ∃ b, m[i]? = some b := ⟨m[i]'(by omega), List.getElem?_eq_getElem (by omega)⟩
    have hbt : t ≤ b.1 := by
      have := l2 i b hb
      omega
    by_cases hbe : b.1 = t
    · have hc : ¬ (i ≠ 0 ∧ (i = m.length ∨ (m[i]?).map (·.1) ≠ some t)) := by
        rw [hb]; simp [hbe, hi]
      rw [if_neg hc]
      refine ⟨b, hb, Or.inl ⟨by omega, fun x _ h => by omega⟩⟩
    · by_cases h0 : i = 0
      · have hc : ¬ (i ≠ 0 ∧ (i = m.length ∨ (m[i]?).map (·.1) ≠ some t)) := by simp [h0]
        rw [if_neg hc]
        have hall : ∀ x ∈ m, b.1 ≤ x.1 := by
          intro x hx
          obtain ⟨n, hn⟩ := List.mem_iff_getElem?.mp hx
          rcases Nat.eq_zero_or_pos n with h | h
          · subst h h0; rw [hb] at hn; injection hn with h'; rw [h']; exact Int.le_refl _
          · exact Int.le_of_lt ((sorted_index hs hb hn).mp (by omega))
        exact ⟨b, hb, Or.inr ⟨fun x hx => by have := hall x hx; omega, hall⟩⟩
      · have hc : i ≠ 0 ∧ (i = m.length ∨ (m[i]?).map (·.1) ≠ some t) := ⟨h0, Or.inr (by rw [hb]; simp [hbe])⟩
        rw [if_pos hc]
        obtain ⟨a, ha⟩ : ∃ a, m[i - 1]? = some a := ⟨m[i - 1], List.getElem?_eq_getElem (by omega)⟩
        refine ⟨a, ha, Or.inl ⟨Int.le_of_lt ((l2 _ _ ha).mp (by omega)), ?_⟩⟩
        intro x hx hxt
        refine hle ha hx ?_
        intro n hn
        have h1 := (sorted_index hs hb hn)
        have : n < i := by
          rcases Nat.lt_trichotomy n i with h | h | h
          · exact h
          · subst h; rw [hb] at hn; injection hn with h'; subst h'; omega
          · have := h1.mp h; omega
        omega

theorem mem_iff_find {V : Type} {m : List (Int × V)} {k : Int} : (∃ e ∈ m, e.1 = k) ↔ mapFind m k ≠ none := by
  rw [Ne, mapFind_none, Classical.not_not, List.mem_map]

/-- C29: for every non-empty history of registrations and every time, `get_path` returns the path that was registered first for the start
that covers the time. -/
theorem path_covers {P : Type} (h : List (Int × P)) (hne : h ≠ []) (t : Int) :
    ∃ s p, getPath (pathsOf h) t = some p ∧ Covers (registrations h) t s ∧ firstAt (registrations h) s = some p := by
  obtain ⟨h1, h2, h3⟩ := pathsOf_spec h
  obtain ⟨e, he, hcov⟩ := iteratorPath_spec (pathsOf h) t h1 (h2 hne)
  have hfind := find_of_getElem _ _ _ h1 he
  have hmem : ∀ k, (∃ x ∈ registrations h, x.1 = k) ↔ ∃ x ∈ pathsOf h, x.1 = k := by
    intro k
    rw [mem_iff_find (m := pathsOf h), h3]
    simp [firstAt]
  refine ⟨e.1, e.2, by simp [getPath, he], ⟨(hmem _).mpr ⟨e, List.mem_of_getElem? he, rfl⟩, ?_⟩, by rw [← h3, hfind]⟩
  rcases hcov with ⟨c1, c2⟩ | ⟨c1, c2⟩
  · refine Or.inl ⟨c1, ?_⟩
    intro x hx hxt
    obtain ⟨y, hy, hyx⟩ := (hmem x.1).mp ⟨x, hx, rfl⟩
    have := c2 y hy (by omega)
    omega
  · refine Or.inr ⟨?_, ?_⟩
    · intro x hx
      obtain ⟨y, hy, hyx⟩ := (hmem x.1).mp ⟨x, hx, rfl⟩
      have := c1 y hy
      omega
    · intro x hx
      obtain ⟨y, hy, hyx⟩ := (hmem x.1).mp ⟨x, hx, rfl⟩
      have := c2 y hy
      omega

theorem lowerBound_shift {V : Type} (off t : Int) : ∀ (m : List (Int × V)),
    lowerBound (m.map fun e => (e.1 + off, e.2)) (t + off) = lowerBound m t := by
  intro m
  induction m with
  | nil => rfl
  | cons e m ih =>
    simp only [List.map_cons, lowerBound, ih]
    by_cases h : e.1 < t
    · rw [if_pos h, if_pos (by omega)]
    · rw [if_neg h, if_neg (by omega)]

/-- C29: after a rebase every time is served by the file that served it before. -/
theorem path_rebase {P : Type} (h : List (Int × P)) (off t : Int) :
    getPath (mapRebase (pathsOf h) off) (t + off) = getPath (pathsOf h) t := by
  obtain ⟨h1, _, _⟩ := pathsOf_spec h
  rw [mapRebase_eq off h1]
  generalize pathsOf h = m
  have e : iteratorPath (m.map fun e => (e.1 + off, e.2)) (t + off) = iteratorPath m t := by
    simp only [iteratorPath, lowerBound_shift, List.length_map, List.getElem?_map, Option.map_map]
    have : ∀ o : Option (Int × P), (Option.map ((fun x : Int × P => x.1) ∘ fun e => (e.1 + off, e.2)) o ≠ some (t + off)) ↔
        (o.map (·.1) ≠ some t) := by
      intro o
      cases o with
      | none => simp
      | some x => simp only [Option.map_some, Function.comp_apply, ne_eq, Option.some.injEq]; omega
    simp only [this]
  simp only [getPath, e, List.getElem?_map, Option.map_map]
  rfl

-- non-vacuity
example : getPath (pathsOf [(20, "b"), (5, "a"), (20, "x"), (40, "c")]) 39 = some "b" := by decide +kernel
example : getPath (pathsOf [(20, "b"), (5, "a"), (20, "x"), (40, "c")]) 2 = some "b" := by decide +kernel
example : getPath (pathsOf [(20, "b"), (5, "a"), (20, "x"), (40, "c")]) 19 = some "a" := by decide +kernel

/-! ### C30 -/

/-- C30: with at least two segment starts, `get_closest(t)` for a `t` not after the last one returns a start no other start is nearer to; after
the last one it throws. -/
theorem closest_partial (calls : List Call) (t : Int) (h2 : 2 ≤ (pointsOf calls).computed.length) :
    (∀ c ∈ pointCalls calls, c.1 < t) ∧ (pointsOf calls).getClosest t = .throws ∨
    ∃ k, (pointsOf calls).getClosest t = .at k ∧ (∃ c ∈ pointCalls calls, c.1 = k) ∧
      ∀ c ∈ pointCalls calls, dist k t ≤ dist c.1 t := by
  obtain ⟨hs, hm, _⟩ := pointsOf_spec calls
  have hmem : ∀ {x : Int × Int}, x ∈ (pointsOf calls).computed → ∃ c ∈ pointCalls calls, c.1 = x.1 :=
    fun hx => (hm _).mp (List.mem_map_of_mem hx)
  have hmem' : ∀ c ∈ pointCalls calls, ∃ x ∈ (pointsOf calls).computed, x.1 = c.1 := by
    intro c hc
    exact List.mem_map.mp ((hm c.1).mpr ⟨c, hc, rfl⟩)
  obtain ⟨l1, l2⟩ := lowerBound_spec (pointsOf calls).computed t hs
  simp only [Points.getClosest]
  generalize (pointsOf calls).computed = m at *
  generalize lowerBound m t = i at *
  by_cases hi : i = m.length
  · left
    rw [List.getElem?_eq_none (by omega)]
    refine ⟨?_, rfl⟩
    intro c hc
    obtain ⟨x, hx, hxc⟩ := hmem' c hc
    obtain ⟨n, hn⟩ := List.mem_iff_getElem?.mp hx
    have := (l2 n x hn).mp (by have := (List.getElem?_eq_some_iff.mp hn).1; omega)
    omega
  · right
    obtain ⟨b, hb⟩ : ∃ b, m[i]? = some b := ⟨m[i]'(by omega), List.getElem?_eq_getElem (by omega)⟩
    have hbt : t ≤ b.1 := by have := l2 i b hb; omega
    rw [hb]
    simp only
    -- everything from `i` on is at least `b`
    have hge : ∀ n x, m[n]? = some x → i ≤ n → b.1 ≤ x.1 := by
      intro n x hn hin
      rcases Nat.lt_or_eq_of_le hin with h | h
      · exact Int.le_of_lt ((sorted_index hs hb hn).mp h)
      · subst h; rw [hb] at hn; injection hn with h'; rw [h']; exact Int.le_refl _
    have hfar : ∀ (cur : Int × Int) n x, m[n]? = some x → i ≤ n → cur.2 ≤ b.1 - t → closer t x.1 cur = cur := by
      intro cur n x hn hin hcur
      have h1 := hge n x hn hin
      have c1 : ¬ (x.1 > t ∧ x.1 - t < cur.2) := by omega
      have c2 : ¬ (x.1 ≤ t ∧ t - x.1 < cur.2) := by omega
      simp only [closer, if_neg c1, if_neg c2]
    by_cases h0 : i = 0
    · rw [if_neg (by simp [h0])]
      simp only [closestAfter]
      have hlen : ¬ i + 2 > m.length := by omega
      simp only [if_neg hlen]
      have hres : (match m[i + 2]? with
          | none => Found.at b.1
          | some e' => Found.at (closer t e'.1 (b.1, b.1 - t)).1) = .at b.1 := by
        cases h : m[i + 2]? with
        | none => rfl
        | some e' => simp only [hfar (b.1, b.1 - t) _ e' h (by omega) (Int.le_refl _)]
      refine ⟨b.1, hres, hmem (List.mem_of_getElem? hb), ?_⟩
      intro c hc
      obtain ⟨x, hx, hxc⟩ := hmem' c hc
      obtain ⟨n, hn⟩ := List.mem_iff_getElem?.mp hx
      have := hge n x hn (by omega)
      simp only [dist]; omega
    · rw [if_pos h0]
      obtain ⟨a, ha⟩ : ∃ a, m[i - 1]? = some a := ⟨m[i - 1]'(by omega), List.getElem?_eq_getElem (by omega)⟩
      have hat : a.1 < t := (l2 _ _ ha).mp (by omega)
      simp only [closestBefore, ha, closestAfter]
      have hlen : ¬ i - 1 + 2 > m.length := by omega
      have hcl : closer t a.1 (b.1, b.1 - t) = if t - a.1 < b.1 - t then (a.1, t - a.1) else (b.1, b.1 - t) := by
        have c1 : ¬ (a.1 > t ∧ a.1 - t < b.1 - t) := by omega
        simp only [closer, if_neg c1]
        by_cases h : t - a.1 < b.1 - t
        · rw [if_pos ⟨by omega, h⟩, if_pos h]
        · rw [if_neg (by omega), if_neg h]
      rw [if_neg hlen, hcl]
      have hcur : (if t - a.1 < b.1 - t then (a.1, t - a.1) else (b.1, b.1 - t)).2 ≤ b.1 - t := by split <;> simp only <;> omega
      have hres : (match m[i - 1 + 2]? with
          | none => Found.at (if t - a.1 < b.1 - t then (a.1, t - a.1) else (b.1, b.1 - t)).1
          | some e' => Found.at (closer t e'.1 (if t - a.1 < b.1 - t then (a.1, t - a.1) else (b.1, b.1 - t))).1) =
            .at (if t - a.1 < b.1 - t then (a.1, t - a.1) else (b.1, b.1 - t)).1 := by
        cases h : m[i - 1 + 2]? with
        | none => rfl
        | some e' => simp only [hfar _ _ e' h (by omega) hcur]
      refine ⟨_, hres, ?_, ?_⟩
      · split
        · exact hmem (x := a) (List.mem_of_getElem? ha)
        · exact hmem (x := b) (List.mem_of_getElem? hb)
      · intro c hc
        obtain ⟨x, hx, hxc⟩ := hmem' c hc
        obtain ⟨n, hn⟩ := List.mem_iff_getElem?.mp hx
        have hcase : x.1 ≤ a.1 ∨ b.1 ≤ x.1 := by
          rcases Nat.lt_trichotomy n (i - 1) with h | h | h
          · exact Or.inl (Int.le_of_lt ((sorted_index hs hn ha).mp h))
          · subst h; rw [ha] at hn; injection hn with h'; rw [h']; exact Or.inl (Int.le_refl _)
          · exact Or.inr (hge n x hn (by omega))
        simp only [dist]
        split <;> simp only <;> omega

/-- C30 fails with a single segment start: the iterator is advanced past the end of the map. -/
theorem closest_single_witness (t c s : Int) (h : s ≤ t) : (pointsOf [.add t c]).getClosest s = .undefined := by
  have : lowerBound [(t, c)] s = 0 := by simp only [lowerBound]; rw [if_neg (by omega)]
  simp [pointsOf, Points.call, Points.add, mapSet, Points.getClosest, closestAfter, this]

-- non-vacuity
example : (pointsOf exCalls).getClosest 31 = .at 40 ∧ (pointsOf exCalls).getClosest 30 = .at 40 ∧
    (pointsOf exCalls).getClosest 29 = .at 20 ∧ (pointsOf exCalls).getClosest 61 = .throws := by decide +kernel
example : 2 ≤ (pointsOf exCalls).computed.length := by decide +kernel

/-! ### C68: where a segment ends -/

theorem next_spec {V : Type} : ∀ (m : List (Int × V)) (t : Int), Sorted m → t ∈ m.map (·.1) →
    (∀ x ∈ m, x.1 ≤ t) ∧ next m t = none ∨
    ∃ e, next m t = some e ∧ e ∈ m ∧ t < e.1 ∧ ∀ x ∈ m, t < x.1 → e.1 ≤ x.1 := by
  intro m t
  induction m with
  | nil => intro _ h; simp at h
  | cons a m ih =>
    intro hs ht
    obtain ⟨h1, h2⟩ := sorted_cons.mp hs
    obtain ⟨k, v⟩ := a
    simp only [next]
    by_cases hk : k = t
    · rw [if_pos hk]
      subst hk
      cases m with
      | nil => left; simp
      | cons b m =>
        right
        obtain ⟨g1, _⟩ := sorted_cons.mp h2
        refine ⟨b, rfl, by simp, h1 b List.mem_cons_self, ?_⟩
        intro x hx hlt
        rcases List.mem_cons.mp hx with rfl | hx
        · simp only at hlt; omega
        · rcases List.mem_cons.mp hx with rfl | hx
          · exact Int.le_refl _
          · exact Int.le_of_lt (g1 x hx)
    · rw [if_neg hk]
      have ht' : t ∈ m.map (·.1) := by
        simp only [List.map_cons, List.mem_cons] at ht
        rcases ht with h | h
        · exact absurd h.symm hk
        · exact h
      have hkt : k < t := by
        obtain ⟨x, hx, rfl⟩ := List.mem_map.mp ht'
        exact h1 x hx
      rcases ih h2 ht' with ⟨a1, a2⟩ | ⟨e, e1, e2, e3, e4⟩
      · left
        refine ⟨?_, a2⟩
        intro x hx
        rcases List.mem_cons.mp hx with rfl | hx
        · exact Int.le_of_lt hkt
        · exact a1 x hx
      · right
        refine ⟨e, e1, List.mem_cons_of_mem _ e2, e3, ?_⟩
        intro x hx hlt
        rcases List.mem_cons.mp hx with rfl | hx
        · simp only at hlt; omega
        · exact e4 x hx hlt

/-- The times given to `AddFileCross`. -/
def fileCrosses : List Call → List Int
  | [] => []
  | .fileCross t :: cs => t :: fileCrosses cs
  | .add _ _ :: cs => fileCrosses cs
  | .cross _ _ _ _ :: cs => fileCrosses cs

theorem mem_setInsert {s : List Int} {k x : Int} : x ∈ setInsert s k ↔ x = k ∨ x ∈ s := by
  induction s with
  | nil => simp [setInsert]
  | cons y s ih =>
    simp only [setInsert]
    split
    · simp
    · split
      · rename_i h; subst h; simp
      · simp only [List.mem_cons, ih]
        constructor
        · rintro (h | h | h)
          · exact Or.inr (Or.inl h)
          · exact Or.inl h
          · exact Or.inr (Or.inr h)
        · rintro (h | h | h)
          · exact Or.inr (Or.inl h)
          · exact Or.inl h
          · exact Or.inr (Or.inr h)

theorem setInsert_sorted {s : List Int} (k : Int) (h : s.Pairwise (· < ·)) : (setInsert s k).Pairwise (· < ·) := by
  induction s with
  | nil => simp [setInsert]
  | cons y s ih =>
    obtain ⟨h1, h2⟩ := List.pairwise_cons.mp h
    simp only [setInsert]
    split
    · rename_i hk
      refine List.pairwise_cons.mpr ⟨?_, h⟩
      intro x hx
      rcases List.mem_cons.mp hx with rfl | hx
      · exact hk
      · have := h1 x hx; omega
    · split
      · exact h
      · refine List.pairwise_cons.mpr ⟨?_, ih h2⟩
        intro x hx
        rcases mem_setInsert.mp hx with rfl | hx
        · omega
        · exact h1 x hx

theorem fileCross_spec (calls : List Call) : (pointsOf calls).fileCross.Pairwise (· < ·) ∧
    ∀ x, x ∈ (pointsOf calls).fileCross ↔ x ∈ fileCrosses calls := by
  suffices h : ∀ (todo : List Call) (p : Points), p.fileCross.Pairwise (· < ·) →
      (todo.foldl Points.call p).fileCross.Pairwise (· < ·) ∧
      ∀ x, x ∈ (todo.foldl Points.call p).fileCross ↔ x ∈ p.fileCross ∨ x ∈ fileCrosses todo by
    have := h calls {} List.Pairwise.nil
    simpa [pointsOf] using this
  intro todo
  induction todo with
  | nil => intro p h; simpa [fileCrosses] using h
  | cons c todo ih =>
    intro p h
    cases c with
    | add t c => exact ih (p.add t c) h
    | cross t c t2 c2 => exact ih (p.addCross t c t2 c2) h
    | fileCross t =>
      obtain ⟨a, b⟩ := ih (p.addFileCross t) (setInsert_sorted t h)
      refine ⟨a, ?_⟩
      intro x
      have := b x
      simp only [Points.addFileCross, mem_setInsert] at this
      simp only [List.foldl_cons, Points.call, fileCrosses, List.mem_cons]
      rw [show Points.addFileCross p t = { p with fileCross := setInsert p.fileCross t } from rfl, this]
      constructor
      · rintro ((h | h) | h)
        · exact Or.inr (Or.inl h)
        · exact Or.inl h
        · exact Or.inr (Or.inr h)
      · rintro (h | h | h)
        · exact Or.inl (Or.inr h)
        · exact Or.inl (Or.inl h)
        · exact Or.inr h

theorem upperBound_eq {s : List Int} (hs : s.Pairwise (· < ·)) (a b : Int) (hab : a ≤ b) :
    upperBound s a = upperBound s b ↔ ∀ x ∈ s, ¬ (a < x ∧ x ≤ b) := by
  induction s with
  | nil => simp [upperBound]
  | cons y s ih =>
    obtain ⟨h1, h2⟩ := List.pairwise_cons.mp hs
    simp only [upperBound]
    by_cases ha : y ≤ a
    · rw [if_pos ha, if_pos (by omega)]
      simp only [Nat.add_right_cancel_iff, ih h2, List.mem_cons, forall_eq_or_imp]
      exact ⟨fun h => ⟨by omega, h⟩, fun h => h.2⟩
    · rw [if_neg ha]
      by_cases hb : y ≤ b
      · rw [if_pos hb]
        constructor
        · intro h; omega
        · intro h; exact absurd ⟨by omega, hb⟩ (h y List.mem_cons_self)
      · rw [if_neg hb]
        simp only [true_iff]
        intro x hx
        rcases List.mem_cons.mp hx with rfl | hx
        · omega
        · have := h1 x hx; omega

/-- C68: for a segment start that is not the last one, the end on the presentation time line is the next start; the end on the time line of
the file is the composition time given for the next start or, if another file starts in between, the segment's own composition time plus its
duration. Missing: segments before or at a start that lies across two files (`compositionOf` is then `some none`). -/
theorem segment_end_partial (calls : List Call) (t : Int) (ht : ∃ c ∈ pointCalls calls, c.1 = t) (hl : ∃ c ∈ pointCalls calls, t < c.1) :
    ∃ e, (∃ c ∈ pointCalls calls, c.1 = e) ∧ t < e ∧ (∀ c ∈ pointCalls calls, t < c.1 → e ≤ c.1) ∧
      (pointsOf calls).getEndComputed t = some e ∧
      (∀ c, (∀ x ∈ fileCrosses calls, ¬ (t < x ∧ x ≤ e)) → compositionOf (pointCalls calls) e = some (some c) →
        (pointsOf calls).getEnd t = some c) ∧
      (∀ c, (∃ x ∈ fileCrosses calls, t < x ∧ x ≤ e) → compositionOf (pointCalls calls) t = some (some c) →
        (pointsOf calls).getEnd t = some (c + (e - t))) := by
  obtain ⟨hs, hm, hf⟩ := pointsOf_spec calls
  obtain ⟨f1, f2⟩ := fileCross_spec calls
  have htm : t ∈ (pointsOf calls).computed.map (·.1) := (hm t).mpr ht
  rcases next_spec _ t hs htm with ⟨a1, _⟩ | ⟨e, e1, e2, e3, e4⟩
  · exfalso
    obtain ⟨c, hc, hlt⟩ := hl
    obtain ⟨x, hx, hxc⟩ := List.mem_map.mp ((hm c.1).mpr ⟨c, hc, rfl⟩)
    have := a1 x hx
    omega
  · have hfe : mapFind (pointsOf calls).computed e.1 = some e.2 := by
      obtain ⟨n, hn⟩ := List.mem_iff_getElem?.mp e2
      exact find_of_getElem _ _ _ hs hn
    obtain ⟨o, ho⟩ : ∃ o, mapFind (pointsOf calls).computed t = some o := by
      cases h : mapFind (pointsOf calls).computed t with
      | none => exact absurd htm (mapFind_none.mp h)
      | some o => exact ⟨o, rfl⟩
    refine ⟨e.1, (hm _).mp (List.mem_map_of_mem e2), e3, ?_, by simp [Points.getEndComputed, e1], ?_, ?_⟩
    · intro c hc hlt
      obtain ⟨x, hx, hxc⟩ := List.mem_map.mp ((hm c.1).mpr ⟨c, hc, rfl⟩)
      have := e4 x hx (by omega)
      omega
    · intro c hno hc
      have : upperBound (pointsOf calls).fileCross t = upperBound (pointsOf calls).fileCross e.1 :=
        (upperBound_eq f1 _ _ (Int.le_of_lt e3)).mpr (fun x hx => hno x ((f2 x).mp hx))
      have hv := hf e.1
      rw [hfe, hc] at hv
      simp only [Option.map_some, Option.getD_some, Option.some.injEq] at hv
      simp only [Points.getEnd, ho, e1, this, ne_eq, not_true, if_false, hv]
    · rintro c ⟨x, hx, hx1⟩ hc
      have : upperBound (pointsOf calls).fileCross t ≠ upperBound (pointsOf calls).fileCross e.1 := by
        intro h
        exact (upperBound_eq f1 _ _ (Int.le_of_lt e3)).mp h x ((f2 x).mpr hx) hx1
      have hv := hf t
      rw [ho, hc] at hv
      simp only [Option.map_some, Option.getD_some, Option.some.injEq] at hv
      simp only [Points.getEnd, ho, e1, if_pos this, hv]

/-- C68 fails before a start that lies across two files: the end in the file is the marker `INT64_MIN` (as a `uint64_t`, 2^63), so the segment
runs to the end of the file and overlaps the next one. -/
theorem segment_end_cross_witness (t c t1 c1 t2 c2 t3 c3 : Int) (h1 : t < t1) (h : t1 < t2) (h2 : t1 < t3) :
    (pointsOf [.add t c, .cross t1 c1 t2 c2, .add t3 c3, .fileCross t2]).getEnd t = some crossPointTime := by
  have e1 : mapSet (mapSet (mapSet ([] : List (Int × Int)) t c) t1 crossPointTime) t3 c3 = [(t, c), (t1, crossPointTime), (t3, c3)] := by
    simp only [mapSet]
    rw [if_neg (by omega), if_neg (by omega)]
    simp only [mapSet]
    rw [if_neg (by omega), if_neg (by omega), if_neg (by omega), if_neg (by omega)]
  simp only [pointsOf, List.foldl_cons, List.foldl_nil, Points.call, Points.add, Points.addCross, Points.addFileCross, e1, setInsert,
    Points.getEnd, mapFind, next, List.head?_cons, upperBound, if_true]
  rw [if_neg (show ¬ t2 ≤ t by omega), if_neg (show ¬ t2 ≤ t1 by omega)]
  simp

/-- After a rebase the times kept inside a cross point are still the old ones. -/
theorem cross_rebase_witness (t c t2 c2 off : Int) :
    ((pointsOf [.cross t c t2 c2]).rebase off).getCrossPoint (t + off) = some ⟨t, c, t2, c2⟩ := by
  simp [pointsOf, Points.call, Points.addCross, mapSet, Points.rebase, mapRebase, Points.getCrossPoint, mapFind]

-- non-vacuity
def exFiles : List Call := [.fileCross 0, .add 0 0, .add 20 20, .fileCross 33, .add 40 7, .add 60 27]
example : (pointsOf exFiles).getEnd 0 = some 20 ∧ (pointsOf exFiles).getEnd 20 = some 40 ∧ (pointsOf exFiles).getEnd 40 = some 27 ∧
    (pointsOf exFiles).getEndComputed 20 = some 40 := by decide +kernel

/-! ### C69: the choice of segment starts -/

theorem publishLoop_spec (L tol : Int) (h0 : 0 ≤ L - tol) : ∀ (ts : List Int) (last : Option Int), ts.Pairwise (· < ·) →
    (publishLoop L tol last ts).Sublist ts ∧
    (∀ l, last = some l → ∀ p ∈ publishLoop L tol last ts, l - tol ≤ p) ∧
    (publishLoop L tol last ts).Pairwise (fun a b => a + (L - tol) ≤ b) ∧
    (∀ t ∈ ts, t ∈ publishLoop L tol last ts ∨ (∃ p ∈ publishLoop L tol last ts, p < t ∧ t < p + (L - tol)) ∨
      ∃ l, last = some l ∧ t < l - tol) := by
  intro ts
  induction ts with
  | nil => intro last _; simp [publishLoop]
  | cons t ts ih =>
    intro last hs
    obtain ⟨s1, s2⟩ := List.pairwise_cons.mp hs
    have hpub : ∀ last, publishStep L tol last t = (some (t + L), true) →
        (∀ l, last = some l → l - tol ≤ t) →
        (publishLoop L tol last (t :: ts)).Sublist (t :: ts) ∧
        (∀ l, last = some l → ∀ p ∈ publishLoop L tol last (t :: ts), l - tol ≤ p) ∧
        (publishLoop L tol last (t :: ts)).Pairwise (fun a b => a + (L - tol) ≤ b) ∧
        (∀ x ∈ t :: ts, x ∈ publishLoop L tol last (t :: ts) ∨ (∃ p ∈ publishLoop L tol last (t :: ts), p < x ∧ x < p + (L - tol)) ∨
          ∃ l, last = some l ∧ x < l - tol) := by
      intro last hst hl
      obtain ⟨i1, i2, i3, i4⟩ := ih (some (t + L)) s2
      simp only [publishLoop, hst, if_true]
      refine ⟨i1.cons_cons t, ?_, ?_, ?_⟩
      · intro l hle p hp
        rcases List.mem_cons.mp hp with rfl | hp
        · exact hl l hle
        · have := i2 _ rfl p hp
          have := hl l hle
          omega
      · refine List.pairwise_cons.mpr ⟨?_, i3⟩
        intro p hp
        have := i2 _ rfl p hp
        omega
      · intro x hx
        rcases List.mem_cons.mp hx with rfl | hx
        · exact Or.inl List.mem_cons_self
        · rcases i4 x hx with h | ⟨p, hp, h⟩ | ⟨l, hl', h⟩
          · exact Or.inl (List.mem_cons_of_mem _ h)
          · exact Or.inr (Or.inl ⟨p, List.mem_cons_of_mem _ hp, h⟩)
          · injection hl' with hl'
            exact Or.inr (Or.inl ⟨t, List.mem_cons_self, s1 x hx, by omega⟩)
    cases hlast : last with
    | none => exact hpub none rfl (by simp)
    | some l =>
      by_cases hc : l - tol ≤ t
      · exact hpub (some l) (by simp [publishStep, hc]) (by intro l' h; injection h with h; omega)
      · obtain ⟨i1, i2, i3, i4⟩ := ih (some l) s2
        have e : publishLoop L tol (some l) (t :: ts) = publishLoop L tol (some l) ts := by
          simp [publishLoop, publishStep, hc]
        rw [e]
        refine ⟨i1.cons t, i2, i3, ?_⟩
        intro x hx
        rcases List.mem_cons.mp hx with rfl | hx
        · exact Or.inr (Or.inr ⟨l, rfl, by omega⟩)
        · exact i4 x hx

/-- C69: of the increasing I frame times of a stream, the first is published, the published ones are at least the fragment length less the
tolerance apart, and every I frame that is not published is less than that after a published one; nothing else is published. -/
theorem publish_spacing (L tol : Int) (h0 : 0 ≤ L - tol) (iframes : List Int) (hs : iframes.Pairwise (· < ·)) :
    (publish L tol iframes).Sublist iframes ∧ (publish L tol iframes).head? = iframes.head? ∧
    (publish L tol iframes).Pairwise (fun a b => a + (L - tol) ≤ b) ∧
    ∀ t ∈ iframes, t ∈ publish L tol iframes ∨ ∃ p ∈ publish L tol iframes, p < t ∧ t < p + (L - tol) := by
  obtain ⟨h1, _, h3, h4⟩ := publishLoop_spec L tol h0 iframes none hs
  refine ⟨h1, ?_, h3, ?_⟩
  · cases iframes with
    | nil => rfl
    | cons t ts => simp [publish, publishLoop, publishStep]
  · intro t ht
    rcases h4 t ht with h | h | ⟨l, hl, _⟩
    · exact Or.inl h
    · exact Or.inr h
    · exact absurd hl (by simp)

example : publish 20000000 260000 [0, 10000000, 19800000, 30000000, 39539999, 39540000, 50000000] = [0, 19800000, 39540000] := by
  decide +kernel

/-! ### C31: joining -/

theorem fold_max {α : Type} (f : α → Int) : ∀ (l : List α) (m : Int),
    m ≤ l.foldl (fun m s => if m < f s then f s else m) m ∧
    (∀ s ∈ l, f s ≤ l.foldl (fun m s => if m < f s then f s else m) m) ∧
    (l.foldl (fun m s => if m < f s then f s else m) m = m ∨ ∃ s ∈ l, l.foldl (fun m s => if m < f s then f s else m) m = f s) := by
  intro l
  induction l with
  | nil => intro m; simp
  | cons a l ih =>
    intro m
    simp only [List.foldl_cons]
    obtain ⟨h1, h2, h3⟩ := ih (if m < f a then f a else m)
    have hle : m ≤ (if m < f a then f a else m) ∧ f a ≤ (if m < f a then f a else m) := by split <;> omega
    refine ⟨Int.le_trans hle.1 h1, ?_, ?_⟩
    · intro s hs
      rcases List.mem_cons.mp hs with rfl | hs
      · exact Int.le_trans hle.2 h1
      · exact h2 s hs
    · rcases h3 with h3 | ⟨s, hs, h3⟩
      · by_cases h : m < f a
        · refine Or.inr ⟨a, List.mem_cons_self, ?_⟩
          rw [h3]; simp [h]
        · refine Or.inl ?_
          rw [h3]; simp [h]
      · exact Or.inr ⟨s, List.mem_cons_of_mem _ hs, h3⟩

/-- C31: for every non-empty list of streams (start, end of the previous part) there is one offset such that the join time of every stream is
its start plus the offset; no join time lies before the end of its stream, and one is exactly there. -/
theorem join_in_sync (streams : List (Int × Int)) (h : streams ≠ []) :
    ∃ off : Int, (∀ i s, streams[i]? = some s → joinTime streams i = some (s.1 + off)) ∧
      (∀ s ∈ streams, s.2 ≤ s.1 + off) ∧ ∃ s ∈ streams, s.2 = s.1 + off := by
  obtain ⟨mx, hmx⟩ : ∃ t, t = streams.foldl (fun m s => if m < s.2 then s.2 else m) (0 : Int) := ⟨_, rfl⟩
  obtain ⟨mn, hmn⟩ : ∃ t, t = streams.foldl (fun m s => if m > s.1 then s.1 else m) (2 ^ 63 - 1 : Int) := ⟨_, rfl⟩
  obtain ⟨d, ds, hd⟩ : ∃ d ds, streams.map (fun s => (s.2 - mx) + (mn - s.1)) = d :: ds := by
    cases hst : streams with
    | nil => exact absurd hst h
    | cons a l => exact ⟨_, _, rfl⟩
  obtain ⟨m1, m2, m3⟩ := fold_max (fun x : Int => x) ds d
  obtain ⟨mm, hmm⟩ : ∃ t, t = ds.foldl (fun m x => if m < x then x else m) d := ⟨_, rfl⟩
  rw [← hmm] at m1 m2 m3
  have hcomp : joinCompute streams = some (d :: ds, mm) := by
    simp only [joinCompute, ← hmx, ← hmn, hd, ← hmm]
  have hall : ∀ s ∈ streams, (s.2 - mx) + (mn - s.1) ≤ mm := by
    intro s hs
    have : (s.2 - mx) + (mn - s.1) ∈ d :: ds := hd ▸ List.mem_map_of_mem (f := fun s : Int × Int => (s.2 - mx) + (mn - s.1)) hs
    rcases List.mem_cons.mp this with e | e
    · omega
    · exact m2 _ e
  refine ⟨mx - mn + mm, ?_, ?_, ?_⟩
  · intro i s hi
    have hdi : (d :: ds)[i]? = some ((s.2 - mx) + (mn - s.1)) := by
      rw [← hd, List.getElem?_map, hi]; rfl
    simp only [joinTime, hcomp, hi, hdi, Option.map_some, Option.some.injEq]
    omega
  · intro s hs
    have := hall s hs
    omega
  · have : mm ∈ d :: ds := by
      rcases m3 with e | ⟨x, hx, e⟩
      · rw [e]; exact List.mem_cons_self
      · rw [e]; exact List.mem_cons_of_mem _ hx
    rw [← hd] at this
    obtain ⟨s, hs, e⟩ := List.mem_map.mp this
    exact ⟨s, hs, by omega⟩

example : joinTime [(0, 100), (5, 120), (3, 90)] 0 = some 115 ∧ joinTime [(0, 100), (5, 120), (3, 90)] 1 = some 120 ∧
    joinTime [(0, 100), (5, 120), (3, 90)] 2 = some 118 := by decide +kernel

end Verif.Dynamic
