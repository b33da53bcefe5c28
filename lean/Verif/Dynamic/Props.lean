import Verif.Dynamic.Model
import Verif.Dynamic.Spec

/-!
Segment starts and files of a presentation: C28 (points tile the time line), C29 (files), C30 (closest point), C31 (joining), C68 (ends of
segments), C69 (choice of segment starts).
-/
namespace Verif.Dynamic
open Spec

/-! ### maps as sorted lists -/

/-- Strictly increasing keys. -/
def Sorted {V : Type} (m : List (Int × V)) : Prop := (m.map (·.1)).Pairwise (· < ·)

theorem sorted_cons {V : Type} {e : Int × V} {m : List (Int × V)} : Sorted (e :: m) ↔ (∀ x ∈ m, e.1 < x.1) ∧ Sorted m := by
  simp [Sorted]

theorem mem_mapSet {V : Type} {m : List (Int × V)} {k : Int} {v : V} {x : Int × V} (h : x ∈ mapSet m k v) : x = (k, v) ∨ x ∈ m := by
  induction m with
  | nil => simp [mapSet] at h; exact Or.inl h
  | cons e m ih =>
    obtain ⟨k', v'⟩ := e
    simp only [mapSet] at h
    split at h
    · simpa using h
    · split at h
      · rcases List.mem_cons.mp h with h | h
        · exact Or.inl h
        · exact Or.inr (List.mem_cons_of_mem _ h)
      · rcases List.mem_cons.mp h with h | h
        · exact Or.inr (by rw [h]; exact List.mem_cons_self)
        · rcases ih h with h | h
          · exact Or.inl h
          · exact Or.inr (List.mem_cons_of_mem _ h)

theorem mapSet_sorted {V : Type} {m : List (Int × V)} (k : Int) (v : V) (h : Sorted m) : Sorted (mapSet m k v) := by
  induction m with
  | nil => simp [mapSet, Sorted]
  | cons e m ih =>
    obtain ⟨k', v'⟩ := e
    obtain ⟨h1, h2⟩ := sorted_cons.mp h
    simp only [mapSet]
    split
    · rename_i hk
      refine sorted_cons.mpr ⟨?_, h⟩
      intro x hx
      rcases List.mem_cons.mp hx with rfl | hx
      · exact hk
      · exact Int.lt_trans hk (h1 x hx)
    · split
      · rename_i hk
        subst hk
        exact sorted_cons.mpr ⟨h1, h2⟩
      · refine sorted_cons.mpr ⟨?_, ih h2⟩
        intro x hx
        rcases mem_mapSet hx with rfl | hx
        · simp only; omega
        · exact h1 x hx

theorem keys_mapSet {V : Type} {m : List (Int × V)} (k : Int) (v : V) (x : Int) :
    x ∈ (mapSet m k v).map (·.1) ↔ x = k ∨ x ∈ m.map (·.1) := by
  induction m with
  | nil => simp [mapSet]
  | cons e m ih =>
    obtain ⟨k', v'⟩ := e
    simp only [mapSet]
    split
    · simp
    · split
      · rename_i hk; subst hk; simp
      · simp only [List.map_cons, List.mem_cons] at ih ⊢
        rw [ih]
        constructor
        · rintro (h | h | h)
          · exact Or.inr (Or.inl h)
          · exact Or.inl h
          · exact Or.inr (Or.inr h)
        · rintro (h | h | h)
          · exact Or.inr (Or.inl h)
          · exact Or.inl h
          · exact Or.inr (Or.inr h)

theorem mapFind_mapSet {V : Type} {m : List (Int × V)} (k : Int) (v : V) (x : Int) :
    mapFind (mapSet m k v) x = if k = x then some v else mapFind m x := by
  induction m with
  | nil => simp [mapSet, mapFind]
  | cons e m ih =>
    obtain ⟨k', v'⟩ := e
    simp only [mapSet]
    split
    · simp [mapFind]
    · split
      · rename_i hk
        subst hk
        by_cases h : k = x <;> simp [mapFind, h]
      · rename_i h1 h2
        simp only [mapFind, ih]
        by_cases h : k' = x
        · have : ¬ k = x := fun h' => h2 (h'.trans h.symm)
          simp [h, this]
        · simp [h]

theorem mapFind_none {V : Type} {m : List (Int × V)} {x : Int} : mapFind m x = none ↔ x ∉ m.map (·.1) := by
  induction m with
  | nil => simp [mapFind]
  | cons e m ih =>
    obtain ⟨k', v'⟩ := e
    simp only [mapFind, List.map_cons, List.mem_cons, not_or]
    by_cases h : k' = x
    · simp [h]
    · simp only [h, if_false, ih]
      exact ⟨fun h' => ⟨fun e => h e.symm, h'⟩, fun h' => h'.2⟩

theorem mapSet_append {V : Type} {m : List (Int × V)} (k : Int) (v : V) (h : ∀ e ∈ m, e.1 < k) : mapSet m k v = m ++ [(k, v)] := by
  induction m with
  | nil => rfl
  | cons e m ih =>
    obtain ⟨k', v'⟩ := e
    have hk := h (k', v') List.mem_cons_self
    simp only at hk
    simp only [mapSet, List.cons_append]
    rw [if_neg (by omega), if_neg (by omega), ih (fun e he => h e (List.mem_cons_of_mem _ he))]

theorem fold_mapSet {V : Type} (off : Int) : ∀ (m acc : List (Int × V)), Sorted m → (∀ a ∈ acc, ∀ e ∈ m, a.1 < e.1 + off) →
    m.foldl (fun t e => mapSet t (e.1 + off) e.2) acc = acc ++ m.map fun e => (e.1 + off, e.2) := by
  intro m
  induction m with
  | nil => intro acc _ _; simp
  | cons e m ih =>
    intro acc hs ha
    obtain ⟨h1, h2⟩ := sorted_cons.mp hs
    simp only [List.foldl_cons]
    rw [mapSet_append _ _ (fun a h => ha a h e List.mem_cons_self), ih _ h2 ?_]
    · simp
    · intro a h x hx
      rcases List.mem_append.mp h with h | h
      · exact ha a h x (List.mem_cons_of_mem _ hx)
      · rw [List.mem_singleton.mp h]; have := h1 x hx; simp only; omega

theorem map_sorted {V : Type} {m : List (Int × V)} (off : Int) (h : Sorted m) : Sorted (m.map fun e => (e.1 + off, e.2)) := by
  induction m with
  | nil => exact h
  | cons e m ih =>
    obtain ⟨h1, h2⟩ := sorted_cons.mp h
    refine sorted_cons.mpr ⟨?_, ih h2⟩
    intro x hx
    obtain ⟨y, hy, rfl⟩ := List.mem_map.mp hx
    have := h1 y hy
    simp only; omega

/-- Rebasing moves every key. -/
theorem mapRebase_eq {V : Type} {m : List (Int × V)} (off : Int) (h : Sorted m) :
    mapRebase m off = m.map fun e => (e.1 + off, e.2) := by
  simp only [mapRebase]
  rw [fold_mapSet off m [] h (by simp)]
  have := fold_mapSet (0 : Int) (m.map fun e => (e.1 + off, e.2)) [] (map_sorted off h) (by simp)
  simp only [Int.add_zero, List.nil_append] at this ⊢
  rw [this]
  simp

/-! ### histories of calls -/

/-- A call on `DynamicPoints`. -/
inductive Call
  | add (t composition : Int)
  | cross (t composition t2 composition2 : Int)
  | fileCross (t : Int)

/-- The effect of a call. -/
def Points.call (p : Points) : Call → Points
  | .add t c => p.add t c
  | .cross t c t2 c2 => p.addCross t c t2 c2
  | .fileCross t => p.addFileCross t

/-- The points after a history of calls. -/
def pointsOf (calls : List Call) : Points := calls.foldl Points.call {}

/-- The segment starts a history of calls adds. -/
def pointCalls : List Call → List PointCall
  | [] => []
  | .add t c :: cs => (t, some c) :: pointCalls cs
  | .cross t _ _ _ :: cs => (t, none) :: pointCalls cs
  | .fileCross _ :: cs => pointCalls cs

theorem pointCalls_append (a b : List Call) : pointCalls (a ++ b) = pointCalls a ++ pointCalls b := by
  induction a with
  | nil => rfl
  | cons c a ih => cases c <;> simp [pointCalls, ih]

/-- What is kept of a history: sorted keys, the times of the calls, the composition given last. -/
theorem pointsOf_spec (calls : List Call) :
    Sorted (pointsOf calls).computed ∧
    (∀ t, t ∈ (pointsOf calls).computed.map (·.1) ↔ ∃ c ∈ pointCalls calls, c.1 = t) ∧
    (∀ t, mapFind (pointsOf calls).computed t = (compositionOf (pointCalls calls) t).map (·.getD crossPointTime)) := by
  suffices h : ∀ (done todo : List Call) (p : Points), (Sorted p.computed ∧
      (∀ t, t ∈ p.computed.map (·.1) ↔ ∃ c ∈ pointCalls done, c.1 = t) ∧
      (∀ t, mapFind p.computed t = (compositionOf (pointCalls done) t).map (·.getD crossPointTime))) →
      Sorted (todo.foldl Points.call p).computed ∧
      (∀ t, t ∈ (todo.foldl Points.call p).computed.map (·.1) ↔ ∃ c ∈ pointCalls (done ++ todo), c.1 = t) ∧
      (∀ t, mapFind (todo.foldl Points.call p).computed t =
        (compositionOf (pointCalls (done ++ todo)) t).map (·.getD crossPointTime)) by
    have := h [] calls {} ⟨by simp [Sorted], by simp [pointCalls], by simp [mapFind, pointCalls, compositionOf]⟩
    simpa [pointsOf] using this
  intro done todo
  induction todo generalizing done with
  | nil => intro p h; simpa using h
  | cons c todo ih =>
    intro p ⟨h1, h2, h3⟩
    have e : done ++ c :: todo = (done ++ [c]) ++ todo := by simp
    rw [e, List.foldl_cons]
    refine ih (done ++ [c]) (p.call c) ?_
    have key : ∀ (t v : Int) (o : Option Int), o.getD crossPointTime = v → pointCalls [c] = [(t, o)] →
        Sorted (mapSet p.computed t v) ∧
        (∀ x, x ∈ (mapSet p.computed t v).map (·.1) ↔ ∃ c' ∈ pointCalls (done ++ [c]), c'.1 = x) ∧
        (∀ x, mapFind (mapSet p.computed t v) x =
          (compositionOf (pointCalls (done ++ [c])) x).map (·.getD crossPointTime)) := by
      intro t v o ho hc
      refine ⟨mapSet_sorted _ _ h1, ?_, ?_⟩
      · intro x
        rw [keys_mapSet, h2, pointCalls_append, hc]
        simp only [List.mem_append, List.mem_singleton]
        constructor
        · rintro (rfl | ⟨c', hc', rfl⟩)
          · exact ⟨(x, o), Or.inr rfl, rfl⟩
          · exact ⟨c', Or.inl hc', rfl⟩
        · rintro ⟨c', hc' | rfl, rfl⟩
          · exact Or.inr ⟨c', hc', rfl⟩
          · exact Or.inl rfl
      · intro x
        rw [mapFind_mapSet, h3, pointCalls_append, hc]
        simp only [compositionOf, List.reverse_append, List.reverse_singleton, List.singleton_append, List.find?_cons]
        by_cases hx : t = x
        · simp [hx, ho]
        · simp [hx]
    cases c with
    | add t c => exact key t c (some c) rfl rfl
    | cross t c t2 c2 => exact key t crossPointTime none rfl rfl
    | fileCross t =>
      refine ⟨h1, ?_, ?_⟩
      · intro x; rw [pointCalls_append]; simpa [pointCalls, Points.call, Points.addFileCross] using h2 x
      · intro x; rw [pointCalls_append]; simpa [pointCalls, Points.call, Points.addFileCross] using h3 x

/-! ### C28 -/

theorem renderLoop_times (t te : Int) (m : List (Int × Int)) :
    (renderLoop t te m).map (·.time) = ((t, te) :: m).dropLast.map (·.1) ∧
    (renderLoop t te m).map (fun r => r.time + r.duration) = m.map (·.1) ∧
    (renderLoop t te m).map (·.composition) = ((t, te) :: m).dropLast.map (·.2) := by
  induction m generalizing t te with
  | nil => simp [renderLoop]
  | cons e m ih =>
    obtain ⟨k, v⟩ := e
    obtain ⟨h1, h2, h3⟩ := ih k v
    simp only [renderLoop, List.map_cons, h1, h2, h3, List.dropLast_cons_cons, List.cons.injEq, and_true, true_and]
    omega

/-- C28: whatever the history of calls, the points rendered begin at the added times in increasing order, each once and without the last one,
and each ends where the next begins, the last one at the last added time; the composition time reported with a point is the one given
last for its time. -/
theorem points_tile (calls : List Call) : ∃ times, TimesOf (pointCalls calls) times ∧
    (pointsOf calls).render.map (·.time) = times.dropLast ∧
    (pointsOf calls).render.map (fun r => r.time + r.duration) = times.tail ∧
    ∀ r ∈ (pointsOf calls).render, (compositionOf (pointCalls calls) r.time).map (·.getD crossPointTime) = some r.composition := by
  obtain ⟨h1, h2, h3⟩ := pointsOf_spec calls
  refine ⟨(pointsOf calls).computed.map (fun e : Int × Int => e.1), ⟨h1, h2⟩, ?_⟩
  simp only [← h3]
  revert h1
  generalize (pointsOf calls) = p
  intro h1
  simp only [Points.render]
  cases hc : p.computed with
  | nil => simp
  | cons e m =>
    obtain ⟨k, v⟩ := e
    obtain ⟨e1, e2, e3⟩ := renderLoop_times k v m
    simp only [e1, e2, List.map_cons, List.tail_cons]
    refine ⟨by rw [← List.map_cons (f := fun x : Int × Int => x.1) (a := (k, v)), List.map_dropLast], trivial, ?_⟩
    intro r hr
    rw [hc] at h1
    clear h2 h3 e1 e2 e3 hc
    induction m generalizing k v with
    | nil => simp [renderLoop] at hr
    | cons e m ih =>
      obtain ⟨k2, v2⟩ := e
      obtain ⟨s1, s2⟩ := sorted_cons.mp h1
      simp only [renderLoop, List.mem_cons] at hr
      rcases hr with rfl | hr
      · simp [mapFind]
      · have := ih k2 v2 s2 hr
        have hne : k ≠ r.time := by
          intro h
          have hmem : r.time ∈ ((k2, v2) :: m).map (·.1) := by
            have : mapFind ((k2, v2) :: m) r.time ≠ none := by rw [this]; simp
            exact Decidable.not_not.mp (fun hn => this (mapFind_none.mpr hn))
          obtain ⟨x, hx, hxe⟩ := List.mem_map.mp hmem
          have := s1 x hx
          simp only at this
          omega
        rw [mapFind, if_neg hne, this]

/-- C28: the durations are positive and add up to the duration of the stream. -/
theorem points_duration (calls : List Call) :
    (∀ r ∈ (pointsOf calls).render, 0 < r.duration) ∧
    ((pointsOf calls).render.map (·.duration)).sum = (pointsOf calls).duration := by
  obtain ⟨h1, _, _⟩ := pointsOf_spec calls
  revert h1
  generalize (pointsOf calls) = p
  intro h1
  simp only [Points.render, Points.duration, Points.mint, Points.maxt]
  cases hc : p.computed with
  | nil => simp
  | cons e m =>
    obtain ⟨k, v⟩ := e
    rw [hc] at h1
    clear hc
    simp only
    induction m generalizing k v with
    | nil => simp [renderLoop]
    | cons e m ih =>
      obtain ⟨k2, v2⟩ := e
      obtain ⟨s1, s2⟩ := sorted_cons.mp h1
      obtain ⟨i1, i2⟩ := ih k2 v2 s2
      have hk := s1 (k2, v2) List.mem_cons_self
      simp only at hk
      refine ⟨?_, ?_⟩
      · intro r hr
        rcases List.mem_cons.mp hr with rfl | hr
        · simp only; omega
        · exact i1 r hr
      · simp only [renderLoop, List.map_cons, List.sum_cons, i2, List.getLast?_cons_cons]
        cases (List.getLast? ((k2, v2) :: m)) with
        | none => simp only; omega
        | some x => simp only; omega

theorem renderLoop_shift (off t te : Int) (m : List (Int × Int)) :
    renderLoop (t + off) te (m.map fun e => (e.1 + off, e.2)) =
      (renderLoop t te m).map fun r => ⟨r.time + off, r.duration, r.composition⟩ := by
  induction m generalizing t te with
  | nil => rfl
  | cons e m ih =>
    simp only [List.map_cons, renderLoop, ih, List.cons.injEq, and_true, Rendered.mk.injEq, true_and]
    omega

/-- C28: rebasing moves every rendered point by the offset and changes neither durations nor composition times. -/
theorem points_rebase (calls : List Call) (off : Int) : ((pointsOf calls).rebase off).render =
    (pointsOf calls).render.map fun r => ⟨r.time + off, r.duration, r.composition⟩ := by
  obtain ⟨h1, _, _⟩ := pointsOf_spec calls
  simp only [Points.render, Points.rebase, mapRebase_eq off h1]
  cases (pointsOf calls).computed with
  | nil => rfl
  | cons e m => exact renderLoop_shift off e.1 e.2 m

/-- A stream built by calls. -/
def streamOf {P : Type} (calls : List Call) (bitrates : List (Nat × List (Int × P))) : Stream P := ⟨pointsOf calls, bitrates⟩

theorem mint_le (calls : List Call) (t : Int) (h : t ∈ (pointsOf calls).computed.map (·.1)) : (pointsOf calls).mint ≤ t := by
  obtain ⟨h1, _, _⟩ := pointsOf_spec calls
  revert h1 h
  generalize (pointsOf calls) = p
  intro h h1
  simp only [Points.mint]
  cases hc : p.computed with
  | nil => rw [hc] at h; simp at h
  | cons e m =>
    rw [hc] at h h1
    obtain ⟨s1, _⟩ := sorted_cons.mp h1
    rcases List.mem_cons.mp h with rfl | h
    · exact Int.le_refl _
    · obtain ⟨x, hx, rfl⟩ := List.mem_map.mp h
      exact Int.le_of_lt (s1 x hx)

theorem fold_min {α : Type} (f : α → Int) : ∀ (l : List α) (m : Int),
    l.foldl (fun m s => if f s < m then f s else m) m ≤ m ∧
    (∀ s ∈ l, l.foldl (fun m s => if f s < m then f s else m) m ≤ f s) ∧
    (l.foldl (fun m s => if f s < m then f s else m) m = m ∨ ∃ s ∈ l, l.foldl (fun m s => if f s < m then f s else m) m = f s) := by
  intro l
  induction l with
  | nil => intro m; simp
  | cons a l ih =>
    intro m
    simp only [List.foldl_cons]
    obtain ⟨h1, h2, h3⟩ := ih (if f a < m then f a else m)
    have hle : (if f a < m then f a else m) ≤ m ∧ (if f a < m then f a else m) ≤ f a := by split <;> omega
    refine ⟨Int.le_trans h1 hle.1, ?_, ?_⟩
    · intro s hs
      rcases List.mem_cons.mp hs with rfl | hs
      · exact Int.le_trans h1 hle.2
      · exact h2 s hs
    · rcases h3 with h3 | ⟨s, hs, h3⟩
      · by_cases h : f a < m
        · refine Or.inr ⟨a, List.mem_cons_self, ?_⟩
          rw [h3]; simp [h]
        · refine Or.inl ?_
          rw [h3]; simp [h]
      · exact Or.inr ⟨s, List.mem_cons_of_mem _ hs, h3⟩

/-- C28: rebasing a presentation moves all points of all streams by one and the same offset, which is 0 if no time is negative, and leaves no
point at a negative time. -/
theorem presentation_rebase {P : Type} (streams : List (List Call × List (Nat × List (Int × P)))) :
    ∃ off : Int, 0 ≤ off ∧ ((∀ s ∈ streams, ∀ c ∈ pointCalls s.1, 0 ≤ c.1) → off = 0) ∧
      (rebaseAll (streams.map fun s => streamOf s.1 s.2)).map (fun s => s.points.render) =
        streams.map (fun s => (pointsOf s.1).render.map fun r => ⟨r.time + off, r.duration, r.composition⟩) ∧
      ∀ s ∈ rebaseAll (streams.map fun s => streamOf s.1 s.2), ∀ r ∈ s.points.render, 0 ≤ r.time := by
  obtain ⟨f1, f2, f3⟩ := fold_min (fun s : Stream P => s.points.mint) (streams.map fun s => streamOf s.1 s.2) (2 ^ 63 - 1)
  have hmem : ∀ (calls : List Call), ∀ r ∈ (pointsOf calls).render, r.time ∈ (pointsOf calls).computed.map (·.1) := by
    intro calls r hr
    obtain ⟨times, ht, e1, _, _⟩ := points_tile calls
    have : r.time ∈ times := (List.dropLast_sublist _).subset (e1 ▸ List.mem_map_of_mem (f := (·.time)) hr)
    obtain ⟨_, h2, _⟩ := pointsOf_spec calls
    exact (h2 _).mpr ((ht.2 _).mp this)
  simp only [rebaseAll]
  revert f1 f2 f3
  generalize hmin : List.foldl (fun m (s : Stream P) => if s.points.mint < m then s.points.mint else m) (2 ^ 63 - 1)
    (streams.map fun s => streamOf s.1 s.2) = mn
  intro f1 f2 f3
  by_cases h : 0 > mn
  · rw [if_pos h]
    refine ⟨mn * -1, by omega, ?_, ?_, ?_⟩
    · intro hall
      exfalso
      rcases f3 with f3 | ⟨s, hs, f3⟩
      · omega
      · obtain ⟨⟨calls, b⟩, hs', rfl⟩ := List.mem_map.mp hs
        simp only [streamOf] at f3
        have h2 := (pointsOf_spec calls).2.1
        have : (pointsOf calls).computed ≠ [] := by
          intro he
          rw [Points.mint, he] at f3
          simp only at f3; omega
        cases hc : (pointsOf calls).computed with
        | nil => exact this hc
        | cons e m =>
          rw [Points.mint, hc] at f3
          simp only at f3
          obtain ⟨c, hc1, hc2⟩ := (h2 e.1).mp (by rw [hc]; simp)
          have := hall _ hs' c hc1
          omega
    · simp only [List.map_map]
      apply List.map_congr_left
      intro s _
      exact points_rebase s.1 _
    · intro s hs r hr
      obtain ⟨s', hs', rfl⟩ := List.mem_map.mp hs
      obtain ⟨⟨calls, b⟩, hs'', rfl⟩ := List.mem_map.mp hs'
      have e : ((streamOf calls b : Stream P).rebase (mn * -1)).points.render =
          (pointsOf calls).render.map fun r => ⟨r.time + mn * -1, r.duration, r.composition⟩ := points_rebase calls _
      rw [e] at hr
      obtain ⟨r', hr', rfl⟩ := List.mem_map.mp hr
      have h3 := mint_le calls r'.time (hmem calls r' hr')
      have h4 := f2 _ (List.mem_map_of_mem (f := fun s : List Call × List (Nat × List (Int × P)) => (streamOf s.1 s.2 : Stream P)) hs'')
      simp only [streamOf] at h4
      simp only; omega
  · rw [if_neg h]
    refine ⟨0, Int.le_refl _, fun _ => rfl, ?_, ?_⟩
    · simp only [List.map_map, Int.add_zero]
      apply List.map_congr_left
      intro s _
      simp [streamOf]
    · intro s hs r hr
      obtain ⟨⟨calls, b⟩, hs'', rfl⟩ := List.mem_map.mp hs
      have h3 := mint_le calls r.time (hmem calls r hr)
      have h4 := f2 _ (List.mem_map_of_mem (f := fun s : List Call × List (Nat × List (Int × P)) => (streamOf s.1 s.2 : Stream P)) hs'')
      simp only [streamOf] at h4
      omega

-- non-vacuity
def exCalls : List Call := [.add 20 5, .add (-10) 0, .cross 40 7 45 0, .add 60 20, .add 20 6]
example : (pointsOf exCalls).render = [⟨-10, 30, 0⟩, ⟨20, 20, 6⟩, ⟨40, 20, crossPointTime⟩] := by decide +kernel
example : ((pointsOf exCalls).rebase 10).render = [⟨0, 30, 0⟩, ⟨30, 20, 6⟩, ⟨50, 20, crossPointTime⟩] := by decide +kernel
example : (rebaseAll [(streamOf exCalls [] : Stream Nat), streamOf [.add 0 0, .add 30 30] []]).map (·.points.render) =
    [[⟨0, 30, 0⟩, ⟨30, 20, 6⟩, ⟨50, 20, crossPointTime⟩], [⟨10, 30, 0⟩]] := by decide +kernel

end Verif.Dynamic
