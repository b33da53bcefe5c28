import Verif.Presentation.LemmasRun

namespace Verif.Presentation
open Verif.Dynamic (Points mapSet mapFind mapRebase bitrateAdd getPath Sorted pathsOf mapFind_mapSet mapSet_sorted keys_mapSet mem_mapSet)

variable {P : Type}

/-! ### bit rates -/

theorem createRates_spec (s : Stream P) (h : s.bitrates = []) (items : List (Item P)) (ops : List (Op P)) (op : Op P) (ho : op.items = items) :
    (createRates s items).points = s.points ∧ (createRates s items).currentEnd = s.currentEnd ∧
    (∀ e ∈ (createRates s items).bitrates, e.2.isSome) ∧
    ∀ b, mapFind (createRates s items).bitrates b = if b ∈ Spec.allowed s.video (op :: ops) then some (some []) else none := by
  have key : ∀ (its : List (Item P)) (A : List Int) (s : Stream P), (∀ e ∈ s.bitrates, e.2.isSome) →
      (∀ b, mapFind s.bitrates b = if b ∈ A then some (some []) else none) → ∀ s', s' = (its.foldl (fun s it => if s.video then addBitRate s (rateOf s.video it) else s) s) →
      s'.points = s.points ∧ s'.currentEnd = s.currentEnd ∧ (∀ e ∈ s'.bitrates, e.2.isSome) ∧
      ∀ b, mapFind s'.bitrates b = if b ∈ A ++ (if s.video then Spec.rates true its else []) then some (some []) else none := by
    intro its
    induction its with
    | nil => intro A s h0 h1 s' hs; subst hs; refine ⟨rfl, rfl, h0, ?_⟩; intro b; rw [h1 b]; cases s'.video <;> simp [Spec.rates]
    | cons it its ih =>
      intro A s h0 h1 s' hs
      rw [List.foldl_cons] at hs
      by_cases hv : s.video
      · rw [if_pos hv] at hs
        obtain ⟨a1, a2, a3, a4⟩ := ih (A ++ [rateOf s.video it]) (addBitRate s (rateOf s.video it)) (by
          intro e he
          rcases mem_mapSet he with rfl | he
          · rfl
          · exact h0 e he) (by
          intro b
          simp only [addBitRate, mapFind_mapSet, h1 b, List.mem_append, List.mem_singleton]
          by_cases hb : rateOf s.video it = b
          · simp [hb]
          · rw [if_neg hb]
            by_cases hA : b ∈ A
            · simp [hA]
            · rw [if_neg hA, if_neg]; rintro (h | h)
              · exact hA h
              · exact hb h.symm) s' hs
        refine ⟨a1, a2, a3, ?_⟩
        intro b
        rw [a4 b]
        have e1 : (addBitRate s (rateOf s.video it)).video = s.video := rfl
        rw [e1]
        simp only [hv, if_true, Spec.rates, List.map_cons, rateOf, List.append_assoc, List.singleton_append]
      · rw [if_neg hv] at hs
        obtain ⟨a1, a2, a3, a4⟩ := ih A s h0 h1 s' hs
        refine ⟨a1, a2, a3, ?_⟩
        intro b
        rw [a4 b]
        simp [hv]
  cases items with
  | nil => 
    refine ⟨rfl, rfl, ?_, ?_⟩
    · simp [createRates, h]
    · intro b; simp [createRates, h, mapFind, Spec.allowed, ho, Spec.rates]
  | cons it its =>
    obtain ⟨a1, a2, a3, a4⟩ := key its [rateOf s.video it] (addBitRate s (rateOf s.video it)) (by
      intro e he
      simp only [addBitRate, h, mapSet, List.mem_singleton] at he
      rw [he]; rfl) (by
      intro b
      simp only [addBitRate, h, mapSet, mapFind, List.mem_singleton]
      by_cases hb : rateOf s.video it = b
      · simp [hb]
      · rw [if_neg hb, if_neg fun h => hb h.symm]) _ rfl
    refine ⟨a1, a2, a3, ?_⟩
    intro b
    have := a4 b
    simp only [createRates]
    rw [this]
    have e1 : (addBitRate s (rateOf s.video it)).video = s.video := rfl
    rw [e1]
    cases hv : s.video
    · simp [Spec.allowed, ho, Spec.rates, rateOf]
    · simp [Spec.allowed, ho, Spec.rates, rateOf]

/-- The files of the items with a bit rate are added at one start. -/
def addAll (video : Bool) (b start : Int) (items : List (Item P)) (m : List (Int × P)) : List (Int × P) :=
  (items.filter fun it => rateOf video it = b).foldl (fun m it => bitrateAdd m start it.path) m

theorem addFiles_spec : ∀ (items : List (Item P)) (first : Bool) (s : Stream P), (∀ e ∈ s.bitrates, e.2.isSome) →
    (∀ b, mapFind s.bitrates b ≠ some none) → (∀ it ∈ items, mapFind s.bitrates (rateOf s.video it) ≠ none) →
    ∃ s', addFiles first items s = some s' ∧ s'.points.computed = s.points.computed ∧ s'.currentEnd = s.currentEnd ∧ (∀ e ∈ s'.bitrates, e.2.isSome) ∧
      ∀ b, mapFind s'.bitrates b = (mapFind s.bitrates b).map fun m => m.map (addAll s.video b (getCurrentEnd s) items)
  | [], first, s, h0, _, _ => by
    refine ⟨s, rfl, rfl, rfl, h0, ?_⟩
    intro b
    cases mapFind s.bitrates b with
    | none => rfl
    | some m => cases m <;> rfl
  | it :: its, first, s, h0, h1, h2 => by
    have hit := h2 it List.mem_cons_self
    have hit' := h1 (rateOf s.video it)
    simp only [addFiles]
    cases hm : mapFind s.bitrates (rateOf s.video it) with
    | none => exact absurd hm hit
    | some o =>
      cases o with
      | none => exact absurd hm hit'
      | some paths =>
        simp only
        generalize hs1 : register first s it paths = s1
        have b1 : s1.bitrates = mapSet s.bitrates (rateOf s.video it) (some (bitrateAdd paths (getCurrentEnd s) it.path)) := by rw [← hs1]; rfl
        have b2 : s1.points.computed = s.points.computed := by rw [← hs1]; simp only [register]; split <;> rfl
        have b3 : s1.currentEnd = s.currentEnd := by rw [← hs1]; rfl
        have b4 : s1.video = s.video := by rw [← hs1]; rfl
        have b5 : getCurrentEnd s1 = getCurrentEnd s := by rw [getCurrentEnd, getCurrentEnd, b3, Points.maxt, Points.maxt, b2]
        have b6 : ∀ b, mapFind s1.bitrates b = if rateOf s.video it = b then some (some (bitrateAdd paths (getCurrentEnd s) it.path)) else mapFind s.bitrates b := by
          intro b; rw [b1, mapFind_mapSet]
        obtain ⟨s', a1, a2, a3, a4, a5⟩ := addFiles_spec its false s1 (by
            intro e he
            rw [b1] at he
            rcases mem_mapSet he with rfl | he
            · rfl
            · exact h0 e he) (by
            intro b
            rw [b6 b]
            split
            · simp
            · exact h1 b) (by
            intro x hx
            rw [b6, b4]
            split
            · simp
            · exact h2 x (List.mem_cons_of_mem _ hx))
        refine ⟨s', a1, by rw [a2, b2], by rw [a3, b3], a4, ?_⟩
        intro b
        rw [a5 b, b6 b, b4, b5]
        by_cases hb : rateOf s.video it = b
        · subst hb
          rw [if_pos rfl, hm]
          simp only [Option.map_some, addAll]
          rw [List.filter_cons_of_pos (by simp), List.foldl_cons]
        · rw [if_neg hb]
          have : (it :: its).filter (fun it => rateOf s.video it = b) = its.filter fun it => rateOf s.video it = b :=
            List.filter_cons_of_neg (by simpa using hb)
          have e : addAll s.video b (getCurrentEnd s) (it :: its) = addAll s.video b (getCurrentEnd s) its := by
            funext m; rw [addAll, addAll, this]
          rw [e]

theorem addFiles_none : ∀ (items : List (Item P)) (first : Bool) (s : Stream P), 
    (∃ it ∈ items, mapFind s.bitrates (rateOf s.video it) = none) → addFiles first items s = none
  | [], _, _, h => by simp at h
  | it :: its, first, s, h => by
    simp only [addFiles]
    split
    · rfl
    · rfl
    · rename_i paths hm
      apply addFiles_none its
      obtain ⟨x, hx, e⟩ := h
      rcases List.mem_cons.mp hx with rfl | hx
      · rw [hm] at e; simp at e
      · refine ⟨x, hx, ?_⟩
        show mapFind (mapSet s.bitrates (rateOf s.video it) (some (bitrateAdd paths (getCurrentEnd s) it.path))) (rateOf s.video x) = none
        rw [mapFind_mapSet, if_neg, e]
        intro hr
        rw [← hr, hm] at e
        simp at e

/-! ### points -/

theorem addPoint_computed (s : Stream P) (p : Point) : ∃ c, (addPoint s p).points.computed = mapSet s.points.computed (Spec.timeOf p) c := by
  cases p with
  | plain c t => exact ⟨c, rfl⟩
  | cross c t c2 t2 => exact ⟨_, rfl⟩

theorem addPoint_rest (s : Stream P) (p : Point) : (addPoint s p).bitrates = s.bitrates ∧ (addPoint s p).currentEnd = s.currentEnd := by
  cases p <;> exact ⟨rfl, rfl⟩

theorem foldl_addPoint : ∀ (ps : List (Nat × Point)) (s : Stream P), Sorted s.points.computed →
    Sorted (ps.foldl (fun s p => addPoint s p.2) s).points.computed ∧
    (∀ t, t ∈ (ps.foldl (fun s p => addPoint s p.2) s).points.computed.map (·.1) ↔ t ∈ s.points.computed.map (·.1) ∨ t ∈ ps.map fun p => Spec.timeOf p.2) ∧
    (ps.foldl (fun s p => addPoint s p.2) s).bitrates = s.bitrates
  | [], s, h => by simp [h]
  | p :: ps, s, h => by
    obtain ⟨c, hc⟩ := addPoint_computed s p.2
    obtain ⟨a1, a2, a3⟩ := foldl_addPoint ps (addPoint s p.2) (by rw [hc]; exact mapSet_sorted _ _ h)
    refine ⟨a1, ?_, by rw [List.foldl_cons, a3, (addPoint_rest s p.2).1]⟩
    intro t
    rw [List.foldl_cons, a2 t, hc, keys_mapSet]
    simp only [List.map_cons, List.mem_cons]
    constructor
    · rintro ((h | h) | h)
      · exact Or.inr (Or.inl h)
      · exact Or.inl h
      · exact Or.inr (Or.inr h)
    · rintro (h | h | h)
      · exact Or.inl (Or.inr h)
      · exact Or.inl (Or.inl h)
      · exact Or.inr h

theorem maxt_eq (p : Points) (l : List Int) (hs : Sorted p.computed) (hm : ∀ t, t ∈ p.computed.map (·.1) ↔ t ∈ l) : p.maxt = l.max?.getD 0 := by
  simp only [Points.maxt]
  cases hl : p.computed.getLast? with
  | none =>
    rw [List.getLast?_eq_none_iff] at hl
    have : l = [] := by
      apply List.eq_nil_iff_forall_not_mem.mpr
      intro t ht
      have := (hm t).mpr ht
      simp [hl] at this
    rw [this]; rfl
  | some e =>
    obtain ⟨m, hm'⟩ := List.getLast?_eq_some_iff.mp hl
    have h1 : l.max? = some e.1 := by
      rw [List.max?_eq_some_iff]
      constructor
      · exact (hm e.1).mp (by rw [hm']; simp)
      · intro b hb
        have hb' := (hm b).mpr hb
        rw [hm'] at hs hb'
        rw [List.map_append] at hb'
        rcases List.mem_append.mp hb' with h | h
        · obtain ⟨x, hx, rfl⟩ := List.mem_map.mp h
          have : ((m ++ [e]).map (·.1)).Pairwise (· < ·) := hs
          rw [List.map_append, List.pairwise_append] at this
          have := this.2.2 x.1 (List.mem_map_of_mem hx) e.1 (by simp)
          omega
        · simp at h; omega
    rw [h1]; rfl

/-! ### the state of a stream -/

/-- The state of a stream with bit rates `A` after the `Add` calls `done`. -/
def Inv (A : List Int) (done : List (Op P)) (s : Stream P) : Prop :=
  (Sorted s.points.computed ∧ ∀ t, t ∈ s.points.computed.map (·.1) ↔ t ∈ Spec.times s.id done) ∧
  s.currentEnd = done.getLast?.elim 0 (fun op => op.ends s.id) ∧
  (∀ e ∈ s.bitrates, e.2.isSome) ∧
  ∀ b, mapFind s.bitrates b = if b ∈ A then some (some (pathsOf (Spec.files s.id s.video b [] done))) else none

theorem currentEnd_eq {A : List Int} {done : List (Op P)} {s : Stream P} (h : Inv A done s) : getCurrentEnd s = Spec.startOf s.id done := by
  simp only [getCurrentEnd, Spec.startOf, ← h.2.1, ← maxt_eq s.points _ h.1.1 h.1.2]
  split <;> omega

theorem files_append (i : Nat) (v : Bool) (b : Int) : ∀ (a d c : List (Op P)), Spec.files i v b d (a ++ c) = Spec.files i v b d a ++ Spec.files i v b (d ++ a) c
  | [], d, c => by simp [Spec.files]
  | op :: a, d, c => by
    rw [List.cons_append, Spec.files, Spec.files, files_append i v b a, List.append_assoc, List.append_assoc]
    rfl

theorem addAll_eq (v : Bool) (b st : Int) (items : List (Item P)) (h : List (Int × P)) :
    addAll v b st items (pathsOf h) = pathsOf (h ++ (items.filter fun it => rateOf v it = b).map fun it => (st, it.path)) := by
  simp only [addAll, pathsOf, List.foldl_append, List.foldl_map]

theorem step_inv {A : List Int} {done : List (Op P)} {s : Stream P} (h : Inv A done s) (op : Op P) (ha : ∀ b ∈ Spec.rates s.video op.items, b ∈ A) :
    ∃ s', stepS true op s = some s' ∧ Inv A (done ++ [op]) s' := by
  obtain ⟨s1, a1, a2, a3, a4, a5⟩ := addFiles_spec op.items true s h.2.2.1 (by
    intro b; rw [h.2.2.2 b]; split <;> simp) (by
    intro it hit
    have hA : rateOf s.video it ∈ A := ha _ (List.mem_map_of_mem (f := fun it : Item P => if s.video then it.bitrate else it.audioBitrate) hit)
    rw [h.2.2.2, if_pos hA]
    simp)
  have hf := addFiles_face op.items true s s1 a1
  have hid : s1.id = s.id := congrArg (·.1) hf
  have hv : s1.video = s.video := congrArg (·.2.2) hf
  have hstep : stepS true op s = some { addPoints s1 op.points with currentEnd := op.ends s1.id } := by
    simp only [stepS, if_true, a1, Option.bind_some]
  obtain ⟨p1, p2, p3⟩ := foldl_addPoint (op.points.filter fun p => p.1 = s1.id) s1 (by rw [a2]; exact h.1.1)
  have pf := foldl_addPoint_face (op.points.filter fun p => p.1 = s1.id) s1
  have pid : (addPoints s1 op.points).id = s.id := (congrArg (·.1) pf).trans hid
  have pv : (addPoints s1 op.points).video = s.video := (congrArg (·.2.2) pf).trans hv
  refine ⟨_, hstep, ⟨p1, ?_⟩, ?_, ?_, ?_⟩
  · intro t
    show t ∈ List.map _ (addPoints s1 op.points).points.computed ↔ t ∈ Spec.times (addPoints s1 op.points).id _
    rw [pid]
    refine (p2 t).trans ?_
    rw [a2, h.1.2 t, Spec.times, Spec.times, List.flatMap_append, List.mem_append, hid]
    simp
  · show op.ends s1.id = _
    simp only [List.getLast?_append, List.getLast?_singleton, Option.some_or, Option.elim]
    rw [pid, hid]
  · show ∀ e ∈ (addPoints s1 op.points).bitrates, _
    rw [show (addPoints s1 op.points).bitrates = s1.bitrates from p3]
    exact a4
  · intro b
    show mapFind (addPoints s1 op.points).bitrates b = if b ∈ A then some (some (pathsOf (Spec.files (addPoints s1 op.points).id (addPoints s1 op.points).video b [] _))) else none
    rw [show (addPoints s1 op.points).bitrates = s1.bitrates from p3, a5 b, h.2.2.2 b, pid, pv, currentEnd_eq h, files_append]
    split
    · rw [Option.map_some, Option.map_some, addAll_eq, List.nil_append]
      simp only [Spec.files, List.append_nil]
      rfl
    · rfl

theorem step_none {A : List Int} {done : List (Op P)} {s : Stream P} (h : Inv A done s) (op : Op P) (ha : ¬ ∀ b ∈ Spec.rates s.video op.items, b ∈ A) :
    stepS true op s = none := by
  simp only [stepS, if_true]
  rw [addFiles_none]
  · rfl
  · simp only [Spec.rates, List.forall_mem_map, Classical.not_forall] at ha
    obtain ⟨it, hit, hb⟩ := ha
    exact ⟨it, hit, by rw [h.2.2.2, rateOf, if_neg hb]⟩

theorem steps_inv {A : List Int} : ∀ (todo done : List (Op P)) (s : Stream P), Inv A done s →
    ((∀ op ∈ todo, ∀ b ∈ Spec.rates s.video op.items, b ∈ A) → ∃ s', stepsS true todo s = some s' ∧ Inv A (done ++ todo) s') ∧
    ((stepsS true todo s).isSome → ∀ op ∈ todo, ∀ b ∈ Spec.rates s.video op.items, b ∈ A)
  | [], done, s, h => by simp [stepsS, h]
  | op :: todo, done, s, h => by
    simp only [stepsS]
    by_cases ha : ∀ b ∈ Spec.rates s.video op.items, b ∈ A
    · obtain ⟨s1, e1, i1⟩ := step_inv h op ha
      have hv : s1.video = s.video := congrArg (·.2.2) (stepS_face true op s s1 e1)
      have ih := steps_inv todo (done ++ [op]) s1 i1
      rw [hv, List.append_assoc, List.singleton_append] at ih
      rw [e1, Option.bind_some]
      constructor
      · intro hall
        exact ih.1 fun o ho => hall o (List.mem_cons_of_mem _ ho)
      · intro hs o ho
        rcases List.mem_cons.mp ho with rfl | ho
        · exact ha
        · exact ih.2 hs o ho
    · rw [step_none h op ha]
      constructor
      · intro hall; exact absurd (hall op List.mem_cons_self) ha
      · intro hs; simp at hs

theorem create_inv (s : Stream P) (h : Fresh s) (op : Op P) (ops : List (Op P)) : Inv (Spec.allowed s.video (op :: ops)) [] (createRates s op.items) := by
  obtain ⟨a1, a2, a3, a4⟩ := createRates_spec s h.2.2 op.items ops op rfl
  refine ⟨?_, ?_, a3, ?_⟩
  · rw [a1, h.1]
    exact ⟨List.Pairwise.nil, by simp [Spec.times]⟩
  · rw [a2, h.2.1]; rfl
  · intro b
    rw [a4 b]
    rfl

theorem steps_first (s : Stream P) (op : Op P) (ops : List (Op P)) : stepsS false (op :: ops) s = stepsS true (op :: ops) (createRates s op.items) := by
  simp only [stepsS, stepS, Bool.false_eq_true, if_false, if_true]

end Verif.Presentation
