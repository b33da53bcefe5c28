import Verif.Presentation.Lemmas

namespace Verif.Presentation
open Verif.Dynamic (Points mapSet mapFind mapRebase bitrateAdd getPath Sorted pathsOf mapFind_mapSet mapSet_sorted keys_mapSet mem_mapSet)

variable {P : Type}

/-! ### loops over the streams -/

/-- `f` for every stream. -/
def mapO (f : Stream P → Option (Stream P)) : List (Stream P) → Option (List (Stream P))
  | [] => some []
  | s :: ss => (f s).bind fun s' => (mapO f ss).map (s' :: ·)

/-- `f` keeps id, name and kind. -/
def Keeps (f : Stream P → Option (Stream P)) : Prop := ∀ s s', f s = some s' → face s' = face s

theorem mapO_congr {f g : Stream P → Option (Stream P)} {ss : List (Stream P)} (h : ∀ s ∈ ss, f s = g s) : mapO f ss = mapO g ss := by
  induction ss with
  | nil => rfl
  | cons s ss ih => simp only [mapO, h s List.mem_cons_self, ih fun s hs => h s (List.mem_cons_of_mem _ hs)]

theorem mapO_some {ss : List (Stream P)} : mapO some ss = some ss := by
  induction ss with
  | nil => rfl
  | cons s ss ih => simp [mapO, ih]

theorem mapO_pure {ss : List (Stream P)} (f : Stream P → Stream P) : mapO (fun s => some (f s)) ss = some (ss.map f) := by
  induction ss with
  | nil => rfl
  | cons s ss ih => simp [mapO, ih]

theorem mapO_bind (f g : Stream P → Option (Stream P)) (ss : List (Stream P)) :
    (mapO f ss).bind (mapO g) = mapO (fun s => (f s).bind g) ss := by
  induction ss with
  | nil => rfl
  | cons s ss ih =>
    simp only [mapO]
    cases h : f s with
    | none => rfl
    | some s' =>
      simp only [Option.bind_some, ← ih]
      cases h2 : mapO f ss with
      | none => cases h3 : g s' <;> rfl
      | some ss' => simp [mapO]

theorem mapO_faces {f : Stream P → Option (Stream P)} (hf : Keeps f) : ∀ {ss ss' : List (Stream P)}, mapO f ss = some ss' → ss'.map face = ss.map face
  | [], ss', h => by simp [mapO] at h; simp [h]
  | s :: ss, ss', h => by
    simp only [mapO] at h
    cases h1 : f s with
    | none => simp [h1] at h
    | some s1 =>
      cases h2 : mapO f ss with
      | none => simp [h1, h2] at h
      | some ss1 =>
        simp [h1, h2] at h
        subst h
        simp [mapO_faces hf h2, hf s s1 h1]

theorem mapO_mem {f : Stream P → Option (Stream P)} : ∀ {ss ss' : List (Stream P)}, mapO f ss = some ss' → ∀ s' ∈ ss', ∃ s ∈ ss, f s = some s'
  | [], ss', h => by simp [mapO] at h; simp [h]
  | s :: ss, ss', h => by
    simp only [mapO] at h
    cases h1 : f s with
    | none => simp [h1] at h
    | some s1 =>
      cases h2 : mapO f ss with
      | none => simp [h1, h2] at h
      | some ss1 =>
        simp [h1, h2] at h
        subst h
        intro s' hs'
        rcases List.mem_cons.mp hs' with rfl | hs'
        · exact ⟨s, List.mem_cons_self, h1⟩
        · obtain ⟨x, hx, e⟩ := mapO_mem h2 s' hs'
          exact ⟨x, List.mem_cons_of_mem _ hx, e⟩

theorem mapO_isSome {f : Stream P → Option (Stream P)} (ss : List (Stream P)) : (mapO f ss).isSome ↔ ∀ s ∈ ss, (f s).isSome := by
  induction ss with
  | nil => simp [mapO]
  | cons s ss ih =>
    simp only [mapO, List.forall_mem_cons, ← ih]
    cases h1 : f s <;> cases h2 : mapO f ss <;> simp

theorem modify_eq (i : Nat) (f : Stream P → Option (Stream P)) : ∀ (ss : List (Stream P)), (ss.map (·.id)).Nodup →
    modify i f ss = mapO (fun s => if s.id = i then f s else some s) ss
  | [], _ => rfl
  | s :: ss, h => by
    obtain ⟨h1, h2⟩ := List.nodup_cons.mp h
    simp only [modify, mapO]
    by_cases hs : s.id = i
    · rw [if_pos hs, if_pos hs]
      have : mapO (fun s => if s.id = i then f s else some s) ss = some ss := by
        rw [mapO_congr (g := some), mapO_some]
        intro x hx
        rw [if_neg]
        intro hxi
        have hm : x.id ∈ ss.map (·.id) := List.mem_map_of_mem hx
        rw [hxi, ← hs] at hm
        exact h1 hm
      rw [this]
      cases f s <;> rfl
    · rw [if_neg hs, if_neg hs, modify_eq i f ss h2]
      rfl

theorem ids_of_faces {ss ss' : List (Stream P)} (h : ss'.map face = ss.map face) : ss'.map (·.id) = ss.map (·.id) := by
  have := congrArg (List.map fun e => e.1) h
  simpa [face, Function.comp_def] using this

theorem forAll_eq (f : Nat → Stream P → Option (Stream P)) (hf : ∀ i, Keeps (f i)) (n : Nat) (ss : List (Stream P)) (h : (ss.map (·.id)).Nodup) :
    forAll (fun i ss => modify i (f i) ss) n ss = mapO (fun s => if s.id < n then f s.id s else some s) ss := by
  induction n with
  | zero => simp only [forAll]; rw [mapO_congr (g := some), mapO_some]; simp
  | succ n ih =>
    have hk : Keeps (fun s => if s.id < n then f s.id s else some s) := by
      intro s s' he
      simp only at he
      split at he
      · exact hf _ s s' he
      · simp at he; rw [he]
    simp only [forAll, ih]
    have e : ∀ ss', mapO (fun s => if s.id < n then f s.id s else some s) ss = some ss' →
        modify n (f n) ss' = mapO (fun s => if s.id = n then f n s else some s) ss' := by
      intro ss' h'
      exact modify_eq n (f n) ss' (by rw [ids_of_faces (mapO_faces hk h')]; exact h)
    have e2 : (mapO (fun s => if s.id < n then f s.id s else some s) ss).bind (fun ss => modify n (f n) ss) =
        (mapO (fun s => if s.id < n then f s.id s else some s) ss).bind (mapO fun s => if s.id = n then f n s else some s) := by
      cases hm : mapO (fun s => if s.id < n then f s.id s else some s) ss with
      | none => rfl
      | some ss' => exact e ss' hm
    rw [e2, mapO_bind]
    apply mapO_congr
    intro s _
    by_cases h1 : s.id < n
    · rw [if_pos h1, if_pos (by omega)]
      cases hs : f s.id s with
      | none => rfl
      | some s' =>
        have : s'.id = s.id := congrArg (·.1) (hf _ s s' hs)
        simp only [Option.bind_some]
        rw [if_neg (by omega)]
    · rw [if_neg h1]
      simp only [Option.bind_some]
      by_cases h2 : s.id = n
      · rw [if_pos h2, if_pos (by omega), h2]
      · rw [if_neg h2, if_neg (by omega)]

/-- The ids are 0, 1, ..., n - 1. -/
def Dense (ss : List (Stream P)) : Prop := (ss.map (·.id)).Perm (List.range ss.length)

theorem Dense.nodup {ss : List (Stream P)} (h : Dense ss) : (ss.map (·.id)).Nodup := h.nodup_iff.mpr List.nodup_range
theorem Dense.mem {ss : List (Stream P)} (h : Dense ss) {i : Nat} : i ∈ ss.map (·.id) ↔ i < ss.length := by rw [h.mem_iff, List.mem_range]

theorem Dense.of_faces {ss ss' : List (Stream P)} (h : Dense ss) (e : ss'.map face = ss.map face) : Dense ss' := by
  have hl : ss'.length = ss.length := by simpa using congrArg List.length e
  rw [Dense, ids_of_faces e, hl]
  exact h

theorem byIndex_isSome {ss : List (Stream P)} {i : Nat} : (byIndex ss i).isSome ↔ i ∈ ss.map (·.id) := by
  simp [byIndex, List.find?_isSome]

theorem deref_eq {ss : List (Stream P)} {i : Nat} (f : Stream P → Option (Stream P)) (h : i ∈ ss.map (·.id)) : deref i f ss = modify i f ss := by
  simp only [deref]
  have := byIndex_isSome.mpr h
  cases hb : byIndex ss i with
  | none => simp [hb] at this
  | some s => rfl

theorem deref_none {ss : List (Stream P)} {i : Nat} (f : Stream P → Option (Stream P)) (h : i ∉ ss.map (·.id)) : deref i f ss = none := by
  simp only [deref]
  cases hb : byIndex ss i with
  | none => rfl
  | some s => exact absurd (byIndex_isSome.mp (by rw [hb]; rfl)) h

theorem forAll_deref (f : Nat → Stream P → Option (Stream P)) (hf : ∀ i, Keeps (f i)) (ss : List (Stream P)) (h : Dense ss) :
    forAll (fun i ss => deref i (f i) ss) ss.length ss = mapO (fun s => f s.id s) ss := by
  have key : ∀ n, n ≤ ss.length → forAll (fun i ss => deref i (f i) ss) n ss = forAll (fun i ss => modify i (f i) ss) n ss := by
    intro n
    induction n with
    | zero => intro _; rfl
    | succ n ih =>
      intro hn
      simp only [forAll, ih (by omega)]
      cases hm : forAll (fun i ss => modify i (f i) ss) n ss with
      | none => rfl
      | some ss' =>
        simp only [Option.bind_some]
        apply deref_eq
        rw [forAll_eq f hf n ss h.nodup] at hm
        have hk : Keeps (fun s => if s.id < n then f s.id s else some s) := by
          intro s s' he
          simp only at he
          split at he
          · exact hf _ s s' he
          · simp at he; rw [he]
        rw [ids_of_faces (mapO_faces hk hm), h.mem]
        omega
  rw [key _ (Nat.le_refl _), forAll_eq f hf _ ss h.nodup]
  apply mapO_congr
  intro s hs
  rw [if_pos (h.mem.mp (List.mem_map_of_mem hs))]

/-! ### an `Add` call, stream by stream -/

/-- The points of a stream. -/
def addPoints (s : Stream P) (ps : List (Nat × Point)) : Stream P := (ps.filter fun p => p.1 = s.id).foldl (fun s p => addPoint s p.2) s

theorem addPoint_face (s : Stream P) (p : Point) : face (addPoint s p) = face s := by cases p <;> rfl

theorem foldl_addPoint_face (ps : List (Nat × Point)) (s : Stream P) : face (ps.foldl (fun s p => addPoint s p.2) s) = face s := by
  induction ps generalizing s with
  | nil => rfl
  | cons p ps ih => rw [List.foldl_cons, ih, addPoint_face]

theorem publish_eq : ∀ (ps : List (Nat × Point)) (ss : List (Stream P)), (ss.map (·.id)).Nodup → (∀ p ∈ ps, p.1 ∈ ss.map (·.id)) →
    publish ps ss = some (ss.map fun s => addPoints s ps)
  | [], ss, _, _ => by simp [publish, addPoints]
  | (i, p) :: ps, ss, hn, h => by
    have e1 : deref i (fun s => some (addPoint s p)) ss = some (ss.map fun s => if s.id = i then addPoint s p else s) := by
      rw [deref_eq _ (h (i, p) List.mem_cons_self), modify_eq _ _ _ hn, ← mapO_pure]
      apply mapO_congr
      intro s _
      split <;> rfl
    have e2 : (ss.map fun s => if s.id = i then addPoint s p else s).map face = ss.map face := by
      rw [List.map_map]
      apply List.map_congr_left
      intro s _
      simp only [Function.comp]
      split
      · exact addPoint_face s p
      · rfl
    have e3 := ids_of_faces e2
    simp only [publish, e1, Option.bind_some]
    rw [publish_eq ps _ (by rw [e3]; exact hn) (by rw [e3]; exact fun q hq => h q (List.mem_cons_of_mem _ hq)), List.map_map]
    congr 1
    apply List.map_congr_left
    intro s _
    show addPoints (if s.id = i then addPoint s p else s) ps = addPoints s ((i, p) :: ps)
    by_cases hs : s.id = i
    · have : (addPoint s p).id = s.id := congrArg (·.1) (addPoint_face s p)
      rw [if_pos hs, addPoints, addPoints, List.filter_cons_of_pos (by simp [hs]), List.foldl_cons, this]
    · rw [if_neg hs, addPoints, addPoints, List.filter_cons_of_neg (by simp; omega)]

theorem publish_none : ∀ (ps : List (Nat × Point)) (ss : List (Stream P)), (ss.map (·.id)).Nodup → (∃ p ∈ ps, p.1 ∉ ss.map (·.id)) → publish ps ss = none
  | [], ss, _, h => by simp at h
  | (i, p) :: ps, ss, hn, h => by
    simp only [publish]
    by_cases hi : i ∈ ss.map (·.id)
    · rw [deref_eq _ hi, modify_eq _ _ _ hn]
      cases hm : mapO (fun s => if s.id = i then some (addPoint s p) else some s) ss with
      | none => rfl
      | some ss' =>
        have hk : Keeps (fun s : Stream P => if s.id = i then some (addPoint s p) else some s) := by
          intro s s' he
          simp only at he
          split at he
          · simp at he; rw [← he, addPoint_face]
          · simp at he; rw [he]
        have e3 := ids_of_faces (mapO_faces hk hm)
        simp only [Option.bind_some]
        refine publish_none ps ss' (by rw [e3]; exact hn) ?_
        obtain ⟨q, hq, h'⟩ := h
        rcases List.mem_cons.mp hq with rfl | hq
        · exact absurd hi h'
        · exact ⟨q, hq, by rw [e3]; exact h'⟩
    · rw [deref_none _ hi]; rfl

theorem addBitRate_face (s : Stream P) (r : Int) : face (addBitRate s r) = face s := rfl

theorem createRates_face (s : Stream P) (items : List (Item P)) : face (createRates s items) = face s := by
  cases items with
  | nil => rfl
  | cons it its =>
    simp only [createRates]
    have : ∀ (its : List (Item P)) (s : Stream P), face (its.foldl (fun s it => if s.video then addBitRate s (rateOf s.video it) else s) s) = face s := by
      intro its
      induction its with
      | nil => intro s; rfl
      | cons it its ih => intro s; rw [List.foldl_cons, ih]; split <;> rfl
    rw [this]
    rfl

theorem addFiles_face : ∀ (items : List (Item P)) (first : Bool), Keeps (addFiles first items)
  | [], _ => by intro s s' h; simp [addFiles] at h; rw [h]
  | it :: its, first => by
    intro s s' h
    simp only [addFiles] at h
    split at h
    · simp at h
    · simp at h
    · rename_i paths _
      have := addFiles_face its false _ s' h
      rw [this]
      rfl

/-- An `Add` for one stream. -/
def stepS (made : Bool) (op : Op P) (s : Stream P) : Option (Stream P) :=
  (addFiles true op.items (if made then s else createRates s op.items)).bind fun s => some { addPoints s op.points with currentEnd := op.ends s.id }

theorem stepS_face (made : Bool) (op : Op P) : Keeps (stepS made op) := by
  intro s s' h
  simp only [stepS] at h
  cases h1 : addFiles true op.items (if made then s else createRates s op.items) with
  | none => simp [h1] at h
  | some s1 =>
    simp [h1] at h
    have e1 := addFiles_face _ _ _ _ h1
    rw [← h]
    show face (addPoints s1 op.points) = face s
    rw [addPoints, foldl_addPoint_face, e1]
    cases made
    · exact createRates_face s op.items
    · rfl

theorem begin_eq (made : Bool) (n : Nat) (items : List (Item P)) (ss : List (Stream P)) (h : Dense ss) (hn : ss.length ≤ n) :
    beginProcessing made n items ss = mapO (fun s => addFiles true items (if made then s else createRates s items)) ss := by
  have e2 : ∀ ss : List (Stream P), Dense ss → ss.length ≤ n → forAll (fun i ss => modify i (addFiles true items) ss) n ss = mapO (addFiles true items) ss := by
    intro ss h hn
    rw [forAll_eq (fun _ => addFiles true items) (fun _ => addFiles_face items true) n ss h.nodup]
    apply mapO_congr
    intro s hs
    rw [if_pos]
    have := h.mem.mp (List.mem_map_of_mem hs)
    omega
  cases made
  · have e1 : forAll (fun i ss => modify i (fun s => some (createRates s items)) ss) n ss = some (ss.map fun s => createRates s items) := by
      rw [forAll_eq (fun _ s => some (createRates s items)) (fun _ s s' hs => by simp at hs; rw [← hs, createRates_face]) n ss h.nodup, ← mapO_pure]
      apply mapO_congr
      intro s hs
      rw [if_pos]
      have := h.mem.mp (List.mem_map_of_mem hs)
      omega
    simp only [beginProcessing, Bool.not_false, if_true, e1, Option.bind_some, Bool.false_eq_true, if_false]
    have hf : (ss.map fun s => createRates s items).map face = ss.map face := by
      rw [List.map_map]
      exact List.map_congr_left fun s _ => createRates_face s items
    rw [e2 _ (h.of_faces hf) (by simpa using hn)]
    rw [← mapO_pure] at e1
    have := mapO_bind (fun s => some (createRates s items)) (addFiles true items) ss
    rw [mapO_pure] at this
    exact this
  · simp only [beginProcessing, Bool.not_true, Bool.false_eq_true, if_false, Option.bind_some, if_true]
    exact e2 ss h hn

/-- The points of an `Add` are for streams there are, and it reads at least as many streams. -/
def Fits (n : Nat) (op : Op P) : Prop := n ≤ op.streams ∧ ∀ p ∈ op.points, p.1 < n

theorem add_eq (made : Bool) (op : Op P) (ss : List (Stream P)) (h : Dense ss) (hf : Fits ss.length op) :
    add made op ss = mapO (stepS made op) ss := by
  simp only [add, begin_eq made op.streams op.items ss h hf.1]
  have e : ∀ ss1, mapO (fun s => addFiles true op.items (if made then s else createRates s op.items)) ss = some ss1 →
      (publish op.points ss1).bind (endProcessing op.ends) = mapO (fun s => some { addPoints s op.points with currentEnd := op.ends s.id }) ss1 := by
    intro ss1 h1
    have hk : Keeps (fun s => addFiles true op.items (if made then s else createRates s op.items)) := by
      intro s s' hs
      have := addFiles_face _ _ _ _ hs
      rw [this]
      cases made
      · exact createRates_face s op.items
      · rfl
    have hfc := mapO_faces hk h1
    have d1 := h.of_faces hfc
    have hl : ss1.length = ss.length := by simpa using congrArg List.length hfc
    rw [publish_eq _ _ d1.nodup (fun p hp => d1.mem.mpr (by rw [hl]; exact hf.2 p hp))]
    have hfa : (ss1.map fun s => addPoints s op.points).map face = ss1.map face := by
      rw [List.map_map]
      exact List.map_congr_left fun s _ => foldl_addPoint_face _ s
    simp only [Option.bind_some, endProcessing]
    rw [forAll_deref (fun i s => some { s with currentEnd := op.ends i }) (fun i s s' hs => by simp at hs; rw [← hs]; rfl) _ (d1.of_faces hfa)]
    rw [mapO_pure, mapO_pure, List.map_map]
    congr 1
    apply List.map_congr_left
    intro s _
    simp only [Function.comp]
    have : (addPoints s op.points).id = s.id := congrArg (·.1) (foldl_addPoint_face _ s)
    rw [this]
  have e' := mapO_bind (fun s => addFiles true op.items (if made then s else createRates s op.items))
    (fun s => some { addPoints s op.points with currentEnd := op.ends s.id }) ss
  show _ = mapO (fun s => (addFiles true op.items (if made then s else createRates s op.items)).bind _) ss
  rw [← e']
  cases hm : mapO (fun s => addFiles true op.items (if made then s else createRates s op.items)) ss with
  | none => rfl
  | some ss1 => exact e ss1 hm

/-- The `Add` calls for one stream. -/
def stepsS : Bool → List (Op P) → Stream P → Option (Stream P)
  | _, [], s => some s
  | made, op :: ops, s => (stepS made op s).bind (stepsS true ops)

theorem stepsS_face : ∀ (ops : List (Op P)) (made : Bool), Keeps (stepsS made ops)
  | [], _ => by intro s s' h; simp [stepsS] at h; rw [h]
  | op :: ops, made => by
    intro s s' h
    simp only [stepsS] at h
    cases h1 : stepS made op s with
    | none => simp [h1] at h
    | some s1 =>
      simp [h1] at h
      rw [stepsS_face ops true s1 s' h, stepS_face made op s s1 h1]

theorem adds_eq : ∀ (ops : List (Op P)) (made : Bool) (ss : List (Stream P)), Dense ss → (∀ op ∈ ops, Fits ss.length op) →
    adds made ops ss = mapO (stepsS made ops) ss
  | [], _, ss, _, _ => mapO_some.symm
  | op :: ops, made, ss, h, hf => by
    simp only [adds, add_eq made op ss h (hf op List.mem_cons_self)]
    have e : ∀ ss1, mapO (stepS made op) ss = some ss1 → adds true ops ss1 = mapO (stepsS true ops) ss1 := by
      intro ss1 h1
      have hfc := mapO_faces (stepS_face made op) h1
      have hl : ss1.length = ss.length := by simpa using congrArg List.length hfc
      exact adds_eq ops true ss1 (h.of_faces hfc) (fun o ho => by rw [hl]; exact hf o (List.mem_cons_of_mem _ ho))
    have e' := mapO_bind (stepS made op) (stepsS true ops) ss
    show _ = mapO (fun s => (stepS made op s).bind (stepsS true ops)) ss
    rw [← e']
    cases hm : mapO (stepS made op) ss with
    | none => rfl
    | some ss1 => exact e ss1 hm

end Verif.Presentation
