import Verif.Presentation.LemmasStream

/-! The streams of a presentation, the files of their bit rates, and which `Add` calls are accepted: C161, C162, C163, C164. -/
namespace Verif.Presentation
open Verif.Dynamic (Points mapSet mapFind mapRebase bitrateAdd getPath Sorted pathsOf mapFind_mapSet mapSet_sorted keys_mapSet mem_mapSet mapRebase_eq renderLoop_shift)
open Verif.Dynamic.Spec (Covers firstAt registrations)

variable {P : Type}

theorem inj_of_nodup {A B : Type} {f : A → B} : ∀ {l : List A}, (l.map f).Nodup → ∀ {x y : A}, x ∈ l → y ∈ l → f x = f y → x = y
  | a :: l, h, x, y, hx, hy, he => by
    obtain ⟨h1, h2⟩ := List.nodup_cons.mp h
    rcases List.mem_cons.mp hx with hxa | hx' <;> rcases List.mem_cons.mp hy with hya | hy'
    · rw [hxa, hya]
    · have hm : f y ∈ l.map f := List.mem_map_of_mem hy'
      rw [← he, hxa] at hm
      exact absurd hm h1
    · have hm : f x ∈ l.map f := List.mem_map_of_mem hx'
      rw [he, hya] at hm
      exact absurd hm h1
    · exact inj_of_nodup h2 hx' hy' he

/-! ### C161 -/

theorem told_header (kinds : List Kind) (h : kinds.length < 2 ^ 31) : Told (Spec.shown kinds) (header (P := P) 0 kinds []) := by
  have := header_told (P := P) kinds [] [] ⟨by simp [Spec.listing], List.Pairwise.nil, by simp⟩ (by
    have : (Spec.shown kinds).length ≤ kinds.length := List.length_filterMap_le _ _
    simp; omega)
  simpa using this

/-- C161: for every first file, the presentation has exactly the audio and video streams that can be parsed, numbered 0, 1, 2, ... in the order of the file and named "video", "video1", "video2", ... and
"audio", "audio1", ...; they are kept in the order of their names, and no two names are equal. -/
theorem streams_listed (kinds : List Kind) (h : kinds.length < 2 ^ 31) :
    ((header (P := P) 0 kinds []).map fun s => (s.id, s.name, s.video)).Perm (Spec.listing (Spec.shown kinds)) ∧
    ((header (P := P) 0 kinds []).map fun s => s.name).Pairwise Spec.Before ∧
    ((header (P := P) 0 kinds []).map fun s => s.name).Nodup := by
  obtain ⟨h1, h2, _⟩ := told_header (P := P) kinds h
  refine ⟨h1, List.pairwise_map.mpr h2, ?_⟩
  rw [List.Nodup, List.pairwise_map]
  exact h2.imp fun {a b} hb he => by rw [he] at hb; exact before_irrefl _ hb

theorem length_header (kinds : List Kind) (h : kinds.length < 2 ^ 31) : (header (P := P) 0 kinds []).length = (Spec.shown kinds).length := by
  have := (told_header (P := P) kinds h).1.length_eq
  simpa [Spec.listing] using this

theorem dense_header (kinds : List Kind) (h : kinds.length < 2 ^ 31) : Dense (header (P := P) 0 kinds []) := by
  have := (told_header (P := P) kinds h).1.map (fun e => e.1)
  rw [Dense, length_header kinds h]
  rw [List.map_map] at this
  refine this.trans (List.Perm.of_eq ?_)
  apply List.ext_getElem (by simp [Spec.listing])
  intro i h1 h2
  simp [Spec.listing]

theorem adds_points : ∀ (ops : List (Op P)) (made : Bool) (ss : List (Stream P)), Dense ss → (∀ op ∈ ops, ss.length ≤ op.streams) →
    (adds made ops ss).isSome → ∀ op ∈ ops, Fits ss.length op
  | [], _, _, _, _, _ => by simp
  | op :: ops, made, ss, h, hn, hs => by
    have hfit : Fits ss.length op := by
      refine ⟨hn op List.mem_cons_self, ?_⟩
      intro p hp
      apply Classical.byContradiction
      intro hlt
      simp only [adds, add, begin_eq made op.streams op.items ss h (hn op List.mem_cons_self)] at hs
      cases hm : mapO (fun s => addFiles true op.items (if made then s else createRates s op.items)) ss with
      | none => simp [hm] at hs
      | some ss1 =>
        have hk : Keeps (fun s => addFiles true op.items (if made then s else createRates s op.items)) := by
          intro s s' hs
          have := addFiles_face _ _ _ _ hs
          rw [this]
          cases made
          · exact createRates_face s op.items
          · rfl
        have d1 := h.of_faces (mapO_faces hk hm)
        have hl : ss1.length = ss.length := by simpa using congrArg List.length (mapO_faces hk hm)
        rw [hm, Option.bind_some, publish_none _ _ d1.nodup ⟨p, hp, fun hmem => hlt (hl ▸ d1.mem.mp hmem)⟩] at hs
        simp at hs
    intro o ho
    rcases List.mem_cons.mp ho with rfl | ho
    · exact hfit
    · simp only [adds, add_eq made op ss h hfit] at hs
      cases hm : mapO (stepS made op) ss with
      | none => simp [hm] at hs
      | some ss1 =>
        have hfc := mapO_faces (stepS_face made op) hm
        have hl : ss1.length = ss.length := by simpa using congrArg List.length hfc
        rw [hm, Option.bind_some] at hs
        have := adds_points ops true ss1 (h.of_faces hfc) (fun o ho => by rw [hl]; exact hn o (List.mem_cons_of_mem _ ho)) hs o ho
        rw [hl] at this
        exact this

/-- C161, after any `Add` calls that succeed: the streams, their ids and names are still those of the first file, and each is found under its id and under its name. -/
theorem streams_kept (kinds : List Kind) (h : kinds.length < 2 ^ 31) (ops : List (Op P)) (hn : ∀ op ∈ ops, (Spec.shown kinds).length ≤ op.streams)
    (ss : List (Stream P)) (hb : build kinds ops = some ss) :
    (ss.map fun s => (s.id, s.name, s.video)).Perm (Spec.listing (Spec.shown kinds)) ∧ (ss.map fun s => s.name).Pairwise Spec.Before ∧
    ∀ (j : Nat) (v : Bool), (Spec.shown kinds)[j]? = some v →
      ∃ s ∈ ss, byIndex ss j = some s ∧ byName ss (Spec.nameOf (Spec.shown kinds) j v) = some s ∧ s.video = v := by
  have d := dense_header (P := P) kinds h
  have hl := length_header (P := P) kinds h
  have hfit := adds_points ops false _ d (fun op ho => by rw [hl]; exact hn op ho) (by rw [build] at hb; rw [hb]; rfl)
  rw [build, adds_eq ops false _ d hfit] at hb
  have hfc := mapO_faces (stepsS_face ops false) hb
  obtain ⟨t1, t2, _⟩ := streams_listed (P := P) kinds h
  have hperm : (ss.map face).Perm (Spec.listing (Spec.shown kinds)) := by rw [hfc]; exact t1
  have hnames : (ss.map fun s => s.name) = (header (P := P) 0 kinds []).map fun s => s.name := by
    have := congrArg (List.map fun e => e.2.1) hfc
    simpa [face, Function.comp_def] using this
  refine ⟨hperm, by rw [hnames]; exact t2, ?_⟩
  intro j v hj
  obtain ⟨hjl, hjv⟩ := List.getElem?_eq_some_iff.mp hj
  have hmem : (j, Spec.nameOf (Spec.shown kinds) j v, v) ∈ Spec.listing (Spec.shown kinds) :=
    List.mem_mapIdx.mpr ⟨j, hjl, by rw [hjv]⟩
  obtain ⟨s, hs, he⟩ := List.mem_map.mp (hperm.mem_iff.mpr hmem)
  simp only [face, Prod.mk.injEq] at he
  obtain ⟨e1, e2, e3⟩ := he
  have d' := d.of_faces hfc
  refine ⟨s, hs, ?_, ?_, e3⟩
  · have := byIndex_isSome.mpr (show j ∈ ss.map (·.id) from e1 ▸ List.mem_map_of_mem hs)
    cases hx : byIndex ss j with
    | none => simp [hx] at this
    | some x =>
      have hxm := List.mem_of_find?_eq_some hx
      have hxi := List.find?_some hx
      simp only [decide_eq_true_eq] at hxi
      rw [inj_of_nodup d'.nodup hxm hs (by rw [hxi, e1])]
  · have hne : (byName ss (Spec.nameOf (Spec.shown kinds) j v)).isSome := by
      simp only [byName, List.find?_isSome]
      refine ⟨s, hs, ?_⟩
      have : nameLt s.name s.name = false := Bool.eq_false_iff.mpr fun hh => before_irrefl _ ((nameLt_iff _ _).mp hh)
      rw [e2] at this ⊢
      simp [this]
    cases hx : byName ss (Spec.nameOf (Spec.shown kinds) j v) with
    | none => simp [hx] at hne
    | some x =>
      have hxm := List.mem_of_find?_eq_some hx
      have hxi := List.find?_some hx
      simp only [Bool.and_eq_true, Bool.not_eq_true', Bool.eq_false_iff, ne_eq, nameLt_iff] at hxi
      have hxn : x.name = s.name := by
        apply Classical.byContradiction
        intro hne
        rw [e2] at hne
        exact hxi.2 (before_total hne hxi.1)
      have hnd : (ss.map fun s => s.name).Nodup := by
        rw [hnames]
        exact (streams_listed (P := P) kinds h).2.2
      rw [inj_of_nodup hnd hxm hs hxn]

example : ((header (P := Nat) 0 [.video, .audio, .ltc, .audio, .video, .broken, .audio] []).map fun s => (s.id, String.ofList s.name)) =
    [(1, "audio"), (2, "audio1"), (4, "audio2"), (0, "video"), (3, "video1")] := by decide +kernel

/-! ### C162 and C163 -/

theorem build_eq (kinds : List Kind) (h : kinds.length < 2 ^ 31) (ops : List (Op P)) (hf : ∀ op ∈ ops, Fits (Spec.shown kinds).length op) :
    build kinds ops = mapO (stepsS false ops) (header 0 kinds []) := by
  rw [build, adds_eq ops false _ (dense_header kinds h)]
  rw [length_header kinds h]
  exact hf

theorem mem_shown {kinds : List Kind} (h : kinds.length < 2 ^ 31) {v : Bool} :
    v ∈ Spec.shown kinds ↔ ∃ s ∈ header (P := P) 0 kinds [], s.video = v := by
  have hp := (told_header (P := P) kinds h).1.map (fun e => e.2.2)
  have e : (Spec.listing (Spec.shown kinds)).map (fun e => e.2.2) = Spec.shown kinds := by
    apply List.ext_getElem (by simp [Spec.listing])
    intro i h1 h2
    simp [Spec.listing]
  rw [e, List.map_map] at hp
  rw [← hp.mem_iff, List.mem_map]
  rfl

/-- C163: a sequence of `Add` calls is accepted if and only if every point is for a stream of the presentation and every bit rate an `Add` lists for a kind of stream the file has is one of those of the first
`Add`: for video all those it lists, for audio only the one of its first item. -/
theorem adds_accepted (kinds : List Kind) (h : kinds.length < 2 ^ 31) (ops : List (Op P)) (hn : ∀ op ∈ ops, (Spec.shown kinds).length ≤ op.streams) :
    (build kinds ops).isSome ↔
      (∀ op ∈ ops, ∀ p ∈ op.points, p.1 < (Spec.shown kinds).length) ∧
      ∀ v ∈ Spec.shown kinds, ∀ op ∈ ops, ∀ b ∈ Spec.rates v op.items, b ∈ Spec.allowed v ops := by
  have d := dense_header (P := P) kinds h
  have hl := length_header (P := P) kinds h
  have main : ∀ (hf : ∀ op ∈ ops, Fits (Spec.shown kinds).length op), (build kinds ops).isSome ↔
      ∀ v ∈ Spec.shown kinds, ∀ op ∈ ops, ∀ b ∈ Spec.rates v op.items, b ∈ Spec.allowed v ops := by
    intro hf
    rw [build_eq kinds h ops hf, mapO_isSome]
    cases ops with
    | nil => simp [stepsS]
    | cons op ops =>
      constructor
      · intro hs v hv
        obtain ⟨s, hm, rfl⟩ := (mem_shown (P := P) h).mp hv
        have := hs s hm
        rw [steps_first] at this
        have hcv : (createRates s op.items).video = s.video := congrArg (·.2.2) (createRates_face s op.items)
        have r := (steps_inv (op :: ops) [] _ (create_inv s ((told_header kinds h).2.2 s hm) op ops)).2 this
        rw [hcv] at r
        exact r
      · intro ha s hm
        rw [steps_first]
        have hcv : (createRates s op.items).video = s.video := congrArg (·.2.2) (createRates_face s op.items)
        have r := (steps_inv (op :: ops) [] _ (create_inv s ((told_header kinds h).2.2 s hm) op ops)).1 (by
          rw [hcv]
          exact ha s.video ((mem_shown (P := P) h).mpr ⟨s, hm, rfl⟩))
        obtain ⟨s', e, _⟩ := r
        rw [e]; rfl
  constructor
  · intro hs
    have hf := adds_points ops false _ d (fun op ho => by rw [hl]; exact hn op ho) hs
    rw [hl] at hf
    exact ⟨fun op ho => (hf op ho).2, (main hf).mp hs⟩
  · rintro ⟨h1, h2⟩
    exact (main fun op ho => ⟨hn op ho, h1 op ho⟩).mpr h2

/-- A stream of the result of the `Add` calls. -/
theorem build_inv (kinds : List Kind) (h : kinds.length < 2 ^ 31) (op : Op P) (ops : List (Op P)) (hn : ∀ o ∈ op :: ops, (Spec.shown kinds).length ≤ o.streams)
    (ss : List (Stream P)) (hb : build kinds (op :: ops) = some ss) (s : Stream P) (hs : s ∈ ss) : Inv (Spec.allowed s.video (op :: ops)) (op :: ops) s := by
  have d := dense_header (P := P) kinds h
  have hl := length_header (P := P) kinds h
  have hf := adds_points (op :: ops) false _ d (fun op ho => by rw [hl]; exact hn op ho) (by rw [build] at hb; rw [hb]; rfl)
  rw [hl] at hf
  rw [build_eq kinds h (op :: ops) hf] at hb
  obtain ⟨s0, hm, e⟩ := mapO_mem hb s hs
  rw [steps_first] at e
  have hcv : (createRates s0 op.items).video = s0.video := congrArg (·.2.2) (createRates_face s0 op.items)
  have hv : s.video = s0.video := by rw [← hcv]; exact congrArg (·.2.2) (stepsS_face _ _ _ _ e)
  have hi := create_inv s0 ((told_header kinds h).2.2 s0 hm) op ops
  have r := steps_inv (op :: ops) [] _ hi
  obtain ⟨s', e', i'⟩ := r.1 (r.2 (by rw [e]; rfl))
  rw [e] at e'
  cases e'
  rw [hv]
  exact i'

theorem files_ne {i : Nat} {v : Bool} {b : Int} {op : Op P} {ops : List (Op P)} (hb : b ∈ Spec.allowed v (op :: ops)) : Spec.files i v b [] (op :: ops) ≠ [] := by
  have : b ∈ Spec.rates v op.items := by
    cases v
    · exact List.mem_of_mem_take hb
    · exact hb
  obtain ⟨it, hit, rfl⟩ := List.mem_map.mp this
  simp only [Spec.files]
  intro he
  have := (List.append_eq_nil_iff.mp he).1
  rw [List.map_eq_nil_iff, List.filter_eq_nil_iff] at this
  exact this it hit (by simp)

/-- C162: after any `Add` calls that succeed, for every stream, every bit rate of it and every time, the path that is returned is the one registered first for the start that covers the time. An `Add` registers
its files that have this bit rate at the time the stream ended before it (or its last point, if later). -/
theorem segment_file (kinds : List Kind) (h : kinds.length < 2 ^ 31) (ops : List (Op P)) (hn : ∀ o ∈ ops, (Spec.shown kinds).length ≤ o.streams)
    (ss : List (Stream P)) (hb : build kinds ops = some ss) (s : Stream P) (hs : s ∈ ss) (rate : Int) (t : Int) :
    (rate ∈ Spec.allowed s.video ops → ∃ start path, pathOf s rate t = some path ∧
      Covers (registrations (Spec.files s.id s.video rate [] ops)) t start ∧ firstAt (registrations (Spec.files s.id s.video rate [] ops)) start = some path) ∧
    (rate ∉ Spec.allowed s.video ops → pathOf s rate t = none) := by
  cases ops with
  | nil =>
    refine ⟨by simp [Spec.allowed], fun _ => ?_⟩
    simp [build, adds] at hb
    subst hb
    have := (told_header kinds h).2.2 s hs
    simp [pathOf, this.2.2, mapFind]
  | cons op ops =>
    have hi := build_inv kinds h op ops hn ss hb s hs
    constructor
    · intro hr
      obtain ⟨st, p, e1, e2, e3⟩ := Verif.Dynamic.path_covers (Spec.files s.id s.video rate [] (op :: ops)) (files_ne hr) t
      exact ⟨st, p, by rw [pathOf, hi.2.2.2, if_pos hr]; exact e1, e2, e3⟩
    · intro hr
      rw [pathOf, hi.2.2.2, if_neg hr]

theorem mem_files {i : Nat} {v : Bool} {b : Int} : ∀ {todo done : List (Op P)} {e : Int × P}, e ∈ Spec.files i v b done todo →
    ∃ k, k < todo.length ∧ e.1 = Spec.startOf i (done ++ todo.take k)
  | [], _, _, h => by simp [Spec.files] at h
  | op :: todo, done, e, h => by
    simp only [Spec.files, List.mem_append] at h
    rcases h with h | h
    · obtain ⟨it, _, rfl⟩ := List.mem_map.mp h
      exact ⟨0, by simp, by simp⟩
    · obtain ⟨k, hk, he⟩ := mem_files h
      exact ⟨k + 1, by simp; omega, by rw [he]; simp⟩

theorem registrations_files (i : Nat) (v : Bool) (b : Int) (op : Op P) (ops : List (Op P)) (hl : b ∈ Spec.rates v op.items) :
    registrations (Spec.files i v b [] (op :: ops)) = Spec.files i v b [] (op :: ops) := by
  have h0 : Spec.startOf i ([] : List (Op P)) = 0 := by simp [Spec.startOf, Spec.times]
  obtain ⟨it, hit, rfl⟩ := List.mem_map.mp hl
  simp only [Spec.files, h0]
  cases hc : op.items.filter (fun x => (if v then x.bitrate else x.audioBitrate) = (if v then it.bitrate else it.audioBitrate)) with
  | nil =>
    rw [List.filter_eq_nil_iff] at hc
    exact absurd (by simp) (hc it hit)
  | cons x xs => simp [registrations]

theorem find_append_none {A : Type} {p : A → Bool} {a b : List A} (h : ∀ x ∈ a, p x = false) : (a ++ b).find? p = b.find? p := by
  rw [List.find?_append, List.find?_eq_none.mpr (by intro x hx; rw [h x hx]; simp)]
  rfl

/-- C162 for files one after the other: when every `Add` moves the end of the stream forward and lists the bit rate, the segments from the start of an `Add` up to the start of the next one come from the first
file of this `Add` that has the bit rate. -/
theorem file_of_add (kinds : List Kind) (h : kinds.length < 2 ^ 31) (ops : List (Op P)) (hn : ∀ o ∈ ops, (Spec.shown kinds).length ≤ o.streams)
    (ss : List (Stream P)) (hb : build kinds ops = some ss) (s : Stream P) (hs : s ∈ ss) (rate : Int) (hr : rate ∈ Spec.allowed s.video ops)
    (hlist : ∀ o ∈ ops, rate ∈ Spec.rates s.video o.items)
    (hinc : ∀ a b, a < b → b < ops.length → Spec.startOf s.id (ops.take a) < Spec.startOf s.id (ops.take b))
    (j : Nat) (op : Op P) (hj : ops[j]? = some op) (t : Int) (h1 : 0 < j → Spec.startOf s.id (ops.take j) ≤ t)
    (h2 : ∀ k, j < k → k < ops.length → t < Spec.startOf s.id (ops.take k)) :
    pathOf s rate t = (op.items.find? fun it => (if s.video then it.bitrate else it.audioBitrate) = rate).map fun it => it.path := by
  obtain ⟨start, path, e1, e2, e3⟩ := (segment_file kinds h ops hn ss hb s hs rate t).1 hr
  obtain ⟨hjl, hjo⟩ := List.getElem?_eq_some_iff.mp hj
  have hreg : registrations (Spec.files s.id s.video rate [] ops) = Spec.files s.id s.video rate [] ops := by
    cases ops with
    | nil => simp at hjl
    | cons o ops => exact registrations_files s.id s.video rate o ops (hlist o List.mem_cons_self)
  rw [hreg] at e2 e3
  have hsplit : ops = ops.take j ++ op :: ops.drop (j + 1) := by
    rw [← hjo, ← List.drop_eq_getElem_cons hjl, List.take_append_drop]
  have hfiles : Spec.files s.id s.video rate [] ops = Spec.files s.id s.video rate [] (ops.take j) ++
      (((op.items.filter fun it => (if s.video then it.bitrate else it.audioBitrate) = rate).map fun it => (Spec.startOf s.id (ops.take j), it.path)) ++
        Spec.files s.id s.video rate (ops.take j ++ [op]) (ops.drop (j + 1))) := by
    refine Eq.trans (congrArg (Spec.files s.id s.video rate []) hsplit) ?_
    rw [files_append, List.nil_append, Spec.files]
  obtain ⟨it, hit, hrate⟩ := List.mem_map.mp (hlist op (List.mem_of_getElem? hj))
  have hmemj : ∃ e ∈ Spec.files s.id s.video rate [] ops, e.1 = Spec.startOf s.id (ops.take j) := by
    refine ⟨(Spec.startOf s.id (ops.take j), it.path), ?_, rfl⟩
    rw [hfiles]
    apply List.mem_append_right
    apply List.mem_append_left
    exact List.mem_map_of_mem (f := fun it : Item P => (Spec.startOf s.id (ops.take j), it.path)) (List.mem_filter.mpr ⟨hit, by simpa using hrate⟩)
  have hstart : start = Spec.startOf s.id (ops.take j) := by
    obtain ⟨⟨e, he, hes⟩, hc⟩ := e2
    obtain ⟨k, hk, hek⟩ := mem_files he
    rw [List.nil_append] at hek
    rw [hes] at hek
    obtain ⟨ej, hej, hejs⟩ := hmemj
    rcases hc with ⟨c1, c2⟩ | ⟨c1, c2⟩
    · have hkj : ¬ j < k := fun hlt => by have := h2 k hlt hk; omega
      rcases Nat.lt_or_ge k j with hlt | hge
      · have a1 := hinc k j hlt hjl
        have a2 := c2 ej hej (by rw [hejs]; exact h1 (by omega))
        omega
      · have : k = j := by omega
        rw [hek, this]
    · have a0 := c1 ej hej
      have j0 : j = 0 := by
        apply Classical.byContradiction
        intro hne
        have := h1 (by omega)
        omega
      have a1 := c2 ej hej
      rcases Nat.eq_zero_or_pos k with hk0 | hk0
      · rw [hek, hk0, j0]
      · have := hinc j k (by omega) hk
        omega
  rw [e1, ← e3, hstart, firstAt, hfiles, find_append_none]
  · cases hc : op.items.filter (fun it => (if s.video then it.bitrate else it.audioBitrate) = rate) with
    | nil =>
      rw [List.filter_eq_nil_iff] at hc
      exact absurd (by simpa using hrate) (hc it hit)
    | cons x xs =>
      have hf : (op.items.find? fun it => (if s.video then it.bitrate else it.audioBitrate) = rate) = some x := by
        rw [← List.head?_filter, hc]; rfl
      rw [hf]
      simp
  · intro x hx
    obtain ⟨k, hk, hxk⟩ := mem_files hx
    rw [List.length_take] at hk
    rw [List.nil_append, List.take_take, Nat.min_eq_left (by omega)] at hxk
    have := hinc k j (by omega) hjl
    simp
    omega

/-! ### C164 -/

theorem minTime_spec (ss : List (Stream P)) (h : Dense ss) : ∀ n, n ≤ ss.length → ∃ m, minTime ss n = some m ∧ (∀ s ∈ ss, s.id < n → m ≤ s.points.mint) ∧
    (m = 2 ^ 63 - 1 ∨ ∃ s ∈ ss, m = s.points.mint)
  | 0, _ => ⟨_, rfl, by simp, Or.inl rfl⟩
  | n + 1, hn => by
    obtain ⟨m, e, h1, h2⟩ := minTime_spec ss h n (by omega)
    have := byIndex_isSome.mpr (h.mem.mpr (by omega : n < ss.length))
    cases hx : byIndex ss n with
    | none => simp [hx] at this
    | some x =>
      have hxm := List.mem_of_find?_eq_some hx
      have hxi := List.find?_some hx
      simp only [decide_eq_true_eq] at hxi
      refine ⟨if x.points.mint < m then x.points.mint else m, by simp [minTime, e, hx], ?_, ?_⟩
      · intro s hs hlt
        by_cases hsn : s.id < n
        · have := h1 s hs hsn
          split <;> omega
        · rw [inj_of_nodup h.nodup hs hxm (by omega)]
          split <;> omega
      · split
        · exact Or.inr ⟨x, hxm, rfl⟩
        · exact h2

/-- The stream moved by `off`. -/
def moved (off : Int) (s : Stream P) : Stream P :=
  { s with points := s.points.rebase off, bitrates := s.bitrates.map fun b => (b.1, b.2.map fun m => mapRebase m off) }

theorem mapFind_map {V W : Type} (f : V → W) : ∀ (m : List (Int × V)) (k : Int), mapFind (m.map fun e => (e.1, f e.2)) k = (mapFind m k).map f
  | [], _ => rfl
  | (k', v) :: m, k => by
    simp only [List.map_cons, mapFind, mapFind_map f m k]
    split <;> rfl

theorem render_moved (p : Points) (h : Sorted p.computed) (off : Int) :
    (p.rebase off).render = p.render.map fun r => ⟨r.time + off, r.duration, r.composition⟩ := by
  simp only [Points.render, Points.rebase, mapRebase_eq off h]
  cases p.computed with
  | nil => rfl
  | cons e m => exact renderLoop_shift off e.1 e.2 m

theorem render_mint (p : Points) (h : Sorted p.computed) : ∀ r ∈ p.render, p.mint ≤ r.time := by
  intro r hr
  simp only [Points.render, Points.mint] at hr ⊢
  cases hc : p.computed with
  | nil => rw [hc] at hr; simp at hr
  | cons e m =>
    rw [hc] at hr h
    obtain ⟨h1, h2⟩ := Verif.Dynamic.sorted_cons.mp h
    have := (Verif.Dynamic.renderLoop_times e.1 e.2 m).1
    have hm : r.time ∈ ((e.1, e.2) :: m).dropLast.map (·.1) := by rw [← this]; exact List.mem_map_of_mem hr
    obtain ⟨x, hx, hxe⟩ := List.mem_map.mp hm
    have hx := List.dropLast_subset _ hx
    rcases List.mem_cons.mp hx with rfl | hx
    · simp at hxe ⊢; omega
    · have := h1 x hx
      simp at hxe ⊢; omega

/-- C164: after any `Add` calls that succeed, `rebase` succeeds and moves every stream by one and the same amount: 0 if no segment starts before 0. The segments keep their durations, none of them starts before 0,
and every file serves the segments it served before. -/
theorem rebase_moves (kinds : List Kind) (h : kinds.length < 2 ^ 31) (ops : List (Op P)) (hn : ∀ o ∈ ops, (Spec.shown kinds).length ≤ o.streams)
    (ss : List (Stream P)) (hb : build kinds ops = some ss) :
    ∃ (off : Int) (ss' : List (Stream P)), rebase ss = some ss' ∧ 0 ≤ off ∧ ((∀ i < ss.length, ∀ t ∈ Spec.times i ops, 0 ≤ t) → off = 0) ∧
      ss'.map (fun s => (s.id, s.name, s.video)) = ss.map (fun s => (s.id, s.name, s.video)) ∧
      ss'.map (fun s => s.points.render) = ss.map (fun s => s.points.render.map fun r => ⟨r.time + off, r.duration, r.composition⟩) ∧
      (∀ s ∈ ss', ∀ r ∈ s.points.render, 0 ≤ r.time) ∧
      ∀ rate t, ss'.map (fun s => pathOf s rate (t + off)) = ss.map (fun s => pathOf s rate t) := by
  have d : Dense ss := by
    have d := dense_header (P := P) kinds h
    have hl := length_header (P := P) kinds h
    have hfit := adds_points ops false _ d (fun op ho => by rw [hl]; exact hn op ho) (by rw [build] at hb; rw [hb]; rfl)
    have hb' := hb
    rw [build, adds_eq ops false _ d hfit] at hb'
    exact d.of_faces (mapO_faces (stepsS_face ops false) hb')
  have hinv : ∀ s ∈ ss, ∃ A, Inv A ops s := by
    intro s hs
    cases ops with
    | nil =>
      simp [build, adds] at hb
      subst hb
      have := (told_header kinds h).2.2 s hs
      refine ⟨[], ⟨?_, ?_⟩, ?_, ?_, ?_⟩
      · rw [this.1]; exact List.Pairwise.nil
      · rw [this.1]; simp [Spec.times]
      · rw [this.2.1]; rfl
      · rw [this.2.2]; simp
      · intro b; rw [this.2.2]; rfl
    | cons op ops => exact ⟨_, build_inv kinds h op ops hn ss hb s hs⟩
  obtain ⟨m, e, h1, h2⟩ := minTime_spec ss d ss.length (Nat.le_refl _)
  have hmem : ∀ s ∈ ss, s.id < ss.length := fun s hs => d.mem.mp (List.mem_map_of_mem hs)
  have hmint : ∀ s ∈ ss, (∀ i < ss.length, ∀ t ∈ Spec.times i ops, 0 ≤ t) → 0 ≤ s.points.mint := by
    intro s hs hall
    obtain ⟨A, hi⟩ := hinv s hs
    simp only [Points.mint]
    cases hc : s.points.computed with
    | nil => exact Int.le_refl _
    | cons x xs =>
      exact hall s.id (hmem s hs) x.1 ((hi.1.2 x.1).mp (by rw [hc]; simp))
  by_cases hm : 0 > m
  · have hr : rebase ss = some (ss.map (moved (m * -1))) := by
      simp only [rebase, e, Option.bind_some, if_pos hm]
      rw [forAll_deref (fun _ => rebaseStream (m * -1)) (by
        intro _ s s' hs
        simp only [rebaseStream] at hs
        split at hs
        · simp at hs; rw [← hs]; rfl
        · simp at hs) ss d, ← mapO_pure]
      apply mapO_congr
      intro s hs
      obtain ⟨A, hi⟩ := hinv s hs
      rw [rebaseStream, if_pos (List.all_eq_true.mpr fun b hb => hi.2.2.1 b hb)]
      rfl
    refine ⟨m * -1, _, hr, by omega, ?_, ?_, ?_, ?_, ?_⟩
    · intro hall
      rcases h2 with h2 | ⟨s, hs, h2⟩
      · omega
      · have := hmint s hs hall; omega
    · rw [List.map_map]; rfl
    · rw [List.map_map]
      apply List.map_congr_left
      intro s hs
      obtain ⟨A, hi⟩ := hinv s hs
      exact render_moved s.points hi.1.1 _
    · intro s' hs' r hr
      obtain ⟨s, hs, rfl⟩ := List.mem_map.mp hs'
      obtain ⟨A, hi⟩ := hinv s hs
      have hr : r ∈ (s.points.rebase (m * -1)).render := hr
      rw [render_moved s.points hi.1.1] at hr
      obtain ⟨r0, hr0, rfl⟩ := List.mem_map.mp hr
      have a1 := render_mint s.points hi.1.1 r0 hr0
      have a2 := h1 s hs (hmem s hs)
      simp only
      omega
    · intro rate t
      rw [List.map_map]
      apply List.map_congr_left
      intro s hs
      obtain ⟨A, hi⟩ := hinv s hs
      by_cases hA : rate ∈ A
      · have e1 : mapFind s.bitrates rate = some (some (pathsOf (Spec.files s.id s.video rate [] ops))) := by rw [hi.2.2.2, if_pos hA]
        simp only [Function.comp, pathOf, moved, mapFind_map, e1, Option.map_some]
        exact Verif.Dynamic.path_rebase _ _ _
      · have e1 : mapFind s.bitrates rate = none := by rw [hi.2.2.2, if_neg hA]
        simp only [Function.comp, pathOf, moved, mapFind_map, e1, Option.map_none]
  · refine ⟨0, ss, by simp only [rebase, e, Option.bind_some, if_neg hm], Int.le_refl _, fun _ => rfl, rfl, ?_, ?_, ?_⟩
    · simp
    · intro s hs r hr
      obtain ⟨A, hi⟩ := hinv s hs
      have a1 := render_mint s.points hi.1.1 r hr
      have a2 := h1 s hs (hmem s hs)
      omega
    · simp

/-! ### the hypotheses are met -/

/-- Two `Add` calls for a video and an audio stream, each with a file for two video bit rates; the first video segment starts before 0. -/
def exOps : List (Op String) :=
  [⟨[⟨500, 96, "a500"⟩, ⟨1000, 96, "a1000"⟩], 2, [(0, .plain 0 (-2)), (0, .plain 22 20), (1, .plain 0 0)], fun i => if i = 0 then 40 else 41⟩,
   ⟨[⟨500, 96, "b500"⟩, ⟨1000, 96, "b1000"⟩], 3, [(0, .plain 0 40), (1, .cross 30 30 5 41)], fun i => if i = 0 then 80 else 82⟩]

/-- The same with another audio bit rate for the second file. -/
def exBad : List (Op String) := [⟨[⟨500, 96, "a500"⟩, ⟨1000, 128, "a1000"⟩], 2, [], fun _ => 40⟩]

example : ((build [.video, .audio] exOps).map fun ss => ss.map fun s => (s.id, [pathOf s 1000 39, pathOf s 1000 40, pathOf s 500 79, pathOf s 96 39, pathOf s 96 41])) =
    some [(1, [none, none, none, some "a500", some "b500"]), (0, [some "a1000", some "b1000", some "b500", none, none])] := by decide +kernel
example : (build [.video, .audio] exBad).isSome = false := by decide +kernel
example : (build [.video] exBad).isSome = true := by decide +kernel
example : (((build [.video, .audio] exOps).bind rebase).map fun ss => ss.map fun s => (s.id, s.points.render.map fun r => r.time, pathOf s 1000 41, pathOf s 1000 42)) =
    some [(1, [2], none, none), (0, [0, 22], some "a1000", some "b1000")] := by decide +kernel
example : (∀ a b, a < b → b < exOps.length → Spec.startOf 0 (exOps.take a) < Spec.startOf 0 (exOps.take b)) := by
  intro a b h1 h2
  have : b < 2 := h2
  have e : a = 0 ∧ b = 1 := by omega
  rw [e.1, e.2]
  decide +kernel

end Verif.Presentation
