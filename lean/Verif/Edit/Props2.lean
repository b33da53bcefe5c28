import Verif.Edit.Props
/-
C110: whole files. C112: which files can be joined.
-/
namespace Verif.Edit
open Verif.Reader (Track Sample Reader TrackBoxes next move moveStreams readAll remaining defaultStream)
open Verif.Reader.Spec (FileHolds Holds Inside pres HasTimes Timed Synced)
open Spec (kept before bytesOf Part Sound Decodable Continues usable Real)

theorem kept_zero (discard : Bool) (t : Track) (xs : List Sample) : kept 0 discard t xs = xs := by
  rw [kept, List.filter_eq_self]; intro x _; simp

theorem before_zero (t : Track) (xs : List Sample) : before 0 t xs = xs := by
  rw [before, List.filter_eq_self]; intro x _; simp

/-- C110. A file is added as a whole (no range): every sample of every stream is given to the muxer, in order. Asked: the leading (first video) track `t` has a time table and a sync table, its first sample
is a sync sample and decoding times increase; no other track has a sync table, and none begins before the first picture of the leading one is presented. -/
theorem whole_file_partial (info info' : Info) (f : File) (xss : List (List Sample)) (discard : Bool) (out : List Added)
    (h : doEdit info f 0 0 discard = some (out, info')) (sd : Sound f xss)
    (hw : info.places.length = info.videos.length + info.audios.length) (h16 : info.places.length ≤ 16)
    (v : Nat) (hv : defaultStream f.reader = v) (t : Track) (p : Nat) (hvt : f.reader.streams[v]? = some (t, p)) (b : TrackBoxes) (es : List (Nat × Nat)) (hb : Timed b t es) (ns : List Nat)
    (hs : Synced b (0 :: ns)) (ht : HasTimes f.reader) (x : Sample) (xs : List Sample) (hxs : xss[v]? = some (x :: xs)) (hinc : (x :: xs).Pairwise (fun a b => a.decoding < b.decoding))
    (hother : ∀ (i : Nat) s, f.reader.streams[i]? = some s → i ≠ v → s.1.hasStss = false ∧ s.1.ltc = false ∧ pres t x ≤ s.1.offset) :
    ∀ i all, i < info.places.length → xss[i]? = some all →
      (Spec.ofStream out i).map (fun a => (a.body, a.sync, a.dur)) = all.map (fun x => (bytesOf f x, x.sync, x.duration)) := by
  intro i all hi hall
  obtain ⟨_, hp⟩ := samples_of_part info info' f xss 0 0 discard out h sd (Or.inl rfl) hw h16
  obtain ⟨t', ys, ⟨r, q, all', hm, hr, ha, rfl⟩, heq⟩ := hp i hi
  rw [hall] at ha
  have := Option.some.inj ha
  subst this
  rw [kept_zero, before_zero] at heq
  rw [heq]
  -- the position is 0
  suffices hq : all.drop q = all by rw [hq]
  obtain ⟨a, ha, hold⟩ := Reader.forall₂_get sd.holds v _ hxs
  rw [hvt] at ha
  have hae := Option.some.inj ha
  subst hae
  simp only at hold
  obtain ⟨J, y, m, k1, k2, k3, k4, k5, k6, k7, k8, k9⟩ := Reader.move_sync hb hs hold 0 p
  have hJ : J = 0 := by
    rcases k5 with k5 | k5
    · cases J with
      | zero => rfl
      | succ J =>
        rw [List.getElem?_cons_succ] at k3
        have := (List.pairwise_cons.mp hinc).1 y (List.mem_of_getElem? k3)
        omega
    · have := k5 0 (by simp); omega
  subst hJ
  have hyx : y = x := by simpa using k3.symm
  subst hyx
  obtain ⟨c, c1, c2, _⟩ := Reader.holds_comp hold 0 y k3
  obtain ⟨⟨d, d1, d2⟩, _⟩ := Reader.holds_dec hold 0 y k3
  obtain ⟨ss', e1, e2, e3⟩ := Reader.moveStreams_spec y.decoding ((y.composition + t.offset) % 2 ^ 64) f.reader.streams xss sd.holds ht
  have hmove : move f.reader 0 v = some { f.reader with streams := ss', last := 0 } := by
    simp only [move, hvt, k1, Track.decoding, Track.composition, c1, d1, Option.map_some, ← c2, ← d2, e1]
  rw [hv, hmove] at hm
  have hre := Option.some.inj hm
  subst hre
  simp only at hr
  obtain ⟨s, hsi, hhold⟩ := Reader.forall₂_get sd.holds i _ hall
  obtain ⟨n, n1, n2⟩ := e3 i s.1 s.2 hsi
  rw [n1] at hr
  have hnq := Option.some.inj hr
  simp only [Prod.mk.injEq] at hnq
  obtain ⟨hst, hnq⟩ := hnq
  subst hnq
  by_cases hiv : i = v
  · subst hiv
    rw [hvt] at hsi
    have := Option.some.inj hsi
    rw [← this, k7] at n2
    have := Option.some.inj n2
    have : n = 0 := by omega
    rw [this]; rfl
  · obtain ⟨g1, g2, g3⟩ := hother i s hsi hiv
    rw [Reader.moveStream] at n2
    by_cases hc : s.1.count = 0
    · have : all.length = 0 := by rw [← Reader.holds_count hhold]; exact hc
      have : all = [] := List.length_eq_zero_iff.mp this
      rw [this]; simp
    · rw [if_neg hc, if_pos ⟨by rw [g1]; simp, by rw [g2]; simp⟩, if_neg ?_] at n2
      · rw [← Option.some.inj n2]; rfl
      · have h1 : (y.composition + t.offset) % 2 ^ 64 ≤ y.composition + t.offset := Nat.mod_le _ _
        rw [pres] at g3
        omega

/-! ### which files can be joined -/

theorem header_videos : ∀ (ss : List Stream) (id : Nat) (e : Nat × List Nat × List Nat), e ∈ (header id ss).1 →
    id ≤ e.1 ∧ ∃ s, (usable ss)[e.1 - id]? = some s ∧ s.video = true ∧ s.sps = e.2.1 ∧ s.pps = e.2.2 := by
  intro ss
  induction ss with
  | nil => intro id e h; simp [header] at h
  | cons s ss ih =>
    intro id e h
    rw [header] at h
    rw [usable, List.filter_cons]
    cases hv : s.valid with
    | false =>
      rw [hv] at h
      simp only [Bool.not_false, if_true] at h
      simp only [Bool.false_eq_true, if_false]
      exact ih id e h
    | true =>
      rw [hv] at h
      simp only [Bool.not_true, Bool.false_eq_true, if_false] at h
      simp only [if_true]
      have key : e ∈ (header (id + 1) ss).1 → id ≤ e.1 ∧ ∃ s', (s :: usable ss)[e.1 - id]? = some s' ∧ s'.video = true ∧ s'.sps = e.2.1 ∧ s'.pps = e.2.2 := by
        intro h
        obtain ⟨h1, s', h2, h3⟩ := ih (id + 1) e h
        refine ⟨by omega, s', ?_, h3⟩
        rw [show e.1 - id = (e.1 - (id + 1)) + 1 by omega, List.getElem?_cons_succ]; exact h2
      cases hvid : s.video with
      | true =>
        rw [hvid] at h
        simp only [if_true] at h
        rcases List.mem_cons.mp h with rfl | h
        · exact ⟨Nat.le_refl _, s, by simp, hvid, rfl, rfl⟩
        · exact key h
      | false =>
        rw [hvid] at h
        exact key h

theorem header_audios : ∀ (ss : List Stream) (id : Nat) (e : Nat × (Nat × Nat × Nat)), e ∈ (header id ss).2 →
    id ≤ e.1 ∧ ∃ s, (usable ss)[e.1 - id]? = some s ∧ s.video = false ∧ s.audio = e.2 := by
  intro ss
  induction ss with
  | nil => intro id e h; simp [header] at h
  | cons s ss ih =>
    intro id e h
    rw [header] at h
    rw [usable, List.filter_cons]
    cases hv : s.valid with
    | false =>
      rw [hv] at h
      simp only [Bool.not_false, if_true] at h
      simp only [Bool.false_eq_true, if_false]
      exact ih id e h
    | true =>
      rw [hv] at h
      simp only [Bool.not_true, Bool.false_eq_true, if_false] at h
      simp only [if_true]
      have key : e ∈ (header (id + 1) ss).2 → id ≤ e.1 ∧ ∃ s', (s :: usable ss)[e.1 - id]? = some s' ∧ s'.video = false ∧ s'.audio = e.2 := by
        intro h
        obtain ⟨h1, s', h2, h3⟩ := ih (id + 1) e h
        refine ⟨by omega, s', ?_, h3⟩
        rw [show e.1 - id = (e.1 - (id + 1)) + 1 by omega, List.getElem?_cons_succ]; exact h2
      cases hvid : s.video with
      | false =>
        rw [hvid] at h
        simp only [Bool.false_eq_true, if_false] at h
        rcases List.mem_cons.mp h with rfl | h
        · exact ⟨Nat.le_refl _, s, by simp, hvid, rfl⟩
        · exact key h
      | true =>
        rw [hvid] at h
        exact key h

theorem memEq_prefix (a b : List Nat) (h : memEq a b = some true) : b <+: a := by
  rw [memEq] at h
  split at h
  · simp at h
  · simp only [Option.some.injEq, beq_iff_eq] at h
    have := List.take_prefix b.length a
    rwa [h] at this

theorem getD_mem {α : Type} (l : List α) (i : Nat) (d : α) : l.getD i d ∈ l ∨ l.getD i d = d := by
  rw [List.getD_eq_getElem?_getD]
  cases h : l[i]? with
  | none => exact Or.inr rfl
  | some x => exact Or.inl (List.mem_of_getElem? h)

theorem compare_spec (g : List Stream) (info : Info) (hv : info.videos = (header 0 g).1) (ha : info.audios = (header 0 g).2) : ∀ (ss : List Stream) (i v a : Nat),
    compare info i v a ss = some () → (∀ s ∈ ss, s.valid = true → Real s) →
    ∀ (k : Nat) s, ss[k]? = some s → s.valid = true → ∃ s0, (usable g)[i + k]? = some s0 ∧ Continues s0 s := by
  intro ss
  induction ss with
  | nil => intro i v a _ _ k s hs; simp at hs
  | cons s ss ih =>
    intro i v a h hr k s' hs' hvalid
    rw [compare] at h
    -- the rest
    have rest : ∀ v' a', compare info (i + 1) v' a' ss = some () → ∀ k s'', ss[k]? = some s'' → s''.valid = true → ∃ s0, (usable g)[i + (k + 1)]? = some s0 ∧ Continues s0 s'' := by
      intro v' a' h' k s'' h1 h2
      obtain ⟨s0, h3, h4⟩ := ih (i + 1) v' a' h' (fun s hs => hr s (by simp [hs])) k s'' h1 h2
      exact ⟨s0, by rw [← h3]; congr 1; omega, h4⟩
    cases hsv : s.valid with
    | false =>
      rw [hsv] at h
      simp only [Bool.not_false, if_true] at h
      cases k with
      | zero =>
        simp only [List.getElem?_cons_zero, Option.some.injEq] at hs'
        rw [← hs', hsv] at hvalid; simp at hvalid
      | succ k =>
        rw [List.getElem?_cons_succ] at hs'
        exact rest _ _ h k s' hs' hvalid
    | true =>
      rw [hsv] at h
      simp only [Bool.not_true, Bool.false_eq_true, if_false] at h
      have hreal := hr s (by simp) hsv
      rw [Real] at hreal
      cases hvid : s.video with
      | true =>
        rw [hvid] at h hreal
        simp only [if_true] at h hreal
        have hmem := getD_mem info.videos v (0, [], [])
        generalize info.videos.getD v (0, [], []) = e at h hmem
        obtain ⟨id, sps, pps⟩ := e
        simp only at h
        split at h
        · simp at h
        rename_i h1
        split at h
        · simp at h
        rename_i h2
        split at h
        · simp at h
        rename_i h3
        split at h
        · simp at h
        rename_i h4
        cases k with
        | zero =>
          simp only [List.getElem?_cons_zero, Option.some.injEq] at hs'
          subst hs'
          rcases hmem with hmem | hmem
          · rw [hv] at hmem
            obtain ⟨_, s0, q1, q2, q3, q4⟩ := header_videos _ _ _ hmem
            simp only at q1 q3 q4
            have hid : i = id := by simpa using h1
            refine ⟨s0, by rw [← q1, ← hid]; rfl, by rw [q2, hvid], ?_, ?_⟩
            · intro _
              refine ⟨?_, by rw [q4]; exact memEq_prefix _ _ (by simpa using h4)⟩
              have hp := memEq_prefix _ _ (show memEq s.sps sps = some true by simpa using h3)
              rw [q3]
              exact hp.eq_of_length (by simpa using h2)
            · intro hf; rw [q2] at hf; simp at hf
          · simp only [Prod.mk.injEq] at hmem
            rw [hmem.2.1] at h2
            have : s.sps.length = 0 := by
              simp only [List.length_nil, ne_eq, not_not] at h2
              exact h2.symm
            exact absurd (List.length_eq_zero_iff.mp this) hreal
        | succ k =>
          rw [List.getElem?_cons_succ] at hs'
          exact rest _ _ h k s' hs' hvalid
      | false =>
        rw [hvid] at h hreal
        simp only [Bool.false_eq_true, if_false] at h hreal
        have hmem := getD_mem info.audios a (0, (0, 0, 0))
        generalize info.audios.getD a (0, (0, 0, 0)) = e at h hmem
        obtain ⟨id, cfg⟩ := e
        simp only at h
        split at h
        · simp at h
        rename_i h1
        split at h
        · simp at h
        rename_i h2
        cases k with
        | zero =>
          simp only [List.getElem?_cons_zero, Option.some.injEq] at hs'
          subst hs'
          have hcfg : cfg = s.audio := by simpa using h2
          rcases hmem with hmem | hmem
          · rw [ha] at hmem
            obtain ⟨_, s0, q1, q2, q3⟩ := header_audios _ _ _ hmem
            simp only at q1 q3
            have hid : i = id := by simpa using h1
            refine ⟨s0, by rw [← q1, ← hid]; rfl, by rw [q2, hvid], ?_, ?_⟩
            · intro hf; rw [q2] at hf; simp at hf
            · intro _; rw [q3, hcfg]
          · simp only [Prod.mk.injEq] at hmem
            rw [← hcfg, hmem.2] at hreal
            exact absurd rfl hreal
        | succ k =>
          rw [List.getElem?_cons_succ] at hs'
          exact rest _ _ h k s' hs' hvalid

/-- Nothing changes the streams announced. -/
theorem addAll_info (discard : Bool) (g : List Stream) : ∀ (fs : List (File × Nat × Nat)) (info : Info) (outs : List (List Added)),
    info.videos = (header 0 g).1 → info.audios = (header 0 g).2 → addAll discard (some info) fs = some outs →
    (∀ f ∈ fs, ∀ s ∈ f.1.streams, s.valid = true → Real s) →
    ∀ f ∈ fs, (usable f.1.streams).length = (usable g).length ∧
      ∀ (k : Nat) s, f.1.streams[k]? = some s → s.valid = true → ∃ s0, (usable g)[k]? = some s0 ∧ Continues s0 s := by
  intro fs
  induction fs with
  | nil => intro _ _ _ _ _ _ f hf; simp at hf
  | cons q fs ih =>
    intro info outs hv ha h hr f hf
    obtain ⟨f0, start, stop⟩ := q
    rw [addAll] at h
    split at h
    · simp at h
    · rename_i out info' hadd
      obtain ⟨outs', ho, _⟩ := Option.map_eq_some_iff.mp h
      have hdo : doEdit info f0 start stop discard = some (out, info') := hadd
      rw [doEdit] at hdo
      simp only [Option.bind_eq_bind] at hdo
      obtain ⟨⟨⟩, hc, hdo⟩ := Option.bind_eq_some_iff.mp hdo
      obtain ⟨r, _, hdo⟩ := Option.bind_eq_some_iff.mp hdo
      obtain ⟨ns0, _, hdo⟩ := Option.bind_eq_some_iff.mp hdo
      obtain ⟨js, _, hdo⟩ := Option.bind_eq_some_iff.mp hdo
      obtain ⟨⟨o, js', ends'⟩, _, hdo⟩ := Option.bind_eq_some_iff.mp hdo
      simp only [Option.some.injEq, Prod.mk.injEq] at hdo
      obtain ⟨_, rfl⟩ := hdo
      rcases List.mem_cons.mp hf with rfl | hf
      · rw [check] at hc
        split at hc
        · simp at hc
        · rename_i hp
          refine ⟨?_, ?_⟩
          · have := header_length g 0
            rw [hv, ha] at hp
            have e1 : (usable f0.streams).length = parsable f0.streams := rfl
            have e2 : (usable g).length = parsable g := rfl
            show (usable f0.streams).length = _
            omega
          · intro k s hk hval
            have := compare_spec g info hv ha f0.streams 0 0 0 hc (hr (f0, start, stop) List.mem_cons_self) k s hk hval
            rwa [Nat.zero_add] at this
      · exact ih { info with places := close js' ends', fileCount := info.fileCount + 1 } outs' hv ha ho (fun f hf => hr f (by simp [hf])) f hf

/-- C112. Whatever files are given: when they are all accepted, every one has as many usable streams as the first, and its stream number `k` continues stream `k` of the first: both video with the
same sequence parameter set and a picture parameter set that begins with that of the first, or both audio with the same parameters. (Streams that cannot be used may only come last.) -/
theorem joined_files_fit_partial (discard : Bool) (f0 : File) (start stop : Nat) (fs : List (File × Nat × Nat)) (outs : List (List Added))
    (h : addAll discard none ((f0, start, stop) :: fs) = some outs) (hr : ∀ f ∈ (f0, start, stop) :: fs, ∀ s ∈ f.1.streams, s.valid = true → Real s) :
    ∀ f ∈ (f0, start, stop) :: fs, (usable f.1.streams).length = (usable f0.streams).length ∧
      ∀ (k : Nat) s, f.1.streams[k]? = some s → s.valid = true → ∃ s0, (usable f0.streams)[k]? = some s0 ∧ Continues s0 s :=
  addAll_info discard f0.streams ((f0, start, stop) :: fs) (open_ f0.streams) outs rfl rfl h hr

end Verif.Edit
