import Verif.Edit.Props2
import Verif.Edit.Props3
import Verif.TsMux.PropsHls
/-
C116: the HLS segments cut out of a file hold every sample once. C117: played one behind the other they show every sample at its time.
-/
namespace Verif.Edit
open Verif.Reader (Track Sample Reader TrackBoxes next move moveStream moveStreams defaultStream leadSample raw hns)
open Verif.Reader.Spec
open Verif.Edit.Spec
open Verif.Tables.Spec (expand)

/-- The segments of `do_hls_mux`, /repo/src/mg/media/tsinfo.cpp 997-1141: between neighbouring times of the list each is cut by an editor of its own (`MP42HLS`, which discards what is presented before the start,
tsmux.h 770-773). What the muxer is given for each segment. -/
def segments (f : File) : List Nat → Option (List (List Added))
  | a :: b :: rest =>
    match add none f a b true, segments f (b :: rest) with
    | some (out, _), some more => some (out :: more)
    | _, _ => none
  | _ => some []

/-! ### positions -/

/-- A track whose samples are presented in their order: audio. -/
def Plain (t : Track) : Prop := ∃ b es, Timed b t es ∧ b.ctts = none ∧ b.stss = none

/-- After a move to the beginning of a closed group of pictures of the leading track nothing that is presented from there on has been skipped, in no track. -/
theorem nothing_skipped (f : File) (xss : List (List Sample)) (sd : Sound f xss) (ht : HasTimes f.reader)
    (v : Nat) (tv : Track) (pv : Nat) (hvt : f.reader.streams[v]? = some (tv, pv)) (b : TrackBoxes) (es : List (Nat × Nat)) (hb : Timed b tv es) (ns : List Nat) (hs : Synced b ns)
    (xsv : List Sample) (hxs : xss[v]? = some xsv) (start : Nat) (h64 : start < 2 ^ 64) (hg : GopStart tv xsv start) :
    ∃ r, move f.reader start v = some r ∧ ∀ (i : Nat) t p all, f.reader.streams[i]? = some (t, p) → xss[i]? = some all → (i = v ∨ Plain t) →
      ∃ q, r.streams[i]? = some (t, q) ∧ ∀ (j : Nat) x, j < q → all[j]? = some x → pres t x < start := by
  obtain ⟨a, ha, hold⟩ := Reader.forall₂_get sd.holds v xsv hxs
  rw [hvt] at ha
  have hae := Option.some.inj ha
  subst hae
  simp only at hold
  obtain ⟨J, x, g1, g2, g3, g4, g5, g6⟩ := hg
  obtain ⟨_, _, _, _, hif⟩ := Reader.synced_map hb hs
  obtain ⟨K, y, m, k1, k2, k3, k4, k5, k6, k7, k8, _⟩ := Reader.move_sync hb hs hold start pv
  have hKJ : K ≤ J := by
    by_contra hcon
    rcases k5 with k5 | k5
    · have := g6 K y (by omega) k3 k4; omega
    · obtain ⟨_, hy3⟩ := Reader.holds_dec hold J x g1
      rw [hif.2 J, g2] at hy3
      have := k5 J (by simpa using hy3)
      omega
  have hKpres : pres tv y ≤ start := by
    rcases Nat.lt_or_ge K J with h | h
    · have := g4 K y h k3; omega
    · have : K = J := by omega
      subst this
      rw [g1] at k3
      have := Option.some.inj k3
      subst this
      omega
  obtain ⟨c, c1, c2, _⟩ := Reader.holds_comp hold K y k3
  obtain ⟨⟨d, d1, d2⟩, _⟩ := Reader.holds_dec hold K y k3
  have hmod : (y.composition + tv.offset) % 2 ^ 64 = pres tv y := by
    rw [show y.composition + tv.offset = pres tv y from rfl]
    exact Nat.mod_eq_of_lt (by omega)
  obtain ⟨ss', e1, e2, e3⟩ := Reader.moveStreams_spec y.decoding (pres tv y) f.reader.streams xss sd.holds ht
  have hmove : move f.reader start v = some { f.reader with streams := ss', last := 0 } := by
    simp only [move, hvt, k1, Track.decoding, Track.composition, c1, d1, Option.map_some, ← c2, ← d2, hmod, e1]
  refine ⟨_, hmove, ?_⟩
  intro i t p all hti hall hkind
  obtain ⟨q, q1, q2⟩ := e3 i t p hti
  refine ⟨q, q1, ?_⟩
  intro j z hj hz
  by_cases hiv : i = v
  · subst hiv
    rw [hvt] at hti
    have := Option.some.inj hti
    simp only [Prod.mk.injEq] at this
    obtain ⟨rfl, rfl⟩ := this
    rw [hxs] at hall
    have := Option.some.inj hall
    subst this
    rw [k7] at q2
    have := Option.some.inj q2
    exact g4 j z (by omega) hz
  · obtain ⟨b', es', hb', hc', hst'⟩ := hkind.resolve_left hiv
    obtain ⟨s, hsi, hhold⟩ := Reader.forall₂_get sd.holds i all hall
    rw [hti] at hsi
    have := Option.some.inj hsi
    subst this
    simp only at hhold
    obtain ⟨_, _, _, _, _, _, _, _, _, _, hst, _, _, _, _, _, hltc⟩ := Reader.openTrack_fields hb'.opened
    obtain ⟨hdec, hcount, hscale, hlen⟩ := Reader.timed_dec hb'
    have hst2 : t.hasStss = false := by rw [hst, hst']; rfl
    have hspos : 0 < t.scale := hscale ▸ hb'.scale
    obtain ⟨a1, a2, a3⟩ := Reader.plain_times hb' hc' hhold j z hz
    have hc0 : t.count ≠ 0 := by omega
    simp only [moveStream, hc0, if_false, hst2, hltc, Bool.false_eq_true, not_false_eq_true, and_self, if_true] at q2
    split at q2
    · rename_i hlt
      obtain ⟨m', m1, m2, m3, _⟩ := Reader.compSample_plain hb' hc' (pres tv y - t.offset)
      rw [m1] at q2
      have := Option.some.inj q2
      subst this
      have := Reader.hns_lt_of_lt_raw _ _ t.scale hspos a2 (m3 j hj)
      simp only [pres, a1] at *
      omega
    · have := Option.some.inj q2
      omega

/-! ### C116 -/

theorem before_kept (t : Track) (start stop : Nat) (h : 0 < stop) (xs : List Sample) : before stop t (kept start true t xs) = window t start stop xs := by
  simp only [before, kept, window, List.filter_filter, Bool.true_and]
  apply List.filter_congr
  intro x _
  have h0 : ¬ stop = 0 := by omega
  simp only [h0, false_or]
  by_cases h1 : pres t x < stop <;> by_cases h2 : pres t x < start <;> simp [h1, h2, Nat.not_le.mpr, Nat.not_lt.mp]

theorem open_places (f : File) : (open_ f.streams).places.length = (usable f.streams).length ∧
    (open_ f.streams).places.length = (open_ f.streams).videos.length + (open_ f.streams).audios.length := by
  constructor
  · simp only [open_, List.length_replicate]; rw [header_length]; rfl
  · simp only [open_, List.length_replicate]

/-- C116, one segment. For every file whose leading track has a sync table, every `start` at which a closed group of pictures begins, and every `stop`: when the segment is cut, each stream is given exactly its
samples presented from `start` on and before `stop`, once each and in order. -/
theorem segment_holds_window_partial (f : File) (xss : List (List Sample)) (sd : Sound f xss) (hd : Decodable xss) (ht : HasTimes f.reader) (h16 : (usable f.streams).length ≤ 16)
    (tv : Track) (pv : Nat) (hvt : f.reader.streams[defaultStream f.reader]? = some (tv, pv)) (b : TrackBoxes) (es : List (Nat × Nat)) (hb : Timed b tv es) (ns : List Nat) (hs : Synced b ns)
    (xsv : List Sample) (hxs : xss[defaultStream f.reader]? = some xsv) (start stop : Nat) (h64 : start < 2 ^ 64) (hstop : 0 < stop) (hg : GopStart tv xsv start)
    (out : List Added) (info : Info) (h : add none f start stop true = some (out, info))
    (i : Nat) (hi : i < (usable f.streams).length) (t : Track) (p : Nat) (hti : f.reader.streams[i]? = some (t, p)) (all : List Sample) (hall : xss[i]? = some all)
    (hkind : i = defaultStream f.reader ∨ Plain t) :
    (Spec.ofStream out i).map (fun a => (a.body, a.sync, a.dur)) = (window t start stop all).map (fun x => (bytesOf f x, x.sync, x.duration)) := by
  obtain ⟨o1, o2⟩ := open_places f
  obtain ⟨_, hp⟩ := samples_of_part (open_ f.streams) info f xss start stop true out h sd (Or.inr hd) o2 (by omega)
  obtain ⟨t', ys, ⟨r, q, all', hm, hr, ha, rfl⟩, heq⟩ := hp i (by omega)
  rw [hall] at ha
  have := Option.some.inj ha
  subst this
  obtain ⟨r', hm', hpos⟩ := nothing_skipped f xss sd ht _ tv pv hvt b es hb ns hs xsv hxs start h64 hg
  rw [hm] at hm'
  have := Option.some.inj hm'
  subst this
  obtain ⟨q', q1, q2⟩ := hpos i t p all hti hall hkind
  rw [hr] at q1
  have := Option.some.inj q1
  simp only [Prod.mk.injEq] at this
  obtain ⟨rfl, rfl⟩ := this
  rw [heq, before_kept _ _ _ hstop, Reader.window_drop _ _ _ _ _ q2]

/-- C116 (partial: not for open groups of pictures, sync samples closer than the composition delay or the edit list, and not for files refused). For every file whose leading track has a sync table, and every
increasing list of beginnings of closed groups of pictures: in the segments cut between them, one behind the other, each stream has exactly its samples presented from the first time on and before the last, once each and
in order. -/
theorem segments_partition_partial (f : File) (xss : List (List Sample)) (sd : Sound f xss) (hd : Decodable xss) (ht : HasTimes f.reader) (h16 : (usable f.streams).length ≤ 16)
    (tv : Track) (pv : Nat) (hvt : f.reader.streams[defaultStream f.reader]? = some (tv, pv)) (b : TrackBoxes) (es : List (Nat × Nat)) (hb : Timed b tv es) (ns : List Nat) (hs : Synced b ns)
    (xsv : List Sample) (hxs : xss[defaultStream f.reader]? = some xsv)
    (i : Nat) (hi : i < (usable f.streams).length) (t : Track) (p : Nat) (hti : f.reader.streams[i]? = some (t, p)) (all : List Sample) (hall : xss[i]? = some all)
    (hkind : i = defaultStream f.reader ∨ Plain t) :
    ∀ (times : List Nat) (a last : Nat) (outs : List (List Added)), (a :: times ++ [last]).Pairwise (· < ·) → last < 2 ^ 64 → (∀ c ∈ a :: times, GopStart tv xsv c) →
      segments f (a :: times ++ [last]) = some outs →
      (outs.flatMap (Spec.ofStream · i)).map (fun a => (a.body, a.sync, a.dur)) = (window t a last all).map (fun x => (bytesOf f x, x.sync, x.duration)) := by
  obtain ⟨s, hsi, hhold⟩ := Reader.forall₂_get sd.holds i all hall
  rw [hti] at hsi
  have := Option.some.inj hsi
  subst this
  simp only at hhold
  intro times
  induction times with
  | nil =>
    intro a last outs hsort hlast hgop h
    simp only [List.cons_append, List.nil_append, segments] at h
    split at h
    · rename_i out info more h1 h2
      have hm := Option.some.inj h2
      subst hm
      have := Option.some.inj h
      subst this
      simp only [List.cons_append, List.nil_append, List.pairwise_cons, List.mem_singleton, forall_eq] at hsort
      simp only [List.flatMap_cons, List.flatMap_nil, List.append_nil]
      exact segment_holds_window_partial f xss sd hd ht h16 tv pv hvt b es hb ns hs xsv hxs a last (by omega) (by omega) (hgop a (by simp)) out info h1 i hi t p hti all hall hkind
    · simp at h
  | cons c times ih =>
    intro a last outs hsort hlast hgop h
    simp only [List.cons_append, segments] at h
    obtain ⟨s1, s2⟩ := List.pairwise_cons.mp hsort
    have hac : a < c := s1 c (by simp)
    have hcl : c < last := (List.pairwise_cons.mp s2).1 last (by simp)
    split at h
    · rename_i out info more h1 h2
      have := Option.some.inj h
      subst this
      have hrest := ih c last more s2 hlast (fun d hd => hgop d (by simp [List.mem_cons.mp hd])) h2
      have hone := segment_holds_window_partial f xss sd hd ht h16 tv pv hvt b es hb ns hs xsv hxs a c (by omega) (by omega) (hgop a (by simp)) out info h1 i hi t p hti all hall hkind
      rw [List.flatMap_cons, List.map_append, hone, hrest, ← List.map_append]
      congr 1
      apply Reader.window_append t a c last (by omega) (by omega)
      rcases hkind with hv | ⟨b', es', hb', hc', _⟩
      · subst hv
        rw [hvt] at hti
        have := Option.some.inj hti
        simp only [Prod.mk.injEq] at this
        obtain ⟨rfl, _⟩ := this
        rw [hxs] at hall
        have := Option.some.inj hall
        subst this
        exact Reader.gop_separates (hgop c (by simp))
      · exact Reader.plain_separates hb' hc' hhold c
    · simp at h

/-- The file of two streams, cut at its two sync samples (0 and 0.24 s): the hypotheses are met. -/
theorem gopA : ∀ c ∈ [0, 2400000], GopStart (track video12) ((List.range 12).map (sampleOf 100 400000 400000 (fun n => n == 0 || n == 6))) c := by
  intro c hc
  have key : ∀ (J : Nat) (x : Sample) (c : Nat), (let xs := (List.range 12).map (sampleOf 100 400000 400000 (fun n => n == 0 || n == 6))
      xs[J]? = some x ∧ x.sync = true ∧ pres (track video12) x = c ∧
      (∀ i < 12, ∀ y ∈ xs[i]?, (i < J → pres (track video12) y < c) ∧ (J ≤ i → c ≤ pres (track video12) y) ∧ (J < i → y.sync = true → c < y.decoding))) →
      GopStart (track video12) ((List.range 12).map (sampleOf 100 400000 400000 (fun n => n == 0 || n == 6))) c := by
    intro J x c ⟨h1, h2, h3, h4⟩
    have hlt : ∀ (i : Nat) (y : Sample), ((List.range 12).map (sampleOf 100 400000 400000 (fun n => n == 0 || n == 6)))[i]? = some y → i < 12 := by
      intro i y hy
      have := (List.getElem?_eq_some_iff.mp hy).1
      simpa using this
    refine ⟨J, x, h1, h2, h3, ?_, ?_, ?_⟩
    · intro i y hi hy; exact (h4 i (hlt i y hy) y hy).1 hi
    · intro i y hi hy; exact (h4 i (hlt i y hy) y hy).2.1 hi
    · intro i y hi hy; exact (h4 i (hlt i y hy) y hy).2.2 hi
  rcases List.mem_cons.mp hc with rfl | hc
  · exact key 0 (sampleOf 100 400000 400000 (fun n => n == 0 || n == 6) 0) 0 (by decide +kernel)
  · have := List.mem_singleton.mp hc
    subst this
    exact key 6 (sampleOf 100 400000 400000 (fun n => n == 0 || n == 6) 6) 2400000 (by decide +kernel)

example : Plain (track (audioN 30)) ∧ defaultStream fileA.reader = 0 ∧
    ((segments fileA [0, 2400000, 4800000]).map fun outs => outs.map fun o => (Spec.ofStream o 0).map fun a => a.body.headD 0) =
      some [[100, 110, 120, 130, 140, 150], [160, 170, 180, 190, 200, 210]] ∧
    ((segments fileA [0, 2400000, 4800000]).map fun outs => outs.map fun o => (Spec.ofStream o 1).map fun a => a.body.headD 0) =
      some [[220, 230, 240, 250, 260, 270], [280, 290, 300, 310, 320, 330]] := by
  refine ⟨⟨audioN 30, [(30, 40)], ⟨rfl, rfl, by decide, by decide, by decide +kernel, by decide, by decide +kernel⟩, rfl, rfl⟩, by decide +kernel, by decide +kernel, by decide +kernel⟩

/-! ### C117 -/

/-- What goes into the transport stream for one segment: the samples with the times the HLS muxer gives them, `base` = the time of the segment (tsinfo.cpp 1046, tsmux.h 669-745). -/
def timed (base : Nat) (out : List Added) : List (Added × Nat × Nat) := out.zip (TsMux.hlsRun (TsMux.Hls.start base) (out.map fun a => (a.comp, a.dec)))

/-- The presentation times of one stream. -/
def shownAt (base : Nat) (out : List Added) (i : Nat) : List Nat := ((timed base out).filter fun q => decide (q.1.stream = i)).map (·.2.1)

theorem filter_zip_map {β : Type} (g : Added → β) (i : Nat) : ∀ (out : List Added), ((out.zip (out.map g)).filter fun q => decide (q.1.stream = i)).map (·.2) = (Spec.ofStream out i).map g := by
  intro out
  induction out with
  | nil => rfl
  | cons a out ih =>
    simp only [List.map_cons, List.zip_cons_cons, List.filter_cons, Spec.ofStream] at ih ⊢
    by_cases h : a.stream = i
    · simp only [h, decide_true, if_true, List.map_cons, ih]
    · simp only [h, decide_false, Bool.false_eq_true, if_false, ih]

/-- C117, one segment (partial: asked is that the first sample stored belongs to a stream that begins exactly at the start of the segment, and what `Good` asks). Every sample of the segment is shown at
the time of the segment plus its distance from the start, in every stream. -/
theorem segment_times_partial (f : File) (xss : List (List Sample)) (start stop base : Nat) (h16 : (usable f.streams).length ≤ 16)
    (hg : Good (usable f.streams).length true ⟨f, xss, start, stop⟩) (out : List Added) (info : Info) (h : add none f start stop true = some (out, info))
    (v : Nat) (tv : Track) (x : Sample) (xs : List Sample) (hv : Part f xss start true v tv (x :: xs)) (hx : pres tv x = start) (a0 : Added) (h0 : out.head? = some a0) (hav : a0.stream = v)
    (hbase : ∀ i t ys, i < (usable f.streams).length → Part f xss start true i t ys → ∀ y ∈ ys, base + (pres t y - start) < 2 ^ 63 - 1) (hdec : ∀ a ∈ out, a.comp < 2 ^ 62 ∧ a.dec < 2 ^ 64)
    (i : Nat) (hi : i < (usable f.streams).length) (t : Track) (ys : List Sample) (hp : Part f xss start true i t ys) :
    shownAt base out i = (before stop t ys).map fun y => base + (pres t y - start) := by
  have hall := files_follow_partial true [⟨f, xss, start, stop⟩] [out] (usable f.streams).length (by intro inp he; have := Option.some.inj he; subst this; rfl) h16
    (by intro inp hi; rw [List.mem_singleton.mp hi]; exact hg) (by
      have h' : add none f start stop true = some (out, info) := h
      simp only [List.map_cons, List.map_nil, addAll, h', Option.map_some])
  cases hall with
  | cons hf _ _ _ =>
    obtain ⟨k, k', f1, f2, f3, f4⟩ := hf
    rw [List.length_replicate] at f1 f4
    -- everything presented counts from the start on
    have hge : ∀ i t ys, Part f xss start true i t ys → ∀ y ∈ ys, start ≤ pres t y := by
      intro i t ys ⟨_, _, _, _, _, _, he⟩ y hy
      rw [he, kept] at hy
      have := (List.mem_filter.mp hy).2
      simp only [Bool.true_and, Bool.not_eq_true', decide_eq_false_iff_not, Nat.not_lt] at this
      exact this
    cases out with
    | nil => simp at h0
    | cons a out =>
      have := Option.some.inj h0
      subst this
      have hvn : v < (usable f.streams).length := by rw [← hav]; exact f4 a (by simp)
      -- the first sample
      have hxstop : stop = 0 ∨ pres tv x < stop := by
        obtain ⟨h1, y, hy, _⟩ := hg.parts v tv (x :: xs) hvn hv
        have hy2 := List.mem_filter.mp hy
        have := h1 x rfl y hy2.1
        simp only [decide_eq_true_eq] at hy2
        omega
      have hmv := f1 v tv (x :: xs) hvn hv
      have hbx : before stop tv (x :: xs) = x :: before stop tv xs := by
        rw [before, List.filter_cons, if_pos (by simpa using hxstop)]; rfl
      have hoa : Spec.ofStream (a :: out) v = a :: Spec.ofStream out v := by
        rw [Spec.ofStream, List.filter_cons, if_pos (by simpa using hav)]; rfl
      rw [hbx, hoa] at hmv
      obtain ⟨hmx, _⟩ := List.forall₂_cons.mp hmv
      have hac : (a.comp : Int) = start + k := by rw [← hx]; exact hmx.2.2.2.2.1
      -- all the times
      have hb0 : base < 2 ^ 63 - 1 := by
        have := hbase v tv (x :: xs) hvn hv x (by simp)
        omega
      have hne : (base + (2 ^ 64 - a.comp)) % 2 ^ 64 ≠ 2 ^ 63 - 1 := by
        have := (hdec a (by simp)).1
        omega
      have hrun := TsMux.hls_rebase base a.comp a.dec (out.map fun a => (a.comp, a.dec)) (by omega) ⟨by have := (hdec a (by simp)).1; omega, (hdec a (by simp)).2⟩ (by
        intro q hq
        obtain ⟨c, hc, rfl⟩ := List.mem_map.mp hq
        have := hdec c (by simp [hc])
        exact ⟨by simp only; omega, this.2⟩) hne
      have hlist : TsMux.hlsRun (TsMux.Hls.start base) ((a :: out).map fun a => (a.comp, a.dec)) =
          (a :: out).map fun c => ((base + (2 ^ 64 - a.comp) + c.comp) % 2 ^ 64, (base + (2 ^ 64 - a.comp) + c.dec) % 2 ^ 64) := by
        rw [List.map_cons, hrun, List.map_cons, List.map_map]
        congr 1
        have := (hdec a (by simp)).1
        congr 1
        omega
      have hsh : shownAt base (a :: out) i = (Spec.ofStream (a :: out) i).map fun c => (base + (2 ^ 64 - a.comp) + c.comp) % 2 ^ 64 := by
        rw [shownAt, timed, hlist]
        have := filter_zip_map (fun c => ((base + (2 ^ 64 - a.comp) + c.comp) % 2 ^ 64, (base + (2 ^ 64 - a.comp) + c.dec) % 2 ^ 64)) i (a :: out)
        have h2 := congrArg (List.map Prod.fst) this
        simp only [List.map_map] at h2
        exact h2
      rw [hsh]
      have hmi := f1 i t ys hi hp
      have hsub : ∀ y ∈ before stop t ys, y ∈ ys := fun y hy => (List.mem_filter.mp hy).1
      have hfin : ∀ (l : List Sample) (m : List Added), List.Forall₂ (Moved f i t k k') l m → (∀ y ∈ l, y ∈ ys) → (∀ c ∈ m, c ∈ a :: out) →
          (m.map fun c => (base + (2 ^ 64 - a.comp) + c.comp) % 2 ^ 64) = l.map fun y => base + (pres t y - start) := by
        intro l m hfa
        induction hfa with
        | nil => intro _ _; rfl
        | @cons y c l m hyc _ ih =>
          intro hl hm
          rw [List.map_cons, List.map_cons, ih (fun z hz => hl z (by simp [hz])) (fun z hz => hm z (by simp [hz]))]
          congr 1
          have e1 := hyc.2.2.2.2.1
          have e2 := hge i t ys hp y (hl y (by simp))
          have e3 := hbase i t ys hi hp y (hl y (by simp))
          have e4 := (hdec a (by simp)).1
          have e5 : c.comp = a.comp + (pres t y - start) := by omega
          rw [e5, show base + (2 ^ 64 - a.comp) + (a.comp + (pres t y - start)) = base + (pres t y - start) + 2 ^ 64 by omega, Nat.add_mod_right]
          exact Nat.mod_eq_of_lt (by omega)
      exact hfin _ _ hmi hsub (fun c hc => (List.mem_filter.mp hc).1)

/-- C117 (partial, as above). When the times of the segments are the times of the file moved by one amount `δ` (one input file), every sample of every segment is shown at its time in the file moved by `δ`: the segments
follow each other without a jump. -/
theorem segments_one_timeline_partial (f : File) (xss : List (List Sample)) (h16 : (usable f.streams).length ≤ 16) (δ : Nat) (segs : List (Nat × Nat × List Added))
    (hseg : ∀ q ∈ segs, Good (usable f.streams).length true ⟨f, xss, q.1, q.2.1⟩ ∧ (∃ info, add none f q.1 q.2.1 true = some (q.2.2, info)) ∧
      (∃ v tv x xs a0, Part f xss q.1 true v tv (x :: xs) ∧ pres tv x = q.1 ∧ q.2.2.head? = some a0 ∧ a0.stream = v) ∧
      (∀ a ∈ q.2.2, a.comp < 2 ^ 62 ∧ a.dec < 2 ^ 64) ∧
      ∀ i t ys, i < (usable f.streams).length → Part f xss q.1 true i t ys → ∀ y ∈ ys, pres t y + δ < 2 ^ 63 - 1)
    (i : Nat) (hi : i < (usable f.streams).length) :
    ∀ q ∈ segs, ∀ t ys, Part f xss q.1 true i t ys → shownAt (q.1 + δ) q.2.2 i = (before q.2.1 t ys).map fun y => pres t y + δ := by
  intro q hq t ys hp
  obtain ⟨hg, ⟨info, ha⟩, ⟨v, tv, x, xs, a0, p1, p2, p3, p4⟩, hd, hb⟩ := hseg q hq
  have hge : ∀ i t ys, Part f xss q.1 true i t ys → ∀ y ∈ ys, q.1 ≤ pres t y := by
    intro i t ys ⟨_, _, _, _, _, _, he⟩ y hy
    rw [he, kept] at hy
    have := (List.mem_filter.mp hy).2
    simp only [Bool.true_and, Bool.not_eq_true', decide_eq_false_iff_not, Nat.not_lt] at this
    exact this
  have := segment_times_partial f xss q.1 q.2.1 (q.1 + δ) h16 hg q.2.2 info ha v tv x xs p1 p2 a0 p3 p4
    (by
      intro i t ys hi hp y hy
      have := hb i t ys hi hp y hy
      have := hge i t ys hp y hy
      omega) hd i hi t ys hp
  rw [this]
  apply List.map_congr_left
  intro y hy
  have := hge i t ys hp y (List.mem_filter.mp hy).1
  omega

/-- The file of two streams, second segment, at 1.024 s: what is shown when. -/
example : ((add none fileA 2400000 4800000 true).map fun o => (shownAt 10240000 o.1 0, shownAt 10240000 o.1 1, (o.1.head?).map (·.stream))) =
    some ((List.range 6).map (fun n => 10240000 + 400000 * n), (List.range 6).map (fun n => 10240000 + 400000 * n), some 0) := by decide +kernel

theorem goodH : Good 2 true ⟨fileA, samplesA, 2400000, 4800000⟩ where
  sound := soundA
  decodable := decodableA
  parts := by
    intro i t xs hi hp
    simp only at hp ⊢
    have hmove : (move fileA.reader 2400000 (defaultStream fileA.reader)).map (fun r => r.streams.map (·.2)) = some [6, 6] := by decide +kernel
    obtain ⟨p, all, h1, h2, h3, h4⟩ := part_of _ _ _ _ _ hmove i t xs hp
    match i, hi with
    | 0, _ =>
      have ht : t = track video12 := (Option.some.inj h2).symm
      have hp' := (Option.some.inj h1).symm
      have ha := (Option.some.inj h3).symm
      rw [h4, hp', ha, ht]
      refine ⟨?_, by decide +kernel⟩
      unfold FirstEarliest
      intro x hx
      revert hx
      revert x
      decide +kernel
    | 1, _ =>
      have ht : t = track (audioN 30) := (Option.some.inj h2).symm
      have hp' := (Option.some.inj h1).symm
      have ha := (Option.some.inj h3).symm
      rw [h4, hp', ha, ht]
      refine ⟨?_, by decide +kernel⟩
      unfold FirstEarliest
      intro x hx
      revert hx
      revert x
      decide +kernel

/-! ### witnesses -/

/-- Audio frames of 50 ms, stored before the video. -/
def audio50 : TrackBoxes := { sm := smAt 30 220, stts := [1, 30, 50], scale := 1000 }
def videoBehind : TrackBoxes := { sm := smAt 32 600, stts := [1, 32, 40], stss := some [2, 1, 7], scale := 1000, visual := true }
def fileJ : File := fileOf [videoStream, audioStream] [videoBehind, audio50]

/-- C117 fails when the first sample stored is one of the audio: it is presented at 0.25 s and put at the time of the segment, 0.24 s; the picture of 0.24 s is shown at 0.23 s. -/
theorem segment_jump_witness : ((add none fileJ 2400000 4800000 true).map fun o => ((shownAt 2400000 o.1 0).head?, (shownAt 2400000 o.1 1).head?)) = some (some 2300000, some 2400000) := by decide +kernel

/-- An open group of pictures: the picture stored behind the second sync sample is presented before it. -/
def videoOpen : TrackBoxes :=
  { sm := smAt 12 100, stts := [1, 12, 40], ctts := some [4, 6, 40, 1, 80, 1, 0, 4, 40], stss := some [2, 1, 7], scale := 1000, visual := true }

/-- C116 fails for open groups of pictures: the segment that begins with the sync sample (presented at 0.32 s) cannot be made. -/
theorem open_group_refused_witness : (track videoOpen).composition 6 = some 3200000 ∧ (track videoOpen).composition 7 = some 2800000 ∧
    (add none (fileOf [videoStream, audioStream] [videoOpen, audioN 30]) 0 3200000 true).isSome = true ∧
    add none (fileOf [videoStream, audioStream] [videoOpen, audioN 30]) 3200000 4800000 true = none := by decide +kernel

/-- Video delayed by an edit list of 0.24 s. -/
def fileE : File := fileOf [videoStream, audioStream] [{ video12 with elst := 240, mvhdScale := 1000 }, audioN 40]

/-- C116 fails for video with an edit list: the first sync sample is presented at 0.24 s, but the segment that begins there begins with the second one; six pictures are lost. -/
theorem edit_list_lost_witness : ((fileE.reader.streams[0]?).map fun s => s.1.offset) = some 2400000 ∧
    ((add none fileE 2400000 9600000 true).map fun o => (Spec.ofStream o.1 0).map fun a => a.body.headD 0) = some [160, 170, 180, 190, 200, 210] := by decide +kernel

/-- C116 fails at the end of a file: fewer than 20 samples are left behind the last cut, and the segment is refused. -/
theorem last_segment_refused_witness : add none (fileOf [videoStream, audioStream] [video12, audioN 20]) 2400000 4800000 true = none := by decide +kernel

end Verif.Edit
