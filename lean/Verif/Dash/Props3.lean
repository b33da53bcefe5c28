import Verif.Dash.Props2
import Verif.Reader.PropsMove
/-
C126: all the segments of a stream, and segments made of two files.
-/
namespace Verif.Dash
open Verif.Reader (Track TrackBoxes Sample Reader toAdded baseTime hns window_append)
open Verif.Reader.Spec (window pres Separates Timed Holds)
open Verif.Fragment (Frag scaled)
open Spec

theorem window_self (t : Track) (a : Nat) (xs : List Sample) : window t a a xs = [] := by
  rw [window, List.filter_eq_nil_iff]
  intro x _
  simp only [decide_eq_true_eq]
  omega

theorem segments_window (ts : Nat → Nat) (E : List UInt8 → List UInt8) (hE : ∀ b, (E b).length = 16) (file : List UInt8) (r : Reader) (id : Nat) (b : TrackBoxes) (t : Track)
    (es : List (Nat × Nat)) (xs : List Sample) (hsrc : Source file r id b t es xs) : ∀ (times : List Nat) (a : Nat) (qs : List Request), qs.length = times.length →
    (a :: times).Pairwise (· ≤ ·) →
    (∀ (i : Nat) (q : Request) (x y : Nat), qs[i]? = some q → (a :: times)[i]? = some x → times[i]? = some y → Good ts q b t xs x y) →
    ∃ segs : List Fragment.Spec.Segment, (segments ts E file r id qs (a :: times)).map (fun s => s.bind Fragment.Spec.segment) = segs.map some ∧ segs.length = times.length ∧
      segs.flatMap (content E) = (window t a ((a :: times).getLast (by simp)) xs).map (bytesOf file) := by
  intro times
  induction times with
  | nil =>
    intro a qs hl _ _
    refine ⟨[], ?_, rfl, ?_⟩
    · cases qs <;> rfl
    · simp only [List.getLast_singleton, window_self, List.map_nil, List.flatMap_nil]
  | cons y times ih =>
    intro a qs hl hs hg
    cases qs with
    | nil => simp at hl
    | cons q qs =>
      obtain ⟨h1, h2⟩ := List.pairwise_cons.mp hs
      have g0 := hg 0 q a y rfl rfl rfl
      obtain ⟨seg, s, a1, a2, _, _, a5, _⟩ := segment_all ts E hE q file r id b t es xs hsrc a y g0
      obtain ⟨segs, b1, b2, b3⟩ := ih y qs (by simpa using hl) h2 (fun i q' x z hq hx hz => hg (i + 1) q' x z hq hx hz)
      refine ⟨s :: segs, ?_, by simp [b2], ?_⟩
      · rw [segments, List.map_cons, List.map_cons, b1, a1, Option.bind_some, a2]
      · rw [List.flatMap_cons, a5, b3, ← List.map_append, List.getLast_cons (a := a) (show y :: times ≠ [] by simp)]
        congr 1
        obtain ⟨p, hid⟩ := hsrc.track
        obtain ⟨xss, hh, hin, hxs⟩ := hsrc.samples
        apply window_append t a y _ (h1 y (by simp))
        · rcases List.mem_cons.1 (List.getLast_mem (l := y :: times) (by simp)) with h | h
          · exact Nat.le_of_eq h.symm
          · exact (List.pairwise_cons.1 h2).1 _ h
        · exact (cut_separates r xss hh id b t p es hsrc.timed hid xs hxs a y g0.cut).2

/-- C126: for every source and every increasing list of times at which it can be cut: the segments between neighbouring times, read by a player one after the other, give exactly the samples presented from
the first time on and before the last - none missing, none twice, in decoding order, with the bytes they have in the file. If all the samples are presented between the first and the last time this is
the whole track. -/
theorem stream_segments_complete_partial (ts : Nat → Nat) (E : List UInt8 → List UInt8) (hE : ∀ b, (E b).length = 16) (file : List UInt8) (r : Reader) (id : Nat) (b : TrackBoxes) (t : Track)
    (es : List (Nat × Nat)) (xs : List Sample) (hsrc : Source file r id b t es xs) (times : List Nat) (a : Nat) (qs : List Request) (hl : qs.length = times.length)
    (hsorted : (a :: times).Pairwise (· ≤ ·))
    (hgood : ∀ (i : Nat) (q : Request) (x y : Nat), qs[i]? = some q → (a :: times)[i]? = some x → times[i]? = some y → Good ts q b t xs x y) :
    ∃ segs : List Fragment.Spec.Segment, (segments ts E file r id qs (a :: times)).map (fun s => s.bind Fragment.Spec.segment) = segs.map some ∧ segs.length = times.length ∧
      segs.flatMap (content E) = (window t a ((a :: times).getLast (by simp)) xs).map (bytesOf file) ∧
      ((∀ x ∈ xs, a ≤ pres t x ∧ pres t x < (a :: times).getLast (by simp)) → segs.flatMap (content E) = xs.map (bytesOf file)) := by
  obtain ⟨segs, h1, h2, h3⟩ := segments_window ts E hE file r id b t es xs hsrc times a qs hl hsorted hgood
  refine ⟨segs, h1, h2, h3, ?_⟩
  intro hall
  rw [h3, window, List.filter_eq_self.mpr]
  intro x hx
  exact decide_eq_true (hall x hx)

/-- The fragment of the first file is taken on by the second. -/
theorem addList_more (ts : Nat → Nat) (E : List UInt8 → List UInt8) (file : List UInt8) (start : Nat) (base : Option Nat) (out : List Sample) (q : Request) (bt : Nat) (l : List Verif.Fragment.Sample)
    (hb : scaled ts q.timescale bt % 2 ^ 64 ≠ 2 ^ 64 - 1) :
    addList ts E file start base (Frag.make ts E q.timescale (some bt) q.enc q.trackId q.sequence q.flags l) out =
      Frag.make ts E q.timescale (some bt) q.enc q.trackId q.sequence q.flags (l ++ out.map (given file)) := by
  have hk := new_keeps q
  have h3 := addAll_keeps ts E l q.new
  have hts : ∀ v, Frag.scale ts (q.new.addAll ts E l) v = scaled ts q.timescale v := by
    intro v
    rw [Frag.scale, h3.2, hk.2, scaled]
    by_cases h : q.timescale = 10000000 <;> simp [h]
  have hset : ∀ g : Frag, g.timescale = q.timescale → g.setBase ts bt = { g with base := scaled ts q.timescale bt % 2 ^ 64 } := by
    intro g hg
    rw [Frag.setBase, Frag.scale, hg, scaled]
    by_cases h : q.timescale = 10000000 <;> simp [h]
  rw [make_new, make_new]
  simp only
  rw [addList_set]
  · rw [hset _ (by rw [h3.2, hk.2]), addAll_base, hset _ (by rw [(addAll_keeps ts E _ q.new).2, hk.2]), addAll_append]
  · rw [hset _ (by rw [h3.2, hk.2])]
    exact hb

/-- C126: a segment over the join of two files holds the samples of both parts: those presented from `start` on and before `stop` in the first file, and then those presented from `start₂` on and before
`stop₂` in the second; its decoding times begin at the time asked for, less the composition offset of the first sample. -/
theorem cross_segment_partial (ts : Nat → Nat) (E : List UInt8 → List UInt8) (hE : ∀ b, (E b).length = 16) (q : Request) (file : List UInt8) (r : Reader) (b : TrackBoxes) (t : Track)
    (es : List (Nat × Nat)) (xs : List Sample) (id : Nat) (hsrc : Source file r id b t es xs) (start stop : Nat) (hgood : Good ts q b t xs start stop)
    (file₂ : List UInt8) (r₂ : Reader) (b₂ : TrackBoxes) (t₂ : Track) (es₂ : List (Nat × Nat)) (xs₂ : List Sample) (hsrc₂ : Source file₂ r₂ id b₂ t₂ es₂ xs₂) (start₂ stop₂ : Nat)
    (hgood₂ : Good ts q b₂ t₂ xs₂ start₂ stop₂) (hne : window t start stop xs ≠ [])
    (hsize : ((window t start stop xs).map fun x => x.size + 28).sum + ((window t₂ start₂ stop₂ xs₂).map fun x => x.size + 28).sum + 233 < 2 ^ 31) :
    ∃ seg s, produceCross ts E q file r file₂ r₂ id start stop start₂ stop₂ = some seg ∧ Fragment.Spec.segment seg = some s ∧ s.sequence = q.sequence ∧ s.trackId = q.trackId ∧
      content E s = (window t start stop xs).map (bytesOf file) ++ (window t₂ start₂ stop₂ xs₂).map (bytesOf file₂) ∧
      s.base = (window t start stop xs).head?.map (fun x => scaled ts q.timescale (q.base.getD start - (x.composition - (toAdded t x).decoding))) := by
  obtain ⟨h1, h2, h3, hts, henc, hstart, hcut, hfirst, _⟩ := hgood
  obtain ⟨p, hid⟩ := hsrc.track
  obtain ⟨xss, hh, hin, hxs⟩ := hsrc.samples
  obtain ⟨dec, hadd⟩ := cut_added r xss hh hsrc.times hin hsrc.small id b t p es hsrc.timed hid xs hxs hsrc.fit start stop hstart hcut q.base
  have hsim := addFrames_sim ts E file r id start stop q.base _ dec q.new (readable_of file r xss hh hin hsrc.whole) hadd
  obtain ⟨p₂, hid₂⟩ := hsrc₂.track
  obtain ⟨xss₂, hh₂, hin₂, hxs₂⟩ := hsrc₂.samples
  obtain ⟨dec₂, hadd₂⟩ := cut_added r₂ xss₂ hh₂ hsrc₂.times hin₂ hsrc₂.small id b₂ t₂ p₂ es₂ hsrc₂.timed hid₂ xs₂ hxs₂ hsrc₂.fit start₂ stop₂ hgood₂.begins hgood₂.cut q.base
  obtain ⟨w, hw⟩ : ∃ w, w = window t start stop xs := ⟨_, rfl⟩
  obtain ⟨w₂, hw₂⟩ : ∃ w, w = window t₂ start₂ stop₂ xs₂ := ⟨_, rfl⟩
  have hsub : ∀ x ∈ w, x ∈ xs := fun x hx => window_sub t start stop xs x (hw ▸ hx)
  have hsub₂ : ∀ x ∈ w₂, x ∈ xs₂ := fun x hx => window_sub t₂ start₂ stop₂ xs₂ x (hw₂ ▸ hx)
  rw [← hw, ← hw₂] at hsize
  rw [← hw] at hfirst hsim hne ⊢
  rw [← hw₂] at hadd₂ ⊢
  obtain ⟨hb1, hb2, hb3⟩ := head_added q t start w hfirst ts hts
  rw [addList_new ts E file q start _ hb2] at hsim
  obtain ⟨x, w', rfl⟩ := List.exists_cons_of_ne_nil hne
  obtain ⟨bt, hbt⟩ : ∃ bt, q.decodeTime start ((x :: w').map (toAdded t)) = some bt := ⟨_, rfl⟩
  have hlt := hb1 bt hbt
  rw [hbt] at hsim hb3
  have hsim₂ := addFrames_sim ts E file₂ r₂ id start₂ stop₂ q.base _ dec₂
    (Frag.make ts E q.timescale (some bt) q.enc q.trackId q.sequence q.flags (((x :: w').map (toAdded t)).map (given file))) (readable_of file₂ r₂ xss₂ hh₂ hin₂ hsrc₂.whole) hadd₂
  rw [addList_more ts E file₂ start₂ q.base _ q bt _ (by rw [Nat.mod_eq_of_lt (by omega)]; omega)] at hsim₂
  have hflags : q.flags < 2 ^ 32 := by rw [Request.flags]; split <;> decide
  obtain ⟨seg, s, g1, g2, g3, g4, g5, g6, g7, g8, g9, g10⟩ := Fragment.fragment_read_back ts E hE q.timescale (some bt) q.enc henc q.trackId q.sequence q.flags
    (((x :: w').map (toAdded t)).map (given file) ++ (w₂.map (toAdded t₂)).map (given file₂)) h1 h2 h3 hflags (by intro v hv; cases hv; exact hlt)
    (by rw [List.map_append, List.sum_append, sizes_eq hsrc _ hsub, sizes_eq hsrc₂ w₂ hsub₂]; exact hsize) q.gs q.gt [] []
  have hbodies : ∀ (f : List UInt8) (u : Track) (v : List Sample), ((v.map (toAdded u)).map (given f)).map (·.body) = v.map (bytesOf f) := by
    intro f u v
    rw [List.map_map, List.map_map]
    apply List.map_congr_left
    intro y _
    simp only [Function.comp, given_added]
  rw [List.map_append, hbodies, hbodies] at g9 g10
  refine ⟨seg, s, ?_, g2, g3, g4, ?_, ?_⟩
  · rw [produceCross, hsim, Option.bind_some, hsim₂, Option.map_some]
    have : (⟨[], 0, []⟩ : Fragment.W) = ⟨[], ([] : List UInt8).length, []⟩ := rfl
    rw [this, g1]
    rfl
  · cases he : q.enc with
    | none => obtain ⟨a, b, _⟩ := g9 he; rw [content, b, a]
    | some v =>
      obtain ⟨es, a1, a2, a3, a4⟩ := g10 (by rw [he]; simp)
      rw [content, a1]
      exact a4
  · rw [g5, hb3, Option.map_map]; rfl

end Verif.Dash
