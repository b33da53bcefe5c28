import Verif.Render.Props

/-! C26, C70: the whole manifest and the addresses a client derives from it. -/
namespace Verif.Render
open Xml
open Verif.Strings (dec decInt appendHex)
open Verif.Strings.Spec (decimal)

set_option maxRecDepth 20000 in
theorem start_reads (m : Mpd) (hx : m.xml = []) (d : Nat) (hd : d < 2 ^ 64) :
    ∃ as, Reads (m.start d).xml [.start (t! "MPD") as, .start (t! "Period") []] ∧
      ∀ cs, attr (.mk (t! "MPD") as cs) (t! "mediaPresentationDuration") =
        some (t! "PT" ++ dec (d / 10000000) ++ t! "." ++ dec (d % 1000000) ++ t! "S") := by
  have h1 : Plain (dec (d / 10000000)) := plain_dec (Nat.lt_of_le_of_lt (Nat.div_le_self _ _) hd)
  have h2 : Plain (dec (d % 1000000)) := plain_dec (Nat.lt_of_le_of_lt (Nat.mod_le _ _) hd)
  simp only [Mpd.start, hx, durationText]
  by_cases hp : m.vProtection.length ≠ 0 ∨ m.aProtection.length ≠ 0
  · rw [if_pos hp]
    refine ⟨[(t! "xmlns", t! "urn:mpeg:dash:schema:mpd:2011"), (t! "xmlns:xsi", t! "http://www.w3.org/2001/XMLSchema-instance"),
      (t! "profiles", t! "urn:mpeg:dash:profile:isoff-live:2011"), (t! "type", t! "static"), (t! "xmlns:cenc", t! "urn:mpeg:cenc:2013"),
      (t! "xmlns:mspr", t! "urn:microsoft:playready"),
      (t! "mediaPresentationDuration", t! "PT" ++ dec (d / 10000000) ++ t! "." ++ dec (d % 1000000) ++ t! "S"),
      (t! "minBufferTime", t! "PT3S")], ?_, by intro cs; simp [attr, Elem.attrs]⟩
    intro out
    simp only [lex_append, List.nil_append]
    simp [lex, step, isSpace, notName, lex_value, h1, h2]
  · rw [if_neg hp]
    refine ⟨[(t! "xmlns", t! "urn:mpeg:dash:schema:mpd:2011"), (t! "xmlns:xsi", t! "http://www.w3.org/2001/XMLSchema-instance"),
      (t! "profiles", t! "urn:mpeg:dash:profile:isoff-live:2011"), (t! "type", t! "static"),
      (t! "mediaPresentationDuration", t! "PT" ++ dec (d / 10000000) ++ t! "." ++ dec (d % 1000000) ++ t! "S"),
      (t! "minBufferTime", t! "PT3S")], ?_, by intro cs; simp [attr, Elem.attrs]⟩
    intro out
    simp only [lex_append, List.nil_append]
    simp [lex, step, isSpace, notName, lex_value, h1, h2]

theorem fits_of {n : Int} (h0 : 0 ≤ n) (h : n < 2 ^ 64) : Fits n := by
  simp only [Fits]; omega

theorem streams_read (m0 : Mpd) (hm0 : m0.streamId = 0) (hv : ∀ p ∈ m0.vProtection, Protection p) (ha : ∀ p ∈ m0.aProtection, Protection p) :
    ∀ (streams : List Stream) (m : Mpd) (n : Nat), Between m m0 n → 0 ≤ m.groupId →
    (∀ s ∈ streams, s.Ok) → m.groupId + n + streams.length + (streams.map (·.bitrates.length)).sum < 2 ^ 64 →
    ∃ x ts es, (streams.foldl Mpd.stream m).xml = m.xml ++ x ∧ Reads x ts ∧ Builds ts es ∧ (∀ e ∈ es, e.name = t! "AdaptationSet") ∧
      es.map Spec.readSet = ((streams.zipIdx (n + 1)).map fun p => setOf m0.useName p.2 p.1).map some := by
  intro streams
  induction streams with
  | nil => intro m n _ _ _ _; exact ⟨[], [], [], by simp, Reads.nil, Builds.nil, by simp, rfl⟩
  | cons s streams ih =>
    intro m n hm hg0 hok hb
    simp only [List.length_cons, List.map_cons, List.sum_cons] at hb
    obtain ⟨b1, b2, b3, b4, b5, b6, b7⟩ := hm
    obtain ⟨hb', hg', x, ts, e, hx, hr, hbd, hn, hrs⟩ := stream_reads ⟨b1, b2, b3, b4, b5, b6, b7⟩ s (hok s List.mem_cons_self)
      (fits_of (by omega) (by omega)) (fits_of (by omega) (by omega)) (by rw [b3]; exact hv) (by rw [b4]; exact ha)
    obtain ⟨y, tt, es, hy, hr', hbd', hn', hrs'⟩ := ih (m.stream s) (n + 1) hb' (by rw [hg']; omega)
      (fun a h => hok a (List.mem_cons_of_mem _ h)) (by rw [hg']; push_cast; omega)
    refine ⟨x ++ y, ts ++ tt, [e] ++ es, ?_, hr.append hr', hbd.append hbd', ?_, ?_⟩
    · rw [List.foldl_cons, hy, hx, List.append_assoc]
    · intro a ha
      rcases List.mem_append.mp ha with h | h
      · rw [List.mem_singleton.mp h]; exact hn
      · exact hn' a h
    · simp only [List.singleton_append, List.map_cons, List.zipIdx_cons, hrs, hrs', b2, hm0]
      simp

theorem all_some {α : Type} (l : List α) : Spec.all (l.map some) = some l := by
  induction l with
  | nil => rfl
  | cons a l ih => simp [Spec.all, ih]

/-- The elements of a manifest. -/
theorem mpd_parse (useName : Bool) (vp ap : List Str) (duration : Nat) (streams : List Stream)
    (hd : duration < 2 ^ 64) (hv : ∀ p ∈ vp, Protection p) (ha : ∀ p ∈ ap, Protection p) (hs : ∀ s ∈ streams, s.Ok)
    (hc : 1 + streams.length + (streams.map (·.bitrates.length)).sum < 2 ^ 64) :
    ∃ as es, parse (mpdDocument { useName := useName, vProtection := vp, aProtection := ap } duration streams) =
        some [.mk (t! "MPD") as [.mk (t! "Period") [] es]] ∧
      (∀ cs, attr (.mk (t! "MPD") as cs) (t! "mediaPresentationDuration") =
        some (t! "PT" ++ dec (duration / 10000000) ++ t! "." ++ dec (duration % 1000000) ++ t! "S")) ∧
      (∀ e ∈ es, e.name = t! "AdaptationSet") ∧
      es.map Spec.readSet = ((streams.zipIdx 1).map fun p => setOf useName p.2 p.1).map some := by
  obtain ⟨m0, hm0⟩ : ∃ m0 : Mpd, m0 = { useName := useName, vProtection := vp, aProtection := ap } := ⟨_, rfl⟩
  obtain ⟨as, hst, hdur⟩ := start_reads m0 (by rw [hm0]) duration hd
  have hbet : Between (m0.start duration) m0 0 := by
    subst hm0
    refine ⟨rfl, rfl, rfl, rfl, ?_, ?_, ?_⟩
    · show Fits 0; decide
    · show Fits 0; decide
    · show Fits 1; decide
  obtain ⟨x, ts, es, hx, hr, hb, hn, hrs⟩ := streams_read m0 (by rw [hm0]) (by rw [hm0]; exact hv) (by rw [hm0]; exact ha) streams
    (m0.start duration) 0 hbet (by subst hm0; show (0 : Int) ≤ 1; decide) hs (by
      subst hm0; show (1 : Int) + ((0 : Nat) : Int) + _ + _ < _; omega)
  have hfin : Reads (t! "\t</Period>\r\n</MPD>") [.close (t! "Period"), .close (t! "MPD")] := by
    intro out; simp [lex, step, isSpace, notName]
  have hdoc : mpdDocument m0 duration streams = (m0.start duration).xml ++ x ++ t! "\t</Period>\r\n</MPD>" := by
    simp only [mpdDocument, Mpd.finish, hx]
  have hread := (hst.append hr).append hfin
  have hbuild := Builds.elem (t! "MPD") as (Builds.elem (t! "Period") [] hb)
  have hparse : parse (mpdDocument m0 duration streams) = some [.mk (t! "MPD") as [.mk (t! "Period") [] es]] := by
    rw [hdoc]
    refine parse_of_reads hread ?_
    simpa using hbuild
  rw [← hm0]
  refine ⟨as, es, hparse, hdur, hn, ?_⟩
  rw [hrs, hm0]

/-- C26: for every presentation (any number of streams, bitrates and points, with or without content protection), a client reads from the
manifest one adaptation set per stream, in order, with the templates of its addresses, its representations, and exactly the points that
were added as its segments. -/
theorem mpd_read (useName : Bool) (vp ap : List Str) (duration : Nat) (streams : List Stream)
    (hd : duration < 2 ^ 64) (hv : ∀ p ∈ vp, Protection p) (ha : ∀ p ∈ ap, Protection p) (hs : ∀ s ∈ streams, s.Ok)
    (hc : 1 + streams.length + (streams.map (·.bitrates.length)).sum < 2 ^ 64) :
    Spec.readMpd (mpdDocument { useName := useName, vProtection := vp, aProtection := ap } duration streams) =
      some ((streams.zipIdx 1).map fun p => setOf useName p.2 p.1) := by
  obtain ⟨as, es, hparse, _, hn, hrs⟩ := mpd_parse useName vp ap duration streams hd hv ha hs hc
  simp only [Spec.readMpd, hparse]
  have hfil : (es.filter fun e => e.name = t! "AdaptationSet") = es := by
    rw [List.filter_eq_self]
    intro e he
    simp [hn e he]
  have honly : Spec.only [Elem.mk (t! "Period") [] es] (t! "Period") = some (.mk (t! "Period") [] es) := by simp [Spec.only, Elem.name]
  rw [if_pos (show (Elem.mk (t! "MPD") as [.mk (t! "Period") [] es]).name = t! "MPD" from rfl), show (Elem.mk (t! "MPD") as [.mk (t! "Period") [] es]).children = [.mk (t! "Period") [] es] from rfl, honly, Option.bind_some,
    show (Elem.mk (t! "Period") [] es).children = es from rfl, hfil, hrs, all_some]

theorem zipIdx_map {α β : Type} (f : α → β) (l : List α) : ∀ n, (l.zipIdx n).map (fun p => f p.1) = l.map f := by
  induction l with
  | nil => intro n; rfl
  | cons a l ih => intro n; simp [List.zipIdx_cons, ih]

/-- C26, the time line alone. -/
theorem mpd_timeline (useName : Bool) (vp ap : List Str) (duration : Nat) (streams : List Stream)
    (hd : duration < 2 ^ 64) (hv : ∀ p ∈ vp, Protection p) (ha : ∀ p ∈ ap, Protection p) (hs : ∀ s ∈ streams, s.Ok)
    (hc : 1 + streams.length + (streams.map (·.bitrates.length)).sum < 2 ^ 64) :
    (Spec.readMpd (mpdDocument { useName := useName, vProtection := vp, aProtection := ap } duration streams)).map
      (fun sets => sets.map (·.segments)) = some (streams.map (·.points)) := by
  rw [mpd_read useName vp ap duration streams hd hv ha hs hc]
  simp only [Option.map_some, List.map_map, Function.comp_def]
  exact congrArg some (zipIdx_map (·.points) streams 1)

/-! ### A concrete presentation -/

/-- A presentation with two video bitrates, one audio bitrate, and a gap in the audio. -/
def demo : List Stream :=
  [⟨t! "audio", false, 3, [.audio 96000 48000 2 16], [(0, 20), (20, 20), (50, 30)]⟩,
   ⟨t! "video", true, 4, [.video 750000 640 360 [1, 2, 3, 0x64, 0x00, 0x1f], .video 1500000 1280 720 [1, 2, 3, 0x64, 0x40, 0x28]],
     [(0, 20), (20, 20), (40, 20), (60, 15)]⟩]

/-- src/mgcli/cenc_provider.h 431-439: the element of the clear key provider, with the data of its comment. -/
def demoProtection : Str :=
  t! "<ContentProtection schemeIdUri=\"urn:uuid:1077efec-c0b2-4d02-ace3-3c1e52e2fb4b\"><cenc:pssh>AAAANHBzc2gBAAAAEHfv7MCyTQKs4zweUuL7SwAAAAEfcltX3dBXeY80EpA43ZS1AAAAAA==</cenc:pssh></ContentProtection>"

instance (b : Bitrate) : Decidable b.Ok := by
  cases b <;> (simp only [Bitrate.Ok]; infer_instance)

instance (s : Str) : Decidable (Plain s) := inferInstanceAs (Decidable (∀ c ∈ s, _))

instance (s : Stream) : Decidable s.Ok := inferInstanceAs (Decidable (_ ∧ _ ∧ _ ∧ _))

theorem demo_ok : ∀ s ∈ demo, s.Ok := by decide +kernel

theorem demo_protection : ∀ p ∈ [demoProtection], Protection p := by
  intro p hp
  rw [List.mem_singleton.mp hp]
  have : (parse demoProtection).any (fun f => f.all fun e => e.name = t! "ContentProtection") = true := by decide +kernel
  cases hf : parse demoProtection with
  | none => rw [hf] at this; cases this
  | some f =>
    refine ⟨f, hf, ?_⟩
    rw [hf] at this
    simpa using this

/-- The hypotheses are met, and the client reads the points. -/
example : (Spec.readMpd (mpdDocument { useName := true, vProtection := [demoProtection], aProtection := [] } 80 demo)).map
    (fun sets => sets.map (·.segments)) = some [[(0, 20), (20, 20), (50, 30)], [(0, 20), (20, 20), (40, 20), (60, 15)]] :=
  mpd_timeline true [demoProtection] [] 80 demo (by decide) demo_protection (by simp) demo_ok (by decide)

end Verif.Render
