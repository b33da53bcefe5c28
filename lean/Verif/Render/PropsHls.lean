import Verif.Render.PropsText
import Verif.Render.SpecHls

/-! C73, C74, C75, C76: the HLS playlists. -/
namespace Verif.Render
open Verif.Strings (dec decInt dec_spec replace replace_all)
open Verif.Strings.Spec (Replaced Occurs OccursAt digit)

/-! ### Lines -/

theorem bindSome {α β : Type} (a : α) (f : α → Option β) : (some a >>= f) = f a := rfl

theorem strip_cr (x : Str) : Spec.strip (x ++ ['\r']) = x := by simp [Spec.strip]

theorem lines_go (x : Str) (h : '\n' ∉ x) : ∀ cur y, Spec.lines cur (x ++ '\n' :: y) = Spec.strip (cur ++ x) :: Spec.lines [] y := by
  induction x with
  | nil => intro cur y; simp [Spec.lines]
  | cons c x ih =>
    intro cur y
    have hc : c ≠ '\n' := fun e => h (e ▸ List.mem_cons_self)
    rw [List.cons_append, Spec.lines, if_neg hc, ih (fun m => h (List.mem_cons_of_mem _ m))]
    simp

theorem lines_crlf (x y : Str) (h : '\n' ∉ x) : Spec.lines [] (x ++ t! "\r\n" ++ y) = x :: Spec.lines [] y := by
  have := lines_go (x ++ ['\r']) (by simpa using h) [] y
  rw [List.nil_append, strip_cr] at this
  rw [← this]
  simp

theorem lines_lf (x y : Str) (h : '\n' ∉ x) (hr : x.getLast? ≠ some '\r') : Spec.lines [] (x ++ t! "\n" ++ y) = x :: Spec.lines [] y := by
  have := lines_go x h [] y
  rw [List.nil_append] at this
  rw [List.append_assoc, List.singleton_append, this, Spec.strip, if_neg hr]

theorem after_append (p x : Str) : Spec.after p (p ++ x) = some x := by
  simp [Spec.after]

theorem after_ne {p x : Str} {a b : Char} (hp : p.head? = some a) (hx : x.head? = some b) (h : a ≠ b) : Spec.after p x = none := by
  cases p with
  | nil => cases hp
  | cons a' p =>
    cases x with
    | nil => cases hx
    | cons b' x =>
      simp only [List.head?_cons, Option.some.injEq] at hp hx
      subst hp; subst hx
      simp [Spec.after, List.isPrefixOf, h]

/-! ### Texts without line breaks and dollar signs -/

/-- A text that can be part of a line of the template. -/
def Simple (s : Str) : Prop := ∀ c ∈ s, c ≠ '\n' ∧ c ≠ '$' ∧ c ≠ ','

instance (s : Str) : Decidable (Simple s) := inferInstanceAs (Decidable (∀ c ∈ s, _))

theorem Simple.append {a b : Str} (ha : Simple a) (hb : Simple b) : Simple (a ++ b) := by
  intro c hc
  rcases List.mem_append.mp hc with h | h
  · exact ha c h
  · exact hb c h

theorem simple_digit {c : Char} (h : (digit c).isSome) : c ≠ '\n' ∧ c ≠ '$' ∧ c ≠ ',' := by
  refine ⟨?_, ?_, ?_⟩ <;> (intro e; subst e; revert h; decide)

theorem simple_dec {n : Nat} (h : n < 2 ^ 64) : Simple (dec n) := fun c hc => simple_digit ((dec_spec n h).2.1 c hc)

theorem simple_decInt {n : Int} (h : Fits n) : Simple (decInt n) := by
  intro c hc
  rcases decInt_digits h c hc with h | h
  · exact simple_digit h
  · rw [h]; decide

theorem simple_duration {d : Nat} (h : d < 2 ^ 64) : Simple (durationText d) :=
  ((simple_dec (Nat.lt_of_le_of_lt (Nat.div_le_self _ _) h)).append (by decide)).append
    (simple_dec (Nat.lt_of_le_of_lt (Nat.mod_le _ _) h))

/-! ### Replacing the bitrate -/

theorem not_occurs {old s : Str} (ho : old.head? = some '$') (h : '$' ∉ s) : ¬ Occurs old s := by
  rintro ⟨i, hi, t, ht⟩
  cases old with
  | nil => cases ho
  | cons a old =>
    simp only [List.head?_cons, Option.some.injEq] at ho
    subst ho
    exact h (List.mem_of_mem_drop (by rw [← ht]; exact List.mem_cons_self))

theorem replaced_one {old new p rest r : Str} (ho : old.head? = some '$') (h : '$' ∉ p) (hr : Replaced old new rest r) :
    Replaced old new (p ++ old ++ rest) (p ++ new ++ r) := by
  refine Replaced.one ?_ hr
  intro i hi
  rcases Nat.lt_or_ge i p.length with hlt | hge
  · exfalso
    obtain ⟨_, t, ht⟩ := hi
    cases old with
    | nil => cases ho
    | cons a old =>
      simp only [List.head?_cons, Option.some.injEq] at ho
      subst ho
      rw [List.append_assoc, List.drop_append_of_le_length (Nat.le_of_lt hlt)] at ht
      cases hd : p.drop i with
      | nil => rw [List.drop_eq_nil_iff] at hd; omega
      | cons x l =>
        rw [hd] at ht
        have : x = '$' := ((List.cons.inj ht).1).symm
        exact h (List.mem_of_mem_drop (i := i) (by rw [hd, this]; exact List.mem_cons_self))
  · exact hge

/-- The lines of a segment with the bitrate in place. -/
def segmentText (pre bit : Str) (p : Nat × Nat) : Str :=
  t! "#EXTINF:" ++ durationText p.2 ++ t! ",no-desc\r\n" ++ pre ++ t! "_" ++ bit ++ t! "_" ++ dec p.1 ++ t! ".ts\r\n"

theorem no_dollar {s : Str} (h : Simple s) : '$' ∉ s := fun m => (h _ m).2.1 rfl

theorem replaced_segments (pre bit : Str) (hpre : '$' ∉ pre) (pts : List (Nat × Nat)) (hp : ∀ p ∈ pts, p.1 + p.2 < 2 ^ 64)
    (tail : Str) (ht : '$' ∉ tail) : ∀ x : Str, '$' ∉ x →
    Replaced (t! "$(BITRATE)") bit (x ++ (pts.map fun p => Hls.segment { pre := pre } p.1 p.2).flatten ++ tail)
      (x ++ (pts.map (segmentText pre bit)).flatten ++ tail) := by
  induction pts with
  | nil =>
    intro x hx
    have : '$' ∉ x ++ tail := by simp [hx, ht]
    simpa using Replaced.none (new := bit) (not_occurs (old := t! "$(BITRATE)") rfl this)
  | cons p pts ih =>
    intro x hx
    have hb := hp p List.mem_cons_self
    have h1 : '$' ∉ x ++ (t! "#EXTINF:" ++ durationText p.2 ++ t! ",no-desc\r\n" ++ pre ++ t! "_") := by
      have := no_dollar (simple_duration (show p.2 < 2 ^ 64 by omega))
      simp [hx, hpre, this]
    have h2 : '$' ∉ t! "_" ++ dec p.1 ++ t! ".ts\r\n" := by
      have := no_dollar (simple_dec (show p.1 < 2 ^ 64 by omega))
      simp [this]
    have := replaced_one (old := t! "$(BITRATE)") rfl h1 (ih (fun q hq => hp q (List.mem_cons_of_mem _ hq)) _ h2)
    simp only [List.map_cons, List.flatten_cons, segmentText, Hls.segment, List.append_assoc] at this ⊢
    exact this

/-! ### Rendering -/

/-- An audio stream: its bitrates are audio bitrates. -/
def Stream.IsAudio (s : Stream) : Prop := s.isVideo = false ∧ ∀ b ∈ s.bitrates, b.isVideo = false

/-- What an audio stream does to the renderer. -/
def afterAudio (h : Hls) (s : Stream) : Hls :=
  { h with beginStream := true, videoPoints := false, audioBitRate := ((s.bitrates.map Bitrate.rate).getLast?).getD h.audioBitRate }

theorem getD_last {l : List Int} (h : l ≠ []) (a b : Int) : l.getLast?.getD a = l.getLast?.getD b := by
  rw [List.getLast?_eq_some_getLast h]; rfl

theorem addBitrate_audio (bs : List Bitrate) : (∀ b ∈ bs, b.isVideo = false) → ∀ h : Hls,
    bs.foldl Hls.addBitrate h = { h with audioBitRate := ((bs.map Bitrate.rate).getLast?).getD h.audioBitRate } := by
  induction bs with
  | nil => intro _ h; rfl
  | cons b bs ih =>
    intro hb h
    rw [List.foldl_cons, ih (fun x hx => hb x (List.mem_cons_of_mem _ hx))]
    cases b with
    | video _ _ _ _ => have := hb _ List.mem_cons_self; cases this
    | audio b _ _ _ =>
      cases bs with
      | nil => rfl
      | cons c bs =>
        simp only [Hls.addBitrate, Hls.addAudio, List.map_cons, List.getLast?_cons_cons]
        rw [getD_last (by simp) b h.audioBitRate]

theorem addPoint_audio (pts : List (Nat × Nat)) : ∀ h : Hls, h.videoPoints = false → pts.foldl (fun h p => h.addPoint p.1 p.2) h = h := by
  induction pts with
  | nil => intro h _; rfl
  | cons p pts ih =>
    intro h hv
    have : h.addPoint p.1 p.2 = h := by simp [Hls.addPoint, hv]
    rw [List.foldl_cons, this, ih h hv]

theorem stream_audio (h : Hls) (s : Stream) (hs : s.IsAudio) : h.stream s = afterAudio h s := by
  simp only [Hls.stream]
  rw [addBitrate_audio _ hs.2]
  rw [addPoint_audio _ _ (by simp [Hls.begin, hs.1])]
  simp [Hls.begin, afterAudio, hs.1]

/-- The audio bit rate the renderer knows after some audio streams. -/
def audioRate (r : Int) (ss : List Stream) : Int := ((ss.map fun s => s.bitrates.map Bitrate.rate).flatten.getLast?).getD r

theorem streams_audio (ss : List Stream) (hs : ∀ s ∈ ss, s.IsAudio) : ∀ h : Hls,
    ss.foldl Hls.stream h = if ss = [] then h else { h with beginStream := true, videoPoints := false, audioBitRate := audioRate h.audioBitRate ss } := by
  induction ss with
  | nil => intro h; rfl
  | cons s ss ih =>
    intro h
    rw [List.foldl_cons, stream_audio h s (hs s List.mem_cons_self), ih (fun x hx => hs x (List.mem_cons_of_mem _ hx)), if_neg (List.cons_ne_nil _ _)]
    split
    · next e => subst e; simp [afterAudio, audioRate]
    · simp only [afterAudio, audioRate, List.map_cons, List.flatten_cons, List.getLast?_append]
      congr 1
      cases ((ss.map fun s => s.bitrates.map Bitrate.rate).flatten).getLast? <;> simp

/-- The playlist name of a bitrate. -/
def m3uName (name : Str) (b : Bitrate) : Str := name ++ t! "_" ++ decInt b.rate ++ t! ".m3u8"

/-- The lines of a bitrate in the master playlist. -/
def variantText (audio : Int) (codec name : Str) : Bitrate → Str
  | .video b w h d => t! "#EXT-X-STREAM-INF:BANDWIDTH=" ++ decInt (b + audio) ++ t! ",RESOLUTION=" ++ decInt w
      ++ t! "x" ++ decInt h ++ t! ",CODECS=\"" ++ videoCodec d ++ t! "," ++ codec ++ t! "\"\n" ++ (name ++ t! "_" ++ decInt b ++ t! ".m3u8") ++ t! "\n"
  | .audio _ _ _ _ => []

theorem addBitrate_video (bs : List Bitrate) : (∀ b ∈ bs, b.isVideo = true) → ∀ h : Hls,
    bs.foldl Hls.addBitrate h = { h with
      root := h.root ++ (bs.map (variantText h.audioBitRate h.audioCodec h.pre)).flatten
      bitRates := h.bitRates ++ bs.map Bitrate.rate
      m3u := (bs.map fun b => (b.rate, m3uName h.pre b)).reverse ++ h.m3u } := by
  induction bs with
  | nil => intro _ h; simp
  | cons b bs ih =>
    intro hb h
    rw [List.foldl_cons, ih (fun x hx => hb x (List.mem_cons_of_mem _ hx))]
    cases b with
    | audio _ _ _ _ => have := hb _ List.mem_cons_self; cases this
    | video b w hh d =>
      simp [Hls.addBitrate, Hls.addVideo, variantText, m3uName, Bitrate.rate]

theorem addPoint_rest (pts : List (Nat × Nat)) : ∀ h : Hls, h.videoPoints = true → h.beginStream = false →
    pts.foldl (fun h p => h.addPoint p.1 p.2) h = { h with body := h.body ++ (pts.map fun p => Hls.segment { pre := h.pre } p.1 p.2).flatten } := by
  induction pts with
  | nil => intro h _ _; simp
  | cons p pts ih =>
    intro h hv hb
    have : h.addPoint p.1 p.2 = { h with body := h.body ++ Hls.segment { pre := h.pre } p.1 p.2 } := by
      simp [Hls.addPoint, hv, hb, Hls.segment]
    rw [List.foldl_cons, this, ih { h with body := h.body ++ Hls.segment { pre := h.pre } p.1 p.2 } hv hb]
    simp

theorem addPoint_first (p : Nat × Nat) (pts : List (Nat × Nat)) (h : Hls) (hv : h.videoPoints = true) (hb : h.beginStream = true) :
    (p :: pts).foldl (fun h p => h.addPoint p.1 p.2) h =
      { h with beginStream := false, body := h.body ++ h.header p.2 ++ ((p :: pts).map fun p => Hls.segment { pre := h.pre } p.1 p.2).flatten } := by
  rw [List.foldl_cons]
  have : h.addPoint p.1 p.2 = { h with beginStream := false, body := h.body ++ h.header p.2 ++ Hls.segment { pre := h.pre } p.1 p.2 } := by
    simp [Hls.addPoint, hv, hb, Hls.segment]
  rw [this, addPoint_rest pts { h with beginStream := false, body := h.body ++ h.header p.2 ++ Hls.segment { pre := h.pre } p.1 p.2 } hv rfl]
  simp [List.append_assoc]

/-- What the renderer has after one video stream among audio streams. -/
theorem render_eq (enc : Bool) (key : Str) (before after : List Stream) (v : Stream) (hb : ∀ s ∈ before, s.IsAudio) (ha : ∀ s ∈ after, s.IsAudio)
    (hv : v.isVideo = true) (hvb : ∀ b ∈ v.bitrates, b.isVideo = true) (p : Nat × Nat) (pts : List (Nat × Nat)) (hp : v.points = p :: pts) :
    let r := hlsRender { encrypted := enc, keyFile := key } (before ++ v :: after)
    r.body = Hls.header { encrypted := enc, keyFile := key } p.2 ++ (v.points.map fun p => Hls.segment { pre := v.name } p.1 p.2).flatten ++
      (if after = [] then t! "#EXT-X-ENDLIST\r\n" else []) ∧
    r.root = t! "#EXTM3U\n" ++ t! "#EXT-X-VERSION:3\n" ++ (v.bitrates.map (variantText (audioRate 96000 before) (t! "mp4a.40.2") v.name)).flatten ∧
    r.bitRates = v.bitrates.map Bitrate.rate ∧ r.m3u = (v.bitrates.map fun b => (b.rate, m3uName v.name b)).reverse := by
  intro r
  have h1 : ∃ h1 : Hls, before.foldl Hls.stream (Hls.start { encrypted := enc, keyFile := key }) = h1 ∧ h1.root = t! "#EXTM3U\n" ++ t! "#EXT-X-VERSION:3\n" ∧
      h1.body = [] ∧ h1.bitRates = [] ∧ h1.m3u = [] ∧ h1.audioCodec = t! "mp4a.40.2" ∧ h1.audioBitRate = audioRate 96000 before ∧ h1.useName = true ∧
      h1.encrypted = enc ∧ h1.keyFile = key := by
    refine ⟨_, rfl, ?_⟩
    rw [streams_audio before hb]
    split
    · next e => subst e; exact ⟨rfl, rfl, rfl, rfl, rfl, rfl, rfl, rfl, rfl⟩
    · exact ⟨rfl, rfl, rfl, rfl, rfl, rfl, rfl, rfl, rfl⟩
  obtain ⟨h1, e1, f1, f2, f3, f4, f5, f6, f7, f8, f9⟩ := h1
  have h2 : ∃ h2 : Hls, h1.stream v = h2 ∧ h2.videoPoints = true ∧
      h2.body = Hls.header { encrypted := enc, keyFile := key } p.2 ++ (v.points.map fun p => Hls.segment { pre := v.name } p.1 p.2).flatten ∧
      h2.root = t! "#EXTM3U\n" ++ t! "#EXT-X-VERSION:3\n" ++ (v.bitrates.map (variantText (audioRate 96000 before) (t! "mp4a.40.2") v.name)).flatten ∧
      h2.bitRates = v.bitrates.map Bitrate.rate ∧ h2.m3u = (v.bitrates.map fun b => (b.rate, m3uName v.name b)).reverse := by
    refine ⟨_, rfl, ?_⟩
    simp only [Hls.stream]
    rw [addBitrate_video _ hvb, hp, addPoint_first p pts _ (by simp [Hls.begin, hv]) (by simp [Hls.begin])]
    refine ⟨by simp [Hls.begin, hv], ?_, ?_, ?_, ?_⟩
    · simp [Hls.begin, hv, f2, f7, f8, f9, Hls.header]
    · simp [Hls.begin, hv, f1, f5, f6, f7]
    · simp [Hls.begin, f3]
    · simp [Hls.begin, hv, f4, f7]
  obtain ⟨h2, e2, g1, g2, g3, g4, g5⟩ := h2
  have hr : r = (after.foldl Hls.stream h2).finish := by
    show (List.foldl Hls.stream _ (before ++ v :: after)).finish = _
    rw [List.foldl_append, List.foldl_cons, e1, e2]
  rw [hr, streams_audio after ha]
  split
  · next e =>
    simp only [Hls.finish, if_pos g1]
    exact ⟨by rw [g2], g3, g4, g5⟩
  · simp only [Hls.finish]
    exact ⟨by simp [g2], g3, g4, g5⟩

/-! ### Reading the playlist of a bitrate -/

theorem read_segment (pre bit : Str) (p : Nat × Nat) (hp : p.1 + p.2 < 2 ^ 64) (hpre : '\n' ∉ pre) (hhash : pre.head? ≠ some '#') (hbit : '\n' ∉ bit)
    (y : Str) (pl : Spec.Playlist) :
    (Spec.lines [] (segmentText pre bit p ++ y)).foldlM Spec.mediaLine (none, pl) =
      (Spec.lines [] y).foldlM Spec.mediaLine (none, { pl with segments := pl.segments ++ [(durationText p.2, pre ++ t! "_" ++ bit ++ t! "_" ++ dec p.1 ++ t! ".ts")] }) := by
  have hd := simple_duration (show p.2 < 2 ^ 64 by omega)
  have ht := simple_dec (show p.1 < 2 ^ 64 by omega)
  have hd1 : '\n' ∉ durationText p.2 := fun m => (hd _ m).1 rfl
  have ht1 : '\n' ∉ dec p.1 := fun m => (ht _ m).1 rfl
  have hl1 : '\n' ∉ t! "#EXTINF:" ++ (durationText p.2 ++ t! ",no-desc") := by simp [hd1]
  have hl2 : '\n' ∉ pre ++ t! "_" ++ bit ++ t! "_" ++ dec p.1 ++ t! ".ts" := by simp [hpre, hbit, ht1]
  have e : segmentText pre bit p ++ y = t! "#EXTINF:" ++ (durationText p.2 ++ t! ",no-desc") ++ t! "\r\n" ++
      (pre ++ t! "_" ++ bit ++ t! "_" ++ dec p.1 ++ t! ".ts" ++ t! "\r\n" ++ y) := by
    simp [segmentText]
  rw [e, lines_crlf _ _ hl1, lines_crlf _ _ hl2]
  have htake : (durationText p.2 ++ t! ",no-desc").takeWhile (· ≠ ',') = durationText p.2 := by
    have hall : ∀ c ∈ durationText p.2, (decide (c ≠ ',')) = true := fun c hc => decide_eq_true (hd c hc).2.2
    rw [List.takeWhile_append_of_pos hall]
    simp
  have h1 : Spec.mediaLine (none, pl) (t! "#EXTINF:" ++ (durationText p.2 ++ t! ",no-desc")) = some (some (durationText p.2), pl) := by
    rw [Spec.mediaLine, if_neg (by simp), after_append, if_pos (by rfl), if_neg (by simp), Option.map_some, htake]
  have h2 : Spec.mediaLine (some (durationText p.2), pl) (pre ++ t! "_" ++ bit ++ t! "_" ++ dec p.1 ++ t! ".ts") =
      some (none, { pl with segments := pl.segments ++ [(durationText p.2, pre ++ t! "_" ++ bit ++ t! "_" ++ dec p.1 ++ t! ".ts")] }) := by
    obtain ⟨b, hb1, hb2⟩ : ∃ b, (pre ++ t! "_" ++ bit ++ t! "_" ++ dec p.1 ++ t! ".ts").head? = some b ∧ b ≠ '#' := by
      cases pre with
      | nil => exact ⟨'_', rfl, by decide⟩
      | cons a pre => exact ⟨a, rfl, fun e => hhash (by simp [e])⟩
    have hne : pre ++ t! "_" ++ bit ++ t! "_" ++ dec p.1 ++ t! ".ts" ≠ [] := by simp
    rw [Spec.mediaLine, if_neg hne, after_ne (a := '#') rfl hb1 (Ne.symm hb2), after_ne (a := '#') rfl hb1 (Ne.symm hb2),
      after_ne (a := '#') rfl hb1 (Ne.symm hb2)]
    rw [if_neg (by simp), if_neg (by simp), if_neg (by simp), if_neg (by intro e; rw [e] at hb1; exact hb2 (by simpa using hb1.symm)), if_neg (by rw [hb1]; simpa using hb2)]
    rfl
  rw [List.foldlM_cons, h1, bindSome, List.foldlM_cons, h2, bindSome]

theorem read_segments (pre bit : Str) (pts : List (Nat × Nat)) (hp : ∀ p ∈ pts, p.1 + p.2 < 2 ^ 64) (hpre : '\n' ∉ pre) (hhash : pre.head? ≠ some '#')
    (hbit : '\n' ∉ bit) (y : Str) : ∀ pl : Spec.Playlist,
    (Spec.lines [] ((pts.map (segmentText pre bit)).flatten ++ y)).foldlM Spec.mediaLine (none, pl) =
      (Spec.lines [] y).foldlM Spec.mediaLine (none, { pl with segments := pl.segments ++
        (pts.map fun p => (durationText p.2, pre ++ t! "_" ++ bit ++ t! "_" ++ dec p.1 ++ t! ".ts")) }) := by
  induction pts with
  | nil => intro pl; simp
  | cons p pts ih =>
    intro pl
    rw [List.map_cons, List.flatten_cons, List.append_assoc, read_segment pre bit p (hp p List.mem_cons_self) hpre hhash hbit,
      ih fun q hq => hp q (List.mem_cons_of_mem _ hq)]
    simp

/-- A name a stream can have for the playlists: no line breaks, dollar signs; it does not start with a comment sign. -/
def NameOk (s : Str) : Prop := '\n' ∉ s ∧ '$' ∉ s ∧ s.head? ≠ some '#'

instance (s : Str) : Decidable (NameOk s) := inferInstanceAs (Decidable (_ ∧ _ ∧ _))

theorem no_nl {s : Str} (h : Simple s) : '\n' ∉ s := fun m => (h _ m).1 rfl

set_option maxRecDepth 20000 in
/-- C73: in a presentation with one video stream (and any number of audio streams before and after it), the playlist of each bitrate lists
exactly the segments of the video stream, in order, with their addresses, has one target duration, the key when the presentation is
encrypted, and is complete exactly when no stream comes after the video stream. -/
theorem hls_playlist (enc : Bool) (key : Str) (before after : List Stream) (v : Stream) (hb : ∀ s ∈ before, s.IsAudio) (ha : ∀ s ∈ after, s.IsAudio)
    (hv : v.isVideo = true) (hok : v.Ok) (hn : NameOk v.name) (hkey : NameOk key) (hp : v.points ≠ []) (b : Bitrate) (hbm : b ∈ v.bitrates) :
    ∃ text, (hlsRender { encrypted := enc, keyFile := key } (before ++ v :: after)).bitRateBody b.rate = some text ∧
      Spec.readMedia text = some
        { targets := [dec ((v.points.head hp).2 / 10000000)]
          keys := if enc then [t! "METHOD=AES-128,URI=\"" ++ key ++ t! "\""] else []
          segments := v.points.map fun p => (durationText p.2, v.name ++ t! "_" ++ decInt b.rate ++ t! "_" ++ dec p.1 ++ t! ".ts")
          ended := decide (after = []) } := by
  obtain ⟨o1, o2, o3, o4⟩ := hok
  obtain ⟨p, pts, hpp⟩ : ∃ p pts, v.points = p :: pts := by
    cases h : v.points with
    | nil => exact absurd h hp
    | cons p pts => exact ⟨p, pts, rfl⟩
  obtain ⟨hbody, _⟩ := render_eq enc key before after v hb ha hv (fun b hb => by rw [(o2 b hb).2, hv]) p pts hpp
  have hbit : Simple (decInt b.rate) := by
    have := (o2 b hbm).1
    cases b with
    | video _ _ _ _ => exact simple_decInt this.1
    | audio _ _ _ _ => exact simple_decInt this.1
  have hpb : p.1 + p.2 < 2 ^ 64 := o3 p (by rw [hpp]; exact List.mem_cons_self)
  have hT := simple_dec (n := p.2 / 10000000) (Nat.lt_of_le_of_lt (Nat.div_le_self _ _) (show p.2 < 2 ^ 64 by omega))
  obtain ⟨tail, htail⟩ : ∃ tail : Str, tail = if after = [] then t! "#EXT-X-ENDLIST\r\n" else [] := ⟨_, rfl⟩
  have htd : '$' ∉ tail := by rw [htail]; split <;> decide
  have hhd : '$' ∉ Hls.header { encrypted := enc, keyFile := key } p.2 := by
    have := no_dollar hT
    cases enc <;> simp [Hls.header, this, hkey.2.1]
  have hrep := replaced_segments v.name (decInt b.rate) hn.2.1 v.points o3 tail htd _ hhd
  obtain ⟨text, ht1, ht2⟩ := replace_all (Hls.body (hlsRender { encrypted := enc, keyFile := key } (before ++ v :: after))) (decInt b.rate)
    (t! "$(BITRATE)") (by simp)
  refine ⟨text, ht1, ?_⟩
  rw [hbody, ← htail] at ht2
  have htext := Verif.Strings.Spec.Replaced.unique (by simp) ht2 hrep
  rw [htext]
  have hseg := read_segments v.name (decInt b.rate) v.points o3 hn.1 hn.2.2 (no_nl hbit) tail
  have hhead : (v.points.head hp).2 = p.2 := by simp [hpp]
  rw [hhead]
  -- the header
  have hlines : Spec.lines [] (Hls.header { encrypted := enc, keyFile := key } p.2 ++ ((v.points.map (segmentText v.name (decInt b.rate))).flatten ++ tail)) =
      [t! "#EXTM3U", t! "#EXT-X-VERSION:3", t! "#EXT-X-ALLOW-CACHE:NO", t! "#EXT-X-MEDIA-SEQUENCE:0", t! "#EXT-X-TARGETDURATION:" ++ dec (p.2 / 10000000),
        t! "#EXT-X-PROGRAM-DATE-TIME:1970-01-01T00:00:00Z"] ++ (if enc then [t! "#EXT-X-KEY:" ++ (t! "METHOD=AES-128,URI=\"" ++ key ++ t! "\"")] else []) ++
        Spec.lines [] ((v.points.map (segmentText v.name (decInt b.rate))).flatten ++ tail) := by
    generalize (v.points.map (segmentText v.name (decInt b.rate))).flatten ++ tail = y
    have k1 : '\n' ∉ t! "#EXT-X-TARGETDURATION:" ++ dec (p.2 / 10000000) := by simp [no_nl hT]
    have k2 : '\n' ∉ t! "#EXT-X-KEY:" ++ (t! "METHOD=AES-128,URI=\"" ++ key ++ t! "\"") := by simp [hkey.1]
    have a1 := fun y => lines_crlf (t! "#EXTM3U") y (by decide)
    have a2 := fun y => lines_crlf (t! "#EXT-X-VERSION:3") y (by decide)
    have a3 := fun y => lines_crlf (t! "#EXT-X-ALLOW-CACHE:NO") y (by decide)
    have a4 := fun y => lines_crlf (t! "#EXT-X-MEDIA-SEQUENCE:0") y (by decide)
    have a5 := fun y => lines_crlf _ y k1
    have a6 := fun y => lines_crlf (t! "#EXT-X-PROGRAM-DATE-TIME:1970-01-01T00:00:00Z") y (by decide)
    have a7 := fun y => lines_crlf _ y k2
    cases enc with
    | false =>
      have e : Hls.header { encrypted := false, keyFile := key } p.2 ++ y = t! "#EXTM3U" ++ t! "\r\n" ++ (t! "#EXT-X-VERSION:3" ++ t! "\r\n" ++
          (t! "#EXT-X-ALLOW-CACHE:NO" ++ t! "\r\n" ++ (t! "#EXT-X-MEDIA-SEQUENCE:0" ++ t! "\r\n" ++ (t! "#EXT-X-TARGETDURATION:" ++ dec (p.2 / 10000000) ++ t! "\r\n" ++
          (t! "#EXT-X-PROGRAM-DATE-TIME:1970-01-01T00:00:00Z" ++ t! "\r\n" ++ y))))) := by
        simp [Hls.header]
      rw [e, a1, a2, a3, a4, a5, a6]
      rfl
    | true =>
      have e : Hls.header { encrypted := true, keyFile := key } p.2 ++ y = t! "#EXTM3U" ++ t! "\r\n" ++ (t! "#EXT-X-VERSION:3" ++ t! "\r\n" ++
          (t! "#EXT-X-ALLOW-CACHE:NO" ++ t! "\r\n" ++ (t! "#EXT-X-MEDIA-SEQUENCE:0" ++ t! "\r\n" ++ (t! "#EXT-X-TARGETDURATION:" ++ dec (p.2 / 10000000) ++ t! "\r\n" ++
          (t! "#EXT-X-PROGRAM-DATE-TIME:1970-01-01T00:00:00Z" ++ t! "\r\n" ++ (t! "#EXT-X-KEY:" ++ (t! "METHOD=AES-128,URI=\"" ++ key ++ t! "\"") ++ t! "\r\n" ++ y)))))) := by
        simp [Hls.header]
      rw [e, a1, a2, a3, a4, a5, a6, a7]
      rfl
  rw [List.append_assoc] at *
  simp only [Spec.readMedia]
  rw [hlines]
  have m5 : ∀ pl, Spec.mediaLine (none, pl) (t! "#EXT-X-TARGETDURATION:" ++ dec (p.2 / 10000000)) =
      some (none, { pl with targets := pl.targets ++ [dec (p.2 / 10000000)] }) := by
    intro pl
    rw [Spec.mediaLine, if_neg (by simp), if_neg (by simp [Spec.after, List.isPrefixOf]), after_append, if_pos (by rfl)]
    rfl
  have m7 : ∀ pl, Spec.mediaLine (none, pl) (t! "#EXT-X-KEY:" ++ (t! "METHOD=AES-128,URI=\"" ++ key ++ t! "\"")) =
      some (none, { pl with keys := pl.keys ++ [t! "METHOD=AES-128,URI=\"" ++ key ++ t! "\""] }) := by
    intro pl
    rw [Spec.mediaLine, if_neg (by simp), if_neg (by simp [Spec.after, List.isPrefixOf]), if_neg (by simp [Spec.after, List.isPrefixOf]), after_append, if_pos (by rfl)]
    rfl
  have mtail : ∀ pl, (Spec.lines [] tail).foldlM Spec.mediaLine (none, pl) = some (none, if after = [] then { pl with ended := true } else pl) := by
    intro pl
    rw [htail]
    by_cases h : after = []
    · rw [if_pos h, if_pos h]; rfl
    · rw [if_neg h, if_neg h]; rfl
  have m2 : ∀ pl, Spec.mediaLine (none, pl) (t! "#EXT-X-VERSION:3") = some (none, pl) := fun _ => rfl
  have m3 : ∀ pl, Spec.mediaLine (none, pl) (t! "#EXT-X-ALLOW-CACHE:NO") = some (none, pl) := fun _ => rfl
  have m4 : ∀ pl, Spec.mediaLine (none, pl) (t! "#EXT-X-MEDIA-SEQUENCE:0") = some (none, pl) := fun _ => rfl
  have m6 : ∀ pl, Spec.mediaLine (none, pl) (t! "#EXT-X-PROGRAM-DATE-TIME:1970-01-01T00:00:00Z") = some (none, pl) := fun _ => rfl
  obtain ⟨l5, hl5⟩ : ∃ l, l = t! "#EXT-X-TARGETDURATION:" ++ dec (p.2 / 10000000) := ⟨_, rfl⟩
  obtain ⟨l7, hl7⟩ : ∃ l, l = t! "#EXT-X-KEY:" ++ (t! "METHOD=AES-128,URI=\"" ++ key ++ t! "\"") := ⟨_, rfl⟩
  rw [← hl5] at m5 ⊢
  rw [← hl7] at m7 ⊢
  cases enc with
  | false =>
    simp only [Bool.false_eq_true, if_false, List.append_nil, List.cons_append, List.nil_append, if_true]
    rw [List.foldlM_cons, m2, bindSome, List.foldlM_cons, m3, bindSome, List.foldlM_cons, m4, bindSome, List.foldlM_cons, m5, bindSome,
      List.foldlM_cons, m6, bindSome, hseg, mtail]
    by_cases h : after = [] <;> simp [h]
  | true =>
    simp only [if_true, List.cons_append, List.nil_append]
    rw [List.foldlM_cons, m2, bindSome, List.foldlM_cons, m3, bindSome, List.foldlM_cons, m4, bindSome, List.foldlM_cons, m5, bindSome,
      List.foldlM_cons, m6, bindSome, List.foldlM_cons, m7, bindSome, hseg, mtail]
    by_cases h : after = [] <;> simp [h]

end Verif.Render
