import Verif.Render.PropsHls

/-! C74, C75, C76: target duration and end of the playlists, names of the segments, and the master playlist. -/
namespace Verif.Render
open Verif.Strings (dec decInt dec_spec)

/-! ### Concrete presentations -/

/-- One audio and one video stream. -/
def hlsAudio : Stream := ⟨t! "audio", false, 3, [.audio 96000 48000 2 16], [(0, 20000000), (20000000, 20000000)]⟩
def hlsVideo (name : Str) (pts : List (Nat × Nat)) : Stream :=
  ⟨name, true, pts.length + 1, [.video 750000 640 360 [1, 2, 3, 0x64, 0x00, 0x1f], .video 1500000 1280 720 [1, 2, 3, 0x64, 0x00, 0x28]], pts⟩

theorem hlsAudio_isAudio : hlsAudio.IsAudio := by refine ⟨rfl, ?_⟩; decide

/-- The hypotheses of `hls_playlist` are met. -/
example : ∃ text, (hlsRender { encrypted := true, keyFile := t! "hls3.key" } ([hlsAudio] ++ hlsVideo (t! "video") [(0, 20000000), (20000000, 15000000)] :: [])).bitRateBody 750000 = some text ∧
    (Spec.readMedia text).map (fun p => (p.segments.map (·.2), p.ended)) = some ([t! "video_750000_0.ts", t! "video_750000_20000000.ts"], true) := by
  obtain ⟨text, h1, h2⟩ := hls_playlist true (t! "hls3.key") [hlsAudio] [] (hlsVideo (t! "video") [(0, 20000000), (20000000, 15000000)])
    (by intro s hs; rw [List.mem_singleton.mp hs]; exact hlsAudio_isAudio) (by simp) rfl (by decide +kernel) (by decide) (by decide) (by simp [hlsVideo])
    (.video 750000 640 360 [1, 2, 3, 0x64, 0x00, 0x1f]) (by simp [hlsVideo])
  refine ⟨text, h1, ?_⟩
  rw [h2]
  decide +kernel

/-! ### Target duration and end -/

/-- C74: when the video stream is the last one, no segment is longer than the first and the first one does not round up, the playlist of each
bitrate is complete and its target duration is at least each segment's duration in seconds, rounded; missing: other presentations, for which
the playlist is wrong (see the witnesses). -/
theorem hls_target_partial (enc : Bool) (key : Str) (before : List Stream) (v : Stream) (hb : ∀ s ∈ before, s.IsAudio)
    (hv : v.isVideo = true) (hok : v.Ok) (hn : NameOk v.name) (hkey : NameOk key) (hp : v.points ≠ []) (b : Bitrate) (hbm : b ∈ v.bitrates)
    (hmax : ∀ p ∈ v.points, p.2 ≤ (v.points.head hp).2) (hround : (v.points.head hp).2 % 10000000 < 5000000) :
    ∃ text pl target, (hlsRender { encrypted := enc, keyFile := key } (before ++ v :: [])).bitRateBody b.rate = some text ∧
      Spec.readMedia text = some pl ∧ pl.ended = true ∧ pl.targets.map Verif.Strings.Spec.decimal = [some target] ∧
      ∀ p ∈ v.points, (p.2 + 5000000) / 10000000 ≤ target := by
  obtain ⟨text, h1, h2⟩ := hls_playlist enc key before [] v hb (by simp) hv hok hn hkey hp b hbm
  refine ⟨text, _, (v.points.head hp).2 / 10000000, h1, h2, by simp, ?_, ?_⟩
  · have hb := hok.2.2.1 _ (List.head_mem hp)
    have := (dec_spec ((v.points.head hp).2 / 10000000) (Nat.lt_of_le_of_lt (Nat.div_le_self _ _) (by omega))).1
    simp [this]
  · intro p hpp
    have := hmax p hpp
    omega

/-- C74, segments of 1.96 s: the target duration is 1 s. -/
theorem hls_target_witness :
    ∃ text, (hlsRender {} [hlsAudio, hlsVideo (t! "video") [(0, 19600000), (19600000, 19600000)]]).bitRateBody 750000 = some text ∧
      (Spec.readMedia text).map (·.targets) = some [t! "1"] := by
  obtain ⟨text, h1, h2⟩ := hls_playlist false (t! "hls3.key") [hlsAudio] [] (hlsVideo (t! "video") [(0, 19600000), (19600000, 19600000)])
    (by intro s hs; rw [List.mem_singleton.mp hs]; exact hlsAudio_isAudio) (by simp) rfl (by decide +kernel) (by decide) (by decide) (by simp [hlsVideo])
    (.video 750000 640 360 [1, 2, 3, 0x64, 0x00, 0x1f]) (by simp [hlsVideo])
  refine ⟨text, h1, ?_⟩
  rw [h2]
  decide +kernel

/-- C74, an audio stream after the video stream (streams are rendered in the order of their names): the playlist is not complete. -/
theorem hls_end_witness :
    ∃ text, (hlsRender {} [hlsVideo (t! "Video") [(0, 20000000)], hlsAudio]).bitRateBody 750000 = some text ∧
      (Spec.readMedia text).map (·.ended) = some false := by
  obtain ⟨text, h1, h2⟩ := hls_playlist false (t! "hls3.key") [] [hlsAudio] (hlsVideo (t! "Video") [(0, 20000000)])
    (by simp) (by intro s hs; rw [List.mem_singleton.mp hs]; exact hlsAudio_isAudio) rfl (by decide +kernel) (by decide) (by decide) (by simp [hlsVideo])
    (.video 750000 640 360 [1, 2, 3, 0x64, 0x00, 0x1f]) (by simp [hlsVideo])
  refine ⟨text, h1, ?_⟩
  rw [h2]
  decide +kernel

/-- The hypotheses are met: ten-second segments and a shorter last one. -/
example : ∃ text pl target, (hlsRender { encrypted := false, keyFile := t! "hls3.key" } ([hlsAudio] ++ hlsVideo (t! "video") [(0, 100000000), (100000000, 35000000)] :: [])).bitRateBody 750000 = some text ∧
    Spec.readMedia text = some pl ∧ pl.ended = true ∧ pl.targets.map Verif.Strings.Spec.decimal = [some target] ∧
    ∀ p ∈ (hlsVideo (t! "video") [(0, 100000000), (100000000, 35000000)]).points, (p.2 + 5000000) / 10000000 ≤ target :=
  hls_target_partial false (t! "hls3.key") [hlsAudio] (hlsVideo (t! "video") [(0, 100000000), (100000000, 35000000)])
    (by intro s hs; rw [List.mem_singleton.mp hs]; exact hlsAudio_isAudio) rfl (by decide +kernel) (by decide) (by decide) (by simp [hlsVideo])
    (.video 750000 640 360 [1, 2, 3, 0x64, 0x00, 0x1f]) (by simp [hlsVideo]) (by decide) (by decide)

/-! ### Files of the segments -/

/-- C75: when the video stream is called `video`, the addresses of a playlist are the names of the files that are written; missing: other
names, for which they are not (the files are called `video_...`). -/
theorem hls_files_partial (enc : Bool) (key : Str) (before after : List Stream) (v : Stream) (hb : ∀ s ∈ before, s.IsAudio) (ha : ∀ s ∈ after, s.IsAudio)
    (hv : v.isVideo = true) (hok : v.Ok) (hkey : NameOk key) (hp : v.points ≠ []) (b : Bitrate) (hbm : b ∈ v.bitrates) (hr : 0 ≤ b.rate)
    (hname : v.name = t! "video") :
    ∃ text pl, (hlsRender { encrypted := enc, keyFile := key } (before ++ v :: after)).bitRateBody b.rate = some text ∧
      Spec.readMedia text = some pl ∧ pl.segments.map (·.2) = v.points.map fun p => tsName b.key p.1 := by
  obtain ⟨text, h1, h2⟩ := hls_playlist enc key before after v hb ha hv hok (by rw [hname]; decide) hkey hp b hbm
  refine ⟨text, _, h1, h2, ?_⟩
  simp only [List.map_map, Function.comp_def, tsName, hname, key_eq, decInt_nonneg hr]
  simp

/-- C75, a stream with another name: the address is not the name of the file. -/
theorem hls_files_witness :
    ∃ text, (hlsRender {} [hlsAudio, hlsVideo (t! "video1") [(0, 20000000)]]).bitRateBody 750000 = some text ∧
      (Spec.readMedia text).map (fun pl => pl.segments.map (·.2)) = some [t! "video1_750000_0.ts"] ∧ tsName 750000 0 = t! "video_750000_0.ts" := by
  obtain ⟨text, h1, h2⟩ := hls_playlist false (t! "hls3.key") [hlsAudio] [] (hlsVideo (t! "video1") [(0, 20000000)])
    (by intro s hs; rw [List.mem_singleton.mp hs]; exact hlsAudio_isAudio) (by simp) rfl (by decide +kernel) (by decide) (by decide) (by simp [hlsVideo])
    (.video 750000 640 360 [1, 2, 3, 0x64, 0x00, 0x1f]) (by simp [hlsVideo])
  refine ⟨text, h1, ?_, by decide +kernel⟩
  rw [h2]
  decide +kernel

/-- The hypotheses are met. -/
example : ∃ text pl, (hlsRender { encrypted := false, keyFile := t! "hls3.key" } ([hlsAudio] ++ hlsVideo (t! "video") [(0, 20000000)] :: [])).bitRateBody 750000 = some text ∧
    Spec.readMedia text = some pl ∧ pl.segments.map (·.2) = [(0, 20000000)].map fun p => tsName 750000 p.1 :=
  hls_files_partial false (t! "hls3.key") [hlsAudio] [] (hlsVideo (t! "video") [(0, 20000000)])
    (by intro s hs; rw [List.mem_singleton.mp hs]; exact hlsAudio_isAudio) (by simp) rfl (by decide +kernel) (by decide) (by simp [hlsVideo])
    (.video 750000 640 360 [1, 2, 3, 0x64, 0x00, 0x1f]) (by simp [hlsVideo]) (by decide) rfl

/-! ### The master playlist -/

theorem hexChar_simple : ∀ i, i < 16 → (Verif.Strings.hexChars.getD i '\x00') ≠ '\n' ∧ (Verif.Strings.hexChars.getD i '\x00') ≠ '$' ∧
    (Verif.Strings.hexChars.getD i '\x00') ≠ ',' := by decide +kernel

theorem simple_hex (s : Str) (hs : Simple s) (bs : List UInt8) : Simple (Verif.Strings.appendHex s bs) := by
  induction bs generalizing s with
  | nil => exact hs
  | cons b bs ih =>
    simp only [Verif.Strings.appendHex, List.foldl_cons] at *
    apply ih
    refine (hs.append ?_).append ?_
    · intro c hc
      rw [List.mem_singleton.mp hc]
      exact hexChar_simple _ (Nat.lt_of_le_of_lt Nat.and_le_right (by decide))
    · intro c hc
      rw [List.mem_singleton.mp hc]
      exact hexChar_simple _ (Nat.lt_of_le_of_lt Nat.and_le_right (by decide))

theorem simple_codec (data : List UInt8) : Simple (videoCodec data) := by
  simp only [videoCodec]
  exact simple_hex _ (simple_hex _ (simple_hex _ (by decide) _) _) _

theorem read_variant (audio : Int) (name : Str) (b : Bitrate) (hb : b.Ok) (hvid : b.isVideo = true) (hsum : Fits (b.rate + audio)) (hn : NameOk name)
    (y : Str) (vs : List (Str × Str)) :
    (Spec.lines [] (variantText audio (t! "mp4a.40.2") name b ++ y)).foldlM Spec.masterLine (none, vs) =
      (Spec.lines [] y).foldlM Spec.masterLine (none, vs ++ [(decInt (b.rate + audio), m3uName name b)]) := by
  cases b with
  | audio _ _ _ _ => cases hvid
  | video b w h d =>
    obtain ⟨b1, b2, b3⟩ := hb
    change Fits (b + audio) at hsum
    have hs := simple_decInt hsum
    have hw := simple_decInt b2
    have hh := simple_decInt b3
    have hr := simple_decInt b1
    obtain ⟨rest, hrest⟩ : ∃ rest, rest = t! "RESOLUTION=" ++ decInt w ++ t! "x" ++ decInt h ++ t! ",CODECS=\"" ++ videoCodec d ++ t! "," ++ t! "mp4a.40.2" ++ t! "\"" := ⟨_, rfl⟩
    have hrest1 : '\n' ∉ rest := by
      rw [hrest]
      simp [no_nl hw, no_nl hh, no_nl (simple_codec d)]
    have hrest2 : rest.getLast? = some '"' := by rw [hrest, List.getLast?_append]; rfl
    obtain ⟨file, hfile⟩ : ∃ file, file = name ++ t! "_" ++ decInt b ++ t! ".m3u8" := ⟨_, rfl⟩
    have hf1 : '\n' ∉ file := by rw [hfile]; simp [hn.1, no_nl hr]
    have hf2 : file.getLast? ≠ some '\r' := by rw [hfile, List.getLast?_append]; simp
    have e : variantText audio (t! "mp4a.40.2") name (.video b w h d) ++ y =
        t! "#EXT-X-STREAM-INF:BANDWIDTH=" ++ (decInt (b + audio) ++ ',' :: rest) ++ t! "\n" ++ (file ++ t! "\n" ++ y) := by
      simp [variantText, hrest, hfile]
    have hl1 : '\n' ∉ t! "#EXT-X-STREAM-INF:BANDWIDTH=" ++ (decInt (b + audio) ++ ',' :: rest) := by simp [no_nl hs, hrest1]
    have hl2 : (t! "#EXT-X-STREAM-INF:BANDWIDTH=" ++ (decInt (b + audio) ++ ',' :: rest)).getLast? ≠ some '\r' := by
      rw [List.getLast?_append, List.getLast?_append, List.getLast?_cons, hrest2]
      simp
    rw [e, lines_lf _ _ hl1 hl2, lines_lf _ _ hf1 hf2]
    have htake : (decInt (b + audio) ++ ',' :: rest).takeWhile (· ≠ ',') = decInt (b + audio) := by
      have hall : ∀ c ∈ decInt (b + audio), (decide (c ≠ ',')) = true := fun c hc => decide_eq_true (hs c hc).2.2
      rw [List.takeWhile_append_of_pos hall]
      simp
    have h1 : Spec.masterLine (none, vs) (t! "#EXT-X-STREAM-INF:BANDWIDTH=" ++ (decInt (b + audio) ++ ',' :: rest)) = some (some (decInt (b + audio)), vs) := by
      rw [Spec.masterLine, if_neg (by simp), after_append, if_pos (by rfl), if_neg (by simp), Option.map_some, htake]
    have h2 : Spec.masterLine (some (decInt (b + audio)), vs) file = some (none, vs ++ [(decInt (b + audio), file)]) := by
      obtain ⟨c, hc1, hc2⟩ : ∃ c, file.head? = some c ∧ c ≠ '#' := by
        rw [hfile]
        have hhash := hn.2.2
        cases name with
        | nil => exact ⟨'_', rfl, by decide⟩
        | cons a name => exact ⟨a, rfl, fun e => hhash (by simp [e])⟩
      have hne : file ≠ [] := by intro e; rw [e] at hc1; cases hc1
      rw [Spec.masterLine, if_neg hne, after_ne (a := '#') rfl hc1 (Ne.symm hc2), if_neg (by simp), if_neg (by rw [hc1]; simpa using hc2)]
      rfl
    rw [List.foldlM_cons, h1, bindSome, List.foldlM_cons, h2, bindSome, hfile]
    rfl

theorem read_variants (audio : Int) (name : Str) (hn : NameOk name) (bs : List Bitrate)
    (hb : ∀ b ∈ bs, b.Ok ∧ b.isVideo = true ∧ Fits (b.rate + audio)) : ∀ vs : List (Str × Str),
    (Spec.lines [] (bs.map (variantText audio (t! "mp4a.40.2") name)).flatten).foldlM Spec.masterLine (none, vs) =
      some (none, vs ++ bs.map fun b => (decInt (b.rate + audio), m3uName name b)) := by
  induction bs with
  | nil => intro vs; simp [Spec.lines]
  | cons b bs ih =>
    intro vs
    obtain ⟨h1, h2, h3⟩ := hb b List.mem_cons_self
    rw [List.map_cons, List.flatten_cons, read_variant audio name b h1 h2 h3 hn, ih fun x hx => hb x (List.mem_cons_of_mem _ hx)]
    simp

theorem find_name {name : Str} : ∀ (bs : List Bitrate), (bs.map Bitrate.rate).Nodup → ∀ b ∈ bs,
    ((bs.map fun b => (b.rate, m3uName name b)).reverse.find? fun e => e.1 = b.rate) = some (b.rate, m3uName name b) := by
  intro bs hnd b hb
  cases hf : (bs.map fun b => (b.rate, m3uName name b)).reverse.find? (fun e => e.1 = b.rate) with
  | none =>
    rw [List.find?_eq_none] at hf
    have := hf (b.rate, m3uName name b) (by simpa using ⟨b, hb, rfl, rfl⟩)
    simp at this
  | some e =>
    have h1 := List.find?_some hf
    have h2 := List.mem_of_find?_eq_some hf
    simp only [List.mem_reverse, List.mem_map] at h2
    obtain ⟨c, hc, rfl⟩ := h2
    have : c.rate = b.rate := by simpa using h1
    simp [m3uName, this]

/-- C76: in a presentation with one video stream, a client finds in the master playlist one variant per video bitrate, in order, with the
bandwidth of the video and the last audio bitrate before it (96000 if there is none), and its addresses are the names under which the
playlists are written. -/
theorem hls_master (enc : Bool) (key : Str) (before after : List Stream) (v : Stream) (hb : ∀ s ∈ before, s.IsAudio) (ha : ∀ s ∈ after, s.IsAudio)
    (hv : v.isVideo = true) (hok : v.Ok) (hn : NameOk v.name) (hp : v.points ≠ []) (hnd : (v.bitrates.map Bitrate.rate).Nodup)
    (hsum : ∀ b ∈ v.bitrates, Fits (b.rate + audioRate 96000 before)) :
    ∃ variants, Spec.readMaster (hlsRender { encrypted := enc, keyFile := key } (before ++ v :: after)).root = some variants ∧
      variants.map (·.1) = v.bitrates.map (fun b => decInt (b.rate + audioRate 96000 before)) ∧
      variants.map (·.2) = v.bitrates.map (fun b => v.name ++ t! "_" ++ decInt b.rate ++ t! ".m3u8") ∧
      variants.map (·.2) = (hlsRender { encrypted := enc, keyFile := key } (before ++ v :: after)).names := by
  obtain ⟨p, pts, hpp⟩ : ∃ p pts, v.points = p :: pts := by
    cases h : v.points with
    | nil => exact absurd h hp
    | cons p pts => exact ⟨p, pts, rfl⟩
  have hvb : ∀ b ∈ v.bitrates, b.isVideo = true := fun b hb => by rw [(hok.2.1 b hb).2, hv]
  obtain ⟨_, hroot, hrates, hm3u⟩ := render_eq enc key before after v hb ha hv hvb p pts hpp
  have hread := read_variants (audioRate 96000 before) v.name hn v.bitrates (fun b hb => ⟨(hok.2.1 b hb).1, hvb b hb, hsum b hb⟩) []
  refine ⟨v.bitrates.map fun b => (decInt (b.rate + audioRate 96000 before), m3uName v.name b), ?_, ?_, ?_, ?_⟩
  · rw [hroot]
    generalize (v.bitrates.map (variantText (audioRate 96000 before) (t! "mp4a.40.2") v.name)).flatten = y at *
    have e : t! "#EXTM3U\n" ++ t! "#EXT-X-VERSION:3\n" ++ y = t! "#EXTM3U" ++ t! "\n" ++ (t! "#EXT-X-VERSION:3" ++ t! "\n" ++ y) := by simp
    simp only [Spec.readMaster]
    rw [e, lines_lf _ _ (by decide) (by decide), lines_lf _ _ (by decide) (by decide)]
    have m : Spec.masterLine (none, []) (t! "#EXT-X-VERSION:3") = some (none, []) := rfl
    simp only [if_true]
    rw [List.foldlM_cons, m, bindSome, hread]
    simp
  · simp
  · simp [m3uName]
  · simp only [Hls.names, hrates, hm3u, List.map_map, Function.comp_def]
    apply List.map_congr_left
    intro b hb
    rw [find_name v.bitrates hnd b hb]
    rfl

/-- The hypotheses are met. -/
example : (Spec.readMaster (hlsRender { encrypted := false, keyFile := t! "hls3.key" } ([hlsAudio] ++ hlsVideo (t! "video") [(0, 20000000)] :: [])).root).map (fun vs => vs.map (·.2)) =
    some [t! "video_750000.m3u8", t! "video_1500000.m3u8"] := by
  obtain ⟨vs, h1, _, h2, _⟩ := hls_master false (t! "hls3.key") [hlsAudio] [] (hlsVideo (t! "video") [(0, 20000000)])
    (by intro s hs; rw [List.mem_singleton.mp hs]; exact hlsAudio_isAudio) (by simp) rfl (by decide +kernel) (by decide) (by simp [hlsVideo]) (by decide) (by decide)
  rw [h1, Option.map_some, h2]
  decide +kernel

/-- C76, two video streams with the same bit rate: both playlists are written under the name of the second stream, and the address of the first
in the master playlist leads nowhere. -/
theorem hls_two_streams_witness :
    (hlsRender {} [hlsVideo (t! "v1") [(0, 20000000)], hlsVideo (t! "v2") [(0, 20000000)]]).names =
      [t! "v2_750000.m3u8", t! "v2_1500000.m3u8", t! "v2_750000.m3u8", t! "v2_1500000.m3u8"] := by
  decide +kernel

end Verif.Render
