import Verif.Render.Model
import Verif.Render.Spec
import Verif.Strings.Props

/-! C26: the manifest of a presentation, read by a DASH client. -/
namespace Verif.Render
open Xml
open Verif.Strings (dec decInt appendHex)
open Verif.Strings.Spec (decimal)

/-! ### Values -/

theorem digit_plain {c : Char} (h : (Verif.Strings.Spec.digit c).isSome) : c ≠ '"' ∧ c ≠ '<' ∧ c ≠ '&' := by
  refine ⟨?_, ?_, ?_⟩ <;> (intro e; subst e; revert h; decide)

theorem plain_dec {n : Nat} (h : n < 2 ^ 64) : Plain (dec n) := by
  intro c hc
  exact digit_plain ((Verif.Strings.dec_spec n h).2.1 c hc)

/-- A C++ `int` (and more). -/
def Fits (n : Int) : Prop := n.natAbs < 2 ^ 64

instance (n : Int) : Decidable (Fits n) := inferInstanceAs (Decidable (n.natAbs < 2 ^ 64))

theorem plain_decInt {n : Int} (h : Fits n) : Plain (decInt n) := by
  simp only [decInt]
  split
  · intro c hc
    rcases List.mem_cons.mp hc with rfl | hc
    · decide
    · exact plain_dec h c hc
  · exact plain_dec h

theorem hexChar_plain : ∀ i, i < 16 → (Verif.Strings.hexChars.getD i '\x00') ≠ '"' ∧ (Verif.Strings.hexChars.getD i '\x00') ≠ '<' ∧
    (Verif.Strings.hexChars.getD i '\x00') ≠ '&' := by decide +kernel

theorem plain_hex (s : Str) (hs : Plain s) (bs : List UInt8) : Plain (appendHex s bs) := by
  induction bs generalizing s with
  | nil => exact hs
  | cons b bs ih =>
    simp only [appendHex, List.foldl_cons] at *
    apply ih
    refine (hs.append ?_).append ?_
    · intro c hc
      rw [List.mem_singleton.mp hc]
      exact hexChar_plain _ (Nat.lt_of_le_of_lt Nat.and_le_right (by decide))
    · intro c hc
      rw [List.mem_singleton.mp hc]
      exact hexChar_plain _ (Nat.lt_of_le_of_lt Nat.and_le_right (by decide))

theorem plain_codec (data : List UInt8) : Plain (videoCodec data) := by
  simp only [videoCodec]
  refine plain_hex _ (plain_hex _ (plain_hex _ ?_ _) _) _
  intro c hc
  revert c
  decide

/-! ### The time line -/

theorem segments_succ (t d : Nat) : ∀ n, Spec.segments t d (n + 1) = Spec.segments t d n ++ [(t + n * d, d)] := by
  intro n
  induction n generalizing t with
  | zero => simp [Spec.segments]
  | succ n ih =>
    rw [Spec.segments, ih, Spec.segments]
    simp only [List.cons_append, List.cons.injEq, true_and]
    congr 3
    rw [Nat.succ_mul]; omega

/-- What has been written of the points so far: the elements `es` stand for `done` and end at `e`. -/
def Written (m : Mpd) (ts : List Tag) (es : List Elem) (done : List (Nat × Nat)) (e : Nat) : Prop :=
  Reads m.pointsXml ts ∧ Builds ts es ∧ ∀ es', Spec.timeline 0 (es ++ es') = (Spec.timeline e es').map (done ++ ·)

theorem reads_run (m : Mpd) (hd : m.lastDuration < 2 ^ 64) (hc : m.lastCount < 2 ^ 64) :
    Reads m.run [.empty (t! "S") ((t! "d", dec m.lastDuration) :: if 1 < m.lastCount then [(t! "r", dec (m.lastCount - 1))] else [])] := by
  intro out
  simp only [Mpd.run]
  by_cases h : 1 < m.lastCount
  · simp only [if_pos h, lex_append]
    simp [lex, step, isSpace, notName, lex_value, plain_dec hd, plain_dec (show m.lastCount - 1 < 2 ^ 64 by omega)]
  · simp only [if_neg h, lex_append]
    simp [lex, step, isSpace, notName, lex_value, plain_dec hd]

theorem timeline_run (t d n : Nat) (hd : d < 2 ^ 64) (hn : n < 2 ^ 64) (h0 : 0 < n) (es : List Elem) :
    Spec.timeline t (.mk (t! "S") ((t! "d", dec d) :: if 1 < n then [(t! "r", dec (n - 1))] else []) [] :: es) =
      (Spec.timeline (t + n * d) es).map (Spec.segments t d n ++ ·) := by
  have e1 : decimal (dec d) = some d := (Verif.Strings.dec_spec d hd).1
  have e2 : decimal (dec (n - 1)) = some (n - 1) := (Verif.Strings.dec_spec _ (by omega)).1
  by_cases h : 1 < n
  · have : n - 1 + 1 = n := by omega
    simp [Spec.timeline, Spec.number, attr, Elem.attrs, Elem.name, h, e1, e2, this]
  · have : n = 1 := by omega
    subst this
    simp [Spec.timeline, Spec.number, attr, Elem.attrs, Elem.name, e1]

theorem Written.run {m : Mpd} {ts es done e} (h : Written m ts es done e) (hd : m.lastDuration < 2 ^ 64) (hc : m.lastCount < 2 ^ 64)
    (h0 : 0 < m.lastCount) (m' : Mpd) (hm : m'.pointsXml = m.pointsXml ++ m.run) :
    ∃ ts' es', Written m' ts' es' (done ++ Spec.segments e m.lastDuration m.lastCount) (e + m.lastCount * m.lastDuration) := by
  obtain ⟨h1, h2, h3⟩ := h
  refine ⟨_, _, hm ▸ h1.append (reads_run m hd hc), h2.append (Builds.empty _ _), ?_⟩
  intro es'
  rw [List.append_assoc, h3, List.singleton_append, timeline_run e _ _ hd hc h0, Option.map_map]
  congr 1
  funext x
  simp

/-- The state while points are added: `pts` have been given. -/
def PInv (m : Mpd) (pts : List (Nat × Nat)) : Prop :=
  m.lastDuration < 2 ^ 64 ∧ m.lastCount ≤ pts.length ∧
  ∃ ts es done e, Written m ts es done e ∧ pts = done ++ Spec.segments e m.lastDuration m.lastCount ∧
    m.time = e + m.lastCount * m.lastDuration

theorem PInv.addPoint {m : Mpd} {pts : List (Nat × Nat)} (h : PInv m pts) (t d : Nat) (ht : t + d < 2 ^ 64) (hl : pts.length < 2 ^ 64) :
    PInv (m.addPoint t d) (pts ++ [(t, d)]) := by
  -- after the pending run has been dealt with
  have hf : PInv (m.flushRun t d) pts ∧ ((m.flushRun t d).time = t → (m.flushRun t d).lastCount = 0 ∨ (m.flushRun t d).lastDuration = d) ∧
      ((m.flushRun t d).time ≠ t → (m.flushRun t d).lastCount = 0) := by
    simp only [Mpd.flushRun]
    by_cases hc : (t ≠ m.time ∨ m.lastDuration ≠ d) ∧ m.lastCount > 0
    · rw [if_pos (by have := hc.1; rcases this with h | h; exact Or.inr (Or.inl h); exact Or.inl h), if_pos hc]
      obtain ⟨i1, i2, ts, es, done, e, hw, i3, i4⟩ := h
      obtain ⟨ts', es', hw'⟩ := hw.run i1 (by omega) hc.2
        { m with pointsXml := m.pointsXml ++ m.run, lastCount := 0, lastDuration := 0 } rfl
      refine ⟨⟨?_, ?_, ts', es', _, _, hw', ?_, ?_⟩, ?_, ?_⟩
      · show (0 : Nat) < 2 ^ 64; decide
      · simp
      · simpa [Spec.segments] using i3
      · simpa using i4
      · simp
      · simp
    · have hm : (if m.lastDuration ≠ d ∨ t ≠ m.time ∨ 0 = m.time then
          if (t ≠ m.time ∨ m.lastDuration ≠ d) ∧ m.lastCount > 0 then
            { m with pointsXml := m.pointsXml ++ m.run, lastCount := 0, lastDuration := 0 }
          else m
        else m) = m := by
        split
        · first | rfl | rw [if_neg hc]
        · rfl
      rw [hm]
      refine ⟨h, ?_, ?_⟩
      · intro e
        by_cases h0 : m.lastCount = 0
        · exact Or.inl h0
        · by_cases hd : m.lastDuration = d
          · exact Or.inr hd
          · exact absurd ⟨Or.inr hd, Nat.pos_of_ne_zero h0⟩ hc
      · intro e
        by_cases h0 : m.lastCount = 0
        · exact h0
        · exact absurd ⟨Or.inl (Ne.symm e), Nat.pos_of_ne_zero h0⟩ hc
  obtain ⟨h, heq, hne⟩ := hf
  simp only [Mpd.addPoint]
  generalize m.flushRun t d = m at h heq hne
  obtain ⟨i1, i2, ts, es, done, e, hw, i3, i4⟩ := h
  by_cases htm : t = m.time
  · rw [if_neg (by simp [htm])]
    have hd : m.lastCount = 0 ∨ m.lastDuration = d := heq htm.symm
    have hmul : m.lastCount * m.lastDuration = m.lastCount * d := by rcases hd with h | h <;> simp [h]
    have hseg : Spec.segments e m.lastDuration m.lastCount = Spec.segments e d m.lastCount := by
      rcases hd with h | h
      · rw [h]; rfl
      · rw [h]
    refine ⟨by show d < 2 ^ 64; omega, by simp; omega, ts, es, done, e, hw, ?_, ?_⟩
    · show _ = done ++ Spec.segments e d (m.lastCount + 1)
      rw [segments_succ, ← hmul, ← i4, ← htm, i3, hseg, List.append_assoc]
    · show (m.time + d) % 2 ^ 64 = e + (m.lastCount + 1) * d
      rw [Nat.mod_eq_of_lt (by omega), i4, hmul, Nat.succ_mul]; omega
  · rw [if_pos htm]
    have h0 : m.lastCount = 0 := hne (Ne.symm htm)
    obtain ⟨w1, w2, w3⟩ := hw
    have hr : Reads (t! "\t\t\t\t<S d=\"" ++ dec d ++ t! "\" t=\"" ++ dec t ++ t! "\" />\r\n")
        [.empty (t! "S") [(t! "d", dec d), (t! "t", dec t)]] := by
      intro out
      simp only [lex_append]
      simp [lex, step, isSpace, notName, lex_value, plain_dec (show d < 2 ^ 64 by omega), plain_dec (show t < 2 ^ 64 by omega)]
    refine ⟨by show (0 : Nat) < 2 ^ 64; decide, by show m.lastCount ≤ _; omega, _, _, done ++ [(t, d)], t + d,
      ⟨?_, w2.append (Builds.empty (t! "S") [(t! "d", dec d), (t! "t", dec t)]), ?_⟩, ?_, ?_⟩
    · show Reads (m.pointsXml ++ t! "\t\t\t\t<S d=\"" ++ dec d ++ t! "\" t=\"" ++ dec t ++ t! "\" />\r\n") _
      have := w1.append hr
      simp only [List.append_assoc] at this ⊢
      exact this
    · intro es'
      rw [List.append_assoc, w3]
      have e1 : decimal (dec d) = some d := (Verif.Strings.dec_spec d (by omega)).1
      have e2 : decimal (dec t) = some t := (Verif.Strings.dec_spec t (by omega)).1
      simp [Spec.timeline, Spec.number, attr, Elem.attrs, Elem.name, e1, e2, Spec.segments]
      first | (congr 1; done) | (congr 1; funext x; simp)
    · rw [i3, h0]
      simp [Spec.segments]
    · show (t + d) % 2 ^ 64 = t + d + m.lastCount * 0
      rw [Nat.mod_eq_of_lt ht]; omega

theorem PInv.endPoints {m : Mpd} {pts : List (Nat × Nat)} (h : PInv m pts) (hl : pts.length < 2 ^ 64) :
    ∃ ts es, Reads m.endPoints.pointsXml ts ∧ Builds ts es ∧ Spec.timeline 0 es = some pts := by
  obtain ⟨i1, i2, ts, es, done, e, hw, i3, i4⟩ := h
  simp only [Mpd.endPoints]
  by_cases h0 : m.lastCount > 0
  · rw [if_pos h0]
    obtain ⟨ts', es', h1, h2, h3⟩ := hw.run i1 (by omega) h0 { m with pointsXml := m.pointsXml ++ m.run, lastCount := 0 } rfl
    refine ⟨ts', es', h1, h2, ?_⟩
    have := h3 []
    rw [List.append_nil] at this
    rw [this, i3]
    simp [Spec.timeline]
  · rw [if_neg h0]
    obtain ⟨h1, h2, h3⟩ := hw
    refine ⟨ts, es, h1, h2, ?_⟩
    have := h3 []
    rw [List.append_nil] at this
    rw [this, i3, show m.lastCount = 0 by omega]
    simp [Spec.timeline, Spec.segments]

/-! ### Representations -/

/-- The numbers of a bitrate are `int`s. -/
def Bitrate.Ok : Bitrate → Prop
  | .video b w h _ => Fits b ∧ Fits w ∧ Fits h
  | .audio b r _ _ => Fits b ∧ Fits r

/-- The bit rate. -/
def Bitrate.rate : Bitrate → Int
  | .video b _ _ _ => b
  | .audio b _ _ _ => b

/-- The kind of a bitrate. -/
def Bitrate.isVideo : Bitrate → Bool
  | .video _ _ _ _ => true
  | .audio _ _ _ _ => false

/-- The codec of a bitrate. -/
def Bitrate.codec : Bitrate → Str
  | .video _ _ _ d => videoCodec d
  | .audio _ _ _ _ => t! "mp4a.40.2"

/-- The identifier of a bitrate in a stream. -/
def Bitrate.id (n : Int) : Bitrate → Str
  | .video b _ _ _ => decInt n ++ t! "_" ++ decInt b
  | .audio _ _ _ _ => decInt n

/-- The parts of the state that matter for the bitrates. -/
def BInv (m m0 : Mpd) (bs : List Bitrate) : Prop :=
  m.xml = m0.xml ∧ m.streamId = m0.streamId ∧ m.streamXml = m0.streamXml ∧ m.pointsXml = m0.pointsXml ∧ m.current = m0.current ∧
  m.isVideo = m0.isVideo ∧ m.time = m0.time ∧ m.lastDuration = m0.lastDuration ∧ m.lastCount = m0.lastCount ∧ m.useName = m0.useName ∧
  m.vProtection = m0.vProtection ∧ m.aProtection = m0.aProtection ∧ m.groupId = m0.groupId + bs.length ∧
  (Fits m0.maxWidth ∧ Fits m0.maxHeight → Fits m.maxWidth ∧ Fits m.maxHeight) ∧ Plain m.codecs ∧
  ∃ ts es, Reads m.reprXml ts ∧ Builds ts es ∧ (∀ e ∈ es, e.name = t! "Representation") ∧
    m.codecs = (bs.head?.map Bitrate.codec).getD [] ∧
    es.map (fun e => (attr e (t! "id"), attr e (t! "bandwidth"), attr e (t! "codecs"))) =
      bs.map fun b => (some (b.id m0.streamId), some (decInt b.rate), if b.codec = m.codecs then none else some b.codec)

theorem videoCodec_ne (data : List UInt8) : videoCodec data ≠ [] := by
  intro h
  have : (videoCodec data).length = 11 := by simp [videoCodec, appendHex]
  rw [h] at this
  cases this

theorem codec_ne (b : Bitrate) : b.codec ≠ [] := by
  cases b with
  | video _ _ _ d => exact videoCodec_ne d
  | audio _ _ _ _ => simp [Bitrate.codec]

theorem head_append (bs : List Bitrate) (b : Bitrate) :
    (((bs ++ [b]).head?.map Bitrate.codec).getD []) = if ((bs.head?.map Bitrate.codec).getD []).length = 0 then b.codec
      else (bs.head?.map Bitrate.codec).getD [] := by
  cases bs with
  | nil => simp
  | cons a bs => simp [codec_ne a]

set_option maxRecDepth 20000 in
theorem BInv.addBitrate {m m0 : Mpd} {bs : List Bitrate} (h : BInv m m0 bs) (b : Bitrate) (hb : b.Ok) (hid : Fits m.streamId)
    (hk : ∀ a ∈ bs, a.isVideo = b.isVideo) :
    BInv (m.addBitrate b) m0 (bs ++ [b]) := by
  obtain ⟨h1, h2, h3, h4, h5, h6, h7, h8, h9, h10, h11, h12, h13, h14, h15, ts, es, r1, r2, r3, rc, r4⟩ := h
  -- the codecs of the stream
  have hcod : (m.addBitrate b).codecs = if m.codecs.length = 0 then b.codec else m.codecs := by cases b <;> rfl
  have hcod' : (m.addBitrate b).codecs = ((bs ++ [b]).head?.map Bitrate.codec).getD [] := by rw [hcod, head_append, ← rc]
  -- one more representation
  have key : ∃ x as, (m.addBitrate b).reprXml = m.reprXml ++ x ∧ Reads x [.empty (t! "Representation") as] ∧
      (attr (.mk (t! "Representation") as []) (t! "id"), attr (.mk (t! "Representation") as []) (t! "bandwidth"),
        attr (.mk (t! "Representation") as []) (t! "codecs")) =
        (some (b.id m.streamId), some (decInt b.rate), if b.codec = (m.addBitrate b).codecs then none else some b.codec) := by
    cases b with
    | video b w hh data =>
      obtain ⟨p1, p2, p3⟩ := hb
      rw [hcod]
      refine ⟨t! "\t\t\t<Representation id=\"" ++ decInt m.streamId ++ t! "_" ++ decInt b
        ++ t! "\" frameRate=\"25\" sar=\"1:1\" startWithSAP=\"1\" bandwidth=\"" ++ decInt b
        ++ (if (if m.codecs.length = 0 then false else decide (m.codecs ≠ videoCodec data)) then t! "\" codecs=\"" ++ videoCodec data else [])
        ++ t! "\" width=\"" ++ decInt w ++ t! "\" height=\"" ++ decInt hh ++ t! "\"/>\r\n", ?_⟩
      have hx : (m.addBitrate (.video b w hh data)).reprXml = m.reprXml ++ (t! "\t\t\t<Representation id=\"" ++ decInt m.streamId ++ t! "_" ++ decInt b
        ++ t! "\" frameRate=\"25\" sar=\"1:1\" startWithSAP=\"1\" bandwidth=\"" ++ decInt b
        ++ (if (if m.codecs.length = 0 then false else decide (m.codecs ≠ videoCodec data)) then t! "\" codecs=\"" ++ videoCodec data else [])
        ++ t! "\" width=\"" ++ decInt w ++ t! "\" height=\"" ++ decInt hh ++ t! "\"/>\r\n") := by
        simp only [Mpd.addBitrate, Mpd.addVideo]
        simp only [List.append_assoc]
      obtain ⟨ac, hac⟩ : ∃ ac, ac = (if m.codecs.length = 0 then false else decide (m.codecs ≠ videoCodec data)) := ⟨_, rfl⟩
      have hac' : ac = false ↔ videoCodec data = if m.codecs.length = 0 then videoCodec data else m.codecs := by
        rw [hac]
        by_cases hl : m.codecs.length = 0
        · simp only [if_pos hl]
        · simp only [if_neg hl, decide_eq_false_iff_not, ne_eq, Decidable.not_not]
          exact eq_comm
      rw [← hac] at hx ⊢
      show ∃ as, _ ∧ _ ∧ _ = (some (decInt m.streamId ++ t! "_" ++ decInt b), some (decInt b),
        if videoCodec data = (if m.codecs.length = 0 then videoCodec data else m.codecs) then none else some (videoCodec data))
      rw [show (if videoCodec data = (if m.codecs.length = 0 then videoCodec data else m.codecs) then none else some (videoCodec data)) =
        if ac = false then none else some (videoCodec data) by simp only [hac']]
      clear hac hac'
      cases ac with
      | false =>
        refine ⟨[(t! "id", decInt m.streamId ++ t! "_" ++ decInt b), (t! "frameRate", t! "25"), (t! "sar", t! "1:1"),
          (t! "startWithSAP", t! "1"), (t! "bandwidth", decInt b), (t! "width", decInt w), (t! "height", decInt hh)], hx, ?_, ?_⟩
        · intro out
          simp only [lex_append]
          simp [lex, step, isSpace, notName, lex_value, plain_decInt p1, plain_decInt p2, plain_decInt p3, plain_decInt hid]
        · simp [attr, Elem.attrs]
      | true =>
        refine ⟨[(t! "id", decInt m.streamId ++ t! "_" ++ decInt b), (t! "frameRate", t! "25"), (t! "sar", t! "1:1"),
          (t! "startWithSAP", t! "1"), (t! "bandwidth", decInt b), (t! "codecs", videoCodec data), (t! "width", decInt w),
          (t! "height", decInt hh)], hx, ?_, ?_⟩
        · intro out
          simp only [lex_append, if_true]
          simp [lex, step, isSpace, notName, lex_value, plain_decInt p1, plain_decInt p2, plain_decInt p3, plain_decInt hid,
            plain_codec]
        · simp [attr, Elem.attrs]
    | audio b r _ _ =>
      obtain ⟨p1, p2⟩ := hb
      refine ⟨t! "\t\t\t<Representation id=\"" ++ decInt m.streamId ++ t! "\" bandwidth=\"" ++ decInt b
        ++ t! "\" audioSamplingRate=\"" ++ decInt r ++ t! "\"/>\r\n",
        [(t! "id", decInt m.streamId), (t! "bandwidth", decInt b), (t! "audioSamplingRate", decInt r)], ?_, ?_, ?_⟩
      · simp only [Mpd.addBitrate, Mpd.addAudio]
        simp only [List.append_assoc]
      · intro out
        simp only [lex_append]
        simp [lex, step, isSpace, notName, lex_value, plain_decInt p1, plain_decInt p2, plain_decInt hid]
      · rw [if_pos]
        · simp [attr, Elem.attrs, Bitrate.id, Bitrate.rate]
        · rw [hcod, rc]
          cases bs with
          | nil => rfl
          | cons a bs =>
            have := hk a List.mem_cons_self
            cases a with
            | video _ _ _ _ => cases this
            | audio _ _ _ _ => rfl
  obtain ⟨x, as, k1, k2, k3⟩ := key
  have hmap : es.map (fun e => (attr e (t! "id"), attr e (t! "bandwidth"), attr e (t! "codecs"))) =
      bs.map fun b' => (some (b'.id m0.streamId), some (decInt b'.rate), if b'.codec = (m.addBitrate b).codecs then none else some b'.codec) := by
    rw [r4]
    cases bs with
    | nil => rfl
    | cons a bs =>
      have : m.codecs ≠ [] := by rw [rc]; simpa using codec_ne a
      rw [hcod, if_neg (by simpa using this)]
  have rest : (m.addBitrate b).xml = m0.xml ∧ (m.addBitrate b).streamId = m0.streamId ∧ (m.addBitrate b).streamXml = m0.streamXml ∧
      (m.addBitrate b).pointsXml = m0.pointsXml ∧ (m.addBitrate b).current = m0.current ∧ (m.addBitrate b).isVideo = m0.isVideo ∧
      (m.addBitrate b).time = m0.time ∧ (m.addBitrate b).lastDuration = m0.lastDuration ∧ (m.addBitrate b).lastCount = m0.lastCount ∧
      (m.addBitrate b).useName = m0.useName ∧ (m.addBitrate b).vProtection = m0.vProtection ∧ (m.addBitrate b).aProtection = m0.aProtection ∧
      (m.addBitrate b).groupId = m.groupId + 1 := by
    cases b <;> exact ⟨h1, h2, h3, h4, h5, h6, h7, h8, h9, h10, h11, h12, rfl⟩
  obtain ⟨g1, g2, g3, g4, g5, g6, g7, g8, g9, g10, g11, g12, g13⟩ := rest
  refine ⟨g1, g2, g3, g4, g5, g6, g7, g8, g9, g10, g11, g12, ?_, ?_, ?_, _, _, k1 ▸ r1.append k2,
    r2.append (Builds.empty (t! "Representation") as), ?_, hcod', ?_⟩
  · rw [g13, h13]; simp; omega
  · intro hf
    obtain ⟨f1, f2⟩ := h14 hf
    cases b with
    | video b w hh data =>
      obtain ⟨p1, p2, p3⟩ := hb
      refine ⟨?_, ?_⟩
      · show Fits (if m.maxWidth < w then w else m.maxWidth)
        split <;> assumption
      · show Fits (if m.maxHeight < hh then hh else m.maxHeight)
        split <;> assumption
    | audio _ _ _ _ => exact ⟨f1, f2⟩
  · rw [hcod]
    split
    · cases b with
      | video _ _ _ data => exact plain_codec data
      | audio _ _ _ _ => show Plain (t! "mp4a.40.2"); intro c hc; revert c; decide
    · exact h15
  · intro e he
    rcases List.mem_append.mp he with h | h
    · exact r3 e h
    · rw [List.mem_singleton.mp h]; rfl
  · rw [List.map_append, List.map_append, hmap, List.map_singleton, List.map_singleton, k3, h2]

theorem BInv.all {m0 : Mpd} (v : Bool) (bs : List Bitrate) (hb : ∀ b ∈ bs, b.Ok ∧ b.isVideo = v) (hid : Fits m0.streamId) :
    ∀ (m : Mpd) (done : List Bitrate), (∀ b ∈ done, b.isVideo = v) → BInv m m0 done → BInv (bs.foldl Mpd.addBitrate m) m0 (done ++ bs) := by
  induction bs with
  | nil => intro m done _ h; simpa using h
  | cons b bs ih =>
    intro m done hv h
    obtain ⟨hok, hbv⟩ := hb b List.mem_cons_self
    have := ih (fun x hx => hb x (List.mem_cons_of_mem _ hx)) (m.addBitrate b) (done ++ [b]) (by
        intro a ha
        rcases List.mem_append.mp ha with h | h
        · exact hv a h
        · rw [List.mem_singleton.mp h]; exact hbv)
      (h.addBitrate b hok (by rw [h.2.1]; exact hid) (fun a ha => by rw [hv a ha, hbv]))
    simpa using this

/-! ### A stream -/

/-- What adding points leaves alone. -/
def Same (m m0 : Mpd) : Prop :=
  m.xml = m0.xml ∧ m.streamId = m0.streamId ∧ m.streamXml = m0.streamXml ∧ m.reprXml = m0.reprXml ∧ m.codecs = m0.codecs ∧
  m.current = m0.current ∧ m.isVideo = m0.isVideo ∧ m.useName = m0.useName ∧ m.vProtection = m0.vProtection ∧
  m.aProtection = m0.aProtection ∧ m.groupId = m0.groupId ∧ m.maxWidth = m0.maxWidth ∧ m.maxHeight = m0.maxHeight

theorem Same.refl (m : Mpd) : Same m m := by simp [Same]

theorem Same.trans {a b c : Mpd} (h : Same a b) (h' : Same b c) : Same a c := by
  simp only [Same] at *
  grind

theorem same_addPoint (m : Mpd) (t d : Nat) : Same (m.addPoint t d) m := by
  have h1 : Same (m.flushRun t d) m := by
    simp only [Mpd.flushRun]
    split
    · split <;> simp [Same]
    · exact Same.refl m
  refine Same.trans ?_ h1
  simp only [Mpd.addPoint]
  split <;> simp [Same]

theorem same_endPoints (m : Mpd) : Same m.endPoints m := by
  simp only [Mpd.endPoints]
  split <;> simp [Same]

theorem points_all (pts : List (Nat × Nat)) (hp : ∀ p ∈ pts, p.1 + p.2 < 2 ^ 64) : ∀ (m : Mpd) (done : List (Nat × Nat)),
    (done ++ pts).length ≤ 2 ^ 64 → PInv m done →
    PInv (pts.foldl (fun m p => m.addPoint p.1 p.2) m) (done ++ pts) ∧ Same (pts.foldl (fun m p => m.addPoint p.1 p.2) m) m := by
  induction pts with
  | nil => intro m done _ h; exact ⟨by simpa using h, Same.refl m⟩
  | cons p pts ih =>
    intro m done hl h
    simp only [List.length_append, List.length_cons] at hl
    have h1 := h.addPoint p.1 p.2 (hp p List.mem_cons_self) (by omega)
    obtain ⟨a, b⟩ := ih (fun x hx => hp x (List.mem_cons_of_mem _ hx)) _ (done ++ [p]) (by simp; omega) h1
    exact ⟨by simpa using a, b.trans (same_addPoint m p.1 p.2)⟩

/-- A stream as the theorems need it: a name that can stand in an attribute, `int` parameters, bitrates of the kind of the
stream (`render_type` calls the method for the kind of the stream), times that fit 64 bits. -/
def Stream.Ok (s : Stream) : Prop :=
  Plain s.name ∧ (∀ b ∈ s.bitrates, b.Ok ∧ b.isVideo = s.isVideo) ∧ (∀ p ∈ s.points, p.1 + p.2 < 2 ^ 64) ∧ s.points.length < 2 ^ 64

/-- Texts for `add_content_protection`: well-formed, with `ContentProtection` elements only. -/
def Protection (p : Str) : Prop := ∃ f, parse p = some f ∧ ∀ e ∈ f, e.name = t! "ContentProtection"

theorem protection_reads (ps : List Str) (h : ∀ p ∈ ps, Protection p) :
    ∃ ts es, Reads (ps.map fun p => p ++ t! "\r\n").flatten ts ∧ Builds ts es ∧ ∀ e ∈ es, e.name = t! "ContentProtection" := by
  induction ps with
  | nil => exact ⟨[], [], Reads.nil, Builds.nil, by simp⟩
  | cons p ps ih =>
    obtain ⟨ts, es, h1, h2, h3⟩ := ih (fun x hx => h x (List.mem_cons_of_mem _ hx))
    obtain ⟨f, hf, hn⟩ := h p List.mem_cons_self
    obtain ⟨tp, g1, g2⟩ := parse_reads hf
    have hn' : Reads (t! "\r\n") [] := by intro out; simp [lex, step]
    refine ⟨tp ++ [] ++ ts, f ++ es, ?_, ?_, ?_⟩
    · simpa using (g1.append hn').append h1
    · simpa using g2.append h2
    · intro e he
      rcases List.mem_append.mp he with h | h
      · exact hn e h
      · exact h3 e h

theorem filter_none {l : List Elem} {n k : Str} (h : ∀ e ∈ l, e.name = k) (hk : k ≠ n) : (l.filter fun e => e.name = n) = [] := by
  rw [List.filter_eq_nil_iff]
  intro e he
  rw [h e he]
  simpa using hk

/-- The state between streams. -/
def Between (m m0 : Mpd) (n : Nat) : Prop :=
  m.streamId = m0.streamId + n ∧ m.useName = m0.useName ∧ m.vProtection = m0.vProtection ∧ m.aProtection = m0.aProtection ∧
  Fits m.maxWidth ∧ Fits m.maxHeight ∧ Fits m.groupId

/-- What a client reads for the stream with number `i`. -/
def setOf (useName : Bool) (i : Int) (s : Stream) : Spec.Set :=
  let n := if useName then s.name else if s.isVideo then t! "video" else t! "audio"
  let k := if s.isVideo then t! "v" else t! "a"
  { media := n ++ t! "_$Bandwidth$_$Time$.m4" ++ k
    initialization := n ++ t! "_$Bandwidth$_i.m4" ++ k
    segments := s.points
    representations := s.bitrates.map fun b => ⟨b.id i, decInt b.rate, b.codec⟩ }

theorem only_mid {a c : List Elem} {e : Elem} {n k k' : Str} (ha : ∀ x ∈ a, x.name = k) (hk : k ≠ n) (hc : ∀ x ∈ c, x.name = k')
    (hk' : k' ≠ n) (he : e.name = n) : Spec.only (a ++ e :: c) n = some e := by
  simp only [Spec.only, List.filter_append, filter_none ha hk, List.filter_cons, he, decide_true, if_true, filter_none hc hk', List.nil_append]

theorem all_map {α β : Type} (l : List α) (f : α → Option β) (g : α → β) (h : ∀ a ∈ l, f a = some (g a)) :
    Spec.all (l.map f) = some (l.map g) := by
  induction l with
  | nil => rfl
  | cons a l ih =>
    simp [Spec.all, h a List.mem_cons_self, ih fun x hx => h x (List.mem_cons_of_mem _ hx)]

theorem reps_read (c : Str) (i : Int) : ∀ (es : List Elem) (bs : List Bitrate),
    es.map (fun e => (attr e (t! "id"), attr e (t! "bandwidth"), attr e (t! "codecs"))) =
      bs.map (fun b => (some (b.id i), some (decInt b.rate), if b.codec = c then none else some b.codec)) →
    Spec.all (es.map (Spec.readRep (some c))) = some (bs.map fun b => ⟨b.id i, decInt b.rate, b.codec⟩) := by
  intro es
  induction es with
  | nil => intro bs h; cases bs with
    | nil => rfl
    | cons _ _ => simp at h
  | cons e es ih =>
    intro bs h
    cases bs with
    | nil => simp at h
    | cons b bs =>
      simp only [List.map_cons, List.cons.injEq, Prod.mk.injEq] at h
      obtain ⟨⟨h1, h2, h3⟩, h4⟩ := h
      have : Spec.readRep (some c) e = some ⟨b.id i, decInt b.rate, b.codec⟩ := by
        simp only [Spec.readRep, h1, h2, h3, Option.bind_some]
        split
        · next hc => simp [hc]
        · simp
      simp only [List.map_cons, this, Spec.all, ih bs h4, Option.map_some]

set_option maxRecDepth 20000 in
theorem stream_reads {m m0 : Mpd} {n : Nat} (hm : Between m m0 n) (s : Stream) (hs : s.Ok) (hid : Fits (m0.streamId + (n + 1)))
    (hg : Fits (m.groupId + s.bitrates.length))
    (hv : ∀ p ∈ m.vProtection, Protection p) (ha : ∀ p ∈ m.aProtection, Protection p) :
    Between (m.stream s) m0 (n + 1) ∧ (m.stream s).groupId = m.groupId + s.bitrates.length ∧
    ∃ x ts e, (m.stream s).xml = m.xml ++ x ∧ Reads x ts ∧ Builds ts [e] ∧ e.name = t! "AdaptationSet" ∧
      Spec.readSet e = some (setOf m.useName (m0.streamId + (n + 1)) s) := by
  obtain ⟨o1, o2, o3, o4⟩ := hs
  obtain ⟨q1, q2, q3, q4, q5, q6, q7⟩ := hm
  -- the beginning
  obtain ⟨mb, hmb⟩ : ∃ mb, mb = m.beginStream s.name s.isVideo := ⟨_, rfl⟩
  have hidb : Fits mb.streamId := by
    rw [hmb]; show Fits (m.streamId + 1)
    rw [q1]; rw [show m0.streamId + (n : Int) + 1 = m0.streamId + ((n : Int) + 1) by omega]; exact hid
  have hb0 : BInv mb mb [] := by
    refine ⟨rfl, rfl, rfl, rfl, rfl, rfl, rfl, rfl, rfl, rfl, rfl, rfl, by simp, fun h => h, ?_, [], [], ?_, Builds.nil, by simp, ?_, rfl⟩
    · rw [hmb]; intro c hc; simp [Mpd.beginStream] at hc
    · rw [hmb]; exact Reads.nil
    · rw [hmb]; rfl
  have hb := BInv.all s.isVideo s.bitrates o2 hidb mb [] (by simp) hb0
  simp only [List.nil_append] at hb
  obtain ⟨mr, hmr⟩ : ∃ mr, mr = s.bitrates.foldl Mpd.addBitrate mb := ⟨_, rfl⟩
  rw [← hmr] at hb
  obtain ⟨b1, b2, b3, b4, b5, b6, b7, b8, b9, b10, b11, b12, b13, b14, b15, rts, res, r1, r2, r3, rc, r4⟩ := hb
  have hp0 : PInv mr [] := by
    refine ⟨?_, ?_, [], [], [], 0, ⟨?_, Builds.nil, ?_⟩, ?_, ?_⟩
    · rw [b8, hmb]; show (0 : Nat) < 2 ^ 64; decide
    · rw [b9, hmb]; show 0 ≤ _; exact Nat.le_refl 0
    · rw [b4, hmb]; exact Reads.nil
    · intro es'; simp
    · rw [b9, hmb]; rfl
    · rw [b7, b9, hmb]; simp [Mpd.beginStream]
  obtain ⟨mp, hmp⟩ : ∃ mp, mp = s.points.foldl (fun m p => m.addPoint p.1 p.2) mr := ⟨_, rfl⟩
  obtain ⟨p1, p2⟩ := points_all s.points o3 mr [] (by simp; omega) hp0
  rw [← hmp] at p1 p2
  simp only [List.nil_append] at p1
  obtain ⟨pts, pes, s1, s2, s3⟩ := p1.endPoints o4
  have p3 := (same_endPoints mp).trans p2
  obtain ⟨me, hme⟩ : ∃ me, me = mp.endPoints := ⟨_, rfl⟩
  rw [← hme] at s1 p3
  obtain ⟨e1, e2, e3, e4, e5, e6, e7, e8, e9, e10, e11, e12, e13⟩ := p3
  -- what is written
  have hstream : m.stream s = mp.endStream := by rw [hmp, hmr, hmb]; rfl
  have hvid : me.isVideo = s.isVideo := by rw [e7, b6, hmb]; rfl
  have hcur : me.current = if m.useName then s.name else if s.isVideo then t! "video" else t! "audio" := by rw [e6, b5, hmb]; rfl
  have hplain : Plain me.current := by
    rw [hcur]
    split
    · exact o1
    · split <;> (intro c hc; revert c; decide)
  have hsx : me.streamXml = t! "\t\t<AdaptationSet id=\"" ++ decInt mb.streamId ++ t! "\" group=\"" ++ decInt m.groupId
      ++ t! "\" segmentAlignment=\"true\" contentType=\"" ++ (if s.isVideo then t! "video" else t! "audio")
      ++ t! "\" mimeType=\"" ++ (if s.isVideo then t! "video/mp4" else t! "audio/mp4") ++ t! "\" " := by
    rw [e3, b3, hmb]; rfl
  have hmx : Fits me.maxWidth ∧ Fits me.maxHeight := by
    rw [e12, e13]; exact b14 ⟨by rw [hmb]; exact q5, by rw [hmb]; exact q6⟩
  have hgr : me.groupId = m.groupId + s.bitrates.length := by rw [e11, b13, hmb]; rfl
  have hvp : me.vProtection = m.vProtection := by rw [e9, b11, hmb]; rfl
  have hap : me.aProtection = m.aProtection := by rw [e10, b12, hmb]; rfl
  have hcod : Plain me.codecs := by rw [e5]; exact b15
  have hrepr : me.reprXml = mr.reprXml := e4
  obtain ⟨cts, ces, c1, c2, c3⟩ := protection_reads (if me.isVideo then me.vProtection else me.aProtection) (by
    split
    · rw [hvp]; exact hv
    · rw [hap]; exact ha)
  -- the opening tag
  have hopen : ∃ as, Reads (me.streamXml ++ t! " codecs=\"" ++ me.codecs
      ++ (if me.isVideo then t! "\" maxWidth=\"" ++ decInt me.maxWidth ++ t! "\" maxHeight=\"" ++ decInt me.maxHeight else [])
      ++ t! "\" >" ++ t! "\r\n") [.start (t! "AdaptationSet") as] ∧
        ∀ cs, attr (.mk (t! "AdaptationSet") as cs) (t! "codecs") = some me.codecs := by
    rw [hsx, hvid]
    cases s.isVideo with
    | true =>
      refine ⟨[(t! "id", decInt mb.streamId), (t! "group", decInt m.groupId), (t! "segmentAlignment", t! "true"),
        (t! "contentType", t! "video"), (t! "mimeType", t! "video/mp4"), (t! "codecs", me.codecs),
        (t! "maxWidth", decInt me.maxWidth), (t! "maxHeight", decInt me.maxHeight)], ?_, by intro cs; simp [attr, Elem.attrs]⟩
      intro out
      simp only [lex_append, if_true]
      simp [lex, step, isSpace, notName, lex_value, plain_decInt hidb, plain_decInt q7, plain_decInt hmx.1, plain_decInt hmx.2, hcod]
    | false =>
      refine ⟨[(t! "id", decInt mb.streamId), (t! "group", decInt m.groupId), (t! "segmentAlignment", t! "true"),
        (t! "contentType", t! "audio"), (t! "mimeType", t! "audio/mp4"), (t! "codecs", me.codecs)], ?_, by intro cs; simp [attr, Elem.attrs]⟩
      intro out
      simp only [lex_append]
      simp [lex, step, isSpace, notName, lex_value, plain_decInt hidb, plain_decInt q7, hcod]
  obtain ⟨as, hopen, hac⟩ := hopen
  obtain ⟨k, hk⟩ : ∃ k, k = if me.isVideo then t! "v" else t! "a" := ⟨_, rfl⟩
  have hkp : Plain k := by rw [hk]; split <;> (intro c hc; revert c; decide)
  have htempl : Reads (t! "\t\t\t<SegmentTemplate timescale=\"10000000\" media=\"" ++ me.current ++ t! "_$Bandwidth$_$Time$.m4" ++ k
      ++ t! "\" initialization=\"" ++ me.current ++ t! "_$Bandwidth$_i.m4" ++ k ++ t! "\" >\r\n" ++ t! "\t\t\t<SegmentTimeline>\r\n")
      [.start (t! "SegmentTemplate") [(t! "timescale", t! "10000000"), (t! "media", me.current ++ t! "_$Bandwidth$_$Time$.m4" ++ k),
        (t! "initialization", me.current ++ t! "_$Bandwidth$_i.m4" ++ k)], .start (t! "SegmentTimeline") []] := by
    intro out
    simp only [lex_append]
    simp [lex, step, isSpace, notName, lex_value, hplain, hkp]
  have hclose : Reads (t! "\t\t\t</SegmentTimeline>" ++ t! "\r\n\t\t\t</SegmentTemplate>\r\n")
      [.close (t! "SegmentTimeline"), .close (t! "SegmentTemplate")] := by
    intro out
    simp only [lex_append]
    simp [lex, step, isSpace, notName]
  have hlast : Reads (t! "\t\t</AdaptationSet>\r\n") [.close (t! "AdaptationSet")] := by
    intro out
    simp [lex, step, isSpace, notName]
  have hread := (((((hopen.append c1).append htempl).append s1).append hclose).append (hrepr ▸ r1)).append hlast
  have hbt : Builds (.start (t! "SegmentTemplate") [(t! "timescale", t! "10000000"), (t! "media", me.current ++ t! "_$Bandwidth$_$Time$.m4" ++ k),
        (t! "initialization", me.current ++ t! "_$Bandwidth$_i.m4" ++ k)] :: (.start (t! "SegmentTimeline") [] :: (pts ++ [.close (t! "SegmentTimeline")]) ++ [.close (t! "SegmentTemplate")]))
      [.mk (t! "SegmentTemplate") [(t! "timescale", t! "10000000"), (t! "media", me.current ++ t! "_$Bandwidth$_$Time$.m4" ++ k),
        (t! "initialization", me.current ++ t! "_$Bandwidth$_i.m4" ++ k)] [.mk (t! "SegmentTimeline") [] pes]] :=
    Builds.elem _ _ (Builds.elem _ _ s2)
  have hball := Builds.elem (t! "AdaptationSet") as ((c2.append hbt).append r2)
  refine ⟨?_, ?_, _, _, .mk (t! "AdaptationSet") as (ces ++ [.mk (t! "SegmentTemplate") [(t! "timescale", t! "10000000"), (t! "media", me.current ++ t! "_$Bandwidth$_$Time$.m4" ++ k),
        (t! "initialization", me.current ++ t! "_$Bandwidth$_i.m4" ++ k)] [.mk (t! "SegmentTimeline") [] pes]] ++ res), ?_, hread, ?_, rfl, ?_⟩
  · refine ⟨?_, ?_, ?_, ?_, ?_, ?_, ?_⟩
    · rw [hstream]; show mp.endPoints.streamId = _
      rw [← hme, e2, b2, hmb]; show m.streamId + 1 = _
      rw [q1]; omega
    · rw [hstream]; show mp.endPoints.useName = _
      rw [← hme, e8, b10, hmb]; exact q2
    · rw [hstream]; show mp.endPoints.vProtection = _
      rw [← hme, hvp]; exact q3
    · rw [hstream]; show mp.endPoints.aProtection = _
      rw [← hme, hap]; exact q4
    · rw [hstream]; show Fits mp.endPoints.maxWidth
      rw [← hme]; exact hmx.1
    · rw [hstream]; show Fits mp.endPoints.maxHeight
      rw [← hme]; exact hmx.2
    · rw [hstream]; show Fits mp.endPoints.groupId
      rw [← hme, hgr]; exact hg
  · rw [hstream]; show mp.endPoints.groupId = _
    rw [← hme]; exact hgr
  · rw [hstream]
    simp only [Mpd.endStream, ← hme, ← hk]
    rw [show me.xml = m.xml by rw [e1, b1, hmb]; rfl]
    simp only [List.append_assoc]
  · simpa using hball
  · simp only [Spec.readSet, Elem.children]
    rw [List.append_assoc, List.singleton_append, only_mid (n := t! "SegmentTemplate")
      (e := .mk (t! "SegmentTemplate") [(t! "timescale", t! "10000000"), (t! "media", me.current ++ t! "_$Bandwidth$_$Time$.m4" ++ k),
        (t! "initialization", me.current ++ t! "_$Bandwidth$_i.m4" ++ k)] [.mk (t! "SegmentTimeline") [] pes]) c3 (by decide) r3 (by decide) rfl]
    have hres : (res.filter fun e => e.name = t! "Representation") = res := by
      rw [List.filter_eq_self]
      intro e he
      simp [r3 e he]
    have hfil : ((ces ++ Elem.mk (t! "SegmentTemplate") [(t! "timescale", t! "10000000"), (t! "media", me.current ++ t! "_$Bandwidth$_$Time$.m4" ++ k),
        (t! "initialization", me.current ++ t! "_$Bandwidth$_i.m4" ++ k)] [.mk (t! "SegmentTimeline") [] pes] :: res).filter
          fun e => e.name = t! "Representation") = res := by
      rw [List.filter_append, filter_none c3 (by decide), List.nil_append, List.filter_cons_of_neg (by simp [Elem.name]), hres]
    have hmi : mb.streamId = m0.streamId + (n + 1) := by
      rw [hmb]; show m.streamId + 1 = _
      rw [q1]; omega
    have hreps : Spec.all (res.map (Spec.readRep (some me.codecs))) = some (s.bitrates.map fun b => ⟨b.id mb.streamId, decInt b.rate, b.codec⟩) :=
      reps_read _ _ _ _ (by rw [e5]; exact r4)
    rw [hfil, hac, hreps, hmi]
    have honly : ∀ l, Spec.only [Elem.mk (t! "SegmentTimeline") [] l] (t! "SegmentTimeline") = some (.mk (t! "SegmentTimeline") [] l) := by
      intro l; simp [Spec.only, Elem.name]
    simp [attr, Elem.attrs, honly, s3, setOf, hcur, hk, hvid]

end Verif.Render
