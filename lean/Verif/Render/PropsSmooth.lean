import Verif.Render.PropsHls
import Verif.Render.Smooth
import Verif.Render.SpecSmooth
import Verif.Clock.Props

/-! C77, C78, C79: the Smooth Streaming manifest. -/
namespace Verif.Render
open Xml
open Verif.Strings (dec decInt dec_spec appendHex)
open Verif.Strings.Spec (decimal Replaced)

/-! ### Texts -/

theorem plain_hns {x : Int} (h : x.natAbs < 2 ^ 63) : Plain (Verif.Clock.hns x) := by
  have key : ∀ n : Int, 0 ≤ n → n.natAbs < 2 ^ 63 → Plain (Verif.Clock.toText n) := by
    intro n hn hb
    obtain ⟨h1, h2, h3, h4⟩ := Verif.Clock.parts hn
    have hz : ∀ (p : Prop) [Decidable p], Plain (if p then ['0'] else []) := by
      intro p _
      split <;> (intro c hc; revert c; decide)
    have f1 : Fits (Verif.Clock.hours n) := by rw [h1]; simp only [Fits]; omega
    have f2 : Fits (Verif.Clock.minutes n) := by rw [h2]; simp only [Fits]; omega
    have f3 : Fits (Verif.Clock.seconds n) := by rw [h3]; simp only [Fits]; omega
    have f4 : Fits (Verif.Clock.millis n) := by rw [h4]; simp only [Fits]; omega
    simp only [Verif.Clock.toText]
    refine ((((((((((((hz _).append (plain_decInt f1)).append ?_).append (hz _)).append (plain_decInt f2)).append ?_).append (hz _)).append
      (plain_decInt f3)).append ?_).append (hz _)).append (hz _)).append (plain_decInt f4))
    all_goals (intro c hc; revert c; decide)
  simp only [Verif.Clock.hns]
  refine Plain.append ?_ (key _ ?_ ?_)
  · split <;> (intro c hc; revert c; decide)
  · split <;> omega
  · split <;> (simp; omega)

/-- A file of a point as the theorems need it. -/
def Info.Ok (i : Info) : Prop := Plain i.path ∧ i.composition < 2 ^ 64 ∧ i.computed < 2 ^ 64 ∧ i.computed ≠ 2 ^ 63

instance (i : Info) : Decidable i.Ok := inferInstanceAs (Decidable (_ ∧ _ ∧ _ ∧ _))

theorem info_reads (i : Info) (hi : i.Ok) : ∃ n as, Reads i.text [.empty n as] := by
  obtain ⟨h1, h2, h3, h4⟩ := hi
  have hh : Plain (Verif.Clock.hns (if i.computed < 2 ^ 63 then (i.computed : Int) else (i.computed : Int) - 2 ^ 64)) := by
    apply plain_hns
    split <;> omega
  obtain ⟨k, hk⟩ : ∃ k, k = Verif.Clock.hns (if i.computed < 2 ^ 63 then (i.computed : Int) else (i.computed : Int) - 2 ^ 64) := ⟨_, rfl⟩
  rw [← hk] at hh
  simp only [Info.text]
  rw [← hk]
  cases i.cross with
  | true =>
    refine ⟨t! "cp", [(t! "p", i.path), (t! "t", dec i.composition), (t! "c", dec i.computed), (t! "k", k)], ?_⟩
    intro out
    simp only [if_true, lex_append]
    simp [lex, step, isSpace, notName, lex_value, h1, plain_dec h2, plain_dec h3, hh]
  | false =>
    refine ⟨t! "h", [(t! "p", i.path), (t! "t", dec i.composition), (t! "c", dec i.computed), (t! "k", k)], ?_⟩
    intro out
    simp only [Bool.false_eq_true, if_false, lex_append]
    simp [lex, step, isSpace, notName, lex_value, h1, plain_dec h2, plain_dec h3, hh]

theorem infos_read (is : List Info) (hi : ∀ i ∈ is, i.Ok) : ∃ ts es, Reads (is.map Info.text).flatten ts ∧ Builds ts es := by
  induction is with
  | nil => exact ⟨[], [], Reads.nil, Builds.nil⟩
  | cons i is ih =>
    obtain ⟨n, as, h⟩ := info_reads i (hi i List.mem_cons_self)
    obtain ⟨ts, es, h1, h2⟩ := ih fun x hx => hi x (List.mem_cons_of_mem _ hx)
    exact ⟨_, _, by simpa using h.append h1, (Builds.empty n as).append h2⟩

/-! ### Points -/

/-- Points with nothing between them, from `t` on. -/
def Contiguous : Nat → List (Nat × Nat) → Prop
  | _, [] => True
  | t, p :: pts => p.1 = t ∧ Contiguous (t + p.2) pts

theorem pointsOf_contiguous : ∀ keys : List Nat, keys.Pairwise (· < ·) → ∀ a, keys.head? = some a → Contiguous a (pointsOf keys) := by
  intro keys
  induction keys with
  | nil => intro _ a h; cases h
  | cons k keys ih =>
    intro hp a ha
    simp only [List.head?_cons, Option.some.injEq] at ha
    subst ha
    cases keys with
    | nil => trivial
    | cons b keys =>
      have hkb : k < b := (List.pairwise_cons.mp hp).1 b List.mem_cons_self
      refine ⟨rfl, ?_⟩
      show Contiguous (k + (b - k)) _
      rw [show k + (b - k) = b by omega]
      exact ih (List.pairwise_cons.mp hp).2 b rfl

theorem pointsOf_bound : ∀ keys : List Nat, keys.Pairwise (· < ·) → (∀ k ∈ keys, k < 2 ^ 64) → ∀ p ∈ pointsOf keys, p.1 + p.2 < 2 ^ 64 := by
  intro keys
  induction keys with
  | nil => intro _ _ p hp; cases hp
  | cons k keys ih =>
    intro hp hb p hm
    cases keys with
    | nil => cases hm
    | cons b keys =>
      have hkb : k < b := (List.pairwise_cons.mp hp).1 b List.mem_cons_self
      have hbb := hb b (List.mem_cons_of_mem _ List.mem_cons_self)
      rcases List.mem_cons.mp hm with rfl | hm
      · show k + (b - k) < 2 ^ 64; omega
      · exact ih (List.pairwise_cons.mp hp).2 (fun x hx => hb x (List.mem_cons_of_mem _ hx)) p hm

theorem pointsOf_length : ∀ keys : List Nat, (pointsOf keys).length = keys.length - 1 := by
  intro keys
  induction keys with
  | nil => rfl
  | cons k keys ih =>
    cases keys with
    | nil => rfl
    | cons b keys => simp only [pointsOf, List.length_cons] at ih ⊢; omega

theorem point_reads (r : Ssf) (t d : Nat) (is : List Info) (ht : t < 2 ^ 64) (hd : d < 2 ^ 64) (hi : ∀ i ∈ is, i.Ok) :
    ∃ x ts as es, (r.point t d is).xml = r.xml ++ x ∧ Reads x ts ∧ Builds ts [.mk (t! "c") as es] ∧
      attr (.mk (t! "c") as es) (t! "d") = some (dec d) ∧ attr (.mk (t! "c") as es) (t! "t") = if r.beginStream then some (dec t) else none := by
  obtain ⟨ts, es, h1, h2⟩ := infos_read is hi
  obtain ⟨as, ho, ha1, ha2⟩ : ∃ as, Reads (t! "<c d=\"" ++ dec d ++ (if r.beginStream then t! "\" t=\"" ++ dec t else []) ++ t! "\">") [.start (t! "c") as] ∧
      (∀ es, attr (.mk (t! "c") as es) (t! "d") = some (dec d)) ∧ ∀ es, attr (.mk (t! "c") as es) (t! "t") = if r.beginStream then some (dec t) else none := by
    cases r.beginStream with
    | true =>
      refine ⟨[(t! "d", dec d), (t! "t", dec t)], ?_, ?_, ?_⟩
      · intro out
        simp only [if_true, lex_append]
        simp [lex, step, isSpace, notName, lex_value, plain_dec ht, plain_dec hd]
      · intro es; simp [attr, Elem.attrs]
      · intro es; simp [attr, Elem.attrs]
    | false =>
      refine ⟨[(t! "d", dec d)], ?_, ?_, ?_⟩
      · intro out
        simp only [Bool.false_eq_true, if_false, lex_append]
        simp [lex, step, isSpace, notName, lex_value, plain_dec hd]
      · intro es; simp [attr, Elem.attrs]
      · intro es; simp [attr, Elem.attrs]
  have hc : Reads (t! "</c>\r\n") [.close (t! "c")] := by intro out; simp [lex, step, isSpace, notName]
  refine ⟨_, _, as, es, ?_, (ho.append h1).append hc, ?_, ha1 es, ha2 es⟩
  · simp only [Ssf.point, Ssf.addPoint, List.append_assoc]
  · simpa using Builds.elem (t! "c") as h2

theorem points_rest (pts : List (Nat × Nat)) : ∀ (infos : List (List Info)) (r : Ssf) (t : Nat), r.beginStream = false → infos.length = pts.length →
    (∀ p ∈ pts, p.1 + p.2 < 2 ^ 64) → (∀ is ∈ infos, ∀ i ∈ is, i.Ok) → Contiguous t pts →
    ∃ x ts es, ((pts.zip infos).foldl (fun r p => r.point p.1.1 p.1.2 p.2) r).xml = r.xml ++ x ∧ Reads x ts ∧ Builds ts es ∧
      (∀ e ∈ es, e.name = t! "c") ∧ Spec.chunks t es = some pts ∧
      ((pts.zip infos).foldl (fun r p => r.point p.1.1 p.1.2 p.2) r).index = r.index ∧
      ((pts.zip infos).foldl (fun r p => r.point p.1.1 p.1.2 p.2) r).useName = r.useName := by
  induction pts with
  | nil => intro infos r t _ _ _ _ _; exact ⟨[], [], [], by simp, Reads.nil, Builds.nil, by simp, rfl, rfl, rfl⟩
  | cons p pts ih =>
    intro infos r t hb hl hp hi hc
    cases infos with
    | nil => cases hl
    | cons is infos =>
      have hpb := hp p List.mem_cons_self
      obtain ⟨x, ts, as, es, h1, h2, h3, h4, h5⟩ := point_reads r p.1 p.2 is (by omega) (by omega) (hi is List.mem_cons_self)
      obtain ⟨y, tt, fs, g1, g2, g3, g4, g5, g6, g7⟩ := ih infos (r.point p.1 p.2 is) (t + p.2) rfl (by simpa using hl)
        (fun q hq => hp q (List.mem_cons_of_mem _ hq)) (fun q hq => hi q (List.mem_cons_of_mem _ hq)) hc.2
      refine ⟨x ++ y, ts ++ tt, [.mk (t! "c") as es] ++ fs, ?_, h2.append g2, h3.append g3, ?_, ?_, ?_, ?_⟩
      · rw [List.zip_cons_cons, List.foldl_cons, g1, h1, List.append_assoc]
      · intro e he
        rcases List.mem_append.mp he with h | h
        · rw [List.mem_singleton.mp h]; rfl
        · exact g4 e h
      · have e1 : decimal (dec p.2) = some p.2 := (dec_spec _ (by omega)).1
        rw [List.singleton_append, Spec.chunks]
        simp only [Spec.number, h5, hb, h4, Bool.false_eq_true, if_false, e1, Option.bind_some, g5, Option.map_some]
        rw [show t = p.1 from hc.1.symm]
      · rw [List.zip_cons_cons, List.foldl_cons, g6]; rfl
      · rw [List.zip_cons_cons, List.foldl_cons, g7]; rfl

theorem points_read (pts : List (Nat × Nat)) (infos : List (List Info)) (r : Ssf) (t : Nat) (hb : r.beginStream = true) (hl : infos.length = pts.length)
    (hp : ∀ p ∈ pts, p.1 + p.2 < 2 ^ 64) (hi : ∀ is ∈ infos, ∀ i ∈ is, i.Ok) (hc : Contiguous t pts) :
    ∃ x ts es, ((pts.zip infos).foldl (fun r p => r.point p.1.1 p.1.2 p.2) r).xml = r.xml ++ x ∧ Reads x ts ∧ Builds ts es ∧
      (∀ e ∈ es, e.name = t! "c") ∧ Spec.chunks 0 es = some pts ∧
      ((pts.zip infos).foldl (fun r p => r.point p.1.1 p.1.2 p.2) r).index = r.index ∧
      ((pts.zip infos).foldl (fun r p => r.point p.1.1 p.1.2 p.2) r).useName = r.useName := by
  cases pts with
  | nil => exact ⟨[], [], [], by simp, Reads.nil, Builds.nil, by simp, rfl, rfl, rfl⟩
  | cons p pts =>
    cases infos with
    | nil => cases hl
    | cons is infos =>
      have hpb := hp p List.mem_cons_self
      obtain ⟨x, ts, as, es, h1, h2, h3, h4, h5⟩ := point_reads r p.1 p.2 is (by omega) (by omega) (hi is List.mem_cons_self)
      obtain ⟨y, tt, fs, g1, g2, g3, g4, g5, g6, g7⟩ := points_rest pts infos (r.point p.1 p.2 is) (t + p.2) rfl (by simpa using hl)
        (fun q hq => hp q (List.mem_cons_of_mem _ hq)) (fun q hq => hi q (List.mem_cons_of_mem _ hq)) hc.2
      refine ⟨x ++ y, ts ++ tt, [.mk (t! "c") as es] ++ fs, ?_, h2.append g2, h3.append g3, ?_, ?_, ?_, ?_⟩
      · rw [List.zip_cons_cons, List.foldl_cons, g1, h1, List.append_assoc]
      · intro e he
        rcases List.mem_append.mp he with h | h
        · rw [List.mem_singleton.mp h]; rfl
        · exact g4 e h
      · have e1 : decimal (dec p.2) = some p.2 := (dec_spec _ (by omega)).1
        have e2 : decimal (dec p.1) = some p.1 := (dec_spec _ (by omega)).1
        rw [List.singleton_append, Spec.chunks]
        simp only [Spec.number, h5, hb, h4, if_true, e1, e2, Option.bind_some]
        rw [show p.1 = t from hc.1, g5, Option.map_some, show t = p.1 from hc.1.symm]
      · rw [List.zip_cons_cons, List.foldl_cons, g6]; rfl
      · rw [List.zip_cons_cons, List.foldl_cons, g7]; rfl

/-! ### Quality levels -/

/-- What a client finds for a bitrate. -/
def levelOf : Bitrate → Str × Str
  | .video b _ _ d => (decInt b, appendHex [] (startCodes d))
  | .audio b _ _ _ => (decInt b, [])

/-- The numbers are `int`s. -/
def Bitrate.Ok' : Bitrate → Prop
  | .video b w h _ => Fits b ∧ Fits w ∧ Fits h
  | .audio b r c n => Fits b ∧ Fits r ∧ Fits c ∧ Fits n

instance (b : Bitrate) : Decidable b.Ok' := by cases b <;> (simp only [Bitrate.Ok']; infer_instance)

set_option maxRecDepth 20000 in
theorem level_reads (r : Ssf) (b : Bitrate) (hb : b.Ok') (hi : Fits (r.index + 1)) :
    ∃ x e, (r.addBitrate b).xml = r.xml ++ x ∧ (∃ ts, Reads x ts ∧ Builds ts [e]) ∧ e.name = t! "QualityLevel" ∧ Spec.level e = some (levelOf b) ∧
      (r.addBitrate b).index = r.index + 1 ∧ (r.addBitrate b).useName = r.useName ∧ (r.addBitrate b).beginStream = r.beginStream := by
  cases b with
  | video b w h d =>
    obtain ⟨h1, h2, h3⟩ := hb
    have hx : Plain (appendHex [] (startCodes d)) := plain_hex _ (by intro c hc; cases hc) _
    refine ⟨t! "<QualityLevel Index=\"" ++ decInt (r.index + 1) ++ t! "\" Bitrate=\"" ++ decInt b ++ t! "\" CodecPrivateData=\""
        ++ appendHex [] (startCodes d) ++ t! "\" FourCC=\"AVC1\" MaxWidth=\"" ++ decInt w ++ t! "\" MaxHeight=\"" ++ decInt h ++ t! "\" />\r\n",
      .mk (t! "QualityLevel") [(t! "Index", decInt (r.index + 1)), (t! "Bitrate", decInt b), (t! "CodecPrivateData", appendHex [] (startCodes d)),
        (t! "FourCC", t! "AVC1"), (t! "MaxWidth", decInt w), (t! "MaxHeight", decInt h)] [], ?_, ⟨_, ?_, Builds.empty _ _⟩, rfl, ?_, rfl, rfl, rfl⟩
    · simp only [Ssf.addBitrate, List.append_assoc]
    · intro out
      simp only [lex_append]
      simp [lex, step, isSpace, notName, lex_value, plain_decInt h1, plain_decInt h2, plain_decInt h3, plain_decInt hi, hx]
    · simp [Spec.level, attr, Elem.attrs, levelOf]
  | audio b rate c n =>
    obtain ⟨h1, h2, h3, h4⟩ := hb
    refine ⟨t! "<QualityLevel Index=\"" ++ decInt (r.index + 1) ++ t! "\" Bitrate=\"" ++ decInt b
        ++ t! "\" FourCC=\"\" AudioTag=\"255\" CodecPrivateData=\"\"  Channels=\"" ++ decInt c ++ t! "\" SamplingRate=\"" ++ decInt rate
        ++ t! "\" BitsPerSample=\"" ++ decInt n ++ t! "\" PacketSize=\"4\"" ++ t! "/>\r\n",
      .mk (t! "QualityLevel") [(t! "Index", decInt (r.index + 1)), (t! "Bitrate", decInt b), (t! "FourCC", []), (t! "AudioTag", t! "255"),
        (t! "CodecPrivateData", []), (t! "Channels", decInt c), (t! "SamplingRate", decInt rate), (t! "BitsPerSample", decInt n), (t! "PacketSize", t! "4")] [],
      ?_, ⟨_, ?_, Builds.empty _ _⟩, rfl, ?_, rfl, rfl, rfl⟩
    · simp only [Ssf.addBitrate, List.append_assoc]
    · intro out
      simp only [lex_append]
      simp [lex, step, isSpace, notName, lex_value, plain_decInt h1, plain_decInt h2, plain_decInt h3, plain_decInt h4, plain_decInt hi]
    · simp [Spec.level, attr, Elem.attrs, levelOf]

theorem levels_read (bs : List Bitrate) : ∀ r : Ssf, (∀ b ∈ bs, b.Ok') → 0 ≤ r.index + 1 → r.index + 1 + bs.length < 2 ^ 64 →
    ∃ x ts es, (bs.foldl Ssf.addBitrate r).xml = r.xml ++ x ∧ Reads x ts ∧ Builds ts es ∧ (∀ e ∈ es, e.name = t! "QualityLevel") ∧
      Spec.all (es.map Spec.level) = some (bs.map levelOf) ∧ (bs.foldl Ssf.addBitrate r).index = r.index + bs.length ∧
      (bs.foldl Ssf.addBitrate r).useName = r.useName ∧ (bs.foldl Ssf.addBitrate r).beginStream = r.beginStream := by
  induction bs with
  | nil => intro r _ _ _; exact ⟨[], [], [], by simp, Reads.nil, Builds.nil, by simp, rfl, by simp, rfl, rfl⟩
  | cons b bs ih =>
    intro r hb h0 hl
    simp only [List.length_cons] at hl
    obtain ⟨x, e, h1, ⟨ts, h2, h3⟩, h4, h5, h6, h7, h8⟩ := level_reads r b (hb b List.mem_cons_self) (fits_of h0 (by omega))
    obtain ⟨y, tt, es, g1, g2, g3, g4, g5, g6, g7, g8⟩ := ih (r.addBitrate b) (fun c hc => hb c (List.mem_cons_of_mem _ hc)) (by omega) (by rw [h6]; omega)
    refine ⟨x ++ y, ts ++ tt, [e] ++ es, ?_, h2.append g2, h3.append g3, ?_, ?_, ?_, ?_, ?_⟩
    · rw [List.foldl_cons, g1, h1, List.append_assoc]
    · intro a ha
      rcases List.mem_append.mp ha with h | h
      · rw [List.mem_singleton.mp h]; exact h4
      · exact g4 a h
    · simp only [List.singleton_append, List.map_cons, h5, Spec.all, g5, Option.map_some]
    · rw [List.foldl_cons, g6, h6]; simp only [List.length_cons]; omega
    · rw [List.foldl_cons, g7, h7]
    · rw [List.foldl_cons, g8, h8]

/-! ### The document -/

/-- A stream as the theorems need it: its keys are increasing (they are keys of a map), there is at least one, and there is a list of files for each point. -/
def SmoothStream.Ok (s : SmoothStream) : Prop :=
  Plain s.name ∧ (∀ b ∈ s.bitrates, b.Ok') ∧ s.keys.Pairwise (· < ·) ∧ s.keys ≠ [] ∧ (∀ k ∈ s.keys, k < 2 ^ 64) ∧ s.keys.length < 2 ^ 64 ∧
    s.infos.length = (pointsOf s.keys).length ∧ ∀ is ∈ s.infos, ∀ i ∈ is, i.Ok

instance (s : SmoothStream) : Decidable s.Ok := inferInstanceAs (Decidable (_ ∧ _ ∧ _ ∧ _ ∧ _ ∧ _ ∧ _ ∧ _))

/-- What a client finds for a stream. -/
def smoothOf (useName : Bool) (s : SmoothStream) : Spec.Smooth :=
  { url := (if useName then s.name else if s.isVideo then t! "video" else t! "audio") ++ t! "_{bitrate}_{start time}" ++ (if s.isVideo then t! ".m4v" else t! ".m4a")
    announced := s.keys.length
    announcedLevels := s.bitrates.length
    levels := s.bitrates.map levelOf
    chunks := pointsOf s.keys }

set_option maxRecDepth 20000 in
theorem smooth_stream_reads (r : Ssf) (s : SmoothStream) (hs : s.Ok) (h0 : 0 ≤ r.index + 1) (hl : r.index + 1 + s.bitrates.length < 2 ^ 64) :
    ∃ x ts e, (r.stream s).xml = r.xml ++ x ∧ Reads x ts ∧ Builds ts [e] ∧ e.name = t! "StreamIndex" ∧
      Spec.readIndex e = some (smoothOf r.useName s) ∧ (r.stream s).index = r.index + s.bitrates.length ∧ (r.stream s).useName = r.useName := by
  obtain ⟨o1, o2, o3, o4, o5, o6, o7, o8⟩ := hs
  obtain ⟨rb, hrb⟩ : ∃ rb, rb = r.begin s.name s.keys.length s.bitrates.length s.isVideo := ⟨_, rfl⟩
  obtain ⟨x, ts, es, l1, l2, l3, l4, l5, l6, l7, l8⟩ := levels_read s.bitrates rb o2 (by rw [hrb]; exact h0) (by rw [hrb]; exact hl)
  obtain ⟨rl, hrl⟩ : ∃ rl, rl = s.bitrates.foldl Ssf.addBitrate rb := ⟨_, rfl⟩
  rw [← hrl] at l1 l6 l7 l8
  obtain ⟨a, ha⟩ : ∃ a, s.keys.head? = some a := by
    cases h : s.keys with
    | nil => exact absurd h o4
    | cons a l => exact ⟨a, rfl⟩
  obtain ⟨y, tt, cs, p1, p2, p3, p4, p5, p6, p7⟩ := points_read (pointsOf s.keys) s.infos rl a (by rw [l8, hrb]; rfl) o7
    (pointsOf_bound s.keys o3 o5) o8 (pointsOf_contiguous s.keys o3 a ha)
  obtain ⟨rp, hrp⟩ : ∃ rp, rp = ((pointsOf s.keys).zip s.infos).foldl (fun r p => r.point p.1.1 p.1.2 p.2) rl := ⟨_, rfl⟩
  rw [← hrp] at p1 p6 p7
  have hst : r.stream s = { rp with xml := rp.xml ++ t! "</StreamIndex>\r\n" } := by rw [hrp, hrl, hrb]; rfl
  -- the opening tag
  obtain ⟨u, hu⟩ : ∃ u : Str, u = if r.useName then s.name else if s.isVideo then t! "video" else t! "audio" := ⟨_, rfl⟩
  have hup : Plain u := by
    rw [hu]
    split
    · exact o1
    · split <;> (intro c hc; revert c; decide)
  have hk1 : Fits (s.keys.length : Int) := fits_of (by omega) (by omega)
  have hk2 : Fits (s.bitrates.length : Int) := fits_of (by omega) (by omega)
  obtain ⟨ty, hty⟩ : ∃ ty : Str, ty = if s.isVideo then t! "video" else t! "audio" := ⟨_, rfl⟩
  obtain ⟨ex, hex⟩ : ∃ ex : Str, ex = if s.isVideo then t! ".m4v" else t! ".m4a" := ⟨_, rfl⟩
  have htyp : Plain ty := by rw [hty]; split <;> (intro c hc; revert c; decide)
  have hexp : Plain ex := by rw [hex]; split <;> (intro c hc; revert c; decide)
  have hopen : Reads (t! "<StreamIndex Type=\"" ++ ty ++ t! "\" Url=\"" ++ u ++ t! "_{bitrate}_{start time}" ++ ex
      ++ t! "\" Name=\"" ++ s.name ++ t! "\" Chunks=\"" ++ decInt s.keys.length ++ t! "\" QualityLevels=\"" ++ decInt s.bitrates.length ++ t! "\">\r\n")
      [.start (t! "StreamIndex") [(t! "Type", ty), (t! "Url", u ++ t! "_{bitrate}_{start time}" ++ ex), (t! "Name", s.name), (t! "Chunks", decInt s.keys.length),
        (t! "QualityLevels", decInt s.bitrates.length)]] := by
    intro out
    simp only [lex_append]
    simp [lex, step, isSpace, notName, lex_value, htyp, hup, hexp, o1, plain_decInt hk1, plain_decInt hk2]
  have hclose : Reads (t! "</StreamIndex>\r\n") [.close (t! "StreamIndex")] := by intro out; simp [lex, step, isSpace, notName]
  have hb := Builds.elem (t! "StreamIndex") [(t! "Type", ty), (t! "Url", u ++ t! "_{bitrate}_{start time}" ++ ex), (t! "Name", s.name), (t! "Chunks", decInt s.keys.length),
        (t! "QualityLevels", decInt s.bitrates.length)] (l3.append p3)
  refine ⟨_, _, _, ?_, ((hopen.append l2).append p2).append hclose, by simpa using hb, rfl, ?_, ?_, ?_⟩
  · rw [hst]
    show rp.xml ++ _ = _
    rw [p1, l1, hrb, hu, hty, hex]
    simp only [Ssf.begin, List.append_assoc]
  · have f1 : ((es ++ cs).filter fun c => c.name = t! "QualityLevel") = es := by
      rw [List.filter_append, filter_none p4 (by decide), List.append_nil, List.filter_eq_self]
      intro e he; simp [l4 e he]
    have f2 : ((es ++ cs).filter fun c => c.name = t! "c") = cs := by
      rw [List.filter_append, filter_none l4 (by decide), List.nil_append, List.filter_eq_self]
      intro e he; simp [p4 e he]
    have e1 : decimal (decInt s.keys.length) = some s.keys.length := by
      rw [decInt_nonneg (by omega)]; exact (dec_spec _ (by simpa using o6)).1
    have e2 : decimal (decInt s.bitrates.length) = some s.bitrates.length := by
      rw [decInt_nonneg (by omega)]; exact (dec_spec _ (by simp; omega)).1
    simp only [Spec.readIndex, Elem.children]
    rw [f1, f2, l5, p5]
    simp [attr, Elem.attrs, Spec.number, e1, e2, smoothOf, hu, hex]
  · rw [hst]
    show rp.index = _
    rw [p6, l6, hrb]; rfl
  · rw [hst]
    show rp.useName = _
    rw [p7, l7, hrb]; rfl

theorem smooth_streams_read (streams : List SmoothStream) : ∀ r : Ssf, (∀ s ∈ streams, s.Ok) → 0 ≤ r.index + 1 →
    r.index + 1 + (streams.map (·.bitrates.length)).sum < 2 ^ 64 →
    ∃ x ts es, (streams.foldl Ssf.stream r).xml = r.xml ++ x ∧ Reads x ts ∧ Builds ts es ∧ (∀ e ∈ es, e.name = t! "StreamIndex") ∧
      Spec.all (es.map Spec.readIndex) = some (streams.map (smoothOf r.useName)) := by
  induction streams with
  | nil => intro r _ _ _; exact ⟨[], [], [], by simp, Reads.nil, Builds.nil, by simp, rfl⟩
  | cons s streams ih =>
    intro r hs h0 hl
    simp only [List.map_cons, List.sum_cons] at hl
    obtain ⟨x, ts, e, h1, h2, h3, h4, h5, h6, h7⟩ := smooth_stream_reads r s (hs s List.mem_cons_self) h0 (by omega)
    obtain ⟨y, tt, es, g1, g2, g3, g4, g5⟩ := ih (r.stream s) (fun c hc => hs c (List.mem_cons_of_mem _ hc)) (by omega) (by rw [h6]; push_cast at hl ⊢; omega)
    refine ⟨x ++ y, ts ++ tt, [e] ++ es, ?_, h2.append g2, h3.append g3, ?_, ?_⟩
    · rw [List.foldl_cons, g1, h1, List.append_assoc]
    · intro a ha
      rcases List.mem_append.mp ha with h | h
      · rw [List.mem_singleton.mp h]; exact h4
      · exact g4 a h
    · simp only [List.singleton_append, List.map_cons, h5, Spec.all, g5, Option.map_some, h7]

set_option maxRecDepth 20000 in
/-- C77: for every presentation, a Smooth Streaming client reads from the manifest the duration and one stream index per stream, in order,
with the template of its addresses, its quality levels, and exactly the points of the stream as its chunks. -/
theorem smooth_read (useName : Bool) (duration : Nat) (streams : List SmoothStream) (hd : duration < 2 ^ 64) (hs : ∀ s ∈ streams, s.Ok)
    (hc : (streams.map (·.bitrates.length)).sum < 2 ^ 64) :
    Spec.readSmooth (ssfDocument { useName := useName } duration streams) = some (duration, streams.map (smoothOf useName)) := by
  obtain ⟨x, ts, es, h1, h2, h3, h4, h5⟩ := smooth_streams_read streams (Ssf.start { useName := useName } duration) hs (by show (0 : Int) ≤ -1 + 1; decide)
    (by show (-1 : Int) + 1 + _ < _; omega)
  have hopen : Reads (t! "<SmoothStreamingMedia MajorVersion=\"2\" MinorVersion=\"1\" Duration=\"" ++ dec duration ++ t! "\">\r\n")
      [.start (t! "SmoothStreamingMedia") [(t! "MajorVersion", t! "2"), (t! "MinorVersion", t! "1"), (t! "Duration", dec duration)]] := by
    intro out
    simp only [lex_append]
    simp [lex, step, isSpace, notName, lex_value, plain_dec hd]
  have hclose : Reads (t! "</SmoothStreamingMedia>") [.close (t! "SmoothStreamingMedia")] := by intro out; simp [lex, step, isSpace, notName]
  have hb := Builds.elem (t! "SmoothStreamingMedia") [(t! "MajorVersion", t! "2"), (t! "MinorVersion", t! "1"), (t! "Duration", dec duration)] h3
  have hparse : parse (ssfDocument { useName := useName } duration streams) = some [.mk (t! "SmoothStreamingMedia")
      [(t! "MajorVersion", t! "2"), (t! "MinorVersion", t! "1"), (t! "Duration", dec duration)] es] := by
    have e : ssfDocument { useName := useName } duration streams = t! "<SmoothStreamingMedia MajorVersion=\"2\" MinorVersion=\"1\" Duration=\"" ++ dec duration ++ t! "\">\r\n"
        ++ x ++ t! "</SmoothStreamingMedia>" := by
      have e0 : ssfDocument { useName := useName } duration streams = (streams.foldl Ssf.stream (Ssf.start { useName := useName } duration)).xml ++ t! "</SmoothStreamingMedia>" := rfl
      rw [e0, h1]; rfl
    rw [e]
    refine parse_of_reads ((hopen.append h2).append hclose) ?_
    simpa using hb
  have hfil : (es.filter fun e => e.name = t! "StreamIndex") = es := by
    rw [List.filter_eq_self]
    intro e he; simp [h4 e he]
  have hdec : decimal (dec duration) = some duration := (dec_spec _ hd).1
  simp only [Spec.readSmooth, hparse]
  rw [if_pos (by rfl), show Elem.children (.mk (t! "SmoothStreamingMedia") [(t! "MajorVersion", t! "2"), (t! "MinorVersion", t! "1"), (t! "Duration", dec duration)] es) = es from rfl,
    hfil, h5]
  simp [Spec.number, attr, Elem.attrs, hdec, Ssf.start]

/-! ### Addresses -/

theorem not_occurs_char {old s : Str} {x : Char} (ho : old.head? = some x) (h : x ∉ s) : ¬ Verif.Strings.Spec.Occurs old s := by
  rintro ⟨i, hi, t, ht⟩
  cases old with
  | nil => cases ho
  | cons a old =>
    simp only [List.head?_cons, Option.some.injEq] at ho
    subst ho
    exact h (List.mem_of_mem_drop (by rw [← ht]; exact List.mem_cons_self))

theorem replaced_char {old new p rest r : Str} {x : Char} (ho : old.head? = some x) (h : x ∉ p) (hr : Replaced old new rest r) :
    Replaced old new (p ++ old ++ rest) (p ++ new ++ r) := by
  refine Replaced.one ?_ hr
  intro i hi
  rcases Nat.lt_or_ge i p.length with hlt | hge
  · exfalso
    obtain ⟨_, t, ht⟩ := hi
    cases old with
    | nil => cases ho
    | cons a old =>
      simp only [List.head?_cons, Option.some.injEq] at ho
      subst ho
      rw [List.append_assoc, List.drop_append_of_le_length (Nat.le_of_lt hlt)] at ht
      cases hd : p.drop i with
      | nil => rw [List.drop_eq_nil_iff] at hd; omega
      | cons y l =>
        rw [hd] at ht
        have : y = a := ((List.cons.inj ht).1).symm
        exact h (List.mem_of_mem_drop (i := i) (by rw [hd, this]; exact List.mem_cons_self))
  · exact hge

theorem no_brace {n : Nat} (h : n < 2 ^ 64) : '{' ∉ dec n := by
  intro hm
  have := (dec_spec n h).2.1 _ hm
  revert this; decide

/-- C77: the address of each chunk of each quality level is the name of the file that is written for it. -/
theorem smooth_addresses (s : SmoothStream) (hs : s.Ok) (hn : '{' ∉ s.name) (b : Bitrate) (hb : b ∈ s.bitrates) (hr : 0 ≤ b.rate) (p : Nat × Nat)
    (hp : p ∈ (smoothOf true s).chunks) :
    Spec.ChunkAddress (levelOf b).1 (Nat.toDigits 10 p.1) (smoothOf true s).url (m4fName ⟨s.name, s.isVideo, 0, s.bitrates, []⟩ b.key p.1) := by
  obtain ⟨o1, o2, o3, o4, o5, o6, o7, o8⟩ := hs
  have hpb := pointsOf_bound s.keys o3 o5 p hp
  have hkey : b.key < 2 ^ 64 := by
    have := o2 b hb
    rw [key_eq]
    cases b <;> (simp only [Bitrate.Ok', Fits, Bitrate.rate] at *; omega)
  have hl : (levelOf b).1 = dec b.key := by
    rw [key_eq]
    cases b <;> exact decInt_nonneg hr
  rw [hl, ← dec_digits (show p.1 < 2 ^ 64 by omega)]
  obtain ⟨ex, hex⟩ : ∃ ex : Str, ex = if s.isVideo then t! ".m4v" else t! ".m4a" := ⟨_, rfl⟩
  have hexb : '{' ∉ ex := by rw [hex]; split <;> decide
  have hurl : (smoothOf true s).url = (s.name ++ t! "_") ++ t! "{bitrate}" ++ (t! "_{start time}" ++ ex) := by
    simp [smoothOf, hex]
  have hm : m4fName ⟨s.name, s.isVideo, 0, s.bitrates, []⟩ b.key p.1 = (s.name ++ t! "_" ++ dec b.key ++ t! "_") ++ dec p.1 ++ ex := by
    simp only [m4fName, hex]
  rw [hurl, hm]
  refine .mk ((s.name ++ t! "_") ++ dec b.key ++ (t! "_{start time}" ++ ex)) (replaced_char (x := '{') rfl (by simp [hn]) ?_) ?_
  · -- no other place for the bitrate
    have hno : ¬ Verif.Strings.Spec.Occurs (t! "{bitrate}") (t! "_{start time}" ++ ex) := by
      rw [hex]
      have : ∀ v : Bool, ∀ i, i ≤ (t! "_{start time}" ++ (if v then t! ".m4v" else t! ".m4a")).length →
          ¬ (t! "{bitrate}" <+: (t! "_{start time}" ++ (if v then t! ".m4v" else t! ".m4a")).drop i) := by
        intro v i hi
        have hi' : i < 18 := by
          cases v <;> (simp at hi; omega)
        have : ∀ v : Bool, ∀ i : Fin 18, ¬ (t! "{bitrate}" <+: (t! "_{start time}" ++ (if v then t! ".m4v" else t! ".m4a")).drop i.val) := by decide +kernel
        exact this v ⟨i, hi'⟩
      rintro ⟨i, h1, h2⟩
      exact this _ i h1 h2
    exact Replaced.none hno
  · have h2 : '{' ∉ s.name ++ t! "_" ++ dec b.key ++ t! "_" := by simp [hn, no_brace hkey]
    have := replaced_char (old := t! "{start time}") (new := dec p.1) (x := '{') rfl h2 (Replaced.none (new := dec p.1) (not_occurs_char (old := t! "{start time}") (x := '{') rfl hexb))
    simp only [List.append_assoc] at this ⊢
    exact this

/-! ### Codec data -/

/-- C78: the codec data a client finds for a video bitrate is the sequence parameter set and the picture parameter set, each after a start code. -/
theorem smooth_codec_data (b w h : Int) (sps pps : List UInt8) (hsps : sps.length < 65536) :
    Verif.Strings.Spec.unhex (levelOf (.video b w h (privateData sps pps))).2 = some ([0, 0, 0, 1] ++ sps ++ [0, 0, 0, 1] ++ pps) := by
  have hn : ((privateData sps pps).getD 0 0).toNat * 256 ||| ((privateData sps pps).getD 1 0).toNat = sps.length := by
    simp only [privateData, List.cons_append, List.getD_cons_zero, List.getD_cons_succ]
    rw [UInt8.toNat_ofNat', UInt8.toNat_ofNat']
    have e1 : (sps.length >>> 8 &&& 255) % 2 ^ 8 = sps.length / 256 := by
      rw [Nat.shiftRight_eq_div_pow, show (255 : Nat) = 2 ^ 8 - 1 by rfl, Nat.and_two_pow_sub_one_eq_mod]
      omega
    have e2 : (sps.length &&& 255) % 2 ^ 8 = sps.length % 256 := by
      rw [show (255 : Nat) = 2 ^ 8 - 1 by rfl, Nat.and_two_pow_sub_one_eq_mod]
      omega
    rw [e1, e2]
    have := Nat.shiftLeft_add_eq_or_of_lt (b := sps.length % 256) (i := 8) (Nat.mod_lt _ (by decide)) (sps.length / 256)
    rw [Nat.shiftLeft_eq] at this
    rw [show (256 : Nat) = 2 ^ 8 by rfl] at *
    rw [← this]
    omega
  obtain ⟨t, h1, _, h3⟩ := Verif.Strings.hex_text [] (startCodes (privateData sps pps))
  show Verif.Strings.Spec.unhex (Verif.Strings.appendHex [] (startCodes (privateData sps pps))) = _
  rw [h1, List.nil_append, h3]
  simp only [startCodes, hn]
  have d1 : ((privateData sps pps).drop 2).take sps.length = sps := by simp [privateData]
  have d2 : (privateData sps pps).drop (4 + sps.length) = pps := by
    have : privateData sps pps = ([UInt8.ofNat ((sps.length >>> 8) &&& 0xFF), UInt8.ofNat (sps.length &&& 0xFF)] ++ sps ++
      [UInt8.ofNat ((pps.length >>> 8) &&& 0xFF), UInt8.ofNat (pps.length &&& 0xFF)]) ++ pps := rfl
    rw [this]
    apply List.drop_left'
    simp; omega
  rw [d1, d2]

/-! ### The number of chunks -/

/-- C79: the number of chunks the manifest announces is one more than the number it has, in every stream. -/
theorem smooth_count_wrong (useName : Bool) (s : SmoothStream) (hs : s.Ok) : (smoothOf useName s).announced = (smoothOf useName s).chunks.length + 1 := by
  have : s.keys.length ≠ 0 := fun h => hs.2.2.2.1 (List.length_eq_zero_iff.mp h)
  simp only [smoothOf, pointsOf_length]
  omega

/-- C79: the number of quality levels is right. -/
theorem smooth_levels_partial (useName : Bool) (duration : Nat) (streams : List SmoothStream) (hd : duration < 2 ^ 64) (hs : ∀ s ∈ streams, s.Ok)
    (hc : (streams.map (·.bitrates.length)).sum < 2 ^ 64) :
    ∃ ss, Spec.readSmooth (ssfDocument { useName := useName } duration streams) = some (duration, ss) ∧
      ∀ s ∈ ss, s.announcedLevels = s.levels.length ∧ s.announced = s.chunks.length + 1 := by
  refine ⟨_, smooth_read useName duration streams hd hs hc, ?_⟩
  intro s hm
  obtain ⟨t, ht, rfl⟩ := List.mem_map.mp hm
  exact ⟨by simp [smoothOf], smooth_count_wrong useName t (hs t ht)⟩

/-- A presentation. -/
def smoothDemo : List SmoothStream :=
  [⟨t! "audio", false, [.audio 96000 48000 2 16], [0, 20, 45], [[⟨t! "a.mp4", 0, 0, false⟩], [⟨t! "a.mp4", 20, 20, false⟩]]⟩,
   ⟨t! "video", true, [.video 750000 640 360 (privateData [0x67, 0x64, 0, 0x1f] [0x68, 1])], [10, 30, 40],
     [[⟨t! "a.mp4", 10, 10, false⟩], [⟨t! "a.mp4", 30, 30, true⟩, ⟨t! "b.mp4", 0, 35, true⟩]]⟩]

/-- The hypotheses are met. -/
example : (Spec.readSmooth (ssfDocument {} 45 smoothDemo)).map (fun r => r.2.map (·.chunks)) = some [[(0, 20), (20, 25)], [(10, 20), (30, 10)]] := by
  rw [show ({} : Ssf) = { useName := true } from rfl, smooth_read true 45 smoothDemo (by decide) (by decide +kernel) (by decide)]
  decide

/-- The hypotheses of `smooth_addresses` are met. -/
example : Spec.ChunkAddress (t! "750000") (t! "30") (t! "video_{bitrate}_{start time}.m4v") (t! "video_750000_30.m4v") :=
  smooth_addresses ⟨t! "video", true, [.video 750000 640 360 []], [10, 30, 40], [[], []]⟩ (by decide +kernel) (by decide) (.video 750000 640 360 [])
    (by simp) (by decide) (30, 10) (by decide)

end Verif.Render
