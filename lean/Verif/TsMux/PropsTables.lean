import Verif.TsMux.PropsMux
/-!
Property C61 for the muxer: the program tables in front of the first sample.
-/
namespace Verif.TsMux
open Fields Verif.TsMux.Spec

/-- Streams a caller adds, with the parameters of the call. -/
inductive Add where
  | visual (sps pps : List UInt8)
  | audio (a : Adts)
  | ltc

def Add.run (s : State) : Add → State
  | .visual sps pps => addVisual s sps pps
  | .audio a => addAudio s a
  | .ltc => addLtc s

/-- Entries of a program map for the streams: type 0x1b for video, 0x0f for audio, pid 0x100 plus the number of the stream; a
time code stream has no data in the transport stream and no entry. -/
def mapEntries : (idx : Nat) → List Add → List (Nat × Nat)
  | _, [] => []
  | idx, .visual _ _ :: l => (0x1b, 0x100 + idx) :: mapEntries (idx + 1) l
  | idx, .audio _ :: l => (0x0f, 0x100 + idx) :: mapEntries (idx + 1) l
  | idx, .ltc :: l => mapEntries (idx + 1) l

/-- Number of the first video stream. -/
def firstVideo : (idx : Nat) → List Add → Option Nat
  | _, [] => none
  | idx, .visual _ _ :: _ => some idx
  | idx, .audio _ :: l => firstVideo (idx + 1) l
  | idx, .ltc :: l => firstVideo (idx + 1) l

def TInv (s : State) (idx : Nat) (entries : List (Nat × Nat)) (video : Option Nat) : Prop :=
  s.streams.length = idx ∧ s.ts.tables.count = idx ∧
    (List.range idx).map (fun i => (s.ts.tables.types i, s.ts.tables.pids i)) = entries ∧ s.ts.built = none ∧ s.ts.out = [] ∧
    s.first = true ∧ s.repeatPid = video ∧ s.ts.tables.pcrPid = (video.map (0x100 + ·)).getD 0

theorem range_update (t : Ts.Tables) (idx pid type : Nat) :
    (List.range (idx + 1)).map (fun i => ((t.addPam pid type idx).types i, (t.addPam pid type idx).pids i)) =
      (List.range idx).map (fun i => (t.types i, t.pids i)) ++ [(type, pid)] := by
  rw [List.range_succ, List.map_append]
  congr 1
  · apply List.map_congr_left
    intro i hi
    have : i ≠ idx := by have := List.mem_range.mp hi; omega
    simp [Ts.Tables.addPam, this]
  · simp [Ts.Tables.addPam]

theorem tinv_adds (l : List Add) (hl : ∀ a ∈ l, a ≠ .ltc) : ∀ (s : State) (idx : Nat) (es : List (Nat × Nat)) (v : Option Nat), TInv s idx es v →
    TInv (l.foldl Add.run s) (idx + l.length) (es ++ mapEntries idx l) (v.or (firstVideo idx l)) := by
  induction l with
  | nil => intro s idx es v h; simpa [mapEntries, firstVideo] using h
  | cons a l ih =>
    intro s idx es v ⟨h1, h2, h3, h4, h5, h6, h7, h8⟩
    have ih := ih (fun b hb => hl b (List.mem_cons_of_mem _ hb))
    rw [List.foldl_cons, List.length_cons, show idx + (l.length + 1) = idx + 1 + l.length by omega]
    cases a with
    | ltc => exact absurd rfl (hl _ (List.mem_cons_self ..))
    | audio a =>
      have := ih (addAudio s a) (idx + 1) (es ++ [(0x0f, 0x100 + idx)]) v
        ⟨by simp [addAudio, h1], by simp [addAudio, Ts.addPam, Ts.Tables.addPam, h2],
          by simp only [addAudio, Ts.addPam, h1]; rw [range_update, h3]; rfl, h4, h5, h6, h7, h8⟩
      simpa [mapEntries, firstVideo, Add.run] using this
    | visual sps pps =>
      have := ih (addVisual s sps pps) (idx + 1) (es ++ [(0x1b, 0x100 + idx)]) (v.or (some idx)) (by
        refine ⟨by simp [addVisual, h1], ?_, ?_, ?_, ?_, h6, ?_, ?_⟩ <;> simp only [addVisual, h7, h1] <;> cases v <;>
          simp [Ts.addPam, Ts.setPcrPid, h2, h4, h5, h8, basePid, h3, range_update] <;> simp [Ts.Tables.addPam, h2, h8])
      simpa [mapEntries, firstVideo, Add.run] using this

theorem tinv_ltcs (n : Nat) : ∀ (s : State), ((List.replicate n Add.ltc).foldl Add.run s).ts = s.ts ∧
    ((List.replicate n Add.ltc).foldl Add.run s).first = s.first := by
  induction n with
  | zero => intro s; exact ⟨rfl, rfl⟩
  | succ n ih =>
    intro s
    rw [List.replicate_succ, List.foldl_cons]
    exact ih _

theorem mapEntries_ok (l : List Add) : ∀ idx, idx + l.length ≤ 7936 → ∀ e ∈ mapEntries idx l, e.1 < 256 ∧ e.2 < 8192 := by
  induction l with
  | nil => intro idx _ e he; cases he
  | cons a l ih =>
    intro idx h e he
    rw [List.length_cons] at h
    cases a <;> simp only [mapEntries, List.mem_cons] at he
    · rcases he with rfl | he
      · simp only; omega
      · exact ih _ (by omega) e he
    · rcases he with rfl | he
      · simp only; omega
      · exact ih _ (by omega) e he
    · exact ih _ (by omega) e he

theorem firstVideo_lt (l : List Add) : ∀ idx v, firstVideo idx l = some v → v < idx + l.length := by
  induction l with
  | nil => intro idx v h; cases h
  | cons a l ih =>
    intro idx v h
    rw [List.length_cons]
    cases a <;> simp only [firstVideo] at h
    · cases h; omega
    · have := ih _ _ h; omega
    · have := ih _ _ h; omega

/-- C61 for the muxer, when time code streams are added after all others: whatever video and audio streams were added, the transport stream begins with tables that list
exactly these streams on the pids on which their samples are sent, the first video stream (or the stream given to `set_stream_pcr`)
being the one with the clock. -/
theorem mux_tables_partial (types pids : Nat → Nat) (j1 j2 j3 : Nat) (only : Bool) (adds : List Add) (ltcs : Nat) (pcr : Option Nat)
    (hn : adds.length ≤ 201) (hl : ∀ a ∈ adds, a ≠ .ltc) (hp : ∀ i, pcr = some i → i < adds.length) (e : Env) (x : Sample) :
    ∃ (pre rest : List UInt8) (ps : List Ts.Spec.Packet),
      (addSample e ((fun s => (pcr.map (setStreamPcr s)).getD s)
        ((adds ++ List.replicate ltcs Add.ltc).foldl Add.run (init types pids j1 j2 j3 only))) x).ts.out = pre ++ rest ∧
      Ts.Spec.IsStream pre ps ∧ Ts.Spec.pat? (Ts.Spec.payloadOf ps 0) = some [(1, 0x1000)] ∧
      Ts.Spec.pmt? (Ts.Spec.payloadOf ps 0x1000) =
        some (1, ((pcr.or (firstVideo 0 adds)).map (0x100 + ·)).getD 0, mapEntries 0 adds) := by
  obtain ⟨_, h2, h3, h4, h5, h6, _, h8⟩ := tinv_adds adds hl (init types pids j1 j2 j3 only) 0 [] none
    ⟨rfl, rfl, rfl, rfl, rfl, rfl, rfl, rfl⟩
  rw [List.foldl_append]
  obtain ⟨l1, l2⟩ := tinv_ltcs ltcs (adds.foldl Add.run (init types pids j1 j2 j3 only))
  generalize (List.replicate ltcs Add.ltc).foldl Add.run (adds.foldl Add.run (init types pids j1 j2 j3 only)) = s at *
  rw [← l1] at h2 h3 h4 h5 h8
  rw [← l2] at h6
  simp only [Nat.zero_add, List.nil_append, Option.none_or] at h2 h3 h8
  generalize hs' : (pcr.map (setStreamPcr s)).getD s = s'
  have g : s'.ts.tables.count = adds.length ∧ s'.ts.tables.types = s.ts.tables.types ∧ s'.ts.tables.pids = s.ts.tables.pids ∧
      s'.ts.built = none ∧ s'.ts.out = [] ∧ s'.first = true ∧
      s'.ts.tables.pcrPid = ((pcr.or (firstVideo 0 adds)).map (0x100 + ·)).getD 0 := by
    rw [← hs']
    cases pcr with
    | none => exact ⟨h2, rfl, rfl, h4, h5, h6, by simpa using h8⟩
    | some i => exact ⟨h2, rfl, rfl, h4, h5, h6, rfl⟩
  obtain ⟨g1, g2, g3, g4, g5, g6, g7⟩ := g
  obtain ⟨added, ps, o1, o2, o3, o4, _⟩ := Ts.outputTables_stream s'.ts e.addr1 e.addr2 e.beyond e.junk
  rw [g4, Option.getD_none] at o3 o4
  rw [g5, List.nil_append] at o1
  have hrest : ∃ rest, (addSample e s' x).ts.out = added ++ rest := by
    simp only [addSample, g6, Bool.true_or, if_true]
    split
    · exact ⟨[], by rw [o1, List.append_nil]⟩
    · split
      · exact ⟨[], by rw [o1, List.append_nil]⟩
      · exact ⟨_, by simp only [Ts.outputTs]; rw [o1]⟩
  obtain ⟨rest, hrest⟩ := hrest
  refine ⟨added, rest, ps, by simp only [hs']; exact hrest, o2, ?_, ?_⟩
  · rw [o3]; exact Ts.pat_ok _ _
  · rw [o4, ← g7]
    apply Ts.pmt_ok
    · rw [g1, ← h3]; simp
    · rw [g1, g2, g3]; exact h3
    · rw [← h3]; simpa using hn
    · exact mapEntries_ok adds 0 (by omega)
    · rw [g7]
      have hfv : ∀ v, firstVideo 0 adds = some v → v < adds.length := fun v hv => by simpa using firstVideo_lt adds 0 v hv
      cases pcr with
      | some i => have := hp i rfl; simp; omega
      | none =>
        cases hv : firstVideo 0 adds with
        | none => simp
        | some v => have := hfv v hv; simp; omega

def env0 : Env := ⟨fun _ => 0, ⟨0, 0, 0, 0⟩, 5, 6⟩

/-- concrete case: tables of a video and an audio stream followed by a time code stream -/
example : (addSample env0 ([Add.visual [0x67] [0x68], .audio ⟨2, 44100, 2⟩, .ltc].foldl Add.run (init (fun _ => 9) (fun _ => 9) 3 7 3 false))
    ⟨0, lengthPrefixed [[0x65, 1]], true, 0, 0⟩).ts.out.length = 3 * 188 := by decide +kernel

/-- Why C61 is partial: with a time code stream between video and audio, the program map announces uninitialised memory as its
second entry, and the audio pid 0x102, on which the audio is sent, is announced nowhere. -/
theorem mux_tables_ltc_witness :
    let s := [Add.visual [0x67] [0x68], .ltc, .audio ⟨2, 44100, 2⟩].foldl Add.run (init (fun _ => 9) (fun _ => 77) 3 7 3 false)
    let out := (addSample env0 s ⟨2, [1, 2, 3], false, 0, 0⟩).ts.out
    ((Ts.Spec.parse ((out.drop 188).take 188)).bind fun p => Ts.Spec.pmt? p.payload) = some (1, 0x100, [(0x1b, 0x100), (9, 77)]) ∧
    (Ts.Spec.parse (out.drop 376)).map (·.pid) = some 0x102 := by decide +kernel

/-- `SampleOk` as a computation, to evaluate it below. -/
def sampleOkB (s : State) (x : Sample) : Bool :=
  decide (x.ct + s.presentationOffset < 2 ^ 62) && decide (x.dt + s.decodingOffset < 2 ^ 62) &&
    match pesFor s x with
    | some (pes, pcr) => !x.iframe || decide (pes.length ≠ if pcr.isSome then 175 else 181)
    | none => false

theorem sampleOk_of (s : State) (x : Sample) (h : sampleOkB s x = true) : SampleOk s x := by
  rw [sampleOkB, Bool.and_eq_true, Bool.and_eq_true, decide_eq_true_eq, decide_eq_true_eq] at h
  obtain ⟨⟨h1, h2⟩, h3⟩ := h
  refine ⟨h1, h2, ?_⟩
  generalize pesFor s x = o at h3
  cases o with
  | none => cases h3
  | some p => exact ⟨p.1, p.2, rfl, fun hi => by simpa [hi] using h3⟩

theorem sampleOk_key (s : State) (x : Sample) (sps pps : List UInt8) (nals : List (List UInt8)) (hst : s.streams[x.stream]? = some (.h264 sps pps))
    (hc : x.ct + s.presentationOffset < 2 ^ 62) (hd : x.dt + s.decodingOffset < 2 ^ 62) (hb : x.body = lengthPrefixed nals)
    (hn : ∀ n ∈ nals, n.length < 2 ^ 32) (hl : 175 < (byteStream (accessUnit sps pps x.iframe nals)).length) : SampleOk s x := by
  refine ⟨hc, hd, ?_⟩
  rw [pesFor, hst, Option.bind_some]
  refine ⟨_, _, rfl, ?_⟩
  intro hi
  rw [if_pos hi, List.length_append, hb, video_access_unit _ _ _ _ hn]
  simp only [Option.isSome_some, if_true]
  omega

/-- concrete case of `mux_delivers_partial`: a key frame and an audio sample meet `SampleOk` -/
example : ∀ x ∈ [(⟨0, lengthPrefixed [List.replicate 200 0x65], true, 400000, 0⟩ : Sample), ⟨1, [1, 2, 3], true, 0, 0⟩],
    SampleOk ([Add.visual [0x67] [0x68], .audio ⟨2, 44100, 2⟩].foldl Add.run (init (fun _ => 9) (fun _ => 9) 3 7 3 false)) x := by
  intro x hx
  simp only [List.mem_cons, List.not_mem_nil, or_false] at hx
  rcases hx with rfl | rfl
  · exact sampleOk_key _ _ [0x67] [0x68] [List.replicate 200 0x65] rfl (by decide +kernel) (by decide +kernel) rfl (by decide +kernel)
      (by decide +kernel)
  · exact sampleOk_of _ _ (by decide +kernel)

/-- Why C62 is partial: an audio sample of 160 bytes marked as key frame (as every audio sample of an MP4 file is) makes a
PES packet of 181 bytes, and the receiver gets two foreign bytes behind the frame. -/
theorem mux_short_key_frame_witness :
    let s := Add.run (init (fun _ => 0) (fun _ => 0) 0 0 0 false) (.audio ⟨2, 44100, 2⟩)
    let out := (addSample ⟨fun _ => 0xAA, ⟨0, 0, 0, 0⟩, 5, 6⟩ s ⟨0, List.replicate 160 1, true, 0, 0⟩).ts.out
    ((Ts.Spec.parse (out.drop 376)).bind fun p => (Pes.Spec.parse p.payload).map (·.payload)) =
      some (adtsHeader ⟨2, 44100, 2⟩ 160 ++ List.replicate 160 1 ++ [0xAA, 0xAA]) := by decide +kernel

end Verif.TsMux
