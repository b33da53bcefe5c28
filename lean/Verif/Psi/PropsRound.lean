import Verif.Psi.PropsWitness
import Verif.Demux.PropsRound
/-
C102, whole files: a transport stream the program has written is read by the program. The tables make the receivers, and each gets its samples.
-/
namespace Verif.Psi
open Fields Demux Spec
open TsMux (Sample Stream pesFor Env addSample basePid SampleOk Add mapEntries firstVideo)

theorem pas_carried (t : Ts.Tables) (addr : Nat) :
    ∃ crc, t.pas addr = carried [] (sectionBytes 0 ⟨0, 0, 1, t.junk1, 0, 1, 0, 0⟩ (patBody t.junk2 [(1, 0x1000)]) crc) [] := by
  have e := Ts.withCrc_eq addr 13 (Ts.baseFields 0 13 1 t.junk1 ++ [(16, 1), (3, t.junk2), (13, 0x1000)]) rfl (by omega)
  rw [Ts.Tables.pas, Ts.Tables.pasFields]
  have : Ts.baseFields 0 13 1 t.junk1 ++ [(16, 1), (3, t.junk2), (13, 0x1000), (32, 0)] =
      (Ts.baseFields 0 13 1 t.junk1 ++ [(16, 1), (3, t.junk2), (13, 0x1000)]) ++ [(32, 0)] := by simp
  rw [this, e]
  generalize (Crc.crc32 _ _).toNat = crc
  refine ⟨crc, ?_⟩
  rw [carried, sectionBytes, pack_append _ _ 9 rfl, Ts.baseFields]
  have h1 := pack_append [(8, 0)] [(8, 0), (1, 1), (1, 0), (2, 0), (12, 13), (16, 1), (2, t.junk1), (5, 0), (1, 1), (8, 0), (8, 0)] 1 rfl
  rw [List.cons_append, List.nil_append] at h1
  rw [h1, List.append_nil, List.append_nil]
  simp only [List.append_assoc, List.length_nil]
  rw [patBody_length]
  simp only [patBody, List.flatMap_cons, List.flatMap_nil, List.append_nil, List.length_singleton]

/-- The streams of a map without descriptors. -/
def plain (s : Nat × Nat) : Es := ⟨s.1, s.2, []⟩

theorem plain_bytes (l : List (Nat × Nat)) : (l.map plain).flatMap (esBytes 0) = pack (Ts.streamFields l) := by
  induction l with
  | nil => rfl
  | cons a l ih =>
    have e : pack (Ts.streamFields (a :: l)) = pack [(8, a.1), (3, 0), (13, a.2), (4, 0), (12, 0)] ++ pack (Ts.streamFields l) := pack_append _ _ 5 rfl
    rw [List.map_cons, List.flatMap_cons, ih, e]
    congr 1

theorem plain_length (l : List (Nat × Nat)) (pcr : Nat) : (pmtBody 0 pcr [] (l.map plain)).length = 4 + 5 * l.length := by
  rw [pmtBody, plain_bytes, List.length_append, List.length_append, pack_length _ 4 rfl, pack_length _ _ (Ts.streamFields_width l)]
  simp [descriptors]

theorem pam_carried (t : Ts.Tables) (addr : Nat) (l : List (Nat × Nat)) (hc : t.count = l.length)
    (hl : (List.range t.count).map (fun i => (t.types i, t.pids i)) = l) :
    ∃ crc, t.pam addr = carried [] (sectionBytes 2 ⟨0, 0, 1, t.junk3, 0, 1, 0, 0⟩ (pmtBody 0 t.pcrPid [] (l.map plain)) crc) [] := by
  have hf : ((List.range t.count).flatMap fun i => [(8, t.types i), (3, 0), (13, t.pids i), (4, 0), (12, 0)]) = Ts.streamFields l := by
    rw [← hl, Ts.streamFields, List.flatMap_map]
  have hw : width (Ts.baseFields 2 t.pamLength 1 t.junk3 ++ ([(3, 0), (13, t.pcrPid), (4, 0), (12, 0)] ++ Ts.streamFields l)) = 8 * t.pamLength := by
    have : width (Ts.baseFields 2 t.pamLength 1 t.junk3 ++ ([(3, 0), (13, t.pcrPid), (4, 0), (12, 0)] ++ Ts.streamFields l)) =
        72 + (32 + width (Ts.streamFields l)) := by simp [width, Ts.baseFields]; omega
    rw [this, Ts.streamFields_width, Ts.Tables.pamLength, hc]; omega
  have e := Ts.withCrc_eq addr t.pamLength _ hw (by rw [Ts.Tables.pamLength]; omega)
  rw [Ts.Tables.pam, Ts.Tables.pamFields, hf]
  have : Ts.baseFields 2 t.pamLength 1 t.junk3 ++ [(3, 0), (13, t.pcrPid), (4, 0), (12, 0)] ++ Ts.streamFields l ++ [(32, 0)] =
      (Ts.baseFields 2 t.pamLength 1 t.junk3 ++ ([(3, 0), (13, t.pcrPid), (4, 0), (12, 0)] ++ Ts.streamFields l)) ++ [(32, 0)] := by simp
  rw [this, e]
  generalize (Crc.crc32 _ _).toNat = crc
  refine ⟨crc, ?_⟩
  rw [carried, sectionBytes, pack_append _ _ 9 rfl, plain_length, pmtBody, plain_bytes, pack_append _ _ 4 rfl, Ts.baseFields]
  have h1 := pack_append [(8, 0)] [(8, 2), (1, 1), (1, 0), (2, 0), (12, t.pamLength), (16, 1), (2, t.junk3), (5, 0), (1, 1), (8, 0), (8, 0)] 1 rfl
  rw [List.cons_append, List.nil_append] at h1
  rw [h1]
  have hpl : t.pamLength = 4 + 5 * l.length + 9 := by rw [Ts.Tables.pamLength, hc]; omega
  simp only [List.append_assoc, List.length_nil, List.nil_append, List.append_nil, hpl, descriptors, List.flatMap_nil]

/-- A table that fits is written in one packet. -/
theorem one_packet (s : Ts.State) (pid : Nat) (bytes : List UInt8) (beyond : Nat → UInt8) (junk : Ts.Clock) (hpid : pid < 8192) (hb : bytes.length ≤ 184) :
    ∃ added q, (Ts.outputTs s pid bytes beyond false none junk).out = s.out ++ added ∧ Ts.Spec.IsStream added [q] ∧ q.start = true ∧ q.pid = pid ∧
      q.payload = bytes := by
  obtain ⟨p, ps, h1, h2, h3, h4, _, _, _, h8, _⟩ := Ts.outputBytes_stream (s.cc pid) pid bytes beyond false none junk (by intro h; simp at h)
  have hps : ps = [] := by
    rw [Ts.outputCount, Ts.firstSize, show bytes.length - (if false = true then _ else 184) = 0 by simp; omega] at h8
    simpa using h8
  subst hps
  refine ⟨_, p, rfl, h1, h4, ?_, by simpa using h2⟩
  rw [h3 p (by simp)]; exact Nat.mod_eq_of_lt hpid

/-- What samples add to the file: packets of the tables and of the pids of the samples. -/
theorem sample_adds (s : TsMux.State) (hn : s.streams.length ≤ 3840) (ts : Ts.State) (e : Env) (x : Sample) (hx : SampleOk s x) (pes : List UInt8) (pcr : Option Nat)
    (hp : pesFor s x = some (pes, pcr)) :
    ∃ added ps, (Ts.outputTs ts (basePid + x.stream) pes e.beyond x.iframe pcr e.junk).out = ts.out ++ added ∧ Ts.Spec.IsStream added ps ∧
      ∀ q ∈ ps, q.pid = basePid + x.stream := by
  obtain ⟨hc, hd, pes', pcr', hpes, hsize⟩ := hx
  rw [hpes, Option.some.injEq, Prod.mk.injEq] at hp
  obtain ⟨rfl, rfl⟩ := hp
  have hst : ∃ st, s.streams[x.stream]? = some st := by
    rw [pesFor] at hpes
    cases h : s.streams[x.stream]? with
    | none => rw [h] at hpes; simp at hpes
    | some st => exact ⟨st, rfl⟩
  obtain ⟨st, hst⟩ := hst
  have hlt : x.stream < s.streams.length := (List.getElem?_eq_some_iff.mp hst).1
  obtain ⟨hdel, hpcr⟩ := TsMux.pes_delivered s x st hst hc hd pes' pcr' hpes
  obtain ⟨added, p, qs, g1, g2, _, g4, _⟩ := Ts.output_ts_carries_payload_partial ts (basePid + x.stream) pes' e.beyond x.iframe pcr'
    e.junk (by simp only [basePid]; omega) hpcr hsize
  exact ⟨added, p :: qs, g1, g2, g4⟩

/-- The parts of the state samples do not change. -/
def Same (s t : TsMux.State) : Prop := t.streams = s.streams ∧ t.presentationOffset = s.presentationOffset ∧ t.decodingOffset = s.decodingOffset

theorem addSample_eq (s t : TsMux.State) (h : Same s t) (e : Env) (x : Sample) (hx : SampleOk s x) :
    ∃ pes pcr, pesFor s x = some (pes, pcr) ∧ addSample e t x = { t with
      ts := Ts.outputTs (if t.first || (!t.onlyTable && decide (t.repeatPid = some x.stream) && x.iframe) then
        Ts.outputTables t.ts e.addr1 e.addr2 e.beyond e.junk else t.ts) (basePid + x.stream) pes e.beyond x.iframe pcr e.junk, first := false } := by
  obtain ⟨h1, h2, h3⟩ := h
  obtain ⟨_, _, pes, pcr, hpes, _⟩ := hx
  refine ⟨pes, pcr, hpes, ?_⟩
  have hst : ∃ st, s.streams[x.stream]? = some st := by
    rw [pesFor] at hpes
    cases h : s.streams[x.stream]? with
    | none => rw [h] at hpes; simp at hpes
    | some st => exact ⟨st, rfl⟩
  obtain ⟨st, hst⟩ := hst
  have hp' : TsMux.pesOf st x.body x.iframe ((x.ct + t.presentationOffset) % 2 ^ 64) ((x.dt + t.decodingOffset) % 2 ^ 64) = some (pes, pcr) := by
    rw [pesFor, hst, Option.bind_some] at hpes
    rw [h2, h3]; exact hpes
  simp only [addSample, h1, hst, hp']

theorem samples_add (s : TsMux.State) (hn : s.streams.length ≤ 3840) (xs : List (Env × Sample)) : ∀ (t : TsMux.State), Same s t →
    (∀ ex ∈ xs, SampleOk s ex.2) →
    ∃ added ps, (xs.foldl (fun s ex => addSample ex.1 s ex.2) t).ts.out = t.ts.out ++ added ∧ Ts.Spec.IsStream added ps ∧
      ∀ q ∈ ps, q.pid = 0 ∨ q.pid = 0x1000 ∨ ∃ ex ∈ xs, q.pid = basePid + ex.2.stream := by
  induction xs with
  | nil => intro t _ _; exact ⟨[], [], by simp, Ts.isStream_nil, by simp⟩
  | cons ex xs ih =>
    intro t ht hx
    obtain ⟨pes, pcr, hp, hadd⟩ := addSample_eq s t ht ex.1 ex.2 (hx ex (by simp))
    obtain ⟨a1, p1, e1, e2, e3⟩ : ∃ added ps, (if t.first || (!t.onlyTable && decide (t.repeatPid = some ex.2.stream) && ex.2.iframe) then
        Ts.outputTables t.ts ex.1.addr1 ex.1.addr2 ex.1.beyond ex.1.junk else t.ts).out = t.ts.out ++ added ∧ Ts.Spec.IsStream added ps ∧
        ∀ q ∈ ps, q.pid = 0 ∨ q.pid = 0x1000 := by
      split
      · obtain ⟨added, qs, g1, g2, _, _, g5⟩ := Ts.outputTables_stream t.ts ex.1.addr1 ex.1.addr2 ex.1.beyond ex.1.junk
        exact ⟨added, qs, g1, g2, g5⟩
      · exact ⟨[], [], by simp, Ts.isStream_nil, by simp⟩
    obtain ⟨a2, p2, f1, f2, f3⟩ := sample_adds s hn (if t.first || (!t.onlyTable && decide (t.repeatPid = some ex.2.stream) && ex.2.iframe) then
        Ts.outputTables t.ts ex.1.addr1 ex.1.addr2 ex.1.beyond ex.1.junk else t.ts) ex.1 ex.2 (hx ex (by simp)) pes pcr hp
    obtain ⟨a3, p3, g1, g2, g3⟩ := ih (addSample ex.1 t ex.2) (by rw [hadd]; exact ht) (fun y hy => hx y (by simp [hy]))
    refine ⟨a1 ++ a2 ++ a3, p1 ++ p2 ++ p3, ?_, Ts.isStream_append (Ts.isStream_append e2 f2) g2, ?_⟩
    · rw [List.foldl_cons, g1, hadd]
      simp only
      rw [f1, e1]; simp
    · intro q hq
      rcases List.mem_append.mp hq with hq | hq
      · rcases List.mem_append.mp hq with hq | hq
        · exact (e3 q hq).elim .inl (fun h => .inr (.inl h))
        · exact .inr (.inr ⟨ex, by simp, f3 q hq⟩)
      · rcases g3 q hq with h | h | ⟨y, hy, h⟩
        · exact .inl h
        · exact .inr (.inl h)
        · exact .inr (.inr ⟨y, by simp [hy], h⟩)

/-- The stream type (table 2-34 of the standard) of a stream: H.264 0x1b, AAC in ADTS 0x0f. -/
def typeOf : Add → Nat
  | .visual _ _ => 0x1b
  | _ => 0x0f

theorem mapEntries_get (adds : List Add) : ∀ (idx k : Nat), (∀ a ∈ adds, a ≠ .ltc) →
    (mapEntries idx adds)[k]? = adds[k]?.map fun a => (typeOf a, 0x100 + idx + k) := by
  induction adds with
  | nil => intro idx k _; rfl
  | cons a l ih =>
    intro idx k h
    have ih := fun k => ih (idx + 1) k (fun b hb => h b (by simp [hb]))
    cases a with
    | ltc => exact absurd rfl (h .ltc (by simp))
    | visual s p =>
      cases k with
      | zero => rfl
      | succ k => rw [mapEntries, List.getElem?_cons_succ, ih, List.getElem?_cons_succ, show 0x100 + (idx + 1) + k = 0x100 + idx + (k + 1) by omega]
    | audio a =>
      cases k with
      | zero => rfl
      | succ k => rw [mapEntries, List.getElem?_cons_succ, ih, List.getElem?_cons_succ, show 0x100 + (idx + 1) + k = 0x100 + idx + (k + 1) by omega]

theorem mapEntries_length (adds : List Add) (h : ∀ a ∈ adds, a ≠ .ltc) (idx : Nat) : (mapEntries idx adds).length = adds.length := by
  induction adds generalizing idx with
  | nil => rfl
  | cons a l ih =>
    have ih := fun i => ih (fun b hb => h b (by simp [hb])) i
    cases a with
    | ltc => exact absurd rfl (h .ltc (by simp))
    | visual s p => rw [mapEntries, List.length_cons, ih, List.length_cons]
    | audio a => rw [mapEntries, List.length_cons, ih, List.length_cons]

theorem mapEntries_mem (adds : List Add) (h : ∀ a ∈ adds, a ≠ .ltc) (e : Nat × Nat) (he : e ∈ mapEntries 0 adds) :
    ∃ i a, adds[i]? = some a ∧ e = (typeOf a, 0x100 + i) := by
  obtain ⟨i, hi⟩ := List.mem_iff_getElem?.mp he
  rw [mapEntries_get adds 0 i h] at hi
  obtain ⟨a, h1, h2⟩ := Option.map_eq_some_iff.mp hi
  exact ⟨i, a, h1, by rw [← h2, Nat.add_zero]⟩

theorem mapEntries_nodup (adds : List Add) : ∀ (idx : Nat), (∀ a ∈ adds, a ≠ .ltc) → ((mapEntries idx adds).map (·.2)).Nodup ∧
    ∀ q ∈ (mapEntries idx adds).map (·.2), 0x100 + idx ≤ q := by
  induction adds with
  | nil => intro idx _; simp [mapEntries]
  | cons a l ih =>
    intro idx h
    obtain ⟨i1, i2⟩ := ih (idx + 1) (fun b hb => h b (by simp [hb]))
    have : ∀ t, ((t, 0x100 + idx) :: mapEntries (idx + 1) l).map (·.2) = (0x100 + idx) :: (mapEntries (idx + 1) l).map (·.2) := fun t => rfl
    have main : ∀ t, (((t, 0x100 + idx) :: mapEntries (idx + 1) l).map (·.2)).Nodup ∧
        ∀ q ∈ ((t, 0x100 + idx) :: mapEntries (idx + 1) l).map (·.2), 0x100 + idx ≤ q := by
      intro t
      rw [this, List.nodup_cons]
      refine ⟨⟨fun hm => ?_, i1⟩, ?_⟩
      · have := i2 _ hm; omega
      · intro q hq
        rcases List.mem_cons.mp hq with rfl | hq
        · exact Nat.le_refl _
        · have := i2 q hq; omega
    cases a with
    | ltc => exact absurd rfl (h .ltc (by simp))
    | visual s p => exact main 0x1b
    | audio a => exact main 0x0f

/-- A mux with these streams, then time code streams, and a clock stream if one was chosen. -/
def muxOf (types pids : Nat → Nat) (j1 j2 j3 : Nat) (only : Bool) (adds : List Add) (ltcs : Nat) (pcr : Option Nat) : TsMux.State :=
  (fun s => (pcr.map (TsMux.setStreamPcr s)).getD s) ((adds ++ List.replicate ltcs Add.ltc).foldl Add.run (TsMux.init types pids j1 j2 j3 only))

theorem ltcs_length (n : Nat) : ∀ (s : TsMux.State), ((List.replicate n Add.ltc).foldl Add.run s).streams.length = s.streams.length + n := by
  induction n with
  | zero => intro s; rfl
  | succ n ih => intro s; rw [List.replicate_succ, List.foldl_cons, ih]; simp [Add.run, TsMux.addLtc]; omega

theorem muxOf_facts (types pids : Nat → Nat) (j1 j2 j3 : Nat) (only : Bool) (adds : List Add) (ltcs : Nat) (pcr : Option Nat)
    (hl : ∀ a ∈ adds, a ≠ .ltc) (hp : ∀ i, pcr = some i → i < adds.length) (hn : adds.length ≤ 7000) :
    ∀ s, s = muxOf types pids j1 j2 j3 only adds ltcs pcr →
    s.streams.length = adds.length + ltcs ∧ s.ts.tables.count = adds.length ∧
      (List.range s.ts.tables.count).map (fun i => (s.ts.tables.types i, s.ts.tables.pids i)) = mapEntries 0 adds ∧ s.ts.built = none ∧ s.ts.out = [] ∧ s.first = true ∧
      s.ts.tables.pcrPid < 8192 := by
  obtain ⟨h1, h2, h3, h4, h5, h6, _, h8⟩ := TsMux.tinv_adds adds hl (TsMux.init types pids j1 j2 j3 only) 0 [] none
    ⟨rfl, rfl, rfl, rfl, rfl, rfl, rfl, rfl⟩
  intro s hs
  rw [muxOf, List.foldl_append] at hs
  obtain ⟨l1, l2⟩ := TsMux.tinv_ltcs ltcs (adds.foldl Add.run (TsMux.init types pids j1 j2 j3 only))
  have l3 := ltcs_length ltcs (adds.foldl Add.run (TsMux.init types pids j1 j2 j3 only))
  generalize (List.replicate ltcs Add.ltc).foldl Add.run (adds.foldl Add.run (TsMux.init types pids j1 j2 j3 only)) = t at *
  rw [← l1] at h2 h3 h4 h5 h8
  rw [← l2] at h6
  rw [h1] at l3
  simp only [Nat.zero_add, List.nil_append, Option.none_or] at h2 h3 h8 l3
  cases pcr with
  | none =>
    simp only [Option.map_none, Option.getD_none] at hs
    subst hs
    refine ⟨l3, h2, by rw [h2]; exact h3, h4, h5, h6, ?_⟩
    rw [h8]
    cases hv : firstVideo 0 adds with
    | none => simp
    | some v => have := TsMux.firstVideo_lt adds 0 v hv; simp; omega
  | some i =>
    have := hp i rfl
    simp only [Option.map_some, Option.getD_some] at hs
    subst hs
    refine ⟨by simp only [TsMux.setStreamPcr, List.length_modify]; exact l3, h2, by simp only [TsMux.setStreamPcr, Ts.setPcrPid]; rw [h2]; exact h3, h4, h5, h6, ?_⟩
    simp only [TsMux.setStreamPcr, Ts.setPcrPid, basePid]; omega

/-- What the reader makes of a packet of the writer. -/
def Shows (t : TPacket) (q : Ts.Spec.Packet) : Prop := t.err = false ∧ t.start = q.start ∧ t.pid = q.pid ∧ t.payload = some q.payload

theorem shows_of (bytes : List UInt8) (qs : List Ts.Spec.Packet) (h : Ts.Spec.IsStream bytes qs) : List.Forall₂ Shows (packets bytes) qs := by
  obtain ⟨ps, h1, h2⟩ := stream_of_ts bytes qs h
  have h3 := stream_read_partial bytes ps h1
  generalize packets bytes = ts at h3 ⊢
  clear h h1
  induction h2 generalizing ts with
  | nil => cases h3; exact List.Forall₂.nil
  | @cons p q ps qs hpq _ ih =>
    cases h3 with
    | @cons t _ ts _ ht hts => exact List.Forall₂.cons ⟨ht.1, ht.2.1.trans hpq.1, ht.2.2.1.trans hpq.2.1, ht.2.2.2.2.1.trans hpq.2.2⟩ (ih ts hts)

/-- C102, for a whole file: a mux with at most 33 streams (besides time code streams) is given samples in whatever interleaving, and the file is read with
nothing known but its bytes. Then on the pid of each stream there is a receiver of the right type, no other receivers exist, and each has got exactly the
samples of its stream, in order, with their times and data (as in `mux_demux_partial`: the last sample needs `End` when its PES packet has no length). -/
theorem file_round_partial (types pids : Nat → Nat) (j1 j2 j3 : Nat) (only : Bool) (adds : List Add) (ltcs : Nat) (pcr : Option Nat) (hn : adds.length ≤ 33)
    (hlt : ltcs ≤ 3000) (hl : ∀ a ∈ adds, a ≠ .ltc) (hp : ∀ i, pcr = some i → i < adds.length) (s : TsMux.State) (hs : s = muxOf types pids j1 j2 j3 only adds ltcs pcr)
    (xs : List (Env × Sample)) (hne : xs ≠ []) (hx : ∀ ex ∈ xs, SampleOk s ex.2 ∧ SizeOk s ex.2)
    (sps : List UInt8 → Bool) (j : Junk)
    (hd : ∀ i a, adds[i]? = some a → ∀ x0 rest, (xs.map (·.2)).filter (fun x => x.stream == i) = x0 :: rest →
      ∀ u c, pesFor s x0 = some (u, c) → Described (kindOf sps (typeOf a)) u) :
    ∃ p, Proc.init.run sps j (packets (xs.foldl (fun s ex => addSample ex.1 s ex.2) s).ts.out) = some p ∧
      (∀ i a, adds[i]? = some a → ∃ r st, p.pes (0x100 + i) = some (typeOf a, r) ∧ s.streams[i]? = some st ∧
        ((xs.map (·.2)).filter (fun x => x.stream == i) = [] → r = PS.init j.hdr) ∧
        ∀ x0 rest, (xs.map (·.2)).filter (fun x => x.stream == i) = x0 :: rest →
          (∃ r', r.finish (kindOf sps (typeOf a)) = .ok r' ∧ List.Forall₂ (fun x d => ReadBack st s.presentationOffset s.decodingOffset x d) (x0 :: rest) r'.out) ∧
          ((∀ x, (x0 :: rest).getLast? = some x → ∀ u c, pesFor s x = some (u, c) → u.length ≤ 65541) →
            List.Forall₂ (fun x d => ReadBack st s.presentationOffset s.decodingOffset x d) (x0 :: rest) r.out)) ∧
      ∀ q, (∀ i, i < adds.length → q ≠ 0x100 + i) → p.pes q = none := by
  obtain ⟨f1, f2, f3, f4, f5, f6, f7⟩ := muxOf_facts types pids j1 j2 j3 only adds ltcs pcr hl hp (by omega) s hs
  have hn3 : s.streams.length ≤ 3840 := by omega
  have hml := mapEntries_length adds hl 0
  obtain ⟨ex, xs', rfl⟩ : ∃ ex xs', xs = ex :: xs' := by cases xs with | nil => exact absurd rfl hne | cons a b => exact ⟨a, b, rfl⟩
  -- what is in the file
  obtain ⟨pes, pc, hpes, hadd⟩ := addSample_eq s s ⟨rfl, rfl, rfl⟩ ex.1 ex.2 (hx ex (by simp)).1
  rw [f6, Bool.true_or, if_pos rfl] at hadd
  obtain ⟨crc1, hc1⟩ := pas_carried s.ts.tables ex.1.addr1
  obtain ⟨crc2, hc2⟩ := pam_carried s.ts.tables ex.1.addr2 (mapEntries 0 adds) (by rw [hml, f2]) f3
  have hlen1 : (s.ts.tables.pas ex.1.addr1).length = 17 := by
    rw [hc1, carried, List.length_append, List.length_append, List.length_append, section_length, patBody_length, pack_length _ 1 rfl]; rfl
  have hlen2 : (s.ts.tables.pam ex.1.addr2).length = 17 + 5 * adds.length := by
    rw [hc2, carried, List.length_append, List.length_append, List.length_append, section_length, plain_length, pack_length _ 1 rfl, hml]
    simp only [List.length_nil]; omega
  obtain ⟨a1, q1, o1, o2, o3, o4, o5⟩ := one_packet { s.ts with built := some (s.ts.tables.pas ex.1.addr1, s.ts.tables.pam ex.1.addr2) } 0
    (s.ts.tables.pas ex.1.addr1) ex.1.beyond ex.1.junk (by omega) (by omega)
  obtain ⟨a2, q2, u1, u2, u3, u4, u5⟩ := one_packet (Ts.outputTs { s.ts with built := some (s.ts.tables.pas ex.1.addr1, s.ts.tables.pam ex.1.addr2) } 0
    (s.ts.tables.pas ex.1.addr1) ex.1.beyond false none ex.1.junk) 0x1000
    (s.ts.tables.pam ex.1.addr2) ex.1.beyond ex.1.junk (by omega) (by omega)
  have htab : (Ts.outputTables s.ts ex.1.addr1 ex.1.addr2 ex.1.beyond ex.1.junk).out = a1 ++ a2 := by
    simp only [Ts.outputTables, f4, Option.getD_none]
    rw [u1, o1, f5, List.nil_append]
  obtain ⟨a3, p3, v1, v2, v3⟩ := sample_adds s hn3 (Ts.outputTables s.ts ex.1.addr1 ex.1.addr2 ex.1.beyond ex.1.junk) ex.1 ex.2 (hx ex (by simp)).1 pes pc hpes
  obtain ⟨a4, p4, w1, w2, w3⟩ := samples_add s hn3 xs' (addSample ex.1 s ex.2) (by rw [hadd]; exact ⟨rfl, rfl, rfl⟩) (fun y hy => (hx y (by simp [hy])).1)
  have hout : ((ex :: xs').foldl (fun s ex => addSample ex.1 s ex.2) s).ts.out = a1 ++ (a2 ++ (a3 ++ a4)) := by
    rw [List.foldl_cons, w1, hadd]
    simp only
    rw [v1, htab]; simp
  have hpid : ∀ q ∈ p3 ++ p4, q.pid = 0 ∨ q.pid = 0x1000 ∨ ∃ y ∈ ex :: xs', q.pid = basePid + y.2.stream := by
    intro q hq
    rcases List.mem_append.mp hq with hq | hq
    · exact .inr (.inr ⟨ex, by simp, v3 q hq⟩)
    · rcases w3 q hq with h | h | ⟨y, hy, h⟩
      · exact .inl h
      · exact .inr (.inl h)
      · exact .inr (.inr ⟨y, by simp [hy], h⟩)
  have hsh := shows_of _ _ (Ts.isStream_append o2 (Ts.isStream_append u2 (Ts.isStream_append v2 w2)))
  rw [← hout] at hsh
  have hmd := fun i st x0 rest (hst : s.streams[i]? = some st) hxs k hdd => mux_demux_partial s f5 hn3 (ex :: xs') hx i st hst x0 rest hxs k j.hdr hdd
  generalize ((ex :: xs').foldl (fun s ex => addSample ex.1 s ex.2) s).ts.out = out at hsh hmd ⊢
  generalize packets out = tp at hsh hmd ⊢
  obtain ⟨t1, t2, c, rfl, ht1, ht2, hc⟩ : ∃ t1 t2 c, tp = t1 :: t2 :: c ∧ Shows t1 q1 ∧ Shows t2 q2 ∧ List.Forall₂ Shows c (p3 ++ p4) := by
    cases hsh with
    | cons h hh =>
      cases hh with
      | cons h' hh => exact ⟨_, _, _, rfl, h, h', hh⟩
  have hcm : ∀ t ∈ c, t.err = false ∧ (t.pid = 0 ∨ t.pid = 0x1000 ∨ ∃ y ∈ ex :: xs', t.pid = basePid + y.2.stream) := by
    have : ∀ (c : List TPacket) (l : List Ts.Spec.Packet), List.Forall₂ Shows c l →
        (∀ q ∈ l, q.pid = 0 ∨ q.pid = 0x1000 ∨ ∃ y ∈ ex :: xs', q.pid = basePid + y.2.stream) →
        ∀ t ∈ c, t.err = false ∧ (t.pid = 0 ∨ t.pid = 0x1000 ∨ ∃ y ∈ ex :: xs', t.pid = basePid + y.2.stream) := by
      intro c l h
      induction h with
      | nil => intro _ t ht; simp at ht
      | @cons t q c l hh _ ih =>
        intro hq t' ht'
        rcases List.mem_cons.mp ht' with rfl | ht'
        · refine ⟨hh.1, ?_⟩
          rw [hh.2.2.1]; exact hq q (by simp)
        · exact ih (fun q' hq' => hq q' (by simp [hq'])) t' ht'
    exact this c _ hc hpid
  have e0 : t1.pid = 0 := by rw [ht1.2.2.1, o4]
  have e1 : t2.pid = 0x1000 := by rw [ht2.2.2.1, u4]
  -- the packets of a stream
  have hfil : ∀ i, i < adds.length → (t1 :: t2 :: c).filter (fun t => t.pid == 0x100 + i) = c.filter (onPid (0x100 + i)) := by
    intro i hi
    rw [List.filter_cons_of_neg (by rw [e0]; simp only [beq_iff_eq]; omega), List.filter_cons_of_neg (by rw [e1]; simp only [beq_iff_eq]; omega)]
    apply List.filter_congr
    intro t ht
    rw [onPid, (hcm t ht).1]; rfl
  have hrun : ∀ i a, adds[i]? = some a → ∃ r st, (PS.init j.hdr).run (kindOf sps (typeOf a)) (c.filter (onPid (0x100 + i))) = .ok r ∧ s.streams[i]? = some st ∧
        (((ex :: xs').map (·.2)).filter (fun x => x.stream == i) = [] → r = PS.init j.hdr) ∧
        ∀ x0 rest, ((ex :: xs').map (·.2)).filter (fun x => x.stream == i) = x0 :: rest →
          (∃ r', r.finish (kindOf sps (typeOf a)) = .ok r' ∧ List.Forall₂ (fun x d => ReadBack st s.presentationOffset s.decodingOffset x d) (x0 :: rest) r'.out) ∧
          ((∀ x, (x0 :: rest).getLast? = some x → ∀ u c, pesFor s x = some (u, c) → u.length ≤ 65541) →
            List.Forall₂ (fun x d => ReadBack st s.presentationOffset s.decodingOffset x d) (x0 :: rest) r.out) := by
    intro i a ha
    have hi : i < adds.length := (List.getElem?_eq_some_iff.mp ha).1
    obtain ⟨st, hst⟩ : ∃ st, s.streams[i]? = some st := ⟨_, List.getElem?_eq_some_iff.mpr ⟨by omega, rfl⟩⟩
    cases hxs : ((ex :: xs').map (·.2)).filter (fun x => x.stream == i) with
    | nil =>
      refine ⟨PS.init j.hdr, st, ?_, hst, fun _ => rfl, by intro x0 rest h; simp at h⟩
      have : c.filter (onPid (0x100 + i)) = [] := by
        rw [List.filter_eq_nil_iff]
        intro t ht hon
        have hpd := ((onPid_iff _ _).mp hon).2
        rcases (hcm t ht).2 with h | h | ⟨y, hy, h⟩
        · omega
        · omega
        · have : y.2 ∈ ((ex :: xs').map (·.2)).filter (fun x => x.stream == i) := by
            rw [List.mem_filter]
            refine ⟨List.mem_map.mpr ⟨y, hy, rfl⟩, ?_⟩
            rw [hpd, basePid] at h
            simp only [beq_iff_eq]; omega
          rw [hxs] at this; simp at this
      rw [this]; rfl
    | cons x0 rest =>
      obtain ⟨r, r1, r2, r3⟩ := hmd i st x0 rest hst hxs (kindOf sps (typeOf a)) (fun u c hu => hd i a ha x0 rest hxs u c hu)
      rw [hfil i hi] at r1
      refine ⟨r, st, r1, hst, by intro h; simp at h, ?_⟩
      intro y0 rest' h
      obtain ⟨rfl, rfl⟩ := List.cons.inj h
      exact ⟨r2, r3⟩
  obtain ⟨hnd, _⟩ := mapEntries_nodup adds 0 hl
  have hR : ∀ q, ∃ r, ∀ i a, adds[i]? = some a → q = 0x100 + i → (PS.init j.hdr).run (kindOf sps (typeOf a)) (c.filter (onPid (0x100 + i))) = .ok r := by
    intro q
    by_cases h : ∃ i a, adds[i]? = some a ∧ q = 0x100 + i
    · obtain ⟨i, a, h1, h2⟩ := h
      obtain ⟨r, _, hr, _⟩ := hrun i a h1
      refine ⟨r, ?_⟩
      intro i' a' h1' h2'
      obtain rfl : i = i' := by omega
      rw [h1, Option.some.injEq] at h1'
      rw [← h1']; exact hr
    · exact ⟨PS.init j.hdr, fun i a h1 h2 => absurd ⟨i, a, h1, h2⟩ h⟩
  obtain ⟨R, hR⟩ := Classical.axiomOfChoice hR
  have hpp : piece t1 = s.ts.tables.pas ex.1.addr1 := by rw [piece, ht1.2.2.2, Option.getD_some, o5]
  have hpp2 : piece t2 = s.ts.tables.pam ex.1.addr2 := by rw [piece, ht2.2.2.2, Option.getD_some, u5]
  have hon1 : onPid 0 t1 = true := (onPid_iff _ _).mpr ⟨ht1.1, e0⟩
  have hon2 : onPid 0x1000 t2 = true := (onPid_iff _ _).mpr ⟨ht2.1, e1⟩
  have hes : ∀ e ∈ (mapEntries 0 adds).map plain, ∃ i a, adds[i]? = some a ∧ e = ⟨typeOf a, 0x100 + i, []⟩ := by
    intro e he
    obtain ⟨m, hm, rfl⟩ := List.mem_map.mp he
    obtain ⟨i, a, ha, rfl⟩ := mapEntries_mem adds hl m hm
    exact ⟨i, a, ha, rfl⟩
  have hmap : MapOk 0 s.ts.tables.pcrPid [] ((mapEntries 0 adds).map plain) := by
    refine ⟨f7, ⟨by simp, by simp [descriptors]⟩, ?_, by rw [plain_length]; omega, by rw [List.map_map]; exact hnd⟩
    intro e he
    obtain ⟨i, a, ha, rfl⟩ := hes e he
    have := (List.getElem?_eq_some_iff.mp ha).1
    refine ⟨by cases a <;> simp [typeOf], by simp only; omega, by simp, by simp [descriptors]⟩
  obtain ⟨p, g1, g2, g3⟩ := streams_delivered_partial sps j [t1] [t2] c ⟨0, 0, 1, s.ts.tables.junk1, 0, 1, 0, 0⟩ s.ts.tables.junk2 [(1, 0x1000)] (by simp) (by simp)
    (by simp) crc1 [] []
    (by
      rw [List.filter_cons_of_pos hon1, List.filter_nil]
      exact carries_one t1 _ _ _ (by simp) (by rw [ht1.2.1, o3]) (by rw [hpp]; exact hc1) (by rw [section_length]; omega))
    (by intro t ht; rw [List.getLast?_singleton, Option.some.injEq] at ht; rw [← ht]; exact hon1)
    0x1000 (by simp) ⟨0, 0, 1, s.ts.tables.junk3, 0, 1, 0, 0⟩ 0 s.ts.tables.pcrPid [] _ hmap crc2 [] []
    (by
      rw [List.filter_cons_of_pos hon2, List.filter_nil]
      exact carries_one t2 _ _ _ (by simp) (by rw [ht2.2.1, u3]) (by rw [hpp2]; exact hc2) (by rw [section_length]; omega))
    (by intro t ht; rw [List.getLast?_singleton, Option.some.injEq] at ht; rw [← ht]; exact hon2)
    (by intro t _ _ h; simpa using h)
    (by
      intro e he
      obtain ⟨i, a, ha, rfl⟩ := hes e he
      have := (List.getElem?_eq_some_iff.mp ha).1
      simp only [List.map_cons, List.map_nil, List.mem_singleton]
      omega) R
    (by
      intro e he
      obtain ⟨i, a, ha, rfl⟩ := hes e he
      exact hR (0x100 + i) i a ha rfl)
  refine ⟨p, g1, ?_, ?_⟩
  · intro i a ha
    obtain ⟨r, st, h1, h2, h3, h4⟩ := hrun i a ha
    refine ⟨r, st, ?_, h2, h3, h4⟩
    have hm : (⟨typeOf a, 0x100 + i, []⟩ : Es) ∈ (mapEntries 0 adds).map plain := by
      refine List.mem_map.mpr ⟨(typeOf a, 0x100 + i), ?_, rfl⟩
      refine List.mem_iff_getElem?.mpr ⟨i, ?_⟩
      rw [mapEntries_get adds 0 i hl, ha, Option.map_some, Nat.add_zero]
    have := g2 _ hm
    simp only at this
    have hr := hR (0x100 + i) i a ha rfl
    rw [h1, Except.ok.injEq] at hr
    rw [this, hr]
  · intro q hq
    apply g3
    intro hm
    obtain ⟨e, he, rfl⟩ := List.mem_map.mp hm
    obtain ⟨i, a, ha, rfl⟩ := hes e he
    exact hq i (List.getElem?_eq_some_iff.mp ha).1 rfl

theorem lookup_never_fails (l : List UInt8) : h264Lookup noSps l ≠ .fail := by
  induction l with
  | nil => simp [h264Lookup]
  | cons a l ih =>
    match l with
    | b :: c :: d :: r =>
      rw [h264Lookup]
      split
      · split
        · simp [noSps]
        · exact ih
      · simp
    | [] => simp [h264Lookup]
    | [b] => simp [h264Lookup]
    | [b, c] => simp [h264Lookup]

def twoAdds : List Add := [.visual [0x67, 1] [0x68, 2], .audio ⟨2, 44100, 2⟩]

/-- A concrete case: the file with two video and two audio frames of module Demux, read from its bytes. -/
example (e : Env) (j : Junk) : ∃ p, Proc.init.run noSps j (packets ((fourSamples.map (e, ·)).foldl (fun s ex => addSample ex.1 s ex.2) twoStreams).ts.out) = some p ∧
    (∃ r, p.pes 0x100 = some (0x1b, r) ∧ r.out.length = 2) ∧ (∃ r, p.pes 0x101 = some (0x0f, r) ∧ r.out.length = 2) ∧ p.pes 0x102 = none := by
  have hsm : (fourSamples.map (e, ·)).map (·.2) = fourSamples := by simp [Function.comp_def]
  have hsize : ∀ x u c, ((pesFor twoStreams x).map (fun u => decide (u.1.length ≤ 65541))) = some true → pesFor twoStreams x = some (u, c) → u.length ≤ 65541 := by
    intro x u c h hu
    rw [hu, Option.map_some, Option.some.injEq, decide_eq_true_eq] at h
    exact h
  obtain ⟨p, h1, h2, h3⟩ := file_round_partial (fun _ => 9) (fun _ => 9) 3 7 3 false twoAdds 0 none (by decide) (by omega) (by simp [twoAdds]) (by simp) twoStreams rfl
    (fourSamples.map (e, ·)) (by simp [fourSamples]) (by intro ex hm; obtain ⟨x, hx, rfl⟩ := List.mem_map.mp hm; exact fourSamples_ok x hx) noSps j (by
      rw [hsm]
      intro i a ha x0 rest hx u c hu
      match i with
      | 0 =>
        rw [twoAdds, List.getElem?_cons_zero, Option.some.injEq] at ha
        have hx : fourSamples.filter (fun x => x.stream == 0) = x0 :: rest := hx
        rw [fourSamples] at hx
        obtain ⟨rfl, _⟩ := List.cons.inj hx
        have hdec : (pesFor twoStreams ⟨0, TsMux.Spec.lengthPrefixed [List.replicate 200 0x65], true, 400000, 0⟩).map
            (fun u => decide (100 ≤ u.1.length) && decide (h264Lookup noSps u.1 = .found)) = some true := by decide +kernel
        rw [hu, Option.map_some, Option.some.injEq, Bool.and_eq_true, decide_eq_true_eq, decide_eq_true_eq] at hdec
        rw [← ha]
        exact ⟨hdec.1, hdec.2, fun pre _ => lookup_never_fails pre⟩
      | 1 =>
        rw [twoAdds, List.getElem?_cons_succ, List.getElem?_cons_zero, Option.some.injEq] at ha
        have hx : fourSamples.filter (fun x => x.stream == 1) = x0 :: rest := hx
        rw [fourSamples] at hx
        obtain ⟨rfl, _⟩ := List.cons.inj hx
        rw [← ha]
        exact described_audio twoStreams _ ⟨2, 44100, 2⟩ false rfl (by decide) u c hu
      | k + 2 => simp [twoAdds] at ha)
  rw [hsm] at h2
  refine ⟨p, h1, ?_, ?_, h3 0x102 (by intro i hi; simp [twoAdds] at hi; omega)⟩
  · obtain ⟨r, st, g1, _, _, g3⟩ := h2 0 _ rfl
    refine ⟨r, g1, ?_⟩
    have := (g3 ⟨0, TsMux.Spec.lengthPrefixed [List.replicate 200 0x65], true, 400000, 0⟩ [⟨0, TsMux.Spec.lengthPrefixed [[0x41, 2, 3], [0x06, 4]], false, 800000, 400000⟩] rfl).2 (by
      intro x hx u c hu
      simp only [List.getLast?_cons_cons, List.getLast?_singleton, Option.some.injEq] at hx
      exact hsize x u c (by rw [← hx]; decide +kernel) hu)
    simpa using this.length_eq.symm
  · obtain ⟨r, st, g1, _, _, g3⟩ := h2 1 _ rfl
    refine ⟨r, g1, ?_⟩
    have := (g3 ⟨1, List.replicate 10 7, false, 0, 0⟩ [⟨1, [1, 2, 3], false, 232000, 232000⟩] rfl).2 (by
      intro x hx u c hu
      simp only [List.getLast?_cons_cons, List.getLast?_singleton, Option.some.injEq] at hx
      exact hsize x u c (by rw [← hx]; decide +kernel) hu)
    simpa using this.length_eq.symm

/-- A mux with `n` audio streams. -/
def manyStreams (n : Nat) : TsMux.State := muxOf (fun _ => 9) (fun _ => 9) 3 7 3 false (List.replicate n (.audio ⟨2, 44100, 2⟩)) 0 none

/-- C102 and C103 fail for a file with 34 streams: the map ends one byte behind the first packet, and the program cannot read the file it wrote. With 33
streams it can. -/
theorem many_streams_witness :
    (Proc.init.run noSps junk0 (packets (addSample TsMux.env0 (manyStreams 34) ⟨0, List.replicate 10 7, false, 0, 0⟩).ts.out)).isNone = true ∧
    ((Proc.init.run noSps junk0 (packets (addSample TsMux.env0 (manyStreams 33) ⟨0, List.replicate 10 7, false, 0, 0⟩).ts.out)).bind
      fun p => (p.pes 0x100).map (fun r => r.2.out.length)) = some 1 := by
  decide +kernel

end Verif.Psi
