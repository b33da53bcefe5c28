import Verif.TsMux.Props
/-!
Property C62: what is muxed is what a receiver gets.
-/
namespace Verif.TsMux
open Fields Verif.TsMux.Spec

/-! ### the multiplex -/

theorem group_append (a b : List Ts.Spec.Packet) (h : (group b).1 = []) : group (a ++ b) = ((group a).1, (group a).2 ++ (group b).2) := by
  induction a with
  | nil => simp [group, ← h]
  | cons p a ih =>
    simp only [List.cons_append, group, ih]
    split <;> simp

theorem group_unit (p : Ts.Spec.Packet) (ps : List Ts.Spec.Packet) (h : p.start = true) (hs : ∀ q ∈ ps, q.start = false) :
    group (p :: ps) = ([], [(p :: ps).flatMap (·.payload)]) := by
  have : ∀ l : List Ts.Spec.Packet, (∀ q ∈ l, q.start = false) → group l = (l.flatMap (·.payload), []) := by
    intro l
    induction l with
    | nil => intro _; rfl
    | cons q l ih =>
      intro hl
      simp only [group, ih (fun x hx => hl x (List.mem_cons_of_mem _ hx)), hl q (List.mem_cons_self ..)]
      simp
  simp only [group, this ps hs, h, if_true, List.flatMap_cons]

/-- What a receiver must find in a unit of the stream for the sample. -/
def Delivered (st : Stream) (pOff dOff : Nat) (x : Sample) (unit : List UInt8) : Prop :=
  ∃ p, Pes.Spec.parse unit = some p ∧ p.pts = some (Ts.Spec.clock90 (x.ct + pOff)) ∧
    match st with
    | .h264 sps pps => p.streamId = 224 ∧ p.dts = some (Ts.Spec.clock90 (x.dt + dOff)) ∧
        ∀ nals, (∀ n ∈ nals, n.length < 2 ^ 32) → x.body = lengthPrefixed nals →
          p.payload = byteStream (accessUnit sps pps x.iframe nals)
    | .aac a pcr => p.streamId = 192 ∧ p.dts = (if pcr then some (Ts.Spec.clock90 (x.dt + dOff)) else none) ∧
        p.payload = adtsHeader a x.body.length ++ x.body
    | .empty => False

/-- The PES packet made for a sample. -/
def pesFor (s : State) (x : Sample) : Option (List UInt8 × Option Nat) :=
  s.streams[x.stream]?.bind fun st =>
    pesOf st x.body x.iframe ((x.ct + s.presentationOffset) % 2 ^ 64) ((x.dt + s.decodingOffset) % 2 ^ 64)

/-- Conditions on a sample: it belongs to a video or audio stream, its times are representable, and, for a key frame, its PES packet is
not one byte shorter than the room in the first packet (the defect of C16). -/
def SampleOk (s : State) (x : Sample) : Prop :=
  x.ct + s.presentationOffset < 2 ^ 62 ∧ x.dt + s.decodingOffset < 2 ^ 62 ∧
    ∃ pes pcr, pesFor s x = some (pes, pcr) ∧ (x.iframe = true → pes.length ≠ if pcr.isSome then 175 else 181)

theorem pes_delivered (s : State) (x : Sample) (st : Stream) (hst : s.streams[x.stream]? = some st) (hc : x.ct + s.presentationOffset < 2 ^ 62)
    (hd : x.dt + s.decodingOffset < 2 ^ 62) (pes : List UInt8) (pcr : Option Nat) (h : pesFor s x = some (pes, pcr)) :
    Delivered st s.presentationOffset s.decodingOffset x pes ∧ (∀ t, pcr = some t → t < 2 ^ 62) := by
  have e1 : (x.ct + s.presentationOffset) % 2 ^ 64 = x.ct + s.presentationOffset := Nat.mod_eq_of_lt (by omega)
  have e2 : (x.dt + s.decodingOffset) % 2 ^ 64 = x.dt + s.decodingOffset := Nat.mod_eq_of_lt (by omega)
  rw [pesFor, hst, Option.bind_some, e1, e2] at h
  cases st with
  | empty => simp [pesOf] at h
  | h264 sps pps =>
    simp only [pesOf, Option.some.injEq, Prod.mk.injEq] at h
    obtain ⟨rfl, rfl⟩ := h
    constructor
    · refine ⟨_, Pes.pes_read 224 _ (some _) (videoES sps pps x.body x.iframe) (by omega) hc (by intro t h; cases h; exact hd), rfl, rfl, rfl, ?_⟩
      intro nals hn hb
      simp only
      rw [hb, video_access_unit _ _ _ _ hn]
    · intro t ht
      split at ht <;> simp at ht
      omega
  | aac a p =>
    simp only [pesOf, Option.some.injEq, Prod.mk.injEq] at h
    obtain ⟨rfl, rfl⟩ := h
    constructor
    · refine ⟨_, Pes.pes_read 192 _ _ (adtsHeader a x.body.length ++ x.body) (by omega) hc ?_, rfl, rfl, ?_, rfl⟩
      · intro t ht
        split at ht <;> simp at ht
        omega
      · cases p <;> rfl
    · intro t ht
      split at ht <;> simp at ht
      omega

/-- state of the multiplex while samples are added -/
def Inv (s0 s : State) (done : List Sample) : Prop :=
  s.streams = s0.streams ∧ s.presentationOffset = s0.presentationOffset ∧ s.decodingOffset = s0.decodingOffset ∧
  ∃ ps : List Ts.Spec.Packet, Ts.Spec.IsStream s.ts.out ps ∧
    ∀ i st, s0.streams[i]? = some st →
      (group (ps.filter (fun p => p.pid == basePid + i))).1 = [] ∧
      List.Forall₂ (fun x u => Delivered st s0.presentationOffset s0.decodingOffset x u ∧ ∃ pcr, pesFor s0 x = some (u, pcr))
        (done.filter (fun x => x.stream == i)) (units ps (basePid + i))

theorem filter_none (ps : List Ts.Spec.Packet) (pid : Nat) (h : ∀ q ∈ ps, q.pid ≠ pid) : ps.filter (fun p => p.pid == pid) = [] := by
  rw [List.filter_eq_nil_iff]
  intro q hq; simp [h q hq]

theorem filter_all (ps : List Ts.Spec.Packet) (pid : Nat) (h : ∀ q ∈ ps, q.pid = pid) : ps.filter (fun p => p.pid == pid) = ps := by
  rw [List.filter_eq_self]
  intro q hq; simp [h q hq]

/-- writing packets of other pids changes nothing for the streams -/
theorem inv_other (s0 s : State) (done : List Sample) (hn : s0.streams.length ≤ 3840) (hi : Inv s0 s done) (ts : Ts.State) (added : List UInt8)
    (qs : List Ts.Spec.Packet) (ho : ts.out = s.ts.out ++ added) (hs : Ts.Spec.IsStream added qs) (hq : ∀ q ∈ qs, q.pid = 0 ∨ q.pid = 0x1000) :
    Inv s0 { s with ts := ts } done := by
  obtain ⟨h1, h2, h3, ps, h4, h5⟩ := hi
  refine ⟨h1, h2, h3, ps ++ qs, by rw [ho]; exact Ts.isStream_append h4 hs, ?_⟩
  intro i st hst
  have hlt : i < s0.streams.length := (List.getElem?_eq_some_iff.mp hst).1
  have hf : qs.filter (fun p => p.pid == basePid + i) = [] := by
    apply filter_none
    intro q hq'
    simp only [basePid]
    rcases hq q hq' with h | h <;> omega
  rw [units, List.filter_append, hf, List.append_nil]
  exact h5 i st hst

theorem inv_sample (s0 s : State) (done : List Sample) (hn : s0.streams.length ≤ 3840) (hi : Inv s0 s done) (e : Env) (x : Sample)
    (hx : SampleOk s0 x) : Inv s0 (addSample e s x) (done ++ [x]) := by
  obtain ⟨hc, hd, pes, pcr, hpes, hsize⟩ := hx
  have hst : ∃ st, s0.streams[x.stream]? = some st := by
    rw [pesFor] at hpes
    cases h : s0.streams[x.stream]? with
    | none => rw [h] at hpes; simp at hpes
    | some st => exact ⟨st, rfl⟩
  obtain ⟨st, hst⟩ := hst
  obtain ⟨hdel, hpcr⟩ := pes_delivered s0 x st hst hc hd pes pcr hpes
  have hlt : x.stream < s0.streams.length := (List.getElem?_eq_some_iff.mp hst).1
  -- tables
  have ht : ∀ c : Bool, Inv s0 { s with ts := if c then Ts.outputTables s.ts e.addr1 e.addr2 e.beyond e.junk else s.ts } done := by
    intro c
    cases c
    · exact hi
    · obtain ⟨added, qs, g1, g2, _, _, g5⟩ := Ts.outputTables_stream s.ts e.addr1 e.addr2 e.beyond e.junk
      exact inv_other s0 s done hn hi _ added qs g1 g2 g5
  have ht' := ht (s.first || (!s.onlyTable && decide (s.repeatPid = some x.stream) && x.iframe))
  generalize hts : (if (s.first || (!s.onlyTable && decide (s.repeatPid = some x.stream) && x.iframe)) then
    Ts.outputTables s.ts e.addr1 e.addr2 e.beyond e.junk else s.ts) = ts at ht'
  obtain ⟨h1, h2, h3, ps, h4, h5⟩ := ht'
  simp only at h1 h2 h3 h4
  -- the sample
  have hadd : addSample e s x = { s with ts := Ts.outputTs ts (basePid + x.stream) pes e.beyond x.iframe pcr e.junk, first := false } := by
    have hp' : pesOf st x.body x.iframe ((x.ct + s.presentationOffset) % 2 ^ 64) ((x.dt + s.decodingOffset) % 2 ^ 64) = some (pes, pcr) := by
      rw [pesFor, hst, Option.bind_some] at hpes
      rw [h2, h3]; exact hpes
    simp only [addSample, hts, h1, hst, hp']
  obtain ⟨added, p, qs, g1, g2, g3, g4, g5, g6, _⟩ := Ts.output_ts_carries_payload_partial ts (basePid + x.stream) pes e.beyond x.iframe pcr
    e.junk (by simp only [basePid]; omega) hpcr hsize
  rw [hadd]
  refine ⟨h1, h2, h3, ps ++ (p :: qs), by simp only; rw [g1]; exact Ts.isStream_append h4 g2, ?_⟩
  intro i sti hsti
  obtain ⟨h6, h7⟩ := h5 i sti hsti
  by_cases hix : i = x.stream
  · subst hix
    rw [hst] at hsti
    cases hsti
    have hf := filter_all (p :: qs) (basePid + x.stream) g4
    have hg := group_unit p qs g5 g6
    have hga := group_append (ps.filter (fun q => q.pid == basePid + x.stream)) (p :: qs) (by rw [hg])
    rw [units, List.filter_append, hf, hga, List.filter_append]
    refine ⟨h6, ?_⟩
    simp only
    apply List.rel_append
    · exact h7
    · rw [hg, g3]
      simp only [List.filter_cons, BEq.rfl, if_true, List.filter_nil]
      exact List.Forall₂.cons ⟨hdel, pcr, hpes⟩ List.Forall₂.nil
  · have hf : (p :: qs).filter (fun q => q.pid == basePid + i) = [] := by
      apply filter_none
      intro q hq; rw [g4 q hq]; omega
    have hfx : [x].filter (fun y => y.stream == i) = [] := by
      simp [Ne.symm hix]
    rw [units, List.filter_append, hf, List.append_nil, List.filter_append, hfx, List.append_nil]
    exact ⟨h6, h7⟩

/-- The packets on the pid of every stream are exactly the PES packets made of its samples. -/
theorem mux_units (s : State) (h0 : s.ts.out = []) (hn : s.streams.length ≤ 3840) (xs : List (Env × Sample))
    (hx : ∀ ex ∈ xs, SampleOk s ex.2) :
    ∃ ps : List Ts.Spec.Packet, Ts.Spec.IsStream (xs.foldl (fun s ex => addSample ex.1 s ex.2) s).ts.out ps ∧
      ∀ i st, s.streams[i]? = some st →
        (group (ps.filter (fun p => p.pid == basePid + i))).1 = [] ∧
        List.Forall₂ (fun x u => Delivered st s.presentationOffset s.decodingOffset x u ∧ ∃ pcr, pesFor s x = some (u, pcr))
          ((xs.map (·.2)).filter (fun x => x.stream == i)) (units ps (basePid + i)) := by
  have key : ∀ (xs : List (Env × Sample)) (t : State) (done : List Sample), (∀ ex ∈ xs, SampleOk s ex.2) → Inv s t done →
      Inv s (xs.foldl (fun s ex => addSample ex.1 s ex.2) t) (done ++ xs.map (·.2)) := by
    intro xs
    induction xs with
    | nil => intro t done _ h; simpa using h
    | cons ex xs ih =>
      intro t done hx h
      have := ih (addSample ex.1 t ex.2) (done ++ [ex.2]) (fun y hy => hx y (List.mem_cons_of_mem _ hy))
        (inv_sample s t done hn h ex.1 ex.2 (hx ex (List.mem_cons_self ..)))
      simpa using this
  have hi : Inv s s [] := ⟨rfl, rfl, rfl, [], by rw [h0]; exact Ts.isStream_nil, fun i st _ => ⟨rfl, List.Forall₂.nil⟩⟩
  obtain ⟨_, _, _, ps, h4, h5⟩ := key xs s [] hx hi
  exact ⟨ps, h4, h5⟩


/-- C62: whatever samples are added to a transport stream mux, in whatever interleaving, a receiver that demultiplexes the output finds on the pid
of every stream exactly one PES packet per sample of that stream, in order, with the sample's time stamps and its data (byte stream format
for video, ADTS for audio). `SampleOk` excludes key frames whose PES packet has 181 (175 with clock reference) bytes. -/
theorem mux_delivers_partial (s : State) (h0 : s.ts.out = []) (hn : s.streams.length ≤ 3840) (xs : List (Env × Sample))
    (hx : ∀ ex ∈ xs, SampleOk s ex.2) :
    ∃ ps : List Ts.Spec.Packet, Ts.Spec.IsStream (xs.foldl (fun s ex => addSample ex.1 s ex.2) s).ts.out ps ∧
      ∀ i st, s.streams[i]? = some st →
        List.Forall₂ (fun x u => Delivered st s.presentationOffset s.decodingOffset x u)
          ((xs.map (·.2)).filter (fun x => x.stream == i)) (units ps (0x100 + i)) := by
  obtain ⟨ps, h1, h2⟩ := mux_units s h0 hn xs hx
  exact ⟨ps, h1, fun i st hst => (h2 i st hst).2.imp fun _ _ h => h.1⟩

end Verif.TsMux
