import Verif.Ts.Props
import Verif.Crc.Props
/-!
Property C61: the program association and program map tables that `output_sections_tables` writes are well formed sections
with a correct CRC that announce exactly the program and the streams registered.
-/
namespace Verif.Ts
open Fields Spec

theorem map_toBitVec_word (w : BitVec 32) : (pack [(32, w.toNat)]).map UInt8.toBitVec = Crc.Spec.bigEndian w := by
  rw [pack_word, Crc.Spec.bigEndian]
  have e : ∀ n : Nat, UInt8.toBitVec (UInt8.ofNat (w.toNat / 2 ^ n)) = (w >>> n).truncate 8 := by
    intro n
    apply BitVec.eq_of_toNat_eq
    simp [Nat.shiftRight_eq_div_pow]
  have e0 : UInt8.toBitVec (UInt8.ofNat w.toNat) = w.truncate 8 := by
    apply BitVec.eq_of_toNat_eq
    simp
  simp only [List.map_cons, List.map_nil, e, e0]

/-- a section buffer with its CRC -/
theorem withCrc_eq (addr len : Nat) (fs : List (Nat × Nat)) (hw : width fs = 8 * len) (hlen : 4 ≤ len) :
    withCrc addr len (pack (fs ++ [(32, 0)])) =
      pack fs ++ pack [(32, (Crc.crc32 (addr + 1) (((pack fs).drop 1).map UInt8.toBitVec)).toNat)] := by
  have h1 : pack (fs ++ [(32, 0)]) = pack fs ++ pack [(32, 0)] := pack_append _ _ len hw
  have h2 : (pack fs).length = len := pack_length _ len hw
  have h3 : (pack [(32, 0)]).length = 4 := pack_length _ 4 rfl
  rw [withCrc, h1]
  have hA : (pack fs ++ pack [(32, 0)]).take ((pack fs ++ pack [(32, 0)]).length - 4) = pack fs := by
    rw [List.take_append_of_le_length (by simp [h3]), List.take_of_length_le (by simp [h3])]
  have hB : ((pack fs ++ pack [(32, 0)]).drop 1).take (len + 3 - 4) = (pack fs).drop 1 := by
    rw [List.drop_append_of_le_length (by omega), List.take_append_of_le_length (by simp; omega),
      List.take_of_length_le (by simp; omega)]
  rw [hA, hB]

theorem section_ok (addr tableId len id reserved2 : Nat) (body : List (Nat × Nat)) (hb : width body = 8 * (len - 9)) (h9 : 9 ≤ len)
    (hl : len ≤ 1021) (hid : id < 65536) (ht : tableId < 256) :
    section? (withCrc addr len (pack (baseFields tableId len id reserved2 ++ body ++ [(32, 0)]))) = some (tableId, id, pack body) := by
  have hbase : width (baseFields tableId len id reserved2) = 8 * 9 := rfl
  have hw : width (baseFields tableId len id reserved2 ++ body) = 8 * len := by
    have : width (baseFields tableId len id reserved2 ++ body) = width (baseFields tableId len id reserved2) + width body := by
      simp [width]
    rw [this, hbase, hb]; omega
  rw [withCrc_eq addr len _ hw (by omega)]
  have hpk : pack (baseFields tableId len id reserved2 ++ body) = pack (baseFields tableId len id reserved2) ++ pack body :=
    pack_append _ _ 9 hbase
  have hl9 : (pack (baseFields tableId len id reserved2)).length = 9 := pack_length _ 9 hbase
  have hlb : (pack body).length = len - 9 := pack_length _ _ hb
  have hlp : (pack (baseFields tableId len id reserved2 ++ body)).length = len := pack_length _ _ hw
  have hl4 : ∀ v, (pack [(32, v)]).length = 4 := fun v => pack_length _ 4 rfl
  have hcrc := Crc.crc_residue_zero (addr + 1) (((pack (baseFields tableId len id reserved2 ++ body)).drop 1).map UInt8.toBitVec)
  rw [← map_toBitVec_word, ← List.map_append] at hcrc
  generalize hc : pack [(32, (Crc.crc32 (addr + 1)
    (((pack (baseFields tableId len id reserved2 ++ body)).drop 1).map UInt8.toBitVec)).toNat)] = crc at hcrc ⊢
  have hlc : crc.length = 4 := by rw [← hc]; exact hl4 _
  have hread : read [8, 8, 1, 1, 2, 12, 16, 2, 5, 1, 8, 8] (pack (baseFields tableId len id reserved2 ++ body) ++ crc) =
      some [0, tableId, 1, 0, 0, len, id, reserved2 % 4, 0, 1, 0, 0] := by
    rw [hpk, List.append_assoc]
    have := read_pack (baseFields tableId len id reserved2) 9 hbase (pack body ++ crc)
    simp only [baseFields, List.map_cons, List.map_nil] at this
    rw [show tableId % 2 ^ 8 = tableId from Nat.mod_eq_of_lt (by omega), show len % 2 ^ 12 = len from Nat.mod_eq_of_lt (by omega),
      show id % 2 ^ 16 = id from Nat.mod_eq_of_lt (by omega)] at this
    simp only [Nat.zero_mod] at this
    exact this
  rw [section?, hread]
  simp only
  rw [if_neg (by rw [List.length_append, hlp, hlc]; omega), if_neg]
  · have hE : ((pack (baseFields tableId len id reserved2 ++ body) ++ crc).drop 9).take (len - 9) = pack body := by
      rw [hpk, List.append_assoc, drop_pre _ _ 9 hl9, List.take_append_of_le_length (by omega), List.take_of_length_le (by omega)]
    rw [hE]
  · rw [List.drop_append_of_le_length (by omega)]
    simpa using hcrc

theorem pat_ok (t : Tables) (addr : Nat) : pat? (t.pas addr) = some [(1, 0x1000)] := by
  have h := section_ok addr 0 13 1 t.junk1 [(16, 1), (3, t.junk2), (13, 0x1000)] rfl (by omega) (by omega) (by omega) (by omega)
  have e : t.pas addr = withCrc addr 13 (pack (baseFields 0 13 1 t.junk1 ++ [(16, 1), (3, t.junk2), (13, 0x1000)] ++ [(32, 0)])) := by
    simp only [Tables.pas, Tables.pasFields, List.append_assoc]; rfl
  rw [pat?, e, h]
  have hl : (pack [(16, 1), (3, t.junk2), (13, 0x1000)]).length = 4 := pack_length _ 4 rfl
  simp only [hl]
  have hr := read_pack [(16, 1), (3, t.junk2), (13, 0x1000)] 4 rfl []
  rw [List.append_nil] at hr
  simp only [List.map_cons, List.map_nil] at hr
  simp only [if_true, Nat.reduceDiv, entries4, hr]
  rfl

/-- the stream entries of the map -/
def streamFields (l : List (Nat × Nat)) : List (Nat × Nat) := l.flatMap fun s => [(8, s.1), (3, 0), (13, s.2), (4, 0), (12, 0)]

theorem streamFields_width (l : List (Nat × Nat)) : width (streamFields l) = 8 * (5 * l.length) := by
  induction l with
  | nil => rfl
  | cons a l ih =>
    have : width (streamFields (a :: l)) = 40 + width (streamFields l) := by
      simp [streamFields, width]; omega
    rw [this, ih, List.length_cons]; omega

theorem entries5_ok (l : List (Nat × Nat)) : ∀ (rest : List UInt8), (∀ s ∈ l, s.1 < 256 ∧ s.2 < 8192) →
    entries5 l.length (pack (streamFields l) ++ rest) = some l := by
  induction l with
  | nil => intro rest _; rfl
  | cons a l ih =>
    intro rest h
    obtain ⟨h1, h2⟩ := h a (List.mem_cons_self ..)
    have e : pack (streamFields (a :: l)) = pack [(8, a.1), (3, 0), (13, a.2), (4, 0), (12, 0)] ++ pack (streamFields l) :=
      pack_append _ _ 5 rfl
    have hl : (pack [(8, a.1), (3, 0), (13, a.2), (4, 0), (12, 0)]).length = 5 := pack_length _ 5 rfl
    have hr := read_pack [(8, a.1), (3, 0), (13, a.2), (4, 0), (12, 0)] 5 rfl (pack (streamFields l) ++ rest)
    simp only [List.map_cons, List.map_nil] at hr
    rw [show a.1 % 2 ^ 8 = a.1 from Nat.mod_eq_of_lt (by omega), show a.2 % 2 ^ 13 = a.2 from Nat.mod_eq_of_lt (by omega), Nat.zero_mod] at hr
    rw [List.length_cons, entries5, e, List.append_assoc, hr]
    simp only
    rw [drop_pre _ _ 5 hl, ih rest (fun s hs => h s (List.mem_cons_of_mem _ hs))]
    rfl

theorem pmt_ok (t : Tables) (addr : Nat) (l : List (Nat × Nat)) (hc : t.count = l.length)
    (hl : (List.range t.count).map (fun i => (t.types i, t.pids i)) = l) (hn : l.length ≤ 201)
    (hs : ∀ s ∈ l, s.1 < 256 ∧ s.2 < 8192) (hp : t.pcrPid < 8192) : pmt? (t.pam addr) = some (1, t.pcrPid, l) := by
  have hb : width ([(3, 0), (13, t.pcrPid), (4, 0), (12, 0)] ++ streamFields l) = 8 * (t.pamLength - 9) := by
    have : width ([(3, 0), (13, t.pcrPid), (4, 0), (12, 0)] ++ streamFields l) = 32 + width (streamFields l) := by
      simp [width]; omega
    rw [this, streamFields_width, Tables.pamLength, hc]; omega
  have h := section_ok addr 2 t.pamLength 1 t.junk3 ([(3, 0), (13, t.pcrPid), (4, 0), (12, 0)] ++ streamFields l) hb
    (by simp only [Tables.pamLength]; omega) (by simp only [Tables.pamLength, hc]; omega) (by omega) (by omega)
  have e : t.pam addr = withCrc addr t.pamLength (pack (baseFields 2 t.pamLength 1 t.junk3 ++
      ([(3, 0), (13, t.pcrPid), (4, 0), (12, 0)] ++ streamFields l) ++ [(32, 0)])) := by
    have : ((List.range t.count).flatMap fun i => [(8, t.types i), (3, 0), (13, t.pids i), (4, 0), (12, 0)]) = streamFields l := by
      rw [← hl, streamFields, List.flatMap_map]
    simp only [Tables.pam, Tables.pamFields, this, List.append_assoc]
  rw [pmt?, e, h]
  have h4 : (pack [(3, 0), (13, t.pcrPid), (4, 0), (12, 0)]).length = 4 := pack_length _ 4 rfl
  have hsp : pack ([(3, 0), (13, t.pcrPid), (4, 0), (12, 0)] ++ streamFields l) =
      pack [(3, 0), (13, t.pcrPid), (4, 0), (12, 0)] ++ pack (streamFields l) := pack_append _ _ 4 rfl
  have hsl : (pack (streamFields l)).length = 5 * l.length := pack_length _ _ (streamFields_width l)
  have hr := read_pack [(3, 0), (13, t.pcrPid), (4, 0), (12, 0)] 4 rfl (pack (streamFields l))
  simp only [List.map_cons, List.map_nil] at hr
  rw [show t.pcrPid % 2 ^ 13 = t.pcrPid from Nat.mod_eq_of_lt (by omega), Nat.zero_mod] at hr
  simp only [hsp, hr]
  rw [List.length_append, h4, hsl, if_pos (by omega), drop_pre _ _ 4 h4, show (4 + 5 * l.length - 4) / 5 = l.length by omega]
  have := entries5_ok l [] hs
  rw [List.append_nil] at this
  rw [this]; rfl

/-- Registering streams (type, pid) with consecutive indices, as `TSMux` does when every stream goes into the map. -/
def addStreams (s : State) : (idx : Nat) → List (Nat × Nat) → State
  | _, [] => s
  | idx, (type, pid) :: l => addStreams (addPam s pid type idx) (idx + 1) l

theorem addStreams_tables (l : List (Nat × Nat)) : ∀ (s : State) (idx : Nat) (pre : List (Nat × Nat)), s.tables.count = idx →
    (List.range idx).map (fun i => (s.tables.types i, s.tables.pids i)) = pre →
    (addStreams s idx l).tables.count = idx + l.length ∧
      (List.range (idx + l.length)).map (fun i => ((addStreams s idx l).tables.types i, (addStreams s idx l).tables.pids i)) = pre ++ l ∧
      (addStreams s idx l).tables.pcrPid = s.tables.pcrPid ∧ (addStreams s idx l).built = s.built ∧ (addStreams s idx l).out = s.out := by
  induction l with
  | nil => intro s idx pre h1 h2; simp [addStreams, h1, h2]
  | cons a l ih =>
    intro s idx pre h1 h2
    obtain ⟨type, pid⟩ := a
    rw [addStreams]
    have := ih (addPam s pid type idx) (idx + 1) (pre ++ [(type, pid)]) (by simp [addPam, Tables.addPam, h1]) (by
      rw [List.range_succ, List.map_append, ← h2]
      congr 1
      · apply List.map_congr_left
        intro i hi
        have : i ≠ idx := by have := List.mem_range.mp hi; omega
        simp [addPam, Tables.addPam, this]
      · simp [addPam, Tables.addPam])
    rw [List.length_cons, show idx + (l.length + 1) = idx + 1 + l.length by omega]
    obtain ⟨a1, a2, a3, a4, a5⟩ := this
    refine ⟨a1, ?_, a3, a4, a5⟩
    rw [a2]; simp

theorem payloadOf_append (a b : List Packet) (pid : Nat) : payloadOf (a ++ b) pid = payloadOf a pid ++ payloadOf b pid := by
  simp [payloadOf]

theorem payloadOf_all (ps : List Packet) (pid : Nat) (h : ∀ q ∈ ps, q.pid = pid) : payloadOf ps pid = ps.flatMap (·.payload) := by
  rw [payloadOf, List.filter_eq_self.mpr]
  intro q hq; simp [h q hq]

theorem payloadOf_other (ps : List Packet) (pid pid' : Nat) (h : ∀ q ∈ ps, q.pid = pid) (hn : pid' ≠ pid) : payloadOf ps pid' = [] := by
  rw [payloadOf, List.filter_eq_nil_iff.mpr]
  · rfl
  intro q hq; simp [h q hq, Ne.symm hn]

theorem outputTables_stream (s : State) (a b : Nat) (beyond : Nat → UInt8) (junk : Clock) :
    ∃ (added : List UInt8) (ps : List Packet), (outputTables s a b beyond junk).out = s.out ++ added ∧ IsStream added ps ∧
      payloadOf ps 0 = (s.built.getD (s.tables.pas a, s.tables.pam b)).1 ∧
      payloadOf ps 0x1000 = (s.built.getD (s.tables.pas a, s.tables.pam b)).2 ∧
      (∀ q ∈ ps, q.pid = 0 ∨ q.pid = 0x1000) := by
  simp only [outputTables]
  generalize hm : s.built.getD (s.tables.pas a, s.tables.pam b) = m
  generalize hs1 : ({ s with built := some m } : State) = s1
  have ho : s1.out = s.out := by rw [← hs1]
  obtain ⟨a1, p1, ps1, h1, h2, h3, h4, _⟩ := output_ts_carries_payload_partial s1 0 m.1 beyond false none junk (by omega) (by simp) (by simp)
  obtain ⟨a2, p2, ps2, g1, g2, g3, g4, _⟩ := output_ts_carries_payload_partial (outputTs s1 0 m.1 beyond false none junk) 0x1000 m.2 beyond
    false none junk (by omega) (by simp) (by simp)
  refine ⟨a1 ++ a2, (p1 :: ps1) ++ (p2 :: ps2), ?_, isStream_append h2 g2, ?_, ?_, ?_⟩
  · rw [g1, h1, ho, List.append_assoc]
  · rw [payloadOf_append, payloadOf_all _ _ h4, payloadOf_other _ _ _ g4 (by omega), h3, List.append_nil]
  · rw [payloadOf_append, payloadOf_all _ _ g4, payloadOf_other _ _ _ h4 (by omega), g3, List.nil_append]
  · intro q hq
    rcases List.mem_append.mp hq with hq | hq
    · exact Or.inl (h4 q hq)
    · exact Or.inr (g4 q hq)

/-- C61: after registering any streams (at most 201, the most a section can list), the tables written are a program association
table naming program 1 with map pid 0x1000 and a program map table for program 1 with the clock pid and exactly the registered
streams, in order; both with correct length and CRC, whatever uninitialised memory held. -/
theorem tables_describe_streams (types pids : Nat → Nat) (j1 j2 j3 : Nat) (streams : List (Nat × Nat)) (pcrPid : Nat)
    (hn : streams.length ≤ 201) (hs : ∀ s ∈ streams, s.1 < 256 ∧ s.2 < 8192) (hp : pcrPid < 8192)
    (a b : Nat) (beyond : Nat → UInt8) (junk : Clock) :
    ∃ ps : List Packet,
      IsStream (outputTables (setPcrPid (addStreams (init types pids j1 j2 j3) 0 streams) pcrPid) a b beyond junk).out ps ∧
      pat? (payloadOf ps 0) = some [(1, 0x1000)] ∧ pmt? (payloadOf ps 0x1000) = some (1, pcrPid, streams) := by
  generalize hs0 : addStreams (init types pids j1 j2 j3) 0 streams = s0
  obtain ⟨h1, h2, _, h4, h5⟩ := addStreams_tables streams (init types pids j1 j2 j3) 0 [] rfl rfl
  rw [hs0] at h1 h2 h4 h5
  rw [Nat.zero_add] at h1 h2
  obtain ⟨added, ps, g1, g2, g3, g4, _⟩ := outputTables_stream (setPcrPid s0 pcrPid) a b beyond junk
  have hb : (setPcrPid s0 pcrPid).built = none := by simp only [setPcrPid]; rw [h4]; rfl
  have ho : (setPcrPid s0 pcrPid).out = [] := by simp only [setPcrPid]; rw [h5]; rfl
  rw [hb] at g3 g4
  rw [ho, List.nil_append] at g1
  refine ⟨ps, by rw [g1]; exact g2, ?_, ?_⟩
  · rw [g3]; exact pat_ok _ _
  · rw [g4]
    exact pmt_ok _ _ _ h1 (by rw [show (setPcrPid s0 pcrPid).tables.count = streams.length from h1]; exact h2) hn hs hp

/-- The tables of later calls are those of the first, whatever was written in between. -/
theorem tables_repeat (s : State) (m : List UInt8 × List UInt8) (h : s.built = some m) (a b : Nat) (beyond : Nat → UInt8) (junk : Clock) :
    ∃ (added : List UInt8) (ps : List Packet), (outputTables s a b beyond junk).out = s.out ++ added ∧ IsStream added ps ∧
      payloadOf ps 0 = m.1 ∧ payloadOf ps 0x1000 = m.2 ∧ (outputTables s a b beyond junk).built = some m := by
  obtain ⟨added, ps, h1, h2, h3, h4, _⟩ := outputTables_stream s a b beyond junk
  rw [h] at h3 h4
  exact ⟨added, ps, h1, h2, h3, h4, by simp [outputTables, outputTs, h]⟩

/-- concrete case: a video and an audio stream -/
example : (outputTables (setPcrPid (addStreams (init (fun _ => 9) (fun _ => 9) 3 7 3) 0 [(0x1b, 0x100), (0x0f, 0x101)]) 0x100) 5 6
    (fun _ => 0) ⟨0, 0, 0, 0⟩).out.length = 2 * 188 := by decide +kernel

end Verif.Ts
