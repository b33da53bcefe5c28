import Verif.Demux.PropsPes
import Verif.Demux.PropsStream
import Verif.Demux.UnitSpec
/-
C101: PES packets are put together from transport packets and handed on, each once, in order, with their time stamps and data.
-/
namespace Verif.Demux
open Fields Spec

theorem pes_facts (u : List UInt8) (p : Pes.Spec.Packet) (h : pes u = some p) :
    9 ≤ u.length ∧ (∃ n, n ≤ u.length ∧ p.payload = u.drop n) ∧ readBits [24, 8, 16] (bitsOf u) = some [1, p.streamId, p.length] := by
  rw [pes] at h
  split at h
  · next code sid len two x2 x3 x4 x5 x6 pf df escr rate trick copy crc ext n hr =>
    split at h
    · simp at h
    next hc =>
    simp only [not_or, Nat.not_lt, ne_eq, Decidable.not_not] at hc
    simp only [Option.some.injEq] at h
    subst h
    refine ⟨by omega, ⟨9 + n, hc.2.2.2.1, rfl⟩, ?_⟩
    rw [(readBits_cat [24, 8, 16] [2, 2, 1, 1, 1, 1, 1, 1, 1, 1, 1, 1, 1, 1, 8] _ _ hr).1, ← hc.1]
    rfl
  · simp at h

theorem byte_first (a : UInt8) (l : List UInt8) (ws : List Nat) :
    readBits (8 :: ws) (bitsOf (a :: l)) = (readBits ws (bitsOf l)).map (a.toNat :: ·) := by
  have e : bitsOf (a :: l) = natBits a.toNat 8 ++ bitsOf l := by simp [bitsOf]
  have hl : (natBits a.toNat 8).length = 8 := by simp
  rw [readBits, e, if_pos (by rw [List.length_append]; omega), List.take_left' hl, List.drop_left' hl, bitsNat_natBits, Nat.mod_eq_of_lt a.toNat_lt]

theorem code_bytes (u : List UInt8) (vs : List Nat) (ws : List Nat) (h : readBits (24 :: ws) (bitsOf u) = some (1 :: vs)) :
    ∃ l, u = 0 :: 0 :: 1 :: l := by
  have hl := readBits_lt _ _ _ h
  rw [bitsOf_length, List.sum_cons] at hl
  have h1 := readBits_split 16 8 _ _ _ _ h
  have h2 := readBits_split 8 8 _ _ _ _ h1
  have h3 := (readBits_cat [8, 8, 8] ws _ _ h2).1
  match u, hl with
  | a :: b :: c :: l, _ =>
    have e : readBits [8, 8, 8] (bitsOf (a :: b :: c :: l)) = some [a.toNat, b.toNat, c.toNat] := by
      rw [byte_first, byte_first, byte_first]; rfl
    rw [e] at h3
    simp only [List.length_cons, List.length_nil, List.take_succ_cons, List.take_zero, Option.some.injEq, List.cons.injEq, and_true] at h3
    obtain ⟨ha, hb, hc⟩ := h3
    refine ⟨l, ?_⟩
    rw [← UInt8.toNat_inj.mp (show a.toNat = (0 : UInt8).toNat by rw [ha]; rfl)]
    rw [show a = 0 from UInt8.toNat_inj.mp (by rw [ha]; rfl), show b = 0 from UInt8.toNat_inj.mp (by rw [hb]; rfl),
      show c = 1 from UInt8.toNat_inj.mp (by rw [hc]; rfl)]

theorem prefix_read (u pre : List UInt8) (h : pre <+: u) (h6 : 6 ≤ pre.length) (vs : List Nat) (hr : readBits [24, 8, 16] (bitsOf u) = some vs) :
    readBits [24, 8, 16] (bitsOf pre) = some vs := by
  obtain ⟨t, rfl⟩ := h
  obtain ⟨ws, hw, _⟩ := readBits_some [24, 8, 16] (bitsOf pre) (by rw [bitsOf_length]; simp; omega)
  have := read_append [24, 8, 16] pre t ws hw
  rw [Fields.read, hr] at this
  rw [hw, ← this]

theorem findCode_head (l : List UInt8) : findCode (0 :: 0 :: 1 :: l) = some (0, 0 :: 0 :: 1 :: l) := by
  rw [findCode, if_pos ⟨rfl, rfl, rfl⟩]

theorem prefix_code (u pre : List UInt8) (h : pre <+: u) (h6 : 6 ≤ pre.length) (hc : ∃ l, u = 0 :: 0 :: 1 :: l) : findCode pre = some (0, pre) := by
  obtain ⟨t, rfl⟩ := h
  obtain ⟨l, hl⟩ := hc
  match pre, h6 with
  | a :: b :: c :: r, _ =>
    simp only [List.cons_append, List.cons.injEq] at hl
    obtain ⟨rfl, rfl, rfl, _⟩ := hl
    exact findCode_head r

theorem process_wait (k : Kind) (s : PS) (u : List UInt8) (p : Pes.Spec.Packet) (hp : pes u = some p) (hpre : s.payload <+: u)
    (hw : p.length = 0 ∨ (p.length + 6 = u.length ∧ s.payload.length < u.length)) : s.process k = .ok s := by
  rw [PS.process]
  split
  · rfl
  next h6 =>
  obtain ⟨h9, _, hr⟩ := pes_facts u p hp
  rw [prefix_code u _ hpre (by omega) (code_bytes u _ _ hr)]
  simp only []
  rw [takeBits_of _ _ _ (prefix_read u _ hpre (by omega) _ hr)]
  simp only []
  split
  · rfl
  · rw [if_pos (by omega)]

/-- What is handed on for a PES packet. -/
def Delivers (d : Del) (u : List UInt8) : Prop :=
  ∃ p, pes u = some p ∧ HdrAgrees d.hdr p ∧ d.payload.drop d.pos = p.payload

theorem pos_eq (u q : List UInt8) (n : Nat) (hn : n ≤ u.length) (hq : q = u.drop n) : (8 * u.length - (bitsOf q).length) / 8 = n := by
  subst hq
  rw [bitsOf_length, List.length_drop]
  omega

/-- Nothing in the way of handing on: no description of the stream is needed, or it has been seen, or it is in `u`. -/
def Ready (k : Kind) (s : PS) (u : List UInt8) : Prop :=
  match k with
  | .info => True
  | .analyze _ lookup => s.hasStruct = true ∧ (s.written = true ∨ lookup u = .found)

theorem receive_ok (k : Kind) (s : PS) (u : List UInt8) (hd : s.hasData = true) (hu : s.payload = u) (hr : Ready k s u) :
    s.receive k = .ok { s with out := s.out ++ [⟨s.hdr, s.payload, s.pos, s.first⟩], written := true } := by
  cases k with
  | info => simp [PS.receive, hd]
  | analyze min lookup =>
    obtain ⟨h1, h2⟩ := hr
    simp only [PS.receive]
    rw [if_pos h1, if_neg (by
      rcases h2 with h2 | h2
      · simp [h2]
      · simp [hu, h2]), if_pos hd]

/-- State after a PES packet has been handed on. -/
def afterUnit (s : PS) (u : List UInt8) (h : Hdr) (pos sid : Nat) : PS :=
  { s with out := s.out ++ [⟨h, u, pos, s.first⟩], hdr := h, pos := pos, hasData := true, streamId := sid, written := true }

theorem process_done (k : Kind) (s : PS) (u : List UInt8) (p : Pes.Spec.Packet) (hp : pes u = some p) (hs : SimplePes u) (hu : s.payload = u)
    (hl : p.length + 6 = u.length) (hid : s.streamId = 0 ∨ s.streamId = p.streamId) (hr : Ready k s u) :
    ∃ h pos, s.process k = .ok (afterUnit s u h pos p.streamId) ∧ Delivers ⟨h, u, pos, s.first⟩ u := by
  subst hu
  obtain ⟨h9, ⟨n, hn, hq⟩, hrd⟩ := pes_facts _ p hp
  obtain ⟨h, hg, ha⟩ := pes_header_read_partial s.hdr _ p hp hs
  refine ⟨h, n, ?_, p, hp, ha, hq.symm⟩
  rw [PS.process, if_neg (by omega), prefix_code _ _ (List.prefix_refl _) (by omega) (code_bytes _ _ _ hrd)]
  simp only []
  rw [takeBits_of _ _ _ hrd]
  simp only []
  rw [if_neg (by omega), if_neg (by omega), Nat.zero_mul, Nat.zero_mod, List.drop_zero, hg]
  simp only []
  rw [pos_eq _ p.payload n hn hq]
  have key := receive_ok k { s with hdr := h, pos := n, hasData := true, streamId := p.streamId } s.payload rfl rfl (by
    cases k with
    | info => trivial
    | analyze min lookup => exact hr)
  split
  · exact key
  · next h0 =>
    have hsid : s.streamId = p.streamId := by rcases hid with h | h; exact absurd h h0; exact h
    rw [if_neg (by simp [hsid])]
    rw [← hsid] at key ⊢
    exact key

/-- While a PES packet `u` is collected: its description will be found in it, or one was found and used before. -/
def Phase (k : Kind) (s : PS) (u : List UInt8) : Prop :=
  match k with
  | .info => True
  | .analyze min lookup => (s.hasStruct = true ∧ s.written = true) ∨
      (s.written = false ∧ min ≤ u.length ∧ lookup u = .found ∧ ∀ pre, pre <+: u → lookup pre ≠ .fail)

/-- A description was found and used. -/
def Est (k : Kind) (s : PS) : Prop :=
  match k with
  | .info => True
  | .analyze _ _ => s.hasStruct = true ∧ s.written = true

theorem Est.phase {k : Kind} {s : PS} (h : Est k s) (u : List UInt8) : Phase k s u := by
  cases k with
  | info => trivial
  | analyze min lookup => exact .inl h

/-- The part `pre` of the PES packet `u` has been collected; `o` has been handed on. -/
structure Mid (k : Kind) (sid : Nat) (u : List UInt8) (o : List Del) (s : PS) (pre : List UInt8) : Prop where
  payload : s.payload = pre
  isPrefix : pre <+: u
  hasData : s.hasData = false
  got : pre ≠ [] → s.got = true
  streamId : s.streamId = 0 ∨ s.streamId = sid
  phase : Phase k s u
  ready : pre = u → Ready k s u
  out : s.out = o

/-- Nothing collected; `o` has been handed on. -/
structure Idle (sid : Nat) (o : List Del) (s : PS) : Prop where
  payload : s.payload = []
  hasData : s.hasData = false
  got : s.got = false
  first : s.first = none
  streamId : s.streamId = 0 ∨ s.streamId = sid
  out : s.out = o

theorem analyze_wait (k : Kind) (s : PS) (u : List UInt8) (p : Pes.Spec.Packet) (hp : pes u = some p) (hpre : s.payload <+: u)
    (hw : p.length = 0 ∨ (p.length + 6 = u.length ∧ s.payload.length < u.length)) (hph : Phase k s u) :
    ∃ b, s.analyze k = .ok { s with hasStruct := b } ∧ Phase k { s with hasStruct := b } u ∧ (s.payload = u → Ready k { s with hasStruct := b } u) := by
  cases k with
  | info =>
    refine ⟨s.hasStruct, ?_, trivial, fun _ => trivial⟩
    rw [PS.analyze, process_wait .info s u p hp hpre hw]
  | analyze min lookup =>
    have pw : ∀ b, ({ s with hasStruct := b }).process (.analyze min lookup) = .ok { s with hasStruct := b } :=
      fun b => process_wait (.analyze min lookup) { s with hasStruct := b } u p hp hpre hw
    have pw0 : s.process (.analyze min lookup) = .ok s := process_wait (.analyze min lookup) s u p hp hpre hw
    rw [PS.analyze]
    by_cases hc : min ≤ s.payload.length ∧ s.hasStruct = false
    · rw [if_pos hc]
      rcases hph with ⟨h1, _⟩ | ⟨h1, h2, h3, h4⟩
      · rw [hc.2] at h1; simp at h1
      cases hl : lookup s.payload with
      | fail => exact absurd hl (h4 _ hpre)
      | found =>
        refine ⟨true, ?_, .inr ⟨h1, h2, h3, h4⟩, fun _ => ⟨rfl, .inr h3⟩⟩
        simp only [pw]
      | missing =>
        refine ⟨s.hasStruct, ?_, .inr ⟨h1, h2, h3, h4⟩, ?_⟩
        · simp only [pw0]
        · intro he; rw [he, h3] at hl; simp at hl
    · rw [if_neg hc]
      refine ⟨s.hasStruct, by simp only [pw0], hph, ?_⟩
      intro he
      rcases hph with ⟨h1, h2⟩ | ⟨h1, h2, h3, h4⟩
      · exact ⟨h1, .inl h2⟩
      · refine ⟨?_, .inr h3⟩
        cases hs : s.hasStruct with
        | true => rfl
        | false => exact absurd ⟨by rw [he]; exact h2, hs⟩ hc

theorem analyze_done (k : Kind) (s : PS) (u : List UInt8) (p : Pes.Spec.Packet) (hp : pes u = some p) (hs : SimplePes u) (hu : s.payload = u)
    (hl : p.length + 6 = u.length) (hid : s.streamId = 0 ∨ s.streamId = p.streamId) (hph : Phase k s u) :
    ∃ h pos b, s.analyze k = .ok (afterUnit { s with hasStruct := b } u h pos p.streamId) ∧ Delivers ⟨h, u, pos, s.first⟩ u ∧
      Est k (afterUnit { s with hasStruct := b } u h pos p.streamId) := by
  cases k with
  | info =>
    obtain ⟨h, pos, h1, h2⟩ := process_done .info s u p hp hs hu hl hid trivial
    exact ⟨h, pos, s.hasStruct, h1, h2, trivial⟩
  | analyze min lookup =>
    have pd : ∀ b, Ready (.analyze min lookup) { s with hasStruct := b } u →
        ∃ h pos, ({ s with hasStruct := b }).process (.analyze min lookup) = .ok (afterUnit { s with hasStruct := b } u h pos p.streamId) ∧
          Delivers ⟨h, u, pos, s.first⟩ u :=
      fun b hr => process_done (.analyze min lookup) { s with hasStruct := b } u p hp hs hu hl hid hr
    rw [PS.analyze]
    by_cases hc : min ≤ s.payload.length ∧ s.hasStruct = false
    · rw [if_pos hc]
      rcases hph with ⟨h1, _⟩ | ⟨h1, h2, h3, h4⟩
      · rw [hc.2] at h1; simp at h1
      obtain ⟨h, pos, e1, e2⟩ := pd true ⟨rfl, .inr h3⟩
      refine ⟨h, pos, true, ?_, e2, rfl, rfl⟩
      have hf : lookup s.payload = .found := by rw [hu]; exact h3
      simp only [hf, e1]
    · rw [if_neg hc]
      have hst : s.hasStruct = true := by
        rcases hph with ⟨h1, h2⟩ | ⟨h1, h2, h3, h4⟩
        · exact h1
        · cases hs : s.hasStruct with
          | true => rfl
          | false => exact absurd ⟨by rw [hu]; exact h2, hs⟩ hc
      have hrd : Ready (.analyze min lookup) { s with hasStruct := s.hasStruct } u := by
        rcases hph with ⟨h1, h2⟩ | ⟨h1, h2, h3, h4⟩
        · exact ⟨h1, .inl h2⟩
        · exact ⟨hst, .inr h3⟩
      obtain ⟨h, pos, e1, e2⟩ := pd s.hasStruct hrd
      refine ⟨h, pos, s.hasStruct, ?_, e2, hst, rfl⟩
      have e1' : s.process (.analyze min lookup) = _ := e1
      simp only [e1']

/-- `analyze`, and the reset when a PES packet has been handed on. -/
def advance (k : Kind) (s : PS) : Except PS PS :=
  match s.analyze k with
  | .error s => .error s
  | .ok s => .ok (if s.hasData then s.reset else s)

theorem advance_ok (k : Kind) (sid : Nat) (s : PS) (u q : List UInt8) (o : List Del) (hu : UnitOk sid u) (h1 : s.payload = q) (h2 : q <+: u)
    (h3 : s.hasData = false) (h4 : q ≠ [] → s.got = true) (h5 : s.streamId = 0 ∨ s.streamId = sid) (h6 : Phase k s u) (h7 : s.out = o) :
    ∃ s', advance k s = .ok s' ∧
      (((unbounded u = true ∨ q.length < u.length) ∧ Mid k sid u o s' q ∧ s'.first = s.first) ∨
        (unbounded u = false ∧ q = u ∧ Est k s' ∧ ∃ d, Idle sid (o ++ [d]) s' ∧ Delivers d u ∧ d.first = s.first)) := by
  obtain ⟨hs, p, hp, rfl, hl⟩ := hu
  have hub : unbounded u = (p.length == 0) := by rw [unbounded, hp]; rfl
  by_cases hw : p.length = 0 ∨ (p.length + 6 = u.length ∧ q.length < u.length)
  · obtain ⟨b, e1, e2, e3⟩ := analyze_wait k s u p hp (by rw [h1]; exact h2) (by rw [h1]; exact hw) h6
    refine ⟨{ s with hasStruct := b }, ?_, .inl ⟨?_, ?_⟩⟩
    · rw [advance, e1]; simp only [h3]; rfl
    · rcases hw with hw | hw
      · left; rw [hub, hw]; rfl
      · right; exact hw.2
    · exact ⟨⟨h1, h2, h3, h4, h5, e2, fun e => e3 (h1.trans e), h7⟩, rfl⟩
  · simp only [not_or, not_and, Nat.not_lt] at hw
    have hl' : p.length + 6 = u.length := by rcases hl with hl | hl; exact absurd hl hw.1; exact hl
    have hq : q = u := h2.eq_of_length (Nat.le_antisymm h2.length_le (hw.2 hl'))
    obtain ⟨h, pos, b, e1, e2, e3⟩ := analyze_done k s u p hp hs (h1.trans hq) hl' h5 h6
    refine ⟨(afterUnit { s with hasStruct := b } u h pos p.streamId).reset, ?_, .inr ⟨?_, hq, ?_, ⟨h, u, pos, s.first⟩, ?_, e2, rfl⟩⟩
    · rw [advance, e1]; rfl
    · rw [hub]; simp; omega
    · cases k with
      | info => trivial
      | analyze min lookup => exact e3
    · exact ⟨rfl, rfl, rfl, rfl, .inr rfl, by rw [← h7]; rfl⟩

/-- Bytes of the payload of a packet. -/
def piece (p : TPacket) : List UInt8 := p.payload.getD []

/-- The random access indicator kept after a packet. -/
def keepFlag (f : Option Nat) (p : TPacket) : Option Nat := if piece p = [] then f else if f = none then p.af.map (·.randomAccess) else f

theorem append_first (s : PS) (p : TPacket) : (s.append p).first = keepFlag s.first p := by
  rw [PS.append, keepFlag]
  cases hpl : p.payload with
  | none => simp [piece, hpl]
  | some l =>
    cases l with
    | nil => simp [piece, hpl]
    | cons b l => simp [piece, hpl]

theorem append_facts (s : PS) (p : TPacket) : (s.append p).payload = s.payload ++ piece p ∧ (s.append p).hasData = s.hasData ∧
    (s.append p).streamId = s.streamId ∧ (s.append p).hasStruct = s.hasStruct ∧ (s.append p).written = s.written ∧ (s.append p).out = s.out ∧
    (piece p = [] → s.append p = s) ∧ (piece p ≠ [] → (s.append p).got = true) := by
  rw [PS.append]
  cases hpl : p.payload with
  | none => simp [piece, hpl]
  | some l =>
    cases l with
    | nil => simp [piece, hpl]
    | cons b l => simp [piece, hpl]

theorem phase_congr {k : Kind} {s t : PS} {u : List UInt8} (h1 : t.hasStruct = s.hasStruct) (h2 : t.written = s.written) (h : Phase k s u) : Phase k t u := by
  cases k with
  | info => trivial
  | analyze min lookup => simp only [Phase, h1, h2]; exact h

theorem step_next (k : Kind) (s : PS) (p : TPacket) (he : p.err = false) (hst : p.start = false) : s.step k p = advance k (s.append p) := by
  rw [PS.step, PS.add, if_neg (by simp [he]), if_neg (by simp [hst]), advance]
  cases (s.append p).analyze k <;> rfl

theorem step_start (k : Kind) (s : PS) (p : TPacket) (he : p.err = false) (hst : p.start = true) :
    s.step k p = match (if s.got then s.before k else .ok s) with
      | .error s => .error s
      | .ok s => advance k (({ s with payload := [], pos := 0 }).append p) := by
  rw [PS.step, PS.add, if_neg (by simp [he]), if_pos hst]
  cases (if s.got then s.before k else .ok s) with
  | error s => rfl
  | ok s => simp only [advance]; cases (({ s with payload := [], pos := 0 } : PS).append p).analyze k <;> rfl

theorem idle_next (k : Kind) (sid : Nat) (s : PS) (o : List Del) (p : TPacket) (he : p.err = false) (hst : p.start = false) (hpc : piece p = [])
    (hi : Idle sid o s) (hE : Est k s) : s.step k p = .ok s := by
  rw [step_next k s p he hst, ((append_facts s p).2.2.2.2.2.2.1 hpc), advance]
  have hp : s.process k = .ok s := by rw [PS.process, if_pos (by rw [hi.payload]; decide)]
  have : s.analyze k = .ok s := by
    cases k with
    | info => exact hp
    | analyze min lookup =>
      rw [PS.analyze, if_neg (by rw [hE.1]; simp)]
      simp only [hp]
  rw [this]
  simp only [hi.hasData]; rfl

theorem idle_run (k : Kind) (sid : Nat) (o : List Del) (ps : List TPacket) (h : ∀ p ∈ ps, p.err = false ∧ p.start = false ∧ piece p = [])
    (s : PS) (hi : Idle sid o s) (hE : Est k s) : s.run k ps = .ok s := by
  induction ps with
  | nil => rfl
  | cons p ps ih =>
    have hp := h p (by simp)
    rw [PS.run, idle_next k sid s o p hp.1 hp.2.1 hp.2.2 hi hE]
    exact ih fun q hq => h q (by simp [hq])

/-- What the state is after all packets of a PES packet. -/
def After (k : Kind) (sid : Nat) (u : List UInt8) (o : List Del) (f : Option Nat) (s : PS) : Prop :=
  (unbounded u = true ∧ Mid k sid u o s u) ∨ (unbounded u = false ∧ Est k s ∧ ∃ d, Idle sid (o ++ [d]) s ∧ Delivers d u ∧ d.first = f)

theorem keepFlag_empty (ps : List TPacket) (f : Option Nat) (h : ∀ p ∈ ps, piece p = []) : ps.foldl keepFlag f = f := by
  induction ps with
  | nil => rfl
  | cons p ps ih => rw [List.foldl_cons, keepFlag, if_pos (h p (by simp)), ih fun q hq => h q (by simp [hq])]

theorem tail_run (k : Kind) (sid : Nat) (u : List UInt8) (hu : UnitOk sid u) (o : List Del) (ps : List TPacket)
    (h : ∀ p ∈ ps, p.err = false ∧ p.start = false) : ∀ (s : PS) (q : List UInt8), q ++ (ps.map piece).flatten = u →
    ∀ f, ((unbounded u = true ∨ q.length < u.length) ∧ Mid k sid u o s q ∧ s.first = f) ∨
      (unbounded u = false ∧ q = u ∧ Est k s ∧ ∃ d, Idle sid (o ++ [d]) s ∧ Delivers d u ∧ d.first = f) →
    ∃ s', s.run k ps = .ok s' ∧ After k sid u o (ps.foldl keepFlag f) s' := by
  induction ps with
  | nil =>
    intro s q hq f hs
    simp only [List.map_nil, List.flatten_nil, List.append_nil] at hq
    subst hq
    refine ⟨s, rfl, ?_⟩
    rcases hs with ⟨h1, h2, _⟩ | ⟨h1, _, h2⟩
    · left; exact ⟨by rcases h1 with h1 | h1; exact h1; omega, h2⟩
    · right; exact ⟨h1, h2⟩
  | cons p ps ih =>
    intro s q hq f hs
    have hp := h p (by simp)
    simp only [List.map_cons, List.flatten_cons] at hq
    rcases hs with ⟨h1, hm, hf⟩ | ⟨h1, h2, hE, d, hi, hd, hf⟩
    · have fa := append_facts s p
      obtain ⟨s', e1, e2⟩ := advance_ok k sid (s.append p) u (q ++ piece p) o hu (by rw [fa.1, hm.payload])
        ⟨(ps.map piece).flatten, by rw [List.append_assoc]; exact hq⟩ (by rw [fa.2.1, hm.hasData])
        (by
          intro hne
          by_cases hpc : piece p = []
          · rw [fa.2.2.2.2.2.2.1 hpc]; exact hm.got (by simpa [hpc] using hne)
          · exact fa.2.2.2.2.2.2.2 hpc)
        (by rw [fa.2.2.1]; exact hm.streamId) (phase_congr fa.2.2.2.1 fa.2.2.2.2.1 hm.phase) (by rw [fa.2.2.2.2.2.1, hm.out])
      rw [PS.run, step_next k s p hp.1 hp.2, e1]
      exact ih (fun q hq => h q (by simp [hq])) s' (q ++ piece p) (by rw [List.append_assoc]; exact hq) (keepFlag f p)
        (by rw [append_first, hf] at e2; exact e2)
    · rw [h2] at hq
      have hnil : piece p ++ (ps.map piece).flatten = [] := by simpa using hq
      have hall : ∀ x ∈ p :: ps, piece x = [] := by
        intro x hx
        have : (((p :: ps).map piece).flatten) = [] := by simpa using hnil
        exact List.flatten_eq_nil_iff.mp this _ (List.mem_map.mpr ⟨x, hx, rfl⟩)
      have hr := idle_run k sid (o ++ [d]) (p :: ps) (fun x hx => ⟨(h x hx).1, (h x hx).2, hall x hx⟩) s hi hE
      exact ⟨s, hr, .inr ⟨h1, hE, d, hi, hd, by rw [keepFlag_empty _ _ hall]; exact hf⟩⟩

/-- Between two PES packets: the last one has been handed on, or is unbounded and waits for its end. -/
def Between (k : Kind) (sid : Nat) (o : List Del) (s : PS) (pend : Option (List UInt8)) : Prop :=
  match pend with
  | none => Idle sid o s
  | some u => unbounded u = true ∧ UnitOk sid u ∧ Mid k sid u o s u

theorem before_ok (k : Kind) (sid : Nat) (u : List UInt8) (o : List Del) (s : PS) (hu : UnitOk sid u) (hub : unbounded u = true)
    (hm : Mid k sid u o s u) : ∃ d s', s.before k = .ok s' ∧ Delivers d u ∧ s'.hasData = false ∧ s'.got = true ∧
      (s'.streamId = 0 ∨ s'.streamId = sid) ∧ Est k s' ∧ s'.out = o ++ [d] := by
  obtain ⟨hs, p, hp, rfl, hl⟩ := hu
  have hub' : p.length = 0 := by rw [unbounded, hp] at hub; simpa using hub
  obtain ⟨h9, ⟨n, hn, hq⟩, hrd⟩ := pes_facts _ p hp
  obtain ⟨h, hg, ha⟩ := pes_header_read_partial s.hdr _ p hp hs
  have hgot := hm.got (by intro e; rw [e] at h9; simp at h9)
  rw [PS.before]
  simp only [hm.hasData]
  rw [if_neg (by decide), hm.payload, prefix_code u u (List.prefix_refl u) (by omega) (code_bytes _ _ _ hrd)]
  simp only []
  rw [hg]
  simp only []
  have hlen : h.length = 0 := by rw [ha.2.1, hub']
  rw [pos_eq _ p.payload n hn hq, if_neg (by simp [hlen]), if_neg (by simp [hlen])]
  have key := receive_ok k { s with payload := u, hdr := h, pos := n, hasData := true } u rfl rfl (by
    have := hm.ready rfl
    cases k with
    | info => trivial
    | analyze min lookup => exact this)
  rw [key]
  refine ⟨⟨h, u, n, s.first⟩, _, rfl, ⟨p, hp, ha, hq.symm⟩, rfl, hgot, hm.streamId, ?_, ?_⟩
  · cases k with
    | info => trivial
    | analyze min lookup => exact ⟨(hm.ready rfl).1, rfl⟩
  · rw [← hm.out]

/-- The packets of one PES packet. -/
def IsUnit (ps : List TPacket) (u : List UInt8) : Prop :=
  ∃ h t, ps = h :: t ∧ h.start = true ∧ (∀ p ∈ t, p.start = false) ∧ (∀ p ∈ ps, p.err = false) ∧ (ps.map piece).flatten = u

theorem unit_run (k : Kind) (sid : Nat) (o : List Del) (s : PS) (pend : Option (List UInt8)) (hb : Between k sid o s pend) (ps : List TPacket)
    (u : List UInt8) (hu : UnitOk sid u) (hps : IsUnit ps u) (hph : pend = none → Phase k s u) :
    ∃ s' ds f, s.run k ps = .ok s' ∧ List.Forall₂ Delivers ds pend.toList ∧ After k sid u (o ++ ds) (ps.foldl keepFlag f) s' ∧ (pend = none → f = none) := by
  obtain ⟨h, t, rfl, h1, h2, h3, h4⟩ := hps
  simp only [List.map_cons, List.flatten_cons] at h4
  -- before the first packet
  have hpre : ∃ s1 ds, (if s.got then s.before k else .ok s) = .ok s1 ∧ List.Forall₂ Delivers ds pend.toList ∧ s1.hasData = false ∧
      (s1.streamId = 0 ∨ s1.streamId = sid) ∧ Phase k s1 u ∧ s1.out = o ++ ds ∧ (pend = none → s1.first = none) := by
    cases pend with
    | none =>
      have hi : Idle sid o s := hb
      exact ⟨s, [], by rw [if_neg (by simp [hi.got])], List.Forall₂.nil, hi.hasData, hi.streamId, hph rfl, by rw [hi.out]; simp, fun _ => hi.first⟩
    | some v =>
      obtain ⟨hv1, hv2, hm⟩ := hb
      obtain ⟨d, s', e1, e2, e3, e4, e5, e6, e7⟩ := before_ok k sid v o s hv2 hv1 hm
      have hgot := hm.got (by
        obtain ⟨_, p, hp, _⟩ := hv2
        intro e
        have := (pes_facts _ p hp).1
        rw [e] at this; simp at this)
      exact ⟨s', [d], by rw [if_pos hgot, e1], List.Forall₂.cons e2 List.Forall₂.nil, e3, e5, e6.phase u, e7, by intro h; cases h⟩
  obtain ⟨s1, ds, g1, g2, g3, g4, g5, g6, g7⟩ := hpre
  have fa := append_facts { s1 with payload := [], pos := 0 } h
  obtain ⟨s2, e1, e2⟩ := advance_ok k sid (({ s1 with payload := [], pos := 0 } : PS).append h) u (piece h) (o ++ ds) hu
    (by rw [fa.1]; rfl) ⟨_, h4⟩ (by rw [fa.2.1]; exact g3) (by intro hne; exact fa.2.2.2.2.2.2.2 hne)
    (by rw [fa.2.2.1]; exact g4) (phase_congr (s := s1) fa.2.2.2.1 fa.2.2.2.2.1 g5) (by rw [fa.2.2.2.2.2.1]; exact g6)
  obtain ⟨s', f1, f2⟩ := tail_run k sid u hu (o ++ ds) t (fun p hp => ⟨h3 p (by simp [hp]), h2 p hp⟩) s2 (piece h) h4 (keepFlag s1.first h)
    (by rw [append_first] at e2; exact e2)
  refine ⟨s', ds, s1.first, ?_, g2, f2, g7⟩
  rw [PS.run, step_start k s h (h3 h (by simp)) h1, g1]
  simp only [e1]
  exact f1

theorem closed_cons (u : List UInt8) (us : List (List UInt8)) (h : us ≠ []) : closed (u :: us) = u :: closed us := by
  match us, h with
  | v :: vs, _ =>
    rw [closed, closed]
    rw [List.getLast?_cons_cons]
    split <;> simp

theorem run_append (k : Kind) (ps qs : List TPacket) : ∀ s : PS, s.run k (ps ++ qs) =
    match s.run k ps with
    | .error s => .error s
    | .ok s => s.run k qs := by
  induction ps with
  | nil => intro s; rfl
  | cons p ps ih =>
    intro s
    rw [List.cons_append, PS.run, PS.run]
    cases s.step k p with
    | error s => rfl
    | ok s => exact ih s

theorem units_run (k : Kind) (sid : Nat) (chunks : List (List TPacket)) (us : List (List UInt8)) (hc : List.Forall₂ IsUnit chunks us) :
    ∀ (o : List Del) (s : PS) (pend : Option (List UInt8)), Between k sid o s pend → (∀ u ∈ us, UnitOk sid u) →
      (pend = none → ∀ u, us.head? = some u → Phase k s u) →
      ∃ s' ds pend', s.run k chunks.flatten = .ok s' ∧ s'.out = o ++ ds ∧ List.Forall₂ Delivers ds (closed (pend.toList ++ us)) ∧
        Between k sid (o ++ ds) s' pend' ∧ closed (pend.toList ++ us) ++ pend'.toList = pend.toList ++ us := by
  induction hc with
  | nil =>
    intro o s pend hb _ _
    cases pend with
    | none => exact ⟨s, [], none, rfl, by rw [hb.out]; simp, by simp [closed], by simpa using hb, by simp [closed]⟩
    | some v =>
      obtain ⟨h1, h2, h3⟩ := hb
      exact ⟨s, [], some v, rfl, by rw [h3.out]; simp, by simp [closed, h1], by simpa using ⟨h1, h2, h3⟩, by simp [closed, h1]⟩
  | @cons ps u chunks us hpu _ ih =>
    intro o s pend hb hus hph
    have hu := hus u (by simp)
    obtain ⟨s1, ds, _, e1, e2, e3, _⟩ := unit_run k sid o s pend hb ps u hu hpu (fun h => hph h u rfl)
    have fin : ∀ (o1 : List Del) (pend1 : Option (List UInt8)), Between k sid o1 s1 pend1 → (pend1 = none → Est k s1) →
        ∃ s' ds pend', s1.run k chunks.flatten = .ok s' ∧ s'.out = o1 ++ ds ∧ List.Forall₂ Delivers ds (closed (pend1.toList ++ us)) ∧
        Between k sid (o1 ++ ds) s' pend' ∧ closed (pend1.toList ++ us) ++ pend'.toList = pend1.toList ++ us :=
      fun o1 pend1 hb1 hE => ih o1 s1 pend1 hb1 (fun v hv => hus v (by simp [hv])) (fun h v _ => (hE h).phase v)
    rcases e3 with ⟨hub, hm⟩ | ⟨hub, hE, d, hi, hd, _⟩
    · obtain ⟨s', ds', pend', f1, f2, f3, f4, f5⟩ := fin (o ++ ds) (some u) ⟨hub, hu, hm⟩ (by intro h; cases h)
      have hcl : closed (pend.toList ++ u :: us) = pend.toList ++ closed ([u] ++ us) := by
        cases pend with
        | none => rfl
        | some v => exact closed_cons v (u :: us) (by simp)
      refine ⟨s', ds ++ ds', pend', ?_, by rw [f2, List.append_assoc], ?_, by rw [← List.append_assoc]; exact f4, ?_⟩
      · rw [List.flatten_cons, run_append, e1]; exact f1
      · rw [hcl]; exact List.rel_append e2 f3
      · rw [hcl, List.append_assoc]; exact congrArg _ f5
    · obtain ⟨s', ds', pend', f1, f2, f3, f4, f5⟩ := fin (o ++ ds ++ [d]) none hi (fun _ => hE)
      simp only [Option.toList_none, List.nil_append] at f3 f5
      have hcl0 : closed (u :: us) = u :: closed us := by
        cases us with
        | nil => simp [closed, hub]
        | cons v vs => exact closed_cons u (v :: vs) (by simp)
      have hcl : closed (pend.toList ++ u :: us) = pend.toList ++ u :: closed us := by
        cases pend with
        | none => exact hcl0
        | some v => rw [← hcl0]; exact closed_cons v (u :: us) (by simp)
      refine ⟨s', ds ++ d :: ds', pend', ?_, by rw [f2]; simp, ?_, ?_, ?_⟩
      · rw [List.flatten_cons, run_append, e1]; exact f1
      · rw [hcl]; exact List.rel_append e2 (List.Forall₂.cons hd f3)
      · have e : o ++ (ds ++ d :: ds') = o ++ ds ++ [d] ++ ds' := by simp
        rw [e]; exact f4
      · rw [hcl, List.append_assoc, List.cons_append, f5]

def flagOf (p : TPacket) : Option Nat := if piece p = [] then none else p.af.map (·.randomAccess)

theorem keepFlag_or (f : Option Nat) (p : TPacket) : keepFlag f p = f.or (flagOf p) := by
  rw [keepFlag, flagOf]
  split
  · simp
  · cases f <;> simp

theorem fold_flag (ps : List TPacket) : ∀ f, ps.foldl keepFlag f = f.or (ps.foldl keepFlag none) := by
  induction ps with
  | nil => intro f; simp
  | cons p ps ih =>
    intro f
    rw [List.foldl_cons, List.foldl_cons, ih, ih (keepFlag none p), keepFlag_or, keepFlag_or]
    simp [Option.or_assoc]

theorem group_chunks : ∀ (ts : List TPacket) (ps : List Packet), List.Forall₂ Agrees ts ps →
    ∃ (l : List TPacket) (chunks : List (List TPacket)), ts = l ++ chunks.flatten ∧ (∀ p ∈ l, p.start = false ∧ p.err = false) ∧
      (l.map piece).flatten = (group ps).1 ∧ List.Forall₂ IsUnit chunks (group ps).2 ∧
      l.foldl keepFlag none = (flags ps).1 ∧ chunks.map (fun c => c.foldl keepFlag none) = (flags ps).2 := by
  intro ts ps h
  induction h with
  | nil => exact ⟨[], [], rfl, by simp, rfl, List.Forall₂.nil, rfl, rfl⟩
  | @cons t p ts ps hh _ ih =>
    obtain ⟨l, chunks, rfl, h1, h2, h3, h4, h5⟩ := ih
    obtain ⟨a1, a2, _, _, a5, a6⟩ := hh
    have hpc : piece t = p.payload.getD [] := by rw [piece, a5]
    have hfl : (t :: l).foldl keepFlag none = (if p.payload.getD [] = [] then none else p.randomAccess).or (flags ps).1 := by
      rw [List.foldl_cons, fold_flag, h4, keepFlag_or, flagOf, hpc, a6]; rfl
    rw [group, flags]
    by_cases hst : p.start = true
    · rw [if_pos hst, if_pos hst]
      refine ⟨[], (t :: l) :: chunks, rfl, by simp, rfl, List.Forall₂.cons ⟨t, l, rfl, a2.trans hst, fun q hq => (h1 q hq).1, ?_, ?_⟩ h3, rfl, by rw [List.map_cons, hfl, h5]⟩
      · intro q hq
        rcases List.mem_cons.mp hq with rfl | hq
        · exact a1
        · exact (h1 q hq).2
      · rw [List.map_cons, List.flatten_cons, h2, hpc]
    · rw [if_neg hst, if_neg hst]
      refine ⟨t :: l, chunks, rfl, ?_, ?_, h3, hfl, h5⟩
      · intro q hq
        rcases List.mem_cons.mp hq with rfl | hq
        · exact ⟨by rw [a2]; simpa using hst, a1⟩
        · exact h1 q hq
      · rw [List.map_cons, List.flatten_cons, h2, hpc]

theorem filter_agrees (pid : Nat) (ts : List TPacket) (ps : List Packet) (h : List.Forall₂ Agrees ts ps) :
    List.Forall₂ Agrees (ts.filter (fun t => t.pid == pid)) (ps.filter (fun p => p.pid == pid)) := by
  induction h with
  | nil => exact List.Forall₂.nil
  | @cons t p ts ps hh _ ih =>
    rw [List.filter_cons, List.filter_cons, hh.2.2.1]
    split
    · exact List.Forall₂.cons hh ih
    · exact ih

/-- The description of the stream, when the receiver needs one, is in the first PES packet. -/
def Described (k : Kind) (u : List UInt8) : Prop :=
  match k with
  | .info => True
  | .analyze min lookup => min ≤ u.length ∧ lookup u = .found ∧ ∀ pre, pre <+: u → lookup pre ≠ .fail

theorem lead_run (k : Kind) (sid : Nat) (u : List UInt8) (hu : UnitOk sid u) (l : List TPacket)
    (hl : ∀ p ∈ l, p.err = false ∧ p.start = false ∧ piece p = []) : ∀ s : PS, Idle sid [] s → Phase k s u →
    ∃ s', s.run k l = .ok s' ∧ Idle sid [] s' ∧ Phase k s' u := by
  induction l with
  | nil => intro s hi hp; exact ⟨s, rfl, hi, hp⟩
  | cons p l ih =>
    intro s hi hph
    obtain ⟨h1, h2, h3⟩ := hl p (by simp)
    obtain ⟨_, q, hq, _, hlen⟩ := hu
    have h9 := (pes_facts u q hq).1
    obtain ⟨b, e1, e2, _⟩ := analyze_wait k s u q hq (by rw [hi.payload]; exact List.nil_prefix)
      (by rw [hi.payload]; rcases hlen with h | h; exact .inl h; exact .inr ⟨h, by simp; omega⟩) hph
    have hs : s.step k p = .ok { s with hasStruct := b } := by
      rw [step_next k s p h1 h2, (append_facts s p).2.2.2.2.2.2.1 h3, advance, e1]
      simp only [hi.hasData]; rfl
    rw [PS.run, hs]
    exact ih (fun x hx => hl x (by simp [hx])) _ ⟨hi.payload, hi.hasData, hi.got, hi.first, hi.streamId, hi.out⟩ e2

theorem init_ready (k : Kind) (sid : Nat) (u : List UInt8) (junk : Hdr) (hd : Described k u) :
    Idle sid [] (PS.init junk) ∧ Phase k (PS.init junk) u := by
  refine ⟨⟨rfl, rfl, rfl, rfl, .inl rfl, rfl⟩, ?_⟩
  cases k with
  | info => trivial
  | analyze min lookup => exact .inr ⟨rfl, hd⟩

theorem finish_ok (k : Kind) (sid : Nat) (o : List Del) (s : PS) (pend : Option (List UInt8)) (hb : Between k sid o s pend) :
    ∃ s' ds, s.finish k = .ok s' ∧ s'.out = o ++ ds ∧ List.Forall₂ Delivers ds pend.toList := by
  cases pend with
  | none =>
    refine ⟨s, [], ?_, by rw [hb.out]; simp, List.Forall₂.nil⟩
    rw [PS.finish, PS.before]
    simp only [hb.hasData]
    rw [if_neg (by decide), hb.payload]
    rfl
  | some v =>
    obtain ⟨h1, h2, h3⟩ := hb
    obtain ⟨d, s', e1, e2, _, _, _, _, e7⟩ := before_ok k sid v o s h2 h1 h3
    exact ⟨s', [d], e1, e7, List.Forall₂.cons e2 List.Forall₂.nil⟩

/-- C101: the PES packets a pid of a transport stream file carries are put together and handed on, each once, in order, with stream id, time stamps and
data: all but a last one of unbounded length, which is only handed on by `End`. -/
theorem pes_delivered_partial (k : Kind) (junk : Hdr) (bytes : List UInt8) (ps : List Packet) (hs : IsStream bytes ps) (pid sid : Nat) (u : List UInt8)
    (us : List (List UInt8)) (hc : Carries ps pid (u :: us)) (hok : ∀ v ∈ u :: us, UnitOk sid v) (hd : Described k u) :
    ∃ s, (PS.init junk).run k ((packets bytes).filter (fun t => t.pid == pid)) = .ok s ∧ List.Forall₂ Delivers s.out (closed (u :: us)) ∧
      ∃ s', s.finish k = .ok s' ∧ List.Forall₂ Delivers s'.out (u :: us) := by
  obtain ⟨l, chunks, e1, e2, e3, e4, _, _⟩ := group_chunks _ _ (filter_agrees pid _ _ (stream_read_partial bytes ps hs))
  rw [show group (ps.filter (fun p => p.pid == pid)) = _ from hc] at e3 e4
  obtain ⟨hi, hp⟩ := init_ready k sid u junk hd
  obtain ⟨s0, f1, f2, f3⟩ := lead_run k sid u (hok u (by simp)) l (fun p hp =>
    ⟨(e2 p hp).2, (e2 p hp).1, List.flatten_eq_nil_iff.mp e3 _ (List.mem_map.mpr ⟨p, hp, rfl⟩)⟩) _ hi hp
  obtain ⟨s, ds, pend, g1, g2, g3, g4, g5⟩ := units_run k sid chunks (u :: us) e4 [] s0 none f2 hok (by
    intro _ v hv
    simp only [List.head?_cons, Option.some.injEq] at hv
    subst hv; exact f3)
  simp only [Option.toList_none, List.nil_append] at g2 g3 g4 g5
  obtain ⟨s', ds', h1, h2, h3⟩ := finish_ok k sid ds s pend g4
  refine ⟨s, ?_, by rw [g2]; exact g3, s', h1, ?_⟩
  · rw [e1, run_append, f1]; exact g1
  · rw [h2, ← g5]; exact List.rel_append g3 h3

theorem bounded_run (k : Kind) (sid : Nat) (chunks : List (List TPacket)) (us : List (List UInt8)) (hc : List.Forall₂ IsUnit chunks us) :
    ∀ (o : List Del) (s : PS), Idle sid o s → (∀ u ∈ us, UnitOk sid u ∧ unbounded u = false) → (∀ u, us.head? = some u → Phase k s u) →
      ∃ s' ds, s.run k chunks.flatten = .ok s' ∧ s'.out = o ++ ds ∧ ds.map (·.first) = chunks.map (fun c => c.foldl keepFlag none) := by
  induction hc with
  | nil => intro o s hi _ _; exact ⟨s, [], rfl, by rw [hi.out]; simp, rfl⟩
  | @cons ps u chunks us hpu _ ih =>
    intro o s hi hus hph
    obtain ⟨hu, hub⟩ := hus u (by simp)
    obtain ⟨s1, ds, f, e1, e2, e3, e4⟩ := unit_run k sid o s none hi ps u hu hpu (fun _ => hph u rfl)
    have hds : ds = [] := by cases e2; rfl
    subst hds
    rcases e3 with ⟨h, _⟩ | ⟨_, hE, d, hi', _, hf⟩
    · rw [hub] at h; simp at h
    · rw [List.append_nil] at hi'
      obtain ⟨s', ds', f1, f2, f3⟩ := ih (o ++ [d]) s1 hi' (fun v hv => hus v (by simp [hv])) (fun v _ => hE.phase v)
      refine ⟨s', d :: ds', ?_, by rw [f2]; simp, ?_⟩
      · rw [List.flatten_cons, run_append, e1]; exact f1
      · rw [List.map_cons, List.map_cons, f3, hf, e4 rfl]

/-- C101: when all PES packets of the pid say how long they are, each is handed on with its own random access indicator. -/
theorem pes_flags_partial (k : Kind) (junk : Hdr) (bytes : List UInt8) (ps : List Packet) (hs : IsStream bytes ps) (pid sid : Nat) (u : List UInt8)
    (us : List (List UInt8)) (hc : Carries ps pid (u :: us)) (hok : ∀ v ∈ u :: us, UnitOk sid v ∧ unbounded v = false) (hd : Described k u) :
    ∃ s, (PS.init junk).run k ((packets bytes).filter (fun t => t.pid == pid)) = .ok s ∧
      s.out.map (·.first) = (flags (ps.filter (fun p => p.pid == pid))).2 := by
  obtain ⟨l, chunks, e1, e2, e3, e4, _, e6⟩ := group_chunks _ _ (filter_agrees pid _ _ (stream_read_partial bytes ps hs))
  rw [show group (ps.filter (fun p => p.pid == pid)) = _ from hc] at e3 e4
  obtain ⟨hi, hp⟩ := init_ready k sid u junk hd
  obtain ⟨s0, f1, f2, f3⟩ := lead_run k sid u (hok u (by simp)).1 l (fun p hp =>
    ⟨(e2 p hp).2, (e2 p hp).1, List.flatten_eq_nil_iff.mp e3 _ (List.mem_map.mpr ⟨p, hp, rfl⟩)⟩) _ hi hp
  obtain ⟨s, ds, g1, g2, g3⟩ := bounded_run k sid chunks (u :: us) e4 [] s0 f2 hok (by
    intro v hv
    simp only [List.head?_cons, Option.some.injEq] at hv
    subst hv; exact f3)
  refine ⟨s, ?_, ?_⟩
  · rw [e1, run_append, f1]; exact g1
  · rw [g2, List.nil_append, g3, e6]

end Verif.Demux
