import Verif.Psi.Lemmas
/-
C103: the program tables of a transport stream are read.
-/
namespace Verif.Psi
open Fields Demux Spec

/-- Payload of a packet. -/
def piece (p : TPacket) : List UInt8 := p.payload.getD []

/-- The packets `c` carry a table: the first is a start, the others are not, and their payloads are `carried before sec after`; the last packet completes
the section. `early` is what the program needs besides: the first packet has the section header, and until the last packet there are fewer bytes than the
section length field says. -/
structure CarriesTable (c : List TPacket) (before sec after : List UInt8) : Prop where
  pointer : before.length < 256
  starts : ∃ p ps, c = p :: ps ∧ p.start = true ∧ ∀ q ∈ ps, q.start = false
  payload : c.flatMap piece = carried before sec after
  complete : 1 + before.length + sec.length ≤ (c.flatMap piece).length
  header : ∀ p ps, c = p :: ps → 9 + before.length ≤ (piece p).length
  early : (c.dropLast.flatMap piece).length + 3 < sec.length

theorem getBase_prefix (u v : List Bool) (h : 64 ≤ u.length) (x : Nat × Nat) (r : List Bool) (hv : getBase (u ++ v) = some (x, r)) :
    ∃ r', getBase u = some (x, r') := by
  obtain ⟨vs, h1, h2⟩ := readBits_some [8, 1, 1, 2, 12, 16, 2, 5, 1, 8, 8] u h
  have h3 := readBits_append _ u v vs h1
  rw [getBase, takeBits_of _ _ _ h3] at hv
  rw [getBase, takeBits_of _ _ _ h1]
  match vs, h2 with
  | [a, b, c, d, e, f, g, h, i, j, k], _ =>
    simp only [Option.some.injEq, Prod.mk.injEq] at hv ⊢
    exact ⟨_, hv.1, rfl⟩

/-- With less of a section than its length field says, nothing happens. -/
theorem process_wait {T : Type} (tid : Nat) (get : List Bool → Option T) (before : List UInt8) (h : Head) (body : List UInt8) (crc : Nat) (after : List UInt8)
    (ht : tid < 256) (hb : body.length + 9 < 4096) (hp : before.length < 256) (s : Psi T) (rest : List UInt8)
    (he : s.payload ++ rest = carried before (sectionBytes tid h body crc) after) (h1 : 9 + before.length ≤ s.payload.length)
    (h2 : s.payload.length < body.length + 9) : Psi.process tid get s = some s := by
  have hs : ∃ u, s.payload = pack [(8, before.length)] ++ before ++ u ∧ u ++ rest = sectionBytes tid h body crc ++ after := by
    have hl : (pack [(8, before.length)] ++ before).length = 1 + before.length := by rw [List.length_append, pack_length _ 1 rfl]
    refine ⟨s.payload.drop (1 + before.length), ?_, ?_⟩
    · have := congrArg (List.take (1 + before.length)) he
      rw [carried, List.append_assoc _ (sectionBytes _ _ _ _), List.take_left' hl, List.take_append_of_le_length (by omega)] at this
      rw [← this, List.take_append_drop]
    · have := congrArg (List.drop (1 + before.length)) he
      rw [carried, List.append_assoc _ (sectionBytes _ _ _ _), List.drop_left' hl, List.drop_append_of_le_length (by omega)] at this
      exact this
  obtain ⟨u, hu, hur⟩ := hs
  have hul : 8 ≤ u.length := by
    have := congrArg List.length hu
    rw [List.length_append, List.length_append, pack_length _ 1 rfl] at this
    omega
  have hpt : pointed s.payload = some (bitsOf u) := by
    have := pointed_ok before u [] hp
    rw [carried, List.append_nil, List.append_nil] at this
    rw [hu]; exact this
  obtain ⟨r', hr'⟩ := getBase_prefix (bitsOf u) (bitsOf rest) (by rw [bitsOf_length]; omega) _ _
    (by rw [← bitsOf_append, hur]; exact base_read tid h body crc after ht hb)
  rw [Psi.process, hpt, Option.bind_some, hr', Option.bind_some]
  simp only [if_true]
  rw [if_pos (by omega)]

/-- With the whole section the table is read. -/
theorem process_done {T : Type} (tid : Nat) (get : List Bool → Option T) (before : List UInt8) (h : Head) (body : List UInt8) (crc : Nat) (after : List UInt8)
    (ht : tid < 256) (hb : body.length + 9 < 4096) (hp : before.length < 256) (s : Psi T)
    (he : s.payload = carried before (sectionBytes tid h body crc) after) (t : T)
    (hg : get (bitsOf (sectionBytes tid h body crc ++ after)) = some t) : Psi.process tid get s = some { s with table := some t } := by
  rw [Psi.process, he, pointed_ok before _ after hp, Option.bind_some, base_read tid h body crc after ht hb, Option.bind_some]
  simp only [if_true]
  rw [if_neg, hg, Option.map_some]
  rw [carried, List.length_append, List.length_append, section_length]
  omega

/-- The packets of a table one after another. -/
def runTable {T : Type} (tid : Nat) (get : List Bool → Option T) (s : Psi T) : List TPacket → Option (Psi T)
  | [] => some s
  | p :: ps => (Psi.add tid get s p).bind fun s => runTable tid get s ps

theorem rest_wait {T : Type} (tid : Nat) (get : List Bool → Option T) (before : List UInt8) (h : Head) (body : List UInt8) (crc : Nat) (after : List UInt8)
    (ht : tid < 256) (hb : body.length + 9 < 4096) (hp : before.length < 256) (t : T) (hg : get (bitsOf (sectionBytes tid h body crc ++ after)) = some t)
    (ps : List TPacket) : ∀ s : Psi T, s.table = none → ps ≠ [] → (∀ q ∈ ps, q.start = false ∧ q.err = false) →
    s.payload ++ ps.flatMap piece = carried before (sectionBytes tid h body crc) after → 9 + before.length ≤ s.payload.length →
    s.payload.length + (ps.dropLast.flatMap piece).length < body.length + 9 →
    ∃ s', runTable tid get s ps = some s' ∧ s'.table = some t ∧
      ∀ n, n < ps.length → ∃ s'', runTable tid get s (ps.take n) = some s'' ∧ s''.table = none := by
  induction ps with
  | nil => intro s _ h; exact absurd rfl h
  | cons p ps ih =>
    intro s hs _ hps he h9 hd
    obtain ⟨h1, h2⟩ := hps p (by simp)
    have hadd : Psi.add tid get s p = Psi.process tid get { s with payload := s.payload ++ piece p } := by
      rw [Psi.add, h2]; simp [h1, piece]
    rw [List.flatMap_cons, ← List.append_assoc] at he
    cases ps with
    | nil =>
      simp only [List.flatMap_nil, List.append_nil] at he
      refine ⟨_, by rw [runTable, hadd, process_done tid get before h body crc after ht hb hp _ he t hg]; rfl, rfl, ?_⟩
      intro n hn
      obtain rfl : n = 0 := by simp at hn; omega
      exact ⟨s, rfl, hs⟩
    | cons q qs =>
      have hd' : s.payload.length + (piece p).length + (((q :: qs).dropLast).flatMap piece).length < body.length + 9 := by
        rw [List.dropLast_cons_cons, List.flatMap_cons, List.length_append] at hd
        omega
      have hw := process_wait tid get before h body crc after ht hb hp { s with payload := s.payload ++ piece p } _ he
        (by simp only [List.length_append]; omega) (by simp only [List.length_append]; omega)
      rw [← hadd] at hw
      obtain ⟨s', e1, e2, e3⟩ := ih { s with payload := s.payload ++ piece p } hs (by simp) (fun x hx => hps x (by simp [hx])) he
        (by simp only [List.length_append]; omega) (by simp only [List.length_append]; omega)
      refine ⟨s', by rw [runTable, hw]; exact e1, e2, ?_⟩
      intro n hn
      cases n with
      | zero => exact ⟨s, rfl, hs⟩
      | succ n =>
        obtain ⟨s'', f1, f2⟩ := e3 n (by simp at hn ⊢; omega)
        exact ⟨s'', by rw [List.take_succ_cons, runTable, hw]; exact f1, f2⟩

/-- A table is there after the last of its packets, not before, whatever the pid carried earlier: a start packet drops what was collected. -/
theorem table_run {T : Type} (tid : Nat) (get : List Bool → Option T) (before : List UInt8) (h : Head) (body : List UInt8) (crc : Nat) (after : List UInt8)
    (ht : tid < 256) (hb : body.length + 9 < 4096) (t : T) (hg : get (bitsOf (sectionBytes tid h body crc ++ after)) = some t)
    (c : List TPacket) (hc : CarriesTable c before (sectionBytes tid h body crc) after) (herr : ∀ q ∈ c, q.err = false) (s : Psi T) (hs : s.table = none) :
    ∃ s', runTable tid get s c = some s' ∧ s'.table = some t ∧
      ∀ n, n < c.length → ∃ s'', runTable tid get s (c.take n) = some s'' ∧ s''.table = none := by
  obtain ⟨p, ps, rfl, hst, hns⟩ := hc.starts
  have hpay := hc.payload
  have hhd := hc.header p ps rfl
  have hear := hc.early
  rw [section_length] at hear
  have hadd : Psi.add tid get s p = Psi.process tid get ⟨piece p, none⟩ := by
    rw [Psi.add, herr p (by simp)]; simp [hst, piece, hs]
  cases ps with
  | nil =>
    simp only [List.flatMap_cons, List.flatMap_nil, List.append_nil] at hpay
    refine ⟨_, by rw [runTable, hadd, process_done tid get before h body crc after ht hb hc.pointer _ hpay t hg]; rfl, rfl, ?_⟩
    intro n hn
    obtain rfl : n = 0 := by simp at hn; omega
    exact ⟨s, rfl, hs⟩
  | cons q qs =>
    rw [List.flatMap_cons] at hpay
    rw [List.dropLast_cons_cons, List.flatMap_cons, List.length_append] at hear
    have hw := process_wait tid get before h body crc after ht hb hc.pointer (⟨piece p, none⟩ : Psi T) _ hpay hhd (by simp only; omega)
    rw [← hadd] at hw
    obtain ⟨s', e1, e2, e3⟩ := rest_wait tid get before h body crc after ht hb hc.pointer t hg (q :: qs) ⟨piece p, none⟩ rfl (by simp)
      (fun x hx => ⟨hns x hx, herr x (by simp [hx])⟩) hpay hhd (by simp only; omega)
    rw [hadd] at hw
    refine ⟨s', by rw [runTable, hadd, hw]; exact e1, e2, ?_⟩
    intro n hn
    cases n with
    | zero => exact ⟨s, rfl, hs⟩
    | succ n =>
      obtain ⟨s'', f1, f2⟩ := e3 n (by simp at hn ⊢; omega)
      exact ⟨s'', by rw [List.take_succ_cons, runTable, hadd, hw]; exact f1, f2⟩

theorem runTable_append {T : Type} (tid : Nat) (get : List Bool → Option T) (a b : List TPacket) : ∀ s : Psi T,
    runTable tid get s (a ++ b) = (runTable tid get s a).bind fun s => runTable tid get s b := by
  induction a with
  | nil => intro s; rfl
  | cons p ps ih =>
    intro s
    rw [List.cons_append, runTable, runTable, Option.bind_assoc]
    congr 1
    funext s
    exact ih s

/-- A packet that is a whole section of another table. -/
def OtherTable (tid : Nat) (p : TPacket) : Prop :=
  ∃ other before h body crc after, other < 256 ∧ other ≠ tid ∧ body.length + 9 < 4096 ∧ before.length < 256 ∧ p.err = false ∧ p.start = true ∧
    piece p = carried before (sectionBytes other h body crc) after

/-- C103: sections of other tables on the pid are stepped over; the table after them is read, once its last packet is there. -/
theorem table_after_others {T : Type} (tid : Nat) (get : List Bool → Option T) (before : List UInt8) (h : Head) (body : List UInt8) (crc : Nat) (after : List UInt8)
    (ht : tid < 256) (hb : body.length + 9 < 4096) (t : T) (hg : get (bitsOf (sectionBytes tid h body crc ++ after)) = some t)
    (o c : List TPacket) (ho : ∀ p ∈ o, OtherTable tid p)
    (hc : CarriesTable c before (sectionBytes tid h body crc) after) (herr : ∀ q ∈ c, q.err = false) :
    (∃ s', runTable tid get ⟨[], none⟩ (o ++ c) = some s' ∧ s'.table = some t) ∧
      ∀ n, n < c.length → ∃ s'', runTable tid get ⟨[], none⟩ (o ++ c.take n) = some s'' ∧ s''.table = none := by
  have key : ∀ (o : List TPacket) (s : Psi T), s.table = none → (∀ p ∈ o, OtherTable tid p) → ∃ s', runTable tid get s o = some s' ∧ s'.table = none := by
    intro o
    induction o with
    | nil => intro s hs _; exact ⟨s, rfl, hs⟩
    | cons p ps ih =>
      intro s hs hp
      obtain ⟨other, b', h', body', crc', after', h1, h2, h3, h4, h5, h6, h7⟩ := hp p (by simp)
      have hadd : Psi.add tid get s p = some ⟨piece p, none⟩ := by
        rw [Psi.add, h5]
        simp only [h6, if_true, List.nil_append, Bool.false_eq_true, if_false]
        rw [Psi.process]
        change ((pointed (piece p)).bind _) = _
        rw [h7, pointed_ok b' _ after' h4, Option.bind_some, base_read other h' body' crc' after' h1 h3, Option.bind_some]
        simp only [if_neg h2, hs]
        rw [← h7]; rfl
      rw [runTable, hadd, Option.bind_some]
      exact ih _ rfl (fun q hq => hp q (by simp [hq]))
  obtain ⟨s, e1, e2⟩ := key o ⟨[], none⟩ rfl ho
  obtain ⟨s', f1, f2, f3⟩ := table_run tid get before h body crc after ht hb t hg c hc herr s e2
  refine ⟨⟨s', by rw [runTable_append, e1]; exact f1, f2⟩, ?_⟩
  intro n hn
  obtain ⟨s'', g1, g2⟩ := f3 n hn
  exact ⟨s'', by rw [runTable_append, e1]; exact g1, g2⟩

/-- A section of table 3 comes before the program map. -/
def otherPacket : TPacket := ⟨false, true, 100, none, 0, some (carried [] (sectionBytes 3 ⟨0, 3, 1, 3, 0, 1, 0, 0⟩ [1, 2, 3] 7) [255])⟩
def mapPacket : TPacket := ⟨false, true, 100, none, 1, some (carried [9] (sectionBytes 2 ⟨0, 3, 1, 3, 0, 1, 0, 0⟩ (pmtBody 7 256 [] [⟨27, 256, []⟩]) 7) [255])⟩

example : OtherTable 2 otherPacket :=
  ⟨3, [], ⟨0, 3, 1, 3, 0, 1, 0, 0⟩, [1, 2, 3], 7, [255], by decide, by decide, by decide, by decide, rfl, rfl, rfl⟩

example : ((runTable 2 getPmt ⟨[], none⟩ [otherPacket, mapPacket]).bind (·.table)) = some (256, [(27, 256)]) := by decide +kernel

end Verif.Psi
