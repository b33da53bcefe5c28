import Verif.Demux.PropsUnits
import Verif.TsMux.PropsMux
/-
C102: what the program's own multiplexer writes is read back by its demultiplexer.
-/
namespace Verif.Demux
open Fields Spec

/-- A packet as in the specification of the writer is one as in the specification of the reader. -/
theorem packet_of_ts (b : List UInt8) (q : Ts.Spec.Packet) (h : Ts.Spec.parse b = some q) :
    SimpleAF b ∧ ∃ ra, packet b = some ⟨q.start, q.pid, q.cc, ra, some q.payload⟩ := by
  rw [Ts.Spec.parse] at h
  split at h
  · simp at h
  next hlen =>
  have hlen : b.length = 188 := by omega
  -- the two bits of the adaptation field control
  have hsplit : ∀ start x pid a cc, Fields.read [8, 1, 1, 1, 13, 2, 2, 4] b = some [0x47, 0, start, x, pid, 0, a, cc] →
      Fields.read [8, 1, 1, 1, 13, 2, 1, 1, 4] b = some [0x47, 0, start, x, pid, 0, a / 2, a % 2, cc] := by
    intro start x pid a cc hr
    have c := readBits_cat [8, 1, 1, 1, 13, 2] [2, 4] _ _ hr
    have d := readBits_split 1 1 [4] _ _ _ c.2
    exact readBits_glue [8, 1, 1, 1, 13, 2] [1, 1, 4] _ _ _ c.1 d
  -- the adaptation field flag
  have hflag : ∀ start x pid y af pay cc, Fields.read [8, 1, 1, 1, 13, 2, 1, 1, 4] b = some [0x47, 0, start, x, pid, y, af, pay, cc] →
      ∀ a f c vs ws, Fields.read (26 :: 1 :: 5 :: ws) b = some (a :: f :: c :: vs) → f = af := by
    intro start x pid y af pay cc hr a f c vs ws hw
    have j := readBits_join _ _ _ _ _ _ _ hr
    have j := readBits_join _ _ _ _ _ _ _ j
    have j := readBits_join _ _ _ _ _ _ _ j
    have j := readBits_join _ _ _ _ _ _ _ j
    have j := readBits_join _ _ _ _ _ _ _ j
    have k := (readBits_cat [8 + 1 + 1 + 1 + 13 + 2, 1] [1, 4] _ _ j).1
    have k2 := (readBits_cat [26, 1] (5 :: ws) _ _ hw).1
    have e := k2.symm.trans k
    simp only [List.length_cons, List.length_nil, List.take_succ_cons, List.take_zero, Option.some.injEq, List.cons.injEq, and_true] at e
    exact e.2
  split at h
  · next start x pid cc hr =>
    simp only [Option.some.injEq] at h
    subst h
    have hr' := hsplit _ _ _ _ _ hr
    refine ⟨?_, none, ?_⟩
    · intro a c len d r e pcr opcr spl priv ext hw
      have := hflag _ _ _ _ _ _ _ hr' _ _ _ _ _ hw
      omega
    · rw [packet, if_neg (by omega), hr']; rfl
  · next start x pid cc hr =>
    have hr' := hsplit _ _ _ _ _ hr
    have hvs : ∃ len d r e pcr opcr spl priv ext, Fields.read [8, 1, 1, 1, 1, 1, 1, 1, 1] (b.drop 4) = some [len, d, r, e, pcr, opcr, spl, priv, ext] := by
      obtain ⟨vs, hv, hvl⟩ := readBits_some [8, 1, 1, 1, 1, 1, 1, 1, 1] (bitsOf (b.drop 4)) (by rw [bitsOf_length, List.length_drop, hlen]; decide)
      match vs, hvl with
      | [a0, a1, a2, a3, a4, a5, a6, a7, a8], _ => exact ⟨a0, a1, a2, a3, a4, a5, a6, a7, a8, hv⟩
    obtain ⟨len, d, r, e, pcr, opcr, spl, priv, ext, hv⟩ := hvs
    have c8 := readBits_cat [8] [1, 1, 1, 1, 1, 1, 1, 1] _ _ hv
    have r8 : Fields.read [8] (b.drop 4) = some [len] := c8.1
    have r5 : Fields.read [1, 1, 1, 1, 1, 1, 1, 1] (b.drop 5) = some [d, r, e, pcr, opcr, spl, priv, ext] := by
      have := c8.2
      have e8 : (bitsOf (b.drop 4)).drop [8].sum = bitsOf (b.drop 5) := by
        have := bitsOf_drop (b.drop 4) 1
        rw [List.drop_drop] at this
        exact this
      rw [e8] at this
      exact this
    -- the specification's reading of the flags
    have r44 : Fields.read [1, 1, 1, 1, 4] (b.drop 5) = some [d, r, e, pcr, ((opcr * 2 ^ 1 + spl) * 2 ^ 1 + priv) * 2 ^ 1 + ext] := by
      have c := readBits_cat [1, 1, 1, 1] [1, 1, 1, 1] _ _ r5
      have j := readBits_join _ _ _ _ _ _ _ c.2
      have j := readBits_join _ _ _ _ _ _ _ j
      have j := readBits_join _ _ _ _ _ _ _ j
      exact readBits_glue [1, 1, 1, 1] [4] _ _ _ c.1 j
    have rp : Fields.read [8, 1, 1, 6] (b.drop 4) =
        some [len, d, r, ((((e * 2 ^ 1 + pcr) * 2 ^ 1 + opcr) * 2 ^ 1 + spl) * 2 ^ 1 + priv) * 2 ^ 1 + ext] := by
      have c := readBits_cat [8, 1, 1] [1, 1, 1, 1, 1, 1] _ _ hv
      have j := readBits_join _ _ _ _ _ _ _ c.2
      have j := readBits_join _ _ _ _ _ _ _ j
      have j := readBits_join _ _ _ _ _ _ _ j
      have j := readBits_join _ _ _ _ _ _ _ j
      have j := readBits_join _ _ _ _ _ _ _ j
      exact readBits_glue [8, 1, 1] [6] _ _ _ c.1 j
    -- from the whole packet
    have hwhole : ∀ a c len' d' r' e' pcr' opcr' spl' priv' ext',
        Fields.read [26, 1, 5, 8, 1, 1, 1, 1, 1, 1, 1, 1] b = some [a, 1, c, len', d', r', e', pcr', opcr', spl', priv', ext'] →
        len' = len ∧ pcr' = pcr ∧ opcr' = opcr ∧ spl' = spl ∧ priv' = priv ∧ ext' = ext := by
      intro a c len' d' r' e' pcr' opcr' spl' priv' ext' hw
      have cw := (readBits_cat [26, 1, 5] [8, 1, 1, 1, 1, 1, 1, 1, 1] _ _ hw).2
      have e4 : (bitsOf b).drop [26, 1, 5].sum = bitsOf (b.drop 4) := bitsOf_drop b 4
      rw [e4] at cw
      have := cw.symm.trans hv
      simp only [List.length_cons, List.length_nil, List.drop_succ_cons, List.drop_zero, Option.some.injEq, List.cons.injEq, and_true] at this
      obtain ⟨h1, _, _, _, h5, h6, h7, h8, h9⟩ := this
      exact ⟨h1, h5, h6, h7, h8, h9⟩
    have hpk : len ≤ 183 → packet b = some ⟨start == 1, pid, cc, some (if len = 0 then 0 else r), some (b.drop (5 + len))⟩ := by
      intro hl
      rw [packet, if_neg (by omega), hr']
      simp only [Nat.reduceDiv, Nat.reduceMod]
      rw [rp]
      simp only []
      rw [if_neg (by omega)]
      rfl
    rw [r8] at h
    simp only [] at h
    split at h
    · simp at h
    next hl =>
    split at h
    · next h0 =>
      simp only [Option.some.injEq] at h
      subst h
      refine ⟨?_, _, by rw [hpk (by omega), h0]⟩
      intro a c len' d' r' e' pcr' opcr' spl' priv' ext' hw hlt
      have := hwhole _ _ _ _ _ _ _ _ _ _ _ hw
      omega
    · next h0 =>
      have hz : ((opcr * 2 ^ 1 + spl) * 2 ^ 1 + priv) * 2 ^ 1 + ext = 0 → opcr = 0 ∧ spl = 0 ∧ priv = 0 ∧ ext = 0 := by omega
      rw [r44] at h
      split at h
      · next heq =>
        simp only [Option.some.injEq, List.cons.injEq, and_true] at heq h
        obtain ⟨_, rfl, _, hp0, hz0⟩ := heq
        subst h
        refine ⟨?_, _, hpk (by omega)⟩
        intro a c len' d' r' e' pcr' opcr' spl' priv' ext' hw hlt
        have := hwhole _ _ _ _ _ _ _ _ _ _ _ hw
        have := hz hz0
        omega
      · next heq =>
        simp only [Option.some.injEq, List.cons.injEq, and_true] at heq
        obtain ⟨_, rfl, _, hp0, hz0⟩ := heq
        split at h
        · simp at h
        next h7 =>
        split at h
        · simp only [Option.some.injEq] at h
          subst h
          refine ⟨?_, _, hpk (by omega)⟩
          intro a c len' d' r' e' pcr' opcr' spl' priv' ext' hw hlt
          have := hwhole _ _ _ _ _ _ _ _ _ _ _ hw
          have := hz hz0
          omega
        · simp at h
      · simp at h
  · simp at h

/-- The same for a file. -/
theorem stream_of_ts (bytes : List UInt8) (qs : List Ts.Spec.Packet) (h : Ts.Spec.IsStream bytes qs) :
    ∃ ps, IsStream bytes ps ∧ List.Forall₂ (fun p q => p.start = q.start ∧ p.pid = q.pid ∧ p.payload = some q.payload) ps qs := by
  obtain ⟨raw, rfl, hm⟩ := h
  suffices ∃ ps, raw.map packet = ps.map some ∧ (∀ b ∈ raw, SimpleAF b) ∧
      List.Forall₂ (fun (p : Packet) (q : Ts.Spec.Packet) => p.start = q.start ∧ p.pid = q.pid ∧ p.payload = some q.payload) ps qs by
    obtain ⟨ps, h1, h2, h3⟩ := this
    exact ⟨ps, ⟨raw, rfl, h1, h2⟩, h3⟩
  induction raw generalizing qs with
  | nil =>
    cases qs with
    | nil => exact ⟨[], rfl, by simp, List.Forall₂.nil⟩
    | cons q qs => simp at hm
  | cons b raw ih =>
    cases qs with
    | nil => simp at hm
    | cons q qs =>
      simp only [List.map_cons, List.cons.injEq] at hm
      obtain ⟨h1, ra, h2⟩ := packet_of_ts b q hm.1
      obtain ⟨ps, g1, g2, g3⟩ := ih qs hm.2
      refine ⟨⟨q.start, q.pid, q.cc, ra, some q.payload⟩ :: ps, by rw [List.map_cons, List.map_cons, h2, g1], ?_, List.Forall₂.cons ⟨rfl, rfl, rfl⟩ g3⟩
      intro c hc
      rcases List.mem_cons.mp hc with rfl | hc
      · exact h1
      · exact g2 c hc

theorem group_of_ts (ps : List Packet) (qs : List Ts.Spec.Packet)
    (h : List.Forall₂ (fun (p : Packet) (q : Ts.Spec.Packet) => p.start = q.start ∧ p.pid = q.pid ∧ p.payload = some q.payload) ps qs) (pid : Nat) :
    group (ps.filter (fun p => p.pid == pid)) = TsMux.Spec.group (qs.filter (fun q => q.pid == pid)) := by
  induction h with
  | nil => rfl
  | @cons p q ps qs hh _ ih =>
    rw [List.filter_cons, List.filter_cons, hh.2.1]
    split
    · rw [group, TsMux.Spec.group, ih, hh.1, hh.2.2]; rfl
    · exact ih

theorem stamp_of_pes (pre : Nat) (b : List UInt8) (v : Nat) (h : Pes.Spec.stamp pre b = some v) : stamp b = some v := by
  rw [Pes.Spec.stamp] at h
  split at h
  · next hr =>
    split at h
    · rw [stamp, hr]; exact h
    · simp at h
  · simp at h

/-- A PES packet as in the specification of the writer is one as in the specification of the reader. -/
theorem pes_of_pes (u : List UInt8) (p : Pes.Spec.Packet) (h : Pes.Spec.parse u = some p) (hid : p.streamId ∉ noHeader) :
    pes u = some p ∧ SimplePes u := by
  rw [Pes.Spec.parse] at h
  split at h
  · next sid len x2 x3 x4 x5 flags n hr =>
    split at h
    · simp at h
    next hlen =>
    have hw : Fields.read pesWidths u = some [1, sid, len, 2, 0, x2, x3, x4, x5, flags / 2, flags % 2, 0, 0, 0, 0, 0, 0, n] := by
      have c := readBits_cat [24, 8, 16, 2, 2, 1, 1, 1, 1] [2, 6, 8] _ _ hr
      have d := readBits_split 1 1 [6, 8] _ _ _ c.2
      have c2 := readBits_cat [1, 1] [6, 8] _ _ d
      have e1 := readBits_split 5 1 [8] _ _ _ c2.2
      have e2 := readBits_split 4 1 [1, 8] _ _ _ e1
      have e3 := readBits_split 3 1 [1, 1, 8] _ _ _ e2
      have e4 := readBits_split 2 1 [1, 1, 1, 8] _ _ _ e3
      have e5 := readBits_split 1 1 [1, 1, 1, 1, 8] _ _ _ e4
      have g := readBits_glue [1, 1] [1, 1, 1, 1, 1, 1, 8] _ _ _ c2.1 e5
      exact readBits_glue [24, 8, 16, 2, 2, 1, 1, 1, 1] [1, 1, 1, 1, 1, 1, 1, 1, 8] _ _ _ c.1 g
    have simple : 5 * (flags / 2) + 5 * (flags % 2) ≤ n → SimplePes u := by
      intro hfit c sid' len' x1 x2' x3' x4' x5' x6 p' d escr rate trick copy crc ext n' hr'
      rw [hw] at hr'
      simp only [Option.some.injEq, List.cons.injEq, and_true] at hr'
      obtain ⟨_, _, _, _, _, _, _, _, _, rfl, rfl, rfl, rfl, rfl, rfl, rfl, rfl, rfl⟩ := hr'
      refine ⟨rfl, by omega, ?_⟩
      rw [Nat.zero_mul]; omega
    have fin : ∀ pts dts, p = ⟨sid, len, pts, dts, u.drop (9 + n)⟩ → 5 * (flags / 2) + 5 * (flags % 2) ≤ n → ¬(flags / 2 = 0 ∧ flags % 2 = 1) →
        (if flags / 2 = 1 then stamp (u.drop 9) else none) = pts → (if flags % 2 = 1 then stamp (u.drop 14) else none) = dts →
        pes u = some p ∧ SimplePes u := by
      intro pts dts hp h1 h2 h3 h4
      refine ⟨?_, simple h1⟩
      rw [pes, hw]
      simp only []
      subst hp
      simp only at hid
      rw [if_neg (by
        rintro (h | h | h | h | h | h)
        · exact h rfl
        · exact h rfl
        · exact hid h
        · omega
        · omega
        · exact h2 h), h3, h4]
    split at h
    · simp only [Option.some.injEq] at h
      exact fin none none h.symm (by omega) (by omega) (by simp) (by simp)
    · split at h
      · simp at h
      · obtain ⟨a, ha, rfl⟩ := Option.map_eq_some_iff.mp h
        exact fin (some a) none rfl (by omega) (by omega) (by simpa using stamp_of_pes 2 _ _ ha) (by simp)
    · split at h
      · simp at h
      · split at h
        · next ha hb =>
          simp only [Option.some.injEq] at h
          exact fin _ _ h.symm (by omega) (by omega) (by simpa using stamp_of_pes 3 _ _ ha) (by simpa using stamp_of_pes 1 _ _ hb)
        · simp at h
    · simp at h
  · simp at h

end Verif.Demux
