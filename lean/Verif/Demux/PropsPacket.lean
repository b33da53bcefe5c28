import Verif.Demux.Lemmas
/-
C99: every intact transport packet is read as the standard says, and a stream of them packet by packet.
-/
namespace Verif.Demux
open Fields Spec

theorem getPacket_header (b rest : List UInt8) (hl : b.length = 188) (start x pid y af pay cc : Nat)
    (hr : Fields.read [8, 1, 1, 1, 13, 2, 1, 1, 4] b = some [0x47, 0, start, x, pid, y, af, pay, cc]) :
    getPacket (b ++ rest) = (getBody start pid cc af pay (bitsOf (b.drop 4 ++ rest))).map fun (p, s) => (p, bytesOfBits (s.drop (s.length % 8))) := by
  obtain ⟨b0, l, rfl⟩ : ∃ b0 l, b = b0 :: l := by
    cases b with
    | nil => simp at hl
    | cons b0 l => exact ⟨b0, l, rfl⟩
  have h1 := readBits_cat [8] [1, 1, 1, 13, 2, 1, 1, 4] _ _ hr
  have hb0 : b0 = 0x47 := by
    have := h1.1
    rw [← Fields.read, read_singleton] at this
    simp only [List.length_cons, List.length_nil, List.take_succ_cons, List.take_zero, Option.some.injEq, List.cons.injEq, and_true] at this
    exact UInt8.toNat_inj.mp this
  subst hb0
  have h2 : readBits [1, 1, 1, 13, 2, 1, 1, 4] (bitsOf l) = some [0, start, x, pid, y, af, pay, cc] := by
    have := h1.2
    have e := bitsOf_drop (0x47 :: l) 1
    simp only [List.drop_succ_cons, List.drop_zero] at e
    simp only [List.sum_cons, List.sum_nil] at this
    rw [show 8 + 0 = 8 * 1 from rfl, e] at this
    exact this
  have h3 : readBits [1, 1, 1, 13, 2, 1, 1, 4] (bitsOf (l ++ rest)) = some [0, start, x, pid, y, af, pay, cc] :=
    read_append _ l rest _ h2
  have h4 := readBits_cat [1] [1, 1, 13, 2, 1, 1, 4] _ _ h3
  have h41 := takeBits_of _ _ _ h4.1
  have h42 := takeBits_of _ _ _ h4.2
  simp only [List.length_cons, List.length_nil, List.take_succ_cons, List.take_zero, List.drop_succ_cons, List.drop_zero, List.sum_cons,
    List.sum_nil, List.drop_drop] at h41 h42
  rw [getPacket, List.cons_append, List.dropWhile_cons_of_neg (by decide)]
  simp only [h41]
  rw [if_neg (by decide), h42]
  simp only []
  have e : (bitsOf (l ++ rest)).drop (1 + 0 + (1 + (1 + (13 + (2 + (1 + (1 + (4 + 0)))))))) = bitsOf (l.drop 3 ++ rest) := by
    rw [show 1 + 0 + (1 + (1 + (13 + (2 + (1 + (1 + (4 + 0))))))) = 8 * 3 from rfl, bitsOf_drop,
      List.drop_append_of_le_length (by simp only [List.length_cons] at hl; omega)]
  rw [e]
  simp only [List.drop_succ_cons]

theorem aligned (rest : List UInt8) : bytesOfBits ((bitsOf rest).drop ((bitsOf rest).length % 8)) = rest := by
  rw [bitsOf_length, Nat.mul_mod_right, List.drop_zero, bytesOfBits_bitsOf]

/-- What the reader says agrees with what the packet says. -/
def Agrees (t : TPacket) (p : Packet) : Prop :=
  t.err = false ∧ t.start = p.start ∧ t.pid = p.pid ∧ t.cc = p.cc ∧ t.payload = p.payload ∧ t.af.map (·.randomAccess) = p.randomAccess

theorem skipIf_bytes (c : Bool) (n : Nat) (b : List UInt8) (h : c = true → n ≤ b.length) :
    skipIf c (8 * n) (bitsOf b) = some (bitsOf (b.drop (if c then n else 0))) := by
  cases c with
  | false => simp [skipIf]
  | true => simp only [skipIf, if_true]; rw [if_pos (by rw [bitsOf_length]; have := h rfl; omega), bitsOf_drop]

theorem getAFBody_ok (len ra pcrF opcrF splF : Nat) (hp : pcrF < 2) (ho : opcrF < 2) (hsp : splF < 2) (b : List UInt8)
    (hfit : 1 + 6 * pcrF + 6 * opcrF + splF ≤ len) (hb : len ≤ b.length + 1) :
    ∃ pcr, getAFBody len ra pcrF opcrF splF 0 0 (bitsOf b) = some (⟨len, ra, pcr⟩, bitsOf (b.drop (len - 1))) := by
  have h1 : ∃ pcr, getPcr pcrF (bitsOf b) = some (pcr, bitsOf (b.drop (6 * pcrF))) := by
    rw [getPcr]
    split
    · next h =>
      subst h
      obtain ⟨vs, hv, hvl⟩ := readBits_some [3, 15, 15, 6, 9] (bitsOf b) (by rw [bitsOf_length]; simp; omega)
      match vs, hvl with
      | [a, b', c, d, e], _ =>
        refine ⟨some (a, b', c, e), ?_⟩
        rw [takeBits_of _ _ _ hv]
        simp only [List.sum_cons, List.sum_nil]
        rw [show 3 + (15 + (15 + (6 + (9 + 0)))) = 8 * 6 from rfl, bitsOf_drop]
    · next h => exact ⟨none, by rw [show pcrF = 0 by omega]; simp⟩
  obtain ⟨pcr, h1⟩ := h1
  refine ⟨pcr, ?_⟩
  have e2 := skipIf_bytes (opcrF == 1) 6 (b.drop (6 * pcrF)) (by intro h; simp at h; rw [List.length_drop]; omega)
  have e3 := skipIf_bytes (splF == 1) 1 ((b.drop (6 * pcrF)).drop (if opcrF == 1 then 6 else 0)) (by
    intro h; simp at h; rw [List.length_drop, List.length_drop]; split <;> simp_all <;> omega)
  rw [getAFBody, h1]
  simp only [Option.bind_some, getPrivate, getExtension]
  rw [show (48 : Nat) = 8 * 6 from rfl, e2]
  simp only [Option.bind_some]
  rw [show (skipIf (splF == 1) 8 (bitsOf ((b.drop (6 * pcrF)).drop (if opcrF == 1 then 6 else 0)))) = _ from e3]
  simp only [Option.bind_some, List.drop_drop]
  have fin : ∀ k, 1 + k ≤ len → (if (8 + 8 * k) / 8 < len then (bitsOf (b.drop k)).drop (len * 8 - (8 + 8 * k)) else bitsOf (b.drop k)) =
      bitsOf (b.drop (len - 1)) := by
    intro k hk
    split
    · next h =>
      rw [show len * 8 - (8 + 8 * k) = 8 * (len - 1 - k) by omega, bitsOf_drop, List.drop_drop]
      congr 2; omega
    · next h => rw [show len - 1 = k by omega]
  have hpc : pcrF = 0 ∨ pcrF = 1 := by omega
  have hoc : opcrF = 0 ∨ opcrF = 1 := by omega
  have hsc : splF = 0 ∨ splF = 1 := by omega
  have key := fin (6 * pcrF + 6 * opcrF + splF) (by omega)
  rw [← key]
  rcases hpc with rfl | rfl <;> rcases hoc with rfl | rfl <;> rcases hsc with rfl | rfl <;> rfl

theorem getAF_zero (b : List UInt8) (h : Fields.read [8] b = some [0]) : getAF (bitsOf b) = some (⟨0, 0, none⟩, bitsOf (b.drop 1)) := by
  rw [getAF, takeBits_of _ _ _ h]
  simp only [List.sum_cons, List.sum_nil]
  rw [if_neg (by omega), show 8 + 0 = 8 * 1 from rfl, bitsOf_drop]

theorem getAF_ok (b : List UInt8) (len d r e pcr opcr spl : Nat)
    (h : Fields.read [8, 1, 1, 1, 1, 1, 1, 1, 1] b = some [len, d, r, e, pcr, opcr, spl, 0, 0])
    (h0 : 0 < len) (h183 : len ≤ 183) (hfit : 1 + 6 * pcr + 6 * opcr + spl ≤ len) (hb : 1 + len ≤ b.length) :
    ∃ q, getAF (bitsOf b) = some (⟨len, r, q⟩, bitsOf (b.drop (1 + len))) := by
  have hc := readBits_cat [8] [1, 1, 1, 1, 1, 1, 1, 1] _ _ h
  have h1 := takeBits_of _ _ _ hc.1
  have h2 := takeBits_of _ _ _ hc.2
  have hbd := (readBits_bound _ _ _ h).2
  have bp : pcr < 2 := by obtain ⟨w, hw, hv⟩ := hbd 4 pcr rfl; simp at hw; subst hw; exact hv
  have bo : opcr < 2 := by obtain ⟨w, hw, hv⟩ := hbd 5 opcr rfl; simp at hw; subst hw; exact hv
  have bs : spl < 2 := by obtain ⟨w, hw, hv⟩ := hbd 6 spl rfl; simp at hw; subst hw; exact hv
  rw [getAF, h1]
  simp only [List.length_cons, List.length_nil, List.take_succ_cons, List.take_zero]
  rw [if_pos ⟨h0, h183⟩, h2]
  simp only [List.length_cons, List.length_nil, List.drop_succ_cons, List.drop_zero, List.sum_cons, List.sum_nil, List.drop_drop]
  rw [show 8 + 0 + (1 + (1 + (1 + (1 + (1 + (1 + (1 + (1 + 0)))))))) = 8 * 2 from rfl, bitsOf_drop]
  obtain ⟨q, hq⟩ := getAFBody_ok len r pcr opcr spl bp bo bs (b.drop 2) hfit (by rw [List.length_drop]; omega)
  refine ⟨q, ?_⟩
  rw [hq, List.drop_drop]
  congr 3; congr 1; omega

/-- C99: whatever follows it in the file, an intact packet is read with the start flag, pid, counter, random access flag and exactly the payload it has, and
the reader stands at its end: for every packet whose adaptation field has no private data and no extension. -/
theorem packet_read_partial (b rest : List UInt8) (p : Packet) (hp : packet b = some p) (hs : SimpleAF b) :
    ∃ t, getPacket (b ++ rest) = some (t, rest) ∧ Agrees t p := by
  rw [packet] at hp
  split at hp
  · simp at hp
  next hlen =>
  have hlen : b.length = 188 := by omega
  split at hp
  · next start x pid y cc hr =>
    simp only [Option.some.injEq] at hp
    subst hp
    rw [getPacket_header b rest hlen start x pid y 0 1 cc hr, getBody, if_neg (by decide), if_pos rfl,
      takeBytes_ok (b.drop 4) rest 184 (by rw [List.length_drop]; omega)]
    simp only [Option.map_some]
    rw [aligned]
    exact ⟨_, rfl, rfl, rfl, rfl, rfl, rfl, rfl⟩
  · next start x pid y pay cc hr =>
    split at hp
    · next len d ra z hr2 =>
      split at hp
      · simp at hp
      next hcond =>
      simp only [Option.some.injEq] at hp
      have hlen183 : len ≤ 183 := by omega
      have hdl : (b.drop 4).length = 184 := by rw [List.length_drop]; omega
      have hpay : pay < 2 := by
        obtain ⟨w, hw, hv⟩ := (readBits_bound _ _ _ hr).2 7 pay rfl
        simp at hw; subst hw; exact hv
      have hAF : ∃ q, getAF (bitsOf (b.drop 4 ++ rest)) = some (⟨len, if len = 0 then 0 else ra, q⟩, bitsOf (b.drop (5 + len) ++ rest)) := by
        have hdrop : (b.drop 4 ++ rest).drop (1 + len) = b.drop (5 + len) ++ rest := by
          rw [List.drop_append_of_le_length (by omega), List.drop_drop]; congr 2; omega
        rw [← hdrop]
        by_cases h0 : len = 0
        · subst h0
          have := readBits_cat [8] [1, 1, 6] _ _ hr2
          exact ⟨none, getAF_zero _ (read_append _ _ rest _ this.1)⟩
        · obtain ⟨vs, hv, hvl⟩ := readBits_some [8, 1, 1, 1, 1, 1, 1, 1, 1] (bitsOf (b.drop 4)) (by rw [bitsOf_length, hdl]; decide)
          match vs, hvl with
          | [len', d', r', e, pcr, opcr, spl, priv, ext], _ =>
            -- the same fields as in the specification
            have c1 := readBits_cat [8, 1, 1] [1, 1, 1, 1, 1, 1] _ _ hv
            have c2 := readBits_cat [8, 1, 1] [6] _ _ hr2
            have c3 := c1.1.symm.trans c2.1
            simp only [List.length_cons, List.length_nil, List.take_succ_cons, List.take_zero, Option.some.injEq, List.cons.injEq, and_true] at c3
            obtain ⟨rfl, rfl, rfl⟩ := c3
            -- the flags in the whole packet
            have hw : Fields.read [26, 1, 5, 8, 1, 1, 1, 1, 1, 1, 1, 1] b =
                some [(((((0x47 * 2 ^ 1 + 0) * 2 ^ 1 + start) * 2 ^ 1 + x) * 2 ^ 13 + pid) * 2 ^ 2 + y), 1, pay * 2 ^ 4 + cc,
                  len', d', r', e, pcr, opcr, spl, priv, ext] := by
              have j := readBits_join _ _ _ _ _ _ _ hr
              have j := readBits_join _ _ _ _ _ _ _ j
              have j := readBits_join _ _ _ _ _ _ _ j
              have j := readBits_join _ _ _ _ _ _ _ j
              have j := readBits_join _ _ _ _ _ _ _ j
              have k := readBits_cat [8 + 1 + 1 + 1 + 13 + 2, 1] [1, 4] _ _ j
              have k2 := readBits_join _ _ _ _ _ _ _ k.2
              have m := readBits_glue _ _ _ _ _ k.1 k2
              have n := readBits_glue _ [8, 1, 1, 1, 1, 1, 1, 1, 1] _ _ _ m (by
                have e : (bitsOf b).drop (8 * 4) = bitsOf (b.drop 4) := bitsOf_drop b 4
                simp only [List.sum_cons, List.sum_nil, List.sum_append]
                exact (congrArg _ e).trans hv)
              exact n
            obtain ⟨rfl, rfl, hfit⟩ := hs _ _ _ _ _ _ _ _ _ _ _ hw (by omega)
            rw [if_neg h0]
            exact getAF_ok _ _ _ _ _ _ _ _ (read_append _ _ rest _ hv) (by omega) hlen183 hfit (by rw [List.length_append]; omega)
      obtain ⟨q, hq⟩ := hAF
      rw [getPacket_header b rest hlen start x pid y 1 pay cc hr, getBody, if_pos rfl, hq]
      simp only [Option.bind_some]
      by_cases hpy : pay = 1
      · rw [if_pos ⟨hpy, hlen183⟩, takeBytes_ok (b.drop (5 + len)) rest (183 - len) (by rw [List.length_drop]; omega)]
        simp only [Option.map_some]
        rw [aligned]
        subst hp
        rw [if_pos hpy]
        exact ⟨_, rfl, rfl, rfl, rfl, rfl, rfl, rfl⟩
      · rw [if_neg (by omega), List.drop_eq_nil_of_le (by omega : b.length ≤ 5 + len), List.nil_append]
        simp only [Option.map_some]
        rw [aligned]
        subst hp
        rw [if_neg hpy]
        exact ⟨_, rfl, rfl, rfl, rfl, rfl, rfl, rfl⟩
    · simp at hp
  · simp at hp

end Verif.Demux
