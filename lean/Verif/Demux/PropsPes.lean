import Verif.Demux.PropsPacket
import Verif.Demux.PesSpec
/-
C100: the header of a PES packet is read as the standard says.
-/
namespace Verif.Demux
open Fields Spec

/-- A time stamp of the program, `convert33` (ts.h) applied to it. -/
def stampOf (t : Nat × Nat × Nat) : Nat := t.1 * 2 ^ 30 + t.2.1 * 2 ^ 15 + t.2.2

theorem getStamp_ok (flag : Nat) (old : Nat × Nat × Nat) (b : List UInt8) (hf : flag < 2) (hb : 5 * flag ≤ b.length) :
    ∃ st, getStamp flag old (bitsOf b) = some (st, bitsOf (b.drop (5 * flag))) ∧ (flag = 1 → stamp b = some (stampOf st)) ∧ (flag = 0 → st = old) := by
  rcases (show flag = 0 ∨ flag = 1 by omega) with rfl | rfl
  · exact ⟨old, rfl, by omega, fun _ => rfl⟩
  · obtain ⟨vs, hv, hvl⟩ := readBits_some [4, 3, 1, 15, 1, 15, 1] (bitsOf b) (by rw [bitsOf_length]; simp; omega)
    match vs, hvl with
    | [x0, a, x2, m, x4, l, x6], _ =>
      refine ⟨(a, m, l), ?_, ?_, by omega⟩
      · rw [getStamp, if_pos rfl, takeBits_of _ _ _ hv]
        simp only [List.sum_cons, List.sum_nil]
        rw [show 4 + (3 + (1 + (15 + (1 + (15 + (1 + 0)))))) = 8 * 5 from rfl, bitsOf_drop]
      · intro _
        rw [stamp, show Fields.read [4, 3, 1, 15, 1, 15, 1] b = _ from hv]
        rfl

theorem flag_skip (f n w : Nat) (b : List UInt8) (hw : w = 8 * n) (hf : f < 2) (hb : n * f ≤ b.length) :
    skipIf (f == 1) w (bitsOf b) = some (bitsOf (b.drop (n * f))) := by
  subst hw
  rw [skipIf_bytes _ _ _ (by intro h; simp at h; subst h; omega)]
  rcases (show f = 0 ∨ f = 1 by omega) with rfl | rfl <;> simp

theorem byte_read (b : List UInt8) (h : 1 ≤ b.length) (u w : Nat) (huw : u + w = 8) :
    readBits [u, w] (bitsOf b) = some [byteAt b 0 / 2 ^ w, byteAt b 0 % 2 ^ w] := by
  match b, h with
  | x :: l, _ =>
    have h8 : readBits [8] (bitsOf (x :: l)) = some [x.toNat] := by
      exact read_singleton x l
    rw [← huw] at h8
    exact readBits_split u w [] _ _ _ h8

theorem getTrick_ok (f : Nat) (b : List UInt8) (hf : f < 2) (hb : f ≤ b.length) (ht : f = 1 → byteAt b 0 < 128) :
    getTrick f (bitsOf b) = some (bitsOf (b.drop f)) := by
  rcases (show f = 0 ∨ f = 1 by omega) with rfl | rfl
  · rfl
  · rw [getTrick, if_pos rfl]
    have h := readBits_cat [3] [5] _ _ (byte_read b hb 3 5 rfl)
    rw [takeBits_of _ _ _ h.1]
    simp only [List.length_cons, List.length_nil, List.take_succ_cons, List.take_zero, List.sum_cons, List.sum_nil]
    have : byteAt b 0 / 2 ^ 5 ≤ 3 := by have := ht rfl; omega
    rw [skipIf, if_pos (decide_eq_true this), if_pos (by rw [List.length_drop, bitsOf_length]; omega), List.drop_drop,
      ← bitsOf_drop]
    rfl

theorem byteAt_drop (b : List UInt8) (k : Nat) : byteAt (b.drop k) 0 = byteAt b k := by simp [byteAt]

theorem getCounted_ok (f w : Nat) (b : List UInt8) (hw : w ≤ 8) (hf : f < 2) (hb : f ≤ b.length) :
    getCounted f w (bitsOf b) = some (8 * (f * (1 + byteAt b 0 % 2 ^ w)), bitsOf (b.drop (f * (1 + byteAt b 0 % 2 ^ w)))) := by
  rcases (show f = 0 ∨ f = 1 by omega) with rfl | rfl
  · rw [getCounted, if_neg (by decide)]; simp
  · rw [getCounted, if_pos rfl, takeBits_of _ _ _ (byte_read b hb (8 - w) w (by omega))]
    simp only [List.sum_cons, List.sum_nil, List.drop_drop]
    rw [show 8 - w + (w + 0) + byteAt b 0 % 2 ^ w * 8 = 8 * (1 * (1 + byteAt b 0 % 2 ^ w)) by omega, bitsOf_drop,
      show 8 + byteAt b 0 % 2 ^ w * 8 = 8 * (1 * (1 + byteAt b 0 % 2 ^ w)) by omega]

theorem byteAt_lt (b : List UInt8) (i : Nat) : byteAt b i < 256 := by
  rw [byteAt]
  cases b[i]? with
  | none => decide
  | some x => exact x.toNat_lt

theorem getPesExt_ok (f : Nat) (b : List UInt8) (hf : f < 2) (hb : f * extensionLength b ≤ b.length) (hb1 : f ≤ b.length) :
    getPesExt f (bitsOf b) = some (8 * (f * extensionLength b), bitsOf (b.drop (f * extensionLength b))) := by
  rcases (show f = 0 ∨ f = 1 by omega) with rfl | rfl
  · rw [getPesExt, if_neg (by decide)]; simp
  · obtain ⟨vs, hv, hvl⟩ := readBits_some [1, 1, 1, 1, 3, 1] (bitsOf b) (by rw [bitsOf_length]; simp; omega)
    match vs, hvl with
    | [priv, pack, seq, pstd, x, ext], _ =>
      have hbd := (readBits_bound _ _ _ hv).2
      have b0 : priv < 2 := by obtain ⟨w, hw, hv⟩ := hbd 0 priv rfl; simp at hw; subst hw; exact hv
      have b1 : pack < 2 := by obtain ⟨w, hw, hv⟩ := hbd 1 pack rfl; simp at hw; subst hw; exact hv
      have b2 : seq < 2 := by obtain ⟨w, hw, hv⟩ := hbd 2 seq rfl; simp at hw; subst hw; exact hv
      have b3 : pstd < 2 := by obtain ⟨w, hw, hv⟩ := hbd 3 pstd rfl; simp at hw; subst hw; exact hv
      have b5 : ext < 2 := by obtain ⟨w, hw, hv⟩ := hbd 5 ext rfl; simp at hw; subst hw; exact hv
      have hE : extensionLength b = 1 + 16 * priv + pack * (1 + byteAt b (1 + 16 * priv)) + 2 * seq + 2 * pstd +
          ext * (1 + byteAt b (1 + 16 * priv + pack * (1 + byteAt b (1 + 16 * priv)) + 2 * seq + 2 * pstd) % 128) := by
        rw [extensionLength, show Fields.read [1, 1, 1, 1, 3, 1] b = _ from hv]
      rw [Nat.one_mul] at hb ⊢
      rw [hE] at hb ⊢
      generalize hP : pack * (1 + byteAt b (1 + 16 * priv)) = P at *
      have hP1 : pack ≤ P := by rw [← hP, Nat.mul_add]; omega
      generalize hQ : ext * (1 + byteAt b (1 + 16 * priv + P + 2 * seq + 2 * pstd) % 128) = Q at *
      have hQ1 : ext ≤ Q := by rw [← hQ, Nat.mul_add]; omega
      rw [getPesExt, if_pos rfl, takeBits_of _ _ _ hv]
      simp only [List.sum_cons, List.sum_nil]
      rw [show 1 + (1 + (1 + (1 + (3 + (1 + 0))))) = 8 * 1 from rfl, bitsOf_drop,
        flag_skip priv 16 128 _ rfl b0 (by rw [List.length_drop]; omega)]
      simp only [Option.bind_some, List.drop_drop]
      rw [getCounted_ok pack 8 _ (by omega) b1 (by rw [List.length_drop]; omega), byteAt_drop, Nat.mod_eq_of_lt (byteAt_lt _ _), hP]
      simp only [Option.bind_some, List.drop_drop]
      rw [flag_skip seq 2 16 _ rfl b2 (by rw [List.length_drop]; omega)]
      simp only [Option.bind_some, List.drop_drop]
      rw [flag_skip pstd 2 16 _ rfl b3 (by rw [List.length_drop]; omega)]
      simp only [Option.bind_some, List.drop_drop]
      rw [getCounted_ok ext 7 _ (by omega) b5 (by rw [List.length_drop]; omega), byteAt_drop, show 2 ^ 7 = 128 from rfl, hQ]
      simp only [Option.bind_some, List.drop_drop, Option.some.injEq, Prod.mk.injEq, and_true]
      rcases (show priv = 0 ∨ priv = 1 by omega) with rfl | rfl <;> rcases (show seq = 0 ∨ seq = 1 by omega) with rfl | rfl <;>
        rcases (show pstd = 0 ∨ pstd = 1 by omega) with rfl | rfl <;> simp <;> omega

/-- The header read agrees with the packet. -/
def HdrAgrees (h : Hdr) (p : Pes.Spec.Packet) : Prop :=
  h.streamId = p.streamId ∧ h.length = p.length ∧ (if h.ptsFlag = 1 then some (stampOf h.pts) else none) = p.pts ∧
    (if h.dtsFlag = 1 then some (stampOf h.dts) else none) = p.dts

/-- C100: whatever was read before, a PES packet is read with its stream id, length and time stamps, and the reader stands at the first byte of its
payload: for all combinations of the optional header fields except those with a CRC or a reserved trick mode. -/
theorem pes_header_read_partial (old : Hdr) (b : List UInt8) (p : Pes.Spec.Packet) (hp : pes b = some p) (hs : SimplePes b) :
    ∃ h, pesGet old (bitsOf b) = some (h, bitsOf p.payload) ∧ HdrAgrees h p := by
  rw [pes] at hp
  split at hp
  · next code sid len two x2 x3 x4 x5 x6 pf df escr rate trick copy crc ext n hr =>
    split at hp
    · simp at hp
    next hc =>
    simp only [not_or, Nat.not_lt] at hc
    obtain ⟨_, _, hsid, hlen, hfit, hpd⟩ := hc
    simp only [Option.some.injEq] at hp
    obtain ⟨rfl, htrick, hsum⟩ := hs _ _ _ _ _ _ _ _ _ _ _ _ _ _ _ _ _ _ hr
    have hbd := (readBits_bound _ _ _ hr).2
    have bp : pf < 2 := by obtain ⟨w, hw, hv⟩ := hbd 9 pf rfl; simp [pesWidths] at hw; subst hw; exact hv
    have bd : df < 2 := by obtain ⟨w, hw, hv⟩ := hbd 10 df rfl; simp [pesWidths] at hw; subst hw; exact hv
    have be : escr < 2 := by obtain ⟨w, hw, hv⟩ := hbd 11 escr rfl; simp [pesWidths] at hw; subst hw; exact hv
    have br : rate < 2 := by obtain ⟨w, hw, hv⟩ := hbd 12 rate rfl; simp [pesWidths] at hw; subst hw; exact hv
    have bt : trick < 2 := by obtain ⟨w, hw, hv⟩ := hbd 13 trick rfl; simp [pesWidths] at hw; subst hw; exact hv
    have bc : copy < 2 := by obtain ⟨w, hw, hv⟩ := hbd 14 copy rfl; simp [pesWidths] at hw; subst hw; exact hv
    have bx : ext < 2 := by obtain ⟨w, hw, hv⟩ := hbd 16 ext rfl; simp [pesWidths] at hw; subst hw; exact hv
    have bn : n < 256 := by obtain ⟨w, hw, hv⟩ := hbd 17 n rfl; simp [pesWidths] at hw; subst hw; exact hv
    have hcat := readBits_cat [24, 8, 16] [2, 2, 1, 1, 1, 1, 1, 1, 1, 1, 1, 1, 1, 1, 8] _ _ hr
    have t1 := takeBits_of _ _ _ hcat.1
    have t2 := takeBits_of _ _ _ hcat.2
    simp only [List.length_cons, List.length_nil, List.take_succ_cons, List.take_zero, List.drop_succ_cons, List.drop_zero, List.sum_cons,
      List.sum_nil, List.drop_drop] at t1 t2
    have hn1 : sid ≠ 0xBF ∧ sid ≠ 0xBE := by
      constructor <;> (intro e; subst e; exact hsid (by decide))
    rw [pesGet, t1]
    simp only []
    rw [if_pos hn1, t2]
    simp only []
    have e9 : (bitsOf b).drop (24 + (8 + (16 + 0)) + (2 + (2 + (1 + (1 + (1 + (1 + (1 + (1 + (1 + (1 + (1 + (1 + (1 + (1 + (8 + 0)))))))))))))))) =
        bitsOf (b.drop 9) := bitsOf_drop b 9
    rw [e9]
    obtain ⟨pts, hp1, hp2, hp3⟩ := getStamp_ok pf old.pts (b.drop 9) bp (by rw [List.length_drop]; omega)
    obtain ⟨dts, hd1, hd2, hd3⟩ := getStamp_ok df old.dts ((b.drop 9).drop (5 * pf)) bd (by rw [List.length_drop, List.length_drop]; omega)
    rw [getPesFields, hp1]
    simp only [Option.bind_some]
    rw [hd1]
    simp only [Option.bind_some, List.drop_drop]
    rw [flag_skip escr 6 48 _ rfl be (by rw [List.length_drop]; omega)]
    simp only [Option.bind_some, List.drop_drop]
    rw [flag_skip rate 3 24 _ rfl br (by rw [List.length_drop]; omega)]
    simp only [Option.bind_some, List.drop_drop]
    rw [getTrick_ok trick _ bt (by rw [List.length_drop]; omega) (by rw [byteAt_drop]; exact htrick)]
    simp only [Option.bind_some, List.drop_drop]
    rw [flag_skip copy 1 8 _ rfl bc (by rw [List.length_drop]; omega)]
    simp only [Option.bind_some, List.drop_drop, Nat.one_mul]
    rw [show skipIf (0 == 1) 16 (bitsOf (b.drop (9 + 5 * pf + 5 * df + 6 * escr + 3 * rate + trick + copy))) =
      some (bitsOf (b.drop (9 + 5 * pf + 5 * df + 6 * escr + 3 * rate + trick + copy))) from rfl]
    simp only [Option.bind_some]
    generalize hE : ext * extensionLength (b.drop (9 + 5 * pf + 5 * df + 6 * escr + 3 * rate + trick + copy)) = E at *
    have hE1 : ext ≤ E := by
      rcases (show ext = 0 ∨ ext = 1 by omega) with rfl | rfl
      · omega
      · rw [← hE, Nat.one_mul]
        rw [extensionLength]
        split
        · simp only; omega
        · omega
    rw [getPesExt_ok ext _ bx (by rw [hE, List.length_drop]; omega) (by rw [List.length_drop]; omega), hE, Option.bind_some, List.drop_drop]
    generalize hst : stuffingBits n _ = st
    have hsize : ((if pf = 1 then 40 else 0) + (if df = 1 then 40 else 0) + (if escr = 1 then 48 else 0) + (if rate = 1 then 24 else 0) +
        (if trick = 1 then 8 else 0) + (if copy = 1 then 8 else 0) + (if (0 : Nat) = 1 then 8 else 0) + 8 * E) =
        8 * (5 * pf + 5 * df + 6 * escr + 3 * rate + trick + copy + E) := by
      have i : ∀ f m : Nat, f < 2 → (if f = 1 then m else 0) = m * f := by
        intro f m hf
        rcases (show f = 0 ∨ f = 1 by omega) with rfl | rfl <;> simp
      rw [i _ _ bp, i _ _ bd, i _ _ be, i _ _ br, i _ _ bt, i _ _ bc, if_neg (by decide)]
      omega
    have hmod : stuffingBits n (8 * (5 * pf + 5 * df + 6 * escr + 3 * rate + trick + copy + E)) =
        8 * (n - (5 * pf + 5 * df + 6 * escr + 3 * rate + trick + copy + E)) := by rw [stuffingBits]; omega
    have hst' : st = 8 * (n - (5 * pf + 5 * df + 6 * escr + 3 * rate + trick + copy + E)) := by
      rw [← hmod, ← hsize]; exact hst.symm
    subst hst'
    have hfin := skipIf_bytes true (n - (5 * pf + 5 * df + 6 * escr + 3 * rate + trick + copy + E))
      (b.drop (9 + 5 * pf + 5 * df + 6 * escr + 3 * rate + trick + copy + E)) (by intro _; rw [List.length_drop]; omega)
    rw [hfin]
    simp only [Option.map_some, if_true, List.drop_drop]
    rw [show 9 + 5 * pf + 5 * df + 6 * escr + 3 * rate + trick + copy + E + (n - (5 * pf + 5 * df + 6 * escr + 3 * rate + trick + copy + E)) = 9 + n by omega]
    subst hp
    refine ⟨_, rfl, rfl, rfl, ?_, ?_⟩
    · simp only
      split
      · next h => rw [hp2 h]
      · rfl
    · simp only
      split
      · next h =>
        have h5 : pf = 1 := by omega
        rw [← hd2 h, h5, List.drop_drop]
      · rfl
  · simp at hp

/-- A video packet with PTS, DTS, clock reference, rate, slow motion, copy info, an extension with sequence counter and two bytes of stuffing. -/
def demoPes : List UInt8 :=
  [0, 0, 1, 0xE0, 0, 37, 0x80, 0xFD, 27, 0x31, 0, 1, 0, 3, 0x11, 0, 1, 0, 1, 0xC4, 0, 4, 0, 4, 1, 0x80, 0, 1, 0x21, 0x80, 0x2E, 0x81, 0x82, 0xFF, 0xFF, 0xFF] ++
    [1, 2, 3, 4, 5, 6, 7]

theorem demo_pes : pes demoPes = some ⟨0xE0, 37, some 1, some 0, [1, 2, 3, 4, 5, 6, 7]⟩ := by decide +kernel

theorem demo_pes_simple : SimplePes demoPes := by
  intro c sid len x1 x2 x3 x4 x5 x6 p d escr rate trick copy crc ext n hr
  have : Fields.read pesWidths demoPes = some [1, 224, 37, 2, 0, 0, 0, 0, 0, 1, 1, 1, 1, 1, 1, 0, 1, 27] := by decide +kernel
  rw [this] at hr
  simp only [Option.some.injEq, List.cons.injEq, and_true] at hr
  obtain ⟨_, _, _, _, _, _, _, _, _, rfl, rfl, rfl, rfl, rfl, rfl, rfl, rfl, rfl⟩ := hr
  decide +kernel

example (old : Hdr) : ∃ h, pesGet old (bitsOf demoPes) = some (h, bitsOf [1, 2, 3, 4, 5, 6, 7]) ∧ HdrAgrees h ⟨0xE0, 37, some 1, some 0, [1, 2, 3, 4, 5, 6, 7]⟩ :=
  pes_header_read_partial old demoPes _ demo_pes demo_pes_simple

/-- A packet with PTS and the CRC of the packet before. -/
def crcPes : List UInt8 := [0, 0, 1, 0xE0, 0, 17, 0x80, 0x82, 7, 0x21, 0, 1, 0, 3, 0xAB, 0xCD] ++ [1, 2, 3, 4, 5, 6, 7]

/-- A packet with a reserved trick mode. -/
def trickPes : List UInt8 := [0, 0, 1, 0xE0, 0, 17, 0x80, 0x08, 1, 0x80] ++ [1, 2, 3, 4, 5, 6, 7]

def hdr0 : Hdr := ⟨0, 0, 0, 0, 0, (0, 0, 0), (0, 0, 0)⟩

/-- C100 fails for packets with a CRC: the first byte of the payload is taken for stuffing. With a reserved trick mode the reader stops inside the header. -/
theorem pes_header_witness :
    (pes crcPes).map (·.payload) = some [1, 2, 3, 4, 5, 6, 7] ∧
    (pesGet hdr0 (bitsOf crcPes)).map (fun x => bytesOfBits x.2) = some [2, 3, 4, 5, 6, 7] ∧
    (pes trickPes).map (·.payload) = some [1, 2, 3, 4, 5, 6, 7] ∧
    (pesGet hdr0 (bitsOf trickPes)).map (fun x => x.2.length) = some (8 * 7 + 5) := by
  refine ⟨by decide +kernel, by decide +kernel, by decide +kernel, by decide +kernel⟩

end Verif.Demux
