import Verif.Ts.Model
import Verif.Ts.Spec
import Verif.Fields.Lemmas
namespace Verif.Ts
open Fields Spec

theorem memcpy_length (bytes : List UInt8) (beyond : Nat → UInt8) (off n : Nat) (h : off ≤ bytes.length) :
    (memcpy bytes beyond off n).length = n := by
  simp [memcpy]; omega

theorem memcpy_inside (bytes : List UInt8) (beyond : Nat → UInt8) (off n : Nat) (h : off + n ≤ bytes.length) :
    memcpy bytes beyond off n = (bytes.drop off).take n := by
  rw [memcpy, List.drop_append_of_le_length (by omega), List.take_append_of_le_length (by simp; omega)]

theorem header_read (pusi pid aflag cc : Nat) (rest : List UInt8) :
    read [8, 1, 1, 1, 13, 2, 2, 4] (pack [(8, 0x47), (1, 0), (1, pusi), (1, 0), (13, pid), (2, 0), (1, aflag), (1, 1), (4, cc)] ++ rest) =
      some [0x47, 0, pusi % 2, 0, pid % 8192, 0, (aflag * 2 + 1) % 4, cc % 16] := by
  have h : pack [(8, 0x47), (1, 0), (1, pusi), (1, 0), (13, pid), (2, 0), (1, aflag), (1, 1), (4, cc)] =
      pack [(8, 0x47), (1, 0), (1, pusi), (1, 0), (13, pid), (2, 0), (2, aflag * 2 + 1), (4, cc)] := by
    apply pack_congr
    have := natBits_concat 1 aflag 1 1
    simp only [Nat.pow_one, Nat.reduceMod, Nat.reduceAdd] at this
    simp only [putBits, List.flatMap_cons, List.flatMap_nil, List.append_nil]
    rw [← this]
    simp only [List.append_assoc]
  rw [h]
  have := read_pack [(8, 0x47), (1, 0), (1, pusi), (1, 0), (13, pid), (2, 0), (2, aflag * 2 + 1), (4, cc)] 4 rfl rest
  simpa using this

theorem header_length (pusi pid aflag cc : Nat) :
    (pack [(8, 0x47), (1, 0), (1, pusi), (1, 0), (13, pid), (2, 0), (1, aflag), (1, 1), (4, cc)]).length = 4 :=
  pack_length _ 4 rfl

theorem drop_pre (a b : List UInt8) (n : Nat) (h : a.length = n) : (a ++ b).drop n = b := by
  subst h; simp

theorem parse_plain (pusi pid cc : Nat) (payload : List UInt8) (h : payload.length = 184) :
    parse (packet pusi pid none cc payload) =
      some ⟨pusi % 2 == 1, pid % 8192, cc % 16, false, none, payload⟩ := by
  have hl := header_length pusi pid 0 cc
  have hr := header_read pusi pid 0 cc (payload.take 184)
  simp only [packet, Option.isSome_none, Bool.false_eq_true, if_false]
  rw [parse, if_neg (by simp [hl, h])]
  rw [hr]
  simp only [Nat.zero_mul, Nat.zero_add, Nat.reduceMod]
  rw [drop_pre _ _ 4 hl, List.take_of_length_le (by omega)]

/-- The clock as the receiver sees it. -/
def clockValue (c : Clock) : Nat × Nat := (c.t32_30 % 8 * 2 ^ 30 + c.t29_15 % 2 ^ 15 * 2 ^ 15 + c.t14_0 % 2 ^ 15, c.ext % 512)

theorem clock_read (c : Clock) (rest : List UInt8) :
    read [33, 6, 9] (pack [(3, c.t32_30), (15, c.t29_15), (15, c.t14_0), (6, 0), (9, c.ext)] ++ rest) =
      some [(clockValue c).1, 0, (clockValue c).2] := by
  have h : pack [(3, c.t32_30), (15, c.t29_15), (15, c.t14_0), (6, 0), (9, c.ext)] =
      pack [(33, (clockValue c).1), (6, 0), (9, c.ext)] := by
    apply pack_congr
    have h1 := natBits_concat 15 (c.t32_30 % 2 ^ 3) 3 c.t29_15
    have h2 := natBits_concat 15 (c.t32_30 % 2 ^ 3 * 2 ^ 15 + c.t29_15 % 2 ^ 15) (3 + 15) c.t14_0
    rw [natBits_mod] at h1
    rw [← h1] at h2
    have e : (c.t32_30 % 2 ^ 3 * 2 ^ 15 + c.t29_15 % 2 ^ 15) * 2 ^ 15 + c.t14_0 % 2 ^ 15 = (clockValue c).1 := by
      simp only [clockValue]; omega
    rw [e] at h2
    simp only [putBits, List.flatMap_cons, List.flatMap_nil, List.append_nil]
    rw [show (33 : Nat) = 3 + 15 + 15 from rfl, ← h2]
    simp only [List.append_assoc]
  rw [h]
  have := read_pack [(33, (clockValue c).1), (6, 0), (9, c.ext)] 6 rfl rest
  have e : (clockValue c).1 % 2 ^ 33 = (clockValue c).1 := by
    apply Nat.mod_eq_of_lt
    simp only [clockValue]; omega
  simp only [List.map_cons, List.map_nil, e, Nat.zero_mod] at this
  exact this

theorem parse_af (pusi pid cc : Nat) (af : AF) (payload : List UInt8) (hl : af.len ≤ 183) (hp : payload.length = 183 - af.len)
    (hf : af.pcrFlag = 0 ∨ (af.pcrFlag = 1 ∧ (af.len = 0 ∨ 7 ≤ af.len))) :
    parse (packet pusi pid (some af) cc payload) =
      some ⟨pusi % 2 == 1, pid % 8192, cc % 16, decide (0 < af.len) && (af.ra % 2 == 1),
        if 0 < af.len ∧ af.pcrFlag = 1 then some (clockValue af.pcr) else none, payload⟩ := by
  have hh := header_length pusi pid 1 cc
  have hr := header_read pusi pid 1 cc (af.bytes ++ payload)
  have hpt : payload.take (183 - af.len) = payload := List.take_of_length_le (by omega)
  simp only [packet, Option.isSome_some, if_true, if_pos hl, hpt]
  have hb8 : pack [(8, af.len)] = [UInt8.ofNat af.len] := pack_byte _
  have hlen8 : (UInt8.ofNat af.len).toNat = af.len := by
    simp only [UInt8.toNat_ofNat']; exact Nat.mod_eq_of_lt (by omega)
  by_cases h0 : af.len = 0
  · have hb : af.bytes = [0] := by simp [AF.bytes, h0, pack_byte]
    rw [hb] at hr ⊢
    rw [parse, if_neg (by simp [hh, hp, h0]), hr]
    simp only [Nat.one_mul, Nat.reduceAdd, Nat.reduceMod]
    rw [drop_pre _ _ 4 hh]
    have : read [8] ([0] ++ payload) = some [0] := read_singleton 0 payload
    rw [this]
    simp only [h0]
    have h5 : ∀ h : List UInt8, h.length = 4 → (h ++ ([0] ++ payload)).drop 5 = payload := by
      intro h hh
      rw [show 5 = 4 + 1 from rfl, ← List.drop_drop, drop_pre _ _ 4 hh]; rfl
    rw [h5 _ hh]
    simp
  · have hfl : (pack af.fields).length = af.total := by
      rcases hf with hf | ⟨hf, _⟩
      · simp only [AF.fields, AF.total, hf]; exact pack_length _ 1 rfl
      · simp only [AF.fields, AF.total, hf]; exact pack_length _ 7 rfl
    have htot : af.total ≤ af.len := by
      rcases hf with hf | ⟨hf, h⟩ <;> simp only [AF.total, hf] <;> simp <;> omega
    have hbl : af.bytes.length = 1 + af.len := by
      simp only [AF.bytes, hb8, if_pos (show 0 < af.len ∧ af.len ≤ 183 by omega)]
      split
      · simp [hfl]; omega
      · simp [hfl]; omega
    rw [parse, if_neg (by simp [hh, hbl, hp]; omega), hr]
    simp only [Nat.one_mul, Nat.reduceAdd, Nat.reduceMod]
    rw [drop_pre _ _ 4 hh]
    have hbe : ∃ st : List UInt8, af.bytes = UInt8.ofNat af.len :: (pack af.fields ++ st) := by
      refine ⟨if af.total < af.len then List.replicate (af.len - af.total) 0 else [], ?_⟩
      simp only [AF.bytes, hb8, if_pos (show 0 < af.len ∧ af.len ≤ 183 by omega)]
      rfl
    obtain ⟨st, hst⟩ := hbe
    have h8 : read [8] (af.bytes ++ payload) = some [af.len] := by
      rw [hst, List.cons_append, read_singleton, hlen8]
    rw [h8]
    simp only [if_neg (show ¬ af.len > 183 by omega), if_neg h0]
    have hd5 : ∀ h : List UInt8, h.length = 4 → (h ++ (af.bytes ++ payload)).drop 5 = pack af.fields ++ st ++ payload := by
      intro h hh
      rw [show 5 = 4 + 1 from rfl, ← List.drop_drop, drop_pre _ _ 4 hh, hst]; simp
    have hdp : ∀ h : List UInt8, h.length = 4 → (h ++ (af.bytes ++ payload)).drop (5 + af.len) = payload := by
      intro h hh
      rw [show 5 + af.len = 4 + (1 + af.len) by omega, ← List.drop_drop, drop_pre _ _ 4 hh, drop_pre _ _ _ hbl]
    rw [hd5 _ hh, hdp _ hh]
    have hmerge : ∀ (f : List (Nat × Nat)), pack ([(1, af.disc), (1, af.ra), (1, 0), (1, af.pcrFlag), (1, 0), (1, 0), (1, 0), (1, 0)] ++ f) =
        pack [(1, af.disc), (1, af.ra), (1, 0), (1, af.pcrFlag), (4, 0)] ++ pack f := by
      intro f
      rw [← pack_append _ _ 1 rfl]
      apply pack_congr
      simp only [putBits, List.flatMap_append]
      rfl
    have hfr : ∀ f rest, read [1, 1, 1, 1, 4] (pack ([(1, af.disc), (1, af.ra), (1, 0), (1, af.pcrFlag), (1, 0), (1, 0), (1, 0), (1, 0)] ++ f) ++ rest) =
        some [af.disc % 2, af.ra % 2, 0, af.pcrFlag % 2, 0] := by
      intro f rest
      rw [hmerge, List.append_assoc]
      have := read_pack [(1, af.disc), (1, af.ra), (1, 0), (1, af.pcrFlag), (4, 0)] 1 rfl (pack f ++ rest)
      simpa using this
    rcases hf with hf | ⟨hf, hlen⟩
    · have : af.fields = [(1, af.disc), (1, af.ra), (1, 0), (1, af.pcrFlag), (1, 0), (1, 0), (1, 0), (1, 0)] ++ [] := by
        simp [AF.fields, hf]
      rw [this, List.append_assoc, hfr]
      simp only [hf, Nat.zero_mod]
      simp [show 0 < af.len by omega]
    · have : af.fields = [(1, af.disc), (1, af.ra), (1, 0), (1, af.pcrFlag), (1, 0), (1, 0), (1, 0), (1, 0)] ++
          [(3, af.pcr.t32_30), (15, af.pcr.t29_15), (15, af.pcr.t14_0), (6, 0), (9, af.pcr.ext)] := by
        simp [AF.fields, hf]
      have hd6 : ∀ h : List UInt8, h.length = 4 → (h ++ (af.bytes ++ payload)).drop 6 =
          pack [(3, af.pcr.t32_30), (15, af.pcr.t29_15), (15, af.pcr.t14_0), (6, 0), (9, af.pcr.ext)] ++ (st ++ payload) := by
        intro h hh
        rw [show 6 = 5 + 1 from rfl, ← List.drop_drop, hd5 _ hh, this, hmerge, List.append_assoc, List.append_assoc,
          drop_pre _ _ 1 (pack_length _ 1 rfl)]
      rw [hd6 _ hh, this, List.append_assoc, hfr, clock_read]
      simp only [hf, Nat.reduceMod]
      simp [show 0 < af.len by omega, show ¬ af.len < 7 by omega]

theorem isStream_append {a b : List UInt8} {p q : List Packet} (ha : IsStream a p) (hb : IsStream b q) :
    IsStream (a ++ b) (p ++ q) := by
  obtain ⟨r1, h1, h2⟩ := ha
  obtain ⟨r2, h3, h4⟩ := hb
  exact ⟨r1 ++ r2, by rw [h1, h3, List.flatten_append], by rw [List.map_append, h2, h4, List.map_append]⟩

theorem isStream_one {a : List UInt8} {p : Packet} (h : parse a = some p) : IsStream a [p] :=
  ⟨[a], by simp, by simp [h]⟩

theorem isStream_nil : IsStream [] [] := ⟨[], rfl, rfl⟩

/-- the packets of the full loop -/
def fullPkts (pid : Nat) (bytes : List UInt8) : (n off cc : Nat) → List Packet
  | 0, _, _ => []
  | n + 1, off, cc =>
    ⟨false, pid % 8192, cc % 16, false, none, (bytes.drop off).take 184⟩ :: fullPkts pid bytes n (off + 184) ((cc + 1) % 256)

theorem fullLoop_stream (pid : Nat) (bytes : List UInt8) (beyond : Nat → UInt8) (n : Nat) : ∀ (off cc : Nat),
    off + n * 184 ≤ bytes.length → IsStream (fullLoop pid bytes beyond n off cc) (fullPkts pid bytes n off cc) := by
  induction n with
  | zero => intro off cc _; exact isStream_nil
  | succ n ih =>
    intro off cc h
    have := ih (off + 184) ((cc + 1) % 256) (by omega)
    rw [fullLoop, fullPkts]
    refine isStream_append (p := [_]) (isStream_one ?_) this
    rw [memcpy_inside _ _ _ _ (by omega), parse_plain _ _ _ _ (by simp; omega)]
    rfl

theorem fullPkts_payload (pid : Nat) (bytes : List UInt8) (n : Nat) : ∀ (off cc : Nat), off + n * 184 ≤ bytes.length →
    (fullPkts pid bytes n off cc).flatMap (·.payload) = (bytes.drop off).take (n * 184) := by
  induction n with
  | zero => intro off cc _; simp [fullPkts]
  | succ n ih =>
    intro off cc h
    rw [fullPkts, List.flatMap_cons, ih _ _ (by omega), ← List.drop_drop, show (n + 1) * 184 = 184 + n * 184 by omega,
      List.take_add]

theorem fullPkts_cc (pid : Nat) (bytes : List UInt8) (n : Nat) : ∀ (off cc : Nat),
    (fullPkts pid bytes n off cc).map (·.cc) = (List.range n).map (fun k => (cc + k) % 16) := by
  induction n with
  | zero => intro off cc; rfl
  | succ n ih =>
    intro off cc
    rw [fullPkts, List.map_cons, ih, List.range_succ_eq_map, List.map_cons, List.map_map]
    congr 1
    apply List.map_congr_left
    intro k _
    simp only [Function.comp]
    omega

theorem fullPkts_length (pid : Nat) (bytes : List UInt8) (n : Nat) : ∀ (off cc : Nat),
    (fullPkts pid bytes n off cc).length = n := by
  induction n with
  | zero => intro off cc; rfl
  | succ n ih => intro off cc; rw [fullPkts, List.length_cons, ih]

theorem fullPkts_mem (pid : Nat) (bytes : List UInt8) (n : Nat) : ∀ (off cc : Nat) (p : Packet), p ∈ fullPkts pid bytes n off cc →
    p.pid = pid % 8192 ∧ p.start = false ∧ p.randomAccess = false ∧ p.pcr = none := by
  induction n with
  | zero => intro off cc p h; simp [fullPkts] at h
  | succ n ih =>
    intro off cc p h
    rw [fullPkts, List.mem_cons] at h
    rcases h with rfl | h
    · exact ⟨rfl, rfl, rfl, rfl⟩
    · exact ih _ _ p h

/-- the condition under which the first packet takes what is there -/
def Good (size : Nat) (ra : Bool) (pcr : Option Nat) : Prop := ra = true → size + 1 ≠ firstSize ra pcr

theorem first_facts (size : Nat) (ra : Bool) (pcr : Option Nat) (h : Good size ra pcr) :
    firstBody size ra pcr = min size (firstSize ra pcr) ∧ afLen size ra pcr ≤ 183 ∧
      ((ra || decide (size < firstSize ra pcr)) = true → firstBody size ra pcr = 183 - afLen size ra pcr) ∧
      (ra = true → 0 < afLen size ra pcr) ∧ (ra = true → pcr.isSome = true → 7 ≤ afLen size ra pcr) := by
  simp only [Good] at h
  simp only [firstBody, afLen, firstSize, afLen0] at h ⊢
  cases ra
  · simp
    by_cases h1 : size < 184
    · by_cases h2 : 184 - size = 1
      · simp [h1, h2]; omega
      · simp [h1, h2]; omega
    · simp [h1]; omega
  · cases pcr
    · simp at h ⊢
      by_cases h1 : size < 182
      · simp [h1, show ¬ 182 - size = 1 by omega]; omega
      · simp [h1]; omega
    · simp at h ⊢
      by_cases h1 : size < 176
      · simp [h1, show ¬ 176 - size = 1 by omega]; omega
      · simp [h1]; omega

theorem cc_concat (c n : Nat) (b : Prop) [Decidable b] :
    c % 16 :: ((List.range n).map (fun k => ((c + 1) % 256 + k) % 16) ++ if b then [(c + 1 + n) % 16] else []) =
      (List.range (1 + n + if b then 1 else 0)).map (fun k => (c + k) % 16) := by
  have e : ∀ n, (List.range (1 + n)).map (fun k => (c + k) % 16) =
      c % 16 :: (List.range n).map (fun k => ((c + 1) % 256 + k) % 16) := by
    intro n
    rw [Nat.add_comm, List.range_succ_eq_map, List.map_cons, List.map_map]
    congr 1
    apply List.map_congr_left
    intro k _
    simp only [Function.comp]; omega
  rw [Nat.add_assoc 1 n, e]
  congr 1
  by_cases hp : b
  · rw [if_pos hp, if_pos hp, List.range_succ, List.map_append]
    congr 1
    simp only [List.map_cons, List.map_nil]
    congr 1
    omega
  · rw [if_neg hp, if_neg hp]; simp

/-- the packets of one call -/
theorem outputBytes_stream (cc0 pid : Nat) (bytes : List UInt8) (beyond : Nat → UInt8) (ra : Bool) (pcr : Option Nat) (junk : Clock)
    (h : Good bytes.length ra pcr) :
    ∃ (p : Packet) (ps : List Packet), IsStream (outputBytes cc0 pid bytes beyond ra pcr junk) (p :: ps) ∧
      (p :: ps).flatMap (·.payload) = bytes ∧
      (∀ q ∈ p :: ps, q.pid = pid % 8192) ∧
      p.start = true ∧ p.randomAccess = ra ∧ p.pcr = (if ra then pcr.map (fun t => clockValue (toMpegTime t)) else none) ∧
      (∀ q ∈ ps, q.start = false ∧ q.randomAccess = false ∧ q.pcr = none) ∧
      (p :: ps).length = outputCount bytes.length ra pcr ∧
      (p :: ps).map (·.cc) = (List.range (outputCount bytes.length ra pcr)).map (fun k => (cc0 + k) % 16) := by
  obtain ⟨hb, hl, hpl, hra, hpcr⟩ := first_facts bytes.length ra pcr h
  have hfs : firstSize ra pcr ≤ 184 := by simp only [firstSize]; split <;> (try split) <;> omega
  have hfs1 : 1 ≤ firstSize ra pcr := by simp only [firstSize]; split <;> (try split) <;> omega
  have hbl : firstBody bytes.length ra pcr ≤ bytes.length := by omega
  generalize hfirst : firstSize ra pcr = first at *
  generalize hsz : bytes.length = size at *
  generalize hbody : firstBody size ra pcr = body at *
  generalize hfull : (size - first) / 184 = full at *
  generalize hlast : (size - first) % 184 = last at *
  have htot : body + full * 184 + last = size := by
    have := Nat.div_add_mod (size - first) 184
    rw [hfull, hlast] at this
    omega
  -- first packet
  have h1 : parse (packet 1 pid (if ra || decide (size < first) then some (firstAF size ra pcr junk) else none) cc0
        (memcpy bytes beyond 0 body)) =
      some ⟨true, pid % 8192, cc0 % 16, ra, (if ra then pcr.map (fun t => clockValue (toMpegTime t)) else none), bytes.take body⟩ := by
    rw [memcpy_inside _ _ _ _ (by omega), List.drop_zero]
    by_cases hc : (ra || decide (size < first)) = true
    · rw [if_pos hc]
      have hbd := hpl hc
      rw [parse_af]
      · simp only [firstAF]
        cases ra
        · simp
        · have h2 := hra rfl
          cases pcr <;> simp [h2]
      · exact hl
      · simp only [List.length_take, firstAF]; omega
      · simp only [firstAF]
        cases ra
        · simp
        · cases pcr
          · simp
          · have := hpcr rfl rfl
            simp; omega
    · rw [if_neg hc]
      have hr : ra = false := by cases ra <;> simp_all
      have h3 : ¬ size < first := by intro h; apply hc; simp [h]
      subst hr
      have h4 : body = 184 := by
        rw [← hbody]; simp only [firstBody, hfirst, h3]; simp
      rw [parse_plain _ _ _ _ (by simp; omega)]
      simp
  -- last packet
  have h3 : ∃ ls : List Packet, IsStream (if last > 0 then
      packet 0 pid (some { firstAF size ra pcr junk with len := 183 - last, ra := 0, pcrFlag := 0 }) ((cc0 + 1 + full) % 256)
        (memcpy bytes beyond (body + full * 184) last) else []) ls ∧ ls.flatMap (·.payload) = (bytes.drop (body + full * 184)) ∧
      (∀ q ∈ ls, q.pid = pid % 8192 ∧ q.start = false ∧ q.randomAccess = false ∧ q.pcr = none) ∧
      ls.map (·.cc) = if last > 0 then [(cc0 + 1 + full) % 16] else [] := by
    by_cases hp : last > 0
    · have hlt : last < 184 := by rw [← hlast]; exact Nat.mod_lt _ (by omega)
      rw [if_pos hp, if_pos hp]
      refine ⟨_, isStream_one (parse_af _ _ _ _ _ ?_ ?_ ?_), ?_, ?_, ?_⟩
      · simp
      · rw [memcpy_length _ _ _ _ (by omega)]; simp; omega
      · simp
      · rw [memcpy_inside _ _ _ _ (by omega)]
        simp
        rw [List.take_of_length_le (by simp; omega)]
      · intro q hq
        simp at hq
        subst hq
        simp
      · simp
    · rw [if_neg hp, if_neg hp]
      refine ⟨[], isStream_nil, ?_, by simp, rfl⟩
      rw [List.drop_eq_nil_of_le (by omega)]; rfl
  obtain ⟨ls, hs, hlp, hlm, hlc⟩ := h3
  have h2 := fullLoop_stream pid bytes beyond full body ((cc0 + 1) % 256) (by omega)
  have hcount : outputCount size ra pcr = 1 + full + if last > 0 then 1 else 0 := by
    simp only [outputCount, hfirst, hfull, hlast]
  have hcc : (⟨true, pid % 8192, cc0 % 16, ra, (if ra then pcr.map (fun t => clockValue (toMpegTime t)) else none),
      bytes.take body⟩ :: (fullPkts pid bytes full body ((cc0 + 1) % 256) ++ ls)).map Packet.cc =
      (List.range (outputCount size ra pcr)).map (fun k => (cc0 + k) % 16) := by
    rw [List.map_cons, List.map_append, fullPkts_cc, hlc, hcount]
    exact cc_concat cc0 full (last > 0)
  refine ⟨_, fullPkts pid bytes full body ((cc0 + 1) % 256) ++ ls, ?_, ?_, ?_, rfl, rfl, rfl, ?_, ?_, hcc⟩
  · have := isStream_append (isStream_append (isStream_one h1) h2) hs
    simp only [outputBytes, hsz, hfirst, hbody, hfull, hlast]
    simpa using this
  · rw [List.flatMap_cons, List.flatMap_append, fullPkts_payload _ _ _ _ _ (by omega), hlp, ← List.drop_drop,
      List.take_append_drop, List.take_append_drop]
  · intro q hq
    rw [List.mem_cons, List.mem_append] at hq
    rcases hq with rfl | hq | hq
    · rfl
    · exact (fullPkts_mem _ _ _ _ _ _ hq).1
    · exact (hlm q hq).1
  · intro q hq
    rw [List.mem_append] at hq
    rcases hq with hq | hq
    · exact (fullPkts_mem _ _ _ _ _ _ hq).2
    · exact (hlm q hq).2
  · have := congrArg List.length hcc
    simpa using this

end Verif.Ts
