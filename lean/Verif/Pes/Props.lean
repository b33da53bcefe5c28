import Verif.Pes.Model
import Verif.Pes.Spec
import Verif.Ts.Props
/-!
Properties C18 (time stamps) and C19 (PES length).
-/
namespace Verif.Pes
open Fields Ts
open Verif.Pes.Spec

theorem stamp_read (pre : Nat) (c : Clock) (rest : List UInt8) (h : pre < 16) :
    stamp pre (pack (stampFields pre c) ++ rest) = some (clockValue c).1 := by
  have := read_pack (stampFields pre c) 5 rfl rest
  simp only [stampFields, List.map_cons, List.map_nil] at this
  rw [show pre % 2 ^ 4 = pre from Nat.mod_eq_of_lt (by omega)] at this
  rw [stamp, stampFields, this]
  simp only [Nat.reducePow, Nat.reduceMod, if_true]
  rfl

/-- fixed part of the header -/
def headFields (sid len f1 f2 hdr : Nat) : List (Nat × Nat) :=
  [(24, 1), (8, sid), (16, len), (2, 2), (2, 0), (1, 0), (1, 0), (1, 0), (1, 0),
      (1, f1), (1, f2), (1, 0), (1, 0), (1, 0), (1, 0), (1, 0), (1, 0), (8, hdr)]

theorem head_read (sid len f1 f2 hdr : Nat) (rest : List UInt8) :
    read [24, 8, 16, 2, 2, 1, 1, 1, 1, 2, 6, 8] (pack (headFields sid len f1 f2 hdr) ++ rest) =
      some [1, sid % 256, len % 65536, 2, 0, 0, 0, 0, 0, (f1 * 2 + f2 % 2) % 4, 0, hdr % 256] := by
  have h : pack (headFields sid len f1 f2 hdr) =
      pack [(24, 1), (8, sid), (16, len), (2, 2), (2, 0), (1, 0), (1, 0), (1, 0), (1, 0), (2, f1 * 2 + f2 % 2), (6, 0), (8, hdr)] := by
    apply pack_congr
    have h1 := natBits_concat 1 f1 1 f2
    simp only [Nat.pow_one, Nat.reduceAdd] at h1
    have h2 : natBits 0 6 = natBits 0 1 ++ (natBits 0 1 ++ (natBits 0 1 ++ (natBits 0 1 ++ (natBits 0 1 ++ natBits 0 1)))) := by decide
    simp only [headFields, putBits, List.flatMap_cons, List.flatMap_nil, List.append_nil]
    rw [← h1, h2]
    simp only [List.append_assoc]
  rw [h]
  have := read_pack [(24, 1), (8, sid), (16, len), (2, 2), (2, 0), (1, 0), (1, 0), (1, 0), (1, 0), (2, f1 * 2 + f2 % 2), (6, 0), (8, hdr)] 9 rfl rest
  simp only [List.map_cons, List.map_nil, Nat.reducePow, Nat.reduceMod] at this
  exact this

theorem head_length (sid len f1 f2 hdr : Nat) : (pack (headFields sid len f1 f2 hdr)).length = 9 := by
  have h : width (headFields sid len f1 f2 hdr) = 8 * 9 := by simp [width, headFields]
  exact pack_length _ 9 h

theorem header_eq1 (sid pts n : Nat) : writePesHeader sid (some pts) none none n =
    pack (headFields sid (closePes (setPtsDts (initPes sid) (some pts) none none) n).packetLength 1 0 5) ++
      pack (stampFields 2 (toMpegTime pts)) := by
  rw [writePesHeader, putPes]
  generalize hpl : (closePes (setPtsDts (initPes sid) (some pts) none none) n).packetLength = pl
  rw [← pack_append (headFields sid pl 1 0 5) _ 9 rfl]
  simp [closePes, setPtsDts, initPes, flag, headFields]

theorem header_eq2 (sid pts d n : Nat) : writePesHeader sid (some pts) (some d) none n =
    pack (headFields sid (closePes (setPtsDts (initPes sid) (some pts) (some d) none) n).packetLength 1 1 10) ++
      (pack (stampFields 3 (toMpegTime pts)) ++ pack (stampFields 1 (toMpegTime d))) := by
  rw [writePesHeader, putPes]
  generalize hpl : (closePes (setPtsDts (initPes sid) (some pts) (some d) none) n).packetLength = pl
  rw [← pack_append (stampFields 3 (toMpegTime pts)) _ 5 rfl, ← pack_append (headFields sid pl 1 1 10) _ 9 rfl]
  simp [closePes, setPtsDts, initPes, flag, headFields]

/-- C19 (length), C18 (time stamps) in one: what a receiver reads from the header the program writes and the body behind it.
`90 kHz` stamps are the times at millisecond resolution, modulo 2^33. -/
theorem pes_read (sid : Nat) (pts : Nat) (dts : Option Nat) (body : List UInt8) (hs : sid < 256) (hp : pts < 2 ^ 62)
    (hd : ∀ t, dts = some t → t < 2 ^ 62) :
    parse (writePesHeader sid (some pts) dts none body.length ++ body) =
      some ⟨sid, (closePes (setPtsDts (initPes sid) (some pts) dts none) body.length).packetLength % 65536,
        some (Ts.Spec.clock90 pts), dts.map Ts.Spec.clock90, body⟩ := by
  generalize hpl : (closePes (setPtsDts (initPes sid) (some pts) dts none) body.length).packetLength = pl
  cases dts with
  | none =>
    have e := header_eq1 sid pts body.length
    rw [hpl] at e
    have h5 : (pack (stampFields 2 (toMpegTime pts))).length = 5 := pack_length _ 5 rfl
    rw [e, parse, List.append_assoc, head_read]
    simp only [Nat.reduceMod, Nat.reduceMul, Nat.reduceAdd]
    rw [if_neg (by simp [head_length, h5]; omega), if_neg (by omega), drop_pre _ _ 9 (head_length ..), stamp_read _ _ _ (by omega),
      clock_value pts hp]
    rw [← List.append_assoc, drop_pre _ _ 14 (by simp [head_length, h5]), Nat.mod_eq_of_lt hs]
    rfl
  | some d =>
    have e := header_eq2 sid pts d body.length
    rw [hpl] at e
    have h5 : (pack (stampFields 3 (toMpegTime pts))).length = 5 := pack_length _ 5 rfl
    have h5' : (pack (stampFields 1 (toMpegTime d))).length = 5 := pack_length _ 5 rfl
    have d14 : (pack (headFields sid pl 1 1 10) ++ (pack (stampFields 3 (toMpegTime pts)) ++ pack (stampFields 1 (toMpegTime d))) ++ body).drop 14 =
        pack (stampFields 1 (toMpegTime d)) ++ body := by
      rw [show pack (headFields sid pl 1 1 10) ++ (pack (stampFields 3 (toMpegTime pts)) ++ pack (stampFields 1 (toMpegTime d))) ++ body =
        (pack (headFields sid pl 1 1 10) ++ pack (stampFields 3 (toMpegTime pts))) ++ (pack (stampFields 1 (toMpegTime d)) ++ body) by
          simp only [List.append_assoc]]
      exact drop_pre _ _ 14 (by simp [head_length, h5])
    have d9 : (pack (headFields sid pl 1 1 10) ++ (pack (stampFields 3 (toMpegTime pts)) ++ pack (stampFields 1 (toMpegTime d))) ++ body).drop 9 =
        pack (stampFields 3 (toMpegTime pts)) ++ (pack (stampFields 1 (toMpegTime d)) ++ body) := by
      simp only [List.append_assoc]; exact drop_pre _ _ 9 (head_length ..)
    have d19 : (pack (headFields sid pl 1 1 10) ++ (pack (stampFields 3 (toMpegTime pts)) ++ pack (stampFields 1 (toMpegTime d))) ++ body).drop 19 = body :=
      drop_pre _ _ 19 (by simp [head_length, h5, h5'])
    have hr := head_read sid pl 1 1 10 (pack (stampFields 3 (toMpegTime pts)) ++ pack (stampFields 1 (toMpegTime d)) ++ body)
    rw [← List.append_assoc] at hr
    rw [e, parse, hr]
    simp only [Nat.reduceMod, Nat.reduceMul, Nat.reduceAdd]
    rw [if_neg (by simp [head_length, h5, h5']; omega), if_neg (by omega), d9, d14, d19, stamp_read _ _ _ (by omega), stamp_read _ _ _ (by omega),
      clock_value pts hp, clock_value d (hd d rfl), Nat.mod_eq_of_lt hs]
    rfl

theorem header_length (sid pts : Nat) (dts : Option Nat) (n : Nat) :
    (writePesHeader sid (some pts) dts none n).length = 14 + (if dts.isSome then 5 else 0) := by
  have h5 : ∀ pre c, (pack (stampFields pre c)).length = 5 := fun pre c => pack_length _ 5 rfl
  cases dts with
  | none => rw [header_eq1, List.length_append, head_length, h5]; rfl
  | some d => rw [header_eq2, List.length_append, List.length_append, head_length, h5, h5]; rfl

/-- C18: presentation and decoding times come back from the header as 90 kHz times modulo 2^33, together with the stream id and the
whole body. -/
theorem stamps_survive (sid pts : Nat) (dts : Option Nat) (body : List UInt8) (hs : sid < 256) (hp : pts < 2 ^ 62)
    (hd : ∀ t, dts = some t → t < 2 ^ 62) :
    ∃ p, parse (writePesHeader sid (some pts) dts none body.length ++ body) = some p ∧ p.streamId = sid ∧
      p.pts = some (pts / 10000 * 90 % 2 ^ 33) ∧ p.dts = dts.map (fun t => t / 10000 * 90 % 2 ^ 33) ∧ p.payload = body :=
  ⟨_, pes_read sid pts dts body hs hp hd, rfl, rfl, rfl, rfl⟩

/-- C19 for every body outside the 13 (or 8) sizes just below 65535. -/
theorem pes_length_right_partial (sid pts : Nat) (dts : Option Nat) (body : List UInt8) (hs : sid < 256) (hp : pts < 2 ^ 62)
    (hd : ∀ t, dts = some t → t < 2 ^ 62)
    (h : body.length ≤ 65535 - (if dts.isSome then 13 else 8) ∨ 65535 ≤ body.length) :
    ∃ p, parse (writePesHeader sid (some pts) dts none body.length ++ body) = some p ∧
      lengthRight (writePesHeader sid (some pts) dts none body.length ++ body) p := by
  refine ⟨_, pes_read sid pts dts body hs hp hd, ?_⟩
  simp only [lengthRight, closePes, List.length_append, header_length]
  cases dts <;> simp only [setPtsDts, initPes, Option.isSome_none, Option.isSome_some, if_true, Bool.false_eq_true, if_false] at h ⊢ <;>
    split <;> omega

/-- C19 fails in between: 65530 bytes of body with both time stamps give a header that announces 7 bytes. -/
theorem pes_length_witness (sid : Nat) (hs : sid < 256) (body : List UInt8) (hb : body.length = 65530) (d : Nat) (hd : d < 2 ^ 62) :
    ∃ p, parse (writePesHeader sid (some d) (some d) none body.length ++ body) = some p ∧ p.length = 7 ∧
      ¬ lengthRight (writePesHeader sid (some d) (some d) none body.length ++ body) p := by
  refine ⟨_, pes_read sid d (some d) body hs hd (by intro t h; cases h; exact hd), ?_, ?_⟩
  · simp [closePes, setPtsDts, initPes, hb]
  · simp [lengthRight, closePes, setPtsDts, initPes, hb, header_length]

/-- concrete case -/
example : parse (writePesHeader 224 (some 12345670000) (some 12345000000) none 3 ++ [1, 2, 3]) =
    some ⟨224, 16, some 111111030, some 111105000, [1, 2, 3]⟩ := by decide +kernel

end Verif.Pes
