import Verif.Demux.SplitModel
import Verif.Demux.SplitSpec
import Verif.Fields.Lemmas
import Mathlib.Tactic.Ring
/-
C96: the ADTS frames of a PES packet are cut apart and handed on with their parameters; C97: their times.
-/
namespace Verif.Demux
open Spec Fields

theorem copyBody_ok (n : Nat) : ∀ (body rest : List UInt8) (i : Nat) (full : Bool), i + body.length = n → body ≠ [] →
    copyBody n i full (body ++ rest) = (true, body, rest) := by
  intro body
  induction body with
  | nil => intro _ _ _ _ h; exact absurd rfl h
  | cons b body ih =>
    intro rest i full hn _
    simp only [List.length_cons] at hn
    rw [List.cons_append, copyBody, if_pos (by omega)]
    by_cases hb : body = []
    · subst hb
      simp only [List.length_nil] at hn
      have hin : i + 1 = n := by omega
      by_cases hr : rest = []
      · subst hr; simp [hin]
      · rw [List.nil_append, if_neg hr]
        obtain ⟨x, r, rfl⟩ := List.exists_cons_of_ne_nil hr
        rw [copyBody, if_neg (by omega)]
        simp [hin]
    · rw [if_neg (by simp [hb]), ih rest (i + 1) _ (by omega) hb]

/-- What the program reports for a frame. -/
def Spec.Frame.parameters (f : Frame) : Nat × Nat × Nat × List UInt8 := (f.profile, f.frequency, f.channels, f.body)

/-- What the program hands on. -/
def delivered (x : Adts × List UInt8) : Nat × Nat × Nat × List UInt8 := (x.1.objectMinus1, x.1.frequency, x.1.channels, x.2)

theorem frame_get (f : Frame) (hf : f.Ok) (rest : List UInt8) :
    ∃ h, adtsGet (f.bytes ++ rest) = some (h, f.body ++ rest) ∧ h.bodyLength = f.body.length ∧
      delivered (h, f.body) = f.parameters := by
  have hw : width [(12, 0xFFF), (1, f.version), (2, 0), (1, if f.crc.isSome then 0 else 1), (2, f.profile), (4, f.frequency), (1, f.bits / 16),
      (3, f.channels), (1, f.bits / 8), (1, f.bits / 4), (1, f.bits / 2), (1, f.bits), (13, f.headerSize + f.body.length), (11, f.fullness), (2, 0)] = 8 * 7 := rfl
  obtain ⟨h1, h2, h3, h4, h5⟩ := hf
  refine ⟨⟨if f.crc.isSome then 0 else 1, f.profile, f.frequency, f.channels, f.headerSize + f.body.length⟩, ?_, ?_, rfl⟩
  · rw [adtsGet, Frame.bytes]
    have hr := fun rest => read_pack _ 7 hw rest
    simp only [List.map_cons, List.map_nil] at hr
    rw [List.append_assoc, List.append_assoc, hr]
    have hp := pack_length _ 7 hw
    generalize pack _ = hd at hp
    have e1 : f.profile % 2 ^ 2 = f.profile := Nat.mod_eq_of_lt h1
    have e2 : f.frequency % 2 ^ 4 = f.frequency := Nat.mod_eq_of_lt h2
    have e3 : f.channels % 2 ^ 3 = f.channels := Nat.mod_eq_of_lt h3
    have e4 : (f.headerSize + f.body.length) % 2 ^ 13 = f.headerSize + f.body.length := Nat.mod_eq_of_lt h4
    cases hc : f.crc with
    | none => 
      simp only [hc, Option.isSome_none, e1, e2, e3, e4]
      simp [← hp]
    | some c =>
      simp only [hc, Option.isSome_some, e1, e2, e3, e4]
      have hp2 : (pack [(16, c)]).length = 2 := pack_length _ 2 rfl
      generalize pack [(16, c)] = cc at hp2
      have : (hd ++ (cc ++ (f.body ++ rest))).drop 9 = f.body ++ rest := by
        rw [← List.append_assoc]; exact List.drop_left' (by simp [hp, hp2])
      simp [this]
  · simp only [Adts.bodyLength]
    cases hc : f.crc <;> simp [hc, Frame.headerSize] at h4 ⊢ <;> omega

theorem frame_sync (f : Frame) (rest : List UInt8) : skipToSync (f.bytes ++ rest) = f.bytes ++ rest := by
  have e : f.bytes = [0xFF] ++ pack [(4, 15), (1, f.version), (2, 0), (1, if f.crc.isSome then 0 else 1)] ++
      (pack [(2, f.profile), (4, f.frequency), (1, f.bits / 16),
    (3, f.channels), (1, f.bits / 8), (1, f.bits / 4), (1, f.bits / 2), (1, f.bits), (13, f.headerSize + f.body.length), (11, f.fullness), (2, 0)] ++
  ((match f.crc with
    | some c => pack [(16, c)]
    | none => []) ++ f.body)) := by
    rw [Frame.bytes, show ([0xFF] : List UInt8) = pack [(8, 0xFF)] by decide]
    rw [← pack_append _ _ 1 rfl]
    rw [← List.append_assoc, ← pack_append _ _ 2 rfl, List.append_assoc]
    congr 1
  have hl : (pack [(4, 15), (1, f.version), (2, 0), (1, if f.crc.isSome then 0 else 1)]).length = 1 := pack_length _ 1 rfl
  have hr := read_pack [(4, 15), (1, f.version), (2, 0), (1, if f.crc.isSome then 0 else 1)] 1 rfl []
  rw [e]
  generalize hpk : pack [(4, 15), (1, f.version), (2, 0), (1, if f.crc.isSome then 0 else 1)] = p at hl hr ⊢
  match p, hl with
  | [b], _ =>
    have hb : b.toNat / 16 = 15 := by
      rw [List.append_nil] at hr
      have h8 : natBits b.toNat 8 = natBits (b.toNat / 16) 4 ++ natBits b.toNat 4 := by
        rw [natBits_concat 4 (b.toNat / 16) 4 b.toNat]
        congr 1
        omega
      simp only [Fields.read, bitsOf, List.flatMap_cons, List.flatMap_nil, List.append_nil, List.map_cons, List.map_nil, readBits, h8] at hr
      rw [if_pos (by simp)] at hr
      rw [List.take_left' (by simp), bitsNat_natBits] at hr
      obtain ⟨v, _, hv⟩ := Option.map_eq_some_iff.mp hr
      have := (List.cons.inj hv).1
      have hb : b.toNat < 256 := b.toNat_lt
      omega
    simp only [List.cons_append, List.nil_append]
    rw [skipToSync, if_pos ⟨rfl, hb⟩]

theorem frame_length (f : Frame) : f.bytes.length = f.headerSize + f.body.length := by
  have hp : ∀ a b c d e g h i j k l m n o, (pack [(12, 0xFFF), (1, a), (2, b), (1, c), (2, d), (4, e), (1, g),
    (3, h), (1, i), (1, j), (1, k), (1, l), (13, m), (11, n), (2, o)]).length = 7 := fun _ _ _ _ _ _ _ _ _ _ _ _ _ _ => pack_length _ 7 rfl
  have h2 : ∀ c, (pack [(16, c)]).length = 2 := fun c => pack_length _ 2 rfl
  rw [Frame.bytes, Frame.headerSize]
  cases f.crc with
  | none => simp [hp]
  | some c => simp [hp, h2]; omega

theorem frames_rounds (frames : List Frame) (hf : ∀ f ∈ frames, f.Ok) (hl : ∀ f, frames.getLast? = some f → 9 ≤ f.bytes.length) :
    ∀ fuel, (frames.flatMap Frame.bytes).length ≤ fuel →
      (adtsRounds fuel (frames.flatMap Frame.bytes)).1.map delivered = frames.map Frame.parameters ∧
      (adtsRounds fuel (frames.flatMap Frame.bytes)).2 = false := by
  induction frames with
  | nil => intro fuel _; cases fuel <;> simp [adtsRounds]
  | cons f fs ih =>
    intro fuel hfu
    have hf0 := hf f (List.mem_cons_self ..)
    obtain ⟨h, hg, hb, hd⟩ := frame_get f hf0 (fs.flatMap Frame.bytes)
    have hlen := frame_length f
    have hbody := List.length_pos_iff.mpr hf0.body
    have hhs : 7 ≤ f.headerSize := by rw [Frame.headerSize]; split <;> omega
    rw [List.flatMap_cons] at hfu ⊢
    rw [List.length_append] at hfu
    obtain ⟨n, rfl⟩ : ∃ n, fuel = n + 1 := ⟨fuel - 1, by omega⟩
    have h9 : 9 ≤ (f.bytes ++ fs.flatMap Frame.bytes).length := by
      rw [List.length_append]
      cases fs with
      | nil => have := hl f (by simp); omega
      | cons g gs =>
        have := frame_length g
        have : 7 ≤ g.headerSize := by rw [Frame.headerSize]; split <;> omega
        rw [List.flatMap_cons, List.length_append]
        omega
    have hs := frame_sync f (fs.flatMap Frame.bytes)
    obtain ⟨a, l, hal⟩ : ∃ a l, f.bytes ++ fs.flatMap Frame.bytes = a :: l := by
      cases h : f.bytes ++ fs.flatMap Frame.bytes with
      | nil => rw [h] at h9; simp at h9
      | cons a l => exact ⟨a, l, rfl⟩
    have hc := copyBody_ok h.bodyLength f.body (fs.flatMap Frame.bytes) 0 false (by omega) hf0.body
    have ih := ih (fun g hg => hf g (List.mem_cons_of_mem _ hg)) (fun g hg => hl g (by
      rw [List.getLast?_cons, hg, Option.getD_some])) n (by omega)
    rw [hal] at hs hg h9 ⊢
    rw [adtsRounds]
    simp only [hs, h9, if_true, hg, hc]
    exact ⟨by simp [hd, ih.1], ih.2⟩

theorem skipToSync_junk (junk rest : List UInt8) (hj : ∀ b ∈ junk, b ≠ 0xFF) (hr : 2 ≤ rest.length) : skipToSync (junk ++ rest) = skipToSync rest := by
  induction junk with
  | nil => rfl
  | cons a junk ih =>
    have ha := hj a (List.mem_cons_self ..)
    have ih := ih (fun b hb => hj b (List.mem_cons_of_mem _ hb))
    rw [← ih]
    cases h : junk ++ rest with
    | nil => simp at h; rw [h.2] at hr; simp at hr
    | cons b r => rw [List.cons_append, h, skipToSync, if_neg (by simp [ha])]

/-- C96: ADTS frames that follow each other in a PES packet (after bytes that are not 0xFF) are handed on one by one with their parameters
and exactly their data, and no mismatch is reported, provided no frame is empty and the last has at least nine bytes. -/
theorem adts_frames_recovered_partial (junk : List UInt8) (frames : List Frame) (hne : frames ≠ []) (hj : ∀ b ∈ junk, b ≠ 0xFF)
    (hf : ∀ f ∈ frames, f.Ok) (hl : ∀ f, frames.getLast? = some f → 9 ≤ f.bytes.length) :
    (splitAdts (junk ++ frames.flatMap Frame.bytes)).1.map delivered = frames.map Frame.parameters ∧
      (splitAdts (junk ++ frames.flatMap Frame.bytes)).2 = false := by
  obtain ⟨f, fs, rfl⟩ := List.exists_cons_of_ne_nil hne
  have main := frames_rounds (f :: fs) hf hl (junk ++ (f :: fs).flatMap Frame.bytes).length (by simp)
  have h2 : 2 ≤ ((f :: fs).flatMap Frame.bytes).length := by
    have := frame_length f
    have : 7 ≤ f.headerSize := by rw [Frame.headerSize]; split <;> omega
    rw [List.flatMap_cons, List.length_append]; omega
  have hs := skipToSync_junk junk _ hj h2
  have hq : 1 ≤ (junk ++ (f :: fs).flatMap Frame.bytes).length := by rw [List.length_append]; omega
  rw [splitAdts]
  generalize hfu : (junk ++ (f :: fs).flatMap Frame.bytes).length = fuel at main ⊢
  obtain ⟨n, rfl⟩ : ∃ n, fuel = n + 1 := ⟨fuel - 1, by omega⟩
  have e : adtsRounds (n + 1) (junk ++ (f :: fs).flatMap Frame.bytes) = adtsRounds (n + 1) ((f :: fs).flatMap Frame.bytes) := by
    generalize junk ++ (f :: fs).flatMap Frame.bytes = p at hs hq
    generalize (f :: fs).flatMap Frame.bytes = q at hs h2
    match p, q, hq, h2, hs with
    | _ :: _, _ :: _, _, _, hs => rw [adtsRounds, adtsRounds, hs]
  rw [e]; exact main

def exFrame (n : Nat) (crc : Option Nat) : Frame := ⟨0, crc, 1, 4, 2, 0x7FF, 0, List.replicate n 0xFF⟩

example : (∀ f ∈ [exFrame 1 none, exFrame 3 (some 0xABCD), exFrame 2 none], f.Ok) ∧
    splitAdts ([0, 1] ++ [exFrame 1 none, exFrame 3 (some 0xABCD), exFrame 2 none].flatMap Frame.bytes) =
      ([(⟨1, 1, 4, 2, 8⟩, [0xFF]), (⟨0, 1, 4, 2, 12⟩, [0xFF, 0xFF, 0xFF]), (⟨1, 1, 4, 2, 9⟩, [0xFF, 0xFF])], false) := by
  refine ⟨?_, by decide +kernel⟩
  intro f hf
  simp only [List.mem_cons, List.not_mem_nil, or_false] at hf
  rcases hf with rfl | rfl | rfl <;> exact ⟨by decide, by decide, by decide, by decide, by decide⟩

/-- A last frame of eight bytes (one byte of data) is lost, and an empty frame takes all frames behind it with it. -/
theorem adts_short_frame_witness :
    splitAdts ([exFrame 3 none, exFrame 1 none].flatMap Frame.bytes) = ([(⟨1, 1, 4, 2, 10⟩, [0xFF, 0xFF, 0xFF])], true) ∧
    splitAdts ([exFrame 0 none, exFrame 3 none].flatMap Frame.bytes) = ([], true) := by
  constructor <;> decide +kernel

/-- C96: whatever bytes are given, every frame handed on stands, header and data, as one piece in the payload: its data are bytes of the payload that
follow each other. -/
theorem adts_data_from_payload (l : List UInt8) : ∀ x ∈ (splitAdts l).1, x.2 <:+: l := by
  have hcopy : ∀ (n : Nat) (l : List UInt8) (i : Nat) (full : Bool), (copyBody n i full l).2.1 ++ (copyBody n i full l).2.2 = l := by
    intro n l
    induction l with
    | nil => intro i full; rw [copyBody]; split <;> rfl
    | cons b r ih =>
      intro i full
      rw [copyBody]
      split
      · split
        · next h => simp [h]
        · simp [ih]
      · rfl
  have hsync : ∀ l : List UInt8, skipToSync l <:+ l := by
    intro l
    fun_induction skipToSync l with
    | case1 => exact List.suffix_rfl
    | case2 a b r _ ih => exact ih.trans (List.suffix_cons ..)
    | case3 => exact List.suffix_rfl
  have main : ∀ fuel l, ∀ x ∈ (adtsRounds fuel l).1, x.2 <:+: l := by
    intro fuel
    induction fuel with
    | zero => intro l x hx; cases l <;> simp [adtsRounds] at hx
    | succ n ih =>
      intro l x hx
      cases l with
      | nil => simp [adtsRounds] at hx
      | cons a l =>
        rw [adtsRounds] at hx
        simp only at hx
        split at hx
        · cases hg : adtsGet (skipToSync (a :: l)) with
          | none => simp [hg] at hx
          | some v =>
            obtain ⟨h, r⟩ := v
            simp only [hg] at hx
            have hr : r <:+ a :: l := by
              refine List.IsSuffix.trans ?_ (hsync (a :: l))
              rw [adtsGet] at hg
              split at hg
              · simp only [Option.some.injEq, Prod.mk.injEq] at hg
                rw [← hg.2]
                split <;> exact List.drop_suffix ..
              · simp at hg
            have hcp := hcopy h.bodyLength r 0 false
            split at hx
            · simp only [List.mem_cons] at hx
              rcases hx with rfl | hx
              · refine List.IsInfix.trans ?_ hr.isInfix
                exact ⟨[], (copyBody h.bodyLength 0 false r).2.2, by simpa using hcp⟩
              · refine (ih _ x hx).trans (List.IsInfix.trans ?_ hr.isInfix)
                exact ⟨(copyBody h.bodyLength 0 false r).2.1, [], by simpa using hcp⟩
            · simp at hx
        · simp at hx
  exact main l.length l

/-- C97: the frames of a PES packet are given start times one frame duration (1024 samples) apart, in 100 ns units, for the sampling rates
that divide ten million. -/
theorem frame_times_exact_partial (rate pts i : Nat) (hr : 0 < rate) (hd : rate ∣ 10000000) (hb : pts + 1024 * 10000000 * i < 2 ^ 64) :
    frameTime rate * rate = 1024 * 10000000 ∧ (frameStart rate pts i - pts) * rate = i * (1024 * 10000000) ∧ pts ≤ frameStart rate pts i := by
  obtain ⟨q, hq⟩ := hd
  have hft : frameTime rate = q * 1024 := by rw [frameTime, hq, Nat.mul_div_cancel_left _ hr]
  have h1 : frameTime rate * rate = 1024 * 10000000 := by
    rw [hft, hq]; ring_nf
  have h2 : frameTime rate ≤ 1024 * 10000000 := by rw [← h1]; exact Nat.le_mul_of_pos_right _ hr
  have h3 : frameTime rate * i ≤ 1024 * 10000000 * i := Nat.mul_le_mul_right _ h2
  have e : frameStart rate pts i = pts + frameTime rate * i := by
    rw [frameStart, Nat.mod_eq_of_lt (by omega)]
  refine ⟨h1, ?_, by omega⟩
  rw [e, Nat.add_sub_cancel_left]
  calc frameTime rate * i * rate = i * (frameTime rate * rate) := by rw [Nat.mul_comm (frameTime rate) i, Nat.mul_assoc]
    _ = _ := by rw [h1]

example : frameTime 16000 = 640000 ∧ frameStart 16000 100 3 = 1920100 := by decide

/-- C97: at any other rate the times run ahead of the samples: by less than 1024 units (102.4 µs) per frame, and always more the later the frame. -/
theorem frame_times_drift (rate i : Nat) (hr : 0 < rate) :
    frameTime rate * i * rate ≤ i * (1024 * 10000000) ∧ i * (1024 * 10000000) < frameTime rate * i * rate + 1024 * rate * i + 1 ∧
    (¬ rate ∣ 10000000 → frameTime rate * i * rate + i * 1024 ≤ i * (1024 * 10000000)) := by
  have hdm := Nat.div_add_mod 10000000 rate
  have hlt := Nat.mod_lt 10000000 hr
  have e : frameTime rate * i * rate = i * (1024 * (rate * (10000000 / rate))) := by rw [frameTime]; ring_nf
  have e2 : 1024 * rate * i = i * (1024 * rate) := by ring_nf
  rw [e, e2]
  generalize hx : rate * (10000000 / rate) = x at hdm
  refine ⟨Nat.mul_le_mul_left _ (by omega), ?_, ?_⟩
  · rw [← Nat.mul_add]
    exact Nat.lt_succ_of_le (Nat.mul_le_mul_left _ (by omega))
  · intro hnd
    have : 10000000 % rate ≠ 0 := fun h => hnd (Nat.dvd_of_mod_eq_zero h)
    rw [← Nat.mul_add]
    exact Nat.mul_le_mul_left _ (by omega)

/-- At 44100 Hz a frame lasts 232199.5 units and is given 231424. -/
theorem frame_times_witness : frameTime 44100 = 231424 ∧ 1024 * 10000000 / 44100 = 232199 := by decide

end Verif.Demux
