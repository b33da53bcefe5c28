import Verif.CodecData.Model
import Verif.CodecData.Spec
/-
C171: every video bit rate is described by its own file.
-/
namespace Verif.CodecData
open Verif.Render (startCodes videoCodec compatibility)
open Verif.CodecData.Spec

theorem size16_value (n : Nat) (h : n < 2 ^ 16) : ∃ a b, size16 n = [a, b] ∧ a.toNat * 256 + b.toNat = n ∧ a.toNat * 256 ||| b.toNat = n := by
  have ha : (UInt8.ofNat (n / 256 % 256)).toNat = n / 256 := by rw [UInt8.toNat_ofNat']; omega
  have hb : (UInt8.ofNat (n % 256)).toNat = n % 256 := by rw [UInt8.toNat_ofNat']; omega
  refine ⟨_, _, rfl, by rw [ha, hb]; omega, ?_⟩
  have e := Nat.shiftLeft_add_eq_or_of_lt (show n % 256 < 2 ^ 8 by omega) (n / 256)
  rw [Nat.shiftLeft_eq] at e
  rw [ha, hb, show n / 256 * 256 = n / 256 * 2 ^ 8 from rfl, ← e]
  omega

/-- C171: the initialization segment gets exactly the two parameter sets, for all sets of less than 64 KB. -/
theorem init_gets (sps pps : List UInt8) (hs : sps.length < 2 ^ 16) (hp : pps.length < 2 ^ 16) : split (compute sps pps) = some (sps, pps) := by
  obtain ⟨a, b, e, n, _⟩ := size16_value sps.length hs
  obtain ⟨c, d, f, m, _⟩ := size16_value pps.length hp
  simp only [compute, e, f, List.cons_append, List.nil_append, split, n, List.drop_left', List.take_left', m, List.length_append]
  rw [if_neg (by omega), if_neg (by omega), List.take_length]

/-- C171: the Smooth Streaming manifest shows exactly the two parameter sets with start codes. -/
theorem manifest_gets (sps pps : List UInt8) (hs : sps.length < 2 ^ 16) : startCodes (compute sps pps) = annexB [sps, pps] := by
  obtain ⟨a, b, e, _, n⟩ := size16_value sps.length hs
  simp only [compute, e, startCodes, List.cons_append, List.nil_append, List.getD_cons_zero, List.getD_cons_succ, n, annexB, List.map_cons, List.map_nil, List.flatten_cons, List.flatten_nil, List.append_nil]
  have t : (a :: b :: (sps ++ (size16 pps.length ++ pps))).drop 2 = sps ++ (size16 pps.length ++ pps) := rfl
  have u : (a :: b :: (sps ++ (size16 pps.length ++ pps))).drop (4 + sps.length) = pps := by
    rw [show 4 + sps.length = (sps.length + 2) + 1 + 1 by omega, List.drop_succ_cons, List.drop_succ_cons, ← List.append_assoc, List.drop_left' (by simp [size16])]
  rw [t, u, List.take_left' rfl]
  simp

/-- C171: the name of the codec is made of the second, third and fourth byte of the sequence parameter set (the third one as module Render tells). -/
theorem codec_gets (x profile constraints level : UInt8) (sps pps : List UInt8) :
    videoCodec (compute (x :: profile :: constraints :: level :: sps) pps) = Verif.Strings.appendHex (Verif.Strings.appendHex (Verif.Strings.appendHex "avc1.".toList [profile]) [compatibility constraints]) [level] := rfl

/-- C171 fails for longer sets (a file cannot hold one): the length is cut to 16 bits. -/
theorem long_lost (sps pps : List UInt8) (hs : 2 ^ 16 ≤ sps.length) (q : List UInt8) : split (compute sps pps) ≠ some (sps, q) := by
  intro h
  simp only [compute, size16, List.cons_append, List.nil_append, split] at h
  have ha : (UInt8.ofNat (sps.length / 256 % 256)).toNat < 256 := UInt8.toNat_lt _
  have hb : (UInt8.ofNat (sps.length % 256)).toNat < 256 := UInt8.toNat_lt _
  split at h
  · exact absurd h (by simp)
  · split at h
    · split at h
      · exact absurd h (by simp)
      · have := congrArg (fun o => (o.map fun p => p.1.length)) h
        simp only [Option.map_some, Option.some.injEq, List.length_take] at this
        omega
    · exact absurd h (by simp)

/-! ### The bit rates -/

theorem others_spec (i : Nat) (items : List Item) (m : Rates) : match others i m items with
    | none => ∃ item ∈ items, ∀ v, item.streams[i]? ≠ some (.visual v)
    | some r => (∀ item ∈ items, ∃ v, item.streams[i]? = some (.visual v)) ∧
        ∀ b, r b = match items.reverse.find? (fun item => item.rate = b) with
          | none => m b
          | some item => match item.streams[i]? with
            | some (.visual v) => some (entryOf v)
            | _ => none := by
  induction items generalizing m with
  | nil => simp [others]
  | cons item items ih =>
    rcases hv : item.streams[i]? with _ | s
    · simp only [others, hv]
      exact ⟨item, by simp, by simp [hv]⟩
    · cases s with
      | other =>
        simp only [others, hv]
        exact ⟨item, by simp, by simp [hv]⟩
      | visual v =>
        have := ih (m.add item.rate (entryOf v))
        simp only [others, hv]
        split
        · rename_i e
          rw [e] at this
          obtain ⟨x, hx, hn⟩ := this
          exact ⟨x, by simp [hx], hn⟩
        · rename_i r e
          rw [e] at this
          obtain ⟨h1, h2⟩ := this
          refine ⟨fun x hx => ?_, fun b => ?_⟩
          · rcases List.mem_cons.mp hx with rfl | hx
            · exact ⟨v, hv⟩
            · exact h1 x hx
          · rw [h2 b, List.reverse_cons, List.find?_append]
            generalize items.reverse.find? (fun item => decide (item.rate = b)) = f
            rcases f with _ | y
            · by_cases hb : item.rate = b
              · simp [Rates.add, hb, hv]
              · simp [Rates.add, hb, Ne.symm hb]
            · simp

/-- C171: the first files are accepted if and only if stream `i` of each of the further ones is a video stream. -/
theorem accepted_iff (i : Nat) (first : Entry) (item : Item) (items : List Item) : (rates i first item items).isSome ↔ ∀ x ∈ items, ∃ v, x.streams[i]? = some (.visual v) := by
  have := others_spec i items (Rates.add (fun _ => none) item.rate first)
  unfold rates
  split at this
  · rename_i e
    rw [e]
    obtain ⟨x, hx, hn⟩ := this
    simp only [Option.isSome_none, Bool.false_eq_true, false_iff]
    exact fun h => (h x hx).elim fun v hv => hn v hv
  · rename_i e
    rw [e]
    simpa using this.1

/-- C171. Every bit rate of a presentation has the codec data and the picture size of the file that was added for it, and there is no other one; of files with the same bit rate the last one counts. The first file is that of the
stream. -/
theorem rate_of_file (i : Nat) (v0 : Visual) (item : Item) (items : List Item) (h0 : item.streams[i]? = some (.visual v0)) (m : Rates) (h : rates i (entryOf v0) item items = some m) (b : Nat) :
    (∀ e, m b = some e ↔ ∃ x v pre post, item :: items = pre ++ x :: post ∧ x.rate = b ∧ (∀ y ∈ post, y.rate ≠ b) ∧ x.streams[i]? = some (.visual v) ∧ e = entryOf v) := by
  have all : others i (fun _ => none) (item :: items) = some m := by simp only [others, h0]; exact h
  have := others_spec i (item :: items) (fun _ => none)
  rw [all] at this
  obtain ⟨h1, h2⟩ := this
  intro e
  have hb := h2 b
  constructor
  · intro he
    rw [he] at hb
    rcases hf : (item :: items).reverse.find? (fun item => item.rate = b) with _ | x
    · rw [hf] at hb; exact absurd hb (by simp)
    · rw [hf] at hb
      obtain ⟨hx, as, bs, hr, hn⟩ := List.find?_eq_some_iff_append.mp hf
      have hx' : x.rate = b := by simpa using hx
      have hl : item :: items = bs.reverse ++ x :: as.reverse := by
        have := congrArg List.reverse hr
        simpa using this
      obtain ⟨v, hv⟩ := h1 x (by rw [hl]; simp)
      refine ⟨x, v, _, _, hl, hx', fun y hy => by simpa using hn y (by simpa using hy), hv, ?_⟩
      simp only [hv, Option.some.injEq] at hb
      exact hb
  · rintro ⟨x, v, pre, post, hl, hx, hn, hv, rfl⟩
    have hf : (item :: items).reverse.find? (fun item => item.rate = b) = some x := by
      rw [List.find?_eq_some_iff_append]
      refine ⟨by simpa using hx, post.reverse, pre.reverse, by rw [hl]; simp, fun y hy => ?_⟩
      simpa using hn y (by simpa using hy)
    rw [hb, hf]
    simp only [hv]

/-- C171 for different bit rates, from the file to what is published: initialization segment, Smooth Streaming manifest and picture size. -/
theorem file_published (i : Nat) (v0 : Visual) (item : Item) (items : List Item) (h0 : item.streams[i]? = some (.visual v0)) (m : Rates) (h : rates i (entryOf v0) item items = some m)
    (hd : ((item :: items).map Item.rate).Nodup) (x : Item) (hx : x ∈ item :: items) :
    ∃ v e, x.streams[i]? = some (.visual v) ∧ m x.rate = some e ∧ e.width = v.width ∧ e.height = v.height ∧
      (v.sps.length < 2 ^ 16 → v.pps.length < 2 ^ 16 → split e.data = some (v.sps, v.pps) ∧ startCodes e.data = annexB [v.sps, v.pps]) := by
  obtain ⟨pre, post, hl⟩ := List.append_of_mem hx
  have hv : ∃ v, x.streams[i]? = some (.visual v) := by
    rcases List.mem_cons.mp hx with rfl | hx'
    · exact ⟨v0, h0⟩
    · exact (accepted_iff i (entryOf v0) item items).mp (by rw [h]; rfl) x hx'
  obtain ⟨v, hv⟩ := hv
  refine ⟨v, entryOf v, hv, (rate_of_file i v0 item items h0 m h x.rate _).mpr ⟨x, v, pre, post, hl, rfl, ?_, hv, rfl⟩, rfl, rfl, fun hs hp => ⟨init_gets _ _ hs hp, manifest_gets _ _ hs⟩⟩
  intro y hy e
  rw [hl, List.map_append, List.map_cons, List.nodup_append] at hd
  have := (List.nodup_cons.mp hd.2.1).1
  exact this (e ▸ List.mem_map_of_mem hy)

/-- Two files with one audio and one video stream each. -/
def one : Visual := ⟨[0x67, 0x42, 0xC0, 0x1E, 7], [0x68, 5], 640, 480⟩
def two : Visual := ⟨[0x67, 0x64, 0x00, 0x28, 9, 9], [0x68, 6, 7], 1280, 720⟩

example : ∃ m, rates 1 (entryOf one) ⟨500, [.other, .visual one]⟩ [⟨900, [.other, .visual two]⟩] = some m ∧ m 900 = some (entryOf two) ∧ m 500 = some (entryOf one) ∧ m 700 = none := ⟨_, rfl, rfl, rfl, rfl⟩

example : split (compute two.sps two.pps) = some (two.sps, two.pps) ∧ startCodes (compute one.sps one.pps) = [0, 0, 0, 1, 0x67, 0x42, 0xC0, 0x1E, 7, 0, 0, 0, 1, 0x68, 5] ∧
    String.ofList (videoCodec (compute one.sps one.pps)) = "avc1.42011E" ∧ rates 0 (entryOf one) ⟨500, [.visual one]⟩ [⟨900, [.other]⟩] = none := by
  refine ⟨by decide +kernel, by decide +kernel, by decide +kernel, rfl⟩

end Verif.CodecData
