import Verif.TsMux.Model
import Verif.TsMux.Spec
import Verif.Ts.PropsTables
import Verif.Pes.Props
import Mathlib.Data.List.Forall2
/-!
Properties C42 (video access units) and C63 (ADTS frames).
-/
namespace Verif.TsMux
open Fields Verif.TsMux.Spec

/-! ### elementary streams -/

theorem nalSize_prefix (n : Nat) (rest : List UInt8) (h : n < 2 ^ 32) : nalSize (pack [(32, n)] ++ rest) = n := by
  rw [pack_word]
  simp only [nalSize, List.cons_append, List.nil_append, List.take_succ_cons, List.take_zero, List.foldl_cons, List.foldl_nil,
    UInt8.toNat_ofNat']
  omega

theorem nalLoop_prefixed (nals : List (List UInt8)) (h : ∀ n ∈ nals, n.length < 2 ^ 32) : nalLoop (lengthPrefixed nals) = byteStream nals := by
  induction nals with
  | nil => rw [nalLoop]; rfl
  | cons n nals ih =>
    have e : lengthPrefixed (n :: nals) = pack [(32, n.length)] ++ (n ++ lengthPrefixed nals) := by
      simp [lengthPrefixed]
    have h4 : (pack [(32, n.length)]).length = 4 := pack_length _ 4 rfl
    have hs := nalSize_prefix n.length (n ++ lengthPrefixed nals) (h n (List.mem_cons_self ..))
    have hne : pack [(32, n.length)] ++ (n ++ lengthPrefixed nals) ≠ [] := by
      intro h0
      have := congrArg List.length h0
      simp [h4] at this
    rw [e, nalLoop, dif_neg hne, hs, ← List.drop_drop, Ts.drop_pre _ _ 4 h4, Ts.drop_pre _ _ _ rfl, List.take_left' rfl,
      ih (fun m hm => h m (List.mem_cons_of_mem _ hm))]
    simp [byteStream, startCode]

/-- C42: the length prefixed NAL units of a sample become start code NAL units, after the delimiter and, on key frames, the
parameter sets. -/
theorem video_access_unit (sps pps : List UInt8) (nals : List (List UInt8)) (key : Bool) (h : ∀ n ∈ nals, n.length < 2 ^ 32) :
    videoES sps pps (lengthPrefixed nals) key = byteStream (accessUnit sps pps key nals) := by
  rw [videoES, nalLoop_prefixed nals h]
  cases key <;> simp [byteStream, accessUnit, nal9, startCode]

example : videoES [0x67, 1] [0x68, 2] (lengthPrefixed [[0x65, 3, 4], [0x06]]) true =
    [0, 0, 0, 1, 9, 0xf0, 0, 0, 0, 1, 0x67, 1, 0, 0, 0, 1, 0x68, 2, 0, 0, 0, 1, 0x65, 3, 4, 0, 0, 0, 1, 6] := by
  rw [video_access_unit _ _ _ _ (by simp)]; rfl

theorem adts_read (o f c n : Nat) (body : List UInt8) (hf : f < 13) (hc : c < 8) (ho : o < 4) (hb : n < 8192) :
    (pack [(12, 0xFFF), (1, 0), (2, 0), (1, 1), (2, o), (4, f), (1, 0), (3, c), (1, 0), (1, 0), (1, 0), (1, 0), (13, n), (11, 0x7FF),
      (2, 0)]).length = 7 ∧
    read [12, 1, 2, 1, 2, 4, 1, 3, 1, 1, 1, 1, 13, 11, 2] (pack [(12, 0xFFF), (1, 0), (2, 0), (1, 1), (2, o), (4, f), (1, 0), (3, c),
      (1, 0), (1, 0), (1, 0), (1, 0), (13, n), (11, 0x7FF), (2, 0)] ++ body) =
      some [0xFFF, 0, 0, 1, o, f, 0, c, 0, 0, 0, 0, n, 0x7FF, 0] := by
  refine ⟨pack_length _ 7 (by simp [width]), ?_⟩
  have := read_pack [(12, 0xFFF), (1, 0), (2, 0), (1, 1), (2, o), (4, f),
        (1, 0), (3, c), (1, 0), (1, 0), (1, 0), (1, 0), (13, n), (11, 0x7FF), (2, 0)] 7 (by simp [width]) body
  simp only [List.map_cons, List.map_nil, Nat.reducePow, Nat.reduceMod] at this
  rw [Nat.mod_eq_of_lt ho, Nat.mod_eq_of_lt (show f < 16 by omega), Nat.mod_eq_of_lt hc, Nat.mod_eq_of_lt hb] at this
  exact this

/-- C63: the audio sample is wrapped in an ADTS frame that announces its own length and the parameters of the stream. -/
theorem adts_frame (a : Adts) (body : List UInt8) (ho : 1 ≤ a.objectType ∧ a.objectType ≤ 4) (hr : a.sampleRate ∈ sampleRates)
    (hc : a.channels ∈ channelCodes) (hb : body.length + 7 < 8192) :
    ∃ freq ch, sampleRates[freq]? = some a.sampleRate ∧ channelCodes[ch]? = some a.channels ∧
      IsAdtsFrame (a.objectType - 1) freq ch body (adtsHeader a body.length ++ body) := by
  refine ⟨sampleRates.idxOf a.sampleRate, channelCodes.idxOf a.channels, ?_, ?_, ?_⟩
  · have := List.idxOf_lt_length_of_mem hr
    rw [List.getElem?_eq_getElem this, List.getElem_idxOf]
  · have := List.idxOf_lt_length_of_mem hc
    rw [List.getElem?_eq_getElem this, List.getElem_idxOf]
  · have h1 : sampleRates.idxOf a.sampleRate < 13 := List.idxOf_lt_length_of_mem hr
    have h2 : channelCodes.idxOf a.channels < 8 := List.idxOf_lt_length_of_mem hc
    have eo : (a.objectType + 2 ^ 32 - 1) % 2 ^ 32 = a.objectType - 1 := by omega
    rw [adtsHeader, eo]
    generalize sampleRates.idxOf a.sampleRate = f at h1 ⊢
    generalize channelCodes.idxOf a.channels = c at h2 ⊢
    obtain ⟨h7, hrd⟩ := adts_read (a.objectType - 1) f c (body.length + 7) body h1 h2 (by omega) hb
    generalize pack _ = hd at h7 hrd ⊢
    constructor
    · rw [show (hd ++ body).length = body.length + 7 by rw [List.length_append, h7]; omega]
      exact hrd
    · exact Ts.drop_pre _ _ 7 h7

example : IsAdtsFrame 1 4 2 [1, 2, 3] (adtsHeader ⟨2, 44100, 2⟩ 3 ++ [1, 2, 3]) := by
  constructor <;> decide +kernel

end Verif.TsMux
