import Verif.Rate.Model
import Verif.Rate.Spec
/-
C169: the bit rate that is reported for a stream.
-/
namespace Verif.Rate
open Verif.Rate.Spec
open Verif.Reader (hns)

theorem foldl_sum : ∀ (l : List Nat) (s : Nat), s + l.sum < 2 ^ 64 → l.foldl (fun s w => (s + w) % 2 ^ 64) s = s + l.sum
  | [], s, _ => by simp
  | w :: l, s, h => by
    simp only [List.sum_cons] at h
    have e : (s + w) % 2 ^ 64 = s + w := Nat.mod_eq_of_lt (by omega)
    simp only [List.foldl_cons, List.sum_cons, e]
    rw [foldl_sum l (s + w) (by omega)]; omega

/-- The size of a track with a size for every sample. -/
theorem totalSize_table (sizes : List Nat) (h : sizes.sum < 2 ^ 64) : totalSize (table sizes) = some sizes.sum := by
  simp only [totalSize, table, if_true, Nat.le_refl, List.take_length]
  rw [foldl_sum sizes 0 (by omega), Nat.zero_add]

/-- The size of a track with one size for all samples, as long as it is below 4 GB. -/
theorem totalSize_of (size count : Nat) (hs : 0 < size) (h : size * count < 2 ^ 32) : totalSize (tableOf size count) = some (size * count) := by
  simp only [totalSize, tableOf, if_neg (show ¬size = 0 by omega)]
  rw [Nat.mod_eq_of_lt h]

/-- The length is taken in whole seconds. -/
theorem bitRate_eq (words : List Nat) (n media scale : Nat) (hw : totalSize words = some n) (hn : 8 * n < 2 ^ 64) (hs : 0 < scale) (hm : 10000000 * media < 2 ^ 64) :
    bitRate words media scale = some (if media < scale then 0 else 8 * n / (media / scale)) := by
  have sec : hns media scale / 10000000 = media / scale := by
    unfold hns
    rw [Nat.mod_eq_of_lt hm, Nat.div_div_eq_div_mul, Nat.mul_comm scale, Nat.mul_div_mul_left _ _ (by omega)]
  simp only [bitRate, trackDuration, if_neg (show ¬scale = 0 by omega), Option.bind_eq_bind, Option.bind_some, hw]
  by_cases h : media < scale
  · have z : media / scale = 0 := Nat.div_eq_of_lt h
    rw [if_pos h]
    split
    · rfl
    · rw [sec, z]; rfl
  · have z : media / scale ≠ 0 := by have := Nat.div_pos (Nat.le_of_not_lt h) hs; omega
    have z' : hns media scale ≠ 0 := fun e => by rw [e] at sec; omega
    rw [if_neg h, if_neg z', sec, if_neg z, Nat.mul_comm n, Nat.mod_eq_of_lt hn]

/-- C169. The bit rate reported for a track of `s` whole seconds and a part is the exact one, or too high by the factor `(s + 1) / s` at most: the part is left out. For every track of at least one second; with one size for all samples
below 4 GB. -/
theorem rate_partial (words : List Nat) (n media scale : Nat) (hw : totalSize words = some n) (hn : 8 * n < 2 ^ 64) (hs : 0 < scale) (hm : 10000000 * media < 2 ^ 64) (h : scale ≤ media) :
    ∃ rate, bitRate words media scale = some rate ∧ Within n media scale rate (media / scale + 1) (media / scale) := by
  refine ⟨8 * n / (media / scale), by rw [bitRate_eq words n media scale hw hn hs hm, if_neg (by omega)], ?_⟩
  have pos : 0 < media / scale := Nat.div_pos h hs
  have m1 : media / scale * scale ≤ media := Nat.div_mul_le_self _ _
  have m2 : media < (media / scale + 1) * scale := by
    have := Nat.lt_mul_div_succ media hs
    rw [Nat.mul_comm]; exact this
  generalize media / scale = s at *
  have r1 : 8 * n / s * s ≤ 8 * n := Nat.div_mul_le_self _ _
  have r2 : 8 * n < (8 * n / s + 1) * s := by
    have := Nat.lt_mul_div_succ (8 * n) pos
    exact Nat.lt_of_lt_of_eq this (Nat.mul_comm _ _)
  generalize 8 * n / s = rate at *
  refine ⟨?_, ?_⟩
  · calc 8 * n * scale < (rate + 1) * s * scale := Nat.mul_lt_mul_of_pos_right r2 hs
      _ = (rate + 1) * (s * scale) := Nat.mul_assoc _ _ _
      _ ≤ (rate + 1) * media := Nat.mul_le_mul_left _ m1
  · calc rate * media * s = rate * s * media := Nat.mul_right_comm _ _ _
      _ ≤ 8 * n * media := Nat.mul_le_mul_right _ r1
      _ ≤ 8 * n * ((s + 1) * scale) := Nat.mul_le_mul_left _ (Nat.le_of_lt m2)
      _ = 8 * n * scale * (s + 1) := by ac_rfl

/-- C169 for the two kinds of tables. -/
theorem table_rate_partial (sizes : List Nat) (media scale : Nat) (hn : 8 * sizes.sum < 2 ^ 64) (hs : 0 < scale) (hm : 10000000 * media < 2 ^ 64) (h : scale ≤ media) :
    ∃ rate, bitRate (table sizes) media scale = some rate ∧ Within sizes.sum media scale rate (media / scale + 1) (media / scale) :=
  rate_partial _ _ _ _ (totalSize_table sizes (by omega)) hn hs hm h

theorem tableOf_rate_partial (size count media scale : Nat) (h0 : 0 < size) (hn : size * count < 2 ^ 32) (hs : 0 < scale) (hm : 10000000 * media < 2 ^ 64) (h : scale ≤ media) :
    ∃ rate, bitRate (tableOf size count) media scale = some rate ∧ Within (size * count) media scale rate (media / scale + 1) (media / scale) :=
  rate_partial _ _ _ _ (totalSize_of size count h0 hn) (by omega) hs hm h

/-- A track of two seconds and a half with two samples: 800 bits by 2 in place of 2.5 seconds. -/
example : bitRate (table [60, 40]) 225000 90000 = some 400 ∧ (90000 ≤ 225000 ∧ 8 * [60, 40].sum < 2 ^ 64 ∧ 10000000 * 225000 < 2 ^ 64) := by decide +kernel

/-- A track of whole seconds has its exact rate. -/
theorem exact_rate (words : List Nat) (n s scale : Nat) (hw : totalSize words = some n) (hn : 8 * n < 2 ^ 64) (hs : 0 < scale) (hm : 10000000 * (s * scale) < 2 ^ 64) (h : 0 < s) :
    bitRate words (s * scale) scale = some (8 * n / s) := by
  rw [bitRate_eq words n _ scale hw hn hs hm, if_neg (by have := Nat.mul_le_mul_right scale h; omega), Nat.mul_div_cancel _ hs]

/-- C169 fails for every track of less than a second: the rate reported is 0. -/
theorem short_witness (words : List Nat) (media scale : Nat) (h : media < scale) (hm : 10000000 * media < 2 ^ 64) : bitRate words media scale = some 0 := by
  have sec : hns media scale / 10000000 = 0 := by
    unfold hns
    rw [Nat.mod_eq_of_lt hm, Nat.div_div_eq_div_mul, Nat.mul_comm scale, Nat.mul_div_mul_left _ _ (by omega)]
    exact Nat.div_eq_of_lt h
  simp only [bitRate, trackDuration, if_neg (show ¬scale = 0 by omega), Option.bind_eq_bind, Option.bind_some, sec]
  split <;> rfl

/-- C169: the bound is reached up to any small part: a track one unit shorter than `s + 1` seconds has the rate of `s` seconds; one of just under two seconds twice its rate. -/
theorem part_witness (words : List Nat) (n s scale : Nat) (hw : totalSize words = some n) (hn : 8 * n < 2 ^ 64) (hs : 0 < scale) (hm : 10000000 * ((s + 1) * scale - 1) < 2 ^ 64) (h : 0 < s) :
    bitRate words ((s + 1) * scale - 1) scale = some (8 * n / s) := by
  have e : (s + 1) * scale = s * scale + scale := Nat.succ_mul s scale
  have d : ((s + 1) * scale - 1) / scale = s := by
    rw [e, show s * scale + scale - 1 = (scale - 1) + s * scale by omega, Nat.add_mul_div_right _ _ hs, Nat.div_eq_of_lt (by omega), Nat.zero_add]
  rw [bitRate_eq words n _ scale hw hn hs hm, d, if_neg]
  have := Nat.mul_le_mul_right scale h
  omega

/-- C169 fails for one size for all samples and 4 GB or more (uncompressed audio): the size is taken at 2^32. Exactly 4 GB have the rate 0, at any length. -/
theorem large_witness (size count media scale : Nat) (h0 : 0 < size) (h : size * count = 2 ^ 32) (hs : 0 < scale) (hm : 10000000 * media < 2 ^ 64) : bitRate (tableOf size count) media scale = some 0 := by
  have e : totalSize (tableOf size count) = some 0 := by
    simp only [totalSize, tableOf, if_neg (show ¬size = 0 by omega), h, Nat.mod_self]
  rw [bitRate_eq _ 0 media scale e (by omega) hs hm]
  simp

/-- Four gigabytes of stereo audio with 16 bits at 48 kHz: more than six hours. -/
example : bitRate (tableOf 4 1073741824) 1073741824 48000 = some 0 ∧ bitRate (tableOf 4 1073741823) 1073741823 48000 = some 1536042 ∧ 4 * 1073741824 = 2 ^ 32 := by decide +kernel

/-- The rate of a track read from a file is that of its sample size box and its media header. -/
theorem file_rate (t : Verif.Parse.TrackRd) (sizes : List Nat) (ht : t.stsz = some (table sizes)) (hn : 8 * sizes.sum < 2 ^ 64) (hs : 0 < t.scale) (hm : 10000000 * t.mediaDuration < 2 ^ 64) (h : t.scale ≤ t.mediaDuration) :
    ∃ rate, trackRate t = some rate ∧ Within sizes.sum t.mediaDuration t.scale rate (t.mediaDuration / t.scale + 1) (t.mediaDuration / t.scale) ∧ (rate < 2 ^ 32 → joinedRate t = some rate) := by
  obtain ⟨rate, e, w⟩ := table_rate_partial sizes t.mediaDuration t.scale hn hs hm h
  have e' : trackRate t = some rate := by rw [trackRate, ht]; exact e
  exact ⟨rate, e', w, fun hr => by rw [joinedRate, e', Option.map_some, Nat.mod_eq_of_lt hr]⟩

/-- Such a track: two samples, two seconds and a half at 90 kHz. -/
example : (({ stsz := some (table [60, 40]), mediaDuration := 225000, scale := 90000 } : Verif.Parse.TrackRd) |> fun t => (trackRate t, joinedRate t, decide (t.scale ≤ t.mediaDuration))) = (some 400, some 400, true) := by decide +kernel

end Verif.Rate
