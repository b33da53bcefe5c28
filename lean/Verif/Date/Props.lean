import Verif.Date.Spec
import Mathlib.Tactic.IntervalCases
/-
C150: the creation time of a movie. C151: dates as text. C152: the difference of two times.
-/
namespace Verif.Date
open Verif.Date.Spec

/-! ### the calendar -/

theorem yearLength_eq (y : Nat) (h : 1 ≤ y) :
    (yearLength y : Int) = 365 + ((y : Int) / 4 - ((y : Int) - 1) / 4) - ((y : Int) / 100 - ((y : Int) - 1) / 100) + ((y : Int) / 400 - ((y : Int) - 1) / 400) := by
  have e4 : (y : Int) / 4 - ((y : Int) - 1) / 4 = if y % 4 = 0 then 1 else 0 := by split <;> omega
  have e100 : (y : Int) / 100 - ((y : Int) - 1) / 100 = if y % 100 = 0 then 1 else 0 := by split <;> omega
  have e400 : (y : Int) / 400 - ((y : Int) - 1) / 400 = if y % 400 = 0 then 1 else 0 := by split <;> omega
  rw [e4, e100, e400]
  have h4 : y % 100 = 0 → y % 4 = 0 := by omega
  have h5 : y % 400 = 0 → y % 100 = 0 := by omega
  simp only [yearLength, leap]
  by_cases h1 : y % 4 = 0 <;> by_cases h2 : y % 100 = 0 <;> by_cases h3 : y % 400 = 0 <;> simp_all

theorem yearDays_eq (y : Nat) (h : 1 ≤ y) : yearDays y = (daysTo y : Int) - 366 := by
  induction y with
  | zero => omega
  | succ y ih =>
    by_cases h0 : y = 0
    · subst h0; decide
    · have h1 := ih (by omega)
      have h2 := yearLength_eq y (by omega)
      simp only [daysTo, yearDays] at *
      push_cast at *
      omega

theorem monthDays_eq (y m : Nat) : monthDays y m = ((monthLengths y).take m).sum := by
  simp only [monthDays, monthLengths, leap]
  by_cases h1 : y % 4 = 0 <;> by_cases h2 : y % 100 = 0 <;> by_cases h3 : y % 400 = 0 <;> simp [h1, h2, h3]

theorem d1970 : daysTo 1970 = 719528 := by decide +kernel
theorem count1970 : epoch1970.count = 62167219200 := by decide +kernel
theorem count1904 : epoch1904.count = 60084374400 := by decide +kernel
theorem count3804 : (⟨3804, 2, 1, 0, 0, 0⟩ : Civil).count = 120045283200 := by decide +kernel

/-- `mktime` counts the seconds of a date -/
theorem mktime_civil (zone : Int) (c : Civil) (h : c.Valid) : mktime zone c.tm = between epoch1970 c - zone := by
  have h1 := h.month
  have h2 := h.day
  have h3 := h.year
  have hy : 1900 + (c.year - 1900) + (c.month - 1) / 12 = c.year := by omega
  have hm : (c.month - 1) % 12 = c.month - 1 := by omega
  have key : ∀ a d k : Nat, ∀ D : Nat, (((a : Int) - 366 - ((719528 : Nat) - 366)) + (d : Int) + ((k : Int) - 1)) * 86400 + D = ((a + d + (k - 1)) * 86400 + D : Nat) - (62167219200 : Nat) ∨ k = 0 := by
    intro a d k D
    by_cases hk : k = 0
    · exact Or.inr hk
    · left; omega
  have hk := key (daysTo c.year) ((monthLengths c.year).take (c.month - 1)).sum c.day (c.hour * 3600 + c.minute * 60 + c.second)
  have e : mktime zone c.tm = (((daysTo c.year : Int) - 366 - ((719528 : Nat) - 366)) + ((((monthLengths c.year).take (c.month - 1)).sum : Nat) : Int) + ((c.day : Int) - 1)) * 86400 + (c.hour * 3600 + c.minute * 60 + c.second : Nat) - zone := by
    show (yearDays (1900 + (c.year - 1900) + (c.month - 1) / 12) - yearDays 1970 + (monthDays (1900 + (c.year - 1900) + (c.month - 1) / 12) ((c.month - 1) % 12) : Int) + ((c.day : Int) - 1)) * 86400 + c.hour * 3600 + c.minute * 60 + c.second - zone = _
    rw [hy, hm, monthDays_eq, yearDays_eq c.year (by omega), yearDays_eq 1970 (by omega), d1970]
    omega
  rw [e, between, count1970, Civil.count]
  omega

theorem daysTo_closed (y : Nat) (h : 1 ≤ y) :
    (daysTo y : Int) = 365 * ((y : Int) - 1) + ((y : Int) - 1) / 4 - ((y : Int) - 1) / 100 + ((y : Int) - 1) / 400 + 366 := by
  have := yearDays_eq y h
  simp only [yearDays] at this
  omega

/-- The number of seconds that the start of the count is wrong by: it is not 1904-01-01 but 3804-02-01. -/
theorem base_date (zone : Int) : mktime zone (smToTm (ofDate 1904 1 1)) = between epoch1970 ⟨3804, 2, 1, 0, 0, 0⟩ - zone ∧
    between epoch1970 ⟨3804, 2, 1, 0, 0, 0⟩ = 57878064000 := by
  have h := mktime_civil zone ⟨3804, 2, 1, 0, 0, 0⟩ ⟨by decide, by decide, by decide, by decide, by decide, by decide⟩
  refine ⟨h, ?_⟩
  rw [between, count3804, count1970]
  decide

theorem since1904 : between epoch1904 epoch1970 = 2082844800 := by
  rw [between, count1904, count1970]
  decide

theorem months_sum (y m : Nat) : ((monthLengths y).take m).sum ≤ 366 := by
  have h : ((monthLengths y).take m).sum + ((monthLengths y).drop m).sum = (monthLengths y).sum := by
    rw [← List.sum_append, List.take_append_drop]
  have : (monthLengths y).sum ≤ 366 := by
    simp only [monthLengths]; cases leap y <;> decide
  omega

theorem month_length (y m : Nat) : (monthLengths y).getD m 0 ≤ 31 := by
  by_cases h : m < 12
  · simp only [monthLengths]
    cases leap y <;> interval_cases m <;> decide
  · rw [List.getD_eq_getElem?_getD, List.getElem?_eq_none (by simp [monthLengths]; omega)]
    simp

theorem u64_mod (x : Int) : (u64 x : Int) = x % 2 ^ 64 := by
  simp only [u64]; omega

theorem i64_u64 (x : Int) (h1 : -(2 ^ 63) ≤ x) (h2 : x < 2 ^ 63) : i64 (u64 x) = x := by
  have := u64_mod x
  simp only [i64]
  split <;> omega

/-- C150. For every date and time `c` of the clock and every zone: what is written as time of creation is the number of seconds from 3804-02-01 to `c`, which is negative. In the 32 bits of the headers of a movie this is always
168633344 seconds (five years and four months) more than the number of seconds since 1904-01-01 it should be, in the 64 bits of the movie header of an initialization segment a number with more than 57000000000 seconds too few, modulo 2^64. -/
theorem creation_time_wrong (zone : Int) (c : Civil) (h : c.Valid) (hy : c.year < 3000) (clock : Nat × Nat) :
    mp4now zone c.tm clock = u64 (between ⟨3804, 2, 1, 0, 0, 0⟩ c) ∧
    ((mp4now zone c.tm clock % 2 ^ 32 : Nat) : Int) = (between epoch1904 c + 168633344) % 2 ^ 32 ∧
    mp4now zone c.tm clock % 2 ^ 32 ≠ u64 (between epoch1904 c) % 2 ^ 32 ∧ mp4now zone c.tm clock ≠ u64 (between epoch1904 c) := by
  obtain ⟨b1, b2⟩ := base_date zone
  have hc := mktime_civil zone c h
  have hd : between ⟨3804, 2, 1, 0, 0, 0⟩ c = between epoch1970 c - 57878064000 := by rw [← b2]; simp only [between]; omega
  have he : between epoch1904 c = between epoch1970 c + 2082844800 := by rw [← since1904]; simp only [between]; omega
  have hb : -(2 ^ 40) < between epoch1970 c ∧ between epoch1970 c < 2 ^ 40 := by
    have h1 := daysTo_closed c.year (by have := h.year; omega)
    have h3 := h.hour; have h4 := h.minute; have h5 := h.second
    have h6 := h.day; have h7 := h.month; have h8 := h.year
    have h9 := months_sum c.year (c.month - 1)
    have h10 := month_length c.year (c.month - 1)
    rw [between, count1970, Civil.count]
    omega
  have hsec : seconds zone (now c.tm clock) (ofDate 1904 1 1) = between epoch1970 c - 57878064000 := by
    have hm : milliSeconds zone (now c.tm clock) (ofDate 1904 1 1) = (between epoch1970 c - 57878064000) * 1000 := by
      rw [milliSeconds, if_neg (by simp [now, tmToSm, ofDate])]
      have ha : totalSeconds zone (now c.tm clock) = u64 (between epoch1970 c - zone) := by
        rw [totalSeconds, ← hc]; rfl
      have hb' : totalSeconds zone (ofDate 1904 1 1) = u64 (57878064000 - zone) := by
        rw [totalSeconds, b1, b2]
      rw [ha, hb']
      have : u64 (((u64 (between epoch1970 c - zone) : Int) - (u64 (57878064000 - zone) : Nat)) * 1000) =
          u64 ((between epoch1970 c - 57878064000) * 1000) := by
        generalize between epoch1970 c = B
        have e1 := u64_mod (B - zone)
        have e2 := u64_mod (57878064000 - zone)
        have e3 : ∀ a b : Int, a % 2 ^ 64 = b % 2 ^ 64 → u64 a = u64 b := fun a b h => by rw [u64, u64, h]
        apply e3
        rw [e1, e2]
        omega
      rw [this, i64_u64 _ (by omega) (by omega)]
    rw [seconds, hm, Int.mul_tdiv_cancel _ (by decide)]
  have hmp : mp4now zone c.tm clock = u64 (between epoch1970 c - 57878064000) := by rw [mp4now, hsec]
  have e1 := u64_mod (between epoch1970 c - 57878064000)
  have e2 := u64_mod (between epoch1904 c)
  refine ⟨by rw [hmp, hd], ?_, ?_, ?_⟩ <;> rw [hmp] <;> omega

/-- Such a date: 2024-02-29 12:30:15 is 3792054615 seconds after 1904-01-01; the movie header written then says 3960687959, 2029-07-04. -/
example : (⟨2024, 2, 29, 12, 30, 15⟩ : Civil).Valid ∧ mp4now 3600 (⟨2024, 2, 29, 12, 30, 15⟩ : Civil).tm (0, 0) % 2 ^ 32 = 3960687959 ∧
    between epoch1904 ⟨2024, 2, 29, 12, 30, 15⟩ = 3792054615 ∧ between epoch1904 ⟨2029, 7, 4, 7, 5, 59⟩ = 3960687959 := by
  refine ⟨⟨by decide, by decide, by decide, by decide, by decide, by decide⟩, ?_, ?_, ?_⟩ <;> decide +kernel

end Verif.Date
