import Verif.Date.Props
/-
C151: dates as text. C152: the difference of two times.
-/
namespace Verif.Date
open Verif.Date.Spec

/-! ### numbers -/

theorem decimal_step (n : Nat) : decimal n = if n < 10 then [Nat.digitChar n] else decimal (n / 10) ++ [Nat.digitChar (n % 10)] :=
  Nat.toDigits_eq_if (by decide)

theorem decimal_digits (w n : Nat) (h1 : 10 ^ w ≤ n) (h2 : n < 10 ^ (w + 1)) : decimal n = digits (w + 1) n := by
  induction w generalizing n with
  | zero => rw [decimal_step, if_pos (by omega), digits, digits, Nat.mod_eq_of_lt (by omega), List.nil_append]
  | succ w ih =>
    rw [Nat.pow_succ] at h1 h2
    have : 1 ≤ 10 ^ w := Nat.one_le_two_pow.trans (Nat.pow_le_pow_left (by decide) w)
    rw [decimal_step, if_neg (by omega), ih (n / 10) (by omega) (by omega)]
    rfl

theorem two_digits (n : Nat) (h : n < 100) : two n = digits 2 n := by
  by_cases h1 : n < 10
  · rw [two, if_pos h1, decimal_step, if_pos h1, digits, digits, digits, Nat.mod_eq_of_lt h1, Nat.div_eq_of_lt h1]
    rfl
  · rw [two, if_neg h1, decimal_digits 1 n (by omega) (by omega)]

theorem length_digits (w n : Nat) : (digits w n).length = w := by
  induction w generalizing n with
  | zero => rfl
  | succ w ih => rw [digits, List.length_append, ih]; rfl

theorem milli_digits (zone : Int) (s : SysTime) : milliText zone s = digits 3 (totalHnano zone s % 10000000 / 10000) := by
  have h : totalHnano zone s % 10000000 / 10000 < 1000 := by omega
  rw [milliText]
  generalize totalHnano zone s % 10000000 / 10000 = n at h
  by_cases h1 : n < 10
  · rw [if_pos (by omega), if_pos h1, decimal_step, if_pos h1, digits, digits, digits, digits, Nat.mod_eq_of_lt h1, Nat.div_eq_of_lt h1]
    rfl
  · by_cases h2 : n < 100
    · rw [if_pos h2, if_neg h1, decimal_digits 1 n (by omega) (by omega), digits, digits, digits, digits, digits, digits, digits,
        Nat.div_eq_of_lt (show n / 10 < 10 by omega)]
      rfl
    · rw [if_neg h2, if_neg h1, decimal_digits 2 n (by omega) (by omega)]
      rfl

/-! ### C151 -/

/-- Time of day: what is printed is hh:mm:ss, for times of the clock and for times that were read from text. -/
theorem time_text (c : Civil) (h : c.Valid) (s : SysTime) (hs : s.hour = c.hour ∧ s.minute = c.minute ∧ s.second = c.second) : timeText s = isoTime c := by
  have h1 := h.hour; have h2 := h.minute; have h3 := h.second
  simp only [timeText, smToTm, hs.1, hs.2.1, hs.2.2, isoTime]
  rw [two_digits _ (by omega), two_digits _ (by omega), two_digits _ (by omega)]

theorem day_lt (c : Civil) (h : c.Valid) : c.day < 100 := by
  have h1 := h.day.2
  have h2 := month_length c.year (c.month - 1)
  omega

/-- C151. The text of the clock, in UTC: date, time of day and `Z` are those of the time read first, the milliseconds those of the time read afterwards. -/
theorem xml_of_clock (zone offset : Int) (c : Civil) (h : c.Valid) (hy : c.year < 10000) (seconds nanos : Nat) (hn : nanos < 1000000000) (hs : seconds < 2 ^ 40) :
    toXml zone (now c.tm (seconds, nanos)) false offset = isoDate c ++ ['T'] ++ isoTime c ++ ['.'] ++ digits 3 (nanos / 1000000) ++ ['Z'] := by
  have h1 := h.month; have h2 := h.year
  have hd : dateText (now c.tm (seconds, nanos)) = isoDate c := by
    show decimal (c.year - 1900 + 1900) ++ ['-'] ++ two (c.month - 1 + 1) ++ ['-'] ++ two c.day = _
    rw [show c.year - 1900 + 1900 = c.year by omega, show c.month - 1 + 1 = c.month by omega, decimal_digits 3 _ (by omega) (by omega),
      two_digits _ (by omega), two_digits _ (day_lt c h)]
    rfl
  have ht : timeText (now c.tm (seconds, nanos)) = isoTime c := time_text c h _ ⟨rfl, rfl, rfl⟩
  have hm : totalHnano zone (now c.tm (seconds, nanos)) % 10000000 / 10000 = nanos / 1000000 := by
    show u64 ((seconds * 10000000 + nanos / 100 : Nat) : Int) % 10000000 / 10000 = _
    have h3 := u64_mod ((seconds * 10000000 + nanos / 100 : Nat) : Int)
    have h4 : u64 ((seconds * 10000000 + nanos / 100 : Nat) : Int) = seconds * 10000000 + nanos / 100 := by omega
    rw [h4, Nat.add_comm, Nat.add_mul_mod_self_right, Nat.mod_eq_of_lt (by omega), Nat.div_div_eq_div_mul]
  rw [toXml, hd, ht, milli_digits, hm]
  rfl

/-- C151. If the clock is read twice within a second the text is the date and time of the second reading. -/
theorem xml_now_partial (zone offset : Int) (c : Civil) (h : c.Valid) (hy : c.year < 10000) (nanos : Nat) (hn : nanos < 1000000000) (seconds : Nat)
    (hs : (seconds : Int) = between epoch1970 c) :
    toXml zone (now c.tm (seconds, nanos)) false offset = isoDate c ++ ['T'] ++ isoTime c ++ ['.'] ++ digits 3 (nanos / 1000000) ++ ['Z'] := by
  refine xml_of_clock zone offset c h hy seconds nanos hn ?_
  have h1 := daysTo_closed c.year (by have := h.year; omega)
  have h3 := h.hour; have h4 := h.minute; have h5 := h.second
  have h6 := h.day
  have h9 := months_sum c.year (c.month - 1)
  have h10 := month_length c.year (c.month - 1)
  rw [between, count1970, Civil.count] at hs
  omega

/-- Missing in `xml_now_partial`: the second may change between the two readings. The text is then a second too early: the clock said 11:59:59.99 and then 12:00:00.00, the text is 11:59:59.000. -/
theorem xml_second_witness : toXml 0 (now (⟨2024, 2, 29, 11, 59, 59⟩ : Civil).tm ((between epoch1970 ⟨2024, 2, 29, 12, 0, 0⟩).toNat, 0)) false 0 =
    "2024-02-29T11:59:59.000Z".toList := by
  decide +kernel

example : toXml 0 (now (⟨2024, 2, 29, 11, 59, 59⟩ : Civil).tm (1709207999, 123456789)) false 0 = "2024-02-29T11:59:59.123Z".toList ∧
    between epoch1970 ⟨2024, 2, 29, 11, 59, 59⟩ = 1709207999 := by
  constructor <;> decide +kernel

/-- Reading a date: the numbers are stored as 32 bits into fields of 16 bits that lie beside each other; the fields end up with what was read all the same. The number of 100 ns is what was in the memory before, but for its low 16 bits, which are
the upper half of the milliseconds. -/
theorem scan_fields (m : Words) (hm : m.length = 12) (year month day hour minute second milli : Nat) (h1 : year < 2 ^ 16) (h2 : month < 2 ^ 16) (h3 : day < 2 ^ 16)
    (h4 : hour < 2 ^ 16) (h5 : minute < 2 ^ 16) (h6 : second < 2 ^ 16) (h7 : milli < 2 ^ 16) :
    fields (scan m year month day hour minute second milli) =
      ⟨year, month, day, hour, minute, second, some (m.getD 9 0 * 2 ^ 16 + m.getD 10 0 * 2 ^ 32 + m.getD 11 0 * 2 ^ 48)⟩ := by
  obtain ⟨a0, a1, a2, a3, a4, a5, a6, a7, a8, a9, a10, a11, rfl⟩ : ∃ a0 a1 a2 a3 a4 a5 a6 a7 a8 a9 a10 a11, m = [a0, a1, a2, a3, a4, a5, a6, a7, a8, a9, a10, a11] := by
    match m, hm with
    | [a0, a1, a2, a3, a4, a5, a6, a7, a8, a9, a10, a11], _ => exact ⟨a0, a1, a2, a3, a4, a5, a6, a7, a8, a9, a10, a11, rfl⟩
  simp only [scan, store, fields, List.set_cons_zero, List.set_cons_succ, List.getD_cons_zero, List.getD_cons_succ, Nat.mod_eq_of_lt h1, Nat.mod_eq_of_lt h2,
    Nat.mod_eq_of_lt h3, Nat.mod_eq_of_lt h4, Nat.mod_eq_of_lt h5, Nat.mod_eq_of_lt h6, Nat.div_eq_of_lt h7, Nat.zero_mod, Nat.zero_add]

/-- C151. A date that was read from text or given as year, month and day is never printed as it was: the year is 1900 too large and the month one too large (whatever the memory held). -/
theorem date_text_wrong (c : Civil) (h : c.Valid) (s : SysTime) (hs : s.year = c.year ∧ s.month = c.month ∧ s.day = c.day) :
    dateText s = decimal (c.year + 1900) ++ ['-'] ++ digits 2 (c.month + 1) ++ ['-'] ++ digits 2 c.day ∧ dateText s ≠ isoDate c := by
  have h1 := h.month
  have e : dateText s = decimal (c.year + 1900) ++ ['-'] ++ digits 2 (c.month + 1) ++ ['-'] ++ digits 2 c.day := by
    simp only [dateText, smToTm, hs.1, hs.2.1, hs.2.2]
    rw [two_digits _ (by omega), two_digits _ (day_lt c h)]
  refine ⟨e, fun he => ?_⟩
  rw [e, isoDate] at he
  have he := List.append_cancel_right (List.append_cancel_right he)
  have he := (List.append_inj' he (by rw [length_digits, length_digits])).2
  have all : ∀ m, m < 13 → digits 2 (m + 1) ≠ digits 2 m := by decide
  exact all c.month (by omega) he

/-- C151 for dates read: time of day right, date wrong, for every content of the memory before. -/
theorem read_print_partial (m : Words) (hm : m.length = 12) (c : Civil) (h : c.Valid) (hy : c.year < 2 ^ 16) (milli : Nat) (hl : milli < 1000) :
    timeText (fields (scan m c.year c.month c.day c.hour c.minute c.second milli)) = isoTime c ∧
    dateText (fields (scan m c.year c.month c.day c.hour c.minute c.second milli)) ≠ isoDate c := by
  have h1 := h.month; have h2 := day_lt c h; have h3 := h.hour; have h4 := h.minute; have h5 := h.second
  rw [scan_fields m hm _ _ _ _ _ _ _ hy (by omega) (by omega) (by omega) (by omega) (by omega) (by omega)]
  exact ⟨time_text c h _ ⟨rfl, rfl, rfl⟩, (date_text_wrong c h _ ⟨rfl, rfl, rfl⟩).2⟩

/-- C151. The milliseconds that are printed are not those read but depend on what was in the memory. -/
theorem read_milli_witness : ∃ m m' : Words, m.length = 12 ∧ m'.length = 12 ∧
    milliText 0 (fields (scan m 2024 2 29 11 59 59 123)) = "000".toList ∧ milliText 0 (fields (scan m' 2024 2 29 11 59 59 123)) = "006".toList ∧
    dateText (fields (scan m 2024 2 29 11 59 59 123)) = "3924-03-29".toList := by
  refine ⟨List.replicate 12 0, [0, 0, 0, 0, 0, 0, 0, 0, 0, 1, 0, 0], ?_⟩
  decide +kernel

/-- C151. The zone: hours ahead of UTC are printed. -/
theorem zone_ahead (k : Nat) (h : 1 ≤ k) (h2 : k ≤ 14) : zoneText true (60 * k) = ['+'] ++ digits 2 k ++ [':', '0', '0'] := by
  have : ∀ k : Nat, k < 15 → 1 ≤ k → zoneText true (60 * (k : Int)) = ['+'] ++ digits 2 k ++ [':', '0', '0'] := by decide +kernel
  exact this k (by omega) h

/-- C151. For every zone behind UTC by a whole number of hours the text ends with `+` and a number of twenty digits. -/
theorem zone_behind (k : Nat) (h : 1 ≤ k) (h2 : k ≤ 14) : zoneText true (-(60 * k)) = ['+'] ++ decimal (2 ^ 64 - k) ++ [':', '0', '0'] ∧ (decimal (2 ^ 64 - k)).length = 20 := by
  have e : u64 ((-(60 * k : Int)).tdiv 60) = 2 ^ 64 - k := by
    have : (-(60 * (k : Int))).tdiv 60 = -k := by
      rw [Int.neg_tdiv, Int.mul_tdiv_cancel_left _ (by decide)]
    rw [this]
    have := u64_mod (-(k : Int))
    omega
  constructor
  · rw [zoneText]
    simp only [if_true, e]
    rw [if_pos (by omega), if_pos (by omega), if_neg (by omega), List.append_nil]
  · rw [decimal_digits 19 _ (by omega) (by omega), length_digits]

/-- C151. Minutes of the zone are lost: India, 5 hours and 30 minutes ahead, and Newfoundland, 3 hours and 30 minutes behind. -/
theorem zone_witness : zoneText true 330 = "+05:00".toList ∧ zoneText true (-210) = "+18446744073709551613:00".toList ∧ zoneText true (-300) = "+18446744073709551611:00".toList := by
  decide +kernel

/-! ### C152 -/

theorem tdiv_nat (a b : Nat) [Nat.AtLeastTwo b] : ((a : Nat) : Int).tdiv (OfNat.ofNat b) = ((a / OfNat.ofNat b : Nat) : Int) := rfl

/-- C152. The time from one reading of the clock to a later one, in milliseconds, seconds, minutes, hours and days, each rounded down. -/
theorem difference_partial (zone : Int) (s base : SysTime) (a b : Nat) (hs : s.hnano = some a) (hb : base.hnano = some b) (hab : b ≤ a) (ha : a < 2 ^ 64) :
    milliSeconds zone s base = ((a - b) / 10000 : Nat) ∧ seconds zone s base = ((a - b) / 10000000 : Nat) ∧
    minutes zone s base = ((a - b) / 600000000 : Nat) ∧ hours zone s base = ((a - b) / 36000000000 : Nat) ∧ days zone s base = ((a - b) / 864000000000 : Nat) := by
  have e1 : milliSeconds zone s base = ((a - b) / 10000 : Nat) := by
    rw [milliSeconds, if_pos (by simp [hs, hb]), totalHnano, totalHnano, hs, hb]
    have h := u64_mod ((a : Int) - b)
    have hu : u64 ((a : Int) - b) = a - b := by omega
    rw [hu, i64, if_pos (by omega)]
  have e2 : seconds zone s base = ((a - b) / 10000000 : Nat) := by
    rw [seconds, e1, tdiv_nat, Nat.div_div_eq_div_mul]
  have e3 : minutes zone s base = ((a - b) / 600000000 : Nat) := by
    rw [minutes, e2, tdiv_nat, Nat.div_div_eq_div_mul]
  have e4 : hours zone s base = ((a - b) / 36000000000 : Nat) := by
    rw [hours, e3, tdiv_nat, Nat.div_div_eq_div_mul]
  have e5 : days zone s base = ((a - b) / 864000000000 : Nat) := by
    rw [days, e3, tdiv_nat, Nat.div_div_eq_div_mul]
  exact ⟨e1, e2, e3, e4, e5⟩

example : milliSeconds 0 (now (⟨2024, 2, 29, 11, 59, 59⟩ : Civil).tm (1709207999, 123456789)) (now (⟨2024, 2, 29, 11, 59, 50⟩ : Civil).tm (1709207990, 0)) = 9123 := by
  decide +kernel

/-- C152, missing in `difference_partial`: if the clock was set back between the readings, by whatever amount up to 29000 years, the difference is not negative but more than 900000000000000 milliseconds. -/
theorem difference_back (zone : Int) (s base : SysTime) (a b : Nat) (hs : s.hnano = some a) (hb : base.hnano = some b) (hab : a < b) (hlt : b - a ≤ 2 ^ 63) :
    milliSeconds zone s base = ((2 ^ 64 - (b - a)) / 10000 : Nat) ∧ 900000000000000 < milliSeconds zone s base := by
  have e1 : milliSeconds zone s base = ((2 ^ 64 - (b - a)) / 10000 : Nat) := by
    rw [milliSeconds, if_pos (by simp [hs, hb]), totalHnano, totalHnano, hs, hb]
    have h := u64_mod ((a : Int) - b)
    have hu : u64 ((a : Int) - b) = 2 ^ 64 - (b - a) := by omega
    rw [hu, i64, if_pos (by omega)]
  refine ⟨e1, ?_⟩
  rw [e1]
  omega

example : milliSeconds 0 (now (⟨2024, 2, 29, 11, 59, 50⟩ : Civil).tm (1709207990, 0)) (now (⟨2024, 2, 29, 11, 59, 59⟩ : Civil).tm (1709207999, 0)) = 1844674407361955 := by
  decide +kernel

/-- C152. The days between two dates given by year, month and day are wrong as well: from 2024-02-28 to 2024-03-01 there are two days, the functions say four. -/
theorem days_witness : days 0 (ofDate 2024 3 1) (ofDate 2024 2 28) = 4 ∧ between ⟨2024, 2, 28, 0, 0, 0⟩ ⟨2024, 3, 1, 0, 0, 0⟩ = 2 * 86400 := by
  constructor <;> decide +kernel

end Verif.Date
