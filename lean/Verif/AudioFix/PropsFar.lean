import Verif.AudioFix.Props
/-
The correction as the writer uses it, and how far corrected times are from those given.
-/
namespace Verif.AudioFix

/-- For audio decoding and composition times are the same: both are the corrected time without its fraction. -/
theorem addAll_eq (rate : Int) : ∀ (cs : List Int) (s : Fix), addAll rate s (cs.map fun c => (c, c)) = (fixAll rate s (cs.map (· * rate))).map fun o => (o / rate, o / rate)
  | [], _ => rfl
  | c :: cs, s => by
    simp only [List.map_cons, addAll, fixAll]
    rw [show (addTimes rate s (c, c)).2 = (fixTime rate s (c * rate)).2 from rfl, addAll_eq rate cs]
    congr 1
    simp only [addTimes, and_true]
    split
    · rfl
    · rename_i h; rw [not_not] at h; rw [h]

/-- C140 in the units of the program (partial: as `fixed_steps_partial`). For every audio stream given with equal composition and decoding times they stay equal, and increase strictly. -/
theorem muxed_increase_partial (rate : Int) (hr : 0 < rate) (hr2 : rate ≤ 1024 * one) (cs : List Int) (hs : ∀ o ∈ fixAll rate (Fix.new rate) (cs.map (· * rate)), o ≠ nothing rate) :
    (addAll rate (Fix.new rate) (cs.map fun c => (c, c))).length = cs.length ∧ (∀ x ∈ addAll rate (Fix.new rate) (cs.map fun c => (c, c)), x.2 = x.1) ∧
      ∀ (n : Nat) (a b : Int × Int), (addAll rate (Fix.new rate) (cs.map fun c => (c, c)))[n]? = some a → (addAll rate (Fix.new rate) (cs.map fun c => (c, c)))[n + 1]? = some b → a.1 < b.1 := by
  rw [addAll_eq]
  obtain ⟨f1, -, f3⟩ := fixed_steps_partial rate (cs.map (· * rate)) hs
  refine ⟨by rw [List.length_map, f1, List.length_map], ?_, ?_⟩
  · intro x hx
    obtain ⟨o, -, rfl⟩ := List.mem_map.1 hx
    rfl
  · intro n a b ha hb
    rw [List.getElem?_map, Option.map_eq_some_iff] at ha hb
    obtain ⟨o, ho, rfl⟩ := ha
    obtain ⟨p, hp, rfl⟩ := hb
    have hn := (List.getElem?_eq_some_iff.1 hp).1
    rw [f1] at hn
    have := f3 n o p _ ho hp (List.getElem?_eq_getElem hn)
    have hge : o + rate ≤ p := by simp only [one] at this hr2; omega
    have : (o + rate) / rate ≤ p / rate := Int.ediv_le_ediv hr hge
    rw [Int.add_ediv_of_dvd_right (dvd_refl _), Int.ediv_self (by omega)] at this
    simp only; omega

/-- C141 in the units of the program (partial: as `jitter_removed_partial`). -/
theorem muxed_regular_partial (rate c0 : Int) (cs : List Int) (h0 : cs[0]? = some c0)
    (hj : ∀ (n : Nat) (c : Int), cs[n]? = some c → c0 * rate + (n : Int) * (1024 * 10000000) - 10000000 < c * rate ∧ c * rate < c0 * rate + (n : Int) * (1024 * 10000000) + 10000000)
    (hs : ∀ o ∈ fixAll rate (Fix.new rate) (cs.map (· * rate)), o ≠ nothing rate) :
    ∃ k : Nat, 0 < k ∧ ∀ (n : Nat) (x : Int × Int), (addAll rate (Fix.new rate) (cs.map fun c => (c, c)))[n]? = some x → x.2 = x.1 ∧
      x.1 = (c0 * rate + ((1024 * (n : Int)) + (if k ≤ n then 1 else 0)) * 10000000) / rate := by
  obtain ⟨k, k0, hk⟩ := jitter_removed_partial rate (c0 * rate) (cs.map (· * rate)) (by rw [List.getElem?_map, h0]; rfl)
    (by
      intro n t ht
      rw [List.getElem?_map, Option.map_eq_some_iff] at ht
      obtain ⟨c, hc, rfl⟩ := ht
      exact hj n c hc) hs
  refine ⟨k, k0, ?_⟩
  intro n x hx
  rw [addAll_eq, List.getElem?_map, Option.map_eq_some_iff] at hx
  obtain ⟨o, ho, rfl⟩ := hx
  refine ⟨rfl, ?_⟩
  simp only
  rw [hk n o ho]
  congr 1
  simp only [one]
  split <;> omega

/-- the hypotheses are met by times of 48 kHz without their fractions -/
example : ∀ n : Nat, (n : Int) * (1024 * 10000000) - 10000000 < ((n : Int) * (1024 * 10000000) / 48000) * 48000 ∧ ((n : Int) * (1024 * 10000000) / 48000) * 48000 < (n : Int) * (1024 * 10000000) + 10000000 := by
  intro n; omega

/-! ### Distance from the times given -/

/-- C142 (partial: one direction). A corrected time is never earlier than the time given by more than 1025 audio samples. -/
theorem not_early_partial (rate : Int) (ts : List Int) (n : Nat) (t o : Int) (ht : ts[n]? = some t) (ho : (fixAll rate (Fix.new rate) ts)[n]? = some o) : t - 1025 * one ≤ o := by
  rw [(fixAll_get rate ts _ n t ht).1, Option.some.injEq] at ho
  by_cases hp : (stateAt rate (Fix.new rate) ts n).prev = nothing rate
  · rw [fixTime_first rate _ _ hp] at ho
    simp only [one] at *; omega
  · have := (fixTime_step rate _ t hp).2.2
    rw [ho] at this
    simp only [maxLen, one] at *; omega

example : ([0, 100000000000] : List Int)[1]? = some 100000000000 ∧ (fixAll 48000 (Fix.new 48000) [0, 100000000000])[1]? = some 100000000000 := by decide

/-- A stream that repeats one time. -/
theorem behind_loop (rate t0 : Int) : ∀ (n : Nat) (p e : Int), t0 ≤ p → e ≤ 0 → (∀ m : Nat, p + (m : Int) * minLen ≠ nothing rate) →
    fixAll rate ⟨p, e⟩ (List.replicate n t0) = (List.range n).map fun m => p + ((m + 1 : Nat) : Int) * minLen
  | 0, _, _, _, _, _ => rfl
  | n + 1, p, e, hp, he, hm => by
    have h1 : fixTime rate ⟨p, e⟩ t0 = (p + minLen, ⟨p + minLen, e + (t0 - p - minLen)⟩) := by
      rw [fixTime, if_neg (by simpa using hm 0)]
      have hf : frame ⟨p, e⟩ t0 = (p + minLen, e + (t0 - p - minLen)) := by
        rw [frame, if_neg (by simp only [maxLen, one]; omega), if_neg (by simp only [maxLen, minLen, one]; omega)]
      rw [hf]
      simp only [reset]
      rw [if_neg (by simp only [minLen, one]; omega)]
    rw [List.replicate_succ, fixAll, h1, List.range_succ_eq_map, List.map_cons, List.map_map]
    rw [behind_loop rate t0 n (p + minLen) _ (by simp only [minLen, one]; omega) (by simp only [minLen, one]; omega) (by
      intro m
      have := hm (m + 1)
      push_cast at this ⊢
      rw [show p + minLen + (m : Int) * minLen = p + ((m : Int) + 1) * minLen by ring]; exact this)]
    congr 1
    · simp only [List.map_inj_left, Function.comp_apply]
      intro m _
      push_cast; ring

/-- C142 fails when times stop or go back: frames given with one and the same time are spread without end, frame `n` is `1024 n` samples late. -/
theorem behind_witness (rate t0 : Int) (n : Nat) (hm : ∀ m : Nat, t0 + (m : Int) * minLen ≠ nothing rate) :
    (fixAll rate (Fix.new rate) (List.replicate (n + 1) t0))[n]? = some (t0 + (n : Int) * (1024 * one)) := by
  rw [List.replicate_succ, fixAll, fixTime_first rate _ _ rfl, behind_loop rate t0 n t0 0 (le_refl _) (le_refl _) hm]
  cases n with
  | zero => simp
  | succ n => simp [minLen]

/-- at 48 kHz, from 0: the mark is never met -/
example : ∀ m : Nat, (0 : Int) + (m : Int) * minLen ≠ nothing 48000 := by
  intro m; simp only [minLen, one, nothing]; omega

/-- The times of frames with 2048 samples, from frame `2 m` on. -/
theorem long_loop (rate : Int) : ∀ (n : Nat) (m : Int) (e : Int), (∀ k : Nat, 4096 * one * (m + k) ≠ nothing rate) → (∀ k : Nat, 4096 * one * (m + k) + 1025 * one ≠ nothing rate) →
    fixAll rate ⟨4096 * one * m, e⟩ ((List.range n).flatMap fun (k : Nat) => [4096 * one * (m + (k : Int)) + 2048 * one, 4096 * one * (m + (k : Int) + 1)]) =
      (List.range n).flatMap fun (k : Nat) => [4096 * one * (m + (k : Int)) + 1025 * one, 4096 * one * (m + (k : Int) + 1)]
  | 0, _, _, _, _ => rfl
  | n + 1, m, e, h1, h2 => by
    rw [List.range_succ_eq_map, List.flatMap_cons, List.flatMap_cons, List.flatMap_map, List.flatMap_map]
    have a1 := h1 0
    have a2 := h2 0
    simp only [Nat.cast_zero, add_zero] at a1 a2 ⊢
    have s1 : fixTime rate ⟨4096 * one * m, e⟩ (4096 * one * m + 2048 * one) = (4096 * one * m + 1025 * one, ⟨4096 * one * m + 1025 * one, e + 1023 * one⟩) := by
      rw [fixTime, if_neg a1]
      have hf : frame ⟨4096 * one * m, e⟩ (4096 * one * m + 2048 * one) = (4096 * one * m + 1025 * one, e + 1023 * one) := by
        rw [frame, if_pos (by simp only [maxLen, one]; omega)]
        simp only [maxLen, one]
        congr 1; omega
      rw [hf]
      simp only [reset]
      rw [if_neg (by simp only [maxLen, one]; omega)]
    have s2 : fixTime rate ⟨4096 * one * m + 1025 * one, e + 1023 * one⟩ (4096 * one * (m + 1)) = (4096 * one * (m + 1), ⟨4096 * one * (m + 1), e + 3069 * one⟩) := by
      rw [fixTime, if_neg a2]
      have hf : frame ⟨4096 * one * m + 1025 * one, e + 1023 * one⟩ (4096 * one * (m + 1)) = (4096 * one * m + 2050 * one, e + 3069 * one) := by
        rw [frame, if_pos (by simp only [maxLen, one]; omega)]
        simp only [maxLen, one]
        congr 1 <;> omega
      rw [hf]
      simp only [reset]
      rw [if_pos (by simp only [maxLen, one]; omega)]
    simp only [List.cons_append, List.nil_append, fixAll, s1, s2]
    have := long_loop rate n (m + 1) (e + 3069 * one) (by intro k; have := h1 (k + 1); push_cast at this; rwa [show m + 1 + (k : Int) = m + ((k : Int) + 1) by ring])
      (by intro k; have := h2 (k + 1); push_cast at this; rwa [show m + 1 + (k : Int) = m + ((k : Int) + 1) by ring])
    have e1 : ∀ k : Nat, m + ((k.succ : Nat) : Int) = m + 1 + (k : Int) := by intro k; push_cast; ring
    simp only [e1]
    rw [this]

/-- C142 fails for streams with frames of 2048 samples (HE-AAC), however exact the times are: every second frame is set 1023 samples too early. -/
theorem long_frames_witness (rate : Int) (n : Nat) (h1 : ∀ k : Nat, 4096 * one * k ≠ nothing rate) (h2 : ∀ k : Nat, 4096 * one * k + 1025 * one ≠ nothing rate) :
    fixAll rate (Fix.new rate) (0 :: (List.range n).flatMap fun (k : Nat) => [4096 * one * (k : Int) + 2048 * one, 4096 * one * ((k : Int) + 1)]) =
      0 :: (List.range n).flatMap fun (k : Nat) => [4096 * one * (k : Int) + 2048 * one - 1023 * one, 4096 * one * ((k : Int) + 1)] := by
  rw [fixAll, fixTime_first rate _ _ rfl]
  have e : ∀ k : Nat, 4096 * one * (k : Int) + 2048 * one - 1023 * one = 4096 * one * (k : Int) + 1025 * one := by intro k; simp only [one]; omega
  have z : ∀ k : Nat, (0 : Int) + (k : Int) = k := by intro k; omega
  have := long_loop rate n 0 0 (by intro k; rw [z]; exact h1 k) (by intro k; rw [z]; exact h2 k)
  rw [mul_zero] at this
  simp only [z] at this
  simp only [e]
  rw [this]

/-- at 44.1 kHz -/
example : (∀ k : Nat, 4096 * one * (k : Int) ≠ nothing 44100) ∧ ∀ k : Nat, 4096 * one * (k : Int) + 1025 * one ≠ nothing 44100 := by
  constructor <;> intro k <;> simp only [one, nothing] <;> omega

/-- A stream that is late by `d` and has no error to give back, with exact times from then on: it stays late. -/
theorem late_stays (rate d : Int) : ∀ (n : Nat) (t e : Int), 0 ≤ d → e ≤ 0 → (∀ m : Nat, t + d + (m : Int) * minLen ≠ nothing rate) →
    fixAll rate ⟨t + d, e⟩ ((List.range n).map fun m => t + ((m + 1 : Nat) : Int) * minLen) = (List.range n).map fun m => t + ((m + 1 : Nat) : Int) * minLen + d
  | 0, _, _, _, _, _ => rfl
  | n + 1, t, e, hd, he, hm => by
    rw [List.range_succ_eq_map, List.map_cons, List.map_cons, List.map_map, List.map_map]
    have h1 : fixTime rate ⟨t + d, e⟩ (t + ((0 + 1 : Nat) : Int) * minLen) = (t + minLen + d, ⟨t + minLen + d, e - d⟩) := by
      rw [fixTime, if_neg (by simpa using hm 0)]
      have hf : frame ⟨t + d, e⟩ (t + ((0 + 1 : Nat) : Int) * minLen) = (t + minLen + d, e - d) := by
        rw [frame, if_neg (by simp only [maxLen, minLen, one]; omega), if_neg (by simp only [maxLen, minLen, one]; omega)]
        simp only [minLen, one]
        congr 1 <;> omega
      rw [hf]
      simp only [reset]
      rw [if_neg (by simp only [minLen, one]; omega)]
    rw [fixAll, h1]
    have := late_stays rate d n (t + minLen) (e - d) hd (by omega) (by
      intro m
      have := hm (m + 1)
      push_cast at this
      rw [show t + minLen + d + (m : Int) * minLen = t + d + ((m : Int) + 1) * minLen by ring]; exact this)
    have e1 : ∀ m : Nat, t + ((m.succ + 1 : Nat) : Int) * minLen = t + minLen + ((m + 1 : Nat) : Int) * minLen := by intro m; push_cast; ring
    simp only [Function.comp_def, e1]
    rw [this]
    congr 1

/-- The frames of 48 kHz from `t` on. -/
def regular (t : Int) (n : Nat) : List Int := (List.range n).map fun m => t + ((m + 1 : Nat) : Int) * minLen

theorem fixAll_append (rate : Int) : ∀ (a b : List Int) (s : Fix), fixAll rate s (a ++ b) = fixAll rate s a ++ fixAll rate (stateAt rate s a a.length) b
  | [], b, s => by cases b <;> rfl
  | t :: a, b, s => by rw [List.cons_append, fixAll, fixAll, fixAll_append rate a b]; rfl

theorem regular_append (t : Int) (a b : Nat) : regular t (a + b) = regular t a ++ regular (t + (a : Int) * minLen) b := by
  rw [regular, List.range_add, List.map_append, List.map_map, regular, regular]
  congr 1
  apply List.map_congr_left
  intro m _
  simp only [Function.comp_apply]
  push_cast; ring

/-- One second, at 48 kHz. -/
def second : Int := 10000000 * 48000

/-- C142 fails after a hole: one second without audio, then exact times again. From the 310th frame after the hole on, every frame is 306 audio samples (6 ms) late, for ever: what was missing is given back frame by frame
although the time was set anew after the hole. -/
theorem hole_witness (n : Nat) : fixAll 48000 (Fix.new 48000) (0 :: second :: regular second (310 + n)) =
    fixAll 48000 (Fix.new 48000) (0 :: second :: regular second 310) ++ (regular (second + 310 * minLen) n).map (· + 306 * one) := by
  rw [regular_append, ← List.cons_append, ← List.cons_append, fixAll_append]
  congr 1
  have hs : stateAt 48000 (Fix.new 48000) (0 :: second :: regular second 310) (0 :: second :: regular second 310).length = ⟨second + 310 * minLen + 306 * one, -12200000000⟩ := by decide +kernel
  rw [hs]
  have := late_stays 48000 (306 * one) n (second + 310 * minLen) (-12200000000) (by decide) (by decide) (by
    intro m; simp only [second, minLen, one, nothing]; omega)
  rw [regular, regular, List.map_map]
  exact this

/-- the frame just after the hole has the time given for it, and 400 frames later it is late -/
example : (fixAll 48000 (Fix.new 48000) (0 :: second :: regular second 400))[1]? = some second ∧ (fixAll 48000 (Fix.new 48000) (0 :: second :: regular second 400))[401]? = some (second + 400 * minLen + 306 * one) := by
  decide +kernel

end Verif.AudioFix
