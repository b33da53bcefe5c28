import Verif.AudioFix.Model
namespace Verif.AudioFix

/-- One step when there was a frame before: what comes out. -/
theorem fixTime_step (rate : Int) (s : Fix) (t : Int) (h : s.prev ≠ nothing rate) :
    (fixTime rate s t).2.prev = (fixTime rate s t).1 ∧
    ((fixTime rate s t).1 = s.prev + minLen ∨ (fixTime rate s t).1 = s.prev + maxLen ∨ ((fixTime rate s t).1 = t ∧ s.prev + maxLen + maxLen < t)) ∧
    t - (fixTime rate s t).1 ≤ maxLen := by
  rw [fixTime, if_neg h]
  have hf : ((frame s t).1 = s.prev + minLen ∧ t - s.prev < maxLen) ∨ (frame s t).1 = s.prev + maxLen := by
    rw [frame]
    split
    · exact Or.inr rfl
    · split
      · right; simp only; omega
      · exact Or.inl ⟨rfl, by omega⟩
  generalize (frame s t).1 = time at hf
  simp only [reset]
  refine ⟨trivial, ?_, ?_⟩ <;> split <;> simp only [minLen, maxLen, one, true_and] at * <;> omega

theorem fixTime_first (rate : Int) (s : Fix) (t : Int) (h : s.prev = nothing rate) : fixTime rate s t = (t, ⟨t, 0⟩) := by rw [fixTime, if_pos h]

theorem fixAll_length (rate : Int) : ∀ (ts : List Int) (s : Fix), (fixAll rate s ts).length = ts.length
  | [], _ => rfl
  | t :: ts, s => by rw [fixAll, List.length_cons, List.length_cons, fixAll_length rate ts]

/-- The state before frame `n`. -/
def stateAt (rate : Int) (s : Fix) : List Int → Nat → Fix
  | _, 0 => s
  | [], _ + 1 => s
  | t :: ts, n + 1 => stateAt rate (fixTime rate s t).2 ts n

theorem fixAll_get (rate : Int) : ∀ (ts : List Int) (s : Fix) (n : Nat) (t : Int), ts[n]? = some t →
    (fixAll rate s ts)[n]? = some (fixTime rate (stateAt rate s ts n) t).1 ∧ stateAt rate s ts (n + 1) = (fixTime rate (stateAt rate s ts n) t).2
  | [], _, n, t, h => by simp at h
  | u :: ts, s, 0, t, h => by
    simp only [List.getElem?_cons_zero, Option.some.injEq] at h
    subst h
    cases ts <;> simp [fixAll, stateAt]
  | u :: ts, s, n + 1, t, h => by
    simp only [List.getElem?_cons_succ] at h
    have := fixAll_get rate ts (fixTime rate s u).2 n t h
    simp only [fixAll, List.getElem?_cons_succ, stateAt]
    exact this

/-- The frame before is the one that came out before. -/
theorem state_prev (rate : Int) (ts : List Int) (s : Fix) (n : Nat) (t : Int) (h : ts[n]? = some t) : (stateAt rate s ts (n + 1)).prev = (fixTime rate (stateAt rate s ts n) t).1 := by
  rw [(fixAll_get rate ts s n t h).2]
  by_cases hp : (stateAt rate s ts n).prev = nothing rate
  · rw [fixTime_first rate _ _ hp]
  · exact (fixTime_step rate _ t hp).1

/-- C140 (partial: no corrected time is exactly 2147483647 times 100 ns). Whatever the times given are, the first frame keeps its time, and every frame begins 1024 or 1025 audio samples after the one before; or at the time given for
it, if that is more than 2050 samples later. So the corrected times always go up. -/
theorem fixed_steps_partial (rate : Int) (ts : List Int) (hs : ∀ o ∈ fixAll rate (Fix.new rate) ts, o ≠ nothing rate) :
    (fixAll rate (Fix.new rate) ts).length = ts.length ∧ (fixAll rate (Fix.new rate) ts)[0]? = ts[0]? ∧
      ∀ (n : Nat) (a b t : Int), (fixAll rate (Fix.new rate) ts)[n]? = some a → (fixAll rate (Fix.new rate) ts)[n + 1]? = some b → ts[n + 1]? = some t →
        b = a + 1024 * one ∨ b = a + 1025 * one ∨ (b = t ∧ a + 2050 * one < t) := by
  refine ⟨fixAll_length rate ts _, ?_, ?_⟩
  · cases ts with
    | nil => rfl
    | cons t ts => simp [fixAll, fixTime_first rate (Fix.new rate) t rfl]
  · intro n a b t ha hb ht
    have hn : n < ts.length := by have := (List.getElem?_eq_some_iff.1 ht).1; omega
    obtain ⟨e1, e2⟩ := fixAll_get rate ts (Fix.new rate) n _ (List.getElem?_eq_getElem hn)
    obtain ⟨f1, f2⟩ := fixAll_get rate ts (Fix.new rate) (n + 1) t ht
    have hp := state_prev rate ts (Fix.new rate) n _ (List.getElem?_eq_getElem hn)
    rw [ha, Option.some.injEq] at e1
    rw [hb, Option.some.injEq] at f1
    rw [← e1] at hp
    have hne : (stateAt rate (Fix.new rate) ts (n + 1)).prev ≠ nothing rate := by rw [hp]; exact hs a (List.mem_of_getElem? ha)
    have := (fixTime_step rate _ t hne).2.1
    rw [← f1, hp] at this
    simp only [minLen, maxLen, one] at this ⊢
    omega

/-- C140 fails at 2147483647 (214.7 seconds): this is the mark for no frame. A second frame given with the same time does not move. -/
theorem fixed_mark_witness (rate : Int) : fixAll rate (Fix.new rate) [nothing rate, nothing rate] = [nothing rate, nothing rate] := by
  simp [fixAll, fixTime, Fix.new]

/-- the hypothesis is met, with a frame that comes late, one that comes early and a hole; times of 48 kHz in 100 ns -/
example : fixAll 48000 (Fix.new 48000) [0, 213333 * 48000, 426800 * 48000, 639000 * 48000, 10000000 * 48000] = [0, 10240000000, 20480000000, 30720000000, 480000000000] ∧
    ∀ o ∈ fixAll 48000 (Fix.new 48000) [0, 213333 * 48000, 426800 * 48000, 639000 * 48000, 10000000 * 48000], o ≠ nothing 48000 := by decide

/-! ### Regular streams -/

/-- The state of a stream whose frames came out regularly so far, moved by one sample or not. -/
structure Regular (t0 : Int) (n : Nat) (moved : Bool) (s : Fix) : Prop where
  prev : s.prev = t0 + (n : Int) * minLen + (if moved then one else 0)
  error : if moved then s.error < one else s.error < one

theorem regular_step (rate t0 : Int) (n : Nat) (moved : Bool) (s : Fix) (t : Int) (h : Regular t0 n moved s) (hm : s.prev ≠ nothing rate)
    (ht : t0 + ((n + 1 : Nat) : Int) * minLen - one < t ∧ t < t0 + ((n + 1 : Nat) : Int) * minLen + one) :
    ∃ moved', (moved = true → moved' = true) ∧ (fixTime rate s t).1 = t0 + ((n + 1 : Nat) : Int) * minLen + (if moved' then one else 0) ∧ Regular t0 (n + 1) moved' (fixTime rate s t).2 := by
  obtain ⟨h1, h2⟩ := h
  have e : ((n + 1 : Nat) : Int) * minLen = (n : Int) * minLen + minLen := by push_cast; ring
  rw [e] at ht ⊢
  generalize (n : Int) * minLen = k at *
  rw [fixTime, if_neg hm]
  simp only [ite_self] at h2
  have hr : ∀ time : Int, t - time ≤ maxLen → reset t time = time := by
    intro time h
    rw [reset, if_neg]
    simp only [maxLen, one] at h ⊢; omega
  have a1 : ¬ maxLen ≤ t - s.prev := by
    rw [h1]; cases moved <;> simp only [minLen, maxLen, one, if_true, Bool.false_eq_true, if_false] at ht ⊢ <;> omega
  simp only [frame, if_neg a1]
  cases moved with
  | false =>
    simp only [Bool.false_eq_true, if_false, add_zero] at h1
    by_cases a2 : maxLen - minLen ≤ s.error + (t - s.prev - minLen)
    · simp only [if_pos a2]
      rw [hr _ (by rw [h1]; simp only [minLen, maxLen, one] at ht ⊢; omega)]
      refine ⟨true, by simp, ?_, ⟨?_, ?_⟩⟩
      · rw [h1]; simp only [minLen, maxLen, one, if_true]; omega
      · simp only []; rw [e, h1]; simp only [minLen, maxLen, one, if_true]; omega
      · simp only [if_true]; rw [h1] at a2 ⊢; simp only [minLen, maxLen, one] at ht h2 ⊢; omega
    · simp only [if_neg a2]
      rw [hr _ (by rw [h1]; simp only [minLen, maxLen, one] at ht ⊢; omega)]
      refine ⟨false, by simp, ?_, ⟨?_, ?_⟩⟩
      · rw [h1]; simp only [Bool.false_eq_true, if_false]; omega
      · simp only [e, h1, Bool.false_eq_true, if_false]; omega
      · simp only [Bool.false_eq_true, if_false]; simp only [minLen, maxLen, one] at a2 ⊢; omega
  | true =>
    simp only [if_true] at h1
    have a2 : ¬ maxLen - minLen ≤ s.error + (t - s.prev - minLen) := by
      rw [h1]; simp only [minLen, maxLen, one] at ht h2 ⊢; omega
    simp only [if_neg a2]
    rw [hr _ (by rw [h1]; simp only [minLen, maxLen, one] at ht ⊢; omega)]
    refine ⟨true, by simp, ?_, ⟨?_, ?_⟩⟩
    · rw [h1]; simp only [if_true]; omega
    · simp only [e, h1, if_true]; omega
    · simp only [if_true]; simp only [minLen, maxLen, one] at a2 ⊢; omega

/-- C141 (partial: no corrected time is exactly 2147483647 times 100 ns). The correction removes what rounding did to the times of a stream with frames of 1024 samples: if every time given is less than one audio sample away
from the exact one, counted from the first frame, the corrected times are the exact ones; from some frame on they can be later, by exactly one sample. -/
theorem jitter_removed_partial (rate t0 : Int) (ts : List Int) (h0 : ts[0]? = some t0) (hj : ∀ (n : Nat) (t : Int), ts[n]? = some t → t0 + (n : Int) * (1024 * one) - one < t ∧ t < t0 + (n : Int) * (1024 * one) + one)
    (hs : ∀ o ∈ fixAll rate (Fix.new rate) ts, o ≠ nothing rate) :
    ∃ k : Nat, 0 < k ∧ ∀ (n : Nat) (o : Int), (fixAll rate (Fix.new rate) ts)[n]? = some o → o = t0 + (n : Int) * (1024 * one) + (if k ≤ n then one else 0) := by
  have key : ∀ n : Nat, n < ts.length → ∃ k : Nat, 0 < k ∧ k ≤ n + 1 ∧ Regular t0 n (decide (k ≤ n)) (stateAt rate (Fix.new rate) ts (n + 1)) ∧
      ∀ (m : Nat) (o : Int), m ≤ n → (fixAll rate (Fix.new rate) ts)[m]? = some o → o = t0 + (m : Int) * minLen + (if k ≤ m then one else 0) := by
    intro n
    induction n with
    | zero =>
      intro hn
      obtain ⟨e1, e2⟩ := fixAll_get rate ts (Fix.new rate) 0 t0 h0
      have e3 : fixTime rate (stateAt rate (Fix.new rate) ts 0) t0 = (t0, ⟨t0, 0⟩) := fixTime_first rate _ _ (by cases ts <;> rfl)
      refine ⟨1, by omega, by omega, ?_, ?_⟩
      · rw [e2, e3]; exact ⟨by simp, by simp [one]⟩
      · intro m o hm ho
        have : m = 0 := by omega
        subst this
        rw [e1, e3] at ho
        simp only [Option.some.injEq] at ho
        simp [ho]
    | succ n ih =>
      intro hn
      obtain ⟨k, hk0, hk, hR, hall⟩ := ih (by omega)
      obtain ⟨e1, e2⟩ := fixAll_get rate ts (Fix.new rate) (n + 1) _ (List.getElem?_eq_getElem hn)
      have hp := state_prev rate ts (Fix.new rate) n _ (List.getElem?_eq_getElem (by omega : n < ts.length))
      have hm : (stateAt rate (Fix.new rate) ts (n + 1)).prev ≠ nothing rate := by
        rw [hp]; exact hs _ (List.mem_of_getElem? (fixAll_get rate ts (Fix.new rate) n _ (List.getElem?_eq_getElem (by omega : n < ts.length))).1)
      obtain ⟨moved', c1, c2, c3⟩ := regular_step rate t0 n _ _ _ hR hm (hj (n + 1) _ (List.getElem?_eq_getElem hn))
      by_cases hkn : k ≤ n
      · have hm' : moved' = true := c1 (by simp [hkn])
        subst hm'
        refine ⟨k, hk0, by omega, ?_, ?_⟩
        · rw [e2]; simpa [show k ≤ n + 1 by omega] using c3
        · intro m o hmn ho
          by_cases hmm : m ≤ n
          · exact hall m o hmm ho
          · have : m = n + 1 := by omega
            subst this
            rw [e1] at ho
            simp only [Option.some.injEq] at ho
            rw [← ho, c2]; simp [show k ≤ n + 1 by omega]
      · have hk1 : k = n + 1 := by omega
        cases moved' with
        | false =>
          refine ⟨n + 2, by omega, by omega, ?_, ?_⟩
          · rw [e2]; simpa using c3
          · intro m o hmn ho
            by_cases hmm : m ≤ n
            · have := hall m o hmm ho
              rw [if_neg (by omega)] at this
              rw [if_neg (by omega)]; exact this
            · have : m = n + 1 := by omega
              subst this
              rw [e1] at ho
              simp only [Option.some.injEq] at ho
              rw [← ho, c2]; simp
        | true =>
          refine ⟨n + 1, by omega, by omega, ?_, ?_⟩
          · rw [e2]; simpa using c3
          · intro m o hmn ho
            by_cases hmm : m ≤ n
            · have := hall m o hmm ho
              rw [if_neg (by omega)] at this
              rw [if_neg (by omega)]; exact this
            · have : m = n + 1 := by omega
              subst this
              rw [e1] at ho
              simp only [Option.some.injEq] at ho
              rw [← ho, c2]; simp
  have hlen : 0 < ts.length := by have := (List.getElem?_eq_some_iff.1 h0).1; omega
  obtain ⟨k, k1, -, -, k4⟩ := key (ts.length - 1) (by omega)
  refine ⟨k, k1, fun n o ho => ?_⟩
  have hn := (List.getElem?_eq_some_iff.1 ho).1
  rw [fixAll_length] at hn
  exact k4 n o (by omega) ho

/-- times of 48 kHz rounded up to 100 ns: the hypotheses are met; here the times are moved by one sample at the fifth frame (of 100 microseconds of rounding) -/
example : fixAll 48000 (Fix.new 48000) [0, 10244000000, 20484000000, 30724000000] = [0, 10240000000, 20480000000, 30730000000] := by decide

end Verif.AudioFix
