import Verif.Tables.Props
import Mathlib.Tactic.Ring
import Mathlib.Tactic.Linarith
/-!
Properties C11 (stts), C12 (ctts), C55-C58 (time lookups of the reader).
-/
namespace Verif.Tables
open Spec

/-! ### writing decoding times -/

/-- The scaled steps between decoding times as the writer measures them: the elapsed time is counted from the
times already expressed in the table, not from the previous sample. -/
def deltas (ts hn : Nat → Nat) (last : Nat) : List Nat → List Nat
  | [] => []
  | d :: ds => ts (sub64 d last) :: deltas ts hn ((last + hn (ts (sub64 d last))) % 2 ^ 64) ds

theorem expand_append (a b : List (Nat × Nat)) : expand (a ++ b) = expand a ++ expand b := by
  simp [expand]

theorem expand_one (c v : Nat) : expand [(c, v)] = List.replicate c v := by simp [expand]

theorem stts_fold (ts hn : Nat → Nat) : ∀ (ds : List Nat) (s : SttsState), 2 ≤ s.i → s.count ≤ s.i →
    s.i + ds.length < 2 ^ 32 → (∀ d ∈ deltas ts hn s.last ds, d < 2 ^ 32) →
    let t := ds.foldl (sttsStep ts hn) s
    expand t.out ++ List.replicate t.count t.delta =
      expand s.out ++ List.replicate s.count s.delta ++ deltas ts hn s.last ds ∧ t.count ≤ t.i ∧
      t.i = s.i + ds.length ∧ (s.count ≠ 0 → t.count ≠ 0) := by
  intro ds
  induction ds with
  | nil => intro s _ h2 _ _; simp [deltas, h2]
  | cons d ds ih =>
    intro s h1 h2 h3 h4
    simp only [List.length_cons] at h3
    have hd : ts (sub64 d s.last) < 2 ^ 32 := h4 _ (by simp [deltas])
    have hst : sttsStep ts hn s d =
        (if ts (sub64 d s.last) ≠ s.delta then
          ⟨s.i + 1, (s.last + hn (ts (sub64 d s.last))) % 2 ^ 64, ts (sub64 d s.last), 1, s.out ++ [(s.count, s.delta)]⟩
         else ⟨s.i + 1, (s.last + hn (ts (sub64 d s.last))) % 2 ^ 64, s.delta, s.count + 1, s.out⟩) := by
      have hi1 : ¬ s.i = 1 := by omega
      simp only [sttsStep, hi1, if_false]
      by_cases h : ts (sub64 d s.last) = s.delta
      · simp [h]
      · have h0 : 0 < s.i := by omega
        have e1 : u32 (ts (sub64 d s.last)) = ts (sub64 d s.last) := Nat.mod_eq_of_lt hd
        have e2 : u32 s.count = s.count := Nat.mod_eq_of_lt (by omega)
        simp [h, h0, e1, e2]
    simp only [List.foldl_cons, hst]
    split
    · have := ih ⟨s.i + 1, (s.last + hn (ts (sub64 d s.last))) % 2 ^ 64, ts (sub64 d s.last), 1,
        s.out ++ [(s.count, s.delta)]⟩ (by simp; omega) (by simp) (by simp; omega)
        (fun x hx => h4 x (by simp only [deltas]; exact List.mem_cons_of_mem _ hx))
      obtain ⟨t1, t2, t3, t4⟩ := this
      refine ⟨?_, t2, by simp only at t3; rw [t3]; simp; omega, fun _ => t4 (by simp)⟩
      rw [t1]
      simp only [expand_append, expand_one, deltas, List.replicate_one, List.append_assoc, List.singleton_append]
    · rename_i h
      have h : ts (sub64 d s.last) = s.delta := by simpa using h
      have := ih ⟨s.i + 1, (s.last + hn (ts (sub64 d s.last))) % 2 ^ 64, s.delta, s.count + 1, s.out⟩
        (by simp; omega) (by simp; omega) (by simp; omega)
        (fun x hx => h4 x (by simp only [deltas]; exact List.mem_cons_of_mem _ hx))
      obtain ⟨t1, t2, t3, t4⟩ := this
      refine ⟨?_, t2, by simp only at t3; rw [t3]; simp; omega, fun _ => t4 (by simp)⟩
      rw [t1]
      simp only [deltas, h, List.replicate_succ', List.append_assoc, List.singleton_append]

theorem replicate_succ_last (c v : Nat) : List.replicate (c + 1) v = List.replicate c v ++ [v] := List.replicate_succ'

/-- C11 (partial: a stream with a single sample gets two, see `stts_single_witness`). For two or more samples the
table has exactly one duration per sample: the measured steps, the last one repeated for the last sample. -/
theorem stts_written_partial (ts hn : Nat → Nat) (allowEmpty : Bool) (d0 d1 : Nat) (ds : List Nat)
    (hlen : ds.length + 3 < 2 ^ 32)
    (h32 : ∀ d ∈ deltas ts hn 0 (d0 :: d1 :: ds), d < 2 ^ 32) :
    ∃ steps last, deltas ts hn 0 (d0 :: d1 :: ds) = ts (sub64 d0 0) :: (steps ++ [last]) ∧
      expand (sttsEntries ts hn allowEmpty (d0 :: d1 :: ds)) = steps ++ [last, last] := by
  have h1 : sttsStep ts hn {} d0 = ⟨1, hn (ts (sub64 d0 0)) % 2 ^ 64, 0, 1, []⟩ := by simp [sttsStep]
  have hd1 : ts (sub64 d1 (hn (ts (sub64 d0 0)) % 2 ^ 64)) < 2 ^ 32 := h32 _ (by simp [deltas])
  have h2 : sttsStep ts hn ⟨1, hn (ts (sub64 d0 0)) % 2 ^ 64, 0, 1, []⟩ d1 =
      ⟨2, (hn (ts (sub64 d0 0)) % 2 ^ 64 + hn (ts (sub64 d1 (hn (ts (sub64 d0 0)) % 2 ^ 64)))) % 2 ^ 64,
        ts (sub64 d1 (hn (ts (sub64 d0 0)) % 2 ^ 64)), 1, []⟩ := by
    have e1 : u32 (ts (sub64 d1 (hn (ts (sub64 d0 0)) % 2 ^ 64))) = ts (sub64 d1 (hn (ts (sub64 d0 0)) % 2 ^ 64)) :=
      Nat.mod_eq_of_lt hd1
    simp only [sttsStep, if_true, e1, ne_eq, not_true_eq_false, false_and, if_false]
  have hf := stts_fold ts hn ds ⟨2, (hn (ts (sub64 d0 0)) % 2 ^ 64 +
        hn (ts (sub64 d1 (hn (ts (sub64 d0 0)) % 2 ^ 64)))) % 2 ^ 64,
        ts (sub64 d1 (hn (ts (sub64 d0 0)) % 2 ^ 64)), 1, []⟩ (by simp) (by simp) (by simp; omega)
        (fun x hx => h32 x (by
          simp only [deltas, Nat.zero_add]; exact List.mem_cons_of_mem _ (List.mem_cons_of_mem _ hx)))
  simp only at hf
  generalize hF : ds.foldl (sttsStep ts hn) ⟨2, (hn (ts (sub64 d0 0)) % 2 ^ 64 +
        hn (ts (sub64 d1 (hn (ts (sub64 d0 0)) % 2 ^ 64)))) % 2 ^ 64,
        ts (sub64 d1 (hn (ts (sub64 d0 0)) % 2 ^ 64)), 1, []⟩ = F at hf
  obtain ⟨t1, t2, t3, t4⟩ := hf
  have hfold : (d0 :: d1 :: ds).foldl (sttsStep ts hn) {} = F := by
    simp only [List.foldl_cons, h1, h2, hF]
  obtain ⟨c, hc⟩ : ∃ c, F.count = c + 1 := ⟨F.count - 1, by have := t4 (by simp); omega⟩
  refine ⟨expand F.out ++ List.replicate c F.delta, F.delta, ?_, ?_⟩
  · have : deltas ts hn 0 (d0 :: d1 :: ds) = ts (sub64 d0 0) ::
        (List.replicate 1 (ts (sub64 d1 (hn (ts (sub64 d0 0)) % 2 ^ 64))) ++
          deltas ts hn ((hn (ts (sub64 d0 0)) % 2 ^ 64 +
            hn (ts (sub64 d1 (hn (ts (sub64 d0 0)) % 2 ^ 64)))) % 2 ^ 64) ds) := by
      simp [deltas]
    rw [this]
    rw [hc, replicate_succ_last] at t1
    simp only [expand, List.flatMap_nil, List.nil_append] at t1 ⊢
    rw [← t1, List.append_assoc]
  · simp only [sttsEntries, hfold]
    rw [if_pos (by simp)]
    rw [expand_append, expand_one]
    have : u32 (F.count + 1) = c + 1 + 1 := by
      rw [hc]; exact Nat.mod_eq_of_lt (by rw [hc] at t2; omega)
    rw [this, replicate_succ_last, replicate_succ_last]
    simp

/-- the hypotheses are met by a stream with varying steps, 1000 ticks per second -/
example : expand (sttsEntries (fun x => x * 1000 / 10000000) (fun d => d * 10000000 / 1000) false
    [400000, 800000, 1200000, 1800000]) = [40, 40, 60, 60] := by decide

/-- C11 is false of the code for a stream with one sample: the table says two samples of duration 0. -/
theorem stts_single_witness (ts hn : Nat → Nat) (allowEmpty : Bool) (d0 : Nat) :
    sttsEntries ts hn allowEmpty [d0] = [(2, 0)] := by
  simp [sttsEntries, sttsStep, u32]

/-! ### how far the written times are from the real ones -/

/-- `ts` converts 100 ns units into ticks of `1/T` second, never too many and less than `e` ticks too few (exact
rounding down is `e = 1`; floating point may lose one more). -/
def ScaleDown (ts : Nat → Nat) (T e : Nat) : Prop :=
  ∀ x, ts x * 10000000 ≤ x * T ∧ x * T < (ts x + e) * 10000000

/-- `hn` converts ticks to 100 ns units, rounded down. -/
def HnanoDown (hn : Nat → Nat) (T : Nat) : Prop := ∀ d, hn d * T ≤ d * 10000000 ∧ d * 10000000 < (hn d + 1) * T

theorem deltas_bound (ts hn : Nat → Nat) (T e : Nat) (hT : 0 < T) (hts : ScaleDown ts T e) (hhn : HnanoDown hn T) :
    ∀ (decs : List Nat) (last i : Nat), (∀ d ∈ decs, last ≤ d ∧ d < 2 ^ 64) → decs.Pairwise (· ≤ ·) →
    decs[i]? ≠ none →
    ∃ l, (∀ d, decs[i]? = some d → l ≤ d ∧ d * T < l * T + e * 10000000 + T) ∧
      l * T ≤ last * T + ((deltas ts hn last decs).take (i + 1)).sum * 10000000 ∧
      last * T + ((deltas ts hn last decs).take (i + 1)).sum * 10000000 ≤ l * T + (i + 1) * T ∧
      (T ∣ 10000000 → l * T = last * T + ((deltas ts hn last decs).take (i + 1)).sum * 10000000 ∧
        ∀ d, decs[i]? = some d → d * T < l * T + e * 10000000) := by
  intro decs
  induction decs with
  | nil => intro last i _ _ h; simp at h
  | cons d ds ih =>
    intro last i hl hs hi
    have hd := hl d (by simp)
    have hsub : sub64 d last = d - last := by
      simp only [sub64]
      rw [show d + 2 ^ 64 - last = (d - last) + 2 ^ 64 by omega, Nat.add_mod_right, Nat.mod_eq_of_lt (by omega)]
    have h1 := hts (d - last)
    have h2 := hhn (ts (d - last))
    have hle : hn (ts (d - last)) ≤ d - last := by
      have : hn (ts (d - last)) * T ≤ (d - last) * T := by omega
      exact Nat.le_of_mul_le_mul_right this hT
    have hmod : (last + hn (ts (d - last))) % 2 ^ 64 = last + hn (ts (d - last)) := Nat.mod_eq_of_lt (by omega)
    have hdl : (d - last) * T + last * T = d * T := by rw [← Nat.add_mul]; congr 1; omega
    have hnl : (last + hn (ts (d - last))) * T = last * T + hn (ts (d - last)) * T := Nat.add_mul _ _ _
    have hexact : T ∣ 10000000 → hn (ts (d - last)) * T = ts (d - last) * 10000000 := by
      rintro ⟨q, hq⟩
      have hx : ts (d - last) * 10000000 = (ts (d - last) * q) * T := by rw [hq]; ring
      rw [hx] at h2 ⊢
      have a1 := Nat.le_of_mul_le_mul_right h2.1 hT
      have a2 := Nat.lt_of_mul_lt_mul_right h2.2
      have : hn (ts (d - last)) = ts (d - last) * q := by omega
      rw [this]
    have e1 : (ts (d - last) + e) * 10000000 = ts (d - last) * 10000000 + e * 10000000 := Nat.add_mul _ _ _
    have e2 : (hn (ts (d - last)) + 1) * T = hn (ts (d - last)) * T + T := Nat.succ_mul _ _
    cases i with
    | zero =>
      refine ⟨last + hn (ts (d - last)), ?_, ?_, ?_, ?_⟩
      · intro d' hd'
        simp at hd'; subst hd'
        exact ⟨by omega, by omega⟩
      · simp only [deltas, hsub, List.take_succ_cons, List.take_zero, List.sum_cons, List.sum_nil, Nat.add_zero]; omega
      · simp only [deltas, hsub, List.take_succ_cons, List.take_zero, List.sum_cons, List.sum_nil, Nat.add_zero]; omega
      · intro hdvd
        have := hexact hdvd
        refine ⟨?_, ?_⟩
        · simp only [deltas, hsub, List.take_succ_cons, List.take_zero, List.sum_cons, List.sum_nil, Nat.add_zero]; omega
        · intro d' hd'
          simp at hd'; subst hd'; omega
    | succ i =>
      have := ih (last + hn (ts (d - last))) i (by
          intro d' hd'
          have hdd : d ≤ d' := List.rel_of_pairwise_cons hs hd'
          exact ⟨by omega, (hl d' (by simp [hd'])).2⟩) (List.Pairwise.of_cons hs) (by simpa using hi)
      obtain ⟨l, p1, p2, p3, p4⟩ := this
      refine ⟨l, ?_, ?_, ?_, ?_⟩
      · intro d' hd'; exact p1 d' (by simpa using hd')
      · simp only [deltas, hsub, hmod, List.take_succ_cons, List.sum_cons, Nat.add_mul]
        omega
      · simp only [deltas, hsub, hmod, List.take_succ_cons, List.sum_cons, Nat.add_mul] at *
        omega
      · intro hdvd
        have := hexact hdvd
        obtain ⟨q1, q2⟩ := p4 hdvd
        refine ⟨?_, fun d' hd' => q2 d' (by simpa using hd')⟩
        simp only [deltas, hsub, hmod, List.take_succ_cons, List.sum_cons, Nat.add_mul] at *
        omega

/-- C11, drift. When the time scale divides 10^7 (1000, 10^7, 50, ...) and decoding times do not decrease, the
time of every sample in the table (counted from zero, in ticks) is never ahead of its decoding time and less than
`e` ticks behind, however long the stream. -/
theorem stts_no_drift (ts hn : Nat → Nat) (T e : Nat) (hT : 0 < T) (hdvd : T ∣ 10000000) (hts : ScaleDown ts T e)
    (hhn : HnanoDown hn T) (decs : List Nat) (hs : decs.Pairwise (· ≤ ·)) (h64 : ∀ d ∈ decs, d < 2 ^ 64)
    (i d : Nat) (hi : decs[i]? = some d) :
    ((deltas ts hn 0 decs).take (i + 1)).sum * 10000000 ≤ d * T ∧
      d * T < (((deltas ts hn 0 decs).take (i + 1)).sum + e) * 10000000 := by
  obtain ⟨l, p1, _, _, p4⟩ := deltas_bound ts hn T e hT hts hhn decs 0 i (fun d hd => ⟨Nat.zero_le _, h64 d hd⟩) hs
    (by rw [hi]; simp)
  obtain ⟨q1, q2⟩ := p4 hdvd
  have h1 := (p1 d hi).1
  have h2 := q2 d hi
  have h3 : l * T ≤ d * T := Nat.mul_le_mul_right _ h1
  rw [Nat.add_mul]
  omega

/-- C11, drift for any time scale: the time in the table can run ahead of the decoding time, by at most 100 ns per
sample written; it is never behind by more than `e` ticks and 100 ns. -/
theorem stts_drift_bound (ts hn : Nat → Nat) (T e : Nat) (hT : 0 < T) (hts : ScaleDown ts T e)
    (hhn : HnanoDown hn T) (decs : List Nat) (hs : decs.Pairwise (· ≤ ·)) (h64 : ∀ d ∈ decs, d < 2 ^ 64)
    (i d : Nat) (hi : decs[i]? = some d) :
    ((deltas ts hn 0 decs).take (i + 1)).sum * 10000000 ≤ d * T + (i + 1) * T ∧
      d * T < (((deltas ts hn 0 decs).take (i + 1)).sum + e) * 10000000 + T := by
  obtain ⟨l, p1, p2, p3, _⟩ := deltas_bound ts hn T e hT hts hhn decs 0 i (fun d hd => ⟨Nat.zero_le _, h64 d hd⟩) hs
    (by rw [hi]; simp)
  obtain ⟨h1, h2⟩ := p1 d hi
  have h3 : l * T ≤ d * T := Nat.mul_le_mul_right _ h1
  rw [Nat.add_mul _ e]
  omega

theorem scale_exact (T : Nat) : ScaleDown (fun x => x * T / 10000000) T 1 := by
  intro x
  have := Nat.div_add_mod (x * T) 10000000
  have := Nat.mod_lt (x * T) (show 0 < 10000000 by decide)
  simp only
  omega

theorem hnano_exact (T : Nat) (hT : 0 < T) : HnanoDown (fun d => d * 10000000 / T) T := by
  intro d
  have h1 := Nat.div_add_mod (d * 10000000) T
  have h2 := Nat.mod_lt (d * 10000000) hT
  simp only
  rw [Nat.mul_comm] at h1
  rw [Nat.succ_mul]
  omega

/-- The drift is real: with 90000 ticks per second and 30 frames per second, the time in the table is ahead of the
decoding time by more than two ticks after 700 frames. -/
theorem stts_drift_witness :
    let decs := (List.range 700).map (fun i => i * 10000000 / 30)
    ((deltas (fun x => x * 90000 / 10000000) (fun d => d * 10000000 / 90000) 0 decs).take 700).sum =
      699 * 90000 / 30 + 2 := by
  decide +kernel

end Verif.Tables
