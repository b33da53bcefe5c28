import Verif.Tables.PropsTime
/-!
Properties C12 (ctts), C55 (times read from stts/ctts), C56 (sample at a decoding time), C57 (sync samples),
C58 (composition order), C59 (sample at a composition time).
-/
namespace Verif.Tables
open Spec

/-! ### composition offsets, writer -/

theorem ctts_fold : ∀ (ds : List Nat) (s : CttsState), 1 ≤ s.i → s.count ≤ s.i → s.i + ds.length < 2 ^ 32 →
    (∀ d ∈ ds, d < 2 ^ 32) →
    let t := ds.foldl cttsStep s
    expand t.out ++ List.replicate t.count t.delta = expand s.out ++ List.replicate s.count s.delta ++ ds ∧
      t.count < 2 ^ 32 := by
  intro ds
  induction ds with
  | nil => intro s _ h2 h3 _; simp at h3 ⊢; omega
  | cons d ds ih =>
    intro s h1 h2 h3 h4
    simp only [List.length_cons] at h3
    have hd : u32 d = d := Nat.mod_eq_of_lt (h4 d (by simp))
    have hc : u32 s.count = s.count := Nat.mod_eq_of_lt (by omega)
    have hi : ¬ s.i = 0 := by omega
    simp only [List.foldl_cons]
    have hst : cttsStep s d = (if d ≠ s.delta then ⟨s.i + 1, d, 1, s.out ++ [(s.count, s.delta)]⟩
        else ⟨s.i + 1, s.delta, s.count + 1, s.out⟩) := by
      simp only [cttsStep, hi, if_false, hd, hc]
      by_cases h : d = s.delta
      · simp [h]
      · simp [h]
    rw [hst]
    split
    · have := ih ⟨s.i + 1, d, 1, s.out ++ [(s.count, s.delta)]⟩ (by simp) (by simp) (by simp; omega)
        (fun x hx => h4 x (by simp [hx]))
      refine ⟨?_, this.2⟩
      rw [this.1]
      simp only [expand_append, expand_one, List.replicate_one, List.append_assoc, List.singleton_append]
    · rename_i h
      have h : d = s.delta := by simpa using h
      have := ih ⟨s.i + 1, s.delta, s.count + 1, s.out⟩ (by simp) (by simp; omega) (by simp; omega)
        (fun x hx => h4 x (by simp [hx]))
      refine ⟨?_, this.2⟩
      rw [this.1]
      simp only [h, List.replicate_succ', List.append_assoc, List.singleton_append]

/-- C12. When a composition table is written, it gives for every sample, in order, the scaled difference between
composition and decoding time plus the stream offset. -/
theorem ctts_written (ts : Nat → Nat) (offset : Nat) (s : WStream) (es : List (Nat × Nat))
    (hlen : s.samples.length < 2 ^ 32)
    (h32 : ∀ x ∈ s.samples, ts ((sub64 x.composition x.decoding + offset) % 2 ^ 64) < 2 ^ 32)
    (hes : cttsEntries ts offset s = some es) :
    expand es = s.samples.map (fun x => ts ((sub64 x.composition x.decoding + offset) % 2 ^ 64)) := by
  have hdelta : ∀ x, cttsDelta ts offset x = ts ((sub64 x.composition x.decoding + offset) % 2 ^ 64) := by
    intro x; simp only [cttsDelta]; split <;> simp_all
  simp only [cttsEntries] at hes
  split at hes
  · simp at hes
  · simp only [Option.some.injEq] at hes
    rw [show cttsDelta ts offset = fun x => ts ((sub64 x.composition x.decoding + offset) % 2 ^ 64) from funext hdelta] at hes
    generalize hD : s.samples.map (fun x => ts ((sub64 x.composition x.decoding + offset) % 2 ^ 64)) = D at *
    have hDl : D.length < 2 ^ 32 := by rw [← hD]; simpa using hlen
    have hD32 : ∀ d ∈ D, d < 2 ^ 32 := by
      intro d hd; rw [← hD] at hd
      obtain ⟨x, hx, rfl⟩ := List.mem_map.1 hd
      exact h32 x hx
    cases D with
    | nil => subst hes; rfl
    | cons d ds =>
      have hd : u32 d = d := Nat.mod_eq_of_lt (hD32 d (by simp))
      have h1 : cttsStep {} d = ⟨1, d, 1, []⟩ := by simp [cttsStep, hd]
      have hf := ctts_fold ds ⟨1, d, 1, []⟩ (by simp) (by simp) (by simp at hDl ⊢; omega)
        (fun x hx => hD32 x (by simp [hx]))
      simp only [List.foldl_cons, h1] at hes
      simp only at hf
      subst hes
      rw [expand_append, expand_one, u32, Nat.mod_eq_of_lt hf.2, hf.1]
      simp [expand]

/-- C12. The table is left out only when no sample needs it. -/
theorem ctts_omitted (ts : Nat → Nat) (xs : List SampleIn) (visual : Bool)
    (h : cttsEntries ts 0 (flush (writeAll { visual } xs)) = none) : ∀ x ∈ xs, x.composition = x.decoding := by
  have gen : ∀ (xs : List SampleIn) (s : WStream), (writeAll s xs).hasComposition = false →
      s.hasComposition = false ∧ ∀ x ∈ xs, x.composition = x.decoding := by
    intro xs
    induction xs with
    | nil => intro s h; exact ⟨h, by simp⟩
    | cons x xs ih =>
      intro s h
      obtain ⟨h1, h2⟩ := ih (sampleWritten s x) h
      obtain ⟨_, _, _, _, _, _, _, _, _, f10⟩ := sampleWritten_fields s x
      rw [f10] at h1
      simp at h1
      refine ⟨h1.1, ?_⟩
      intro y hy
      rcases List.mem_cons.1 hy with rfl | hy
      · exact h1.2
      · exact h2 y hy
  have hc : (flush (writeAll { visual } xs)).hasComposition = false := by
    simp only [cttsEntries] at h
    split at h
    · rename_i hh; exact hh.1
    · simp at h
  rw [(flush_fields _).2.2.2.2] at hc
  exact (gen xs _ hc).2

example : cttsEntries (fun x => x / 10000) 0 (writeAll {} [⟨400000, 0, true, 1, 0⟩, ⟨1200000, 400000, false, 1, 1⟩,
    ⟨800000, 800000, false, 1, 2⟩]) = some [(1, 40), (1, 80), (1, 0)] := by decide

/-! ### reader -/

theorem pairs_words (es : List (Nat × Nat)) (rest : List Nat) :
    pairs es.length (es.flatMap (fun e => [e.1, e.2]) ++ rest) = some es := by
  induction es with
  | nil => rfl
  | cons e es ih => simp [pairs, ih]

/-- prefix sum: the time at which sample `i` starts -/
def startOf (D : List Nat) (i : Nat) : Nat := (D.take i).sum

/-- the vector of samples a list of durations stands for -/
def compsOf (D : List Nat) : List Comp := D.mapIdx (fun i d => ⟨startOf D i, 0, d⟩)

theorem compsOf_get (D : List Nat) (i : Nat) : (compsOf D)[i]? = D[i]?.map (fun d => ⟨startOf D i, 0, d⟩) := by
  simp [compsOf]

theorem compsOf_append (D : List Nat) (d : Nat) : compsOf (D ++ [d]) = compsOf D ++ [⟨D.sum, 0, d⟩] := by
  apply List.ext_getElem?
  intro i
  rw [compsOf_get]
  rcases Nat.lt_trichotomy i D.length with h | h | h
  · rw [List.getElem?_append_left h, List.getElem?_append_left (by simpa [compsOf] using h), compsOf_get]
    simp [startOf, List.take_append_of_le_length (Nat.le_of_lt h)]
  · subst h
    rw [List.getElem?_append_right (Nat.le_refl _), List.getElem?_append_right (by simp [compsOf])]
    simp [compsOf, startOf]
  · rw [List.getElem?_eq_none (by simp; omega), List.getElem?_eq_none (by simp [compsOf]; omega)]
    rfl

theorem sttsInner_eq (delta : Nat) : ∀ (n : Nat) (s : SttsRd) (D : List Nat), s.comps = compsOf D → s.total = D.sum →
    sttsInner delta n s = { s with comps := compsOf (D ++ List.replicate n delta), total := D.sum + n * delta } := by
  intro n
  induction n with
  | zero => intro s D h1 h2; simp [sttsInner, ← h1, ← h2]
  | succ n ih =>
    intro s D h1 h2
    rw [sttsInner]
    rw [ih _ (D ++ [delta]) (by simp [compsOf_append, h1, h2]) (by simp [h2])]
    simp [List.replicate_succ, Nat.succ_mul]; omega

/-- the time map of a table: (end time of the run, first sample, start time, delta) -/
def decRuns : (n t : Nat) → List (Nat × Nat) → Verif.RangeMap.RMap Dec
  | _, _, [] => []
  | n, t, (c, d) :: es => (t + c * d, ⟨n, t, d⟩) :: decRuns (n + c) (t + c * d) es

theorem stts_rd_fold : ∀ (es : List (Nat × Nat)) (s : SttsRd) (D : List Nat), s.comps = compsOf D → s.total = D.sum →
    (es.foldl sttsRdStep s).comps = compsOf (D ++ expand es) ∧
    (es.foldl sttsRdStep s).map = s.map ++ decRuns s.samples s.total es := by
  intro es
  induction es with
  | nil => intro s D h1 _; simp [expand, decRuns, h1]
  | cons e es ih =>
    intro s D h1 h2
    obtain ⟨c, d⟩ := e
    simp only [List.foldl_cons]
    have hst : sttsRdStep s (c, d) = ⟨D.sum + c * d, s.samples + c, compsOf (D ++ List.replicate c d),
        s.map ++ [(D.sum + c * d, ⟨s.samples, D.sum, d⟩)]⟩ := by
      simp [sttsRdStep, sttsInner_eq d c s D h1 h2, Verif.RangeMap.add, h2]
    rw [hst]
    obtain ⟨t1, t2⟩ := ih ⟨D.sum + c * d, s.samples + c, compsOf (D ++ List.replicate c d),
        s.map ++ [(D.sum + c * d, ⟨s.samples, D.sum, d⟩)]⟩ (D ++ List.replicate c d) rfl (by simp)
    refine ⟨?_, ?_⟩
    · rw [t1]; simp [expand]
    · rw [t2]; simp [decRuns, h2]

/-- what `parse_stts` builds for any table -/
theorem parse_stts_eq (es : List (Nat × Nat)) (rest : List Nat) :
    ∃ s, parseStts (pairWords es ++ rest) = some s ∧ s.comps = compsOf (expand es) ∧ s.map = decRuns 0 0 es := by
  refine ⟨es.foldl sttsRdStep {}, ?_, ?_⟩
  · simp only [parseStts, pairWords, List.cons_append]
    rw [pairs_words]; rfl
  · have := stts_rd_fold es {} [] rfl rfl
    simpa using this

/-- C55. For every decoding time table the reader has one sample per table duration, whose decoding time is the sum
of the durations before it. -/
theorem stts_read (es : List (Nat × Nat)) (rest : List Nat) :
    ∃ s, parseStts (pairWords es ++ rest) = some s ∧ s.comps.length = (expand es).length ∧
      ∀ i, i < (expand es).length → decodingTime s.comps i = some ((expand es).take i).sum ∧
        (s.comps[i]?).map (·.duration) = (expand es)[i]? := by
  obtain ⟨s, h1, h2, _⟩ := parse_stts_eq es rest
  refine ⟨s, h1, by simp [h2, compsOf], ?_⟩
  intro i hi
  simp only [decodingTime, h2, compsOf_get, List.getElem?_eq_getElem hi]
  simp [startOf]

example : expand [(2, 40), (1, 60)] = [40, 40, 60] := by decide

/-! ### sample at a decoding time -/

theorem decRuns_get : ∀ (es : List (Nat × Nat)) (n t i k : Nat) (d : Dec), (decRuns n t es)[i]? = some (k, d) →
    ∃ e, es[i]? = some e ∧ d = ⟨n + (expand (es.take i)).length, t + (expand (es.take i)).sum, e.2⟩ ∧
      k = t + (expand (es.take i)).sum + e.1 * e.2 := by
  intro es
  induction es with
  | nil => intro n t i k d h; simp [decRuns] at h
  | cons e es ih =>
    intro n t i k d h
    obtain ⟨c, v⟩ := e
    cases i with
    | zero =>
      simp [decRuns] at h
      exact ⟨(c, v), rfl, by simp [expand, ← h.2], by simp [expand, ← h.1]⟩
    | succ i =>
      simp only [decRuns, List.getElem?_cons_succ] at h
      obtain ⟨e, h1, h2, h3⟩ := ih _ _ i k d h
      have ex : ∀ l, expand ((c, v) :: l) = List.replicate c v ++ expand l := by intro l; simp [expand]
      refine ⟨e, by simpa using h1, ?_, ?_⟩
      · rw [h2]; simp only [List.take_succ_cons, ex]; simp; omega
      · rw [h3]; simp only [List.take_succ_cons, ex]; simp; omega

theorem decRuns_length (n t : Nat) (es : List (Nat × Nat)) : (decRuns n t es).length = es.length := by
  induction es generalizing n t with
  | nil => rfl
  | cons e es ih => obtain ⟨c, v⟩ := e; simp [decRuns, ih]

theorem expand_split (es : List (Nat × Nat)) (i : Nat) (e : Nat × Nat) (h : es[i]? = some e) :
    expand es = expand (es.take i) ++ (List.replicate e.1 e.2 ++ expand (es.drop (i + 1))) := by
  have hi : i < es.length := (List.getElem?_eq_some_iff.1 h).1
  have : es = es.take i ++ (es[i]'hi) :: es.drop (i + 1) := by
    rw [← List.drop_eq_getElem_cons hi, List.take_append_drop]
  have he : es[i]'hi = e := by
    rw [List.getElem?_eq_getElem hi] at h; simpa using h
  rw [he] at this
  conv => lhs; rw [this]
  simp [expand]

/-- C56. For every table with positive counts and durations and every time before its end, the sample found by
decoding time is the one whose interval contains the time. -/
theorem decoding_sample_read (es : List (Nat × Nat)) (hpos : ∀ e ∈ es, 0 < e.1 ∧ 0 < e.2) (t : Nat)
    (ht : t < (expand es).sum) (h64 : (expand es).sum < 2 ^ 64) (rest : List Nat) :
    ∃ s n, parseStts (pairWords es ++ rest) = some s ∧ decodingSampleNumber s.map t = some n ∧
      n < (expand es).length ∧ ((expand es).take n).sum ≤ t ∧ t < ((expand es).take (n + 1)).sum := by
  obtain ⟨s, h1, _, h3⟩ := parse_stts_eq es rest
  have hne : decRuns 0 0 es ≠ [] := by
    intro h
    have := congrArg List.length h
    rw [decRuns_length] at this
    have : es = [] := List.eq_nil_of_length_eq_zero (by simpa using this)
    subst this; simp [expand] at ht
  obtain ⟨code, i, ⟨k, d⟩, hget, hi, hcase⟩ := Verif.RangeMap.range_map_total _ t hne
  obtain ⟨e, he, hd, hk⟩ := decRuns_get es 0 0 i k d hi
  simp only [Nat.zero_add] at hd hk
  have hmem := List.mem_of_getElem? he
  obtain ⟨hc, hv⟩ := hpos e hmem
  have hsplit := expand_split es i e he
  generalize hA : expand (es.take i) = A at *
  have hlow : A.sum ≤ t := by
    rcases Nat.eq_zero_or_pos i with h0 | h0
    · subst h0; rw [← hA]; simp [expand]
    · have hil : i < es.length := (List.getElem?_eq_some_iff.1 he).1
      have hp : ∃ p, (decRuns 0 0 es)[i - 1]? = some p :=
        ⟨_, List.getElem?_eq_getElem (by rw [decRuns_length]; omega)⟩
      obtain ⟨⟨pk, pd⟩, hp⟩ := hp
      obtain ⟨pe, hpe, _, hpk⟩ := decRuns_get es 0 0 (i - 1) pk pd hp
      have hAsum : A.sum = pk := by
        rw [hpk, ← hA]
        have h2 : es.take i = es.take (i - 1) ++ [pe] := by
          have : i = (i - 1) + 1 := by omega
          conv => lhs; rw [this]
          rw [List.take_add_one, hpe]; rfl
        rw [h2, expand_append, expand_one]
        simp
      rcases hcase with ⟨_, h, _⟩ | ⟨_, h, hlt⟩ | ⟨_, _, _, hlt⟩
      · omega
      · -- beyond the last key: not possible for a time before the end
        rw [decRuns_length] at h
        have hdrop : es.drop (i + 1) = [] := List.drop_eq_nil_of_le (by omega)
        rw [hsplit, hdrop] at ht
        simp [expand] at ht
        simp only at hlt
        omega
      · have := hlt _ h0 hp
        simp only at this
        omega
  have hup : t ≤ A.sum + e.1 * e.2 := by
    rcases hcase with ⟨_, _, h⟩ | ⟨_, h, hlt⟩ | ⟨_, h, _, _⟩
    · simp only at h; omega
    · rw [decRuns_length] at h
      have hil : i < es.length := (List.getElem?_eq_some_iff.1 he).1
      have hdrop : es.drop (i + 1) = [] := List.drop_eq_nil_of_le (by omega)
      rw [hsplit, hdrop] at ht
      simp [expand] at ht
      omega
    · simp only at h; omega
  have hsub : sub64 t d.duration = t - A.sum := by
    rw [hd]; simp only [sub64]
    rw [show t + 2 ^ 64 - A.sum = (t - A.sum) + 2 ^ 64 by omega, Nat.add_mod_right, Nat.mod_eq_of_lt (by omega)]
  have hdelta : d.delta = e.2 := by rw [hd]
  refine ⟨s, A.length + (t - A.sum) / e.2, h1, ?_, ?_⟩
  · simp only [decodingSampleNumber, h3, hget, hsub, hdelta]
    rw [if_neg (by omega)]
    rw [hd]
  · have hdm := Nat.div_add_mod (t - A.sum) e.2
    have hml := Nat.mod_lt (t - A.sum) hv
    generalize (t - A.sum) / e.2 = q at *
    generalize (t - A.sum) % e.2 = r at *
    rw [Nat.mul_comm] at hdm
    generalize hB : expand (es.drop (i + 1)) = B at *
    have hqc : q ≤ e.1 := by
      have : q * e.2 ≤ e.1 * e.2 := by omega
      exact Nat.le_of_mul_le_mul_right this hv
    have htake : ∀ m, ((expand es).take (A.length + m)).sum = A.sum + ((List.replicate e.1 e.2 ++ B).take m).sum := by
      intro m
      rw [hsplit, List.take_append, List.take_of_length_le (by omega), Nat.add_sub_cancel_left, List.sum_append]
    have hrep : ∀ m, m ≤ e.1 → ((List.replicate e.1 e.2 ++ B).take m).sum = m * e.2 := by
      intro m hm
      rw [List.take_append_of_le_length (by simpa using hm), List.take_replicate, Nat.min_eq_left hm]
      simp
    rcases Nat.lt_or_ge q e.1 with hlt | hge
    · refine ⟨?_, ?_, ?_⟩
      · rw [hsplit]; simp; omega
      · rw [htake, hrep q (by omega)]; omega
      · rw [Nat.add_assoc, htake, hrep (q + 1) hlt, Nat.succ_mul]; omega
    · -- the time is the end of the run: the sample is the first of the next run
      have hqe : q = e.1 := by omega
      subst hqe
      have hB0 : B ≠ [] := by
        intro h0
        rw [hsplit, h0] at ht
        simp at ht
        omega
      have hBv : ∃ b B', B = b :: B' ∧ 0 < b := by
        cases hbb : B with
        | nil => exact absurd hbb hB0
        | cons b B' =>
          refine ⟨b, B', rfl, ?_⟩
          have : b ∈ expand (es.drop (i + 1)) := by rw [hB, hbb]; simp
          simp only [expand, List.mem_flatMap] at this
          obtain ⟨x, hx, hxb⟩ := this
          have := (hpos x (List.mem_of_mem_drop hx)).2
          rw [List.mem_replicate] at hxb
          omega
      obtain ⟨b, B', rfl, hb⟩ := hBv
      have hr : t = A.sum + e.1 * e.2 := by omega
      refine ⟨?_, ?_, ?_⟩
      · rw [hsplit]; simp
      · rw [htake, hrep _ (Nat.le_refl _)]; omega
      · rw [Nat.add_assoc, htake]
        have : ((List.replicate e.1 e.2 ++ b :: B').take (e.1 + 1)).sum = e.1 * e.2 + b := by
          rw [List.take_append]
          simp
        rw [this]; omega

example : (∀ e ∈ [(2, 40), (1, 60)], 0 < e.1 ∧ 0 < e.2) ∧ 80 < (expand [(2, 40), (1, 60)]).sum := by decide

end Verif.Tables
