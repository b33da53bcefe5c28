import Verif.Validation.Spec
/-
C155: the check of the written fragments reports a sample exactly when it does not follow the sample before it.
-/
namespace Verif.Validation
open Spec

/-- The arrays hold what the calls so far say. -/
structure Inv (s : State) (es : List Ev) : Prop where
  ll : s.last.length = 16
  tl : s.total.length = 16
  last : ∀ k, k < 16 → s.last[k]? = some ((lastUse k es).getD mark)
  total : ∀ k, k < 16 → s.total[k]? = some ((lastTotal k es).getD mark)

theorem inv_init : Inv init [] where
  ll := by simp [init]
  tl := by simp [init]
  last := by intro k hk; simp only [init, lastUse, List.getElem?_replicate, hk, if_true]; rfl
  total := by intro k hk; simp only [init, lastTotal, List.getElem?_replicate, hk, if_true]; rfl

theorem lastUse_snoc (k : Nat) (es : List Ev) (e : Ev) : lastUse k (es ++ [e]) = match e with | .use j n => if j = k then some n else lastUse k es | _ => lastUse k es := by
  unfold lastUse
  rw [List.filterMap_append]
  cases e with
  | start j t => simp [useOf]
  | finish j t => simp [useOf]
  | use j n => by_cases h : j = k <;> simp [h, useOf]

theorem lastTotal_snoc (k : Nat) (es : List Ev) (e : Ev) : lastTotal k (es ++ [e]) = match e with | .finish j n => if j = k then some n else lastTotal k es | _ => lastTotal k es := by
  unfold lastTotal
  rw [List.filterMap_append]
  cases e with
  | start j t => simp [totalOf]
  | use j t => simp [totalOf]
  | finish j n => by_cases h : j = k <;> simp [h, totalOf]

theorem mem_of_lastUse {k a : Nat} {es : List Ev} (h : lastUse k es = some a) : Ev.use k a ∈ es := by
  have := List.mem_of_getLast? h
  obtain ⟨e, he, hf⟩ := List.mem_filterMap.mp this
  cases e with
  | start j t => simp [useOf] at hf
  | finish j t => simp [useOf] at hf
  | use j n =>
    simp only [useOf, Option.ite_none_right_eq_some, Option.some.injEq] at hf
    obtain ⟨rfl, rfl⟩ := hf
    exact he

theorem mem_of_lastTotal {k a : Nat} {es : List Ev} (h : lastTotal k es = some a) : Ev.finish k a ∈ es := by
  have := List.mem_of_getLast? h
  obtain ⟨e, he, hf⟩ := List.mem_filterMap.mp this
  cases e with
  | start j t => simp [totalOf] at hf
  | use j t => simp [totalOf] at hf
  | finish j n =>
    simp only [totalOf, Option.ite_none_right_eq_some, Option.some.injEq] at hf
    obtain ⟨rfl, rfl⟩ := hf
    exact he

theorem pred64_pos {n : Nat} (h0 : n ≠ 0) (h : n < 2 ^ 64) : pred64 n = n - 1 := by unfold pred64; omega

/-- What one call reports. -/
theorem step_spec {s : State} {es : List Ev} (hi : Inv s es) (hf : ∀ e ∈ es, Fits e) (e : Ev) (he : Fits e) :
    ∃ s' ms, step s e = some (s', ms) ∧ Inv s' (es ++ [e]) ∧
      ms = match e with
        | .use k n =>
          (match lastUse k es with
          | none => []
          | some a =>
            if n = a + 1 ∨ (n = 0 ∧ lastTotal k es = some (a + 1)) then []
            else if n = 0 then [.atTheEnd k ((lastTotal k es).getD mark) a] else [.inTheMiddle k (n - 1) a])
        | _ => [] := by
  cases e with
  | start k t =>
    refine ⟨s, [], rfl, ⟨hi.ll, hi.tl, ?_, ?_⟩, rfl⟩
    · intro j hj; rw [lastUse_snoc]; exact hi.last j hj
    · intro j hj; rw [lastTotal_snoc]; exact hi.total j hj
  | finish k t =>
    have hk : k < s.total.length := by rw [hi.tl]; exact he.1
    refine ⟨{ s with total := s.total.set k t }, [], by simp [step, hk], ⟨hi.ll, by simpa using hi.tl, ?_, ?_⟩, rfl⟩
    · intro j hj; rw [lastUse_snoc]; exact hi.last j hj
    · intro j hj
      rw [lastTotal_snoc]
      by_cases h : k = j
      · subst h; simp [hk]
      · simp only [h, if_false]; rw [List.getElem?_set_ne h]; exact hi.total j hj
  | use k n =>
    have hk : k < 16 := he.1
    have hn : n < 2 ^ 64 - 2 := he.2
    refine ⟨{ s with last := s.last.set k n }, _, by rw [step, hi.last k hk, hi.total k hk], ⟨by simpa using hi.ll, hi.tl, ?_, ?_⟩, ?_⟩
    · intro j hj
      rw [lastUse_snoc]
      by_cases h : k = j
      · subst h; simp [hi.ll, hk]
      · simp only [h, if_false]; rw [List.getElem?_set_ne h]; exact hi.last j hj
    · intro j hj; rw [lastTotal_snoc]; exact hi.total j hj
    · show _ = (match lastUse k es with
          | none => []
          | some a =>
            if n = a + 1 ∨ (n = 0 ∧ lastTotal k es = some (a + 1)) then []
            else if n = 0 then [Msg.atTheEnd k ((lastTotal k es).getD mark) a] else [Msg.inTheMiddle k (n - 1) a])
      cases hu : lastUse k es with
      | none => simp
      | some a =>
        show _ = if n = a + 1 ∨ (n = 0 ∧ lastTotal k es = some (a + 1)) then []
            else if n = 0 then [Msg.atTheEnd k ((lastTotal k es).getD mark) a] else [Msg.inTheMiddle k (n - 1) a]
        have ha : a < 2 ^ 64 - 2 := (hf _ (mem_of_lastUse hu)).2
        have hm : mark ≠ a := by unfold mark; omega
        simp only [Option.getD_some, hm, ne_eq, not_false_eq_true, if_true]
        by_cases h0 : n = 0
        · subst h0
          simp only [if_true, true_and, show ¬(0 = a + 1) by omega, false_or]
          cases ht : lastTotal k es with
          | none =>
            have : pred64 mark ≠ a := by unfold pred64 mark; omega
            simp [this]
          | some t =>
            have htt : t < 2 ^ 64 - 2 := (hf _ (mem_of_lastTotal ht)).2
            have : (pred64 t = a) ↔ (t = a + 1) := by
              by_cases ht0 : t = 0
              · subst ht0; unfold pred64; omega
              · rw [pred64_pos ht0 (by omega)]; omega
            simp [this]
        · have h0' : ¬ (0 = n) := fun h => h0 h.symm
          simp only [h0', if_false, h0, false_and, or_false]
          rw [pred64_pos h0 (by omega)]
          have : (n - 1 = a) ↔ (n = a + 1) := by omega
          simp [this]

/-- The messages of a run from any state that agrees with the calls before. -/
theorem run_mem : ∀ (es : List Ev) (s : State) (before : List Ev), Inv s before → (∀ e ∈ before, Fits e) → (∀ e ∈ es, Fits e) →
    ∃ s' ms, run s es = some (s', ms) ∧ Inv s' (before ++ es) ∧
      ∀ m, m ∈ ms ↔ ∃ pre k n post a, es = pre ++ .use k n :: post ∧ lastUse k (before ++ pre) = some a ∧
        ¬ (n = a + 1 ∨ (n = 0 ∧ lastTotal k (before ++ pre) = some (a + 1))) ∧
        m = if n = 0 then .atTheEnd k ((lastTotal k (before ++ pre)).getD mark) a else .inTheMiddle k (n - 1) a
  | [], s, before, hi, _, _ => ⟨s, [], rfl, by simpa using hi, by simp⟩
  | e :: es, s, before, hi, hb, he => by
    obtain ⟨s1, m1, h1, hi1, hm1⟩ := step_spec hi hb e (he e (by simp))
    obtain ⟨s2, m2, h2, hi2, hm2⟩ := run_mem es s1 (before ++ [e]) hi1
      (by intro x hx; rcases List.mem_append.mp hx with h | h
          · exact hb x h
          · simp at h; subst h; exact he _ (by simp))
      (fun x hx => he x (by simp [hx]))
    refine ⟨s2, m1 ++ m2, by simp [run, h1, h2], by simpa using hi2, ?_⟩
    intro m
    rw [List.mem_append, hm2]
    constructor
    · rintro (h | ⟨pre, k, n, post, a, rfl, h3, h4, h5⟩)
      · cases e with
        | start k t => rw [hm1] at h; simp at h
        | finish k t => rw [hm1] at h; simp at h
        | use k n =>
          rw [hm1] at h
          cases hu : lastUse k before with
          | none => simp [hu] at h
          | some a =>
            simp only [hu] at h
            by_cases hg : n = a + 1 ∨ (n = 0 ∧ lastTotal k before = some (a + 1))
            · simp [hg] at h
            · refine ⟨[], k, n, es, a, rfl, by simpa using hu, by simpa using hg, ?_⟩
              simp only [hg, if_false] at h
              by_cases h0 : n = 0
              · simpa [h0] using h
              · simpa [h0] using h
      · exact ⟨e :: pre, k, n, post, a, rfl, by simpa using h3, by simpa using h4, by simpa using h5⟩
    · rintro ⟨pre, k, n, post, a, heq, h3, h4, h5⟩
      cases pre with
      | nil =>
        left
        simp only [List.nil_append, List.cons.injEq] at heq
        obtain ⟨rfl, rfl⟩ := heq
        simp only [List.append_nil] at h3 h4 h5
        rw [hm1]
        simp only [h3, h4, if_false]
        by_cases h0 : n = 0
        · simpa [h0] using h5
        · simpa [h0] using h5
      | cons x pre =>
        right
        simp only [List.cons_append, List.cons.injEq] at heq
        obtain ⟨rfl, rfl⟩ := heq
        exact ⟨pre, k, n, post, a, rfl, by simpa using h3, by simpa using h4, by simpa using h5⟩

/-- C155: for every sequence of calls (any interleaving of up to 16 streams) the run does not leave the arrays, and the messages are exactly: for every sample that does not follow what came before in its stream, the message for the
end of a file if it is the first of a file, the one for the middle otherwise, with the number of the sample before it. -/
theorem messages_exact (es : List Ev) (hf : ∀ e ∈ es, Fits e) :
    ∃ ms, messages es = some ms ∧ ∀ m, m ∈ ms ↔ ∃ pre k n post a, es = pre ++ .use k n :: post ∧ lastUse k pre = some a ∧ ¬ Follows k pre n ∧
      m = if n = 0 then .atTheEnd k ((lastTotal k pre).getD mark) a else .inTheMiddle k (n - 1) a := by
  obtain ⟨s, ms, h, -, hm⟩ := run_mem es init [] inv_init (by simp) hf
  refine ⟨ms, by simp [messages, h], ?_⟩
  intro m
  rw [hm]
  constructor
  · rintro ⟨pre, k, n, post, a, h1, h2, h3, h4⟩
    simp only [List.nil_append] at h2 h3 h4
    exact ⟨pre, k, n, post, a, h1, h2, fun hfo => h3 (hfo a h2), h4⟩
  · rintro ⟨pre, k, n, post, a, h1, h2, h3, h4⟩
    refine ⟨pre, k, n, post, a, h1, by simpa using h2, ?_, by simpa using h4⟩
    intro hg
    apply h3
    intro b hb
    rw [h2] at hb
    simp only [Option.some.injEq] at hb
    subst hb
    simpa using hg

/-- Nothing is reported if and only if every sample follows. -/
theorem silent_iff (es : List Ev) (hf : ∀ e ∈ es, Fits e) :
    messages es = some [] ↔ ∀ pre k n post, es = pre ++ .use k n :: post → Follows k pre n := by
  obtain ⟨ms, h, hm⟩ := messages_exact es hf
  rw [h]
  constructor
  · intro he pre k n post hes a ha
    apply Classical.byContradiction
    intro hc
    have he' : ms = [] := by simpa using he
    have := (hm _).mpr ⟨pre, k, n, post, a, hes, ha, fun hfo => hc (hfo a ha), rfl⟩
    rw [he'] at this
    simp at this
  · intro hall
    cases hms : ms with
    | nil => rfl
    | cons m r =>
      obtain ⟨pre, k, n, post, a, h1, -, h3, -⟩ := (hm m).mp (by rw [hms]; simp)
      exact absurd (hall pre k n post h1) h3

/-- What is in the arrays before sample `n` of stream `k` comes: everything is fine so far. -/
def Ready (s : State) (k n : Nat) : Prop :=
  if n = 0 then s.last[k]? = some mark ∨ ∃ a, a < 2 ^ 64 - 2 ∧ s.last[k]? = some a ∧ s.total[k]? = some (a + 1)
  else s.last[k]? = some (n - 1)

theorem run_append (s : State) (xs ys : List Ev) : run s (xs ++ ys) = (run s xs).bind fun r => (run r.1 ys).map fun q => (q.1, r.2 ++ q.2) := by
  induction xs generalizing s with
  | nil => cases h : run s ys <;> simp [run, h]
  | cons e xs ih =>
    simp only [List.cons_append, run]
    cases h : step s e with
    | none => simp
    | some r =>
      simp only [ih]
      cases h2 : run r.1 xs with
      | none => simp
      | some q =>
        simp only [Option.bind_some, Option.map_some]
        cases h3 : run q.1 ys <;> simp

/-- Consecutive samples are not reported. -/
theorem uses_quiet (k : Nat) (hk : k < 16) : ∀ (m n : Nat) (s : State), s.last.length = 16 → s.total.length = 16 → n + m < 2 ^ 64 - 2 → Ready s k n →
    ∃ s', run s ((List.range' n m).map (.use k)) = some (s', []) ∧ s'.last.length = 16 ∧ s'.total = s.total ∧
      (0 < m → s'.last[k]? = some (n + m - 1)) ∧ (m = 0 → s' = s) ∧ ∀ j, j ≠ k → s'.last[j]? = s.last[j]?
  | 0, n, s, hl, ht, _, _ => ⟨s, by simp [run], hl, rfl, by omega, fun _ => rfl, fun _ _ => rfl⟩
  | m + 1, n, s, hl, ht, hb, hr => by
    obtain ⟨t, htt⟩ : ∃ t, s.total[k]? = some t := ⟨s.total[k], List.getElem?_eq_getElem (by omega)⟩
    have hstep : step s (.use k n) = some ({ s with last := s.last.set k n }, []) := by
      unfold Ready at hr
      by_cases h0 : n = 0
      · subst h0
        simp only [if_true] at hr
        rcases hr with h | ⟨a, ha, h1, h2⟩
        · simp [step, h, htt]
        · have : pred64 (a + 1) = a := by rw [pred64_pos (by omega) (by omega)]; omega
          simp [step, h1, h2, this]
      · simp only [h0, if_false] at hr
        have h0' : ¬ 0 = n := fun h => h0 h.symm
        simp [step, hr, htt, h0', pred64_pos h0 (by omega)]
    obtain ⟨s', h1, h2, h3, h4, h5, h6⟩ := uses_quiet k hk m (n + 1) { s with last := s.last.set k n } (by simpa using hl) ht (by omega)
      (by unfold Ready; simp [hl, hk])
    refine ⟨s', ?_, h2, h3, ?_, by omega, ?_⟩
    · simp [List.range'_succ, run, hstep, h1]
    · intro _
      by_cases hm : m = 0
      · have := h5 hm
        subst this
        subst hm
        simp [hl, hk]
      · rw [h4 (by omega)]; congr 1; omega
    · intro j hj
      rw [h6 j hj]
      exact List.getElem?_set_ne (fun h => hj h.symm)

/-- The fragments of a file that hold its samples from `n` on, none of them empty, are not reported. -/
theorem fragments_quiet (k total : Nat) (hk : k < 16) : ∀ (gs : List (List Nat)) (n m : Nat) (s : State), s.last.length = 16 → s.total.length = 16 → n + m < 2 ^ 64 - 2 →
    Ready s k n → (∀ g ∈ gs, g ≠ []) → gs.flatten = List.range' n m →
    ∃ s', run s (gs.flatMap (fragment k total)) = some (s', []) ∧ s'.last.length = 16 ∧ s'.total.length = 16 ∧
      (gs ≠ [] → s'.last[k]? = some (n + m - 1) ∧ s'.total[k]? = some total) ∧ (gs = [] → s' = s) ∧
      ∀ j, j ≠ k → s'.last[j]? = s.last[j]? ∧ s'.total[j]? = s.total[j]?
  | [], n, m, s, hl, ht, _, _, _, _ => ⟨s, rfl, hl, ht, by simp, fun _ => rfl, fun _ _ => ⟨rfl, rfl⟩⟩
  | g :: gs, n, m, s, hl, ht, hb, hr, hne, hfl => by
    have hg : g ≠ [] := hne g (by simp)
    have hgl : 0 < g.length := List.length_pos_iff.mpr hg
    have hlen : g.length ≤ m := by
      have := congrArg List.length hfl
      simp at this
      omega
    have hsplit : List.range' n m = List.range' n g.length ++ List.range' (n + g.length) (m - g.length) := by
      rw [List.range'_append_1]; congr 1; omega
    have h0 : g ++ gs.flatten = List.range' n g.length ++ List.range' (n + g.length) (m - g.length) := by rw [← hsplit, ← hfl]; simp
    obtain ⟨hg1, hg2⟩ := List.append_inj h0 (by simp)
    obtain ⟨s1, a1, a2, a3, a4, -, a6⟩ := uses_quiet k hk g.length n s hl ht (by omega) hr
    have ht1 : s1.total.length = 16 := by rw [a3]; exact ht
    have hfin : step s1 (.finish k total) = some ({ s1 with total := s1.total.set k total }, []) := by simp [step, ht1, hk]
    have hrun1 : run s (fragment k total g) = some ({ s1 with total := s1.total.set k total }, []) := by
      unfold fragment
      rw [run, step]
      simp only [run_append]
      rw [hg1]
      rw [a1]
      simp [run, hfin]
    obtain ⟨s', b1, b2, b3, b4, b5, b6⟩ := fragments_quiet k total hk gs (n + g.length) (m - g.length) { s1 with total := s1.total.set k total } a2
      (by simpa using ht1) (by omega) (by
        unfold Ready
        rw [if_neg (by omega)]
        exact a4 hgl) (fun x hx => hne x (by simp [hx])) hg2
    refine ⟨s', ?_, b2, b3, ?_, by simp, ?_⟩
    · rw [List.flatMap_cons, run_append, hrun1]
      simp [b1]
    · intro _
      by_cases he : gs = []
      · have := b5 he
        subst this
        have hm : m = g.length := by
          have := congrArg List.length hg2
          subst he
          simp at this
          omega
        refine ⟨by rw [hm]; exact a4 hgl, ?_⟩
        simp [ht1, hk]
      · obtain ⟨c1, c2⟩ := b4 he
        refine ⟨?_, c2⟩
        rw [c1]; congr 1; omega
    · intro j hj
      obtain ⟨c1, c2⟩ := b6 j hj
      refine ⟨c1.trans (a6 j hj), c2.trans ?_⟩
      show (s1.total.set k total)[j]? = _
      rw [List.getElem?_set_ne (fun h => hj h.symm), a3]

/-- A file written completely: stream, number of samples and the samples of its fragments. -/
structure Complete (f : Nat × Nat × List (List Nat)) : Prop where
  stream : f.1 < 16
  size : f.2.1 < 2 ^ 64 - 2
  some : f.2.2 ≠ []
  nonempty : ∀ g ∈ f.2.2, g ≠ []
  all : f.2.2.flatten = List.range f.2.1

/-- All streams can begin a file. -/
def AllReady (s : State) : Prop := s.last.length = 16 ∧ s.total.length = 16 ∧ ∀ j, j < 16 → Ready s j 0

theorem files_quiet : ∀ (fs : List (Nat × Nat × List (List Nat))) (s : State), AllReady s → (∀ f ∈ fs, Complete f) →
    ∃ s', run s (fs.flatMap fun f => file f.1 f.2) = some (s', []) ∧ AllReady s'
  | [], s, hr, _ => ⟨s, rfl, hr⟩
  | f :: fs, s, ⟨hl, ht, hr⟩, hc => by
    have c := hc f (by simp)
    obtain ⟨s1, a1, a2, a3, a4, -, a6⟩ := fragments_quiet f.1 f.2.1 c.stream f.2.2 0 f.2.1 s hl ht (by simpa using c.size) (hr _ c.stream) c.nonempty
      (by rw [c.all, List.range_eq_range'])
    have hpos : 0 < f.2.1 := by
      rcases Nat.eq_zero_or_pos f.2.1 with h | h
      · exfalso
        have h1 := c.all
        rw [h] at h1
        obtain ⟨g, hg⟩ := List.exists_mem_of_ne_nil _ c.some
        have := List.flatten_eq_nil_iff.mp h1 g hg
        exact c.nonempty g hg this
      · exact h
    have hall : AllReady s1 := by
      refine ⟨a2, a3, fun j hj => ?_⟩
      by_cases h : j = f.1
      · subst h
        obtain ⟨b1, b2⟩ := a4 c.some
        unfold Ready
        rw [if_pos rfl]
        right
        refine ⟨f.2.1 - 1, by have := c.size; omega, by rw [b1]; congr 1; omega, by rw [b2]; congr 1; omega⟩
      · have := hr j hj
        unfold Ready at this ⊢
        rw [if_pos rfl] at this ⊢
        rw [(a6 j h).1, (a6 j h).2]
        exact this
    obtain ⟨s', b1, b2⟩ := files_quiet fs s1 hall (fun x hx => hc x (by simp [hx]))
    refine ⟨s', ?_, b2⟩
    rw [List.flatMap_cons, run_append]
    have a1' : run s (file f.1 f.2) = some (s1, []) := a1
    rw [a1']
    simp only [Option.bind_some]
    rw [b1]
    rfl

theorem init_ready : AllReady init := by
  refine ⟨by simp [init], by simp [init], fun j hj => ?_⟩
  unfold Ready
  rw [if_pos rfl]
  left
  simp only [init, List.getElem?_replicate, hj, if_true]

/-- C155: any number of files of any streams, written completely one after the other: nothing is reported. -/
theorem complete_files_silent (fs : List (Nat × Nat × List (List Nat))) (h : ∀ f ∈ fs, Complete f) :
    messages (fs.flatMap fun f => file f.1 f.2) = some [] := by
  obtain ⟨s, h1, -⟩ := files_quiet fs init init_ready h
  simp [messages, h1]

/-- C155, false: whatever is missing at the end of the last file of a list is not reported, for every list of files and every number of samples missing. -/
theorem last_end_not_reported (fs : List (Nat × Nat × List (List Nat))) (h : ∀ f ∈ fs, Complete f) (k total m : Nat) (gs : List (List Nat)) (hk : k < 16) (hm : m < 2 ^ 64 - 2)
    (hne : ∀ g ∈ gs, g ≠ []) (hgs : gs.flatten = List.range m) :
    messages ((fs.flatMap fun f => file f.1 f.2) ++ file k (total, gs)) = some [] := by
  obtain ⟨s, h1, hl, ht, hr⟩ := files_quiet fs init init_ready h
  obtain ⟨s1, a1, -⟩ := fragments_quiet k total hk gs 0 m s hl ht (by simpa using hm) (hr k hk) hne (by rw [hgs, List.range_eq_range'])
  unfold messages
  rw [run_append, h1]
  unfold file
  simp [a1]

/-- C155: samples missing at the end of a file are reported when a file of the same stream follows from its first sample on, whatever else comes before and between. -/
theorem end_reported (before between after : List Ev) (k total m : Nat) (gs : List (List Nat)) (g : List Nat) (hm : m + 1 < total)
    (hother : ∀ e ∈ between, (∀ n, e ≠ .use k n) ∧ ∀ t, e ≠ .finish k t)
    (hf : ∀ e ∈ before ++ file k (total, gs ++ [g ++ [m]]) ++ between ++ .use k 0 :: after, Fits e) :
    ∃ ms, messages (before ++ file k (total, gs ++ [g ++ [m]]) ++ between ++ .use k 0 :: after) = some ms ∧ .atTheEnd k total m ∈ ms := by
  obtain ⟨ms, h, hmem⟩ := messages_exact _ hf
  refine ⟨ms, h, (hmem _).mpr ⟨before ++ file k (total, gs ++ [g ++ [m]]) ++ between, k, 0, after, m, rfl, ?_, ?_, ?_⟩⟩
  all_goals
    have hb1 : between.filterMap (useOf k) = [] := by
      rw [List.filterMap_eq_nil_iff]
      intro e he
      obtain ⟨h1, h2⟩ := hother e he
      cases e with
      | start j t => rfl
      | finish j t => rfl
      | use j n => by_cases hj : j = k
                   · subst hj; exact absurd rfl (h1 n)
                   · simp [hj, useOf]
    have hb2 : between.filterMap (totalOf k) = [] := by
      rw [List.filterMap_eq_nil_iff]
      intro e he
      obtain ⟨h1, h2⟩ := hother e he
      cases e with
      | start j t => rfl
      | use j t => rfl
      | finish j n => by_cases hj : j = k
                      · subst hj; exact absurd rfl (h2 n)
                      · simp [hj, totalOf]
    have hlu : lastUse k (before ++ file k (total, gs ++ [g ++ [m]]) ++ between) = some m := by
      unfold lastUse
      rw [List.filterMap_append, hb1]
      simp [useOf, file, fragment, List.filterMap_append, List.flatMap_append, List.filterMap_cons, List.getLast?_append]
    have hlt : lastTotal k (before ++ file k (total, gs ++ [g ++ [m]]) ++ between) = some total := by
      unfold lastTotal
      rw [List.filterMap_append, hb2]
      simp [totalOf, file, fragment, List.filterMap_append, List.flatMap_append, List.filterMap_cons, List.getLast?_append]
  · exact hlu
  · intro hfo
    rcases hfo m hlu with h1 | ⟨-, h2⟩
    · omega
    · rw [hlt] at h2; simp at h2; omega
  · rw [if_pos rfl, hlt]; rfl

/-- C155, false: a fragment without samples at the beginning of a file changes the number of samples before the comparison; a complete pair of files is then reported. -/
theorem empty_fragment_witness : messages (file 0 (3, [[0, 1], [2]]) ++ file 0 (5, [[], [0, 1, 2, 3, 4]])) = some [.atTheEnd 0 5 2] := by decide +kernel

/-- C155, false: a file used from a later sample on is reported although nothing is missing, and one used from just the right number on hides what is missing before it. -/
theorem later_start_witness : messages (file 0 (3, [[0, 1, 2]]) ++ file 0 (9, [[6, 7, 8]])) = some [.inTheMiddle 0 5 2] ∧
    messages (file 0 (5, [[0, 1, 2]]) ++ file 0 (9, [[3, 4, 5, 6, 7, 8]])) = some [] := by decide +kernel

/-- C155, false: the seventeenth stream of a file is outside of the arrays. -/
theorem stream_witness (n : Nat) (es : List Ev) : messages (.use 16 n :: es) = none := by
  have : step init (.use 16 n) = none := by simp [step, init]
  simp [messages, run, this]

-- Two streams with two files each, in the order the tool writes them, nothing missing.
example : ∀ f ∈ [(0, 3, [[0, 1], [2]]), (1, 4, [[0], [1, 2, 3]]), (0, 2, [[0, 1]]), (1, 1, [[0]])], Complete f := by
  intro f hf
  simp only [List.mem_cons, List.not_mem_nil, or_false] at hf
  rcases hf with rfl | rfl | rfl | rfl <;> constructor <;> decide

-- Sample 2 is missing in the middle, sample 4 at the end of the first file: both are reported, in this order.
example : messages (file 0 (5, [[0, 1], [3]]) ++ file 1 (2, [[0, 1]]) ++ file 0 (2, [[0, 1]])) = some [.inTheMiddle 0 2 1, .atTheEnd 0 5 3] := by decide +kernel

-- The hypotheses of `messages_exact` and `end_reported` are met by it.
example : ∀ e ∈ file 0 (5, [[0, 1], [3]]) ++ file 1 (2, [[0, 1]]) ++ file 0 (2, [[0, 1]]), Fits e := by
  intro e he
  simp [file, fragment] at he
  rcases he with rfl | rfl | rfl | rfl | rfl | rfl | rfl | rfl | rfl | rfl | rfl | rfl | rfl | rfl | rfl <;> simp [Fits]

end Verif.Validation
