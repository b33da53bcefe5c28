import Verif.Tables.Model
import Verif.Tables.Spec
import Verif.RangeMap.Props
/-! Sample-to-chunk table: writer and reader lemmas. -/
namespace Verif.Tables
open Spec

/-! ### writer -/

/-- entries describe the chunks 1..i -/
structure Good (f : Nat → Nat) (i : Nat) (es : List (Nat × Nat)) : Prop where
  look : ∀ c, 1 ≤ c → c ≤ i → samplesInChunk es c = f c
  le : ∀ e ∈ es, e.1 ≤ i
  sorted : es.Pairwise (fun a b => a.1 < b.1)
  head : ∃ n rest, es = (1, n) :: rest
  pos : ∀ e ∈ es, 1 ≤ e.1 ∧ e.1 ≤ i ∧ f e.1 = e.2

theorem sic_append_lt (es : List (Nat × Nat)) (i v c : Nat) (h : c < i) :
    samplesInChunk (es ++ [(i, v)]) c = samplesInChunk es c := by
  have : ¬ i ≤ c := by omega
  simp [samplesInChunk, List.filter_append, this]

theorem sic_append_eq (es : List (Nat × Nat)) (i v : Nat) : samplesInChunk (es ++ [(i, v)]) i = v := by
  simp [samplesInChunk, List.filter_append]

theorem good_one (f : Nat → Nat) : Good f 1 [(1, f 1)] := by
  refine ⟨?_, by simp, by simp, ⟨_, _, rfl⟩, by simp⟩
  intro c h1 h2
  have : c = 1 := by omega
  subst this
  simp [samplesInChunk]

theorem good_push (f : Nat → Nat) (i : Nat) (es : List (Nat × Nat)) (h : Good f i es) :
    Good f (i + 1) (es ++ [(i + 1, f (i + 1))]) := by
  obtain ⟨h1, h2, h3, ⟨n, rest, h4⟩, h5⟩ := h
  refine ⟨?_, ?_, ?_, ⟨n, rest ++ [(i + 1, f (i + 1))], by simp [h4]⟩, ?_⟩
  · intro c hc1 hc2
    rcases Nat.lt_or_ge c (i + 1) with hc | hc
    · rw [sic_append_lt _ _ _ _ hc]; exact h1 c hc1 (by omega)
    · have : c = i + 1 := by omega
      subst this; exact sic_append_eq _ _ _
  · intro e he
    rcases List.mem_append.1 he with h | h
    · have := h2 e h; omega
    · simp at h; subst h; exact Nat.le_refl _
  · rw [List.pairwise_append]
    refine ⟨h3, by simp, ?_⟩
    intro a ha b hb
    simp at hb; subst hb
    have := h2 a ha
    show a.1 < i + 1
    omega
  · intro e he
    rcases List.mem_append.1 he with h | h
    · have := h5 e h; omega
    · simp at h; subst h; simp

theorem good_same (f : Nat → Nat) (i : Nat) (es : List (Nat × Nat)) (s v : Nat)
    (h : Good f i (es ++ [(s, v)])) (hv : f (i + 1) = v) : Good f (i + 1) (es ++ [(s, v)]) := by
  obtain ⟨h1, h2, h3, h4, h5⟩ := h
  refine ⟨?_, fun e he => by have := h2 e he; omega, h3, h4, fun e he => by have := h5 e he; omega⟩
  intro c hc1 hc2
  rcases Nat.lt_or_ge c (i + 1) with hc | hc
  · exact h1 c hc1 (by omega)
  · have : c = i + 1 := by omega
    subst this
    have hs := h2 (s, v) (by simp)
    have : (es ++ [(s, v)]).filter (fun e => decide (e.1 ≤ i + 1)) = es ++ [(s, v)] := by
      rw [List.filter_eq_self]
      intro e he
      have := h2 e he
      simp; omega
    simp [samplesInChunk, this, hv]

theorem stsc_fold (f : Nat → Nat) (l : List Nat) : ∀ (s : StscState),
    (∀ j, j < l.length → l[j]? = some (f (s.i + 1 + j))) →
    (∀ x ∈ l, x < 2 ^ 32) →
    (s.i = 0 ∧ s.out = [] ∨ 0 < s.i ∧ Good f s.i (s.out ++ [(s.start, s.count)])) →
    (l.foldl stscStep s).i = s.i + l.length ∧
    (0 < s.i + l.length → Good f (s.i + l.length)
      ((l.foldl stscStep s).out ++ [((l.foldl stscStep s).start, (l.foldl stscStep s).count)])) ∧
    (s.i + l.length = 0 → (l.foldl stscStep s).out = []) := by
  induction l with
  | nil =>
    intro s _ _ h
    refine ⟨rfl, ?_, ?_⟩
    · intro h0
      rcases h with ⟨h, _⟩ | ⟨_, h⟩
      · simp at h0; omega
      · exact h
    · intro h0
      rcases h with ⟨_, h⟩ | ⟨h1, h⟩
      · exact h
      · simp at h0; omega
  | cons x l ih =>
    intro s hf hb h
    have hx : x = f (s.i + 1) := by simpa using hf 0 (by simp)
    have hx32 : u32 x = x := Nat.mod_eq_of_lt (hb x (by simp))
    have hi : (stscStep s x).i = s.i + 1 := by simp only [stscStep]; split <;> split <;> rfl
    have key := ih (stscStep s x) (by
        intro j hj
        have := hf (j + 1) (by simpa using hj)
        rw [hi]
        simpa [Nat.add_assoc, Nat.add_comm, Nat.add_left_comm] using this) (fun y hy => hb y (by simp [hy])) (by
        right
        refine ⟨by omega, ?_⟩
        rw [hi]
        rcases h with ⟨h0, ho⟩ | ⟨h0, hg⟩
        · have e : stscStep s x = { s with i := s.i + 1, start := s.i + 1, count := u32 x } := by
            simp [stscStep, h0, hx32]
          rw [e]
          simp only [ho, List.nil_append, h0, hx32]
          have := good_one f
          rw [hx, h0]
          exact this
        · simp only [stscStep, if_neg (show ¬ s.i = 0 by omega)]
          by_cases hne : x = s.count
          · simp only [hne, ne_eq, not_true_eq_false, if_false]
            exact good_same f s.i s.out _ _ hg (by rw [← hx, hne])
          · simp only [ne_eq, hne, not_false_eq_true, if_true, hx32]
            rw [hx]
            exact good_push f s.i _ hg)
    rw [hi] at key
    simp only [List.foldl_cons, List.length_cons]
    rw [show s.i + (l.length + 1) = s.i + 1 + l.length by omega]
    exact key

/-! ### reader -/

theorem sb_succ (f : Nat → Nat) (c : Nat) (h : 1 ≤ c) : samplesBefore f (c + 1) = samplesBefore f c + f c := by
  obtain ⟨d, rfl⟩ : ∃ d, c = d + 1 := ⟨c - 1, by omega⟩
  simp only [samplesBefore, Nat.add_sub_cancel]
  rw [List.range'_concat]
  simp [Nat.add_comm]

theorem sb_const (f : Nat → Nat) (a s : Nat) (ha : 1 ≤ a) : ∀ n, (∀ c, a ≤ c → c < a + n → f c = s) →
    samplesBefore f (a + n) = samplesBefore f a + n * s := by
  intro n
  induction n with
  | zero => simp
  | succ n ih =>
    intro h
    rw [show a + (n + 1) = a + n + 1 by omega, sb_succ f _ (by omega), ih (fun c h1 h2 => h c h1 (by omega)),
      h (a + n) (by omega) (by omega), Nat.succ_mul]
    omega

theorem sb_mono (f : Nat → Nat) (a n : Nat) (ha : 1 ≤ a) : samplesBefore f a ≤ samplesBefore f (a + n) := by
  induction n with
  | zero => exact Nat.le_refl _
  | succ n ih => rw [show a + (n + 1) = a + n + 1 by omega, sb_succ f _ (by omega)]; omega

/-- the runs of a table, as the reader stores them -/
def runs (S : Nat → Nat) : List (Nat × Nat) → Verif.RangeMap.RMap Chunk
  | [] => []
  | [(f, s)] => [(S (f + 1), ⟨s, 1, S f, f⟩)]
  | (f, s) :: (f', s') :: r => (S f', ⟨s, 1, S f, f⟩) :: runs S ((f', s') :: r)

theorem triples_words (es : List (Nat × Nat)) (rest : List Nat) :
    triples es.length (es.flatMap (fun e => [e.1, e.2, 1]) ++ rest) = some (es.map (fun e => (e.1, e.2, 1))) := by
  induction es with
  | nil => rfl
  | cons e es ih => simp [triples, ih]

/-- `spc` gives the table's number of samples per chunk -/
def Agree (g : Nat → Nat) : List (Nat × Nat) → Prop
  | [] => True
  | [(f, s)] => ∀ c, f ≤ c → g c = s
  | (f, s) :: (f', s') :: r => (∀ c, f ≤ c → c < f' → g c = s) ∧ Agree g ((f', s') :: r)

theorem rd_fold (g : Nat → Nat) : ∀ (es : List (Nat × Nat)) (f n : Nat) (s : StscRd),
    s.first = f → s.prevFirst = f → s.spc = n → s.prevSpc = n → s.sdi = 1 → 0 < s.i →
    s.samples = samplesBefore g f → 1 ≤ f → 0 < n →
    ((f, n) :: es).Pairwise (fun a b => a.1 < b.1) → (∀ e ∈ es, 0 < e.2) → Agree g ((f, n) :: es) →
    (∀ e ∈ (f, n) :: es, e.1 < 2 ^ 32 ∧ samplesBefore g (e.1 + 1) < 2 ^ 32) →
    (let t := (es.map (fun e => (e.1, e.2, 1))).foldl stscRdStep s
     stscFinish t = s.map ++ runs (samplesBefore g) ((f, n) :: es)) := by
  intro es
  induction es with
  | nil =>
    intro f n s h1 _ h3 _ h5 _ h7 h8 h9 _ _ h12 h13
    simp only [List.map_nil, List.foldl_nil, runs, stscFinish, h1, h3, h5, h7, h9, if_true, Verif.RangeMap.add]
    have hb : f < 2 ^ 32 ∧ samplesBefore g (f + 1) < 2 ^ 32 := h13 (f, n) (by simp)
    have : samplesBefore g (f + 1) = samplesBefore g f + n := by
      rw [sb_succ g f h8, h12 f (Nat.le_refl _)]
    rw [← this, Nat.mod_eq_of_lt (by omega)]
  | cons e es ih =>
    intro f n s h1 h2 h3 h4 h5 h6 h7 h8 h9 h10 h11 h12 h13
    obtain ⟨f', n'⟩ := e
    have hlt : f < f' := by
      have := List.rel_of_pairwise_cons h10 (a' := (f', n')) (by simp)
      exact this
    have hb : f' < 2 ^ 32 ∧ samplesBefore g (f' + 1) < 2 ^ 32 := h13 (f', n') (by simp)
    have hS : samplesBefore g f' = samplesBefore g f + (f' - f) * n := by
      have := sb_const g f n h8 (f' - f) (fun c a b => h12.1 c a (by omega))
      rwa [show f + (f' - f) = f' by omega] at this
    have hle : samplesBefore g f' ≤ samplesBefore g (f' + 1) := sb_mono g f' 1 (by omega)
    have hf' : f' < 2 ^ 32 := hb.1
    have hsub : sub32 f' f = f' - f := by
      simp only [sub32]
      rw [show f' + 2 ^ 32 - f = (f' - f) + 2 ^ 32 by omega, Nat.add_mod_right, Nat.mod_eq_of_lt (by omega)]
    have hsam : (s.samples + sub32 f' s.prevFirst * s.prevSpc % 2 ^ 32) % 2 ^ 64 = samplesBefore g f' := by
      rw [h2, h4, h7, hsub, Nat.mod_eq_of_lt (a := (f' - f) * n) (by omega), ← hS, Nat.mod_eq_of_lt (by omega)]
    simp only [List.map_cons, List.foldl_cons, runs]
    have hst : stscRdStep s (f', n', 1) =
        (⟨s.i + 1, f', n', samplesBefore g f', f', n', 1,
          s.map ++ [(samplesBefore g f', ⟨n, 1, samplesBefore g f, f⟩)]⟩ : StscRd) := by
      simp only [stscRdStep]
      rw [if_pos h6]
      simp only [hsam, Verif.RangeMap.add]
      rw [if_pos (by rw [h3]; exact h9), h1, h3, h5, h7]
    rw [hst]
    have := ih f' n' (⟨s.i + 1, f', n', samplesBefore g f', f', n', 1,
          s.map ++ [(samplesBefore g f', ⟨n, 1, samplesBefore g f, f⟩)]⟩ : StscRd) rfl rfl rfl rfl rfl (by show 0 < s.i + 1; omega) rfl (by omega)
      (h11 (f', n') (by simp)) (List.Pairwise.of_cons h10) (fun e he => h11 e (by simp [he])) h12.2
      (fun e he => h13 e (by simp at he ⊢; right; exact he))
    rw [this]
    simp

theorem parse_runs (g : Nat → Nat) (es : List (Nat × Nat)) (hv : ValidStsc es) (ha : Agree g es)
    (hb : ∀ e ∈ es, e.1 < 2 ^ 32 ∧ samplesBefore g (e.1 + 1) < 2 ^ 32) (rest : List Nat) :
    parseStsc (stscWords es ++ rest) = some (runs (samplesBefore g) es) := by
  obtain ⟨⟨n, r, rfl⟩, hp, hpos⟩ := hv
  simp only [parseStsc, stscWords, List.cons_append]
  rw [triples_words]
  simp only [Option.map_some, List.map_cons, List.foldl_cons, Option.some.injEq]
  have := rd_fold g r 1 n (stscRdStep {} (1, n, 1)) rfl rfl rfl rfl rfl (Nat.succ_pos _)
    (by simp [stscRdStep, samplesBefore]) (by omega)
    (hpos (1, n) (by simp)) hp (fun e he => hpos e (by simp [he])) ha hb
  rw [this]
  simp [stscRdStep]

theorem runs_get (S : Nat → Nat) : ∀ (es : List (Nat × Nat)) (i k : Nat) (ch : Chunk),
    (runs S es)[i]? = some (k, ch) → ∃ e, es[i]? = some e ∧ ch = ⟨e.2, 1, S e.1, e.1⟩ ∧
      k = (match es[i + 1]? with | some e' => S e'.1 | none => S (e.1 + 1)) := by
  intro es
  induction es with
  | nil => intro i k ch h; simp [runs] at h
  | cons e es ih =>
    intro i k ch h
    obtain ⟨f, s⟩ := e
    cases es with
    | nil =>
      cases i with
      | zero => simp [runs] at h; exact ⟨(f, s), rfl, h.2.symm, by simp [h.1]⟩
      | succ i => simp [runs] at h
    | cons e' r =>
      obtain ⟨f', s'⟩ := e'
      cases i with
      | zero => simp [runs] at h; exact ⟨(f, s), rfl, h.2.symm, by simp [h.1]⟩
      | succ i =>
        simp only [runs, List.getElem?_cons_succ] at h
        obtain ⟨e, h1, h2, h3⟩ := ih i k ch h
        exact ⟨e, by simpa using h1, h2, by simpa using h3⟩

theorem runs_length (S : Nat → Nat) : ∀ es, (runs S es).length = es.length
  | [] => rfl
  | [(_, _)] => rfl
  | (_, _) :: (f', s') :: r => by simp [runs, runs_length S ((f', s') :: r)]

theorem agree_get (g : Nat → Nat) : ∀ (es : List (Nat × Nat)) (i : Nat) (e : Nat × Nat), Agree g es →
    es[i]? = some e → ∀ c, e.1 ≤ c → (∀ e', es[i + 1]? = some e' → c < e'.1) → g c = e.2 := by
  intro es
  induction es with
  | nil => intro i e _ h; simp at h
  | cons a es ih =>
    intro i e ha he c hc hn
    obtain ⟨f, s⟩ := a
    cases es with
    | nil =>
      cases i with
      | zero => simp at he; subst he; exact ha c hc
      | succ i => simp at he
    | cons a' r =>
      obtain ⟨f', s'⟩ := a'
      cases i with
      | zero => simp at he; subst he; exact ha.1 c hc (hn (f', s') rfl)
      | succ i => exact ih i e ha.2 (by simpa using he) c hc (fun e' h => hn e' (by simpa using h))

theorem sic_agree_aux : ∀ (r pre : List (Nat × Nat)) , (pre ++ r).Pairwise (fun a b => a.1 < b.1) →
    Agree (samplesInChunk (pre ++ r)) r := by
  intro r
  induction r with
  | nil => intro _ _; trivial
  | cons a r ih =>
    intro pre hp
    obtain ⟨f, s⟩ := a
    have look : ∀ (c : Nat), f ≤ c → (∀ e ∈ r, c < e.1) → samplesInChunk (pre ++ (f, s) :: r) c = s := by
      intro c hc hr
      have h1 : (pre ++ (f, s) :: r).filter (fun e => decide (e.1 ≤ c)) = pre ++ [(f, s)] := by
        rw [List.filter_append, List.filter_cons, if_pos (by simpa using hc)]
        have e1 : r.filter (fun e => decide (e.1 ≤ c)) = [] := by
          rw [List.filter_eq_nil_iff]
          intro e he
          have := hr e he
          simp; omega
        have e2 : pre.filter (fun e => decide (e.1 ≤ c)) = pre := by
          rw [List.filter_eq_self]
          intro e he
          have : e.1 < f := (List.pairwise_append.1 hp).2.2 e he (f, s) (by simp)
          simp; omega
        rw [e1, e2]
      simp [samplesInChunk, h1]
    have hps := (List.pairwise_append.1 hp).2.1
    cases r with
    | nil => exact fun c hc => look c hc (by simp)
    | cons a' r =>
      obtain ⟨f', s'⟩ := a'
      refine ⟨?_, ?_⟩
      · intro c h1 h2
        apply look c h1
        intro e he
        rcases List.mem_cons.1 he with h | h
        · subst h; exact h2
        · have : f' < e.1 := List.rel_of_pairwise_cons (List.Pairwise.of_cons hps) h
          omega
      · have := ih (pre ++ [(f, s)]) (by simpa using hp)
        simpa using this

theorem sic_agree (es : List (Nat × Nat)) (h : es.Pairwise (fun a b => a.1 < b.1)) :
    Agree (samplesInChunk es) es := sic_agree_aux es [] (by simpa using h)

end Verif.Tables
