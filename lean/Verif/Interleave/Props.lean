import Verif.Interleave.Spec
/-!
Properties C14 (interleaving loses nothing), C15 (end writes everything), C60 (add_sample returns and leaves a stream
without queued samples).
-/
namespace Verif.Interleave
open Spec

theorem place_append (l : List (Nat × QSample)) (x : Nat × QSample) : ∀ pos,
    place pos (l ++ [x]) = place pos l ++ [(x.1, x.2, pos + (bytes l).length)] := by
  induction l with
  | nil => intro pos; simp [place, bytes]
  | cons y l ih => intro pos; simp [place, ih, bytes, Nat.add_assoc]

theorem ofStream_append {α : Type} (i : Nat) (a b : List (Nat × α)) :
    ofStream i (a ++ b) = ofStream i a ++ ofStream i b := by simp [ofStream]

theorem ofStream_self {α : Type} (i : Nat) (x : α) : ofStream i [(i, x)] = [x] := by simp [ofStream]

theorem ofStream_other {α : Type} (i j : Nat) (x : α) (h : i ≠ j) : ofStream j [(i, x)] = [] := by
  simp [ofStream, h]

/-- What the state says about the samples added: `log` is the order in which samples were written. -/
structure Inv (m : Mux) (hist : List (Nat × QSample)) (log : List (Nat × QSample)) : Prop where
  bytes : m.mdat = bytes log
  written : ∀ i s, m.streams[i]? = some s → s.written = ofStream i (place 0 log)
  all : ∀ i s, m.streams[i]? = some s → s.written.map (·.1) ++ s.queue = ofStream i hist
  known : ∀ x ∈ log, x.1 < m.streams.length

theorem writeLoop_inv (max : Nat) (uc : Bool) (i : Nat) : ∀ (qs : List QSample) (s : IStream) (mdat : List UInt8)
    (last : Nat) (log : List (Nat × QSample)), mdat = bytes log → s.written = ofStream i (place 0 log) →
    ∃ ys, let r := writeLoop max uc qs s mdat last
      qs = ys ++ r.1.queue ∧ r.2.1 = bytes (log ++ ys.map (i, ·)) ∧
      r.1.written = ofStream i (place 0 (log ++ ys.map (i, ·))) ∧
      r.1.written.map (·.1) = s.written.map (·.1) ++ ys ∧
      (∀ j, j ≠ i → ofStream j (place 0 (log ++ ys.map (i, ·))) = ofStream j (place 0 log)) ∧
      (ys = [] → r.2.2 = last) ∧
      (∀ y, ys.getLast? = some y → r.2.2 = toU64 y.composition) := by
  intro qs
  induction qs with
  | nil => intro s mdat last log h1 h2; exact ⟨[], by simp [writeLoop, h1, h2]⟩
  | cons q qs ih =>
    intro s mdat last log h1 h2
    simp only [writeLoop]
    split
    · have hpl := place_append log (i, q) 0
      have hlen : mdat.length = (bytes log).length := by rw [h1]
      obtain ⟨ys, e1, e2, e3, e4, e5, e6, e7⟩ := ih (sampleWritten s q mdat.length) (mdat ++ q.body)
        (toU64 q.composition) (log ++ [(i, q)]) (by simp [bytes, h1])
        (by simp only [sampleWritten, h2, hpl, ofStream_append]; rw [ofStream_self, hlen]; simp)
      refine ⟨q :: ys, ?_⟩
      have hl : log ++ [(i, q)] ++ ys.map (i, ·) = log ++ (q :: ys).map (i, ·) := by simp
      rw [hl] at e2 e3 e5
      refine ⟨by simp [← e1], e2, e3, by rw [e4]; simp [sampleWritten], ?_, by simp, ?_⟩
      · intro j hj
        rw [e5 j hj, hpl, ofStream_append, ofStream_other _ _ _ (Ne.symm hj)]; simp
      · intro y hy
        cases ys with
        | nil => simp at hy; subst hy; exact e6 rfl
        | cons z zs => rw [List.getLast?_cons_cons] at hy; exact e7 y hy
    · exact ⟨[], by simp [h1, h2]⟩

theorem streamStep_inv (st : Mux × Nat × Bool) (i : Nat) (hist log : List (Nat × QSample)) (h : Inv st.1 hist log) :
    ∃ log', Inv (streamStep st i).1 hist log' ∧ (streamStep st i).1.streams.length = st.1.streams.length := by
  obtain ⟨m, w, o⟩ := st
  simp only [streamStep]
  cases hs : m.streams[i]? with
  | none => exact ⟨log, h, rfl⟩
  | some s =>
    simp only at h ⊢
    obtain ⟨ys, e1, e2, e3, e4, e5, _, _⟩ := writeLoop_inv ((m.maxUsed + m.distance) % 2 ^ 64) m.useComp i s.queue s m.mdat
      NOWRITE log h.bytes (h.written i s hs)
    generalize hr : writeLoop ((m.maxUsed + m.distance) % 2 ^ 64) m.useComp s.queue s m.mdat NOWRITE = r at *
    have hi := (List.getElem?_eq_some_iff.1 hs).1
    have key : ∀ m' : Mux, m'.streams = m.streams.set i r.1 → m'.mdat = r.2.1 →
        Inv m' hist (log ++ ys.map (i, ·)) := by
      intro m' h1 h2
      have hset : ∀ j t, m'.streams[j]? = some t → (j = i ∧ t = r.1) ∨ (j ≠ i ∧ m.streams[j]? = some t) := by
        intro j t ht
        rw [h1, List.getElem?_set] at ht
        by_cases hj : i = j
        · subst hj; simp [hi] at ht; exact Or.inl ⟨rfl, ht.symm⟩
        · rw [if_neg hj] at ht; exact Or.inr ⟨Ne.symm hj, ht⟩
      refine ⟨by rw [h2]; exact e2, ?_, ?_, ?_⟩
      · intro j t ht
        rcases hset j t ht with ⟨rfl, rfl⟩ | ⟨hj, ht⟩
        · exact e3
        · rw [e5 j hj]; exact h.written j t ht
      · intro j t ht
        rcases hset j t ht with ⟨rfl, rfl⟩ | ⟨hj, ht⟩
        · rw [e4, List.append_assoc, ← e1]; exact h.all j s hs
        · exact h.all j t ht
      · intro x hx
        rw [h1, List.length_set]
        rcases List.mem_append.1 hx with hx | hx
        · exact h.known x hx
        · obtain ⟨y, _, rfl⟩ := List.mem_map.1 hx; exact hi
    refine ⟨log ++ ys.map (i, ·), ?_⟩
    simp only [writeSamples, hr]
    split
    · exact ⟨key _ rfl rfl, by simp⟩
    · exact ⟨key _ rfl rfl, by simp⟩

theorem steps_inv (is : List Nat) : ∀ (st : Mux × Nat × Bool) (hist log : List (Nat × QSample)), Inv st.1 hist log →
    ∃ log', Inv (is.foldl streamStep st).1 hist log' ∧
      (is.foldl streamStep st).1.streams.length = st.1.streams.length := by
  induction is with
  | nil => intro st hist log h; exact ⟨log, h, rfl⟩
  | cons i is ih =>
    intro st hist log h
    obtain ⟨log1, h1, hl⟩ := streamStep_inv st i hist log h
    obtain ⟨log2, h2, hl2⟩ := ih _ hist log1 h1
    exact ⟨log2, h2, hl2.trans hl⟩

theorem loop_inv : ∀ (fuel : Nat) (m m' : Mux) (hist log : List (Nat × QSample)), Inv m hist log →
    loop fuel m = some m' → ∃ log', Inv m' hist log' ∧ m'.streams.length = m.streams.length := by
  intro fuel
  induction fuel with
  | zero => intro m m' hist log _ h; simp [loop] at h
  | succ fuel ih =>
    intro m m' hist log hI h
    obtain ⟨log1, h1, hl⟩ := steps_inv (List.range m.streams.length) (m, NOWRITE, true) hist log hI
    obtain ⟨m1, w, o, hr⟩ : ∃ m1 w o, (List.range m.streams.length).foldl streamStep (m, NOWRITE, true) = (m1, w, o) :=
      ⟨_, _, _, rfl⟩
    rw [hr] at h1 hl
    simp only [loop, round, hr] at h
    simp only at h1 hl
    split at h
    · split at h
      · obtain ⟨log2, h2, hl2⟩ := ih _ m' hist log1 (by exact ⟨h1.1, h1.2, h1.3, h1.4⟩) h
        exact ⟨log2, h2, hl2.trans hl⟩
      · simp at h; subst h; exact ⟨log1, h1, hl⟩
    · obtain ⟨log2, h2, hl2⟩ := ih _ m' hist log1 h1 h
      exact ⟨log2, h2, hl2.trans hl⟩

theorem queue_inv (m : Mux) (i : Nat) (q : QSample) (hist log : List (Nat × QSample)) (h : Inv m hist log) :
    Inv (m.queueSample i q) (hist ++ [(i, q)]) log := by
  have hmod : ∀ j t, (m.queueSample i q).streams[j]? = some t →
      ∃ s, m.streams[j]? = some s ∧ t = if i = j then { s with queue := s.queue ++ [q] } else s := by
    intro j t ht
    simp only [Mux.queueSample, List.getElem?_modify] at ht
    cases hs : m.streams[j]? with
    | none => simp [hs] at ht
    | some s =>
      refine ⟨s, rfl, ?_⟩
      simp only [hs, Option.map_eq_map, Option.map_some, Option.some.injEq] at ht
      exact ht.symm
  refine ⟨h.1, ?_, ?_, ?_⟩
  · intro j t ht
    obtain ⟨s, hs, rfl⟩ := hmod j t ht
    have := h.written j s hs
    split <;> exact this
  · intro j t ht
    obtain ⟨s, hs, rfl⟩ := hmod j t ht
    have := h.all j s hs
    rw [ofStream_append]
    split
    · rename_i hij; subst hij
      rw [ofStream_self, ← this]; simp
    · rename_i hij
      rw [ofStream_other _ _ _ hij, this]; simp
  · intro x hx; simp [Mux.queueSample]; exact h.known x hx

theorem addAll_inv (fuel : Nat) : ∀ (h : List (Nat × QSample)) (m m' : Mux) (hist log : List (Nat × QSample)),
    Inv m hist log → addAll fuel m h = some m' →
    ∃ log', Inv m' (hist ++ h) log' ∧ m'.streams.length = m.streams.length := by
  intro h
  induction h with
  | nil => intro m m' hist log hI ha; simp [addAll] at ha; subst ha; exact ⟨log, by simpa using hI, rfl⟩
  | cons x h ih =>
    intro m m' hist log hI ha
    obtain ⟨i, q⟩ := x
    simp only [addAll] at ha
    cases h1 : addSample fuel m i q with
    | none => simp [h1] at ha
    | some m1 =>
      simp only [h1] at ha
      simp only [addSample] at h1
      have hq := queue_inv m i q hist log hI
      obtain ⟨log1, hI1, hl1⟩ := loop_inv fuel _ m1 (hist ++ [(i, q)]) log (by exact ⟨hq.1, hq.2, hq.3, hq.4⟩) h1
      obtain ⟨log2, hI2, hl2⟩ := ih m1 m' _ log1 hI1 ha
      refine ⟨log2, by simpa using hI2, hl2.trans (hl1.trans ?_)⟩
      simp [Mux.queueSample]

/-- C14. After any history of `add_sample` calls (to existing streams) that returned, there is an order `log` of
samples such that the media data is exactly their bodies one behind the other, every stream's table lists exactly its
samples of that order with their positions, and what is written for a stream followed by what is queued is exactly
what was added to it, in order. -/
theorem interleaving_conserves (streams : Nat) (distance : Nat) (useComp : Bool) (ltc : Nat → Bool) (fuel : Nat)
    (hist : List (Nat × QSample)) (m : Mux)
    (h : addAll fuel (Mux.new ((List.range streams).map (fun i => { ltc := ltc i })) distance useComp) hist = some m) :
    m.streams.length = streams ∧
    ∃ log : List (Nat × QSample), m.mdat = bytes log ∧ (∀ x ∈ log, x.1 < streams) ∧
      ∀ i s, m.streams[i]? = some s →
        s.written = ofStream i (place 0 log) ∧ s.written.map (·.1) ++ s.queue = ofStream i hist := by
  have h0 : Inv (Mux.new ((List.range streams).map (fun i => { ltc := ltc i })) distance useComp) [] [] := by
    refine ⟨rfl, ?_, ?_, by simp⟩ <;>
    · intro i s hs
      simp [Mux.new] at hs
      obtain ⟨_, _, rfl⟩ := hs
      simp [ofStream, place]
  obtain ⟨log, hI, hl⟩ := addAll_inv fuel hist _ m [] [] h0 h
  have hl : m.streams.length = streams := by rw [hl]; simp [Mux.new]
  refine ⟨hl, log, hI.bytes, ?_, ?_⟩
  · intro x hx; have := hI.known x hx; omega
  · intro i s hs
    exact ⟨hI.written i s hs, by simpa using hI.all i s hs⟩

/-! ### the loop ends -/

def total (m : Mux) : Nat := (m.streams.map (fun s => s.queue.length)).sum

/-- all queued samples have times that can be reached -/
def Bounded (m : Mux) : Prop := ∀ s ∈ m.streams, ∀ q ∈ s.queue,
  0 ≤ q.composition ∧ q.composition < 2 ^ 63 - 100000 ∧ q.decoding < 2 ^ 63 - 100000

theorem toU64_lt (i : Int) (h0 : 0 ≤ i) (h : i < 2 ^ 63 - 100000) : toU64 i < NOWRITE := by
  simp only [toU64, NOWRITE]
  rw [Int.emod_eq_of_lt h0 (by omega)]
  omega

/-- One stream step: either nothing was written and nothing changed, or something was. -/
theorem streamStep_cases (m : Mux) (w : Nat) (o : Bool) (i : Nat) (s : IStream) (hs : m.streams[i]? = some s)
    (hb : Bounded m) :
    ((streamStep (m, w, o) i = (m, w, o && decide (s.queue ≠ [])) ∧
        ∀ q, s.queue.head? = some q → toI64 (m.maxUsed + m.distance) < keyOf m.useComp q) ∨
     ∃ m' w', streamStep (m, w, o) i = (m', w', o) ∧ w' < NOWRITE ∧ total m' < total m ∧ Bounded m' ∧
       m'.streams.length = m.streams.length ∧ m'.useComp = m.useComp ∧ m'.distance = m.distance) := by
  have hi := (List.getElem?_eq_some_iff.1 hs).1
  have hmem := List.mem_of_getElem? hs
  have hmod : toI64 ((m.maxUsed + m.distance) % 2 ^ 64) = toI64 (m.maxUsed + m.distance) := by simp [toI64]
  simp only [streamStep, hs]
  cases hq : s.queue with
  | nil =>
    left
    have hset : m.streams.set i { s with queue := [] } = m.streams := by
      apply List.ext_getElem?
      intro j
      rw [List.getElem?_set]
      split
      · rename_i hij; subst hij
        simp only [hi, hs, ← hq, if_true]
      · rfl
    simp [writeSamples, hq, writeLoop, NOWRITE, hset]
  | cons q qs =>
    by_cases hle : keyOf m.useComp q ≤ toI64 (m.maxUsed + m.distance)
    · right
      have hle' : keyOf m.useComp q ≤ toI64 ((m.maxUsed + m.distance) % 2 ^ 64) := by
        rw [hmod]; exact hle
      obtain ⟨ys, e1, _, _, _, _, e6, e7⟩ := writeLoop_inv ((m.maxUsed + m.distance) % 2 ^ 64) m.useComp 0 qs
        { sampleWritten s q m.mdat.length with written := [] } (bytes []) (toU64 q.composition) [] rfl rfl
      -- the loop result does not depend on the written list
      have aux : ∀ (max : Nat) (uc : Bool) (qs : List QSample) (a b : IStream) (x y : List UInt8) (l : Nat),
          (writeLoop max uc qs a x l).2.2 = (writeLoop max uc qs b y l).2.2 ∧
          (writeLoop max uc qs a x l).1.queue = (writeLoop max uc qs b y l).1.queue := by
        intro max uc qs
        induction qs with
        | nil => intros; simp [writeLoop]
        | cons z zs ih =>
          intro a b x y l
          simp only [writeLoop]
          split
          · exact ih _ _ _ _ _
          · simp
      have hwl : writeLoop ((m.maxUsed + m.distance) % 2 ^ 64) m.useComp (q :: qs) s m.mdat NOWRITE =
          writeLoop ((m.maxUsed + m.distance) % 2 ^ 64) m.useComp qs (sampleWritten s q m.mdat.length)
            (m.mdat ++ q.body) (toU64 q.composition) := by
        rw [writeLoop, if_pos hle']
      have ha := aux ((m.maxUsed + m.distance) % 2 ^ 64) m.useComp qs (sampleWritten s q m.mdat.length)
        { sampleWritten s q m.mdat.length with written := [] } (m.mdat ++ q.body) (bytes []) (toU64 q.composition)
      simp only [writeSamples, hq, hwl]
      generalize writeLoop ((m.maxUsed + m.distance) % 2 ^ 64) m.useComp qs (sampleWritten s q m.mdat.length)
            (m.mdat ++ q.body) (toU64 q.composition) = r at *
      rw [← ha.2] at e1
      rw [← ha.1] at e6 e7
      have hlast : r.2.2 < NOWRITE := by
        rcases List.eq_nil_or_concat ys with h0 | ⟨zs, y, hy⟩
        · rw [e6 h0]
          have := hb s hmem q (by rw [hq]; simp)
          exact toU64_lt _ this.1 this.2.1
        · rw [e7 y (by rw [hy]; simp)]
          have : y ∈ s.queue := by rw [hq, e1, hy]; simp
          have := hb s hmem y this
          exact toU64_lt _ this.1 this.2.1
      rw [if_pos hlast]
      refine ⟨_, _, rfl, hlast, ?_, ?_, by simp, rfl, rfl⟩
      · simp only [total]
        rw [List.map_set]
        have hsum : ∀ (l : List Nat) (k v x : Nat), l[k]? = some x → v < x → (l.set k v).sum < l.sum := by
          intro l
          induction l with
          | nil => intro k v x h; simp at h
          | cons a l ih =>
            intro k v x h hv
            cases k with
            | zero => simp at h; subst h; simp; omega
            | succ k => simp at h; simp; exact ih k v x h hv
        apply hsum _ _ _ s.queue.length
        · simp [hs]
        · have : (q :: qs).length = (q :: (ys ++ r.1.queue)).length := by rw [← e1]
          rw [hq, this]; simp; omega
      · intro t ht z hz
        rcases List.mem_or_eq_of_mem_set ht with h | h
        · exact hb t h z hz
        · subst h
          exact hb s hmem z (by rw [hq, e1]; simp [hz])
    · left
      have hle' : ¬ keyOf m.useComp q ≤ toI64 ((m.maxUsed + m.distance) % 2 ^ 64) := by
        rw [hmod]; exact hle
      have hset : m.streams.set i { s with queue := q :: qs } = m.streams := by
        apply List.ext_getElem?
        intro j
        rw [List.getElem?_set]
        split
        · rename_i hij; subst hij
          simp only [hi, hs, ← hq, if_true]
        · rfl
      refine ⟨?_, ?_⟩
      · simp [writeSamples, hq, writeLoop, hle', NOWRITE, hset]
      · intro q' hq'; simp at hq'; subst hq'; omega

/-- One pass over the streams. -/
theorem steps_cases : ∀ (is : List Nat) (m : Mux) (w : Nat) (o : Bool), (∀ i ∈ is, i < m.streams.length) → Bounded m →
    (is.foldl streamStep (m, w, o) = (m, w, o && is.all (fun i => decide ((m.streams[i]?.map (·.queue)) ≠ some []))) ∧
      ∀ i ∈ is, ∀ s q, m.streams[i]? = some s → s.queue.head? = some q →
        toI64 (m.maxUsed + m.distance) < keyOf m.useComp q) ∨
    ∃ m' w' o', is.foldl streamStep (m, w, o) = (m', w', o') ∧ w' < NOWRITE ∧ total m' < total m ∧ Bounded m' ∧
      m'.streams.length = m.streams.length := by
  intro is
  induction is with
  | nil => intro m w o _ _; left; simp
  | cons i is ih =>
    intro m w o hlt hb
    obtain ⟨s, hs⟩ : ∃ s, m.streams[i]? = some s := ⟨_, List.getElem?_eq_getElem (hlt i (by simp))⟩
    simp only [List.foldl_cons]
    rcases streamStep_cases m w o i s hs hb with ⟨h1, h2⟩ | ⟨m1, w1, h1, hw, ht, hb1, hl, _, _⟩
    · rw [h1]
      rcases ih m w (o && decide (s.queue ≠ [])) (fun j hj => hlt j (by simp [hj])) hb with ⟨g1, g2⟩ | h
      · left
        refine ⟨?_, ?_⟩
        · rw [g1]; simp [hs, Bool.and_assoc]
        · intro j hj t q ht hq
          rcases List.mem_cons.1 hj with rfl | hj
          · rw [hs] at ht; simp at ht; subst ht; exact h2 q hq
          · exact g2 j hj t q ht hq
      · exact Or.inr h
    · rw [h1]
      right
      rcases ih m1 w1 o (fun j hj => by rw [hl]; exact hlt j (by simp [hj])) hb1 with ⟨g1, _⟩ | ⟨m2, w2, o2, g1, g2, g3, g4, g5⟩
      · exact ⟨m1, w1, _, g1, hw, ht, hb1, hl⟩
      · exact ⟨m2, w2, o2, g1, g2, by omega, g4, g5.trans hl⟩

theorem toI64_bounds (n : Nat) : -2 ^ 63 ≤ toI64 n ∧ toI64 n < 2 ^ 63 := by
  simp only [toI64]; split <;> omega

theorem toI64_step (u d : Nat) (T : Int) (h : toI64 (u + d) < T) (hT : T < 2 ^ 63 - 100000) :
    toI64 ((u + 100000) % 2 ^ 64 + d) = toI64 (u + d) + 100000 := by
  simp only [toI64] at h ⊢
  have e : ((u + 100000) % 2 ^ 64 + d) % 2 ^ 64 = ((u + d) % 2 ^ 64 + 100000) % 2 ^ 64 := by omega
  rw [e]
  split at h <;> split <;> omega

/-- The result of the loop leaves a stream with nothing queued. -/
theorem loop_ends : ∀ (n k : Nat) (m : Mux), 0 < m.streams.length → Bounded m → total m = n →
    (∀ s q, m.streams[0]? = some s → s.queue.head? = some q →
      (keyOf m.useComp q - toI64 (m.maxUsed + m.distance)).toNat ≤ k) →
    ∃ fuel m', loop fuel m = some m' ∧ m'.streams.length = m.streams.length ∧
      (∃ (i : Nat) (s : IStream), m'.streams[i]? = some s ∧ s.queue = []) ∧ Bounded m' := by
  intro n
  induction n using Nat.strongRecOn with
  | _ n ihn =>
    intro k
    induction k using Nat.strongRecOn with
    | _ k ihk =>
      intro m hpos hb hn hk
      rcases steps_cases (List.range m.streams.length) m NOWRITE true (by simp) hb with ⟨h1, h2⟩ | ⟨m1, w1, o1, h1, hw, ht, hb1, hl⟩
      · by_cases hall : ((List.range m.streams.length).all
            (fun i => decide ((m.streams[i]?.map (·.queue)) ≠ some []))) = true
        · -- retry
          obtain ⟨s, hs⟩ : ∃ s, m.streams[0]? = some s := ⟨_, List.getElem?_eq_getElem hpos⟩
          have hq : ∃ q qs, s.queue = q :: qs := by
            rw [List.all_eq_true] at hall
            have := hall 0 (by simpa using hpos)
            simp [hs] at this
            exact List.exists_cons_of_ne_nil this
          obtain ⟨q, qs, hq⟩ := hq
          have hlt := h2 0 (by simpa using hpos) s q hs (by simp [hq])
          have hqb := hb s (List.mem_of_getElem? hs) q (by simp [hq])
          have hT : keyOf m.useComp q < 2 ^ 63 - 100000 := by
            simp only [keyOf]; split
            · exact hqb.2.1
            · exact hqb.2.2
          have hstep := toI64_step m.maxUsed m.distance _ hlt hT
          have hk0 := hk s q hs (by simp [hq])
          obtain ⟨fuel, m', f1, f2, f3, f4⟩ := ihk ((keyOf m.useComp q - (toI64 (m.maxUsed + m.distance) + 100000)).toNat)
            (by omega) { m with maxUsed := (m.maxUsed + 100000) % 2 ^ 64 } hpos
            (by intro s hs; exact hb s hs) (by rw [← hn]; simp only [total]) (by
              intro s' q' hs' hq'
              simp only at hs' ⊢
              rw [hs] at hs'
              simp at hs'; subst hs'
              rw [hq] at hq'; simp at hq'; subst hq'
              rw [hstep]; exact Nat.le_refl _)
          refine ⟨fuel + 1, m', ?_, f2, f3, f4⟩
          simp only [loop, round, h1, hall, Bool.and_true, if_true]
          exact f1
        · -- leave
          refine ⟨1, m, ?_, rfl, ?_, hb⟩
          · rw [Bool.not_eq_true] at hall
            simp only [loop, round, h1, hall, Bool.and_false]
            simp
          · rw [Bool.not_eq_true, List.all_eq_false] at hall
            obtain ⟨i, _, hi⟩ := hall
            simp at hi
            obtain ⟨s, hs, hqs⟩ := hi
            exact ⟨i, s, hs, hqs⟩
      · obtain ⟨fuel, m', f1, f2, f3, f4⟩ := ihn (total m1) (by omega) (2 ^ 65) m1 (by omega) hb1 rfl (by
          intro s q hs hq
          have h1 := toI64_bounds (m1.maxUsed + m1.distance)
          have hqb := hb1 s (List.mem_of_getElem? hs) q (List.mem_of_mem_head? hq)
          have : keyOf m1.useComp q < 2 ^ 63 := by
            simp only [keyOf]; split <;> omega
          omega)
        refine ⟨fuel + 1, m', ?_, f2.trans hl, f3, f4⟩
        have hne : ¬ w1 = NOWRITE := by omega
        simp only [loop, round, h1, if_neg hne]
        exact f1

theorem loop_mono : ∀ (f1 f2 : Nat) (m m' : Mux), f1 ≤ f2 → loop f1 m = some m' → loop f2 m = some m' := by
  intro f1
  induction f1 with
  | zero => intro f2 m m' _ h; simp [loop] at h
  | succ f1 ih =>
    intro f2 m m' hle h
    obtain ⟨f2, rfl⟩ : ∃ g, f2 = g + 1 := ⟨f2 - 1, by omega⟩
    simp only [loop] at h ⊢
    split at h
    · split at h
      · rename_i h1 h2
        rw [if_pos h1, if_pos h2]
        exact ih f2 _ m' (by omega) h
      · rename_i h1 h2
        rw [if_pos h1, if_neg h2]
        exact h
    · rename_i h1
      rw [if_neg h1]
      exact ih f2 _ m' (by omega) h

theorem addSample_ends (m : Mux) (i : Nat) (q : QSample) (hpos : 0 < m.streams.length) (hb : Bounded m)
    (hq : 0 ≤ q.composition ∧ q.composition < 2 ^ 63 - 100000 ∧ q.decoding < 2 ^ 63 - 100000) :
    ∃ fuel m', addSample fuel m i q = some m' ∧ m'.streams.length = m.streams.length ∧
      (∃ (i : Nat) (s : IStream), m'.streams[i]? = some s ∧ s.queue = []) ∧ Bounded m' := by
  have hb' : Bounded { m.queueSample i q with maxUsed := (m.queueSample i q).maxTime } := by
    intro s hs z hz
    simp only [Mux.queueSample] at hs
    obtain ⟨j, hj⟩ := List.mem_iff_getElem?.1 hs
    rw [List.getElem?_modify] at hj
    cases hs' : m.streams[j]? with
    | none => simp [hs'] at hj
    | some s' =>
      simp only [hs', Option.map_eq_map, Option.map_some, Option.some.injEq] at hj
      have hm := List.mem_of_getElem? hs'
      split at hj
      · subst hj
        simp at hz
        rcases hz with hz | rfl
        · exact hb s' hm z hz
        · exact hq
      · subst hj; exact hb _ hm z hz
  obtain ⟨fuel, m', h1, h2, h3, h4⟩ := loop_ends _ (2 ^ 65) _ (by simpa [Mux.queueSample] using hpos) hb' rfl (by
    intro s z hs hz
    have h1 := toI64_bounds (({ m.queueSample i q with maxUsed := (m.queueSample i q).maxTime } : Mux).maxUsed +
      ({ m.queueSample i q with maxUsed := (m.queueSample i q).maxTime } : Mux).distance)
    have hqb := hb' s (List.mem_of_getElem? hs) z (List.mem_of_mem_head? hz)
    have : keyOf ({ m.queueSample i q with maxUsed := (m.queueSample i q).maxTime } : Mux).useComp z < 2 ^ 63 := by
      simp only [keyOf]; split <;> omega
    omega)
  exact ⟨fuel, m', h1, by rw [h2]; simp [Mux.queueSample], h3, h4⟩

/-- C60. For every history of samples with times below 2^63 - 100000 the calls return, and afterwards at least one
stream has nothing queued. -/
theorem add_sample_returns (streams : Nat) (hs : 0 < streams) (distance : Nat) (useComp : Bool) (ltc : Nat → Bool)
    (hist : List (Nat × QSample)) (hne : hist ≠ [])
    (ht : ∀ x ∈ hist, 0 ≤ x.2.composition ∧ x.2.composition < 2 ^ 63 - 100000 ∧ x.2.decoding < 2 ^ 63 - 100000) :
    ∃ fuel m, addAll fuel (Mux.new ((List.range streams).map (fun i => { ltc := ltc i })) distance useComp) hist = some m ∧
      ∃ (i : Nat) (s : IStream), m.streams[i]? = some s ∧ s.queue = [] := by
  have gen : ∀ (hist : List (Nat × QSample)) (m : Mux), 0 < m.streams.length → Bounded m →
      (∀ x ∈ hist, 0 ≤ x.2.composition ∧ x.2.composition < 2 ^ 63 - 100000 ∧ x.2.decoding < 2 ^ 63 - 100000) →
      ∃ fuel m', addAll fuel m hist = some m' ∧ (hist ≠ [] → ∃ (i : Nat) (s : IStream), m'.streams[i]? = some s ∧ s.queue = []) := by
    intro hist
    induction hist with
    | nil => intro m _ _ _; exact ⟨0, m, rfl, by simp⟩
    | cons x hist ih =>
      intro m hp hb ht
      obtain ⟨f1, m1, a1, a2, a3, a4⟩ := addSample_ends m x.1 x.2 hp hb (ht x (by simp))
      obtain ⟨f2, m2, b1, b2⟩ := ih m1 (by omega) a4 (fun y hy => ht y (by simp [hy]))
      have mono : ∀ (f g : Nat) (l : List (Nat × QSample)) (m m' : Mux), f ≤ g → addAll f m l = some m' → addAll g m l = some m' := by
        intro f g l
        induction l with
        | nil => intro m m' _ h; simpa [addAll] using h
        | cons y l ih =>
          intro m m' hfg h
          simp only [addAll] at h ⊢
          cases hy : addSample f m y.1 y.2 with
          | none => simp [hy] at h
          | some z =>
            simp only [hy] at h
            have : addSample g m y.1 y.2 = some z := loop_mono f g _ z hfg hy
            simp only [this]
            exact ih z m' hfg h
      refine ⟨max f1 f2, m2, ?_, ?_⟩
      · simp only [addAll]
        rw [show addSample (max f1 f2) m x.1 x.2 = some m1 from loop_mono f1 _ _ m1 (by omega) a1]
        exact mono f2 _ hist m1 m2 (by omega) b1
      · intro _
        by_cases h0 : hist = []
        · subst h0; simp [addAll] at b1; subst b1; exact a3
        · exact b2 h0
  obtain ⟨fuel, m, h1, h2⟩ := gen hist (Mux.new ((List.range streams).map (fun i => { ltc := ltc i })) distance useComp)
    (by simpa [Mux.new] using hs) (by
      intro s hs q hq
      simp [Mux.new] at hs
      obtain ⟨_, _, rfl⟩ := hs
      simp at hq) ht
  exact ⟨fuel, m, h1, h2 hne⟩

/-- C15 (a file with one stream). Every sample added to a single stream mux is in the file after `end`, whatever the
times: the media data is the bodies in order and the table lists every sample. Several streams: see the witness. -/
theorem end_writes_all_partial (distance : Nat) (useComp ltc : Bool) (hist : List QSample) (hne : hist ≠ [])
    (ht : ∀ x ∈ hist, 0 ≤ x.composition ∧ x.composition < 2 ^ 63 - 100000 ∧ x.decoding < 2 ^ 63 - 100000) :
    ∃ fuel m, addAll fuel (Mux.new [{ ltc }] distance useComp) (hist.map (0, ·)) = some m ∧
      (endFile m).1 = hist.flatMap (·.body) ∧ (endFile m).2.map (·.map (·.1)) = [hist] := by
  obtain ⟨fuel, m, h1, i, s, h2, h3⟩ := add_sample_returns 1 (by omega) distance useComp (fun _ => ltc)
    (hist.map (0, ·)) (by simpa using hne) (by
      intro x hx; obtain ⟨y, hy, rfl⟩ := List.mem_map.1 hx; exact ht y hy)
  obtain ⟨hl, log, c1, c2, c3⟩ := interleaving_conserves 1 distance useComp (fun _ => ltc) fuel _ m h1
  have hi : i = 0 := by have := (List.getElem?_eq_some_iff.1 h2).1; omega
  subst hi
  obtain ⟨d1, d2⟩ := c3 0 s h2
  have hof : ∀ {α : Type} (l : List α), ofStream 0 (l.map (fun x => ((0 : Nat), x))) = l := by
    intro α l; simp [ofStream, List.filter_map, Function.comp_def]
  rw [hof, h3, List.append_nil] at d2
  refine ⟨fuel, m, ?_, ?_, ?_⟩
  · simpa [Mux.new] using h1
  · simp only [endFile]
    rw [c1]
    -- all log entries belong to stream 0
    have hall : ∀ (l : List (Nat × QSample)) (p : Nat), (∀ x ∈ l, x.1 < 1) →
        (ofStream 0 (place p l)).map (·.1) = l.map (·.2) := by
      intro l
      induction l with
      | nil => intro p _; rfl
      | cons x l ih =>
        intro p hx
        obtain ⟨j, q⟩ := x
        have hj : j = 0 := by have := hx (j, q) (by simp); simp at this; exact this
        subst hj
        have := ih (p + q.body.length) (fun y hy => hx y (by simp [hy]))
        simp only [ofStream] at this
        simp [place, ofStream, this]
    rw [d1, hall log 0 c2] at d2
    rw [← d2]
    simp [bytes, List.flatMap_map]
  · have hst : m.streams = [s] := by
      match hm : m.streams with
      | [] => simp [hm] at hl
      | [a] => simp [hm] at h2; rw [h2]
      | a :: b :: l => simp [hm] at hl
    simp [endFile, hst, d2]

/-- C15 fails with two streams: one sample added, then `end`: it is not in the file. -/
theorem end_loses_samples_witness :
    ∃ m, addAll 1 (Mux.new [{}, {}] 6000000 true) [(0, ⟨0, 0, true, [1, 2, 3]⟩)] = some m ∧
      endFile m = ([], [[], []]) := ⟨_, rfl, by decide⟩

/-- two streams, interleaved -/
def exampleHist : List (Nat × QSample) :=
  [(0, ⟨0, 0, true, [1]⟩), (1, ⟨0, 0, true, [2, 3]⟩), (0, ⟨400000, 400000, false, [4]⟩), (1, ⟨9000000, 9000000, true, [5]⟩)]

example : (∀ x ∈ exampleHist, 0 ≤ x.2.composition ∧ x.2.composition < 2 ^ 63 - 100000 ∧ x.2.decoding < 2 ^ 63 - 100000) ∧
    ((addAll 10 (Mux.new [{}, {}] 6000000 true) exampleHist).map (·.mdat)) = some [1, 2, 3, 4] := by decide

end Verif.Interleave
