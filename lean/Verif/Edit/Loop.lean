import Verif.Edit.Lemmas
/-
What the loops do, stream by stream.
-/
namespace Verif.Edit
open Verif.Reader (Track Sample Reader next move moveStreams readAll remaining)
open Verif.Reader.Spec (FileHolds Holds Inside pres)
open Spec (kept before bytesOf)

/-- The call for a sample. -/
def mk (f : File) (i : Nat) (j : Join) (t : Track) (x : Sample) : Added := ⟨i, bytesOf f x, x.sync, compOf j t x, decOf j t x, x.duration⟩

/-- Duration that counts. -/
def durOf (st : Stream) (x : Sample) : Nat := if x.duration ≠ 0 then x.duration else st.avg

theorem write_spec (f : File) (js : List Join) (s : Nat) (t : Track) (x : Sample) (ends : List (Nat × Nat)) (a : Added) (ends' : List (Nat × Nat)) (js' : List Join)
    (h : write f js s t x ends = some (a, ends', js')) :
    ∃ j st e, js[s]? = some j ∧ f.streams[s]? = some st ∧ ends[s]? = some e ∧ a = mk f s j t x ∧ ends' = ends.set s (updateEnd e (compOf j t x) (durOf st x)) ∧
      js' = js.set s { j with lastDec := decOf j t x } := by
  rw [write] at h
  simp only [Option.bind_eq_bind] at h
  obtain ⟨j, hj, h⟩ := Option.bind_eq_some_iff.mp h
  obtain ⟨st, hst, h⟩ := Option.bind_eq_some_iff.mp h
  obtain ⟨b, hb, h⟩ := Option.bind_eq_some_iff.mp h
  obtain ⟨e, he, h⟩ := Option.bind_eq_some_iff.mp h
  simp only [Option.some.injEq, Prod.mk.injEq] at h
  obtain ⟨h1, h2, h3⟩ := h
  have hbody : b = bytesOf f x := by
    rw [readBytes] at hb
    split at hb
    · exact (Option.some.inj hb).symm
    · simp at hb
  exact ⟨j, st, e, hj, hst, he, by rw [← h1, hbody]; rfl, h2.symm, h3.symm⟩

theorem leftOut_spec (start stop : Nat) (discard : Bool) (t : Track) (x : Sample) (b : Bool) (h : leftOut start stop discard t x = some b) (xs : List Sample) :
    before stop t (kept start discard t (x :: xs)) = if b then before stop t (kept start discard t xs) else x :: before stop t (kept start discard t xs) := by
  rw [leftOut] at h
  rw [presented_eq] at h
  by_cases hd : pres t x < start ∧ discard = true
  · rw [if_pos hd] at h
    have hb : b = true := by
      split at h
      · simp at h
      · exact (Option.some.inj h).symm
    rw [hb, if_pos rfl, kept, List.filter_cons, if_neg]
    · rfl
    · simp [hd.1, hd.2]
  · rw [if_neg hd] at h
    have hk : kept start discard t (x :: xs) = x :: kept start discard t xs := by
      rw [kept, List.filter_cons, if_pos]
      · rfl
      · cases discard with
        | false => simp
        | true => simp only [and_true] at hd; simp [hd]
    rw [hk, before, List.filter_cons]
    simp only [Option.some.injEq] at h
    rw [← h]
    by_cases hs : 0 < stop ∧ stop ≤ pres t x
    · rw [if_neg (by simp; omega), if_pos (by simp [hs])]; rfl
    · rw [if_pos (by simp; omega), if_neg (by simp; omega)]; rfl

/-- After the end of the range nothing of the stream is wanted. -/
theorem before_nil (start stop : Nat) (discard : Bool) (t : Track) (xs : List Sample) (h0 : 0 < stop) (h : ∀ x ∈ xs, stop ≤ pres t x) : before stop t (kept start discard t xs) = [] := by
  rw [before, List.filter_eq_nil_iff]
  intro x hx
  have := h x (List.mem_of_mem_filter hx)
  simp only [decide_eq_true_eq]
  omega

theorem ofStream_cons (a : Added) (o : List Added) (i : Nat) : Spec.ofStream (a :: o) i = if a.stream = i then a :: Spec.ofStream o i else Spec.ofStream o i := by
  rw [Spec.ofStream, List.filter_cons]
  by_cases h : a.stream = i <;> simp [h, Spec.ofStream]

/-- What is known about one stream after the loop. -/
def Done (f : File) (start stop : Nat) (discard : Bool) (l : List (Nat × Sample)) (js : List Join) (ends : List (Nat × Nat)) (o : List Added) (js' : List Join) (ends' : List (Nat × Nat)) (i : Nat) : Prop :=
  ∀ t j, trackOf f i = some t → js[i]? = some j →
    Spec.ofStream o i = (before stop t (kept start discard t (only l i))).map (mk f i j t) ∧
    (∀ e st, ends[i]? = some e → f.streams[i]? = some st →
      ends'[i]? = some ((before stop t (kept start discard t (only l i))).foldl (fun e x => updateEnd e (compOf j t x) (durOf st x)) e)) ∧
    js'[i]? = some { j with lastDec := (before stop t (kept start discard t (only l i))).foldl (fun _ x => decOf j t x) j.lastDec }

theorem done_nil (f : File) (start stop : Nat) (discard : Bool) (l : List (Nat × Sample)) (js : List Join) (ends : List (Nat × Nat)) (i : Nat)
    (h : ∀ t, trackOf f i = some t → before stop t (kept start discard t (only l i)) = []) : Done f start stop discard l js ends [] js ends i := by
  intro t j ht hj
  rw [h t ht]
  exact ⟨rfl, fun e st he _ => he, by rw [hj]; rfl⟩

theorem active_get (stop s : Nat) (x : Sample) (flags : List Bool) (i : Nat) (h : (active stop s x flags)[i]? = some false) :
    (i = s ∧ 0 < stop ∧ stop ≤ x.decoding) ∨ flags[i]? = some false := by
  rw [active] at h
  by_cases h0 : 0 < stop
  · rw [if_pos h0, List.getElem?_set] at h
    by_cases hs : s = i
    · rw [if_pos hs] at h
      split at h
      · simp only [Option.some.injEq, decide_eq_false_iff_not, Nat.not_lt] at h
        exact Or.inl ⟨hs.symm, h0, h⟩
      · simp at h
    · rw [if_neg hs] at h
      exact Or.inr h
  · rw [if_neg h0] at h; exact Or.inr h

theorem active_length (stop s : Nat) (x : Sample) (flags : List Bool) : (active stop s x flags).length = flags.length := by
  rw [active]; split <;> simp

theorem muxList_spec (f : File) (start stop : Nat) (discard : Bool) : ∀ (l : List (Nat × Sample)) (flags : List Bool) (js : List Join) (ends : List (Nat × Nat))
    (o : List Added) (js' : List Join) (ends' : List (Nat × Nat)), muxList f start stop discard l flags js ends = some (o, js', ends') →
    (0 < stop → ∀ i, (only l i).Pairwise (fun x y => x.decoding ≤ y.decoding) ∧ ∀ x ∈ only l i, x.decoding ≤ x.composition) →
    (0 < stop → ∀ (i : Nat), flags[i]? = some false → ∀ x ∈ only l i, stop ≤ x.decoding) →
    (∀ q ∈ l, q.1 < flags.length) → (stop = 0 → flags.any id = true) →
    (∀ a ∈ o, a.stream < js.length) ∧ js'.length = js.length ∧ ends'.length = ends.length ∧ ∀ i, Done f start stop discard l js ends o js' ends' i := by
  intro l
  induction l with
  | nil =>
    intro flags js ends o js' ends' h _ _ _ _
    simp only [muxList, Option.some.injEq, Prod.mk.injEq] at h
    obtain ⟨rfl, rfl, rfl⟩ := h
    exact ⟨by simp, rfl, rfl, fun i => done_nil _ _ _ _ _ _ _ _ (fun t _ => rfl)⟩
  | cons q l ih =>
    intro flags js ends o js' ends' h hdec hflags hlen hany
    obtain ⟨s, x⟩ := q
    -- what is handed to the rest
    have hdec' : 0 < stop → ∀ i, (only l i).Pairwise (fun x y => x.decoding ≤ y.decoding) ∧ ∀ x ∈ only l i, x.decoding ≤ x.composition := by
      intro h0 i
      have := hdec h0 i
      rw [only_cons] at this
      split at this
      · exact ⟨(List.pairwise_cons.mp this.1).2, fun y hy => this.2 y (by simp [hy])⟩
      · exact this
    have hflags' : 0 < stop → ∀ (i : Nat), (active stop s x flags)[i]? = some false → ∀ y ∈ only l i, stop ≤ y.decoding := by
      intro h0 i hi y hy
      rcases active_get _ _ _ _ _ hi with ⟨his, _, hx⟩ | hi
      · have := (hdec h0 i).1
        rw [only_cons, if_pos his.symm] at this
        have := (List.pairwise_cons.mp this).1 y hy
        omega
      · refine hflags h0 i hi y ?_
        rw [only_cons]
        split
        · simp [hy]
        · exact hy
    have hlen' : ∀ q ∈ l, q.1 < (active stop s x flags).length := by
      intro q hq; rw [active_length]; exact hlen q (by simp [hq])
    have hany' : stop = 0 → (active stop s x flags).any id = true := by
      intro h0; rw [active, if_neg (by omega)]; exact hany h0
    -- nothing is wanted any more when all flags are down
    have hstop : ¬ (active stop s x flags).any id = true → ∀ i t, trackOf f i = some t → before stop t (kept start discard t (only l i)) = [] := by
      intro hno i t ht
      have h0 : 0 < stop := by
        rcases Nat.eq_zero_or_pos stop with h0 | h0
        · exact absurd (hany' h0) hno
        · exact h0
      by_cases hi : i < flags.length
      · refine before_nil _ _ _ _ _ h0 ?_
        intro y hy
        have hfalse : (active stop s x flags)[i]? = some false := by
          have hl : i < (active stop s x flags).length := by rw [active_length]; exact hi
          rw [List.getElem?_eq_getElem hl]
          cases hv : (active stop s x flags)[i] with
          | false => rfl
          | true =>
            refine absurd (List.any_eq_true.mpr ⟨true, ?_, rfl⟩) hno
            rw [← hv]; exact List.getElem_mem hl
        have h1 := hflags' h0 i hfalse y hy
        have h2 := (hdec' h0 i).2 y hy
        rw [pres]; omega
      · have : only l i = [] := by
          rw [only, Reader.Spec.ofStream, List.map_eq_nil_iff, List.filter_eq_nil_iff]
          intro q hq
          have := hlen q (by simp [hq])
          simp only [decide_eq_true_eq]; omega
        rw [this]; rfl
    rw [muxList] at h
    cases ht : trackOf f s with
    | none => rw [ht] at h; simp at h
    | some t =>
      rw [ht] at h
      simp only at h
      cases hl : leftOut start stop discard t x with
      | none => rw [hl] at h; simp at h
      | some b =>
        rw [hl] at h
        cases b with
        | true =>
          simp only at h
          have honly : ∀ i t', trackOf f i = some t' → before stop t' (kept start discard t' (only ((s, x) :: l) i)) = before stop t' (kept start discard t' (only l i)) := by
            intro i t' ht'
            rw [only_cons]
            split
            · rename_i hsi
              rw [← hsi, ht] at ht'
              rw [← Option.some.inj ht', leftOut_spec _ _ _ _ _ _ hl, if_pos rfl]
            · rfl
          by_cases ha : (active stop s x flags).any id = true
          · rw [if_pos ha] at h
            obtain ⟨g1, g2, g3, g4⟩ := ih _ _ _ _ _ _ h hdec' hflags' hlen' hany'
            refine ⟨g1, g2, g3, ?_⟩
            intro i t' j ht' hj
            rw [honly i t' ht']
            exact g4 i t' j ht' hj
          · rw [if_neg ha] at h
            simp only [Option.some.injEq, Prod.mk.injEq] at h
            obtain ⟨rfl, rfl, rfl⟩ := h
            exact ⟨by simp, rfl, rfl, fun i => done_nil _ _ _ _ _ _ _ _ (fun t' ht' => by rw [honly i t' ht']; exact hstop ha i t' ht')⟩
        | false =>
          simp only at h
          cases hw : write f js s t x ends with
          | none => rw [hw] at h; simp at h
          | some w =>
            obtain ⟨a, ends1, js1⟩ := w
            rw [hw] at h
            simp only at h
            obtain ⟨j0, st0, e0, hj0, hst0, he0, ha, hends1, hjs1⟩ := write_spec _ _ _ _ _ _ _ _ _ hw
            have hsl : s < js.length := (List.getElem?_eq_some_iff.mp hj0).1
            have hsl2 : s < ends.length := (List.getElem?_eq_some_iff.mp he0).1
            have hjl : js1.length = js.length := by rw [hjs1, List.length_set]
            have hel : ends1.length = ends.length := by rw [hends1, List.length_set]
            have hast : a.stream = s := by rw [ha]; rfl
            -- what a step followed by a rest gives
            have key : ∀ (o1 : List Added) (js2 : List Join) (ends2 : List (Nat × Nat)),
                (∀ i, Done f start stop discard l js1 ends1 o1 js2 ends2 i) → ∀ i, Done f start stop discard ((s, x) :: l) js ends (a :: o1) js2 ends2 i := by
              intro o1 js2 ends2 hd i t' j ht' hj
              rw [only_cons, ofStream_cons, hast]
              by_cases hsi : s = i
              · rw [if_pos hsi, if_pos hsi]
                have htt : t' = t := by rw [hsi] at ht; rw [ht] at ht'; exact (Option.some.inj ht').symm
                have hjj : j = j0 := by rw [hsi] at hj0; rw [hj0] at hj; exact (Option.some.inj hj).symm
                rw [leftOut_spec _ _ _ t' x false (by rw [htt]; exact hl)]
                simp only [Bool.false_eq_true, if_false]
                have hj1 : js1[i]? = some { j with lastDec := decOf j t' x } := by
                  rw [hjs1, List.getElem?_set, if_pos hsi, if_pos hsl, hjj, htt]
                obtain ⟨d1, d2, d3⟩ := hd i t' _ ht' hj1
                refine ⟨?_, ?_, ?_⟩
                · rw [d1, List.map_cons, ha, ← hjj, ← htt, hsi]; rfl
                · intro e st he hst
                  have hee : e = e0 := by rw [hsi] at he0; rw [he0] at he; exact (Option.some.inj he).symm
                  have hss : st = st0 := by rw [hsi] at hst0; rw [hst0] at hst; exact (Option.some.inj hst).symm
                  have he1 : ends1[i]? = some (updateEnd e (compOf j t' x) (durOf st x)) := by
                    rw [hends1, List.getElem?_set, if_pos hsi, if_pos hsl2, hjj, htt, hee, hss]
                  rw [List.foldl_cons]
                  exact d2 _ st he1 hst
                · rw [List.foldl_cons]
                  exact d3
              · rw [if_neg hsi, if_neg hsi]
                have hj1 : js1[i]? = some j := by rw [hjs1, List.getElem?_set, if_neg hsi]; exact hj
                obtain ⟨d1, d2, d3⟩ := hd i t' j ht' hj1
                refine ⟨d1, ?_, d3⟩
                intro e st he hst
                exact d2 e st (by rw [hends1, List.getElem?_set, if_neg hsi]; exact he) hst
            by_cases hact : (active stop s x flags).any id = true
            · rw [if_pos hact] at h
              obtain ⟨⟨o1, js2, ends2⟩, hm, heq⟩ := Option.map_eq_some_iff.mp h
              simp only [Prod.mk.injEq] at heq
              obtain ⟨rfl, rfl, rfl⟩ := heq
              obtain ⟨g1, g2, g3, g4⟩ := ih _ _ _ _ _ _ hm hdec' hflags' hlen' hany'
              refine ⟨?_, by rw [g2, hjl], by rw [g3, hel], key _ _ _ g4⟩
              intro b hb
              rcases List.mem_cons.mp hb with rfl | hb
              · rw [hast]; exact hsl
              · have := g1 b hb; omega
            · rw [if_neg hact] at h
              simp only [Option.some.injEq, Prod.mk.injEq] at h
              obtain ⟨rfl, rfl, rfl⟩ := h
              refine ⟨?_, hjl, hel, key _ _ _ (fun i => done_nil _ _ _ _ _ _ _ _ (hstop hact i))⟩
              intro b hb
              rw [List.mem_singleton.mp hb, hast]; exact hsl

/-! ### the search for the first times -/

theorem lookList_spec (f : File) (start : Nat) (discard : Bool) : ∀ (l : List (Nat × Sample)) (look : Nat) (ns ns' : List Next), lookList f start discard l look ns = some ns' →
    ns'.length = ns.length ∧ (∀ n ∈ ns', n.isSome = true) ∧
    ∀ i t, trackOf f i = some t →
      (∀ v, ns[i]? = some (some v) → (∀ y ∈ kept start discard t (only l i), v.1 ≤ pres t y) → ns'[i]? = some (some v)) ∧
      (ns[i]? = some none → Spec.FirstEarliest t (kept start discard t (only l i)) →
        ∃ x, (kept start discard t (only l i)).head? = some x ∧ ns'[i]? = some (some (pres t x, x.decoding))) := by
  intro l
  induction l with
  | nil => intro look ns ns' h; simp [lookList] at h
  | cons q l ih =>
    intro look ns ns' h
    obtain ⟨s, x⟩ := q
    rw [lookList] at h
    cases ht : trackOf f s with
    | none => rw [ht] at h; simp at h
    | some t =>
      rw [ht] at h
      simp only at h
      by_cases hd : presented t x < start ∧ discard = true
      · rw [if_pos hd] at h
        replace hd : pres t x < start ∧ discard = true := hd
        have h' : lookList f start discard l look ns = some ns' := by
          split at h
          · simp at h
          · exact h
        have honly : ∀ i t', trackOf f i = some t' → kept start discard t' (only ((s, x) :: l) i) = kept start discard t' (only l i) := by
          intro i t' ht'
          rw [only_cons]
          split
          · rename_i hsi
            rw [hsi, ht'] at ht
            rw [Option.some.inj ht, kept, List.filter_cons, if_neg]
            · rfl
            · simp [hd.1, hd.2]
          · rfl
        obtain ⟨g1, g2, g3⟩ := ih _ _ _ h'
        refine ⟨g1, g2, ?_⟩
        intro i t' ht'
        rw [honly i t' ht']
        exact g3 i t' ht'
      · rw [if_neg hd] at h
        replace hd : ¬ (pres t x < start ∧ discard = true) := hd
        have hkept : kept start discard t (only ((s, x) :: l) s) = x :: kept start discard t (only l s) := by
          rw [only_cons, if_pos rfl, kept, List.filter_cons, if_pos]
          · rfl
          · cases discard with
            | false => simp
            | true => simp only [and_true] at hd; simp [hd]
        have hother : ∀ i t', i ≠ s → kept start discard t' (only ((s, x) :: l) i) = kept start discard t' (only l i) := by
          intro i t' hi; rw [only_cons, if_neg (fun e => hi e.symm)]
        cases hn : ns[s]? with
        | none => rw [hn] at h; simp at h
        | some n =>
          rw [hn] at h
          simp only at h
          have hsl : s < ns.length := (List.getElem?_eq_some_iff.mp hn).1
          by_cases hi : improves n (presented t x) = true
          · rw [if_pos hi] at h
            replace hi : improves n (pres t x) = true := hi
            rw [presented_eq] at h
            obtain ⟨g1, g2, g3⟩ := ih _ _ _ h
            refine ⟨by rw [g1, List.length_set], g2, ?_⟩
            intro i t' ht'
            obtain ⟨k1, k2⟩ := g3 i t' ht'
            by_cases his : i = s
            · have htt : t' = t := by rw [his, ht] at ht'; exact (Option.some.inj ht').symm
              rw [his, htt] at k1 k2 ⊢
              rw [hkept]
              have hset : (ns.set s (some (pres t x, x.decoding)))[s]? = some (some (pres t x, x.decoding)) := by
                rw [List.getElem?_set, if_pos rfl, if_pos hsl]
              refine ⟨?_, ?_⟩
              · intro v hv hall
                rw [hn] at hv
                have hnv : n = some v := Option.some.inj hv
                rw [hnv, improves] at hi
                obtain ⟨m, d⟩ := v
                simp only [decide_eq_true_eq] at hi
                have := hall x (by simp)
                simp only at this
                omega
              · intro hv hfe
                refine ⟨x, rfl, ?_⟩
                exact k1 _ hset (fun y hy => hfe x rfl y (by simp [hy]))
            · rw [hother i t' his]
              have hset : (ns.set s (some (pres t x, x.decoding)))[i]? = ns[i]? := by rw [List.getElem?_set, if_neg (fun e => his e.symm)]
              rw [hset] at k1 k2
              exact ⟨k1, k2⟩
          · rw [if_neg hi] at h
            replace hi : ¬ improves n (pres t x) = true := hi
            have hnsome : ∃ v, n = some v ∧ v.1 ≤ pres t x := by
              cases n with
              | none => simp [improves] at hi
              | some v =>
                obtain ⟨m, d⟩ := v
                simp only [improves, decide_eq_true_eq, Nat.not_lt] at hi
                exact ⟨(m, d), rfl, hi⟩
            obtain ⟨v, hv, hvx⟩ := hnsome
            by_cases hc : ns.any (·.isNone) = true ∨ look + 1 < 20
            · rw [if_pos hc] at h
              obtain ⟨g1, g2, g3⟩ := ih _ _ _ h
              refine ⟨g1, g2, ?_⟩
              intro i t' ht'
              obtain ⟨k1, k2⟩ := g3 i t' ht'
              by_cases his : i = s
              · have htt : t' = t := by rw [his, ht] at ht'; exact (Option.some.inj ht').symm
                rw [his, htt] at k1 k2 ⊢
                rw [hkept]
                refine ⟨fun w hw hall => k1 w hw (fun y hy => hall y (by simp [hy])), ?_⟩
                intro hnone
                rw [hn, hv] at hnone; simp at hnone
              · rw [hother i t' his]; exact ⟨k1, k2⟩
            · rw [if_neg hc] at h
              simp only [Option.some.injEq] at h
              subst h
              have hno : ∀ n ∈ ns, n.isSome = true := by
                intro n hn'
                cases n with
                | some _ => rfl
                | none => exact absurd (Or.inl (List.any_eq_true.mpr ⟨none, hn', rfl⟩)) hc
              refine ⟨rfl, hno, ?_⟩
              intro i t' ht'
              refine ⟨fun w hw _ => hw, ?_⟩
              intro hnone
              have := hno none (List.mem_of_getElem? hnone)
              simp at this

end Verif.Edit
