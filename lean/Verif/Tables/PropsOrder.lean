import Mathlib.Data.List.Induction
import Verif.Tables.PropsRead
/-!
Properties C57 (sync samples), C58 (composition times and order), C59 (sample at a composition time).
-/
namespace Verif.Tables
open Spec

/-! ### sync samples -/

/-- the map `parse_stss` builds from sample numbers (counted from 0) -/
def iframeMap (prev : Nat) : List Nat → Verif.RangeMap.RMap Nat
  | [] => [(prev + 1, prev)]
  | n :: rest => (n - 1, prev) :: iframeMap n rest

theorem stss_fold : ∀ (ns : List Nat) (i prev : Nat) (m : Verif.RangeMap.RMap Nat), 0 < i →
    (prev :: ns).Pairwise (· < ·) → (∀ n ∈ prev :: ns, n + 1 < 2 ^ 32) →
    let s := (ns.map (· + 1)).foldl stssRdStep (i, prev, m)
    Verif.RangeMap.add s.2.2 ((s.2.1 + 1) % 2 ^ 32) s.2.1 = m ++ iframeMap prev ns := by
  intro ns
  induction ns with
  | nil =>
    intro i prev m _ _ h
    have := h prev (by simp)
    simp only [List.map_nil, List.foldl_nil, Verif.RangeMap.add, iframeMap]
    rw [Nat.mod_eq_of_lt this]
  | cons n ns ih =>
    intro i prev m hi hp h
    have hn := h n (by simp)
    have hpn : prev < n := (List.pairwise_cons.1 hp).1 n (by simp)
    have h1 : sub32 (n + 1) 1 = n := by
      rw [sub32, show n + 1 + 2 ^ 32 - 1 = n + 2 ^ 32 by omega, Nat.add_mod_right, Nat.mod_eq_of_lt (by omega)]
    have h2 : sub32 n 1 = n - 1 := by
      rw [sub32, show n + 2 ^ 32 - 1 = (n - 1) + 2 ^ 32 by omega, Nat.add_mod_right, Nat.mod_eq_of_lt (by omega)]
    simp only [List.map_cons, List.foldl_cons, stssRdStep, hi, if_true, h1, h2]
    have := ih (i + 1) n (Verif.RangeMap.add m (n - 1) prev) (by omega) (List.pairwise_cons.1 hp).2
      (fun x hx => h x (List.mem_cons_of_mem _ hx))
    simp only at this
    rw [this]
    simp [iframeMap, Verif.RangeMap.add]

theorem iframeMap_ne (prev : Nat) (ns : List Nat) : iframeMap prev ns ≠ [] := by
  cases ns <;> simp [iframeMap]

theorem iframeMap_last (prev : Nat) (ns : List Nat) :
    (iframeMap prev ns).getLast? = some ((prev :: ns).getLast (by simp) + 1, (prev :: ns).getLast (by simp)) := by
  induction ns generalizing prev with
  | nil => rfl
  | cons n ns ih =>
    rw [iframeMap, List.getLast?_cons, ih n]
    simp

theorem iframeMap_lower (ns : List Nat) : ∀ (prev : Nat), (prev :: ns).Pairwise (· < ·) →
    ∀ e ∈ iframeMap prev ns, prev ≤ e.1 := by
  induction ns with
  | nil => intro prev _ e he; simp [iframeMap] at he; subst he; simp
  | cons n ns ih =>
    intro prev h e he
    have hpn : prev < n := (List.pairwise_cons.1 h).1 n (by simp)
    simp only [iframeMap, List.mem_cons] at he
    rcases he with rfl | he
    · simp; omega
    · have := ih n (List.pairwise_cons.1 h).2 e he; omega

theorem iframeMap_sorted (ns : List Nat) : ∀ (prev : Nat), (prev :: ns).Pairwise (· < ·) →
    (iframeMap prev ns).Pairwise (fun a b => a.1 ≤ b.1) := by
  induction ns with
  | nil => intro prev _; simp [iframeMap]
  | cons n ns ih =>
    intro prev h
    rw [iframeMap, List.pairwise_cons]
    refine ⟨?_, ih n (List.pairwise_cons.1 h).2⟩
    intro e he
    have := iframeMap_lower ns n (List.pairwise_cons.1 h).2 e he
    simp only; omega

theorem iframe_head (prev : Nat) (ns : List Nat) (h : (prev :: ns).Pairwise (· < ·)) (n : Nat)
    (e : Nat × Nat) (he : (iframeMap prev ns).head? = some e) (hn : n ≤ e.1) (hn' : ns = [] → n ≠ prev + 1) :
    e.2 = n ↔ n ∈ prev :: ns := by
  cases ns with
  | nil => simp [iframeMap] at he; subst he; simp [eq_comm]
  | cons m ms =>
    simp only [iframeMap, List.head?_cons, Option.some.injEq] at he
    subst he
    simp only at hn ⊢
    have hpm : prev < m := (List.pairwise_cons.1 h).1 m (by simp)
    constructor
    · rintro rfl; simp
    · intro hmem
      rcases List.mem_cons.1 hmem with rfl | hmem
      · rfl
      · rcases List.mem_cons.1 hmem with rfl | hmem
        · omega
        · have := (List.pairwise_cons.1 (List.pairwise_cons.1 h).2).1 n hmem; omega

theorem iframe_find (ns : List Nat) : ∀ (prev : Nat), (prev :: ns).Pairwise (· < ·) → ∀ (n : Nat) (e : Nat × Nat),
    (iframeMap prev ns).find? (fun e => decide (n ≤ e.1)) = some e → (e.2 = n ↔ n ∈ prev :: ns) := by
  induction ns with
  | nil =>
    intro prev _ n e he
    simp [iframeMap] at he
    obtain ⟨_, rfl⟩ := he
    simp [eq_comm]
  | cons m ms ih =>
    intro prev h n e he
    have hpm : prev < m := (List.pairwise_cons.1 h).1 m (by simp)
    rw [iframeMap, List.find?_cons] at he
    split at he
    · rename_i hle
      simp only [Option.some.injEq] at he
      subst he
      simp only [decide_eq_true_eq] at hle
      exact iframe_head prev (m :: ms) h n (m - 1, prev) rfl hle (by simp)
    · rename_i hle
      simp only [decide_eq_false_iff_not] at hle
      rw [ih m (List.pairwise_cons.1 h).2 n e he, List.mem_cons (a := n) (b := prev)]
      constructor
      · exact Or.inr
      · rintro (rfl | h)
        · omega
        · exact h

theorem le_getLast (l : List Nat) (h : l.Pairwise (· < ·)) (hne : l ≠ []) (n : Nat) (hn : n ∈ l) : n ≤ l.getLast hne := by
  induction l with
  | nil => simp at hne
  | cons a l ih =>
    by_cases h0 : l = []
    · subst h0; simp at hn; simp [hn]
    · rw [List.getLast_cons h0]
      rcases List.mem_cons.1 hn with rfl | hn
      · have := (List.pairwise_cons.1 h).1 _ (List.getLast_mem h0); omega
      · exact ih (List.pairwise_cons.1 h).2 h0 hn

/-- C57, reader. For every sync sample table (increasing sample numbers counted from 1), a sample is reported as
sync sample exactly when the table lists it. -/
theorem stss_read (ns : List Nat) (hne : ns ≠ []) (hsorted : ns.Pairwise (· < ·)) (h32 : ∀ n ∈ ns, n + 1 < 2 ^ 32)
    (rest : List Nat) :
    ∃ m, parseStss (ns.length :: (ns.map (· + 1) ++ rest)) = some m ∧
      ∀ sample, isIFrame m sample = some (decide (sample ∈ ns)) := by
  obtain ⟨p, ns, rfl⟩ := List.exists_cons_of_ne_nil hne
  refine ⟨iframeMap p ns, ?_, ?_⟩
  · have hlen : (p :: ns).length ≤ ((p :: ns).map (· + 1) ++ rest).length := by simp
    have htake : ((p :: ns).map (· + 1) ++ rest).take (p :: ns).length = (p :: ns).map (· + 1) := by
      rw [List.take_append_of_le_length (by simp), List.take_of_length_le (by simp)]
    simp only [parseStss, if_pos hlen, htake]
    have hp := h32 p (by simp)
    have h1 : sub32 (p + 1) 1 = p := by
      rw [sub32, show p + 1 + 2 ^ 32 - 1 = p + 2 ^ 32 by omega, Nat.add_mod_right, Nat.mod_eq_of_lt (by omega)]
    have hst : stssRdStep (0, 0, []) (p + 1) = (1, p, []) := by simp [stssRdStep, h1]
    rw [List.map_cons, List.foldl_cons, hst]
    have := stss_fold ns 1 p [] (by omega) hsorted h32
    simp only [List.nil_append] at this
    rw [this]
  · intro sample
    have hl : (iframeMap p ns).length ≠ 0 := by
      intro h; exact iframeMap_ne p ns (List.eq_nil_of_length_eq_zero h)
    obtain ⟨a, ha⟩ : ∃ a, (iframeMap p ns).head? = some a := by
      cases hh : iframeMap p ns with
      | nil => exact absurd hh (iframeMap_ne p ns)
      | cons a l => exact ⟨a, rfl⟩
    have hget := Verif.RangeMap.range_map_first (iframeMap p ns) sample (iframeMap_sorted ns p hsorted) a _ ha
      (iframeMap_last p ns)
    simp only [isIFrame, if_neg hl, hget]
    split
    · rename_i h
      have := iframe_head p ns hsorted sample a ha (by omega) (by
        rintro rfl; simp [iframeMap] at ha; subst ha; simp at h; omega)
      simp [this]
    · split
      · rename_i h2
        have hmem : sample ∉ p :: ns := by
          intro hm
          have := le_getLast _ hsorted (by simp) sample hm
          omega
        simp only [Option.map_some, Option.some.injEq, decide_eq_decide]
        constructor
        · intro h; omega
        · intro h; exact absurd h hmem
      · rename_i h1 h2
        cases hf : (iframeMap p ns).find? (fun e => decide (sample ≤ e.1)) with
        | none =>
          have := List.find?_eq_none.1 hf _ (List.mem_of_getLast? (iframeMap_last p ns))
          simp at this
          omega
        | some e =>
          have := iframe_find ns p hsorted sample e hf
          simp [this]

theorem iframes_written (xs : List SampleIn) : ∀ (s : WStream), s.visual = true →
    (writeAll s xs).iframes = s.iframes ++ ((List.range xs.length).filter (fun i => (xs[i]?).any (·.sync))).map
      (· + s.samples.length) := by
  induction xs with
  | nil => intro s _; simp [writeAll]
  | cons x xs ih =>
    intro s hv
    obtain ⟨_, _, _, _, _, f6, f7, f8, _⟩ := sampleWritten_fields s x
    have h := ih (sampleWritten s x) (by rw [f7]; exact hv)
    have hw : writeAll s (x :: xs) = writeAll (sampleWritten s x) xs := rfl
    rw [hw, h, f6, f8, List.length_cons, List.range_succ_eq_map]
    cases hx : x.sync
    · simp [List.filter_cons, hx, hv, List.filter_map, Function.comp_def]
      intro a _ _; omega
    · simp [List.filter_cons, hx, hv, List.filter_map, Function.comp_def]
      intro a _ _; omega

/-- C57. For every written video stream with at least one sync sample, the sync sample table the writer produces is
read back as exactly the sync flags of the samples. -/
theorem stss_roundtrip_partial (xs : List SampleIn) (hlen : xs.length < 2 ^ 32) (hsome : ∃ x ∈ xs, x.sync = true)
    (rest : List Nat) :
    ∃ words m, stssWords (flush (writeAll {} xs)) = some words ∧ parseStss (words ++ rest) = some m ∧
      ∀ i x, xs[i]? = some x → isIFrame m i = some x.sync := by
  have hif : (flush (writeAll {} xs)).iframes = (List.range xs.length).filter (fun i => (xs[i]?).any (·.sync)) := by
    rw [(flush_fields _).2.2.1, iframes_written xs {} rfl]; simp
  generalize hN : (List.range xs.length).filter (fun i => (xs[i]?).any (·.sync)) = N at *
  have hsort : N.Pairwise (· < ·) := by rw [← hN]; exact List.pairwise_lt_range.filter _
  have hmem : ∀ n ∈ N, n < xs.length := by
    intro n hn; rw [← hN] at hn; have := List.mem_filter.1 hn; simpa using this.1
  have hne : N ≠ [] := by
    obtain ⟨x, hx, hs⟩ := hsome
    obtain ⟨i, hi⟩ := List.mem_iff_getElem?.1 hx
    intro h0
    have : i ∈ N := by
      rw [← hN, List.mem_filter]
      exact ⟨by simpa using (List.getElem?_eq_some_iff.1 hi).1, by simp [hi, hs]⟩
    simp [h0] at this
  have hNl : N.length < 2 ^ 32 := by
    have : N.length ≤ xs.length := by
      rw [← hN]; exact Nat.le_trans (List.length_filter_le _ _) (by simp)
    omega
  obtain ⟨m, h1, h2⟩ := stss_read N hne hsort (fun n hn => by have := hmem n hn; omega) rest
  refine ⟨N.length :: N.map (· + 1), m, ?_, h1, ?_⟩
  · simp only [stssWords, hif]
    have hl : N.length ≠ 0 := by intro h; exact hne (List.eq_nil_of_length_eq_zero h)
    rw [if_neg hl, u32, Nat.mod_eq_of_lt hNl]
    congr 2
    apply List.map_congr_left
    intro i hi
    have := hmem i hi
    exact Nat.mod_eq_of_lt (by omega)
  · intro i x hx
    rw [h2]
    have hi := (List.getElem?_eq_some_iff.1 hx).1
    congr 1
    rw [← hN]
    rw [List.getElem?_eq_getElem hi, Option.some.injEq] at hx
    subst hx
    simp [hi]

/-- C57 fails for a video stream without sync samples: no table is written, and without a table every sample is
reported as a sync sample. -/
theorem stss_no_sync_witness (xs : List SampleIn) (hnone : ∀ x ∈ xs, x.sync = false) :
    stssWords (flush (writeAll {} xs)) = none ∧ ∀ sample, isIFrame [] sample = some true := by
  refine ⟨?_, fun _ => rfl⟩
  have hif : (flush (writeAll {} xs)).iframes = [] := by
    rw [(flush_fields _).2.2.1, iframes_written xs {} rfl]
    simp
    intro i hi
    cases hx : xs[i]? with
    | none => simp
    | some x => simpa using hnone x (List.mem_of_getElem? hx)
  simp [stssWords, hif]

example : stssWords (writeAll {} [⟨0, 0, true, 1, 0⟩, ⟨1, 1, false, 1, 1⟩, ⟨2, 2, true, 1, 2⟩]) = some [2, 1, 3] ∧
    (parseStss [2, 1, 3]).map (fun m => [isIFrame m 0, isIFrame m 1, isIFrame m 2])
      = some [some true, some false, some true] := by decide

/-! ### composition order -/

theorem orderedScan_eq (t : Nat) (A B : List (Nat × Nat)) (hB : ∀ c ∈ B, t < c.1) (a : Nat × Nat) (ha : a.1 ≤ t)
    (C stack : List (Nat × Nat)) :
    orderedScan t (A ++ a :: (B ++ C)) (A.length + 1 + B.length) stack = some (A.length + 1, B ++ stack) := by
  induction B using List.reverseRecOn generalizing C stack with
  | nil => simp [orderedScan]; omega
  | append_singleton B b ih =>
    have hb : t < b.1 := hB b (by simp)
    have hget : (A ++ a :: ((B ++ [b]) ++ C))[A.length + 1 + B.length]? = some b := by
      rw [List.getElem?_append_right (by omega)]
      rw [show A.length + 1 + B.length - A.length = B.length + 1 by omega, List.getElem?_cons_succ]
      simp
    rw [show A.length + 1 + (B ++ [b]).length = (A.length + 1 + B.length) + 1 by simp; omega, orderedScan.eq_2, hget]
    simp only [hb, if_true]
    have := ih (fun c hc => hB c (by simp [hc])) ([b] ++ C) (b :: stack)
    simp only [List.append_assoc] at this ⊢
    rw [this]
    simp

theorem orderedFill_eq : ∀ (B A st : List (Nat × Nat)), st.length = B.length + 1 →
    orderedFill (A ++ B) A.length st = some (A ++ st) := by
  intro B
  induction B with
  | nil =>
    intro A st h
    match st, h with
    | [x], _ => simp [orderedFill]
  | cons b B ih =>
    intro A st h
    match st, h with
    | x :: st, h =>
      have hlt : A.length < (A ++ b :: B).length := by simp
      rw [orderedFill, if_pos hlt]
      have hset : (A ++ b :: B).set A.length x = (A ++ [x]) ++ B := by simp
      have := ih (A ++ [x]) st (by simp at h ⊢; omega)
      rw [hset]
      rw [show A.length + 1 = (A ++ [x]).length by simp, this]
      simp

/-- A pair is inserted in order behind the elements that are not greater, provided it is not below the first. -/
theorem addOrdered_eq (A B : List (Nat × Nat)) (n a : Nat × Nat) (ha : a.1 ≤ n.1) (hB : ∀ c ∈ B, n.1 < c.1) :
    addOrdered (A ++ a :: B) n = some (A ++ a :: n :: B) := by
  have hs := orderedScan_eq n.1 A B hB a ha [] []
  simp only [List.append_nil] at hs
  have hl : (A ++ a :: B).length = A.length + 1 + B.length := by simp; omega
  simp only [addOrdered]
  rw [if_neg (by simp), hl, hs]
  cases B with
  | nil => simp
  | cons b B =>
    simp only [List.isEmpty_cons, Bool.false_eq_true, if_false]
    have hset : (A ++ a :: b :: B).set (A.length + 1) n = (A ++ [a, n]) ++ B := by
      rw [List.set_append_right _ _ (by omega)]
      simp [show A.length + 1 - A.length = 1 by omega]
    rw [hset]
    have := orderedFill_eq B (A ++ [a, n]) (b :: B) (by simp)
    rw [show A.length + 1 + 1 = (A ++ [a, n]).length by simp, this]
    simp

/-- splitting a sorted list at a bound -/
theorem split_at (l : List (Nat × Nat)) (t : Nat) (hs : l.Pairwise (fun a b => a.1 ≤ b.1)) (hex : ∃ c ∈ l, c.1 ≤ t) :
    ∃ A a B, l = A ++ a :: B ∧ (∀ c ∈ A ++ [a], c.1 ≤ t) ∧ ∀ c ∈ B, t < c.1 := by
  induction l with
  | nil => simp at hex
  | cons x l ih =>
    obtain ⟨h1, h2⟩ := List.pairwise_cons.1 hs
    by_cases hx : ∃ c ∈ l, c.1 ≤ t
    · obtain ⟨A, a, B, rfl, hA, hB⟩ := ih h2 hx
      refine ⟨x :: A, a, B, rfl, ?_, hB⟩
      intro c hc
      simp only [List.cons_append, List.mem_cons] at hc
      rcases hc with rfl | hc
      · obtain ⟨d, hd, hdt⟩ := hx
        have := h1 d hd; omega
      · exact hA c hc
    · refine ⟨[], x, l, rfl, ?_, ?_⟩
      · intro c hc; simp at hc; subst hc
        obtain ⟨d, hd, hdt⟩ := hex
        rcases List.mem_cons.1 hd with rfl | hd
        · exact hdt
        · exact absurd ⟨d, hd, hdt⟩ hx
      · intro c hc
        apply Nat.lt_of_not_le
        intro h; exact hx ⟨c, hc, h⟩

/-- `add_ordered` keeps a sorted permutation. -/
theorem addOrdered_sorted (l : List (Nat × Nat)) (n : Nat × Nat) (hs : l.Pairwise (fun a b => a.1 ≤ b.1))
    (hex : l = [] ∨ ∃ c ∈ l, c.1 ≤ n.1) :
    ∃ l', addOrdered l n = some l' ∧ l'.Pairwise (fun a b => a.1 ≤ b.1) ∧ l'.Perm (l ++ [n]) := by
  rcases hex with rfl | hex
  · exact ⟨[n], by simp [addOrdered], by simp, by simp⟩
  · obtain ⟨A, a, B, rfl, hA, hB⟩ := split_at l n.1 hs hex
    refine ⟨A ++ a :: n :: B, addOrdered_eq A B n a (hA a (by simp)) hB, ?_, ?_⟩
    · rw [List.pairwise_append] at hs ⊢
      obtain ⟨p1, p2, p3⟩ := hs
      refine ⟨p1, ?_, ?_⟩
      · rw [List.pairwise_cons] at p2
        rw [List.pairwise_cons, List.pairwise_cons]
        refine ⟨?_, ?_, p2.2⟩
        · intro c hc
          rcases List.mem_cons.1 hc with rfl | hc
          · exact hA a (by simp)
          · exact p2.1 c hc
        · intro c hc; exact Nat.le_of_lt (hB c hc)
      · intro x hx y hy
        rcases List.mem_cons.1 hy with rfl | hy
        · exact p3 x hx _ (by simp)
        · rcases List.mem_cons.1 hy with rfl | hy
          · exact hA x (by simp [hx])
          · exact p3 x hx y (by simp [hy])
    · have h1 : (A ++ a :: n :: B) = (A ++ [a]) ++ n :: B := by simp
      have h2 : A ++ a :: B ++ [n] = (A ++ [a]) ++ (B ++ [n]) := by simp
      rw [h1, h2]
      apply List.Perm.append_left
      exact (List.perm_append_singleton n B).symm

/-- the sample loop of `parse_ctts`, one offset at a time -/
def cttsFlat : List Nat → CttsRd → Option CttsRd
  | [], s => some s
  | o :: os, s => match cttsInner o 1 s with | none => none | some s => cttsFlat os s

theorem cttsInner_succ (o k : Nat) (s : CttsRd) :
    cttsInner o (k + 1) s = match cttsInner o 1 s with | none => none | some s => cttsInner o k s := by
  simp only [cttsInner]
  cases s.comps[s.n]? with
  | none => rfl
  | some c =>
    simp only
    cases addOrdered s.ordered (c.decoding + o, s.n) <;> rfl

theorem cttsFlat_append (a b : List Nat) : ∀ s, cttsFlat (a ++ b) s = match cttsFlat a s with
    | none => none | some s => cttsFlat b s := by
  induction a with
  | nil => intro s; rfl
  | cons o os ih =>
    intro s
    simp only [List.cons_append, cttsFlat]
    cases cttsInner o 1 s with
    | none => rfl
    | some s => exact ih s

theorem cttsInner_flat (o : Nat) : ∀ (k : Nat) (s : CttsRd), cttsInner o k s = cttsFlat (List.replicate k o) s := by
  intro k
  induction k with
  | zero => intro s; rfl
  | succ k ih =>
    intro s
    rw [cttsInner_succ, List.replicate_succ, cttsFlat]
    cases cttsInner o 1 s with
    | none => rfl
    | some s => exact ih s

theorem cttsOuter_flat (es : List (Nat × Nat)) : ∀ s, cttsOuter es s = cttsFlat (expand es) s := by
  induction es with
  | nil => intro s; rfl
  | cons e es ih =>
    intro s
    obtain ⟨k, o⟩ := e
    have : expand ((k, o) :: es) = List.replicate k o ++ expand es := by simp [expand]
    rw [cttsOuter, this, cttsFlat_append, cttsInner_flat]
    cases cttsFlat (List.replicate k o) s with
    | none => rfl
    | some s => exact ih s

/-- the composition time of a sample of a stream with durations `D` and composition offsets `O` -/
def compTime (D O : List Nat) (i : Nat) : Nat := startOf D i + O.getD i 0

theorem comps_step (D P : List Nat) (o : Nat) (hlen : P.length < D.length) (c : Comp)
    (hc : (D.mapIdx (fun i d => (⟨startOf D i, P.getD i 0, d⟩ : Comp)))[P.length]? = some c) :
    (D.mapIdx (fun i d => (⟨startOf D i, P.getD i 0, d⟩ : Comp))).set P.length { c with offset := o } =
      D.mapIdx (fun i d => ⟨startOf D i, (P ++ [o]).getD i 0, d⟩) := by
  apply List.ext_getElem?
  intro i
  simp only [List.getElem?_mapIdx] at hc
  rw [List.getElem?_set]
  by_cases hi : P.length = i
  · subst hi
    simp only [List.getElem?_eq_getElem hlen, Option.map_some, Option.some.injEq] at hc
    subst hc
    simp [hlen, List.getElem?_append_right]
  · simp only [if_neg hi, List.getElem?_mapIdx]
    congr 1
    funext d
    congr 1
    rcases Nat.lt_or_ge i P.length with h | h
    · simp [List.getD_eq_getElem?_getD, List.getElem?_append_left h]
    · simp [List.getD_eq_getElem?_getD, List.getElem?_append_right h, h, show ¬ i - P.length = 0 by omega,
        List.getElem?_eq_none (l := [o]) (show [o].length ≤ i - P.length by simp; omega)]

theorem ctts_flat_inv (D : List Nat) : ∀ (os P : List Nat) (s : CttsRd), P.length + os.length ≤ D.length →
    s.n = P.length → s.comps = D.mapIdx (fun i d => ⟨startOf D i, P.getD i 0, d⟩) →
    s.ordered.Pairwise (fun a b => a.1 ≤ b.1) →
    s.ordered.Perm ((List.range P.length).map (fun i => (compTime D P i, i))) →
    (∀ i, i < (P ++ os).length → compTime D (P ++ os) 0 ≤ compTime D (P ++ os) i) →
    ∃ s', cttsFlat os s = some s' ∧ s'.comps = D.mapIdx (fun i d => ⟨startOf D i, (P ++ os).getD i 0, d⟩) ∧
      s'.ordered.Pairwise (fun a b => a.1 ≤ b.1) ∧
      s'.ordered.Perm ((List.range (P ++ os).length).map (fun i => (compTime D (P ++ os) i, i))) := by
  intro os
  induction os with
  | nil => intro P s h1 h2 h3 h4 h5 h6; exact ⟨s, rfl, by simpa using h3, h4, by simpa using h5⟩
  | cons o os ih =>
    intro P s h1 h2 h3 h4 h5 h6
    simp only [List.length_cons] at h1
    have hPl : P.length < D.length := by omega
    have hdec : s.comps[s.n]? = some ⟨startOf D P.length, P.getD P.length 0, D[P.length]⟩ := by
      rw [h3, h2, List.getElem?_mapIdx, List.getElem?_eq_getElem hPl]; rfl
    have hext : ∀ i, i < P.length → compTime D (P ++ o :: os) i = compTime D P i := by
      intro i hi
      simp [compTime, List.getD_eq_getElem?_getD, List.getElem?_append_left hi]
    have hnew : compTime D (P ++ o :: os) P.length = startOf D P.length + o := by
      simp [compTime, List.getD_eq_getElem?_getD]
    have hex : s.ordered = [] ∨ ∃ c ∈ s.ordered, c.1 ≤ startOf D P.length + o := by
      rcases Nat.eq_zero_or_pos P.length with h0 | h0
      · left
        rw [h0] at h5
        simpa using h5
      · right
        refine ⟨(compTime D P 0, 0), ?_, ?_⟩
        · rw [h5.mem_iff, List.mem_map]; exact ⟨0, by simpa using h0, rfl⟩
        · have := h6 P.length (by simp)
          rw [hnew, hext 0 h0] at this
          exact this
    obtain ⟨l', a1, a2, a3⟩ := addOrdered_sorted s.ordered (startOf D P.length + o, s.n) h4 hex
    have hstep : cttsInner o 1 s = some ⟨s.n + 1, s.comps.set s.n ⟨startOf D P.length, o, D[P.length]⟩, l'⟩ := by
      simp only [cttsInner, hdec, a1]
    have hperm : l'.Perm ((List.range (P ++ [o]).length).map (fun i => (compTime D (P ++ [o]) i, i))) := by
      refine a3.trans ?_
      rw [show (P ++ [o]).length = P.length + 1 by simp, List.range_succ, List.map_append, h2]
      have e1 : (List.range P.length).map (fun i => (compTime D (P ++ [o]) i, i)) =
          (List.range P.length).map (fun i => (compTime D P i, i)) := by
        apply List.map_congr_left
        intro i hi
        simp only [List.mem_range] at hi
        simp [compTime, List.getD_eq_getElem?_getD, List.getElem?_append_left hi]
      have e2 : compTime D (P ++ [o]) P.length = startOf D P.length + o := by
        simp [compTime, List.getD_eq_getElem?_getD]
      rw [e1, List.map_singleton, e2]
      exact h5.append_right _
    obtain ⟨s', b1, b2, b3, b4⟩ := ih (P ++ [o]) ⟨s.n + 1, s.comps.set s.n ⟨startOf D P.length, o, D[P.length]⟩, l'⟩
      (by simp; omega) (by simp [h2])
      (by
        have := comps_step D P o hPl ⟨startOf D P.length, P.getD P.length 0, D[P.length]⟩ (by
          rw [← h3]; simpa only [h2] using hdec)
        rw [← h3] at this
        simp only [h2]
        exact this) a2 hperm (by
        intro i hi
        have := h6 i (by simpa using hi)
        simpa using this)
    refine ⟨s', ?_, ?_, b3, ?_⟩
    · rw [cttsFlat, hstep]; exact b1
    · simpa using b2
    · simpa using b4

/-- C58. For every pair of time tables in which no sample is presented before the first one: the reader gives every
sample the composition time start + offset, and its presentation order is the samples sorted by that time.
(The hypothesis `hfirst` is the missing part.) -/
theorem ctts_read_partial (es cs : List (Nat × Nat)) (rest rest' : List Nat)
    (hlen : (expand cs).length = (expand es).length)
    (hfirst : ∀ i, i < (expand es).length → compTime (expand es) (expand cs) 0 ≤ compTime (expand es) (expand cs) i) :
    ∃ d s, parseStts (pairWords es ++ rest) = some d ∧ parseCtts d.comps (pairWords cs ++ rest') = some s ∧
      (∀ i, i < (expand es).length →
        compositionTime s.comps i = some (((expand es).take i).sum + (expand cs).getD i 0)) ∧
      s.ordered.Pairwise (fun a b => a.1 ≤ b.1) ∧
      s.ordered.Perm ((List.range (expand es).length).map (fun i => (compTime (expand es) (expand cs) i, i))) := by
  obtain ⟨d, h1, h2, _⟩ := parse_stts_eq es rest
  obtain ⟨s, b1, b2, b3, b4⟩ := ctts_flat_inv (expand es) (expand cs) [] { comps := d.comps } (by simp [hlen]) rfl
    (by simp [h2, compsOf]) (by simp) (by simp) (by simpa [hlen] using hfirst)
  refine ⟨d, s, h1, ?_, ?_, b3, ?_⟩
  · simp only [parseCtts, pairWords, List.cons_append]
    rw [pairs_words]
    simp only [cttsOuter_flat]
    exact b1
  · intro i hi
    simp only [compositionTime, b2, List.getElem?_mapIdx, List.getElem?_eq_getElem hi]
    simp [startOf]
  · rw [← hlen]; simpa using b4

example : let es := [(4, 40)]; let cs := [(1, 40), (1, 120), (2, 0)]
    (expand cs).length = (expand es).length ∧
    ∀ i, i < (expand es).length → compTime (expand es) (expand cs) 0 ≤ compTime (expand es) (expand cs) i := by decide

/-- C58 fails when a later sample is presented before the first one: the insertion reads before the start of the
array. -/
theorem ctts_first_witness :
    ∃ d, parseStts (pairWords [(2, 40)]) = some d ∧ parseCtts d.comps (pairWords [(1, 100), (1, 0)]) = none :=
  ⟨_, rfl, by decide⟩

/-! ### sample at a composition time -/

/-- C59. For every such stream and every time from the first to the last composition time, the sample found by
composition time is presented at or before that time and none of the others is presented later but still at or
before it. -/
theorem composition_sample_read_partial (es cs : List (Nat × Nat)) (rest rest' : List Nat)
    (hlen : (expand cs).length = (expand es).length)
    (hfirst : ∀ i, i < (expand es).length → compTime (expand es) (expand cs) 0 ≤ compTime (expand es) (expand cs) i)
    (t : Nat) (ht0 : compTime (expand es) (expand cs) 0 ≤ t)
    (ht1 : ∃ j, j < (expand es).length ∧ t ≤ compTime (expand es) (expand cs) j) :
    ∃ d s n, parseStts (pairWords es ++ rest) = some d ∧ parseCtts d.comps (pairWords cs ++ rest') = some s ∧
      compositionSampleNumber s.ordered t = n ∧ n < (expand es).length ∧
      compTime (expand es) (expand cs) n ≤ t ∧
      ∀ j, j < (expand es).length → compTime (expand es) (expand cs) j ≤ t →
        compTime (expand es) (expand cs) j ≤ compTime (expand es) (expand cs) n := by
  obtain ⟨d, s, h1, h2, _, h4, h5⟩ := ctts_read_partial es cs rest rest' hlen hfirst
  refine ⟨d, s, compositionSampleNumber s.ordered t, h1, h2, rfl, ?_⟩
  generalize compTime (expand es) (expand cs) = T at *
  generalize (expand es).length = N at *
  have hmem : ∀ c, c ∈ s.ordered ↔ ∃ i, i < N ∧ c = (T i, i) := by
    intro c
    rw [h5.mem_iff, List.mem_map]
    constructor
    · rintro ⟨i, hi, rfl⟩; exact ⟨i, by simpa using hi, rfl⟩
    · rintro ⟨i, hi, rfl⟩; exact ⟨i, by simpa using hi, rfl⟩
  obtain ⟨j, hj, hjt⟩ := ht1
  have hjm : (T j, j) ∈ s.ordered := (hmem _).2 ⟨j, hj, rfl⟩
  generalize hL : s.ordered = L at *
  have hi : L.findIdx (fun c => decide (t ≤ c.1)) < L.length := by
    rw [List.findIdx_lt_length]
    exact ⟨_, hjm, by simpa using hjt⟩
  have hsat := List.findIdx_getElem (w := hi)
  have hbef : ∀ k (hk : k < L.findIdx (fun c => decide (t ≤ c.1))), ¬ t ≤ (L[k]'(Nat.lt_trans hk hi)).1 := by
    intro k hk
    have := List.not_of_lt_findIdx hk
    simpa using this
  generalize hx : L.findIdx (fun c => decide (t ≤ c.1)) = i at *
  have hsat : t ≤ L[i].1 := by simpa using hsat
  have hget : L[i]? = some L[i] := List.getElem?_eq_getElem hi
  have hsort : ∀ a b (ha : a < L.length) (hb : b < L.length), a ≤ b → L[a].1 ≤ L[b].1 := by
    intro a b ha hb hab
    rcases Nat.lt_or_eq_of_le hab with h | rfl
    · exact List.pairwise_iff_getElem.1 h4 a b ha hb h
    · exact Nat.le_refl _
  have hcs : compositionSampleNumber L t = if i = 0 then 0 else if t < L[i].1 then
      (match L[i - 1]? with | some p => p.2 | none => 0) else L[i].2 := by
    simp only [compositionSampleNumber, hx, hget]
    rfl
  rw [hcs]
  split
  · rename_i h0
    subst h0
    refine ⟨by omega, ht0, ?_⟩
    intro k hk hkt
    -- every time is at least the first of the list, which is at least t
    have hkm : (T 0, 0) ∈ L := (hmem _).2 ⟨0, by omega, rfl⟩
    obtain ⟨q, hq, hqe⟩ := List.getElem_of_mem hkm
    have := hsort 0 q hi hq (Nat.zero_le _)
    rw [hqe] at this
    simp only at this
    omega
  · rename_i h0
    split
    · rename_i hlt
      have hp : i - 1 < L.length := by omega
      rw [List.getElem?_eq_getElem hp]
      obtain ⟨n, hn, hne⟩ := (hmem _).1 (List.getElem_mem hp)
      have hb := hbef (i - 1) (by omega)
      simp only [hne] at hb ⊢
      refine ⟨hn, by omega, ?_⟩
      intro k hk hkt
      obtain ⟨q, hq, hqe⟩ := List.getElem_of_mem ((hmem _).2 ⟨k, hk, rfl⟩)
      have hqi : q < i := by
        apply Nat.lt_of_not_le
        intro hle
        have := hsort i q hi hq hle
        rw [hqe] at this; simp only at this; omega
      have := hsort q (i - 1) hq hp (by omega)
      rw [hqe, hne] at this
      exact this
    · rename_i hlt
      obtain ⟨n, hn, hne⟩ := (hmem _).1 (List.getElem_mem hi)
      rw [hne] at hlt hsat ⊢
      simp only at hlt hsat ⊢
      refine ⟨hn, by omega, ?_⟩
      intro k hk hkt
      omega

/-- C59 fails after the last composition time: sample 0 is returned. -/
theorem composition_sample_after_end_witness :
    ∃ d s, parseStts (pairWords [(3, 40)]) = some d ∧ parseCtts d.comps (pairWords [(3, 40)]) = some s ∧
      compositionTime s.comps 2 = some 120 ∧ compositionSampleNumber s.ordered 121 = 0 :=
  ⟨_, _, rfl, rfl, by decide, by decide⟩

example : let es := [(4, 40)]; let cs := [(1, 40), (1, 120), (2, 0)]
    compTime (expand es) (expand cs) 0 ≤ 100 ∧ ∃ j, j < (expand es).length ∧ 100 ≤ compTime (expand es) (expand cs) j :=
  ⟨by decide, 1, by decide⟩

end Verif.Tables
