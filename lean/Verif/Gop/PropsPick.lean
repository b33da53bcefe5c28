import Verif.Gop.PropsList
/-
C149: the listing of the samples of a file.
-/
namespace Verif.Gop
open Verif.Reader Verif.Reader.Spec Verif.Gop.Spec

theorem next_stream {r r' : Reader} {x : Nat × Sample} {b : Bool} (h : next r = some (b, some x, r')) :
    x.1 < r.streams.length ∧ r'.streams.length = r.streams.length := by
  simp only [next] at h
  split at h
  · simp at h
  · simp at h
  · split at h
    · simp at h
    · rename_i s last _ t p hs
      split at h
      · simp only [Option.some.injEq, Prod.mk.injEq] at h
        obtain ⟨_, rfl, rfl⟩ := h
        refine ⟨(List.getElem?_eq_some_iff.1 hs).1, ?_⟩
        simp only [moveNext, hs, List.length_set]
      · simp at h

theorem set_true : ∀ (l : List Bool) (i : Nat), l.all id = true → l.set i true = l := by
  intro l
  induction l with
  | nil => intro i _; rfl
  | cons a l ih =>
    intro i h
    simp only [List.all_cons, Bool.and_eq_true, id] at h
    cases i with
    | zero => simp [h.1]
    | succ i => simp only [List.set_cons_succ]; rw [ih i h.2]

theorem set_false {l : List Bool} {i : Nat} (hi : i < l.length) : (l.set i false).all id = false := by
  rw [List.all_eq_false]
  exact ⟨false, List.mem_iff_getElem.2 ⟨i, by simpa using hi, by simp⟩, by simp⟩

/-- the samples that are not passed over -/
def wanted (only : Option Nat) (out : List (Nat × Sample)) : List (Nat × Sample) :=
  out.filter fun x => decide (only = none ∨ only = some x.1)

theorem pickLoop_eq (only : Option Nat) (stop : Nat) : ∀ (fuel : Nat) (r : Reader) (running : List Bool) (out : List (Nat × Sample)),
    running.all id = true → running.length = r.streams.length → readAll fuel r = some out →
    pickLoop only stop fuel r running = some (through stop (wanted only out)) := by
  intro fuel
  induction fuel with
  | zero => intro r running out _ _ h; simp only [readAll, Option.some.injEq] at h; subst h; rfl
  | succ fuel ih =>
    intro r running out ha hl h
    rw [readAll] at h
    rw [pickLoop]
    cases hn : next r with
    | none => rw [hn] at h; simp at h
    | some v =>
      obtain ⟨b, x, r'⟩ := v
      rw [hn] at h
      cases b with
      | false => simp only [Option.some.injEq] at h; subst h; rfl
      | true =>
        cases x with
        | none => simp at h
        | some x =>
          simp only [Option.map_eq_some_iff] at h
          obtain ⟨rest, h1, rfl⟩ := h
          obtain ⟨n1, n2⟩ := next_stream hn
          simp only
          by_cases ho : only.isSome ∧ only ≠ some x.1
          · rw [if_pos ho, ih r' running rest ha (by omega) h1]
            have hw : wanted only (x :: rest) = wanted only rest := by
              rw [wanted, List.filter_cons_of_neg]
              · rfl
              · simp only [decide_eq_true_eq, not_or]
                exact ⟨by intro e; rw [e] at ho; simp at ho, ho.2⟩
            rw [hw]
          · rw [if_neg ho]
            have hw : wanted only (x :: rest) = x :: wanted only rest := by
              rw [wanted, List.filter_cons_of_pos]
              · rfl
              · simp only [decide_eq_true_eq]
                cases only with
                | none => exact .inl rfl
                | some i => right; simpa using ho
            rw [hw, through]
            by_cases hd : x.2.decoding < stop ∨ stop = 0
            · rw [decide_eq_true hd, set_true _ _ ha, if_pos ha, if_pos hd, ih r' running rest ha (by omega) h1]
              rfl
            · rw [decide_eq_false hd, if_neg hd, set_false (by omega)]
              rfl

/-- what is listed when the samples come in decoding order: those decoded before `stop`, and one more -/
theorem through_sorted (stop : Nat) (h0 : stop ≠ 0) : ∀ (l : List (Nat × Sample)), l.Pairwise (fun a b => a.2.decoding ≤ b.2.decoding) →
    (through stop l).filter (fun x => decide (x.2.decoding < stop)) = l.filter (fun x => decide (x.2.decoding < stop)) ∧
    (through stop l).length ≤ (l.filter (fun x => decide (x.2.decoding < stop))).length + 1 := by
  intro l
  induction l with
  | nil => intro _; simp [through]
  | cons x l ih =>
    intro h
    obtain ⟨h1, h2⟩ := List.pairwise_cons.1 h
    obtain ⟨i1, i2⟩ := ih h2
    by_cases hx : x.2.decoding < stop
    · simp only [through, hx, true_or, if_true, List.filter_cons_of_pos, decide_true, i1, List.length_cons]
      exact ⟨trivial, by omega⟩
    · have hnil : l.filter (fun x => decide (x.2.decoding < stop)) = [] := by
        rw [List.filter_eq_nil_iff]
        intro y hy
        have := h1 y hy
        simp; omega
      simp [through, hx, h0, hnil]

/-- C149. For every file whose samples lie inside its media data, and from every position: with `out` what reading to the end delivers (for each track exactly the samples from its position on, C90), the listing of one stream is `out`
restricted to that stream, up to and including the first sample decoded at `stop` or later (all of it when `stop` is 0); so if the track is stored in decoding order, all samples decoded before `stop` are listed, in order, and at
most one more. -/
theorem stream_listed (r : Reader) (xss : List (List Sample)) (h : FileHolds r xss) (hin : Inside xss r.mdatEnd) (hmax : r.mdatEnd < 2 ^ 64 - 1)
    (fuel : Nat) (hf : remaining r.streams < fuel) (i stop : Nat) (t : Track) (p : Nat) (xs : List Sample) (hi : r.streams[i]? = some (t, p))
    (hx : xss[i]? = some xs) :
    ∃ listed, pickSamples (some i) stop fuel r = some listed ∧ (∀ y ∈ listed, y.1 = i) ∧
      (stop = 0 → listed.map (·.2) = xs.drop p) ∧
      (stop ≠ 0 → xs.Pairwise (fun a b => a.decoding ≤ b.decoding) →
        (listed.map (·.2)).filter (fun y => decide (y.decoding < stop)) = (xs.drop p).filter (fun y => decide (y.decoding < stop)) ∧
        listed.length ≤ ((xs.drop p).filter (fun y => decide (y.decoding < stop))).length + 1) := by
  obtain ⟨out, o1, o2, o3⟩ := file_read_complete r xss h hin hmax fuel hf
  have hs := o3 i t p xs hi hx
  have he := pickLoop_eq (some i) stop fuel r (r.streams.map fun _ => true) out (by simp) (by simp) o1
  have hw : (wanted (some i) out).map (·.2) = xs.drop p := by
    rw [← hs, ofStream, wanted]
    congr 1
    apply List.filter_congr
    intro y _
    simp [eq_comm]
  have hmem : ∀ (l : List (Nat × Sample)), ∀ y ∈ through stop l, y ∈ l := by
    intro l
    induction l with
    | nil => intro y hy; simp [through] at hy
    | cons x l ih =>
      intro y hy
      rw [through] at hy
      split at hy
      · rcases List.mem_cons.1 hy with rfl | hy
        · simp
        · exact List.mem_cons_of_mem _ (ih y hy)
      · simp at hy; simp [hy]
  refine ⟨_, he, ?_, ?_, ?_⟩
  · intro y hy
    have := hmem _ y hy
    simp only [wanted, List.mem_filter, decide_eq_true_eq] at this
    simpa [eq_comm] using this.2
  · rintro rfl
    have : ∀ l, through 0 l = l := by
      intro l
      induction l with
      | nil => rfl
      | cons x l ih => simp [through, ih]
    rw [this, hw]
  · intro h0 hsort
    have hl : (wanted (some i) out).Pairwise (fun a b => a.2.decoding ≤ b.2.decoding) := by
      have : ((wanted (some i) out).map (·.2)).Pairwise (fun a b => a.decoding ≤ b.decoding) := by
        rw [hw]; exact hsort.sublist (List.drop_sublist _ _)
      rwa [List.pairwise_map] at this
    obtain ⟨g1, g2⟩ := through_sorted stop h0 _ hl
    have hfm : ∀ l : List (Nat × Sample), (l.map (·.2)).filter (fun y => decide (y.decoding < stop)) =
        (l.filter (fun x => decide (x.2.decoding < stop))).map (·.2) := by
      intro l; rw [List.filter_map]; rfl
    rw [← hw, hfm, hfm, List.length_map, g1]
    exact ⟨rfl, g2⟩

/-- C149, all streams. What is listed is what reading delivers, up to and including the first sample, of whichever stream, decoded at `stop` or later; all of it when `stop` is 0. (Missing: that every sample decoded before `stop` is
listed, which is false when the streams are stored apart, see the witness.) -/
theorem all_listed_partial (r : Reader) (fuel stop : Nat) (out : List (Nat × Sample)) (hout : readAll fuel r = some out) :
    pickSamples none stop fuel r = some (through stop out) ∧ through 0 out = out := by
  have he := pickLoop_eq none stop fuel r (r.streams.map fun _ => true) out (by simp) (by simp) hout
  have hw : wanted none out = out := by
    rw [wanted, List.filter_eq_self]; simp
  rw [hw] at he
  refine ⟨he, ?_⟩
  clear he hw hout
  induction out with
  | nil => rfl
  | cons x l ih => simp [through, ih]

/-- In the file of module Reader the video (eight frames of 40 ms) is stored before the audio: a listing up to 0.1 s ends with the first video frame after it, and no audio sample is listed, though two are decoded before 0.1 s. -/
theorem listing_cut_witness : (pickSamples none 1000000 20 exR).map (fun l => l.map fun x => (x.1, x.2.number)) = some [(0, 0), (0, 1), (0, 2), (0, 3)] ∧
    (pickSamples (some 1) 1000000 20 exR).map (fun l => l.map fun x => (x.1, x.2.number)) = some [(1, 0), (1, 1), (1, 2)] := by decide +kernel

-- non-vacuity: the same file meets the hypotheses, both tracks are stored in decoding order
example : FileHolds exR [exVS, exAS] ∧ Inside [exVS, exAS] exR.mdatEnd ∧ exR.mdatEnd < 2 ^ 64 - 1 ∧ remaining exR.streams < 20 ∧
    exAS.Pairwise (fun a b => a.decoding ≤ b.decoding) :=
  ⟨ex_facts.1, ex_facts.2.2.1, by decide, by decide +kernel, by decide⟩

end Verif.Gop
