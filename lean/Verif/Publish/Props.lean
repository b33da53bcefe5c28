import Verif.Publish.Lemmas
/-
C143: segment points of audio over a list of files. C144: where the search for them does not end. C145: where they are wrong.
-/
namespace Verif.Publish
open Verif.Tables Verif.Reader Verif.Reader.Spec Verif.Publish.Spec
open Verif.Tables.Spec (expand)

theorem usedFrom_gives {length jump first : Nat} {x : Item} {D : List Nat} (h : UsedFrom length jump x D first) :
    Gives x.T (times x.T.scale x.T.offset D) := by
  obtain ⟨b, es, ht, hc, rfl⟩ := h.file
  refine ⟨by rw [(timed_dec ht).2.1]; simp [times], ?_⟩
  intro p t hp
  have hlt : p < (expand es).length := by simpa [times] using (List.getElem?_eq_some_iff.1 hp).1
  rw [timeOf_ok ht hc p hlt]
  have : (times x.T.scale x.T.offset (expand es))[p]? = some (10000000 * ((expand es).take p).sum / x.T.scale + x.T.offset) := by
    simp [times, hlt]
  rw [this] at hp
  simp at hp
  rw [hp]

/-- one file, behind the samples `ls` of the file before it -/
theorem publish_file {length jump : Nat} (hj : 0 < jump) {x : Item} {D : List Nat} {first : Nat} (h : UsedFrom length jump x D first) (h64 : 2 * D.length < 2 ^ 64)
    {k k' : Nat} (hk : k' ≠ k) {ls : List Nat} (hl : ls.length < jump) {fuel : Nat} (hf : D.length < fuel) :
    ∃ es pend, publish length fuel x (pendOf (ls.map fun t => (k', t))) = .ok (es, pend) ∧
      points jump ((ls.map fun t => (k', t)) ++ ((times x.T.scale x.T.offset D).drop first).map fun t => (k, t)) = (es.map some, pend) := by
  have hG := usedFrom_gives h
  have hs := h.stop
  have hlong := h.long
  have hlen : (times x.T.scale x.T.offset D).length = D.length := by simp [times]
  have hoff := h.start
  generalize hts : times x.T.scale x.T.offset D = ts at *
  obtain ⟨c, hc⟩ : ∃ c, ts[first]? = some c := ⟨_, List.getElem?_eq_getElem (by omega)⟩
  have hct := hG.2 first c hc
  have hcs2 := hoff c (by rw [List.mem_iff_getElem?]; exact ⟨0, by rw [List.getElem?_drop]; exact hc⟩)
  have hcs : x.T.compSample (if x.T.offset < x.start then x.start - x.T.offset else 0) = some first := by
    obtain ⟨b, es, ht, hctts, hD⟩ := h.file
    have hsc : 0 < x.T.scale := by rw [(timed_dec ht).2.2.1]; exact ht.scale
    have he : (if x.T.offset < x.start then x.start - x.T.offset else 0) = x.start - x.T.offset := by split <;> omega
    have hr : raw (x.start - x.T.offset) x.T.scale = (x.start - x.T.offset) * x.T.scale / 10000000 := by
      rw [raw, Nat.mod_eq_of_lt h.fits]
    rw [he]
    refine compSample_first ht hctts _ first (by rw [hD]; omega) ?_ ?_ ?_
    · intro i hi
      rw [hr, hD]
      have := h.before i hi
      show (D.take i).sum < _
      rw [← Nat.succ_le_iff, Nat.le_div_iff_mul_le (by omega)]
      omega
    · rw [hr, hD]
      have hcv : c = 10000000 * (D.take first).sum / x.T.scale + x.T.offset := by
        rw [← hts] at hc
        have : first < D.length := by omega
        simp [times, this] at hc
        exact hc.symm
      show _ ≤ (D.take first).sum
      have h1 : x.start - x.T.offset ≤ 10000000 * (D.take first).sum / x.T.scale := by
        rw [hcv] at hcs2; exact Nat.sub_le_iff_le_add.2 hcs2
      rw [Nat.le_div_iff_mul_le hsc] at h1
      omega
    · intro h1
      rw [hr, hD]
      have := h.second h1
      show (D.take 1).sum ≤ _
      rw [Nat.le_div_iff_mul_le (by omega)]
      omega
  have hdur : sampleDuration x.T x.media = average x.T.scale D := by
    obtain ⟨b, es, ht, hc, rfl⟩ := h.file
    exact sampleDuration_plain ht hc _ (by omega)
  have hwait : waitStart x.T x.start first fuel c = .ok c := by
    obtain ⟨f, rfl⟩ : ∃ f, fuel = f + 1 := ⟨fuel - 1, by omega⟩
    unfold waitStart; rw [if_neg (by omega)]
  have hhead : ∀ pend, publish length fuel x pend = (match pend with
    | none => pointLoop x.T x.stop jump fuel first c
    | some (t, n) => do
      let q := (first + sub64 jump n) % 2 ^ 64
      let c' ← timeOf x.T q
      let (es, pend) ← pointLoop x.T x.stop jump fuel q c'
      .ok (.cross t c :: es, pend)) := by
    intro pend
    unfold publish
    simp only [hcs, orThrow, hdur, h.fit]
    show (if average x.T.scale D = 0 then _ else _) = _
    rw [if_neg (by have := h.positive; omega), hct]
    show (do let c ← waitStart x.T x.start first fuel c; _) = _
    rw [hwait]; rfl
  cases ls with
  | nil =>
    rw [hhead]
    obtain ⟨es, pend, r1, r2⟩ := pointLoop_points hG hj k hs (by omega) fuel first c (by omega) hc (by omega)
    refine ⟨es, pend, r1, ?_⟩
    simpa using r2
  | cons l ls =>
    rw [hhead]
    rw [List.length_cons] at hl
    simp only [pendOf, List.map_cons, List.head?_cons, Option.map_some, List.length_cons, List.length_map]
    have hq : (first + sub64 jump (ls.length + 1)) % 2 ^ 64 = first + (jump - (ls.length + 1)) := by
      simp only [sub64]; omega
    obtain ⟨r, hqe⟩ : ∃ r, r = jump - (ls.length + 1) := ⟨_, rfl⟩
    rw [hq, ← hqe]
    obtain ⟨q, hqr⟩ : ∃ q, q = first + r := ⟨_, rfl⟩
    rw [← hqr]
    obtain ⟨c', hc'⟩ : ∃ c', ts[q]? = some c' := ⟨_, List.getElem?_eq_getElem (by omega)⟩
    obtain ⟨es, pend, r1, r2⟩ := pointLoop_points hG hj k hs (by omega) fuel q c' (by omega) hc' (by omega)
    refine ⟨.cross l c :: es, pend, ?_, ?_⟩
    · rw [hG.2 q c' hc']
      show (do let (es, pend) ← pointLoop x.T x.stop jump fuel q c'; Except.ok (Event.cross l c :: es, pend)) = _
      rw [r1]; rfl
    · obtain ⟨us, hus⟩ : ∃ us, us = ts.drop first := ⟨_, rfl⟩
      have hud : ts.drop q = us.drop r := by rw [hus, List.drop_drop, hqr]
      have hul : us.length = ts.length - first := by rw [hus, List.length_drop]
      rw [hud] at r2
      obtain ⟨ts', hts'⟩ : ∃ ts', us = c :: ts' := by
        rw [hus, List.drop_eq_getElem_cons (by omega)]
        exact ⟨_, by rw [(List.getElem?_eq_some_iff.1 hc).2]⟩
      rw [← hus]
      clear hus
      subst hts'
      rw [points_step hj (by simp; simp at hul; omega)]
      have htake : (((k', l) :: ls.map fun t => (k', t)) ++ (c :: ts').map fun t => (k, t)).take jump =
          ((l :: ls).map fun t => (k', t)) ++ ((c :: ts'.take (r - 1)).map fun t => (k, t)) := by
        have : jump = ((k', l) :: ls.map fun t => (k', t)).length + r := by simp; omega
        rw [this, List.take_length_add_append, ← List.map_take]
        obtain ⟨j, hjq⟩ : ∃ j, r = j + 1 := ⟨r - 1, by omega⟩
        rw [hjq]; simp
      have hdrop : (((k', l) :: ls.map fun t => (k', t)) ++ (c :: ts').map fun t => (k, t)).drop jump =
          ((c :: ts').drop r).map fun t => (k, t) := by
        have : jump = ((k', l) :: ls.map fun t => (k', t)).length + r := by simp; omega
        rw [this, List.drop_length_add_append, ← List.map_drop]
      rw [htake, hdrop, r2]
      have := foreign_cross k' k hk l ls c (ts'.take (r - 1))
      simp only [List.map_cons, List.cons_append] at this
      have hp : pointOf ((l :: ls).map (fun t => (k', t)) ++ (c :: ts'.take (r - 1)).map (fun t => (k, t))) = some (.cross l c) := by
        simp only [List.map_cons, List.cons_append]
        unfold pointOf; rw [this]
      rw [hp]; rfl

/-- samples left of one file are the first ones for the next -/
theorem points_append {jump : Nat} (hj : 0 < jump) : ∀ (n : Nat) (A B : List (Nat × Nat)), A.length ≤ n →
    points jump (A ++ B) = ((points jump A).1 ++ (points jump ((segments jump A).2 ++ B)).1, (points jump ((segments jump A).2 ++ B)).2) := by
  intro n
  induction n with
  | zero =>
    intro A B h
    obtain rfl : A = [] := List.eq_nil_of_length_eq_zero (by omega)
    simp [points, segments]
  | succ n ih =>
    intro A B h
    by_cases hA : A.length < jump
    · have : (segments jump A).2 = A := by simp [segments, Nat.div_eq_of_lt hA]
      rw [this, points_short hA]; rfl
    · have hseg : (segments jump (A.drop jump)).2 = (segments jump A).2 := by
        have hd : A.length / jump = (A.length - jump) / jump + 1 := by
          rw [← Nat.add_div_right _ hj]; congr 1; omega
        simp only [segments, List.length_drop, List.drop_drop, hd, Nat.succ_mul]
        congr 1; omega
      rw [points_step hj (by simp; omega), points_step (l := A) hj (by omega), List.take_append_of_le_length (by omega),
        List.drop_append_of_le_length (by omega), ih (A.drop jump) B (by simp; omega), hseg]
      rfl

def joinedFrom (k : Nat) (fs : List (List Nat)) : List (Nat × Nat) := (fs.mapIdx fun i ts => ts.map fun t => (k + i, t)).flatten

theorem joinedFrom_cons (k : Nat) (ts : List Nat) (fs : List (List Nat)) :
    joinedFrom k (ts :: fs) = (ts.map fun t => (k, t)) ++ joinedFrom (k + 1) fs := by
  simp [joinedFrom, List.mapIdx_cons, Nat.add_assoc, Nat.add_comm 1]

theorem publish_from {length jump : Nat} (hj : 0 < jump) (s : Nat) : ∀ (fs : List (Item × List Nat × Nat)) (k k' : Nat) (ls : List Nat) (fuel : Nat),
    (∀ f ∈ fs, UsedFrom length jump f.1 f.2.1 f.2.2) → (∀ f ∈ fs, 2 * f.2.1.length < 2 ^ 64) → (∀ f ∈ fs, f.2.1.length < fuel) → k' ≠ k → ls.length < jump →
    ∃ (es : List Event) (pend : Pending), publishAll length fuel (fs.map fun f => (s, f.1)) (pendOf (ls.map fun t => (k', t))) = .ok (es.map fun e => (s, e), pend) ∧
      points jump ((ls.map fun t => (k', t)) ++ joinedFrom k (fileTimes fs)) = (es.map some, pend) := by
  intro fs
  induction fs with
  | nil =>
    intro k k' ls fuel _ _ _ _ hl
    refine ⟨[], _, rfl, ?_⟩
    rw [show joinedFrom k (fileTimes []) = [] by rfl, List.append_nil, points_short (by simpa using hl)]; rfl
  | cons f fs ih =>
    intro k k' ls fuel h1 h2 h3 hk hl
    have hF := h1 f (by simp)
    obtain ⟨es, pend, r1, r2⟩ := publish_file hj hF (h2 f (by simp)) (k := k) (k' := k') hk hl (h3 f (by simp))
    have hlong := hF.long
    obtain ⟨ts, hts⟩ : ∃ ts, ts = (times f.1.T.scale f.1.T.offset f.2.1).drop f.2.2 := ⟨_, rfl⟩
    have htl : ts.length = f.2.1.length - f.2.2 := by rw [hts]; simp [times]
    obtain ⟨A, hA⟩ : ∃ A, A = (ls.map fun t => (k', t)) ++ ts.map fun t => (k, t) := ⟨_, rfl⟩
    rw [← hts, ← hA] at r2
    have hAl : A.length = ls.length + ts.length := by rw [hA]; simp
    obtain ⟨m, hm, hml⟩ : ∃ m, (segments jump A).2 = (ts.drop m).map (fun t => (k, t)) ∧ (ts.drop m).length < jump := by
      have h5 : A.length / jump * jump + A.length % jump = A.length := Nat.div_add_mod' _ _
      have h6 := Nat.mod_lt A.length hj
      refine ⟨A.length / jump * jump - ls.length, ?_, by rw [List.length_drop]; omega⟩
      show A.drop (A.length / jump * jump) = _
      obtain ⟨d, hd⟩ : ∃ d, A.length / jump * jump = ls.length + d := ⟨A.length / jump * jump - ls.length, by omega⟩
      rw [hd, hA, Nat.add_sub_cancel_left, List.map_drop]
      have := List.drop_length_add_append (l₁ := ls.map fun t => (k', t)) (l₂ := ts.map fun t => (k, t)) (i := d)
      rw [List.length_map] at this
      exact this
    have hpend : pendOf ((ts.drop m).map fun t => (k, t)) = pend := by
      have : (points jump A).2 = pend := by rw [r2]
      rw [← this, ← hm]; rfl
    obtain ⟨es', pend', q1, q2⟩ := ih (k + 1) k (ts.drop m) fuel (fun g hg => h1 g (by simp [hg])) (fun g hg => h2 g (by simp [hg]))
      (fun g hg => h3 g (by simp [hg])) (by omega) hml
    refine ⟨es ++ es', pend', ?_, ?_⟩
    · rw [List.map_cons]
      unfold publishAll
      rw [r1]
      show (do let (fs', pend) ← publishAll length fuel (fs.map fun f : Item × List Nat × Nat => (s, f.1)) pend; Except.ok (es.map (fun e => (s, e)) ++ fs', pend)) = _
      rw [← hpend, q1, List.map_append]; rfl
    · rw [show fileTimes (f :: fs) = ts :: fileTimes fs by rw [hts]; rfl, joinedFrom_cons, ← List.append_assoc, ← hA,
        points_append hj _ A _ (Nat.le_refl _), hm, q2, r2, List.map_append]

/-- C143: the audio of any number of files, one stream in each, all used from some sample to the end, each for at least two segments: the points published are the first samples of the segments of `jump` samples into which all
the samples one behind the other are cut; a segment across two files is published as such, with the first sample from each; samples that do not fill a segment wait for the next file. -/
theorem audio_points_partial (length jump : Nat) (hj : 0 < jump) (s : Nat) (fs : List (Item × List Nat × Nat)) (fuel : Nat)
    (h : ∀ f ∈ fs, UsedFrom length jump f.1 f.2.1 f.2.2) (h64 : ∀ f ∈ fs, 2 * f.2.1.length < 2 ^ 64) (hf : ∀ f ∈ fs, f.2.1.length < fuel) :
    ∃ (es : List Event) (pend : Pending), publishAll length fuel (fs.map fun f => (s, f.1)) none = .ok (es.map fun e => (s, e), pend) ∧
      points jump (joined (fileTimes fs)) = (es.map some, pend) := by
  obtain ⟨es, pend, r1, r2⟩ := publish_from hj s fs 0 1 [] fuel h h64 hf (by omega) hj
  refine ⟨es, pend, r1, ?_⟩
  rw [← r2]
  simp [joined, joinedFrom]

/-! ### concrete files -/

/-- `n` samples of 80 ms from 100 on, the track begins at `begin` ms -/
def audio (n begin : Nat) : TrackBoxes :=
  { sm := ⟨[(n, ⟨n, 1, 0, 1⟩)], 10, n, [], [100]⟩, stts := [1, n, 80], scale := 1000, elst := begin, mvhdScale := 1000 }
def nothing : Track := ⟨⟨[], 0, 0, [], []⟩, [], [], false, [], false, [], 1, 0, 1, 0, 0, false, false⟩
def track (b : TrackBoxes) : Track := (openTrack b).getD nothing
def item (b : TrackBoxes) (start stop : Nat) : Item := { T := track b, start, stop }

/-- what was published, `none` if nothing came out -/
def outcome {α : Type} : Res α → Option α
  | .ok x => some x
  | .error _ => none
def failure {α : Type} : Res α → Option Stop
  | .ok _ => none
  | .error e => some e

/-- the hypotheses of C143: 10 samples of a file of 12, files of 8 and 9 samples, segments of 4 -/
theorem ex_used_from : UsedFrom 3300000 4 (item (audio 12 0) 1600000 100000000) (List.replicate 12 80) 2 ∧
    UsedFrom 3300000 4 (item (audio 8 1000) 0 100000000) (List.replicate 8 80) 0 ∧
    UsedFrom 3300000 4 (item (audio 9 0) 0 100000000) (List.replicate 9 80) 0 := by
  refine ⟨⟨⟨audio 12 0, [(12, 80)], ⟨rfl, rfl, by decide, by decide, rfl, by decide, by decide⟩, rfl, rfl⟩, by decide, by decide, by decide, by decide +kernel, by decide +kernel, by decide +kernel, by decide +kernel, by decide⟩,
    ⟨⟨audio 8 1000, [(8, 80)], ⟨rfl, rfl, by decide, by decide, rfl, by decide, by decide⟩, rfl, rfl⟩, by decide, by decide, by decide, by decide +kernel, by decide +kernel, by decide +kernel, by decide +kernel, by decide⟩,
    ⟨⟨audio 9 0, [(9, 80)], ⟨rfl, rfl, by decide, by decide, rfl, by decide, by decide⟩, rfl, rfl⟩, by decide, by decide, by decide, by decide +kernel, by decide +kernel, by decide +kernel, by decide +kernel, by decide⟩⟩

/-- two samples of the first file and two of the second make a segment -/
example : outcome (publishAll 3300000 20 [(1, item (audio 12 0) 1600000 100000000), (1, item (audio 8 1000) 0 100000000), (1, item (audio 9 0) 0 100000000)] none) =
    some ([(1, .point 1600000), (1, .point 4800000), (1, .cross 8000000 10000000), (1, .point 11600000), (1, .cross 14800000 0), (1, .point 1600000)], some (4800000, 3)) := by
  decide +kernel
end Verif.Publish
