import Verif.Level.Model
import Verif.Level.Spec
namespace Verif.Level
open Verif.Tables (SampleDes sub64)
open Spec

theorem sub64_le (a b : Nat) (h : b ≤ a) (ha : a < 2 ^ 64) : sub64 a b = a - b := by
  simp only [sub64]; omega

/-- The vector the durations come from. -/
def sorted (cs : List Nat) : List Nat := cs.insertionSort (· ≤ ·)

theorem sorted_mem (cs : List Nat) (c : Nat) : c ∈ sorted cs ↔ c ∈ cs := by simp [sorted]

theorem sorted_sorted (cs : List Nat) : (sorted cs).Pairwise (· ≤ ·) := List.pairwise_insertionSort _ _

theorem sorted_get (S : List Nat) (hS : S.Pairwise (· ≤ ·)) (i j a b : Nat) (hij : i ≤ j) (ha : S[i]? = some a)
    (hb : S[j]? = some b) : a ≤ b := by
  obtain ⟨h1, rfl⟩ := List.getElem?_eq_some_iff.1 ha
  obtain ⟨h2, rfl⟩ := List.getElem?_eq_some_iff.1 hb
  rcases Nat.lt_or_ge i j with h | h
  · exact List.pairwise_iff_getElem.1 hS i j h1 h2 h
  · obtain rfl : i = j := by omega
    exact Nat.le_refl _

theorem lower (S : List Nat) (hS : S.Pairwise (· ≤ ·)) (c : Nat) (hc : c ∈ S) :
    S[S.findIdx (fun x => decide (c ≤ x))]? = some c ∧
    ∀ j a, j < S.findIdx (fun x => decide (c ≤ x)) → S[j]? = some a → a < c := by
  have hlt : S.findIdx (fun x => decide (c ≤ x)) < S.length := List.findIdx_lt_length.2 ⟨c, hc, by simp⟩
  have h1 := List.findIdx_getElem (w := hlt)
  have h2 : ∀ j a, j < S.findIdx (fun x => decide (c ≤ x)) → S[j]? = some a → a < c := by
    intro j a hj ha
    obtain ⟨h3, rfl⟩ := List.getElem?_eq_some_iff.1 ha
    have := List.not_of_lt_findIdx hj
    simpa using this
  refine ⟨?_, h2⟩
  obtain ⟨k, hk⟩ := List.getElem?_of_mem hc
  have hik : S.findIdx (fun x => decide (c ≤ x)) ≤ k := by
    by_contra h
    have := h2 k c (by omega) hk
    omega
  have hle := sorted_get S hS _ _ _ _ hik (List.getElem?_eq_getElem hlt) hk
  rw [List.getElem?_eq_getElem hlt]
  simp only [decide_eq_true_eq] at h1
  congr 1; omega

theorem dur_min (S : List Nat) (hS : S.Pairwise (· ≤ ·)) (c : Nat) (hm : ∀ x ∈ S, c ≤ x) :
    autoDuration S c = 0 := by
  simp only [autoDuration]
  by_cases hc : c ∈ S
  · obtain ⟨h1, h2⟩ := lower S hS c hc
    rw [if_pos h1]
    have : S.findIdx (fun x => decide (c ≤ x)) = 0 := by
      by_contra h
      have hlt : S.findIdx (fun x => decide (c ≤ x)) < S.length := List.findIdx_lt_length.2 ⟨c, hc, by simp⟩
      have h3 : 0 < S.length := by omega
      have := h2 0 _ (by omega) (List.getElem?_eq_getElem h3)
      have := hm _ (List.getElem_mem h3)
      omega
    rw [if_pos this]
  · rw [if_neg]
    intro h
    exact hc (List.mem_of_getElem? h)

theorem dur_before (S : List Nat) (hS : S.Pairwise (· ≤ ·)) (c u : Nat) (hc : c ∈ S) (h64 : c < 2 ^ 64)
    (h : Before S c u) : autoDuration S c = c - u := by
  obtain ⟨hu, huc, hb⟩ := h
  simp only [autoDuration]
  obtain ⟨h1, h2⟩ := lower S hS c hc
  rw [if_pos h1]
  obtain ⟨k, hk⟩ := List.getElem?_of_mem hu
  have hki : k < S.findIdx (fun x => decide (c ≤ x)) := by
    by_contra hn
    have := sorted_get S hS _ _ _ _ (by omega) h1 hk
    omega
  rw [if_neg (by omega)]
  have hlt : S.findIdx (fun x => decide (c ≤ x)) < S.length := List.findIdx_lt_length.2 ⟨c, hc, by simp⟩
  have hl1 : S.findIdx (fun x => decide (c ≤ x)) - 1 < S.length := by omega
  have hg := List.getElem?_eq_getElem hl1
  have h3 := h2 _ _ (by omega) hg
  have h4 := hb _ (List.getElem_mem hl1) h3
  have h5 := sorted_get S hS _ _ _ _ (show k ≤ S.findIdx (fun x => decide (c ≤ x)) - 1 by omega) hk hg
  rw [List.getD_eq_getElem?_getD, hg, Option.getD_some, sub64_le _ _ (by omega) h64]
  omega

/-- Every time but the earliest has one before it. -/
theorem before_exists (S : List Nat) (c m : Nat) (hm : m ∈ S) (h : m < c) : ∃ u, Before S c u := by
  induction S with
  | nil => simp at hm
  | cons a S ih =>
    by_cases hex : ∃ w ∈ S, w < c
    · obtain ⟨w, hw, hwc⟩ := hex
      have : ∃ u, Before S c u := by
        by_cases hmS : m ∈ S
        · exact ih hmS
        · clear ih hm
          -- the largest element below `c`
          have : ∀ S : List Nat, (∃ w ∈ S, w < c) → ∃ u, Before S c u := by
            intro S
            induction S with
            | nil => intro h; simp at h
            | cons b S ih =>
              intro h
              by_cases hS : ∃ w ∈ S, w < c
              · obtain ⟨u, hu, huc, hb⟩ := ih hS
                by_cases hb' : b < c ∧ u < b
                · refine ⟨b, by simp, hb'.1, ?_⟩
                  intro w hw hwc
                  rcases List.mem_cons.1 hw with rfl | hw
                  · exact Nat.le_refl _
                  · have := hb w hw hwc; omega
                · refine ⟨u, by simp [hu], huc, ?_⟩
                  intro w hw hwc
                  rcases List.mem_cons.1 hw with rfl | hw
                  · omega
                  · exact hb w hw hwc
              · obtain ⟨w, hw, hwc⟩ := h
                rcases List.mem_cons.1 hw with rfl | hw
                · refine ⟨w, by simp, hwc, ?_⟩
                  intro v hv hvc
                  rcases List.mem_cons.1 hv with rfl | hv
                  · exact Nat.le_refl _
                  · exact absurd ⟨v, hv, hvc⟩ hS
                · exact absurd ⟨w, hw, hwc⟩ hS
          exact this S ⟨w, hw, hwc⟩
      obtain ⟨u, hu, huc, hb⟩ := this
      by_cases hb' : a < c ∧ u < a
      · refine ⟨a, by simp, hb'.1, ?_⟩
        intro w hw hwc
        rcases List.mem_cons.1 hw with rfl | hw
        · exact Nat.le_refl _
        · have := hb w hw hwc; omega
      · refine ⟨u, by simp [hu], huc, ?_⟩
        intro w hw hwc
        rcases List.mem_cons.1 hw with rfl | hw
        · omega
        · exact hb w hw hwc
    · have ha : a = m := by
        rcases List.mem_cons.1 hm with rfl | hm
        · rfl
        · exact absurd ⟨m, hm, h⟩ hex
      subst ha
      refine ⟨a, by simp, h, ?_⟩
      intro v hv hvc
      rcases List.mem_cons.1 hv with rfl | hv
      · exact Nat.le_refl _
      · exact absurd ⟨v, hv, hvc⟩ hex

theorem before_mem {S T : List Nat} (h : ∀ x, x ∈ S ↔ x ∈ T) {c u : Nat} (hb : Before S c u) : Before T c u :=
  ⟨(h u).1 hb.1, hb.2.1, fun w hw => hb.2.2 w ((h w).2 hw)⟩

/-- The sum of the durations of samples. -/
def durs (S : List Nat) (cs : List Nat) : Nat := (cs.map (autoDuration S)).sum

/-- Samples with their decoding times, one after another from `t`. -/
def stamp (S : List Nat) : Nat → List SampleDes → List SampleDes
  | _, [] => []
  | t, x :: xs => { x with decoding := t + autoDuration S x.composition } ::
      stamp S (t + autoDuration S x.composition) xs

theorem stamp_length (S : List Nat) : ∀ (xs : List SampleDes) (t : Nat), (stamp S t xs).length = xs.length
  | [], _ => rfl
  | x :: xs, t => by simp [stamp, stamp_length S xs]

theorem stamp_get (S : List Nat) : ∀ (xs : List SampleDes) (t i : Nat),
    (stamp S t xs)[i]? = xs[i]?.map (fun x => { x with decoding := t + durs S ((xs.take (i + 1)).map (·.composition)) })
  | [], _, _ => by simp [stamp]
  | x :: xs, t, 0 => by simp [stamp, durs]
  | x :: xs, t, i + 1 => by
    simp only [stamp, List.getElem?_cons_succ, stamp_get S xs, List.take_succ_cons, List.map_cons, durs, List.sum_cons,
      Nat.add_assoc]

theorem stamp_map (S : List Nat) (f : SampleDes → Nat) (hf : ∀ x d, f { x with decoding := d } = f x) :
    ∀ (xs : List SampleDes) (t : Nat), (stamp S t xs).map f = xs.map f
  | [], _ => rfl
  | x :: xs, t => by simp [stamp, stamp_map S f hf xs, hf]

theorem stamp_lower (S : List Nat) : ∀ (xs : List SampleDes) (t : Nat), ∀ y ∈ stamp S t xs, t ≤ y.decoding
  | [], _, y, h => by simp [stamp] at h
  | x :: xs, t, y, h => by
    simp only [stamp, List.mem_cons] at h
    rcases h with rfl | h
    · simp
    · have := stamp_lower S xs _ y h; omega

theorem stamp_sorted (S : List Nat) : ∀ (xs : List SampleDes) (t : Nat),
    (stamp S t xs).Pairwise (fun a b => a.decoding ≤ b.decoding)
  | [], _ => by simp [stamp]
  | x :: xs, t => by
    simp only [stamp, List.pairwise_cons]
    exact ⟨fun y hy => stamp_lower S xs _ y hy, stamp_sorted S xs _⟩

theorem stamp_upper (S : List Nat) : ∀ (xs : List SampleDes) (t : Nat), ∀ y ∈ stamp S t xs,
    y.decoding ≤ t + durs S (xs.map (·.composition))
  | [], _, y, h => by simp [stamp] at h
  | x :: xs, t, y, h => by
    simp only [stamp, List.mem_cons] at h
    simp only [durs, List.map_cons, List.sum_cons]
    rcases h with rfl | h
    · simp only; omega
    · have := stamp_upper S xs _ y h
      simp only [durs] at this
      omega

theorem auto_fold (S : List Nat) : ∀ (xs : List SampleDes) (st : AutoState),
    st.tot + durs S (xs.map (·.composition)) < 2 ^ 64 →
    (xs.foldl (autoStep S) st).out = st.out ++ stamp S st.tot xs ∧
    (xs.foldl (autoStep S) st).tot = st.tot + durs S (xs.map (·.composition)) ∧
    st.offset ≤ (xs.foldl (autoStep S) st).offset ∧
    (∀ y ∈ stamp S st.tot xs, y.decoding ≤ y.composition + (xs.foldl (autoStep S) st).offset) ∧
    ((xs.foldl (autoStep S) st).offset = st.offset ∨
      ∃ y ∈ stamp S st.tot xs, y.decoding = y.composition + (xs.foldl (autoStep S) st).offset)
  | [], st, _ => by simp [stamp, durs]
  | x :: xs, st, h => by
    simp only [durs, List.map_cons, List.sum_cons] at h
    have htot : (st.tot + autoDuration S x.composition) % 2 ^ 64 = st.tot + autoDuration S x.composition :=
      Nat.mod_eq_of_lt (by omega)
    simp only [List.foldl_cons]
    obtain ⟨h1, h2, h3, h4, h5⟩ := auto_fold S xs (autoStep S st x) (by
      simp only [autoStep, htot, durs]; omega)
    have e1 : (autoStep S st x).tot = st.tot + autoDuration S x.composition := by simp only [autoStep, htot]
    have e2 : (autoStep S st x).out = st.out ++ [{ x with decoding := st.tot + autoDuration S x.composition }] := by
      simp only [autoStep, htot]
    have e3 : st.offset ≤ (autoStep S st x).offset ∧
        st.tot + autoDuration S x.composition ≤ x.composition + (autoStep S st x).offset ∧
        ((autoStep S st x).offset = st.offset ∨
          st.tot + autoDuration S x.composition = x.composition + (autoStep S st x).offset) := by
      simp only [autoStep, htot]
      split
      · split
        · refine ⟨by omega, by omega, Or.inr (by omega)⟩
        · refine ⟨by omega, by omega, Or.inl rfl⟩
      · refine ⟨by omega, by omega, Or.inl rfl⟩
    rw [e1] at h1 h2 h4 h5
    rw [e2] at h1
    refine ⟨by rw [h1]; simp [stamp], by rw [h2]; simp [durs, Nat.add_assoc], by omega, ?_, ?_⟩
    · intro y hy
      simp only [stamp, List.mem_cons] at hy
      rcases hy with rfl | hy
      · simp only; omega
      · exact h4 y hy
    · rcases h5 with h5 | ⟨y, hy, h5⟩
      · rcases e3.2.2 with e | e
        · exact Or.inl (by omega)
        · exact Or.inr ⟨_, by simp only [stamp]; exact List.mem_cons_self, by simp only; omega⟩
      · exact Or.inr ⟨y, by simp only [stamp]; exact List.mem_cons_of_mem _ hy, h5⟩

theorem sorted_head (cs : List Nat) (hne : cs ≠ []) : ∃ m rest, sorted cs = m :: rest ∧ m ∈ cs ∧ ∀ c ∈ cs, m ≤ c := by
  cases h : sorted cs with
  | nil =>
    obtain ⟨c, hc⟩ := List.exists_mem_of_ne_nil _ hne
    have := (sorted_mem cs c).2 hc
    rw [h] at this; simp at this
  | cons m rest =>
    refine ⟨m, rest, rfl, (sorted_mem cs m).1 (by rw [h]; simp), ?_⟩
    intro c hc
    have hs := sorted_sorted cs
    have hm := (sorted_mem cs c).2 hc
    rw [h] at hs hm
    rcases List.mem_cons.1 hm with rfl | hm
    · exact Nat.le_refl _
    · exact (List.pairwise_cons.1 hs).1 c hm

theorem dur_le (S : List Nat) (hS : S.Pairwise (· ≤ ·)) (c : Nat) (hc : c ∈ S) (h64 : c < 2 ^ 64) :
    autoDuration S c ≤ c := by
  by_cases h : ∀ x ∈ S, c ≤ x
  · rw [dur_min S hS c h]; omega
  · have : ∃ m ∈ S, m < c := by
      by_contra hn
      apply h
      intro x hx
      by_contra hlt
      exact hn ⟨x, hx, by omega⟩
    obtain ⟨m, hm, hmc⟩ := this
    obtain ⟨u, hu⟩ := before_exists S c m hm hmc
    rw [dur_before S hS c u hc h64 hu]
    omega

theorem durs_le (S : List Nat) (hS : S.Pairwise (· ≤ ·)) (B : Nat) (hB : B < 2 ^ 64) : ∀ (cs : List Nat),
    (∀ c ∈ cs, c ∈ S ∧ c ≤ B) → durs S cs ≤ cs.length * B
  | [], _ => by simp [durs]
  | c :: cs, h => by
    have h1 := durs_le S hS B hB cs (fun x hx => h x (by simp [hx]))
    have h2 := h c (by simp)
    have h3 := dur_le S hS c h2.1 (by omega)
    simp only [durs, List.map_cons, List.sum_cons, List.length_cons, Nat.succ_mul] at h1 ⊢
    omega

/-- What the computation does, with the vector and the sums named. -/
theorem computeAuto_eq (s : LStream) (hne : s.samples ≠ []) (B : Nat) (hB : ∀ x ∈ s.samples, x.composition ≤ B)
    (h64 : (s.samples.length + 1) * B < 2 ^ 64) :
    ∃ m, m ∈ s.samples.map (·.composition) ∧ (∀ c ∈ s.samples.map (·.composition), m ≤ c) ∧
      (computeAuto s).samples = stamp (sorted (s.samples.map (·.composition))) m s.samples ∧
      (∀ y ∈ (computeAuto s).samples, y.decoding ≤ y.composition + (computeAuto s).ctts) ∧
      ((computeAuto s).ctts = 0 ∨ ∃ y ∈ (computeAuto s).samples, y.decoding = y.composition + (computeAuto s).ctts) := by
  obtain ⟨m, rest, he, hm, hmin⟩ := sorted_head (s.samples.map (·.composition)) (by simpa using hne)
  have hmB : m ≤ B := by
    obtain ⟨x, hx, rfl⟩ := List.mem_map.1 hm
    exact hB x hx
  have hBlt : B < 2 ^ 64 := by
    have : B ≤ (s.samples.length + 1) * B := Nat.le_mul_of_pos_left _ (by omega)
    omega
  have hd := durs_le (sorted (s.samples.map (·.composition))) (sorted_sorted _) B hBlt (s.samples.map (·.composition)) (by
    intro c hc
    refine ⟨(sorted_mem _ _).2 hc, ?_⟩
    obtain ⟨x, hx, rfl⟩ := List.mem_map.1 hc
    exact hB x hx)
  rw [List.length_map] at hd
  rw [Nat.succ_mul] at h64
  have hf := auto_fold (sorted (s.samples.map (·.composition))) s.samples { tot := m } (by simp only; omega)
  simp only [List.nil_append] at hf
  obtain ⟨f1, f2, f3, f4, f5⟩ := hf
  have hc : computeAuto s = { s with
      samples := (s.samples.foldl (autoStep (sorted (s.samples.map (·.composition)))) { tot := m }).out,
      ctts := (s.samples.foldl (autoStep (sorted (s.samples.map (·.composition)))) { tot := m }).offset } := by
    have he' : (s.samples.map (·.composition)).insertionSort (· ≤ ·) = m :: rest := he
    simp only [computeAuto]
    rw [he']
    simp only [he]
  refine ⟨m, hm, hmin, ?_, ?_, ?_⟩
  · rw [hc]; exact f1
  · rw [hc]; simp only [f1]; exact f4
  · rw [hc]; simp only [f1]; exact f5

end Verif.Level
