import Verif.Level.Props
/-
C114: the streams of a finished movie stay together.
-/
namespace Verif.Level
open Verif.Tables (SampleDes sub64)
open Spec

theorem minLoop_spec : ∀ (ss : List LStream) (i min : Nat) (n : Option Nat) (r : Nat), minLoop i ss min n = some r →
    (n = some r ∧ ∀ s ∈ ss, min ≤ s.start) ∨
    (∃ j s, r = i + j ∧ ss[j]? = some s ∧ s.start < min ∧ ∀ t ∈ ss, s.start ≤ t.start)
  | [], _, _, _, _, h => Or.inl ⟨h, by simp⟩
  | a :: ss, i, min, n, r, h => by
    simp only [minLoop] at h
    split at h
    · rename_i hlt
      rcases minLoop_spec ss (i + 1) _ _ r h with ⟨h1, h2⟩ | ⟨j, s, h1, h2, h3, h4⟩
      · refine Or.inr ⟨0, a, by simp at h1; omega, rfl, hlt, ?_⟩
        intro t ht
        rcases List.mem_cons.1 ht with rfl | ht
        · exact Nat.le_refl _
        · exact h2 t ht
      · refine Or.inr ⟨j + 1, s, by omega, by simpa using h2, by omega, ?_⟩
        intro t ht
        rcases List.mem_cons.1 ht with rfl | ht
        · omega
        · exact h4 t ht
    · rename_i hge
      rcases minLoop_spec ss (i + 1) _ _ r h with ⟨h1, h2⟩ | ⟨j, s, h1, h2, h3, h4⟩
      · refine Or.inl ⟨h1, ?_⟩
        intro t ht
        rcases List.mem_cons.1 ht with rfl | ht
        · omega
        · exact h2 t ht
      · refine Or.inr ⟨j + 1, s, by omega, by simpa using h2, h3, ?_⟩
        intro t ht
        rcases List.mem_cons.1 ht with rfl | ht
        · omega
        · exact h4 t ht

theorem minLoop_none : ∀ (ss : List LStream) (i min : Nat), minLoop i ss min none = none → ∀ s ∈ ss, min ≤ s.start
  | [], _, _, _ => by simp
  | a :: ss, i, min, h => by
    simp only [minLoop] at h
    split at h
    · exfalso
      have : ∀ (ss : List LStream) (i min k : Nat), minLoop i ss min (some k) ≠ none := by
        intro ss
        induction ss with
        | nil => intro i min k; simp [minLoop]
        | cons b ss ih =>
          intro i min k
          simp only [minLoop]
          split
          · exact ih _ _ _
          · exact ih _ _ _
      exact this _ _ _ _ h
    · rename_i hge
      intro t ht
      rcases List.mem_cons.1 ht with rfl | ht
      · omega
      · exact minLoop_none ss _ _ h t ht

theorem maxCtts_ge (ss : List LStream) : ∀ (m : Nat),
    m ≤ ss.foldl (fun m s => if s.ctts > m then s.ctts else m) m ∧
    ∀ s ∈ ss, s.ctts ≤ ss.foldl (fun m s => if s.ctts > m then s.ctts else m) m := by
  induction ss with
  | nil => intro m; simp
  | cons a ss ih =>
    intro m
    simp only [List.foldl_cons]
    obtain ⟨h1, h2⟩ := ih (if a.ctts > m then a.ctts else m)
    have ha : m ≤ (if a.ctts > m then a.ctts else m) ∧ a.ctts ≤ (if a.ctts > m then a.ctts else m) := by
      split <;> omega
    refine ⟨by omega, ?_⟩
    intro s hs
    rcases List.mem_cons.1 hs with rfl | hs
    · omega
    · exact h2 s hs

theorem maxCtts_lt (ss : List LStream) (b : Nat) : ∀ (m : Nat), m < b → (∀ s ∈ ss, s.ctts < b) →
    ss.foldl (fun m s => if s.ctts > m then s.ctts else m) m < b := by
  induction ss with
  | nil => intro m h _; simpa using h
  | cons a ss ih =>
    intro m h hs
    simp only [List.foldl_cons]
    refine ih _ ?_ (fun s hs' => hs s (by simp [hs']))
    have := hs a (by simp)
    split <;> omega

/-- The offset given to a stream, when it has samples and its first is not decoded after it is presented. -/
theorem offsetOf_eq (startLess mx : Nat) (s : LStream) (x : SampleDes) (xs : List SampleDes) (hs : s.samples = x :: xs)
    (hd : x.decoding ≤ x.composition) (hsl : startLess ≤ x.composition) (hmx : s.ctts ≤ mx) (h63 : x.composition < 2 ^ 63)
    (hm63 : mx < 2 ^ 63) : offsetOf startLess mx s = (x.decoding - startLess) + (mx - s.ctts) := by
  simp only [offsetOf, LStream.start, LStream.decStart, hs]
  rw [sub64_le _ _ hd (by omega), sub64_le _ _ hsl (by omega)]
  by_cases h : x.composition - startLess > x.composition - x.decoding
  · rw [if_pos h, sub64_le _ _ (by omega) (by omega)]
    split
    · rw [Nat.mod_eq_of_lt (by omega)]; omega
    · omega
  · rw [if_neg h]
    split
    · rw [Nat.mod_eq_of_lt (by omega)]; omega
    · omega

/-- A stream ready to be levelled: it has samples, the first is not decoded after it is presented, and nothing has been
delayed yet; times are below 2^62 (146 years). -/
def Ready (s : LStream) : Prop :=
  s.streamOffset = 0 ∧ s.ctts < 2 ^ 62 ∧ ∃ x xs, s.samples = x :: xs ∧ x.decoding ≤ x.composition ∧ x.composition < 2 ^ 62

/-- C114, every movie. All streams are delayed by the same time `K`, and besides by the time their first sample is decoded
before the first sample of the stream that is presented first (`startLess`): `shown` is the time in the written file.
With either way of delaying (edit list or composition offset). The first terms say that nothing else is
changed. -/
theorem level_shown (useStreamOffset : Bool) (ss rs : List LStream) (hready : ∀ s ∈ ss, Ready s)
    (h : levelStart useStreamOffset ss = some rs) :
    ∃ first x0, first ∈ ss ∧ first.samples.head? = some x0 ∧
      (∀ t ∈ ss, ∀ y, t.samples.head? = some y → x0.composition ≤ y.composition) ∧
      ∃ K : Int, rs.length = ss.length ∧ ∀ (i : Nat) (s r : LStream), ss[i]? = some s → rs[i]? = some r →
        r.samples = s.samples ∧ r.auto = s.auto ∧ r.scale = s.scale ∧ r.mvhdScale = s.mvhdScale ∧
        r.hasComposition = s.hasComposition ∧ s.ctts ≤ r.ctts ∧
        (useStreamOffset = true → r.ctts = s.ctts) ∧ (useStreamOffset = false → r.streamOffset = 0) ∧
        ∀ y, s.samples.head? = some y → ∀ x ∈ s.samples,
          shown x.composition y.decoding r.ctts r.streamOffset =
            x.composition + K + (x0.decoding - y.decoding : Nat) := by
  simp only [levelStart] at h
  obtain ⟨n, hn, h⟩ := Option.bind_eq_some_iff.mp h
  obtain ⟨f, hf, rfl⟩ := Option.map_eq_some_iff.mp h
  have hfm := List.mem_of_getElem? hf
  rcases minLoop_spec ss 0 _ _ n hn with ⟨h1, _⟩ | ⟨j, s1, h1, h2, h3, h4⟩
  · simp at h1
  rw [Nat.zero_add] at h1
  subst h1
  have hs1 : s1 = f := by rw [h2] at hf; simpa using hf
  subst hs1
  obtain ⟨_, hfc, x0, xs0, hfs, hfd, hfb⟩ := hready s1 hfm
  have hmin : ∀ t ∈ ss, ∀ y, t.samples.head? = some y → x0.composition ≤ y.composition := by
    intro t ht y hy
    have := h4 t ht
    simp only [LStream.start, hfs] at this
    cases ht' : t.samples with
    | nil => rw [ht'] at hy; simp at hy
    | cons a l => rw [ht'] at hy this; simp at hy; subst hy; exact this
  refine ⟨s1, x0, hfm, by rw [hfs]; rfl, hmin, (maxCtts ss : Int) - x0.decoding, by simp, ?_⟩
  intro i s r hs hr
  simp only [List.getElem?_map, hs, Option.map_some, Option.some.injEq] at hr
  have hsm := List.mem_of_getElem? hs
  obtain ⟨hso, hsc, x, xs, hss, hsd, hsb⟩ := hready s hsm
  have hmx := (maxCtts_ge ss 0).2 s hsm
  have hmx2 := maxCtts_lt ss (2 ^ 62) 0 (by omega) (fun s hs => (hready s hs).2.1)
  have hx := hmin s hsm x (by rw [hss]; rfl)
  have hoff := offsetOf_eq x0.decoding (maxCtts ss) s x xs hss hsd (by omega) hmx (by omega) (by simp only [maxCtts]; omega)
  have hds : s1.decStart = x0.decoding := by simp only [LStream.decStart, hfs]
  rw [hds] at hr
  simp only [levelStream, hoff] at hr
  have hmx' : s.ctts ≤ maxCtts ss := hmx
  have hmx2' : maxCtts ss < 2 ^ 62 := hmx2
  have hy0 : ∀ y, s.samples.head? = some y → y = x := by intro y hy; rw [hss] at hy; simpa using hy.symm
  split at hr
  · subst hr
    refine ⟨rfl, rfl, rfl, rfl, rfl, Nat.le_refl _, fun _ => rfl, fun _ => hso, ?_⟩
    intro y hy z _
    rw [hy0 y hy]
    simp only [shown, hso]
    omega
  · split at hr
    · rename_i hu
      subst hr
      refine ⟨rfl, rfl, rfl, rfl, rfl, Nat.le_refl _, fun _ => rfl, fun h => absurd hu (by simp [h]), ?_⟩
      intro y hy z _
      rw [hy0 y hy]
      simp only [shown]
      omega
    · rename_i hu
      have hmod : (x.decoding - x0.decoding + (maxCtts ss - s.ctts) + s.ctts) % 2 ^ 64 =
          x.decoding - x0.decoding + (maxCtts ss - s.ctts) + s.ctts := Nat.mod_eq_of_lt (by omega)
      rw [hmod] at hr
      subst hr
      refine ⟨rfl, rfl, rfl, rfl, rfl, by simp only; omega, fun h => absurd h hu, fun _ => hso, ?_⟩
      intro y hy z _
      rw [hy0 y hy]
      simp only [shown, hso]
      omega

/-- A movie: reordered video from the second 1 on, sound from 1.01 on. -/
def movie : List LStream :=
  [{ samples := [⟨10000000, 0, 10⟩, ⟨10800000, 0, 10⟩, ⟨10400000, 0, 10⟩, ⟨11200000, 0, 10⟩], auto := true,
     hasComposition := true },
   { samples := [⟨10100000, 10100000, 4⟩, ⟨10300000, 10300000, 4⟩] }]

example : ∀ s ∈ computeAutoAll movie, Ready s := by
  intro s hs
  have h : computeAutoAll movie =
      [{ samples := [⟨10000000, 10000000, 10⟩, ⟨10800000, 10400000, 10⟩, ⟨10400000, 10800000, 10⟩,
            ⟨11200000, 11200000, 10⟩], auto := true, hasComposition := true, ctts := 400000 },
       { samples := [⟨10100000, 10100000, 4⟩, ⟨10300000, 10300000, 4⟩] }] := by decide +kernel
  rw [h] at hs
  simp only [List.mem_cons, List.not_mem_nil, or_false] at hs
  rcases hs with rfl | rfl
  · exact ⟨rfl, by decide, _, _, rfl, by decide, by decide⟩
  · exact ⟨rfl, by decide, _, _, rfl, by decide, by decide⟩

example : (finish false movie).map (·.map (fun s => (s.ctts, s.streamOffset))) = some [(400000, 0), (0, 500000)] ∧
    (finish true movie).map (·.map (fun s => (s.ctts, s.streamOffset))) = some [(400000, 0), (500000, 0)] := by
  decide +kernel

/-- C114 (partial: a stream whose first sample is decoded before the first sample of the stream presented first gets out
of step, see `early_decoding_witness`, `leading_picture_witness`). When no stream starts decoding before the stream presented first,
one delay `K` carries every sample of every stream to the time at which the written file shows it. -/
theorem level_sync_partial (useStreamOffset : Bool) (ss rs : List LStream) (hready : ∀ s ∈ ss, Ready s)
    (hdec : ∀ s ∈ ss, ∀ t ∈ ss, ∀ x y, s.samples.head? = some x → t.samples.head? = some y →
      (∀ u ∈ ss, ∀ z, u.samples.head? = some z → x.composition ≤ z.composition) → x.decoding ≤ y.decoding)
    (h : levelStart useStreamOffset ss = some rs) :
    ∃ K : Int, ∀ (i : Nat) (s r : LStream), ss[i]? = some s → rs[i]? = some r → r.samples = s.samples ∧
        ∀ y, s.samples.head? = some y → ∀ x ∈ s.samples,
          shown x.composition y.decoding r.ctts r.streamOffset = x.composition + K := by
  obtain ⟨f, x0, hf, hx0, hmin, K, _, hall⟩ := level_shown useStreamOffset ss rs hready h
  refine ⟨K, ?_⟩
  intro i s r hs hr
  obtain ⟨h1, _, _, _, _, _, _, _, h2⟩ := hall i s r hs hr
  refine ⟨h1, ?_⟩
  intro y hy x hx
  have := hdec f hf s (List.mem_of_getElem? hs) x0 y hx0 hy hmin
  rw [h2 y hy x hx]
  omega

theorem computeAuto_first (s : LStream) (hne : s.samples ≠ []) (B : Nat) (hB : ∀ x ∈ s.samples, x.composition ≤ B)
    (h64 : (s.samples.length + 1) * B < 2 ^ 64) : ∃ x xs, (computeAuto s).samples = x :: xs ∧
      x.decoding ≤ x.composition ∧ (computeAuto s).ctts ≤ (s.samples.length + 1) * B ∧
      (computeAuto s).streamOffset = s.streamOffset := by
  obtain ⟨m, hm, hmin, h1, h2, h3⟩ := computeAuto_eq s hne B hB h64
  obtain ⟨_, _, _, _, _, m2, hm2, hmin2, hf, _⟩ := auto_decoding s hne B hB h64
  have hBlt : B < 2 ^ 64 := by
    have : B ≤ (s.samples.length + 1) * B := Nat.le_mul_of_pos_left _ (by omega)
    omega
  cases hs : (computeAuto s).samples with
  | nil => rw [h1] at hs; have := stamp_length (sorted (s.samples.map (·.composition))) s.samples m; rw [hs] at this
           exact absurd (List.eq_nil_of_length_eq_zero this.symm) hne
  | cons x xs =>
    refine ⟨x, xs, rfl, ?_, ?_, ?_⟩
    · obtain ⟨g1, g2⟩ := hf x (by rw [hs]; rfl)
      have hxm : x.composition ∈ s.samples.map (·.composition) := by
        have := stamp_map (sorted (s.samples.map (·.composition))) (·.composition) (fun _ _ => rfl) s.samples m
        rw [← h1, hs] at this
        rw [← this]; simp
      have := hmin2 _ hxm
      rcases Nat.eq_or_lt_of_le this with he | hlt
      · rw [g1 he.symm]; omega
      · obtain ⟨u, hu⟩ := before_exists _ x.composition m2 hm2 hlt
        rw [g2 u hu]
        have h1 := hmin2 u hu.1
        have h2 := hu.2.1
        omega
    · rcases h3 with h3 | ⟨y, hy, h3⟩
      · rw [h3]; omega
      · rw [h1] at hy
        have hu := stamp_upper _ _ _ y hy
        have hd := durs_le (sorted (s.samples.map (·.composition))) (sorted_sorted _) B hBlt
          (s.samples.map (·.composition)) (by
            intro c hc
            refine ⟨(sorted_mem _ _).2 hc, ?_⟩
            obtain ⟨x, hx, rfl⟩ := List.mem_map.1 hc
            exact hB x hx)
        rw [List.length_map] at hd
        have hmB : m ≤ B := by
          obtain ⟨x, hx, rfl⟩ := List.mem_map.1 hm
          exact hB x hx
        rw [Nat.succ_mul]
        omega
    · simp only [computeAuto]; split <;> rfl

/-- A stream as the muxer has it at the end: at least one sample, no delay yet; either its decoding times are to be computed, or
its first sample is not decoded after it is presented. -/
def Given (s : LStream) : Prop :=
  s.samples ≠ [] ∧ s.streamOffset = 0 ∧ s.ctts < 2 ^ 62 ∧
  (∃ B, (∀ x ∈ s.samples, x.composition ≤ B) ∧ (s.samples.length + 1) * B < 2 ^ 62) ∧
  (s.auto = false → ∀ x, s.samples.head? = some x → x.decoding ≤ x.composition)

theorem ready_of_given (s : LStream) (h : Given s) : Ready (if s.auto then computeAuto s else s) := by
  obtain ⟨hne, hso, hc, ⟨B, hB, h62⟩, hd⟩ := h
  have hB62 : B < 2 ^ 62 := by
    have : B ≤ (s.samples.length + 1) * B := Nat.le_mul_of_pos_left _ (by omega)
    omega
  cases ha : s.auto with
  | true =>
    rw [if_pos rfl]
    obtain ⟨x, xs, h1, h2, h3, h4⟩ := computeAuto_first s hne B hB (by omega)
    refine ⟨by rw [h4, hso], by omega, x, xs, h1, h2, ?_⟩
    obtain ⟨e, _⟩ := auto_decoding s hne B hB (by omega)
    have hxm : x.composition ∈ s.samples.map (·.composition) := by rw [← e, h1]; simp
    obtain ⟨z, hz, he⟩ := List.mem_map.1 hxm
    have := hB z hz
    omega
  | false =>
    rw [if_neg (by simp)]
    cases hs : s.samples with
    | nil => exact absurd hs hne
    | cons x xs =>
      refine ⟨hso, hc, x, xs, hs, hd ha x (by rw [hs]; rfl), ?_⟩
      have := hB x (by rw [hs]; simp)
      omega

/-- C114, the usual movie (partial: the condition on first samples, see the witnesses). When every stream has samples, the muxer finishes the movie. If the first sample of each
stream is the one that is presented first in its stream (computed decoding times) or is decoded when it is presented (given ones), one
delay carries every sample of every stream to the time at which the file shows it: sound and picture stay together. -/
theorem finish_sync_partial (cttsOffset : Bool) (ss : List LStream) (hne : ss ≠ []) (hg : ∀ s ∈ ss, Given s)
    (hfirst : ∀ s ∈ ss, ∀ x, s.samples.head? = some x →
      (s.auto = true → ∀ y ∈ s.samples, x.composition ≤ y.composition) ∧ (s.auto = false → x.decoding = x.composition)) :
    ∃ rs, finish cttsOffset ss = some rs ∧ rs.length = ss.length ∧
      ∃ K : Int, ∀ (i : Nat) (s r : LStream), ss[i]? = some s → rs[i]? = some r →
        r.samples.map (·.composition) = s.samples.map (·.composition) ∧
        ∀ y, r.samples.head? = some y → ∀ x ∈ r.samples,
          shown x.composition y.decoding r.ctts r.streamOffset = x.composition + K := by
  have hready : ∀ s ∈ computeAutoAll ss, Ready s := by
    intro s hs
    simp only [computeAutoAll, List.mem_map] at hs
    obtain ⟨t, ht, rfl⟩ := hs
    exact ready_of_given t (hg t ht)
  -- first samples are decoded when they are presented
  have hzero : ∀ s ∈ computeAutoAll ss, ∀ x, s.samples.head? = some x → x.decoding = x.composition := by
    intro s hs x hx
    simp only [computeAutoAll, List.mem_map] at hs
    obtain ⟨t, ht, rfl⟩ := hs
    obtain ⟨htne, _, _, ⟨B, hB, h62⟩, _⟩ := hg t ht
    cases ha : t.auto with
    | false =>
      rw [ha, if_neg (by simp)] at hx
      exact (hfirst t ht x hx).2 ha
    | true =>
      rw [ha, if_pos rfl] at hx
      obtain ⟨e, _, _, _, _, m, hm, hmin, h0, _⟩ := auto_decoding t htne B hB (by omega)
      rw [List.head?_eq_getElem?] at hx
      obtain ⟨z, hz⟩ : ∃ z, t.samples.head? = some z := by
        cases hs : t.samples with
        | nil => exact absurd hs htne
        | cons a l => exact ⟨a, rfl⟩
      have hxz : x.composition = z.composition := by
        have h1 : ((computeAuto t).samples.map (·.composition))[0]? = some x.composition := by simp [hx]
        rw [List.head?_eq_getElem?] at hz
        rw [e] at h1
        simp only [List.getElem?_map, hz, Option.map_some, Option.some.injEq] at h1
        exact h1.symm
      have hle := (hfirst t ht z hz).1 ha
      obtain ⟨w, hw, rfl⟩ := List.mem_map.1 hm
      have h1 := hle w hw
      have h2 := hmin z.composition (List.mem_map.2 ⟨z, List.mem_of_mem_head? hz, rfl⟩)
      have := (h0 x hx).1 (by omega)
      omega
  have hfin : finish cttsOffset ss = levelStart (!cttsOffset) (computeAutoAll ss) := rfl
  cases hl : levelStart (!cttsOffset) (computeAutoAll ss) with
  | none =>
    exfalso
    simp only [levelStart] at hl
    cases hm : minStreamStart (computeAutoAll ss) with
    | none =>
      have hge := minLoop_none _ _ _ hm
      obtain ⟨s, hs⟩ := List.exists_mem_of_ne_nil _ (show computeAutoAll ss ≠ [] by simpa [computeAutoAll] using hne)
      obtain ⟨_, _, x, xs, h1, _, h2⟩ := hready s hs
      have := hge s hs
      simp only [LStream.start, h1] at this
      omega
    | some n =>
      rcases minLoop_spec _ 0 _ _ n hm with ⟨h1, _⟩ | ⟨j, s1, h1, h2, _⟩
      · simp at h1
      · rw [hm] at hl
        rw [Nat.zero_add] at h1
        subst h1
        simp [h2] at hl
  | some rs =>
    obtain ⟨f, x0, hf, hx0, hmin, K, hlen, hall⟩ := level_shown _ _ rs hready hl
    refine ⟨rs, by rw [hfin, hl], by rw [hlen]; simp [computeAutoAll], K, ?_⟩
    intro i s r hs hr
    have hsi : (computeAutoAll ss)[i]? = some (if s.auto then computeAuto s else s) := by
      simp [computeAutoAll, hs]
    obtain ⟨h1, _, _, _, _, _, _, _, h2⟩ := hall i _ r hsi hr
    refine ⟨?_, ?_⟩
    · rw [h1]
      cases ha : s.auto with
      | false => rfl
      | true =>
        rw [if_pos rfl]
        obtain ⟨htne, _, _, ⟨B, hB, h62⟩, _⟩ := hg s (List.mem_of_getElem? hs)
        exact (auto_decoding s htne B hB (by omega)).1
    · intro y hy x hx
      rw [h1] at hy hx
      rw [h2 y hy x hx]
      have e1 := hzero f hf x0 hx0
      have e2 := hzero _ (List.mem_of_getElem? hsi) y hy
      have e3 := hmin _ (List.mem_of_getElem? hsi) y hy
      omega

example : movie ≠ [] ∧ ∀ s ∈ movie, Given s := by
  refine ⟨by decide, ?_⟩
  intro s hs
  simp only [movie, List.mem_cons, List.not_mem_nil, or_false] at hs
  rcases hs with rfl | rfl
  · exact ⟨by simp, rfl, by decide, ⟨11200000, by decide, by decide⟩, by simp⟩
  · exact ⟨by simp, rfl, by decide, ⟨10300000, by decide, by decide⟩, by decide⟩

/-! ### what is missing -/

/-- Video given with decoding times, shown from 0.1 s but decoded from 0 on, with sound from 0.05 s: the sound, which is 0.05 s
before the picture, is shown 0.1 s before it in the written file. -/
theorem early_decoding_witness :
    let ss : List LStream := [{ samples := [⟨1000000, 0, 10⟩, ⟨1400000, 400000, 10⟩], hasComposition := true },
      { samples := [⟨500000, 500000, 4⟩, ⟨700000, 700000, 4⟩] }]
    ∃ v a, finish false ss = some [v, a] ∧
      shown 1000000 0 v.ctts v.streamOffset = 1000000 ∧ shown 500000 500000 a.ctts a.streamOffset = 0 := by
  refine ⟨{ samples := [⟨1000000, 0, 10⟩, ⟨1400000, 400000, 10⟩], hasComposition := true },
      { samples := [⟨500000, 500000, 4⟩, ⟨700000, 700000, 4⟩] }, by decide +kernel, by decide, by decide⟩

/-- A picture presented before the key picture that starts the video (80, 0, 40), and sound from 60 on: in the file the
sound is shown 20 units too early against the picture. -/
theorem leading_picture_witness :
    let ss : List LStream := [{ samples := [⟨80, 0, 10⟩, ⟨0, 0, 10⟩, ⟨40, 0, 10⟩], auto := true },
      { samples := [⟨60, 60, 4⟩, ⟨80, 80, 4⟩] }]
    ∃ v a, finish false ss = some [v, a] ∧ v.samples.map (·.decoding) = [40, 40, 80] ∧
      shown 80 40 v.ctts v.streamOffset = 80 ∧ shown 80 60 a.ctts a.streamOffset = 60 := by
  refine ⟨{ samples := [⟨80, 40, 10⟩, ⟨0, 40, 10⟩, ⟨40, 80, 10⟩], auto := true, ctts := 40 },
      { samples := [⟨60, 60, 4⟩, ⟨80, 80, 4⟩], streamOffset := 40 }, by decide +kernel, by decide, by decide, by decide⟩

/-- A movie none of whose streams has a sample is not finished: the writer throws. -/
theorem empty_movie_witness (cttsOffset : Bool) : finish cttsOffset [] = none ∧
    finish cttsOffset [{ samples := [] }, { samples := [], auto := true }] = none := by
  cases cttsOffset <;> decide +kernel

/-- A stream without samples beside one with samples gets a delay of about 58 000 years. -/
theorem empty_stream_witness :
    (finish false [{ samples := [⟨500, 500, 1⟩] }, { samples := [] }]).map (·.map (·.streamOffset)) =
      some [0, 2 ^ 64 - 1 - 500] := by decide +kernel

end Verif.Level
