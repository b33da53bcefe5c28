import Verif.Movie.Read
namespace Verif.Movie
open Verif.Cenc.Spec (be beVal)
open Verif.Cenc (be_length)
open Verif.Fragment (W fourcc full box box_length)
open Verif.Fragment.Spec (chars)
open Verif.Tables (WStream SampleIn ChunkDes stscEntries stszWords stcoWords stssWords sttsEntries cttsEntries u32 sub64 writeAll flush deltas)

theorem pairList_length (l : List (Nat × Nat)) : (pairList l).length = 2 * l.length := by
  induction l with
  | nil => rfl
  | cons x l ih => simp [pairList] at ih ⊢; omega

theorem tripleList_length (l : List (Nat × Nat)) : (tripleList l).length = 3 * l.length := by
  induction l with
  | nil => rfl
  | cons x l ih => simp [tripleList] at ih ⊢; omega

theorem u32_lt (n : Nat) : u32 n < 2 ^ 32 := Nat.mod_lt _ (by decide)

theorem foldl_inv {α β : Type} (P : β → Prop) (f : β → α → β) (h : ∀ b a, P b → P (f b a)) : ∀ (l : List α) (b : β), P b → P (l.foldl f b)
  | [], _, hb => hb
  | a :: l, b, hb => foldl_inv P f h l _ (h b a hb)

theorem stts_bound (ts hn : Nat → Nat) (e : Bool) (ds : List Nat) : ∀ x ∈ sttsEntries ts hn e ds, x.1 < 2 ^ 32 ∧ x.2 < 2 ^ 32 := by
  have h : (ds.foldl (Verif.Tables.sttsStep ts hn) {}).delta < 2 ^ 32 ∧ ∀ x ∈ (ds.foldl (Verif.Tables.sttsStep ts hn) {}).out, x.1 < 2 ^ 32 ∧ x.2 < 2 ^ 32 := by
    refine foldl_inv (fun s : Verif.Tables.SttsState => s.delta < 2 ^ 32 ∧ ∀ x ∈ s.out, x.1 < 2 ^ 32 ∧ x.2 < 2 ^ 32) _ ?_ ds _ ⟨by decide, by intro x hx; cases hx⟩
    intro s a ⟨h1, h2⟩
    unfold Verif.Tables.sttsStep
    generalize ts (sub64 a s.last) = d
    by_cases hi : s.i = 1
    · by_cases hd : d ≠ u32 d
      · simp only [hi, if_true, ne_eq, hd, not_false_eq_true, Nat.zero_lt_one, and_self]
        refine ⟨u32_lt _, fun x hx => ?_⟩
        rcases List.mem_append.1 hx with hx | hx
        · exact h2 x hx
        · simp at hx; subst hx; exact ⟨u32_lt _, u32_lt _⟩
      · have hd := not_not.1 hd
        simp only [hi, if_true, ne_eq, ← hd, not_true_eq_false, false_and, if_false]
        exact ⟨by rw [hd]; exact u32_lt _, h2⟩
    · simp only [hi, if_false]
      split
      · refine ⟨u32_lt _, fun x hx => ?_⟩
        rcases List.mem_append.1 hx with hx | hx
        · exact h2 x hx
        · simp at hx; subst hx; exact ⟨u32_lt _, h1⟩
      · exact ⟨h1, h2⟩
  intro x hx
  simp only [sttsEntries] at hx
  split at hx
  · rcases List.mem_append.1 hx with hx | hx
    · exact h.2 x hx
    · simp at hx; subst hx; exact ⟨u32_lt _, h.1⟩
  · exact h.2 x hx

theorem ctts_bound (ts : Nat → Nat) (off : Nat) (s : WStream) (es : List (Nat × Nat)) (he : cttsEntries ts off s = some es) : ∀ x ∈ es, x.1 < 2 ^ 32 ∧ x.2 < 2 ^ 32 := by
  simp only [cttsEntries] at he
  split at he
  · simp at he
  · simp only [Option.some.injEq] at he
    have h : ((s.samples.map (Verif.Tables.cttsDelta ts off)).foldl Verif.Tables.cttsStep {}).delta < 2 ^ 32 ∧
        ∀ x ∈ ((s.samples.map (Verif.Tables.cttsDelta ts off)).foldl Verif.Tables.cttsStep {}).out, x.1 < 2 ^ 32 ∧ x.2 < 2 ^ 32 := by
      refine foldl_inv (fun s : Verif.Tables.CttsState => s.delta < 2 ^ 32 ∧ ∀ x ∈ s.out, x.1 < 2 ^ 32 ∧ x.2 < 2 ^ 32) _ ?_ _ _ ⟨by decide, by intro x hx; cases hx⟩
      intro s d ⟨h1, h2⟩
      unfold Verif.Tables.cttsStep
      by_cases hi : s.i = 0
      · by_cases hd : d ≠ u32 d
        · simp only [hi, if_true, ne_eq, hd, not_false_eq_true]
          refine ⟨u32_lt _, fun x hx => ?_⟩
          rcases List.mem_append.1 hx with hx | hx
          · exact h2 x hx
          · simp at hx; subst hx; exact ⟨u32_lt _, u32_lt _⟩
        · have hd := not_not.1 hd
          simp only [hi, if_true, ne_eq, ← hd, not_true_eq_false, if_false]
          exact ⟨by rw [hd]; exact u32_lt _, h2⟩
      · simp only [hi, if_false]
        split
        · refine ⟨u32_lt _, fun x hx => ?_⟩
          rcases List.mem_append.1 hx with hx | hx
          · exact h2 x hx
          · simp at hx; subst hx; exact ⟨u32_lt _, h1⟩
        · exact ⟨h1, h2⟩
    subst he
    intro x hx
    rcases List.mem_append.1 hx with hx | hx
    · exact h.2 x hx
    · simp at hx; subst hx; exact ⟨u32_lt _, h.1⟩

theorem stsc_bound (chunks : List ChunkDes) (e : Bool) (es : List (Nat × Nat)) (he : stscEntries chunks e = some es) : ∀ x ∈ es, x.2 < 2 ^ 32 := by
  simp only [stscEntries] at he
  split at he
  · split at he
    · simp at he; subst he; intro x hx; cases hx
    · simp at he
  · rename_i l _
    simp only [Option.some.injEq] at he
    have h : ((chunks.dropLast.map (·.samples)).foldl Verif.Tables.stscStep {}).count < 2 ^ 32 ∧
        ∀ x ∈ ((chunks.dropLast.map (·.samples)).foldl Verif.Tables.stscStep {}).out, x.2 < 2 ^ 32 := by
      refine foldl_inv (fun s : Verif.Tables.StscState => s.count < 2 ^ 32 ∧ ∀ x ∈ s.out, x.2 < 2 ^ 32) _ ?_ _ _ ⟨by decide, by intro x hx; cases hx⟩
      intro s d ⟨h1, h2⟩
      unfold Verif.Tables.stscStep
      by_cases hi : s.i = 0
      · by_cases hd : d ≠ u32 d
        · simp only [hi, if_true, ne_eq, hd, not_false_eq_true]
          refine ⟨u32_lt _, fun x hx => ?_⟩
          rcases List.mem_append.1 hx with hx | hx
          · exact h2 x hx
          · simp at hx; subst hx; exact u32_lt _
        · have hd := not_not.1 hd
          simp only [hi, if_true, ne_eq, ← hd, not_true_eq_false, if_false]
          exact ⟨by rw [hd]; exact u32_lt _, h2⟩
      · simp only [hi, if_false]
        split
        · refine ⟨u32_lt _, fun x hx => ?_⟩
          rcases List.mem_append.1 hx with hx | hx
          · exact h2 x hx
          · simp at hx; subst hx; exact h1
        · exact ⟨h1, h2⟩
    subst he
    intro x hx
    rcases List.mem_append.1 hx with hx | hx
    · split at hx
      · rcases List.mem_append.1 hx with hx | hx
        · exact h.2 x hx
        · rw [List.mem_singleton.1 hx]; exact h.1
      · exact h.2 x hx
    · simp at hx; subst hx; exact u32_lt _

theorem iframes_audio (xs : List SampleIn) : ∀ s : WStream, s.visual = false → (writeAll s xs).iframes = s.iframes := by
  induction xs with
  | nil => intro s _; rfl
  | cons x xs ih =>
    intro s hv
    obtain ⟨_, _, _, _, _, _, f7, f8, _⟩ := Verif.Tables.sampleWritten_fields s x
    have := ih (Verif.Tables.sampleWritten s x) (by rw [f7]; exact hv)
    show (writeAll (Verif.Tables.sampleWritten s x) xs).iframes = _
    rw [this, f8]; simp [hv]

/-- The samples of a stream as a player should get them: bytes, first sample description, given duration, composition offset, sync flag. -/
def seen (body : List UInt8) (off : SampleIn → Nat) (v : Bool) (xs : List SampleIn) (D : List Nat) : List Spec.Sample :=
  List.zipWith (fun z d => ⟨(body.drop z.position).take z.size, 1, d, off z, !v || z.sync⟩) xs D

/-- What makes the sample tables of a stream complete (see the `_witness` theorems of modules Tables and Movie for each exception). -/
structure Complete (ts hn : Nat → Nat → Nat) (s : MStream) (v : Bool) (xs : List SampleIn) (body : List UInt8) : Prop where
  written : s.w = writeAll { visual := v } xs
  /-- two samples of different sizes -/
  differ : ∃ x y, x ∈ xs ∧ y ∈ xs ∧ x.size ≠ y.size
  /-- a video stream has a key frame -/
  key : v = true → ∃ x ∈ xs, x.sync = true
  inside : ∀ x ∈ xs, x.position + x.size ≤ body.length
  zero : ts s.scale 0 = 0
  steps : ∀ d ∈ deltas (ts s.scale) (hn s.scale) 0 (xs.map (·.decoding)), d < 2 ^ 32
  offsets : ∀ x ∈ xs, ts s.scale ((sub64 x.composition x.decoding + s.ctts) % 2 ^ 64) < 2 ^ 32

/-- The durations in the table: each measured step is the duration of the sample before, the last one is used twice. -/
def shifted : List Nat → List Nat
  | [] => []
  | d :: l => l ++ [l.getLast?.getD d]

theorem slice_body (h body : List UInt8) (p z : Nat) (hp : p + z ≤ body.length) : Spec.slice (h ++ body) (p + h.length) z = some ((body.drop p).take z) := by
  rw [Spec.slice, if_pos (by rw [List.length_append]; omega), Nat.add_comm p, List.drop_append, List.drop_eq_nil_of_le (by omega), List.nil_append,
    Nat.add_sub_cancel_left]

theorem first_differs {x : SampleIn} {xs : List SampleIn} (h : ∃ a b, a ∈ x :: xs ∧ b ∈ x :: xs ∧ a.size ≠ b.size) : ∃ y ∈ xs, y.size ≠ x.size := by
  obtain ⟨a, b, ha, hb, hne⟩ := h
  rcases List.mem_cons.1 ha with rfl | ha
  · rcases List.mem_cons.1 hb with rfl | hb
    · exact absurd rfl hne
    · exact ⟨b, hb, fun h => hne h.symm⟩
  · by_cases h : a.size = x.size
    · rcases List.mem_cons.1 hb with rfl | hb
      · exact absurd h hne
      · exact ⟨b, hb, fun h' => hne (h.trans h'.symm)⟩
    · exact ⟨a, ha, h⟩

theorem stss_seen (v : Bool) (xs : List SampleIn) (hlen : xs.length < 2 ^ 32) (hkey : v = true → ∃ x ∈ xs, x.sync = true) :
    (stssWords (flush (writeAll { visual := v } xs)) = none ∧ v = false) ∨
    ∃ ns : List Nat, stssWords (flush (writeAll { visual := v } xs)) = some (ns.length :: ns) ∧ v = true ∧ ns.length < 2 ^ 32 ∧ (∀ n ∈ ns, n < 2 ^ 32) ∧
      ∀ i x, xs[i]? = some x → ns.contains (i + 1) = x.sync := by
  cases v with
  | false =>
    left
    refine ⟨?_, rfl⟩
    rw [stssWords, (Verif.Tables.flush_fields _).2.2.1, iframes_audio xs _ rfl]
    rfl
  | true =>
    right
    obtain ⟨N, hN⟩ : ∃ N, N = (List.range xs.length).filter (fun i => (xs[i]?).any (·.sync)) := ⟨_, rfl⟩
    have hif : (flush (writeAll { visual := true } xs)).iframes = N := by
      rw [(Verif.Tables.flush_fields _).2.2.1, Verif.Tables.iframes_written xs {} rfl, hN]; simp
    have hmem : ∀ n ∈ N, n < xs.length := by
      intro n hn; rw [hN] at hn; have := List.mem_filter.1 hn; simpa using this.1
    have hNl : N.length ≤ xs.length := by rw [hN]; exact Nat.le_trans (List.length_filter_le _ _) (by simp)
    have hne : N.length ≠ 0 := by
      obtain ⟨x, hx, hs⟩ := hkey rfl
      obtain ⟨i, hi⟩ := List.mem_iff_getElem?.1 hx
      intro h0
      have : i ∈ N := by
        rw [hN, List.mem_filter]
        exact ⟨by simpa using (List.getElem?_eq_some_iff.1 hi).1, by simp [hi, hs]⟩
      rw [List.eq_nil_of_length_eq_zero h0] at this
      cases this
    refine ⟨N.map (· + 1), ?_, rfl, by rw [List.length_map]; omega, ?_, ?_⟩
    · rw [stssWords, hif, if_neg hne, u32, Nat.mod_eq_of_lt (by omega), List.length_map]
      congr 2
      exact List.map_congr_left fun n hn => Nat.mod_eq_of_lt (by have := hmem n hn; omega)
    · intro n hn
      obtain ⟨m, hm, rfl⟩ := List.mem_map.1 hn
      have := hmem m hm; omega
    · intro i x hx
      have hi := (List.getElem?_eq_some_iff.1 hx).1
      rw [Bool.eq_iff_iff, List.contains_iff_mem]
      simp only [List.mem_map, hN, List.mem_filter, List.mem_range]
      constructor
      · rintro ⟨a, ⟨_, h⟩, h1⟩
        obtain rfl : a = i := by omega
        simpa [hx] using h
      · intro h
        exact ⟨i, ⟨hi, by simp [hx, h]⟩, rfl⟩

end Verif.Movie
