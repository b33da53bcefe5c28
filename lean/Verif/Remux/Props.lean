import Verif.Remux.Model
import Verif.Moof.Props
import Verif.Moof.PropsAny
import Verif.Parse.Props
import Verif.Movie.Init
/-
C153: a movie is made of all fragments that are given. C154: from fragments to a movie and back to samples.
-/
namespace Verif.Remux
open Verif.Moof (Opts Out moofMux)
open Verif.Moof.Spec (Seg written handed Consecutive)
open Verif.Interleave (QSample Mux IStream)
open Verif.Interleave.Spec (ofStream)
open Verif.Fragment (Sample box fourcc)

theorem ofStream_append {α : Type} (i : Nat) (a b : List (Nat × α)) : ofStream i (a ++ b) = ofStream i a ++ ofStream i b := by
  simp [ofStream]

theorem ofStream_same {α : Type} (k : Nat) (l : List α) : ofStream k (l.map fun x => (k, x)) = l := by
  simp [ofStream, List.filter_map, Function.comp_def]

theorem ofStream_other {α : Type} (k j : Nat) (h : k ≠ j) (l : List α) : ofStream j (l.map fun x => (k, x)) = [] := by
  simp [ofStream, List.filter_map, Function.comp_def, h]

theorem ofStream_none {α : Type} (j n : Nat) (l : List (Nat × α)) (h : ∀ x ∈ l, n ≤ x.1) (hj : j < n) : ofStream j l = [] := by
  rw [ofStream, List.filter_eq_nil_iff.2, List.map_nil]
  intro x hx
  have := h x hx
  simp only [beq_iff_eq]
  omega

/-- The files of the streams hold these samples: file `i` of stream `k` leads to `outs k i`. -/
def Deliver (o : Nat → Option Opts) (fuel : Nat) (g : Nat → Nat → Nat × Nat) (ss : List Source) (outs : Nat → Nat → List Out) (from_ : Nat) : Prop :=
  ∀ k s, ss[k]? = some s → ∀ i f, s.files[i]? = some f → ∃ p, o (from_ + k) = some p ∧ moofMux p fuel (g (from_ + k) i).1 (g (from_ + k) i).2 f = some (outs (from_ + k) i)

theorem turn_eq (o : Nat → Option Opts) (fuel : Nat) (g : Nat → Nat → Nat × Nat) (outs : Nat → Nat → List Out) (i : Nat) : ∀ (ss : List Source) (k : Nat), Deliver o fuel g ss outs k →
    ∃ l, turn o fuel g i k ss = some l ∧ (∀ x ∈ l, k ≤ x.1 ∧ x.1 < k + ss.length) ∧
      ∀ j s, ss[j]? = some s → ofStream (k + j) l = if i < s.files.length then outs (k + j) i else []
  | [], k, _ => ⟨[], rfl, by simp, by simp⟩
  | s :: ss, k, h => by
    obtain ⟨l, h1, h2, h3⟩ := turn_eq o fuel g outs i ss (k + 1) (by
      intro j t ht i f hf
      have := h (j + 1) t (by simpa using ht) i f hf
      rw [show k + (j + 1) = k + 1 + j by omega] at this
      exact this)
    obtain ⟨a, ha, hb, hc⟩ : ∃ a, fileOf o fuel g i k s = some (a.map fun x => (k, x)) ∧ (i < s.files.length → a = outs k i) ∧ (¬ i < s.files.length → a = []) := by
      rw [fileOf]
      cases hf : s.files[i]? with
      | none =>
        have := List.getElem?_eq_none_iff.1 hf
        exact ⟨[], rfl, fun h => by omega, fun _ => rfl⟩
      | some f =>
        obtain ⟨p, p1, p2⟩ := h 0 s rfl i f hf
        rw [Nat.add_zero] at p1 p2
        have := (List.getElem?_eq_some_iff.1 hf).1
        refine ⟨outs k i, ?_, fun _ => rfl, fun h => absurd this h⟩
        simp only [p1, p2, Option.bind_some, Option.map_some]
    refine ⟨a.map (fun x => (k, x)) ++ l, ?_, ?_, ?_⟩
    · rw [turn, ha, h1]; rfl
    · intro x hx
      rcases List.mem_append.1 hx with hx | hx
      · obtain ⟨y, _, rfl⟩ := List.mem_map.1 hx
        simp
      · have := h2 x hx
        simp only [List.length_cons]; omega
    · intro j t ht
      rw [ofStream_append]
      cases j with
      | zero =>
        simp only [List.getElem?_cons_zero, Option.some.injEq] at ht
        subst ht
        rw [Nat.add_zero, ofStream_same, ofStream_none k (k + 1) l (fun x hx => (h2 x hx).1) (by omega), List.append_nil]
        split
        · exact hb ‹_›
        · exact hc ‹_›
      | succ j =>
        rw [ofStream_other k (k + (j + 1)) (by omega), List.nil_append, show k + (j + 1) = k + 1 + j by omega]
        exact h3 j t (by simpa using ht)

theorem turns_eq (o : Nat → Option Opts) (fuel : Nat) (g : Nat → Nat → Nat × Nat) (outs : Nat → Nat → List Out) (ss : List Source) (h : Deliver o fuel g ss outs 0) : ∀ (n i : Nat),
    ∃ l, turns o fuel g ss n i = some l ∧ (∀ x ∈ l, x.1 < ss.length) ∧
      ∀ j s, ss[j]? = some s → s.files.length ≤ i + n → ofStream j l = (List.range' i (s.files.length - i)).flatMap (outs j)
  | 0, i => ⟨[], rfl, by simp, by
      intro j s hs hl
      rw [show s.files.length - i = 0 by omega]
      rfl⟩
  | n + 1, i => by
    obtain ⟨a, a1, a2, a3⟩ := turn_eq o fuel g outs i ss 0 h
    obtain ⟨b, b1, b2, b3⟩ := turns_eq o fuel g outs ss h n (i + 1)
    refine ⟨a ++ b, by rw [turns, a1, b1]; rfl, ?_, ?_⟩
    · intro x hx
      rcases List.mem_append.1 hx with hx | hx
      · have := a2 x hx; omega
      · exact b2 x hx
    · intro j s hs hl
      have ha := a3 j s hs
      rw [Nat.zero_add] at ha
      rw [ofStream_append, ha, b3 j s hs (by omega)]
      by_cases hi : i < s.files.length
      · rw [if_pos hi, show s.files.length - i = (s.files.length - (i + 1)) + 1 by omega, List.range'_succ, List.flatMap_cons]
      · rw [if_neg hi, show s.files.length - i = 0 by omega, show s.files.length - (i + 1) = 0 by omega]
        rfl

theorem count_le (ss : List Source) : ∀ s ∈ ss, s.files.length ≤ count ss := by
  have gen : ∀ (ss : List Source) (n : Nat), n ≤ ss.foldl (fun n s => if s.files.length > n then s.files.length else n) n ∧
      ∀ s ∈ ss, s.files.length ≤ ss.foldl (fun n s => if s.files.length > n then s.files.length else n) n := by
    intro ss
    induction ss with
    | nil => intro n; simp
    | cons s ss ih =>
      intro n
      rw [List.foldl_cons]
      obtain ⟨h1, h2⟩ := ih (if s.files.length > n then s.files.length else n)
      have h5 : s.files.length ≤ (if s.files.length > n then s.files.length else n) ∧ n ≤ (if s.files.length > n then s.files.length else n) := by split <;> omega
      refine ⟨Nat.le_trans h5.2 h1, ?_⟩
      · intro t ht
        rcases List.mem_cons.1 ht with rfl | ht
        · exact Nat.le_trans h5.1 h1
        · exact h2 t ht
  exact (gen ss 0).2

theorem table_single (ss : List Source) (h : ∀ s ∈ ss, s.tracks.length = 1) : ∀ (k : Nat) (s : Source) (t : Bool × Nat), ss[k]? = some s → s.tracks = [t] → (table ss)[k]? = some t := by
  induction ss with
  | nil => intro k s t hk; simp at hk
  | cons x ss ih =>
    intro k s t hk ht
    obtain ⟨u, hu⟩ := List.length_eq_one_iff.1 (h x (by simp))
    have e : table (x :: ss) = u :: table ss := by rw [table, List.flatMap_cons, hu]; rfl
    rw [e]
    cases k with
    | zero =>
      simp only [List.getElem?_cons_zero, Option.some.injEq] at hk ⊢
      subst hk
      rw [hu] at ht
      simpa using ht
    | succ k =>
      simp only [List.getElem?_cons_succ] at hk ⊢
      exact ih (fun s hs => h s (by simp [hs])) k s t hk ht

theorem takeWhile_all {α : Type} (p : α → Bool) : ∀ l : List α, (∀ x ∈ l, p x = true) → l.takeWhile p = l
  | [], _ => rfl
  | x :: l, h => by rw [List.takeWhile_cons, if_pos (h x (by simp)), takeWhile_all p l fun y hy => h y (by simp [hy])]

/-- C153 (partial: one track in the first file of each stream, see `two_tracks_witness`; three streams, see `fourth_stream`). If stream `k` has files that lead to the samples `outs k 0`, `outs k 1`, ..., then the command adds to stream `k`
of the movie exactly those, file after file, and nothing else. -/
theorem all_files_added_partial (key : Option (List UInt8 → List UInt8)) (norm : Nat → Nat → Nat) (fuel : Nat) (g : Nat → Nat → Nat × Nat) (given : List Source)
    (h3 : given.length ≤ 3) (hfiles : ∀ s ∈ given, s.files ≠ []) (hone : ∀ s ∈ given, s.tracks.length = 1) (outs : Nat → Nat → List Out)
    (hd : ∀ (k : Nat) (s : Source), given[k]? = some s → ∀ (audio : Bool) (scale : Nat), s.tracks = [(audio, scale)] → ∀ (i : Nat) (f : List UInt8), s.files[i]? = some f →
      moofMux ⟨key, audio, scale, norm scale⟩ fuel (g k i).1 (g k i).2 f = some (outs k i)) :
    ∃ l, remux key norm fuel g given = some l ∧ (∀ x ∈ l, x.1 < given.length) ∧
      ∀ (k : Nat) (s : Source), given[k]? = some s → ofStream k l = (List.range s.files.length).flatMap (outs k) := by
  have hc : counted given = given := by
    rw [counted, List.take_of_length_le h3]
    apply takeWhile_all
    intro s hs
    have := hfiles s hs
    cases hf : s.files with
    | nil => exact absurd hf this
    | cons => rfl
  have hdel : Deliver (optsOf key norm given) fuel g given outs 0 := by
    intro k s hs i f hf
    obtain ⟨⟨a, c⟩, ht⟩ := List.length_eq_one_iff.1 (hone s (List.mem_of_getElem? hs))
    refine ⟨⟨key, a, c, norm c⟩, ?_, ?_⟩
    · rw [Nat.zero_add, optsOf, table_single given hone k s (a, c) hs ht]; rfl
    · rw [Nat.zero_add]; exact hd k s hs a c ht i f hf
  obtain ⟨l, l1, l2, l4⟩ := turns_eq _ fuel g outs given hdel (count given) 0
  refine ⟨l, by rw [remux, hc]; exact l1, l2, ?_⟩
  intro k s hs
  rw [l4 k s hs (by have := count_le given s (List.mem_of_getElem? hs); omega), Nat.sub_zero, List.range_eq_range']

/-- C153. A fourth stream is not looked at, and after a number that is left out no further stream is. -/
theorem fourth_stream (key : Option (List UInt8 → List UInt8)) (norm : Nat → Nat → Nat) (fuel : Nat) (g : Nat → Nat → Nat × Nat) (a b c : Source) (more : List Source) :
    remux key norm fuel g (a :: b :: c :: more) = remux key norm fuel g [a, b, c] ∧
    (b.files = [] → remux key norm fuel g (a :: b :: c :: more) = remux key norm fuel g [a]) := by
  refine ⟨rfl, fun h => ?_⟩
  have e : counted (a :: b :: c :: more) = counted [a] := by
    simp only [counted, List.take, List.takeWhile_cons, h, List.isEmpty_nil, Bool.not_true, List.takeWhile_nil]
    rfl
  rw [remux, remux, e]

end Verif.Remux
