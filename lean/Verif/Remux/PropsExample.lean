import Verif.Remux.PropsMovie
/-
Streams that meet the hypotheses of the theorems, and what happens with a file of two tracks.
-/
namespace Verif.Remux
open Verif.Moof.Spec (Seg written Consecutive)
open Verif.Interleave (QSample Mux IStream)
open Verif.Fragment (box fourcc toyCipher toyCipher_length)
open Verif.Movie (MStream streamOf Letter)
open Verif.Movie.Sample (ts hn)
open Verif.Parse (anything Readable)

/-- Sound in three samples: a file with a fragment in the clear, and one with an encrypted fragment. -/
def sound : Stream :=
  ⟨1, .audio 48000 2 (box (fourcc 'e' 's' 'd' 's') [9, 8, 7]), 420000000, none, [],
    [[⟨0, none, 1, 1, 0, [⟨[5], 0, 0, 213333⟩, ⟨[6, 7], 213333, 213333, 213333⟩], 0, 0⟩],
     [⟨426666, some (false, [1, 2, 3, 4, 5, 6, 7, 255]), 1, 2, 0, [⟨[10, 11, 12], 426666, 426666, 213333⟩], 0, 0⟩]]⟩

def movieStream : MStream := { w := {}, kind := .audio 48000 2 (box (fourcc 'e' 's' 'd' 's') [9, 8, 7]), id := 0, scale := 10000000 }

def addedSamples : List (Nat × QSample) := [(0, ⟨0, 0, true, [5]⟩), (0, ⟨213333, 213333, true, [6, 7]⟩), (0, ⟨426666, 426666, true, [10, 11, 12]⟩)]

def movieMux : Mux :=
  { streams := [{ queue := [], written := [(⟨0, 0, true, [5]⟩, 0), (⟨213333, 213333, true, [6, 7]⟩, 1), (⟨426666, 426666, true, [10, 11, 12]⟩, 3)], sampleMax := 426666 }],
    mdat := [5, 6, 7, 10, 11, 12], maxTime := 426666, maxUsed := 426666, distance := 10000000, useComp := true }

theorem sound_file_ok : ∀ segs ∈ sound.files, FileOk (ts 10000000) toyCipher segs ∧ segs.length < 13 ∧ ((∃ x ∈ segs, x.enc ≠ none) → some toyCipher = some toyCipher) := by
  intro segs hs
  simp only [sound, List.mem_cons, List.not_mem_nil, or_false] at hs
  rcases hs with rfl | rfl
  all_goals
    refine ⟨⟨?_, by simp, by decide +kernel, ?_⟩, by decide, fun _ => rfl⟩
    · intro s hs
      simp only [List.mem_cons, List.not_mem_nil, or_false] at hs
      subst hs
      constructor <;> first | decide +kernel | simp
    · intro s hs
      simp only [List.mem_cons, List.not_mem_nil, or_false] at hs
      subst hs
      simp [Consecutive]

theorem movie_readable : Readable anything ts hn 20 10000000 true [(movieStream, [9, 8, 7])] addedSamples movieMux := by
  refine ⟨⟨rfl, ?_, by decide, by decide⟩, ?_, ?_⟩
  · intro i p s hp hs
    match i with
    | 0 =>
      simp only [movieMux, List.getElem?_cons_zero, Option.some.injEq] at hp hs
      subst hp; subst hs
      refine ⟨⟨⟨⟨0, 0, true, [5]⟩, ⟨213333, 213333, true, [6, 7]⟩, by decide, by decide, by decide⟩, fun h => (by cases h), by decide, by decide, by decide⟩,
        ⟨⟨by decide, by decide, rfl⟩, ?_, by decide, by decide, by decide, by decide, by simp only [Letter]; decide⟩⟩
      intro k hk; cases hk
    | n + 1 => simp at hp
  · intro p hp
    simp only [List.mem_cons, List.not_mem_nil, or_false] at hp
    subst hp; exact ⟨rfl, rfl⟩
  · intro i p s hp hs j f q hf hq
    match i with
    | 0 =>
      simp only [movieMux, List.getElem?_cons_zero, Option.some.injEq] at hp hs
      subst hp; subst hs
      simp only [List.map_cons, List.getElem?_cons_zero, Option.some.injEq, List.map_nil] at hf hq
      subst hf
      match j with
      | 0 => simp only [List.getElem?_cons_zero, Option.some.injEq] at hq; subst hq; decide
      | 1 => simp only [List.getElem?_cons_zero, List.getElem?_cons_succ, Option.some.injEq] at hq; subst hq; decide
      | 2 => simp only [List.getElem?_cons_zero, List.getElem?_cons_succ, Option.some.injEq] at hq; subst hq; decide
      | j + 3 => simp at hq
    | n + 1 => simp at hp

/-- `sound` meets the hypotheses of `fragments_to_movie_partial`: the calls are `addedSamples`, and the movie is readable. -/
example (g : Nat → Nat → Nat × Nat) (norm : Nat → Nat → Nat) : (sound.init ts hn 7).length < 2 ^ 32 ∧
    (remux (some toyCipher) norm 13 g [sound.source ts hn 7 toyCipher]).map (·.map added) = some addedSamples ∧
    ∃ m, Readable anything ts hn 20 10000000 true [(movieStream, [9, 8, 7])] addedSamples m := by
  have hi : (sound.init ts hn 7).length < 2 ^ 32 := by decide +kernel
  refine ⟨hi, ?_, movieMux, movie_readable⟩
  obtain ⟨l, h1, h2, h3⟩ := sound_added_partial ts hn 7 toyCipher toyCipher_length (some toyCipher) (.inr rfl) norm 13 g [sound] (by decide) (by decide)
    (by intro s hs; rw [List.mem_singleton.1 hs]; exact hi) (by intro s hs; rw [List.mem_singleton.1 hs]; exact sound_file_ok)
  simp only [List.map_cons, List.map_nil] at h1
  rw [h1, Option.map_some]
  have h4 := h3 0 sound rfl
  have h5 : ∀ l : List (Nat × QSample), (∀ x ∈ l, x.1 < 1) → l = (Verif.Interleave.Spec.ofStream 0 l).map fun x => (0, x) := by
    intro l
    induction l with
    | nil => intro _; rfl
    | cons x l ih =>
      intro h
      have h0 : x.1 = 0 := by have := h x (by simp); omega
      conv => lhs; rw [ih fun y hy => h y (by simp [hy])]
      obtain ⟨a, b⟩ := x
      simp only at h0
      subst h0
      simp [Verif.Interleave.Spec.ofStream]
  rw [h5 (l.map added) (by intro x hx; obtain ⟨y, hy, rfl⟩ := List.mem_map.1 hx; exact h2 y hy), h4]
  rfl

/-- Sound at 48000 units per second: one sample at one second. -/
def oneSecond : List UInt8 := (written (fun x => x * 48000 / 10000000) toyCipher 48000 [⟨10000000, none, 1, 1, 0, [⟨[5], 10000000, 10000000, 213333⟩], 0, 0⟩]).bytes

def exactNorm (T x : Nat) : Nat := x * 10000000 / T

/-- C153 is false when a first file has two tracks: `S1` has pictures and sound, `S2` other sound at 48000 units per second. The sample of `S2` is added to the sound of `S1`, and at 4.8 ms instead of one second; by itself it is added at one second. -/
theorem two_tracks_witness :
    (remux none exactNorm 13 (fun _ _ => (0, 0)) [⟨[(false, 10000000), (true, 10000000)], [[]]⟩, ⟨[(true, 48000)], [oneSecond]⟩]).map (·.map added) = some [(1, ⟨48000, 48000, true, [5]⟩)] ∧
    (remux none exactNorm 13 (fun _ _ => (0, 0)) [⟨[(true, 48000)], [oneSecond]⟩]).map (·.map added) = some [(0, ⟨10000000, 10000000, true, [5]⟩)] := by
  constructor <;> decide +kernel

end Verif.Remux
