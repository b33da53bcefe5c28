import Verif.Gop.Lemmas
import Verif.Dynamic.PropsFiles
import Verif.Reader.PropsMove
/-
C147: the segment starts of a video track. C148: the list of the groups of pictures.
-/
namespace Verif.Gop
open Verif.Tables Verif.RangeMap Verif.Reader Verif.Reader.Spec Verif.Gop.Spec
open Verif.Tables.Spec (expand)
open Verif.Publish (Res Stop orThrow)
open Verif.Dynamic (publishStep publishLoop publishLoop_spec)

/-- the time of a key frame in the file and in the presentation -/
def times (t : Track) (s : Setup) (x : Sample) : Nat × Int := (x.composition, (x.composition + t.offset + s.shift : Int))

/-- what is published of a list of key frames -/
def pubs (t : Track) (s : Setup) : Option Int → List Sample → List (Nat × Int)
  | _, [] => []
  | frag, x :: xs =>
    let p := publishStep s.length s.tolerance frag (x.composition + t.offset + s.shift : Int)
    if p.2 then times t s x :: pubs t s p.1 xs else pubs t s p.1 xs

theorem pubs_times (t : Track) (s : Setup) : ∀ (xs : List Sample) (frag : Option Int),
    (pubs t s frag xs).map (·.2) = publishLoop s.length s.tolerance frag (xs.map fun x => (times t s x).2) ∧
    (pubs t s frag xs).Sublist (xs.map (times t s)) := by
  intro xs
  induction xs with
  | nil => intro frag; simp [pubs, publishLoop]
  | cons x xs ih =>
    intro frag
    obtain ⟨i1, i2⟩ := ih (publishStep s.length s.tolerance frag (x.composition + t.offset + s.shift : Int)).1
    simp only [pubs, List.map_cons, publishLoop]
    cases hp : publishStep s.length s.tolerance frag (x.composition + t.offset + s.shift : Int) with
    | mk l b =>
      rw [hp] at i1 i2
      have hp' : publishStep s.length s.tolerance frag (times t s x).2 = (l, b) := hp
      rw [hp']
      cases b with
      | true => simp only [if_true, List.map_cons, i1]; exact ⟨by simp, i2.cons_cons _⟩
      | false => simp only [Bool.false_eq_true, if_false, i1]; exact ⟨by simp, i2.cons _⟩

theorem nextTime_at {t : Track} {xs : List Sample} (hold : Holds t xs) {u u' : Nat} {x : Sample} (hx : x ∈ keys xs)
    (h : nextIframe t u = some (x.number, u')) : nextTime t u = some (x.composition, u') := by
  rw [nextTime, h]
  simp [(key_times hold hx).1]

/-- the loop from a key frame on -/
theorem moveLoop_eq {b : TrackBoxes} {t : Track} {es : List (Nat × Nat)} {ns : List Nat} (hb : Timed b t es) (hs : Synced b ns)
    {xs : List Sample} (hold : Holds t xs) (s : Setup) : ∀ (post pre : List Sample) (k : Sample) (u : Nat) (last : Option Nat) (frag : Option Int)
    (fuel : Nat), keys xs = pre ++ k :: post → At u k.number (post.map (·.number)) → (k :: post).Pairwise (fun a b => a.composition < b.composition) →
    (last = none ∨ last.getD 0 < k.composition) → post.length + 1 < fuel →
    moveLoop t s fuel k.composition last u frag =
      .ok (pubs t s frag ((k :: post).filter fun x => decide (x.composition < s.stop)),
        (((k :: post).filter fun x => decide (x.composition < s.stop)).getLast?.map (·.composition)).or last) := by
  have hkn := keys_numbers hb hs hold
  obtain ⟨q, ns', rfl, hmap, hst, hif⟩ := synced_map hb hs
  intro post
  induction post with
  | nil =>
    intro pre k u last frag fuel hk hat hinc hl hf
    obtain ⟨fuel, rfl⟩ : ∃ f, fuel = f + 2 := ⟨fuel - 2, by simp at hf; omega⟩
    rw [hk] at hkn
    simp only [List.map_append, List.map_cons, List.map_nil] at hkn
    obtain ⟨u', n1, n2⟩ := (next_at hs.sorted hmap hkn.symm hat).2 rfl
    have hn := nextTime_at hold (by rw [hk]; simp) n1
    by_cases hc : k.composition < s.stop
    · rw [moveLoop, if_pos ⟨hc, hl⟩, hn]
      simp only [orThrow, bind, Except.bind]
      rw [moveLoop, if_neg (by simp)]
      simp [hc, pubs, times]
    · rw [moveLoop, if_neg (by simp [hc])]
      simp [hc, pubs]
  | cons c post ih =>
    intro pre k u last frag fuel hk hat hinc hl hf
    obtain ⟨fuel, rfl⟩ : ∃ f, fuel = f + 1 := ⟨fuel - 1, by omega⟩
    obtain ⟨i1, i2⟩ := List.pairwise_cons.1 hinc
    by_cases hc : k.composition < s.stop
    · rw [hk] at hkn
      simp only [List.map_append, List.map_cons] at hkn
      obtain ⟨u', n1, n2⟩ := (next_at hs.sorted hmap hkn.symm hat).1 _ _ rfl
      have hn := nextTime_at hold (by rw [hk]; simp) n1
      rw [moveLoop, if_pos ⟨hc, hl⟩, hn]
      simp only [orThrow, bind, Except.bind]
      have := ih (pre ++ [k]) c u' (some k.composition) (publishStep s.length s.tolerance frag (k.composition + t.offset + s.shift : Int)).1 fuel
        (by rw [hk]; simp) n2 i2 (.inr (i1 c (by simp))) (by simp at hf; omega)
      rw [this]
      have hfil : (k :: c :: post).filter (fun x => decide (x.composition < s.stop)) =
          k :: (c :: post).filter (fun x => decide (x.composition < s.stop)) := List.filter_cons_of_pos (by simpa using hc)
      rw [hfil, List.getLast?_cons]
      generalize (c :: post).filter (fun x => decide (x.composition < s.stop)) = fl
      cases fl.getLast? <;> simp [pubs, times]
    · have hnil : (k :: c :: post).filter (fun x => decide (x.composition < s.stop)) = [] := by
        rw [List.filter_eq_nil_iff]
        intro x hx
        rcases List.mem_cons.1 hx with rfl | hx
        · simpa using hc
        · have := i1 x hx; simp; omega
      rw [moveLoop, if_neg (by simp [hc]), hnil]
      simp [pubs]

/-- C147. For every track with a key frame table whose key frames are presented one after the other, every `start` and `stop`, every segment length and tolerance below it: there is a key frame `k`, the last one decoded by `start`
(or the first of the track), such that with `seen` the key frames from `k` on presented before `stop`, the loop ends, the first of `seen` is published, whatever is published is one of `seen` with its own time, published times are
at least the length less the tolerance apart, and every key frame of `seen` is published or is less than that after one that is. The next read starts at the last of `seen`. -/
theorem key_frames_published {b : TrackBoxes} {t : Track} {es : List (Nat × Nat)} {ns : List Nat} (hb : Timed b t es) (hs : Synced b ns)
    {xs : List Sample} (hold : Holds t xs) (hinc : (keys xs).Pairwise (fun a b => a.composition < b.composition))
    (s : Setup) (h0 : s.tolerance ≤ s.length) (start fuel : Nat) (hst : start * t.scale < 2 ^ 64)
    (hf : (keys xs).length + 1 < fuel) :
    ∃ pre k post pts, keys xs = pre ++ k :: post ∧ (pre = [] ∨ k.decoding ≤ start) ∧ (∀ y ∈ post, start ≤ y.decoding) ∧
      let seen := (k :: post).filter fun x => decide (x.composition < s.stop)
      moveToRead t s start fuel = .ok (pts, seen.getLast?.map (·.composition)) ∧
      pts.head? = seen.head?.map (fun x => (x.composition, (x.composition + t.offset + s.shift : Int))) ∧
      (pts.map (·.1)).Sublist (seen.map (·.composition)) ∧ (∀ p ∈ pts, p.2 = p.1 + t.offset + s.shift) ∧
      pts.Pairwise (fun p q => p.1 + (s.length - s.tolerance) ≤ q.1) ∧
      ∀ y ∈ seen, ∃ p ∈ pts, p.1 = y.composition ∨ (p.1 < y.composition ∧ y.composition < p.1 + (s.length - s.tolerance)) := by
  obtain ⟨pre, k, post, u, e1, e2, e3, e4, e5⟩ := iframeAt_start hb hs hold start hst
  have hinc' : (k :: post).Pairwise (fun a b => a.composition < b.composition) := by
    rw [e1] at hinc; exact (List.pairwise_append.1 hinc).2.1
  have hloop := moveLoop_eq hb hs hold s post pre k u none none fuel e1 e3 hinc' (.inl rfl) (by rw [e1] at hf; simp at hf; omega)
  have hmem : ∀ y ∈ k :: post, y ∈ keys xs := by intro y hy; rw [e1]; exact List.mem_append_right _ hy
  refine ⟨pre, k, post, pubs t s none ((k :: post).filter fun x => decide (x.composition < s.stop)), e1, e4, e5, ?_⟩
  · simp only
    rw [moveToRead, e2]
    simp only [orThrow, bind, Except.bind]
    rw [(key_times hold (hmem k (by simp))).1]
    simp only
    rw [hloop]
    simp only [Option.or_none]
    generalize hseen : (k :: post).filter (fun x => decide (x.composition < s.stop)) = seen
    have hsinc : seen.Pairwise (fun a b => a.composition < b.composition) := by
      rw [← hseen]; exact hinc'.sublist List.filter_sublist
    obtain ⟨p1, p2⟩ := pubs_times t s seen none
    obtain ⟨l1, _, l3, l4⟩ := publishLoop_spec s.length s.tolerance (by omega) (seen.map fun x => (times t s x).2) none (by
      rw [List.pairwise_map]
      exact hsinc.imp (fun h => by simp only [times]; omega))
    rw [← p1] at l1 l3 l4
    have hpt : ∀ p ∈ pubs t s none seen, p.2 = p.1 + t.offset + s.shift := by
      intro p hp
      obtain ⟨x, _, rfl⟩ := List.mem_map.1 (p2.subset hp)
      rfl
    refine ⟨trivial, ?_, ?_, hpt, ?_, ?_⟩
    · cases seen with
      | nil => rfl
      | cons x seen => simp [pubs, publishStep, times]
    · have := p2.map (·.1)
      rw [List.map_map] at this
      exact this
    · rw [List.pairwise_map] at l3
      refine l3.imp_of_mem ?_
      intro p q hp hq h
      have := hpt p hp; have := hpt q hq
      omega
    · intro y hy
      rcases l4 (times t s y).2 (List.mem_map_of_mem (f := fun x => (times t s x).2) hy) with h | ⟨z, h, h2, h3⟩ | ⟨l, hl, _⟩
      · obtain ⟨p, hp, h⟩ := List.mem_map.1 h
        have := hpt p hp
        exact ⟨p, hp, .inl (by simp only [times] at h; omega)⟩
      · obtain ⟨p, hp, rfl⟩ := List.mem_map.1 h
        have := hpt p hp
        simp only [times] at h2 h3
        exact ⟨p, hp, .inr (by omega)⟩
      · simp at hl

-- non-vacuity: the video of module Reader, groups presented at 0.04 and 0.2 s
example : (keys exVS).map (·.composition) = [400000, 2000000] ∧ (keys exVS).Pairwise (fun a b => a.composition < b.composition) ∧
    Timed exV exVT [(8, 40)] ∧ Synced exV [0, 4] ∧ Holds exVT exVS :=
  ⟨by decide +kernel, by decide +kernel, ex_facts.2.2.2.2.1, ex_facts.2.2.2.2.2.1, by
    have h := ex_facts.1
    cases h with | cons h _ => exact h⟩

/-- the result as an option, to be computed -/
def outcome {α : Type} : Res α → Option α
  | .ok a => some a
  | .error _ => none

/-- four groups of two frames of 1 s -/
def exG : TrackBoxes := { sm := exSm 8, stts := [1, 8, 1000], stss := some [4, 1, 3, 5, 7], scale := 1000, visual := true }
def opened (b : TrackBoxes) : Track := (openTrack b).getD ⟨exSm 0, [], [], false, [], false, [], 0, 0, 1, 0, 0, false, false⟩
example : outcome (moveToRead (opened exG) ⟨40000000, 0, 0, 80000000⟩ 25000000 6) = some ([(20000000, 20000000), (60000000, 60000000)], some 60000000) ∧
    outcome (moveToRead (opened exG) ⟨10000000, 0, 5, 60000000⟩ 0 6) = some ([(0, 5), (20000000, 20000005), (40000000, 40000005)], some 40000000) := by
  decide +kernel

/-- three key frames, the second of which is presented 2.5 s late, after the third -/
def exSwap : TrackBoxes :=
  { sm := exSm 6, stts := [1, 6, 1000], ctts := some [3, 2, 0, 1, 2500, 3, 0], stss := some [3, 1, 3, 5], scale := 1000, visual := true }

/-- Without increasing presentation times of the key frames the walk ends at the first one that goes back: the third is never seen. -/
theorem swapped_witness : outcome (moveToRead (opened exSwap) ⟨10000000, 0, 0, 80000000⟩ 0 6) = some ([(0, 0), (45000000, 45000000)], some 45000000) := by
  decide +kernel

end Verif.Gop
