import Verif.Reader.Lemmas
/-
C90: reading a file with `next_file_chunks` delivers everything once and in file order.
-/
namespace Verif.Reader
open Verif.Tables Verif.RangeMap Verif.Reader.Spec

theorem inside_set {ls : List (List Sample)} {e s : Nat} {l : List Sample} (h : Inside ls e) (hl : ls[s]? = some l) :
    Inside (ls.set s l.tail) e := by
  intro xs hxs x hx
  rcases List.mem_or_eq_of_mem_set hxs with h1 | h1
  · exact h xs h1 x hx
  · subst h1; exact h l (List.mem_of_getElem? hl) x (List.mem_of_mem_tail hx)

theorem length_set_tail {ls : List (List Sample)} {s : Nat} {l : List Sample} {x : Sample} (hl : ls[s]? = some l)
    (hx : l.head? = some x) : ((ls.set s l.tail).map List.length).sum + 1 = (ls.map List.length).sum := by
  induction ls generalizing s with
  | nil => simp at hl
  | cons a ls ih =>
    cases s with
    | zero =>
      simp at hl; subst hl
      cases a with
      | nil => simp at hx
      | cons y a => simp; omega
    | succ s =>
      simp only [List.getElem?_cons_succ] at hl
      have := ih hl
      simp only [List.set_cons_succ, List.map_cons, List.sum_cons]
      omega

theorem set_get {ls : List (List Sample)} {s i : Nat} {l k : List Sample} (hl : ls[s]? = some l)
    (hk : ls[i]? = some k) : (ls.set s l.tail)[i]? = some (if s = i then k.tail else k) := by
  rw [List.getElem?_set]
  have : s < ls.length := (List.getElem?_eq_some_iff.1 hl).1
  split
  · rename_i h; subst h; rw [hl] at hk; simp at hk; subst hk; simp
  · exact hk

/-- delivery of all that is left -/
theorem readAll_rem : ∀ (fuel : Nat) (r : Reader) (ls : List (List Sample)), List.Forall₂ Rem r.streams ls →
    Inside ls r.mdatEnd → r.mdatEnd < max64 → (ls.map List.length).sum < fuel →
    ∃ out, readAll fuel r = some out ∧ (∀ o ∈ out, o.1 < ls.length) ∧
      ∀ i l, ls[i]? = some l → ofStream out i = l := by
  intro fuel
  induction fuel with
  | zero => intro r ls _ _ _ h; omega
  | succ fuel ih =>
    intro r ls h hin hmax hf
    rcases next_spec r ls h hin hmax with ⟨hall, r', e⟩ | ⟨s, l, x, r', e, e1, e2, _, e4, _, e6, _⟩
    · refine ⟨[], by simp [readAll, e], by simp, ?_⟩
      intro i l hl
      rw [hall l (List.mem_of_getElem? hl)]; rfl
    · have hlen := length_set_tail e1 e2
      obtain ⟨out, o1, o2, o3⟩ := ih r' (ls.set s l.tail) e6 (e4 ▸ inside_set hin e1) (e4 ▸ hmax) (by omega)
      refine ⟨(s, x) :: out, by simp [readAll, e, o1], ?_, ?_⟩
      · intro o ho
        rcases List.mem_cons.1 ho with rfl | ho
        · exact (List.getElem?_eq_some_iff.1 e1).1
        · simpa using o2 o ho
      · intro i k hk
        have := o3 i _ (set_get e1 hk)
        simp only [ofStream, List.filter_cons]
        by_cases hi : s = i
        · subst hi
          rw [e1] at hk; simp at hk; subst hk
          simp only [if_true, ofStream] at this
          simp only [decide_true, if_true, List.map_cons, this]
          cases l with
          | nil => simp at e2
          | cons y l => simp at e2; subst e2; rfl
        · simp only [hi, if_false, ofStream] at this
          simp only [hi, decide_false, if_false, Bool.false_eq_true, this]

theorem rem_of_holds {ss : List (Track × Nat)} {xss : List (List Sample)}
    (h : List.Forall₂ (fun s xs => Holds s.1 xs) ss xss) :
    List.Forall₂ Rem ss (List.zipWith (fun s xs => xs.drop s.2) ss xss) ∧ ss.length = xss.length ∧
      ((List.zipWith (fun s xs => xs.drop s.2) ss xss).map List.length).sum = remaining ss := by
  induction h with
  | nil => exact ⟨.nil, rfl, rfl⟩
  | @cons a b _ _ ha _ ih =>
    refine ⟨.cons ⟨b, ha, rfl⟩ ih.1, by simp [ih.2.1], ?_⟩
    have h3 := ih.2.2
    simp only [remaining] at h3
    simp only [remaining, List.zipWith_cons_cons, List.map_cons, List.sum_cons, h3, holds_count ha, List.length_drop]

/-- C90. For every file whose samples lie inside its media data, and from every position of its tracks: reading until
the reader says there is no more delivers, for each track, exactly the samples from its position on, each once and in
the order of the track, and nothing else. -/
theorem file_read_complete (r : Reader) (xss : List (List Sample)) (h : FileHolds r xss)
    (hin : Inside xss r.mdatEnd) (hmax : r.mdatEnd < 2 ^ 64 - 1) (fuel : Nat) (hf : remaining r.streams < fuel) :
    ∃ out, readAll fuel r = some out ∧ (∀ o ∈ out, o.1 < xss.length) ∧
      ∀ (i : Nat) (t : Track) (p : Nat) (xs : List Sample), r.streams[i]? = some (t, p) → xss[i]? = some xs →
        ofStream out i = xs.drop p := by
  obtain ⟨h1, h2, h3⟩ := rem_of_holds h
  obtain ⟨out, o1, o2, o3⟩ := readAll_rem fuel r _ h1 (by
    intro l hl x hx
    obtain ⟨i, hi, rfl⟩ := List.mem_iff_getElem.1 hl
    simp only [List.getElem_zipWith] at hx
    exact hin _ (List.getElem_mem _) x (List.mem_of_mem_drop hx)) (by simpa [max64] using hmax) (by omega)
  refine ⟨out, o1, ?_, ?_⟩
  · intro o ho; have := o2 o ho; simp at this; omega
  · intro i t p xs ht hx
    exact o3 i _ (by simp [List.getElem?_zipWith, ht, hx])

/-- nothing that is left lies before the current position -/
def Ahead (ls : List (List Sample)) (last : Nat) : Prop := ∀ l ∈ ls, ∀ x ∈ l, last ≤ x.offset

theorem readAll_order : ∀ (fuel : Nat) (r : Reader) (ls : List (List Sample)), List.Forall₂ Rem r.streams ls →
    Inside ls r.mdatEnd → r.mdatEnd < max64 → Disjoint ls → Ahead ls r.last →
    ∀ out, readAll fuel r = some out → (out.map (·.2)).Pairwise Before ∧
      ∀ o ∈ out, ∃ l ∈ ls, o.2 ∈ l := by
  intro fuel
  induction fuel with
  | zero => intro r ls _ _ _ _ _ out ho; simp [readAll] at ho; subst ho; simp
  | succ fuel ih =>
    intro r ls h hin hmax hdis hah out ho
    rcases next_spec r ls h hin hmax with ⟨hall, r', e⟩ | ⟨s, l, x, r', e, e1, e2, e3, e4, e5, e6, _⟩
    · simp [readAll, e] at ho; subst ho; simp
    · simp only [readAll, e, Option.map_eq_some_iff] at ho
      obtain ⟨out', ho', rfl⟩ := ho
      have hmem := List.mem_of_getElem? e1
      have hxl := List.mem_of_head? e2
      -- x is the first of what is left
      have hfirst : ∀ k ∈ ls, ∀ y ∈ k, x.offset ≤ y.offset := by
        intro k hk y hy
        rcases e3 with e3 | e3
        · rw [e3]; exact hah k hk y hy
        · obtain ⟨z, k', rfl⟩ := List.exists_cons_of_ne_nil (List.ne_nil_of_mem hy)
          have h1 := e3 _ hk z rfl
          rcases List.mem_cons.1 hy with rfl | hy
          · exact h1
          · have := (List.pairwise_cons.1 (hdis.1 _ hk)).1 y hy
            simp only [Before] at this; omega
      have hnew : ∀ k ∈ ls.set s l.tail, ∀ y ∈ k, x.offset + x.size ≤ y.offset := by
        intro k hk y hy
        obtain ⟨i, hi⟩ := List.mem_iff_getElem?.1 hk
        by_cases his : s = i
        · subst his
          rw [set_get e1 e1] at hi
          simp at hi; subst hi
          cases l with
          | nil => simp at e2
          | cons z l =>
            simp at e2; subst e2
            exact (List.pairwise_cons.1 (hdis.1 _ hmem)).1 y (by simpa using hy)
        · have hk' : ls[i]? = some k := by
            rw [List.getElem?_set] at hi; simpa [his] using hi
          have hky := hfirst k (List.mem_of_getElem? hk') y hy
          rcases hdis.2.2 s i l k his e1 hk' x hxl y hy with h1 | h1
          · exact h1
          · have := hdis.2.1 k (List.mem_of_getElem? hk') y hy
            simp only [Before] at h1; omega
      have hdis' : Disjoint (ls.set s l.tail) := by
        refine ⟨?_, ?_, ?_⟩
        · intro k hk
          rcases List.mem_or_eq_of_mem_set hk with h1 | h1
          · exact hdis.1 k h1
          · subst h1; exact (hdis.1 l hmem).sublist (List.tail_sublist l)
        · intro k hk y hy
          rcases List.mem_or_eq_of_mem_set hk with h1 | h1
          · exact hdis.2.1 k h1 y hy
          · subst h1; exact hdis.2.1 l hmem y (List.mem_of_mem_tail hy)
        · intro i j xs ys hij hi hj a ha b hb
          have sub : ∀ (i : Nat) (xs : List Sample), (ls.set s l.tail)[i]? = some xs →
              ∃ xs', ls[i]? = some xs' ∧ ∀ a ∈ xs, a ∈ xs' := by
            intro i xs hi
            by_cases his : s = i
            · subst his
              rw [set_get e1 e1] at hi; simp at hi; subst hi
              exact ⟨l, e1, fun a ha => List.mem_of_mem_tail ha⟩
            · rw [List.getElem?_set] at hi
              exact ⟨xs, by simpa [his] using hi, fun a ha => ha⟩
          obtain ⟨xs', p1, p2⟩ := sub i xs hi
          obtain ⟨ys', q1, q2⟩ := sub j ys hj
          exact hdis.2.2 i j xs' ys' hij p1 q1 a (p2 a ha) b (q2 b hb)
      obtain ⟨g1, g2⟩ := ih r' _ e6 (e4 ▸ inside_set hin e1) (e4 ▸ hmax) hdis' (e5 ▸ hnew) out' ho'
      refine ⟨?_, ?_⟩
      · rw [List.map_cons, List.pairwise_cons]
        refine ⟨?_, g1⟩
        intro y hy
        obtain ⟨o, ho, rfl⟩ := List.mem_map.1 hy
        obtain ⟨k, hk, hko⟩ := g2 o ho
        exact hnew k hk _ hko
      · intro o ho
        rcases List.mem_cons.1 ho with rfl | ho
        · exact ⟨l, hmem, hxl⟩
        · obtain ⟨k, hk, hko⟩ := g2 o ho
          rcases List.mem_or_eq_of_mem_set hk with h1 | h1
          · exact ⟨k, h1, hko⟩
          · subst h1; exact ⟨l, hmem, List.mem_of_mem_tail hko⟩

/-- C90. For every such file whose samples do not share bytes and whose tracks are stored in their own order: after a
move (or on opening) the samples are delivered in the order in which they lie in the file. -/
theorem file_read_in_order (r : Reader) (xss : List (List Sample)) (h : FileHolds r xss)
    (hin : Inside xss r.mdatEnd) (hmax : r.mdatEnd < 2 ^ 64 - 1) (hdis : Disjoint xss) (hlast : r.last = 0)
    (fuel : Nat) (out : List (Nat × Sample)) (hout : readAll fuel r = some out) :
    (out.map (·.2)).Pairwise Before := by
  obtain ⟨h1, h2, h3⟩ := rem_of_holds h
  have sub : ∀ (i : Nat) (l : List Sample), (List.zipWith (fun (s : Track × Nat) xs => xs.drop s.2) r.streams xss)[i]? = some l →
      ∃ xs n, xss[i]? = some xs ∧ l = xs.drop n := by
    intro i l hl
    rw [List.getElem?_zipWith] at hl
    cases hs : r.streams[i]? with
    | none => simp [hs] at hl
    | some s =>
      cases hx : xss[i]? with
      | none => simp [hs, hx] at hl
      | some xs => simp [hs, hx] at hl; exact ⟨xs, s.2, rfl, hl.symm⟩
  refine (readAll_order fuel r _ h1 ?_ (by simpa [max64] using hmax) ⟨?_, ?_, ?_⟩ ?_ out hout).1
  · intro l hl x hx
    obtain ⟨i, hi⟩ := List.mem_iff_getElem?.1 hl
    obtain ⟨xs, n, a, rfl⟩ := sub i l hi
    exact hin xs (List.mem_of_getElem? a) x (List.mem_of_mem_drop hx)
  · intro l hl
    obtain ⟨i, hi⟩ := List.mem_iff_getElem?.1 hl
    obtain ⟨xs, n, a, rfl⟩ := sub i l hi
    exact (hdis.1 xs (List.mem_of_getElem? a)).sublist (List.drop_sublist _ _)
  · intro l hl x hx
    obtain ⟨i, hi⟩ := List.mem_iff_getElem?.1 hl
    obtain ⟨xs, n, a, rfl⟩ := sub i l hi
    exact hdis.2.1 xs (List.mem_of_getElem? a) x (List.mem_of_mem_drop hx)
  · intro i j l k hij hi hj x hx y hy
    obtain ⟨xs, n, a, rfl⟩ := sub i l hi
    obtain ⟨ys, m, b, rfl⟩ := sub j k hj
    exact hdis.2.2 i j xs ys hij a b x (List.mem_of_mem_drop hx) y (List.mem_of_mem_drop hy)
  · rw [hlast]; intro l _ x _; exact Nat.zero_le _

/-! ### a concrete file: two tracks, interleaved by chunks -/

/-- Two chunks of two samples each at 100 and 130. -/
def exVideo : TrackBoxes :=
  { sm := ⟨[(4, ⟨2, 1, 0, 1⟩)], 0, 4, [10, 5, 7, 8], [100, 130]⟩, stts := pairWords [(4, 40)],
    stss := some [1, 1], scale := 1000, visual := true }

/-- Two chunks of one sample of 4 bytes at 115 and 145. -/
def exAudio : TrackBoxes :=
  { sm := ⟨[(2, ⟨1, 1, 0, 1⟩)], 4, 2, [], [115, 145]⟩, stts := pairWords [(2, 80)], scale := 1000 }

/-- The reader of a list of tracks, opened (mp4parse.h 2680-2700: positions and last offset 0). -/
def openReader (bs : List TrackBoxes) (mdatEnd : Nat) : Option Reader :=
  (bs.mapM openTrack).map (fun ts => { streams := ts.map (fun t => (t, 0)), mdatEnd })

/-- A concrete run: the file is delivered in file order and completely. -/
example : (openReader [exVideo, exAudio] 200).bind (readAll 10) =
    some [(0, ⟨100, 10, 0, 0, 400000, true, 0⟩), (0, ⟨110, 5, 400000, 400000, 400000, false, 1⟩),
      (1, ⟨115, 4, 0, 0, 800000, true, 0⟩),
      (0, ⟨130, 7, 800000, 800000, 400000, false, 2⟩), (0, ⟨137, 8, 1200000, 1200000, 400000, false, 3⟩),
      (1, ⟨145, 4, 800000, 800000, 800000, true, 1⟩)] := by decide +kernel

/-- The hypothesis `Inside` is needed: with media data that end before the last sample, that sample is not delivered. -/
theorem file_read_cut_witness :
    ((openReader [exVideo, exAudio] 148).bind (readAll 10)).map List.length = some 5 := by decide +kernel

end Verif.Reader
