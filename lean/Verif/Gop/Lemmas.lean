import Verif.Gop.Model
import Verif.Gop.Spec
import Verif.Reader.PropsFrames
/-
The walk over the table of key frames.
-/
namespace Verif.Gop
open Verif.Tables Verif.RangeMap Verif.Reader Verif.Reader.Spec Verif.Gop.Spec
open Verif.Tables.Spec (expand)
open Verif.Publish (Res Stop orThrow)

/-- the place in the table while at key frame `k`, with `r` after it -/
def At (u k : Nat) (r : List Nat) : Prop := u = match r with | [] => k + 1 | c :: _ => c - 1

theorem iframe_find_at (ns : List Nat) : ∀ (prev : Nat), (prev :: ns).Pairwise (· < ·) → ∀ (q : Nat) (e : Nat × Nat),
    (iframeMap prev ns).find? (fun e => decide (q ≤ e.1)) = some e →
    ∃ a r, prev :: ns = a ++ e.2 :: r ∧ At e.1 e.2 r ∧ (a = [] ∨ e.2 ≤ q) ∧ ∀ n ∈ r, q < n := by
  induction ns with
  | nil =>
    intro prev _ q e he
    simp [iframeMap] at he
    obtain ⟨_, rfl⟩ := he
    exact ⟨[], [], by simp, rfl, .inl rfl, by simp⟩
  | cons m ms ih =>
    intro prev h q e he
    obtain ⟨h1, h2⟩ := List.pairwise_cons.1 h
    have hpm := h1 m (by simp)
    by_cases hk : q ≤ m - 1
    · simp [iframeMap, List.find?_cons, hk] at he
      subst he
      refine ⟨[], m :: ms, by simp, rfl, .inl rfl, ?_⟩
      intro n hn
      rcases List.mem_cons.1 hn with rfl | hn
      · omega
      · have := (List.pairwise_cons.1 h2).1 n hn; omega
    · simp only [iframeMap, List.find?_cons, hk, decide_false] at he
      obtain ⟨a, r, g1, g2, g3, g4⟩ := ih m h2 q e he
      refine ⟨prev :: a, r, by rw [g1]; rfl, g2, .inr ?_, g4⟩
      rcases g3 with rfl | g3
      · simp only [List.nil_append, List.cons.injEq] at g1; omega
      · exact g3

/-- the key frame found for a sample number, with the place in the table -/
theorem iframe_get_at (prev : Nat) (ns : List Nat) (h : (prev :: ns).Pairwise (· < ·)) (q : Nat) :
    ∃ u k a r, (get (iframeMap prev ns) q).map (fun r => (r.2.2, r.2.1)) = some (k, u) ∧ prev :: ns = a ++ k :: r ∧ At u k r ∧
      (a = [] ∨ k ≤ q) ∧ ∀ n ∈ r, q < n := by
  obtain ⟨a, ha⟩ : ∃ a, (iframeMap prev ns).head? = some a := by
    cases hh : (iframeMap prev ns).head? with
    | none => exact absurd (by simpa using hh) (iframeMap_ne prev ns)
    | some a => exact ⟨a, rfl⟩
  have hz := iframeMap_last prev ns
  rw [range_map_first _ q (iframeMap_sorted ns prev h) a _ ha hz]
  have hfind : q ≤ a.1 → (iframeMap prev ns).find? (fun e => decide (q ≤ e.1)) = some a := by
    intro hk
    cases hm : iframeMap prev ns with
    | nil => rw [hm] at ha; simp at ha
    | cons x xs => rw [hm] at ha; simp at ha; subst ha; simp [List.find?_cons, hk]
  split
  · rename_i hlt
    obtain ⟨b, r, g1, g2, g3, g4⟩ := iframe_find_at ns prev h q a (hfind (by omega))
    exact ⟨a.1, a.2, b, r, rfl, g1, g2, g3, g4⟩
  · split
    · rename_i hlt
      refine ⟨_, _, (prev :: ns).dropLast, [], rfl, (List.dropLast_append_getLast (by simp)).symm, rfl, .inr ?_, by simp⟩
      simp only at hlt ⊢
      omega
    · rename_i h1 h2
      cases hf : (iframeMap prev ns).find? (fun e => decide (q ≤ e.1)) with
      | none =>
        exfalso
        rw [List.find?_eq_none] at hf
        have := hf _ (List.mem_of_getLast? hz)
        simp at this; omega
      | some e =>
        obtain ⟨b, r, g1, g2, g3, g4⟩ := iframe_find_at ns prev h q e hf
        exact ⟨e.1, e.2, b, r, rfl, g1, g2, g3, g4⟩

theorem split_unique {l : List Nat} (h : l.Pairwise (· < ·)) {q k k' : Nat} {a r a' r' : List Nat} (h1 : l = a ++ k :: r) (h2 : l = a' ++ k' :: r')
    (g1 : a = [] ∨ k ≤ q) (g2 : ∀ n ∈ r, q < n) (g3 : a' = [] ∨ k' ≤ q) (g4 : ∀ n ∈ r', q < n) : k = k' ∧ r = r' := by
  induction l generalizing a a' with
  | nil => simp at h1
  | cons x l ih =>
    obtain ⟨hx, hl⟩ := List.pairwise_cons.1 h
    cases a with
    | nil =>
      simp only [List.nil_append, List.cons.injEq] at h1
      obtain ⟨rfl, rfl⟩ := h1
      cases a' with
      | nil => simp only [List.nil_append, List.cons.injEq] at h2; exact ⟨h2.1, h2.2⟩
      | cons y a' =>
        simp only [List.cons_append, List.cons.injEq] at h2
        have := g2 k' (by rw [h2.2]; simp)
        simp at g3; omega
    | cons y a =>
      simp only [List.cons_append, List.cons.injEq] at h1
      simp only [reduceCtorEq, false_or] at g1
      cases a' with
      | nil =>
        simp only [List.nil_append, List.cons.injEq] at h2
        have := g4 k (by rw [← h2.2, h1.2]; simp)
        omega
      | cons y' a' =>
        simp only [List.cons_append, List.cons.injEq] at h2
        simp only [reduceCtorEq, false_or] at g3
        exact ih hl h1.2 h2.2 (.inr g1) (.inr g3)

/-- the next key frame: the following one, or the last one again -/
theorem next_at {t : Track} {prev : Nat} {ns : List Nat} (h : (prev :: ns).Pairwise (· < ·)) (hm : t.iframes = iframeMap prev ns) {u k : Nat}
    {a r : List Nat} (hs : prev :: ns = a ++ k :: r) (hat : At u k r) :
    (∀ c r', r = c :: r' → ∃ u', nextIframe t u = some (c, u') ∧ At u' c r') ∧
    (r = [] → ∃ u', nextIframe t u = some (k, u') ∧ At u' k []) := by
  obtain ⟨u', k', a', r', g1, g2, g3, g4, g5⟩ := iframe_get_at prev ns h (u + 1)
  constructor
  · rintro c r2 rfl
    have hkc : k < c := by
      rw [hs] at h
      exact (List.pairwise_cons.1 (List.pairwise_append.1 h).2.1).1 c (by simp)
    have hu : u + 1 = c := by simp only [At] at hat; omega
    have hcr : ∀ n ∈ r2, u + 1 < n := by
      rw [hs] at h
      have := (List.pairwise_cons.1 (List.pairwise_cons.1 (List.pairwise_append.1 h).2.1).2).1
      intro n hn; have := this n hn; omega
    obtain ⟨e1, e2⟩ := split_unique h (k := c) (a := a ++ [k]) (r := r2) (by rw [hs]; simp) g2 (.inr (by omega)) hcr g4 g5
    subst e1 e2
    exact ⟨u', by rw [nextIframe, hm, g1], g3⟩
  · rintro rfl
    have hu : u = k + 1 := hat
    obtain ⟨e1, e2⟩ := split_unique h (k := k) (a := a) (r := []) hs g2 (.inr (by omega)) (by simp) g4 g5
    subst e1 e2
    exact ⟨u', by rw [nextIframe, hm, g1], g3⟩

/-! ### key frames as samples -/

theorem sorted_ext : ∀ (l m : List Nat), l.Pairwise (· < ·) → m.Pairwise (· < ·) → (∀ n, n ∈ l ↔ n ∈ m) → l = m := by
  intro l
  induction l with
  | nil =>
    intro m _ _ h
    cases m with
    | nil => rfl
    | cons y m => have := (h y).2 (by simp); simp at this
  | cons x l ih =>
    intro m hl hm h
    cases m with
    | nil => have := (h x).1 (by simp); simp at this
    | cons y m =>
      obtain ⟨l1, l2⟩ := List.pairwise_cons.1 hl
      obtain ⟨m1, m2⟩ := List.pairwise_cons.1 hm
      have hxy : x = y := by
        have a1 := (h x).1 (by simp)
        have a2 := (h y).2 (by simp)
        rcases List.mem_cons.1 a1 with e | e
        · exact e
        · rcases List.mem_cons.1 a2 with e' | e'
          · exact e'.symm
          · have := m1 x e; have := l1 y e'; omega
      subst hxy
      rw [ih m l2 m2]
      intro n
      constructor
      · intro hn
        rcases List.mem_cons.1 ((h n).1 (List.mem_cons_of_mem _ hn)) with e | e
        · subst e; have := l1 n hn; omega
        · exact e
      · intro hn
        rcases List.mem_cons.1 ((h n).2 (List.mem_cons_of_mem _ hn)) with e | e
        · subst e; have := m1 n hn; omega
        · exact e

/-- the key frames of the samples are those of the table -/
theorem keys_numbers {b : TrackBoxes} {t : Track} {es : List (Nat × Nat)} {ns : List Nat} (hb : Timed b t es) (hs : Synced b ns)
    {xs : List Sample} (hold : Holds t xs) : (keys xs).map (·.number) = ns := by
  obtain ⟨q, ns', _, _, _, hif⟩ := synced_map hb hs
  have hnum : xs.map (·.number) = List.range xs.length := by
    apply List.ext_getElem?
    intro i
    by_cases hi : i < xs.length
    · obtain ⟨_, _, _, h⟩ := holds_comp hold i _ (List.getElem?_eq_getElem hi)
      simp [hi, h]
    · simp [hi]
  have hsub : ((keys xs).map (·.number)).Sublist (List.range xs.length) := by rw [← hnum]; exact List.filter_sublist.map _
  apply sorted_ext _ _ (List.pairwise_lt_range.sublist hsub) hs.sorted
  intro n
  obtain ⟨hdec, hcount, hscale, hlen⟩ := timed_dec hb
  have hxl : xs.length = (expand es).length := by rw [← holds_count hold, hcount]
  constructor
  · intro h
    obtain ⟨x, hx, rfl⟩ := List.mem_map.1 h
    obtain ⟨h1, h2⟩ := List.mem_filter.1 hx
    obtain ⟨i, hi, rfl⟩ := List.mem_iff_getElem.1 h1
    obtain ⟨_, _, _, e⟩ := holds_comp hold i _ (List.getElem?_eq_getElem hi)
    obtain ⟨_, f⟩ := holds_dec hold i _ (List.getElem?_eq_getElem hi)
    rw [hif i, h2] at f
    rw [e]
    simpa using f
  · intro h
    have hi : n < xs.length := by have := hs.inside n h; rw [hb.count] at this; omega
    obtain ⟨_, _, _, e⟩ := holds_comp hold n _ (List.getElem?_eq_getElem hi)
    obtain ⟨_, f⟩ := holds_dec hold n _ (List.getElem?_eq_getElem hi)
    refine List.mem_map.2 ⟨xs[n], List.mem_filter.2 ⟨List.getElem_mem _, ?_⟩, e⟩
    rw [hif n] at f
    have := Option.some.inj f
    rw [← this]
    exact decide_eq_true h

/-- a key frame of the samples, as the track knows it -/
theorem key_times {t : Track} {xs : List Sample} (hold : Holds t xs) {x : Sample} (hx : x ∈ keys xs) :
    t.composition x.number = some x.composition ∧ t.decoding x.number = some x.decoding := by
  obtain ⟨h1, _⟩ := List.mem_filter.1 hx
  obtain ⟨i, hi, rfl⟩ := List.mem_iff_getElem.1 h1
  obtain ⟨c, c1, c2, c3⟩ := holds_comp hold i _ (List.getElem?_eq_getElem hi)
  obtain ⟨⟨d, d1, d2⟩, _⟩ := holds_dec hold i _ (List.getElem?_eq_getElem hi)
  simp [Track.composition, Track.decoding, c1, c2, c3, d1, d2]

/-- the key frame found for a time -/
theorem iframeAt_spec {b : TrackBoxes} {t : Track} {es : List (Nat × Nat)} {ns : List Nat} (hb : Timed b t es) (hs : Synced b ns)
    {xs : List Sample} (hold : Holds t xs) (time : Nat) :
    ∃ pre k post u, keys xs = pre ++ k :: post ∧ iframeAt t time = some (k.number, u) ∧ At u k.number (post.map (·.number)) ∧
      (pre = [] ∨ startOf (expand es) k.number ≤ raw time t.scale) ∧ (∀ y ∈ post, raw time t.scale < startOf (expand es) y.number) := by
  obtain ⟨hdec, hcount, hscale, hlen⟩ := timed_dec hb
  have hkn := keys_numbers hb hs hold
  obtain ⟨q, ns', rfl, hmap, hst, hif⟩ := synced_map hb hs
  obtain ⟨_, _, _, _, _, _, hsm, _, _, _, _, _, _, _, _, _, _⟩ := openTrack_fields hb.opened
  have hfits := hb.fits
  obtain ⟨m, hm, hmiff⟩ := decoding_number es hb.ne hb.pos (raw time t.scale) (by omega) (raw_lt _ _)
  obtain ⟨u, k, a, r, g1, g2, g3, g4, g5⟩ := iframe_get_at q ns' hs.sorted m
  have hin : ∀ n ∈ q :: ns', n < (expand es).length := by
    intro n hn; have := hs.inside n hn; rw [hb.count] at this; exact this
  rw [g2] at hkn
  obtain ⟨pre, rest, e1, e2, e3⟩ := List.map_eq_append_iff.1 hkn
  obtain ⟨x, post, e4, e5, e6⟩ := List.map_eq_cons_iff.1 e3
  subst e4
  refine ⟨pre, x, post, u, e1, ?_, ?_, ?_, ?_⟩
  · rw [iframeAt, hdec, hm]; simp only; rw [hmap, g1, e5]
  · rw [e5, e6]; exact g3
  · rcases g4 with rfl | g4
    · left; simpa using e2
    · right
      rw [e5]
      exact (hmiff k (hin k (by rw [g2]; simp))).2 g4
  · intro y hy
    have hyr : y.number ∈ r := by rw [← e6]; exact List.mem_map_of_mem hy
    have hlt := g5 _ hyr
    by_contra hcon
    have := (hmiff y.number (hin _ (by rw [g2]; simp [hyr]))).1 (by omega)
    omega

/-- the key frame found for a time, in the times of the samples -/
theorem iframeAt_start {b : TrackBoxes} {t : Track} {es : List (Nat × Nat)} {ns : List Nat} (hb : Timed b t es) (hs : Synced b ns)
    {xs : List Sample} (hold : Holds t xs) (start : Nat) (hst : start * t.scale < 2 ^ 64) :
    ∃ pre k post u, keys xs = pre ++ k :: post ∧ iframeAt t start = some (k.number, u) ∧ At u k.number (post.map (·.number)) ∧
      (pre = [] ∨ k.decoding ≤ start) ∧ ∀ y ∈ post, start ≤ y.decoding := by
  obtain ⟨hdec, hcount, hscale, hlen⟩ := timed_dec hb
  have hspos : 0 < t.scale := hscale ▸ hb.scale
  have hfits := hb.fits
  obtain ⟨pre, k, post, u, e1, e2, e3, e4, e5⟩ := iframeAt_spec hb hs hold start
  have hmem : ∀ y ∈ k :: post, y ∈ keys xs := by intro y hy; rw [e1]; exact List.mem_append_right _ hy
  have hstart : ∀ y ∈ k :: post, y.decoding = hns (startOf (expand es) y.number) t.scale ∧ 10000000 * startOf (expand es) y.number < 2 ^ 64 := by
    intro y hy
    obtain ⟨h1, _⟩ := List.mem_filter.1 (hmem y hy)
    obtain ⟨i, hi, rfl⟩ := List.mem_iff_getElem.1 h1
    obtain ⟨_, _, _, c3⟩ := holds_comp hold i _ (List.getElem?_eq_getElem hi)
    obtain ⟨⟨d, d1, d2⟩, _⟩ := holds_dec hold i _ (List.getElem?_eq_getElem hi)
    have hxl : xs.length = (expand es).length := by rw [← holds_count hold, hcount]
    rw [timed_decoding hb i (by omega)] at d1
    have := startOf_le_sum (expand es) i
    refine ⟨by rw [d2, c3]; simp at d1; rw [d1], by rw [c3]; omega⟩
  refine ⟨pre, k, post, u, e1, e2, e3, ?_, ?_⟩
  · rcases e4 with h | h
    · exact .inl h
    · right
      obtain ⟨g1, g2⟩ := hstart k (by simp)
      rw [g1]
      exact hns_le_of_le_raw _ _ _ hspos g2 h
  · intro y hy
    obtain ⟨g1, g2⟩ := hstart y (by simp [hy])
    have hr := e5 y hy
    rw [g1, hns_eq _ _ g2, Nat.le_div_iff_mul_le hspos]
    rw [raw, Nat.mod_eq_of_lt hst] at hr
    have := (Nat.div_lt_iff_lt_mul (by decide)).1 hr
    omega

end Verif.Gop
