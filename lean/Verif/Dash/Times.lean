import Verif.Dash.Lemmas
namespace Verif.Dash
open Verif.Reader Verif.Reader.Spec Verif.Tables
open Verif.Tables.Spec (expand)
open Spec (CutAt)

theorem toAdded_plain {b : TrackBoxes} {t : Track} {es : List (Nat × Nat)} (h : Timed b t es) (hc : b.ctts = none) : toAdded t = fun x => x := by
  obtain ⟨_, _, hcc⟩ := timed_comps h hc
  funext x
  simp [toAdded, hcc]

/-- what is cut out of a track -/
theorem cut_added (r : Reader) (xss : List (List Sample)) (h : FileHolds r xss) (ht : HasTimes r) (hin : Inside xss r.mdatEnd) (hmax : r.mdatEnd < 2 ^ 64 - 1) (id : Nat) (b : TrackBoxes)
    (t : Track) (p : Nat) (es : List (Nat × Nat)) (hb : Timed b t es) (hid : r.streams[id]? = some (t, p)) (xs : List Sample) (hxs : xss[id]? = some xs)
    (hfit : ∀ x ∈ xs, pres t x < 2 ^ 64) (start stop : Nat) (hstart : start < 2 ^ 64) (hcut : CutAt b t xs start stop) (base : Option Nat) :
    ∃ dec, Verif.Reader.addFrames r id start stop base = some ((window t start stop xs).map (toAdded t), dec) := by
  rcases hcut with ⟨hctts, hstss⟩ | ⟨helst, ⟨ns, hs⟩, hgop, hstop⟩
  · rw [toAdded_plain hb hctts, List.map_id']
    exact fragment_audio r xss h ht hin hmax id b t p es hb hctts hstss hid xs hxs hfit start stop hstart base
  · obtain ⟨a, ha, hold⟩ := forall₂_get h id xs hxs
    rw [hid] at ha; simp at ha; subst ha
    obtain ⟨_, _, _, _, hif⟩ := synced_map hb hs
    obtain ⟨_, _, _, _, _, _, _, _, _, _, _, _, _, hel, _⟩ := openTrack_fields hb.opened
    have hoff : t.offset = 0 := by simp [Track.offset, hel, helst, hns]
    obtain ⟨J, z, j1, j2, j3, j4, j5, j6⟩ := hgop
    obtain ⟨K, x, m, k1, k2, k3, k4, k5, k6, k7, k8, _⟩ := move_sync hb hs hold start p
    have hKJ : K ≤ J := by
      apply Classical.byContradiction
      intro hcon
      rcases k5 with k5 | k5
      · have := j6 K x (by omega) k3 k4; omega
      · obtain ⟨_, hy3⟩ := holds_dec hold J z j1
        rw [hif.2 J, j2] at hy3
        have := k5 J (by simpa using hy3)
        omega
    have := addFrames_from r xss h ht hin hmax id t p hid xs hxs hfit start stop base K x k1 k3 m (k7 _)
    simp only at this
    rw [take_filter_window t start stop _ (separates_drop hstop m),
      window_drop t start stop m xs (fun i x hi hx => j4 i x (by omega) hx)] at this
    exact ⟨_, this⟩

theorem cut_separates (r : Reader) (xss : List (List Sample)) (h : FileHolds r xss) (id : Nat) (b : TrackBoxes) (t : Track) (p : Nat) (es : List (Nat × Nat)) (hb : Timed b t es)
    (hid : r.streams[id]? = some (t, p)) (xs : List Sample) (hxs : xss[id]? = some xs) (start stop : Nat) (hcut : CutAt b t xs start stop) :
    Separates t start xs ∧ Separates t stop xs := by
  obtain ⟨a, ha, hold⟩ := forall₂_get h id xs hxs
  rw [hid] at ha; simp at ha; subst ha
  rcases hcut with ⟨hctts, hstss⟩ | ⟨helst, hs, hgop, hstop⟩
  · exact ⟨plain_separates hb hctts hold _, plain_separates hb hctts hold _⟩
  · exact ⟨gop_separates hgop, hstop⟩

/-- what is cut out is a part of the track without gaps -/
theorem window_part (t : Track) (start stop : Nat) : ∀ (xs : List Sample), Separates t start xs → Separates t stop xs →
    ∃ i n, window t start stop xs = (xs.drop i).take n := by
  intro xs h1 h2
  have h3 := take_filter_window t start stop xs h2
  rw [← h3]
  obtain ⟨n, hn⟩ : ∃ n, xs.takeWhile (fun x => decide (pres t x < stop)) = xs.take n := by
    refine ⟨(xs.takeWhile (fun x => decide (pres t x < stop))).length, ?_⟩
    exact (List.prefix_iff_eq_take.mp (List.takeWhile_prefix _))
  rw [hn]
  have key : ∀ ys : List Sample, Separates t start ys → ∃ i, ys.filter (fun x => decide (start ≤ pres t x)) = ys.drop i := by
    intro ys
    induction ys with
    | nil => intro _; exact ⟨0, rfl⟩
    | cons y ys ih =>
      intro h
      obtain ⟨g1, g2⟩ := List.pairwise_cons.mp h
      by_cases hy : start ≤ pres t y
      · refine ⟨0, ?_⟩
        rw [List.drop_zero, List.filter_eq_self]
        intro a ha
        rcases List.mem_cons.mp ha with rfl | ha
        · simpa using hy
        · simpa using g1 a ha hy
      · obtain ⟨i, hi⟩ := ih g2
        refine ⟨i + 1, ?_⟩
        rw [List.filter_cons, if_neg (by simpa using hy), List.drop_succ_cons, hi]
  obtain ⟨i, hi⟩ := key (xs.take n) (List.Pairwise.sublist (List.take_sublist n xs) h1)
  exact ⟨i, n - i, by rw [hi, List.drop_take]⟩

theorem cttsInner_fixed (o : Nat) : ∀ (k : Nat) (s s' : CttsRd), cttsInner o k s = some s' →
    s'.comps.map (fun c => (c.decoding, c.duration)) = s.comps.map (fun c => (c.decoding, c.duration)) := by
  intro k
  induction k with
  | zero => intro s s' h; simp [cttsInner] at h; rw [h]
  | succ k ih =>
    intro s s' h
    rw [cttsInner] at h
    split at h
    · rename_i c hc
      split at h
      · simp at h
      · rw [ih _ _ h]
        simp only [List.map_set]
        apply List.ext_getElem?
        intro i
        rw [List.getElem?_set]
        split
        · rename_i hi
          subst hi
          have hlt := (List.getElem?_eq_some_iff.1 hc).1
          simp [hlt, (List.getElem?_eq_some_iff.1 hc).2]
        · rfl
    · exact (ih { s with n := s.n + 1 } _ h).trans rfl

theorem cttsOuter_fixed : ∀ (es : List (Nat × Nat)) (s s' : CttsRd), cttsOuter es s = some s' →
    s'.comps.map (fun c => (c.decoding, c.duration)) = s.comps.map (fun c => (c.decoding, c.duration)) := by
  intro es
  induction es with
  | nil => intro s s' h; simp [cttsOuter] at h; rw [h]
  | cons e es ih =>
    intro s s' h
    obtain ⟨k, o⟩ := e
    rw [cttsOuter] at h
    split at h
    · simp at h
    · rename_i s1 h1
      rw [ih _ _ h, cttsInner_fixed o k s s1 h1]

/-- decoding times and durations of the samples of an opened track -/
theorem timed_fixed {b : TrackBoxes} {t : Track} {es : List (Nat × Nat)} (h : Timed b t es) (i : Nat) (c : Comp) (hc : t.comps[i]? = some c) :
    (expand es)[i]? = some c.duration ∧ c.decoding = startOf (expand es) i := by
  obtain ⟨d, cc, f, h1, h2, _, h4, h5, h6, _⟩ := openTrack_fields h.opened
  obtain ⟨s, p1, p2, _⟩ := parse_stts_eq es []
  rw [show pairWords es ++ [] = b.stts by rw [h.stts, pairWords, List.append_nil], h1] at p1
  simp at p1; subst p1
  have hmap : t.comps.map (fun c => (c.decoding, c.duration)) = d.comps.map (fun c => (c.decoding, c.duration)) := by
    rw [h6]
    cases hc : b.ctts with
    | none => rw [hc] at h2; simp [openCtts] at h2; subst h2; rfl
    | some w =>
      rw [hc] at h2
      simp only [openCtts, Option.map_eq_some_iff] at h2
      obtain ⟨s, hs, rfl⟩ := h2
      simp only [parseCtts] at hs
      split at hs
      · simp at hs
      · split at hs
        · simp at hs
        · have := cttsOuter_fixed _ _ _ hs
          simpa using this
  have hg : (t.comps.map (fun c => (c.decoding, c.duration)))[i]? = some (c.decoding, c.duration) := by simp [hc]
  rw [hmap, p2, List.getElem?_map, compsOf_get] at hg
  cases hD : (expand es)[i]? with
  | none => rw [hD] at hg; simp at hg
  | some v =>
    rw [hD] at hg
    simp only [Option.map_some, Option.some.injEq, Prod.mk.injEq] at hg
    exact ⟨by rw [hg.2], hg.1.symm⟩

/-- a sample in terms of the time table -/
theorem sample_times {b : TrackBoxes} {t : Track} {es : List (Nat × Nat)} (hb : Timed b t es) {xs : List Sample} (hold : Holds t xs) (i : Nat) (x : Sample) (hx : xs[i]? = some x) :
    ∃ d, (expand es)[i]? = some d ∧ x.duration = hns d t.scale ∧ x.decoding = hns (startOf (expand es) i) t.scale := by
  have hn : i < xs.length := (List.getElem?_eq_some_iff.1 hx).1
  have h1 := hold i
  rw [hx, Track.pick, if_neg (by rw [holds_count hold]; omega)] at h1
  simp only [Option.bind_eq_bind, Option.bind_eq_some_iff, Option.pure_def, Option.some.injEq] at h1
  obtain ⟨_, _, _, _, _, _, c, hc, u, hu, f, hf, rfl⟩ := h1
  simp only [Track.decoding, Option.map_eq_some_iff] at hc
  obtain ⟨c, hc, rfl⟩ := hc
  simp only [Track.duration, Option.map_eq_some_iff] at hu
  obtain ⟨v, hv, rfl⟩ := hu
  obtain ⟨g1, g2⟩ := timed_fixed hb i v hv
  simp only [decodingTime, hv, Option.map_some, Option.some.injEq] at hc
  exact ⟨v.duration, g1, rfl, by rw [← hc, g2]⟩

theorem div_add (a b s : Nat) : a / s + b / s ≤ (a + b) / s ∧ (a + b) / s ≤ a / s + b / s + 1 := by
  rcases Nat.eq_zero_or_pos s with rfl | hs
  · simp
  · rw [Nat.add_div hs]
    split <;> omega

theorem hns_add (a b s : Nat) (h : 10000000 * (a + b) < 2 ^ 64) :
    hns a s + hns b s ≤ hns (a + b) s ∧ hns (a + b) s ≤ hns a s + hns b s + 1 ∧ (10000000 % s = 0 → hns (a + b) s = hns a s + hns b s) := by
  rw [hns_eq _ _ h, hns_eq a s (by omega), hns_eq b s (by omega), Nat.mul_add]
  have := div_add (10000000 * a) (10000000 * b) s
  refine ⟨this.1, this.2, ?_⟩
  intro hd
  rcases Nat.eq_zero_or_pos s with rfl | hs
  · simp
  · obtain ⟨q, hq⟩ := Nat.dvd_of_mod_eq_zero hd
    generalize hk : 10000000 = k at *
    subst hq
    rw [Nat.mul_assoc, Nat.mul_assoc, ← Nat.mul_add, Nat.mul_div_cancel_left _ hs, Nat.mul_div_cancel_left _ hs, Nat.mul_div_cancel_left _ hs]

/-- the rounding of the durations: what is lost over `k` samples -/
theorem drift (D : List Nat) (s : Nat) (hfits : 10000000 * D.sum < 2 ^ 64) (i : Nat) : ∀ k, i + k ≤ D.length →
    ∃ e, e ≤ k ∧ hns (startOf D (i + k)) s = hns (startOf D i) s + (((D.drop i).take k).map (hns · s)).sum + e ∧ (10000000 % s = 0 → e = 0) := by
  intro k
  induction k with
  | zero => intro _; exact ⟨0, Nat.le_refl _, by simp, fun _ => rfl⟩
  | succ k ih =>
    intro hk
    obtain ⟨e, e1, e2, e3⟩ := ih (by omega)
    have hg : D[i + k]? = some D[i + k] := List.getElem?_eq_getElem (by omega)
    have hs := startOf_succ D (i + k) _ hg
    have hle := startOf_le_sum D (i + k + 1)
    obtain ⟨a1, a2, a3⟩ := hns_add (startOf D (i + k)) D[i + k] s (by rw [← hs]; omega)
    rw [← hs] at a1 a2 a3
    have hsum : (((D.drop i).take (k + 1)).map (hns · s)).sum = (((D.drop i).take k).map (hns · s)).sum + hns D[i + k] s := by
      rw [List.take_add_one, List.getElem?_drop, hg]
      simp
    rw [hsum]
    refine ⟨hns (startOf D (i + k + 1)) s - hns (startOf D i) s - ((((D.drop i).take k).map (hns · s)).sum + hns D[i + k] s), by omega, ?_, ?_⟩
    · show hns (startOf D (i + k + 1)) s = _
      omega
    · intro hd
      have := e3 hd
      have := a3 hd
      omega

end Verif.Dash
