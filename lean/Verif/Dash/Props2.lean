import Verif.Dash.Props
/-
C125: the times of the samples of a media segment.
-/
namespace Verif.Dash
open Verif.Reader (Track TrackBoxes Sample Reader toAdded baseTime hns)
open Verif.Reader.Spec (window pres Separates Timed Holds)
open Verif.Fragment (Frag scaled)
open Verif.Fragment.Spec (Run)
open Verif.Tables (startOf)
open Verif.Tables.Spec (expand)
open Spec

theorem play_get : ∀ (rs : List Run) (t : Int) (k : Nat),
    (play t rs)[k]? = rs[k]?.map fun r => (t + (((rs.take k).map fun r => r.duration.getD 0).sum : Nat), t + (((rs.take k).map fun r => r.duration.getD 0).sum : Nat) + r.offset.getD 0) := by
  intro rs
  induction rs with
  | nil => intro t k; simp [play]
  | cons r rs ih =>
    intro t k
    rw [play]
    cases k with
    | zero => simp
    | succ k =>
      rw [List.getElem?_cons_succ, List.getElem?_cons_succ, ih, List.take_succ_cons, List.map_cons, List.sum_cons]
      congr 1
      funext x
      simp only [Prod.mk.injEq]
      constructor <;> omega

/-- The times of a part of a track: the rounding of durations. -/
theorem part_times {b : TrackBoxes} {t : Track} {es : List (Nat × Nat)} (hb : Timed b t es) {xs : List Sample} (hold : Holds t xs) (i n k : Nat) (x first : Sample)
    (hx : ((xs.drop i).take n)[k]? = some x) (hf : ((xs.drop i).take n)[0]? = some first) :
    ∃ e, e ≤ k ∧ x.decoding = first.decoding + (((((xs.drop i).take n).take k)).map (·.duration)).sum + e ∧ (10000000 % t.scale = 0 → e = 0) := by
  have hkn : k < n := by
    apply Classical.byContradiction
    intro hc
    rw [List.getElem?_eq_none (by rw [List.length_take]; omega)] at hx
    simp at hx
  rw [List.getElem?_take, if_pos hkn, List.getElem?_drop] at hx
  rw [List.getElem?_take, if_pos (by omega), List.getElem?_drop, Nat.add_zero] at hf
  obtain ⟨d, d1, d2, d3⟩ := sample_times hb hold _ x hx
  obtain ⟨u, u1, u2, u3⟩ := sample_times hb hold _ first hf
  have hlen : i + k < (expand es).length := (List.getElem?_eq_some_iff.mp d1).1
  obtain ⟨e, e1, e2, e3⟩ := drift (expand es) t.scale hb.fits i k (by omega)
  refine ⟨e, e1, ?_, e3⟩
  rw [d3, u3, e2, List.take_take, Nat.min_eq_left (by omega)]
  congr 3
  apply List.ext_getElem?
  intro j
  rw [List.getElem?_map, List.getElem?_map, List.getElem?_take, List.getElem?_take, List.getElem?_drop, List.getElem?_drop]
  by_cases hj : j < k
  · rw [if_pos hj, if_pos hj]
    have hxl : i + k < xs.length := (List.getElem?_eq_some_iff.mp hx).1
    have hy := List.getElem?_eq_getElem (l := xs) (i := i + j) (by omega)
    obtain ⟨v, v1, v2, _⟩ := sample_times hb hold _ _ hy
    rw [hy, v1, Option.map_some, Option.map_some, v2]
  · rw [if_neg hj, if_neg hj]; rfl

theorem added_decoding (t : Track) (w : List Sample) (h : t.cttsCount = 1 → ∀ x ∈ w, x.decoding + t.cttsShift < 2 ^ 64) : ∃ c, ∀ x ∈ w, (toAdded t x).decoding = x.decoding + c := by
  by_cases hc : t.cttsCount = 1
  · refine ⟨t.cttsShift, ?_⟩
    intro x hx
    rw [toAdded, if_pos hc]
    exact Nat.mod_eq_of_lt (h hc x hx)
  · refine ⟨0, ?_⟩
    intro x _
    rw [toAdded, if_neg hc]
    rfl

/-- C125: in the time scale of 10 MHz, a player presents the first sample of a segment at the time asked for (the time in the name of the segment), and every other one at the distance it has from the
first in the source, early by less than 100 ns for each sample before it (by nothing if 10 MHz is a multiple of the time scale of the source). It decodes each of them at the same distance. -/
theorem segment_times_partial (ts : Nat → Nat) (E : List UInt8 → List UInt8) (hE : ∀ b, (E b).length = 16) (q : Request) (hscale : q.timescale = 10000000)
    (file : List UInt8) (r : Reader) (id : Nat) (b : TrackBoxes) (t : Track) (es : List (Nat × Nat)) (xs : List Sample) (hsrc : Source file r id b t es xs) (haudio : q.video = false → b.ctts = none)
    (start stop : Nat) (hgood : Good ts q b t xs start stop)
    (htimes : ∀ x ∈ window t start stop xs, x.duration < 2 ^ 32 ∧ x.composition < 2 ^ 63 ∧ (toAdded t x).decoding < 2 ^ 63 ∧
      -(2 ^ 31 : Int) ≤ (x.composition : Int) - (toAdded t x).decoding ∧ (x.composition : Int) - (toAdded t x).decoding < 2 ^ 31)
    (hshift : t.cttsCount = 1 → ∀ x ∈ window t start stop xs, x.decoding + t.cttsShift < 2 ^ 64)
    (first : Sample) (hf : (window t start stop xs)[0]? = some first) :
    ∃ seg s base, produce ts E q file r id start stop = some seg ∧ Fragment.Spec.segment seg = some s ∧ s.base = some base ∧
      ∀ k x, (window t start stop xs)[k]? = some x → ∃ e : Nat, e ≤ k ∧ (10000000 % t.scale = 0 → e = 0) ∧
        (play base s.runs)[k]? = some ((q.base.getD start : Int) + ((toAdded t x).decoding - first.composition) - e, (q.base.getD start : Int) + (pres t x - pres t first) - e) := by
  obtain ⟨seg, s, g1, g2, _, _, _, _, _, _, g9, g10⟩ := segment_all ts E hE q file r id b t es xs hsrc start stop hgood
  obtain ⟨_, _, _, _, _, _, hcut, hfirst, hsize⟩ := hgood
  obtain ⟨p, hid⟩ := hsrc.track
  obtain ⟨xss, hh, hin, hxs⟩ := hsrc.samples
  obtain ⟨a, ha, hold⟩ := Verif.Reader.forall₂_get hh id xs hxs
  rw [hid] at ha; simp at ha; subst ha
  obtain ⟨s1, s2⟩ := cut_separates r xss hh id b t p es hsrc.timed hid xs hxs start stop hcut
  obtain ⟨i, n, hpart⟩ := window_part t start stop xs s1 s2
  obtain ⟨c, hc⟩ := added_decoding t _ hshift
  have hsub : ∀ x ∈ window t start stop xs, x ∈ xs := fun x hx => window_sub t start stop xs x hx
  have hplain : q.video = false → ∀ x ∈ window t start stop xs, (toAdded t x).decoding = x.composition := by
    intro hv x hx
    obtain ⟨j, hj⟩ := List.mem_iff_getElem?.mp (hsub x hx)
    rw [toAdded_plain hsrc.timed (haudio hv)]
    obtain ⟨p1, _, _⟩ := Verif.Reader.plain_times hsrc.timed (haudio hv) hold j x hj
    obtain ⟨_, _, _, p2⟩ := sample_times hsrc.timed hold j x hj
    rw [p1, p2]
  clear hsize hcut s1 s2
  generalize hw : window t start stop xs = w at *
  have hhead : w.head? = some first := by rw [← hf]; cases w <;> rfl
  obtain ⟨o1, o2⟩ := hfirst.order first hhead
  have hbase : s.base = some (q.base.getD start - (first.composition - (toAdded t first).decoding)) := by
    rw [g9, hhead]; simp [scaled, hscale]
  refine ⟨seg, s, _, g1, g2, hbase, ?_⟩
  intro k x hx
  obtain ⟨e, e1, e2, e3⟩ := part_times hsrc.timed hold i n k x first (hpart ▸ hx) (hpart ▸ hf)
  rw [← hpart] at e2
  refine ⟨e, e1, e3, ?_⟩
  have hxm := List.mem_of_getElem? hx
  obtain ⟨t1, t2, t3, t4, t5⟩ := htimes x hxm
  have hdur : ((s.runs.take k).map fun r => r.duration.getD 0) = (w.take k).map (·.duration) := by
    rw [g10, ← List.map_take, List.map_map]
    apply List.map_congr_left
    intro y hy
    simp only [Function.comp, Option.getD_some, scaled, if_pos hscale]
    exact Nat.mod_eq_of_lt (htimes y (List.mem_of_mem_take hy)).1
  rw [play_get, hdur, g10, List.getElem?_map, hx]
  simp only [Option.map_some, Option.some.injEq, Prod.mk.injEq]
  have hcx := hc x hxm
  have hcf := hc first (List.mem_of_getElem? hf)
  have hoff : ((if q.video = true then some (Fragment.Spec.signed32 (scaled ts q.timescale ((x.composition + 2 ^ 64 - (toAdded t x).decoding) % 2 ^ 64) % 2 ^ 32)) else none).getD 0 : Int) =
      (x.composition : Int) - (toAdded t x).decoding := by
    by_cases hv : q.video = true
    · rw [if_pos hv, hscale, Option.getD_some, Fragment.offset_read ts _ _ t2 t3 t4 t5]
    · rw [if_neg hv, Option.getD_none, hplain (by simpa using hv) x hxm]; omega
  rw [hoff]
  simp only [pres]
  constructor <;> omega

end Verif.Dash
