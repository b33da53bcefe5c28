import Verif.Publish.Props
import Verif.Publish.ModelWrite
import Verif.Dash.PropsEx
/-
C146: what the segments written for the audio of a file hold.
-/
namespace Verif.Publish
open Verif.Tables Verif.Reader Verif.Reader.Spec Verif.Publish.Spec
open Verif.Tables.Spec (expand)
open Verif.Dynamic (Points mapSet mapFind)

/-! ### the points in the map -/

theorem mapSet_last : ∀ (m : List (Int × Int)) (k v : Int), (∀ e ∈ m, e.1 < k) → mapSet m k v = m ++ [(k, v)] := by
  intro m
  induction m with
  | nil => intro k v _; rfl
  | cons e m ih =>
    intro k v h
    have := h e (by simp)
    rw [mapSet, if_neg (by omega), if_neg (by omega), ih k v (fun e he => h e (by simp [he]))]
    rfl

theorem pointMap_from (shift : Int) : ∀ (ts : List Nat) (p : Points), ts.Pairwise (· < ·) → p.fileCross = [] →
    (∀ e ∈ p.computed, ∀ t ∈ ts, e.1 < t + shift) →
    (ts.foldl (fun p (t : Nat) => p.add (t + shift) t) p).computed = p.computed ++ ts.map (fun t : Nat => ((t : Int) + shift, (t : Int))) ∧
    (ts.foldl (fun p (t : Nat) => p.add (t + shift) t) p).fileCross = [] := by
  intro ts
  induction ts with
  | nil => intro p _ h _; simp [h]
  | cons t ts ih =>
    intro p hs hf hlt
    obtain ⟨h1, h2⟩ := List.pairwise_cons.1 hs
    have hc : (p.add (t + shift) t).computed = p.computed ++ [((t : Int) + shift, (t : Int))] :=
      mapSet_last _ _ _ (fun e he => hlt e he t (by simp))
    obtain ⟨a, b⟩ := ih (p.add (t + shift) t) h2 hf (by
      intro e he u hu
      rw [hc, List.mem_append] at he
      rcases he with he | he
      · exact hlt e he u (by simp [hu])
      · simp at he; subst he
        have := h1 u hu
        simp; omega)
    rw [List.foldl_cons]
    refine ⟨?_, b⟩
    rw [a, hc]; simp

theorem pointMap_computed (shift : Int) (ts : List Nat) (h : ts.Pairwise (· < ·)) :
    (pointMap shift ts).computed = ts.map (fun t : Nat => ((t : Int) + shift, (t : Int))) ∧ (pointMap shift ts).fileCross = [] := by
  have := pointMap_from shift ts {} h rfl (by intro e he; simp at he)
  simpa [pointMap] using this

theorem find_next (shift : Int) : ∀ (pre : List Nat) (t u : Nat) (rest : List Nat), (pre ++ t :: u :: rest).Pairwise (· < ·) →
    mapFind ((pre ++ t :: u :: rest).map (fun t : Nat => ((t : Int) + shift, (t : Int)))) (t + shift) = some (t : Int) ∧
    Verif.Dynamic.next ((pre ++ t :: u :: rest).map (fun t : Nat => ((t : Int) + shift, (t : Int)))) (t + shift) = some ((u : Int) + shift, (u : Int)) := by
  intro pre
  induction pre with
  | nil => intro t u rest _; simp [mapFind, Verif.Dynamic.next]
  | cons a pre ih =>
    intro t u rest h
    rw [List.cons_append] at h ⊢
    obtain ⟨h1, h2⟩ := List.pairwise_cons.1 h
    have := h1 t (by simp)
    obtain ⟨r1, r2⟩ := ih t u rest h2
    rw [List.map_cons]
    refine ⟨?_, ?_⟩
    · rw [mapFind, if_neg (by omega), r1]
    · rw [Verif.Dynamic.next, if_neg (by omega), r2]

theorem writeLoop_neighbours (shift : Int) : ∀ (ts pre : List Nat), (pre ++ ts).Pairwise (· < ·) →
    writeLoop (pointMap shift (pre ++ ts)) (ts.map (fun t : Nat => ((t : Int) + shift, (t : Int)))) = some (neighbours shift ts) := by
  intro ts
  induction ts with
  | nil => intro pre _; rfl
  | cons t ts ih =>
    intro pre h
    cases ts with
    | nil => rfl
    | cons u rest =>
      obtain ⟨c1, c2⟩ := pointMap_computed shift _ h
      obtain ⟨r1, r2⟩ := find_next shift pre t u rest h
      have hend : (pointMap shift (pre ++ t :: u :: rest)).getEnd (t + shift) = some (u : Int) := by
        unfold Points.getEnd
        rw [c1, c2, r1, r2]
        simp [Verif.Dynamic.upperBound]
      have := ih (pre ++ [t]) (by simpa using h)
      rw [List.append_assoc, List.singleton_append, List.map_cons] at this
      rw [List.map_cons, List.map_cons, writeLoop, hend, this]
      rfl

/-- C146: of the points of one file, every segment but the last is written, each up to the next point. -/
theorem written_neighbours (shift : Int) (ts : List Nat) (h : ts.Pairwise (· < ·)) :
    written (pointMap shift ts) = some (neighbours shift ts) := by
  unfold written
  rw [(pointMap_computed shift ts h).1]
  exact writeLoop_neighbours shift ts [] h

/-! ### the samples in the segments -/

theorem window_between (t : Track) (xs : List Sample) (hs : (xs.map (pres t)).Pairwise (· < ·)) (i j : Nat) (hij : i ≤ j) (hj : j < xs.length) :
    window t (pres t (xs[i]'(by omega))) (pres t xs[j]) xs = (xs.drop i).take (j - i) := by
  have hlt : ∀ m n (hm : m < xs.length) (hn : n < xs.length), m < n → pres t xs[m] < pres t xs[n] := by
    intro m n hm hn hmn
    have := List.pairwise_iff_getElem.1 hs m n (by simpa using hm) (by simpa using hn) hmn
    simpa using this
  have hle : ∀ m n (hm : m < xs.length) (hn : n < xs.length), m ≤ n → pres t xs[m] ≤ pres t xs[n] := by
    intro m n hm hn hmn
    rcases Nat.eq_or_lt_of_le hmn with h | h
    · subst h; exact Nat.le_refl _
    · exact Nat.le_of_lt (hlt m n hm hn h)
  have hsplit : xs = xs.take i ++ ((xs.drop i).take (j - i) ++ xs.drop j) := by
    conv_lhs => rw [← List.take_append_drop i xs, ← List.take_append_drop (j - i) (xs.drop i)]
    rw [List.drop_drop, show i + (j - i) = j by omega]
  rw [window]
  conv_lhs => arg 2; rw [hsplit]
  rw [List.filter_append, List.filter_append]
  rw [List.filter_eq_nil_iff.2, List.filter_eq_self.2, List.filter_eq_nil_iff.2]
  · simp
  · intro x hx
    obtain ⟨m, hm, rfl⟩ := List.getElem_of_mem hx
    rw [List.length_drop] at hm
    rw [List.getElem_drop]
    have := hle j (j + m) hj (by omega) (by omega)
    simp only [decide_eq_true_eq]; omega
  · intro x hx
    obtain ⟨m, hm, rfl⟩ := List.getElem_of_mem hx
    rw [List.length_take, List.length_drop] at hm
    rw [List.getElem_take, List.getElem_drop]
    have h1 := hle i (i + m) (by omega) (by omega) (by omega)
    have h2 := hlt (i + m) j (by omega) hj (by omega)
    simp only [decide_eq_true_eq]; omega
  · intro x hx
    obtain ⟨m, hm, rfl⟩ := List.getElem_of_mem hx
    rw [List.length_take] at hm
    rw [List.getElem_take]
    have := hlt m i (by omega) (by omega) (by omega)
    simp only [decide_eq_true_eq]; omega

theorem times_get (scale off : Nat) (D : List Nat) (p : Nat) (hp : p < D.length) :
    (times scale off D)[p]? = some (10000000 * (D.take p).sum / scale + off) := by
  simp [times, hp]

/-- the points of one file by number -/
theorem points_one (jump k : Nat) (hj : 0 < jump) (L : List Nat) :
    (points jump (L.map fun t => (k, t))).1 = ((List.range (L.length / jump)).map fun m => Event.point (L.getD (m * jump) 0)).map some := by
  simp only [points, segments, List.length_map, List.map_map]
  apply List.map_congr_left
  intro m hm
  rw [List.mem_range] at hm
  have hlt : m * jump < L.length := by
    have := Nat.mul_le_mul_right jump (Nat.succ_le_of_lt hm)
    have h2 := Nat.div_mul_le_self L.length jump
    rw [Nat.succ_mul] at this; omega
  simp only [Function.comp]
  rw [← List.map_drop, ← List.map_take]
  obtain ⟨u, us, hu, hue⟩ : ∃ u us, (L.drop (m * jump)).take jump = u :: us ∧ u = L.getD (m * jump) 0 := by
    rw [List.drop_eq_getElem_cons hlt]
    obtain ⟨j, rfl⟩ : ∃ j, jump = j + 1 := ⟨jump - 1, by omega⟩
    refine ⟨_, _, List.take_succ_cons, ?_⟩
    rw [List.getD_eq_getElem?_getD, List.getElem?_eq_getElem hlt]; rfl
  rw [hu, ← hue]
  have := foreign_same k (u :: us)
  rw [List.map_cons] at this ⊢
  unfold pointOf; rw [this]

/-- C146: what is written for the audio of a file used from the sample `first` on: the points published are the times of every `jump`-th sample from there; a segment is written from every point but the last up to the next; and
the segments hold, in order and byte for byte, exactly the samples from `first` on but the last full segment and what does not fill one: at least `jump` samples at the end of the file are in no segment. -/
theorem audio_published_partial (length jump : Nat) (hj : 0 < jump) (x : Item) (first : Nat) (file : List UInt8) (r : Reader) (id : Nat) (b : TrackBoxes)
    (es : List (Nat × Nat)) (xs : List Sample) (hsrc : Verif.Dash.Spec.Source file r id b x.T es xs) (hctts : b.ctts = none) (h : UsedFrom length jump x (expand es) first)
    (h64 : 2 * (expand es).length < 2 ^ 64) (hsc : x.T.scale ≤ 10000000) (shift : Int) (fuel : Nat) (hf : (expand es).length < fuel) :
    ∃ (pts : List Nat) (pend : Pending), publish length fuel x none = .ok (pts.map .point, pend) ∧
      pts.length = (xs.length - first) / jump ∧ (∀ m < pts.length, pts[m]? = (xs[first + m * jump]?).map (pres x.T)) ∧
      written (pointMap shift pts) = some (neighbours shift pts) ∧
      ∀ (ts : Nat → Nat) (E : List UInt8 → List UInt8), (∀ b, (E b).length = 16) → ∀ qs : List Verif.Dash.Request, qs.length + 1 = pts.length →
        (∀ (i : Nat) (q : Verif.Dash.Request) (a c : Nat), qs[i]? = some q → pts[i]? = some a → pts[i + 1]? = some c → Verif.Dash.Spec.Good ts q b x.T xs a c) →
        ∃ segs : List Verif.Fragment.Spec.Segment, (Verif.Dash.Spec.segments ts E file r id qs pts).map (fun s => s.bind Verif.Fragment.Spec.segment) = segs.map some ∧
          segs.flatMap (Verif.Dash.Spec.content E) = ((xs.drop first).take (((xs.length - first) / jump - 1) * jump)).map (Verif.Dash.Spec.bytesOf file) ∧
          (segs.flatMap (Verif.Dash.Spec.content E)).length + jump ≤ xs.length - first := by
  obtain ⟨evs, pend, r1, r2⟩ := publish_file hj h h64 (k := 0) (k' := 1) (by omega) (ls := []) (by simpa using hj) hf
  obtain ⟨xss, hh, hin, hxs⟩ := hsrc.samples
  obtain ⟨p, hid⟩ := hsrc.track
  have ht := hsrc.timed
  have hold : Holds x.T xs := by
    obtain ⟨s, hs, hold⟩ := forall₂_get hh id xs hxs
    rw [hid] at hs; simp at hs; subst hs; exact hold
  have hn : xs.length = (expand es).length := by rw [← holds_count hold, (timed_dec ht).2.1]
  have hscale : 0 < x.T.scale := by rw [(timed_dec ht).2.2.1]; exact ht.scale
  have hlong := h.long
  obtain ⟨L, hL⟩ : ∃ L, L = (times x.T.scale x.T.offset (expand es)).drop first := ⟨_, rfl⟩
  have hLl : L.length = xs.length - first := by rw [hL]; simp [times, hn]
  have hpres : ∀ i (hi : i < xs.length), pres x.T xs[i] = 10000000 * ((expand es).take i).sum / x.T.scale + x.T.offset := by
    intro i hi
    obtain ⟨a1, a2, _⟩ := plain_times ht hctts hold i _ (List.getElem?_eq_getElem hi)
    rw [pres, a1, hns_small a2]; rfl
  have hLget : ∀ i (hi : first + i < xs.length), L[i]? = some (pres x.T xs[first + i]) := by
    intro i hi
    rw [hL, List.getElem?_drop, times_get _ _ _ _ (by omega), hpres]
  have hinc : (xs.map (pres x.T)).Pairwise (· < ·) := by
    rw [List.pairwise_iff_getElem]
    intro i j hi hj' hij
    simp only [List.length_map] at hi hj'
    rw [List.getElem_map, List.getElem_map, hpres i hi, hpres j hj']
    have h1 := startOf_lt (expand es) (expand_pos ht.pos) j i hij (by omega)
    unfold startOf at h1
    have h2 : 10000000 * ((expand es).take i).sum / x.T.scale + 1 ≤ 10000000 * ((expand es).take j).sum / x.T.scale := by
      rw [← Nat.add_div_right _ hscale]
      exact Nat.div_le_div_right (by omega)
    exact Nat.add_lt_add_right h2 _
  obtain ⟨k, hk⟩ : ∃ k, k = (xs.length - first) / jump := ⟨_, rfl⟩
  have hk2 : 2 ≤ k := by rw [hk, Nat.le_div_iff_mul_le hj]; omega
  have hkm : k * jump ≤ xs.length - first := by rw [hk]; exact Nat.div_mul_le_self _ _
  have hidx : ∀ m, m < k → first + m * jump < xs.length := by
    intro m hm
    have := Nat.mul_le_mul_right jump (Nat.succ_le_of_lt hm)
    rw [Nat.succ_mul] at this; omega
  obtain ⟨pts, hpts⟩ : ∃ pts, pts = (List.range k).map fun m => L.getD (m * jump) 0 := ⟨_, rfl⟩
  have hpl : pts.length = k := by rw [hpts]; simp
  have hpget : ∀ m (hm : m < k), pts[m]? = some (pres x.T (xs[first + m * jump]'(hidx m hm))) := by
    intro m hm
    rw [hpts, List.getElem?_map, List.getElem?_range hm, Option.map_some, List.getD_eq_getElem?_getD, hLget _ (hidx m hm)]
    rfl
  have hevs : evs = pts.map .point := by
    rw [List.map_nil, List.nil_append, ← hL] at r2
    have h1 := points_one jump 0 hj L
    rw [r2, hLl, ← hk] at h1
    have := List.map_injective_iff.2 (Option.some_injective Event) h1
    rw [this, hpts, List.map_map]; rfl
  have hpinc : pts.Pairwise (· < ·) := by
    rw [List.pairwise_iff_getElem]
    intro i j hi hj' hij
    rw [hpl] at hi hj'
    have e1 := hpget i hi
    have e2 := hpget j hj'
    rw [List.getElem?_eq_getElem (by omega)] at e1 e2
    rw [Option.some.inj e1, Option.some.inj e2]
    have := List.pairwise_iff_getElem.1 hinc (first + i * jump) (first + j * jump) (by simpa using hidx i hi) (by simpa using hidx j hj') (by
      have := Nat.mul_lt_mul_of_pos_right hij hj; omega)
    simpa using this
  refine ⟨pts, pend, by rw [← hevs]; exact r1, by rw [hpl, hk], ?_, written_neighbours shift pts hpinc, ?_⟩
  · intro m hm
    rw [hpl] at hm
    rw [hpget m hm, List.getElem?_eq_getElem (hidx m hm)]; rfl
  · intro ts E hE qs hq hgood
    obtain ⟨a, rest, hpe⟩ : ∃ a rest, pts = a :: rest := by
      cases pts with
      | nil => simp at hpl; omega
      | cons a rest => exact ⟨a, rest, rfl⟩
    obtain ⟨segs, s1, s2, s3⟩ := Verif.Dash.segments_window ts E hE file r id b x.T es xs hsrc rest a qs (by rw [hpe] at hq; simpa using hq)
      (by rw [← hpe]; exact hpinc.imp (fun h => Nat.le_of_lt h))
      (by
        intro i q c d hqi hc hd
        exact hgood i q c d hqi (by rw [hpe]; exact hc) (by rw [hpe]; exact hd))
    have ha : a = pres x.T (xs[first]'(by omega)) := by
      have h0 : pts[0]? = some a := by rw [hpe]; rfl
      have := Option.some.inj (h0.symm.trans (hpget 0 (by omega)))
      simpa using this
    have hlast : (a :: rest).getLast (by simp) = pres x.T (xs[first + (k - 1) * jump]'(hidx (k - 1) (by omega))) := by
      have h0 : pts[k - 1]? = some ((a :: rest).getLast (by simp)) := by
        rw [← hpl, hpe, ← List.getLast?_eq_getElem?, List.getLast?_eq_getLast_of_ne_nil (by simp)]
      exact Option.some.inj (h0.symm.trans (hpget (k - 1) (by omega)))
    rw [hlast, ha, window_between x.T xs hinc first (first + (k - 1) * jump) (by omega) (hidx (k - 1) (by omega)), Nat.add_sub_cancel_left] at s3
    refine ⟨segs, by rw [hpe]; exact s1, by rw [s3, hk], ?_⟩
    rw [s3, List.length_map, List.length_take, List.length_drop]
    have : (k - 1) * jump + jump = k * jump := by rw [← Nat.succ_mul]; congr 1; omega
    omega

/-- C146: and for every stream, audio or video: the segments written for the points `a :: rest` of a file hold exactly what is presented before the last point; the samples from the last point on are in no segment. -/
theorem tail_lost (ts : Nat → Nat) (E : List UInt8 → List UInt8) (hE : ∀ b, (E b).length = 16) (file : List UInt8) (r : Reader) (id : Nat) (b : TrackBoxes) (t : Track)
    (es : List (Nat × Nat)) (xs : List Sample) (hsrc : Verif.Dash.Spec.Source file r id b t es xs) (rest : List Nat) (a : Nat) (qs : List Verif.Dash.Request) (hl : qs.length = rest.length)
    (hsorted : (a :: rest).Pairwise (· < ·)) (shift : Int)
    (hgood : ∀ (i : Nat) (q : Verif.Dash.Request) (x y : Nat), qs[i]? = some q → (a :: rest)[i]? = some x → rest[i]? = some y → Verif.Dash.Spec.Good ts q b t xs x y)
    (hall : ∀ x ∈ xs, a ≤ pres t x) :
    written (pointMap shift (a :: rest)) = some (neighbours shift (a :: rest)) ∧
    ∃ segs : List Verif.Fragment.Spec.Segment, (Verif.Dash.Spec.segments ts E file r id qs (a :: rest)).map (fun s => s.bind Verif.Fragment.Spec.segment) = segs.map some ∧
      segs.flatMap (Verif.Dash.Spec.content E) = (xs.filter fun x => decide (pres t x < (a :: rest).getLast (by simp))).map (Verif.Dash.Spec.bytesOf file) := by
  refine ⟨written_neighbours shift _ hsorted, ?_⟩
  obtain ⟨segs, s1, s2, s3⟩ := Verif.Dash.segments_window ts E hE file r id b t es xs hsrc rest a qs hl (hsorted.imp (fun h => Nat.le_of_lt h)) hgood
  refine ⟨segs, s1, ?_⟩
  rw [s3, window]
  congr 1
  apply List.filter_congr
  intro x hx
  have := hall x hx
  simp [this]

/-- the video of the example, with key frames at 40 ms and 200 ms and fragments of 160 ms: the second group of pictures is lost -/
example : (∃ segs : List Verif.Fragment.Spec.Segment, (Verif.Dash.Spec.segments id Verif.Fragment.toyCipher Verif.Dash.exFile exR 0 [Verif.Dash.exQ 1 70000000] [400000, 2000000]).map
      (fun s => s.bind Verif.Fragment.Spec.segment) = segs.map some ∧
      segs.flatMap (Verif.Dash.Spec.content Verif.Fragment.toyCipher) = (exVS.take 4).map (Verif.Dash.Spec.bytesOf Verif.Dash.exFile)) ∧ exVS.length = 8 ∧
    Verif.Dynamic.publish 1600000 0 [400000, 2000000] = [400000, 2000000] := by
  refine ⟨?_, rfl, by decide⟩
  obtain ⟨_, segs, s1, s2⟩ := tail_lost id Verif.Fragment.toyCipher Verif.Fragment.toyCipher_length Verif.Dash.exFile exR 0 exV exVT [(8, 40)] exVS Verif.Dash.ex_source_video [2000000] 400000
    [Verif.Dash.exQ 1 70000000] rfl (by decide) 0 (by
      intro i q x y hq hx hy
      match i with
      | 0 => cases hq; cases hx; cases hy; exact Verif.Dash.ex_good _ (.inl rfl)
      | i + 1 => simp at hq) (by decide +kernel)
  exact ⟨segs, s1, s2.trans (by decide +kernel)⟩

/-! ### a concrete file: four audio samples from 1 s on, segments of two -/

def exItem : Item := { T := exAT, stop := 20000000 }
def exRequest : Verif.Dash.Request := ⟨10000000, none, 2, 1, false, some 10000000, 4, 5⟩

theorem ex_item_used : UsedFrom 1600000 2 exItem (expand [(4, 80)]) 0 :=
  ⟨⟨exA, [(4, 80)], Verif.Dash.ex_source_audio.timed, rfl, rfl⟩, by decide, by decide, by decide, by decide +kernel, by decide +kernel, by decide +kernel, by decide +kernel, by decide⟩

theorem ex_request_good : Verif.Dash.Spec.Good id exRequest exA exAT exAS 10000000 11600000 := by
  refine ⟨by decide, by decide, by decide, fun h => absurd rfl h, ?_, by decide, .inl ⟨rfl, rfl⟩, ⟨by decide, ?_⟩, by decide +kernel⟩
  · intro x hx; cases hx
  · intro x hx
    have hx : exAS[0]? = some x := by rw [← hx]; decide +kernel
    simp only [exAS, List.getElem?_cons_zero, Option.some.injEq] at hx
    subst hx; decide

/-- one segment with the first two samples is all that is written -/
example : outcome (publish 1600000 9 exItem none) = some ([.point 10000000, .point 11600000], none) ∧
    written (pointMap 0 [10000000, 11600000]) = some [(10000000, 10000000, 11600000)] ∧
    ∃ segs : List Verif.Fragment.Spec.Segment, (Verif.Dash.Spec.segments id Verif.Fragment.toyCipher Verif.Dash.exFile exR 1 [exRequest] [10000000, 11600000]).map (fun s => s.bind Verif.Fragment.Spec.segment) = segs.map some ∧
      segs.flatMap (Verif.Dash.Spec.content Verif.Fragment.toyCipher) = (exAS.take 2).map (Verif.Dash.Spec.bytesOf Verif.Dash.exFile) := by
  refine ⟨by decide +kernel, by decide +kernel, ?_⟩
  obtain ⟨pts, pend, h1, h2, h3, _, h5⟩ := audio_published_partial 1600000 2 (by decide) exItem 0 Verif.Dash.exFile exR 1 exA [(4, 80)] exAS Verif.Dash.ex_source_audio rfl ex_item_used
    (by decide) (by decide) 0 9 (by decide)
  have hp : pts = [10000000, 11600000] := by
    have hl : pts.length = 2 := h2
    apply List.ext_getElem?
    intro i
    match i with
    | 0 => rw [h3 0 (by omega)]; decide
    | 1 => rw [h3 1 (by omega)]; decide
    | i + 2 => rw [List.getElem?_eq_none (by omega), List.getElem?_eq_none (by simp)]
  subst hp
  obtain ⟨segs, s1, s2, _⟩ := h5 id Verif.Fragment.toyCipher Verif.Fragment.toyCipher_length [exRequest] rfl (by
    intro i q a c hq ha hc
    match i with
    | 0 => cases hq; cases ha; cases hc; exact ex_request_good
    | i + 1 => simp at hq)
  exact ⟨segs, s1, s2⟩

end Verif.Publish
