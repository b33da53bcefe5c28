import Verif.Gop.Props
/-
C148: the list of the groups of pictures.
-/
namespace Verif.Gop
open Verif.Tables Verif.RangeMap Verif.Reader Verif.Reader.Spec Verif.Gop.Spec
open Verif.Tables.Spec (expand)
open Verif.Publish (Res Stop orThrow)

/-- the line for a key frame -/
def lineOf (x : Sample) : Line := ⟨x.number, x.composition, x.decoding⟩

/-- What a track must have for the list to be right: the time scale divides 10 MHz, times fit, and every key frame is presented before the next one is decoded. -/
structure Even (t : Track) (xs : List Sample) : Prop where
  div : 10000000 % t.scale = 0
  fits : ∀ n c, compositionTime t.comps n = some c → 10000000 * c < 2 ^ 64
  gap : (keys xs).Pairwise (fun a b => a.composition < b.decoding)

/-- looking up the presentation time of a key frame gives that key frame -/
theorem iframeAt_key {b : TrackBoxes} {t : Track} {es : List (Nat × Nat)} {ns : List Nat} (hb : Timed b t es) (hs : Synced b ns)
    {xs : List Sample} (hold : Holds t xs) (he : Even t xs) {pre post : List Sample} {x : Sample} (hk : keys xs = pre ++ x :: post) :
    ∃ u, iframeAt t x.composition = some (x.number, u) ∧ At u x.number (post.map (·.number)) := by
  obtain ⟨hdec, hcount, hscale, hlen⟩ := timed_dec hb
  have hspos : 0 < t.scale := hscale ▸ hb.scale
  have hfits := hb.fits
  have hxl : xs.length = (expand es).length := by rw [← holds_count hold, hcount]
  have hkn := keys_numbers hb hs hold
  -- times of the key frames
  have htime : ∀ y ∈ keys xs, y.number < (expand es).length ∧ y.decoding = hns (startOf (expand es) y.number) t.scale ∧
      ∃ c, 10000000 * c < 2 ^ 64 ∧ startOf (expand es) y.number ≤ c ∧ y.composition = hns c t.scale := by
    intro y hy
    obtain ⟨h1, _⟩ := List.mem_filter.1 hy
    obtain ⟨i, hi, rfl⟩ := List.mem_iff_getElem.1 h1
    obtain ⟨c, c1, c2, c3⟩ := holds_comp hold i _ (List.getElem?_eq_getElem hi)
    obtain ⟨⟨d, d1, d2⟩, _⟩ := holds_dec hold i _ (List.getElem?_eq_getElem hi)
    have d3 := timed_decoding hb i (by omega)
    have hdc : d ≤ c := by
      simp only [compositionTime, decodingTime, Option.map_eq_some_iff] at c1 d1
      obtain ⟨z, hz, rfl⟩ := c1
      obtain ⟨z', hz', rfl⟩ := d1
      rw [hz] at hz'; simp at hz'; subst hz'; omega
    rw [d3] at d1; simp at d1; subst d1
    exact ⟨by omega, by rw [d2, c3], c, he.fits i c c1, by rw [c3]; exact hdc, c2⟩
  obtain ⟨hxn, hxd, c, hc1, hc2, hc3⟩ := htime x (by rw [hk]; simp)
  have hraw : raw x.composition t.scale = c := by
    obtain ⟨q, hq⟩ := Nat.dvd_of_mod_eq_zero he.div
    rw [hc3, hns_eq _ _ hc1, raw]
    have e1 : 10000000 * c / t.scale = q * c := by
      rw [hq, Nat.mul_assoc, Nat.mul_div_cancel_left _ hspos]
    have e2 : q * c * t.scale = 10000000 * c := by
      rw [hq]; ac_rfl
    rw [e1, e2, Nat.mod_eq_of_lt hc1, Nat.mul_div_cancel_left _ (by decide)]
  obtain ⟨m, hm, hmiff⟩ := decoding_number es hb.ne hb.pos c (by omega) (by omega)
  obtain ⟨pre', k', post', u, e1, e2, e3, e4, e5⟩ := iframeAt_spec hb hs hold x.composition
  rw [hraw] at e4 e5
  have hsort : ((keys xs).map (·.number)).Pairwise (· < ·) := by rw [hkn]; exact hs.sorted
  obtain ⟨f1, f2⟩ := split_unique hsort (q := m) (k := x.number) (a := pre.map (·.number)) (r := post.map (·.number)) (k' := k'.number)
    (a' := pre'.map (·.number)) (r' := post'.map (·.number)) (by rw [hk]; simp) (by rw [e1]; simp)
    (.inr ((hmiff _ hxn).1 hc2))
    (by
      intro n hn
      obtain ⟨y, hy, rfl⟩ := List.mem_map.1 hn
      have hym : y ∈ keys xs := by rw [hk]; simp [hy]
      obtain ⟨g1, g2, _⟩ := htime y hym
      have hgap : x.composition < y.decoding := by
        have := he.gap
        rw [hk] at this
        exact (List.pairwise_cons.1 (List.pairwise_append.1 this).2.1).1 y hy
      by_contra hcon
      have hle := (hmiff y.number g1).2 (by omega)
      have := hns_mono _ _ t.scale hle hc1
      rw [← hc3, ← g2] at this
      omega)
    (by
      rcases e4 with rfl | e4
      · left; rfl
      · right; exact (hmiff _ (htime k' (by rw [e1]; simp)).1).1 e4)
    (by
      intro n hn
      obtain ⟨y, hy, rfl⟩ := List.mem_map.1 hn
      have := e5 y hy
      by_contra hcon
      have := (hmiff y.number (htime y (by rw [e1]; simp [hy])).1).2 (by omega)
      omega)
  rw [← f1] at e2 e3
  rw [← f2] at e3
  exact ⟨u, e2, e3⟩

/-- decoding is not after presentation, so the presentation times of key frames increase -/
theorem even_increasing {b : TrackBoxes} {t : Track} {es : List (Nat × Nat)} (hb : Timed b t es)
    {xs : List Sample} (hold : Holds t xs) (he : Even t xs) : (keys xs).Pairwise (fun a b => a.composition < b.composition) := by
  refine he.gap.imp_of_mem ?_
  intro x y _ hy hlt
  obtain ⟨h1, _⟩ := List.mem_filter.1 hy
  obtain ⟨i, hi, rfl⟩ := List.mem_iff_getElem.1 h1
  obtain ⟨c, c1, c2, c3⟩ := holds_comp hold i _ (List.getElem?_eq_getElem hi)
  obtain ⟨⟨d, d1, d2⟩, _⟩ := holds_dec hold i _ (List.getElem?_eq_getElem hi)
  have hdc : d ≤ c := by
    simp only [compositionTime, decodingTime, Option.map_eq_some_iff] at c1 d1
    obtain ⟨z, hz, rfl⟩ := c1
    obtain ⟨z', hz', rfl⟩ := d1
    rw [hz] at hz'; simp at hz'; subst hz'; omega
  have := hns_mono d c t.scale hdc (he.fits i c c1)
  omega

/-- one turn of the loop of the list: the next key frame -/
theorem gop_turn {b : TrackBoxes} {t : Track} {es : List (Nat × Nat)} {ns : List Nat} (hb : Timed b t es) (hs : Synced b ns)
    {xs : List Sample} (hold : Holds t xs) (he : Even t xs) {pre post : List Sample} {x y : Sample} {u : Nat} (hk : keys xs = pre ++ x :: y :: post)
    (hat : At u x.number ((y :: post).map (·.number))) (stop fuel time : Nat) (next : Option Nat)
    (hc : (next = none ∨ time < next.getD 0) ∧ time < stop) :
    ∃ u', At u' y.number (post.map (·.number)) ∧
      gopLoop t stop (fuel + 1) time next u = (gopLoop t stop fuel (next.getD time) (some y.composition) u').map (lineOf y :: ·) := by
  have hkn := keys_numbers hb hs hold
  obtain ⟨q, ns', rfl, hmap, hst, hif⟩ := synced_map hb hs
  rw [hk] at hkn
  simp only [List.map_append, List.map_cons] at hkn
  obtain ⟨u1, n1, _⟩ := (next_at hs.sorted hmap hkn.symm hat).1 _ _ rfl
  have hy : y ∈ keys xs := by rw [hk]; simp
  have hn := nextTime_at hold hy n1
  obtain ⟨u', k1, k2⟩ := iframeAt_key hb hs hold he (pre := pre ++ [x]) (x := y) (post := post) (by rw [hk]; simp)
  refine ⟨u', k2, ?_⟩
  rw [gopLoop, if_pos hc, hn]
  simp only [orThrow, bind, Except.bind]
  rw [k1]
  simp only
  rw [(key_times hold hy).2]
  simp only
  cases gopLoop t stop fuel (next.getD time) (some y.composition) u' <;> rfl

/-- one turn at the last key frame: it is found again -/
theorem gop_end {b : TrackBoxes} {t : Track} {es : List (Nat × Nat)} {ns : List Nat} (hb : Timed b t es) (hs : Synced b ns)
    {xs : List Sample} (hold : Holds t xs) (he : Even t xs) {pre : List Sample} {x : Sample} {u : Nat} (hk : keys xs = pre ++ [x])
    (hat : At u x.number []) (stop fuel time : Nat) (next : Option Nat)
    (hc : (next = none ∨ time < next.getD 0) ∧ time < stop) (hnx : next.getD time = x.composition) :
    gopLoop t stop (fuel + 2) time next u = .ok [lineOf x] := by
  have hkn := keys_numbers hb hs hold
  obtain ⟨q, ns', rfl, hmap, hst, hif⟩ := synced_map hb hs
  rw [hk] at hkn
  simp only [List.map_append, List.map_cons, List.map_nil] at hkn
  obtain ⟨u1, n1, _⟩ := (next_at hs.sorted hmap hkn.symm hat).2 rfl
  have hy : x ∈ keys xs := by rw [hk]; simp
  have hn := nextTime_at hold hy n1
  obtain ⟨u', k1, k2⟩ := iframeAt_key hb hs hold he (pre := pre) (x := x) (post := []) hk
  rw [gopLoop, if_pos hc, hn]
  simp only [orThrow, bind, Except.bind]
  rw [k1]
  simp only
  rw [(key_times hold hy).2]
  simp only
  rw [gopLoop, if_neg (by simp [hnx])]
  rfl

theorem gopLoop_eq {b : TrackBoxes} {t : Track} {es : List (Nat × Nat)} {ns : List Nat} (hb : Timed b t es) (hs : Synced b ns)
    {xs : List Sample} (hold : Holds t xs) (he : Even t xs) (stop : Nat) : ∀ (post pre : List Sample) (a x : Sample) (u fuel : Nat),
    keys xs = pre ++ a :: x :: post → At u x.number (post.map (·.number)) → post.length + 2 < fuel →
    ∃ m, gopLoop t stop fuel a.composition (some x.composition) u = .ok (((post ++ [(x :: post).getLast (by simp)]).take m).map lineOf) ∧
      ∀ y ∈ (post ++ [(x :: post).getLast (by simp)]).drop m, stop ≤ y.composition := by
  have hinc := even_increasing hb hold he
  intro post
  induction post with
  | nil =>
    intro pre a x u fuel hk hat hf
    obtain ⟨fuel, rfl⟩ : ∃ f, fuel = f + 2 := ⟨fuel - 2, by simp at hf; omega⟩
    have hax : a.composition < x.composition := by
      rw [hk] at hinc
      exact (List.pairwise_cons.1 (List.pairwise_append.1 hinc).2.1).1 x (by simp)
    by_cases hc : a.composition < stop
    · refine ⟨1, ?_, by simp⟩
      rw [gop_end hb hs hold he (pre := pre ++ [a]) (x := x) (by rw [hk]; simp) hat stop fuel a.composition (some x.composition)
        ⟨.inr (by simpa using hax), hc⟩ (by simp)]
      simp
    · refine ⟨0, ?_, ?_⟩
      · rw [gopLoop, if_neg (by simp [hc])]; simp
      · simp; omega
  | cons y post ih =>
    intro pre a x u fuel hk hat hf
    obtain ⟨fuel, rfl⟩ : ∃ f, fuel = f + 1 := ⟨fuel - 1, by omega⟩
    have hinc' : ∀ z ∈ x :: y :: post, a.composition < z.composition := by
      rw [hk] at hinc
      exact (List.pairwise_cons.1 (List.pairwise_append.1 hinc).2.1).1
    by_cases hc : a.composition < stop
    · obtain ⟨u', g1, g2⟩ := gop_turn hb hs hold he (pre := pre ++ [a]) (x := x) (y := y) (post := post) (by rw [hk]; simp) hat stop fuel
        a.composition (some x.composition) ⟨.inr (by simpa using hinc' x (by simp)), hc⟩
      obtain ⟨m, i1, i2⟩ := ih (pre ++ [a]) x y u' fuel (by rw [hk]; simp) g1 (by simp at hf; omega)
      refine ⟨m + 1, ?_, ?_⟩
      · rw [g2, Option.getD_some, i1]
        simp [Except.map]
      · intro z hz
        apply i2 z
        simpa using hz
    · refine ⟨0, ?_, ?_⟩
      · rw [gopLoop, if_neg (by simp [hc])]; simp
      · intro z hz
        simp only [List.drop_zero] at hz
        have : z ∈ x :: y :: post := by
          rcases List.mem_append.1 hz with h | h
          · exact List.mem_cons_of_mem _ h
          · simp only [List.mem_singleton] at h; rw [h]; exact List.getLast_mem _
        have := hinc' z this
        omega

/-- C148. For every track with a key frame table whose time scale divides 10 MHz and whose key frames are each presented before the next one is decoded, and for every `start` and `stop`: the list begins at the last key frame decoded
by `start` (or the first of the track) and goes on with the following key frames in order, each with its number, presentation and decoding time; those left out at the end are presented at `stop` or later, and when it gets to the
last key frame it lists it twice. (Missing: other time scales and longer reordering, for which it is false, see the witnesses.) -/
theorem gop_list_partial {b : TrackBoxes} {t : Track} {es : List (Nat × Nat)} {ns : List Nat} (hb : Timed b t es) (hs : Synced b ns)
    {xs : List Sample} (hold : Holds t xs) (he : Even t xs) (start stop fuel : Nat) (hst : start * t.scale < 2 ^ 64) (hf : (keys xs).length + 2 < fuel) :
    ∃ pre k post z m, keys xs = pre ++ k :: post ∧ (keys xs).getLast? = some z ∧ (pre = [] ∨ k.decoding ≤ start) ∧ (∀ y ∈ post, start ≤ y.decoding) ∧
      gopList t start stop fuel = .ok (((k :: post ++ [z]).take (m + 1)).map lineOf) ∧ ∀ y ∈ (k :: post ++ [z]).drop (m + 1), stop ≤ y.composition := by
  have hinc := even_increasing hb hold he
  obtain ⟨pre, k, post, u, e1, e2, e3, e4, e5⟩ := iframeAt_start hb hs hold start hst
  have hk : k ∈ keys xs := by rw [e1]; simp
  have hlist : ∀ ls, gopLoop t stop fuel k.composition none u = .ok ls → gopList t start stop fuel = .ok (lineOf k :: ls) := by
    intro ls hls
    rw [gopList, e2]
    simp only [orThrow, bind, Except.bind]
    rw [(key_times hold hk).1]
    simp only
    rw [(key_times hold hk).2]
    simp only
    rw [hls]
    rfl
  have hz : (keys xs).getLast? = some ((k :: post).getLast (by simp)) := by
    rw [e1, List.getLast?_append, List.getLast?_eq_getLast_of_ne_nil (by simp)]
    rfl
  suffices h : ∃ m, gopLoop t stop fuel k.composition none u = .ok (((post ++ [(k :: post).getLast (by simp)]).take m).map lineOf) ∧
      ∀ y ∈ (post ++ [(k :: post).getLast (by simp)]).drop m, stop ≤ y.composition by
    obtain ⟨m, h1, h2⟩ := h
    refine ⟨pre, k, post, _, m, e1, hz, e4, e5, ?_, ?_⟩
    · rw [hlist _ h1]; rfl
    · exact h2
  obtain ⟨fuel, rfl⟩ : ∃ f, fuel = f + 2 := ⟨fuel - 2, by omega⟩
  by_cases hc : k.composition < stop
  · cases post with
    | nil =>
      refine ⟨1, ?_, by simp⟩
      rw [gop_end hb hs hold he e1 e3 stop fuel k.composition none ⟨.inl rfl, hc⟩ rfl]
      rfl
    | cons y post =>
      obtain ⟨u', g1, g2⟩ := gop_turn hb hs hold he e1 e3 stop (fuel + 1) k.composition none ⟨.inl rfl, hc⟩
      obtain ⟨m, i1, i2⟩ := gopLoop_eq hb hs hold he stop post pre k y u' (fuel + 1) e1 g1 (by rw [e1] at hf; simp at hf; omega)
      refine ⟨m + 1, ?_, ?_⟩
      · rw [g2, Option.getD_none, i1]
        simp [Except.map]
      · intro z hz
        apply i2 z
        simpa using hz
  · refine ⟨0, ?_, ?_⟩
    · rw [gopLoop, if_neg (by simp [hc])]; rfl
    · intro z hz
      simp only [List.drop_zero] at hz
      rw [e1] at hinc
      have hlt := (List.pairwise_cons.1 (List.pairwise_append.1 hinc).2.1).1
      have : z = k ∨ z ∈ post := by
        rcases List.mem_append.1 hz with h | h
        · exact .inr h
        · simp only [List.mem_singleton] at h
          have := List.getLast_mem (l := k :: post) (by simp)
          rw [← h] at this
          simpa using this
      rcases this with rfl | h
      · omega
      · have := hlt z h; omega

-- non-vacuity: four groups of two frames of 1 s; the last one is listed twice
def exGS : List Sample :=
  [⟨100, 10, 0, 0, 10000000, true, 0⟩, ⟨110, 10, 10000000, 10000000, 10000000, false, 1⟩, ⟨120, 10, 20000000, 20000000, 10000000, true, 2⟩,
   ⟨130, 10, 30000000, 30000000, 10000000, false, 3⟩, ⟨140, 10, 40000000, 40000000, 10000000, true, 4⟩, ⟨150, 10, 50000000, 50000000, 10000000, false, 5⟩,
   ⟨160, 10, 60000000, 60000000, 10000000, true, 6⟩, ⟨170, 10, 70000000, 70000000, 10000000, false, 7⟩]

theorem ex_even : Timed exG (opened exG) [(8, 1000)] ∧ Synced exG [0, 2, 4, 6] ∧ Holds (opened exG) exGS ∧ Even (opened exG) exGS := by
  refine ⟨⟨rfl, rfl, by decide, by decide, rfl, by decide, by decide⟩, ⟨rfl, by decide, by decide, by decide, by decide⟩,
    holds_of _ _ (by decide) (by decide +kernel), ⟨by decide +kernel, ?_, by decide +kernel⟩⟩
  intro n c h
  have hall : ∀ e ∈ (opened exG).comps, 10000000 * (e.decoding + e.offset) < 2 ^ 64 := by decide +kernel
  simp only [compositionTime, Option.map_eq_some_iff] at h
  obtain ⟨e, he, rfl⟩ := h
  exact hall e (List.mem_of_getElem? he)

def shown (r : Res (List Line)) : Option (List (Nat × Nat)) := (outcome r).map fun ls => ls.map fun l => (l.number, l.time)

example : shown (gopList (opened exG) 25000000 90000000 9) = some [(2, 20000000), (4, 40000000), (6, 60000000), (6, 60000000)] ∧
    shown (gopList (opened exG) 0 15000000 9) = some [(0, 0), (2, 20000000), (4, 40000000)] := by decide +kernel

/-- 30000/1001 frames per second (90 kHz), four groups of two frames. -/
def exNtsc : TrackBoxes := { sm := exSm 8, stts := [1, 8, 3003], stss := some [4, 1, 3, 5, 7], scale := 90000, visual := true }

/-- For a time scale that does not divide 10 MHz the list ends early: the key frame 2 is presented at 0.0667333 s, but the key frame looked up for that time is 0, so the list of the four key frames is 0, 2 (reported as 0), 2 again. -/
theorem gop_rounding_witness : shown (gopList (opened exNtsc) 0 90000000 9) = some [(0, 0), (0, 667333), (0, 667333)] := by decide +kernel

/-- Six key frames one after the other, each presented two frames after it is decoded. -/
def exShort : TrackBoxes :=
  { sm := exSm 6, stts := [1, 6, 1000], ctts := some [1, 6, 2000], stss := some [6, 1, 2, 3, 4, 5, 6], scale := 1000, visual := true }

/-- For key frames presented after the next one is decoded the list leaves key frames out, and the numbers are not those of the times: 0, then the time of 1 reported for 3, then the time of 4 reported for 5, then 5. -/
theorem gop_reorder_witness : shown (gopList (opened exShort) 0 900000000 9) = some [(0, 20000000), (3, 30000000), (5, 60000000), (5, 70000000), (5, 70000000)] := by
  decide +kernel

end Verif.Gop
