import Verif.Reader.Props
import Verif.Tables.PropsOrder
namespace Verif.Reader
open Verif.Tables Verif.RangeMap Verif.Reader.Spec
open Verif.Tables.Spec (expand)

/-! ### the loop over the delivered samples -/

/-- base media decode time after adding samples -/
def setBase (start : Nat) (base set : Option Nat) (out : List Sample) : Option Nat :=
  match set with
  | some b => some b
  | none => out.head?.map (baseTime start base)

theorem framesLoop_eq (t : Track) (id start stop : Nat) (base : Option Nat) :
    ∀ (fuel : Nat) (r : Reader) (ls : List (List Sample)) (set : Option Nat), List.Forall₂ Rem r.streams ls →
    Inside ls r.mdatEnd → r.mdatEnd < max64 → (ls.map List.length).sum < fuel →
    ∀ l, ls[id]? = some l → (∀ x ∈ l, x.composition + t.offset < 2 ^ 64) →
    let out := ((l.takeWhile (fun x => decide (pres t x < stop))).filter (fun x => decide (start ≤ pres t x))).map (toAdded t)
    framesLoop t id start stop base fuel r set = some (out, setBase start base set out) := by
  intro fuel
  induction fuel with
  | zero => intro r ls set _ _ _ h; omega
  | succ fuel ih =>
    intro r ls set h hin hmax hf l hl hfit
    rcases next_spec r ls h hin hmax with ⟨hall, r', e⟩ | ⟨s, k, x, r', e, e1, e2, _, e4, _, e6, _⟩
    · have := hall l (List.mem_of_getElem? hl)
      subst this
      cases set <;> simp [framesLoop, e, setBase]
    · have hlen := length_set_tail e1 e2
      have hrec := fun l' hl' hfit' set => ih r' (ls.set s k.tail) set e6 (e4 ▸ inside_set hin e1) (e4 ▸ hmax) (by omega) l' hl' hfit'
      have hget := set_get e1 hl
      by_cases hs : s = id
      · subst hs
        rw [e1] at hl; simp at hl; subst hl
        obtain ⟨l', rfl⟩ : ∃ l', k = x :: l' := by
          cases k with
          | nil => simp at e2
          | cons y l' => simp at e2; subst e2; exact ⟨l', rfl⟩
        simp only [if_true, List.tail_cons] at hget
        have hx : (x.composition + t.offset) % 2 ^ 64 = pres t x := Nat.mod_eq_of_lt (hfit x (by simp))
        simp only [framesLoop, e, ne_eq, not_true_eq_false, if_false, hx, ge_iff_le]
        by_cases h1 : stop ≤ pres t x
        · cases set <;> simp [h1, setBase, Nat.not_lt.2 h1]
        · have h1' : pres t x < stop := by omega
          simp only [if_neg h1, List.takeWhile_cons, h1', decide_true, if_true]
          by_cases h2 : pres t x < start
          · rw [if_pos h2, List.filter_cons, if_neg (by simp; omega)]
            exact hrec l' hget (fun y hy => hfit y (by simp [hy])) set
          · rw [if_neg h2, List.filter_cons, if_pos (by simp; omega)]
            rw [hrec l' hget (fun y hy => hfit y (by simp [hy]))]
            cases set <;> simp [setBase]
      · simp only [hs, if_false] at hget
        simp only [framesLoop, e, ne_eq, hs, not_false_eq_true, if_true]
        exact hrec l hget hfit set

/-! ### time tables -/

theorem startOf_succ (D : List Nat) (i d : Nat) (h : D[i]? = some d) : startOf D (i + 1) = startOf D i + d := by
  simp only [startOf]
  have hi : i < D.length := (List.getElem?_eq_some_iff.1 h).1
  rw [List.take_add_one, h]
  simp

theorem startOf_lt (D : List Nat) (hpos : ∀ d ∈ D, 0 < d) : ∀ (j i : Nat), i < j → j ≤ D.length → startOf D i < startOf D j := by
  intro j
  induction j with
  | zero => intro i h; omega
  | succ j ih =>
    intro i hi hj
    have hg : D[j]? = some D[j] := List.getElem?_eq_getElem (by omega)
    have h1 := startOf_succ D j _ hg
    have h2 := hpos D[j] (List.getElem_mem _)
    rcases Nat.lt_or_ge i j with h | h
    · have := ih i h (by omega); omega
    · have : i = j := by omega
      subst this; omega

theorem startOf_le (D : List Nat) (hpos : ∀ d ∈ D, 0 < d) (i j : Nat) (h : i ≤ j) (hj : j ≤ D.length) :
    startOf D i ≤ startOf D j := by
  rcases Nat.eq_or_lt_of_le h with rfl | h
  · exact Nat.le_refl _
  · exact Nat.le_of_lt (startOf_lt D hpos j i h hj)

theorem startOf_le_sum (D : List Nat) (i : Nat) : startOf D i ≤ D.sum := by
  have := List.take_append_drop i D
  conv => rhs; rw [← this, List.sum_append]
  simp [startOf]

theorem expand_pos {es : List (Nat × Nat)} (hpos : ∀ e ∈ es, 0 < e.1 ∧ 0 < e.2) : ∀ d ∈ expand es, 0 < d := by
  intro d hd
  simp only [expand, List.mem_flatMap, List.mem_replicate] at hd
  obtain ⟨e, he, _, rfl⟩ := hd
  exact (hpos e he).2

/-- beyond the end the lookup gives a number that no sample has -/
theorem decoding_beyond (es : List (Nat × Nat)) (hne : es ≠ []) (hpos : ∀ e ∈ es, 0 < e.1 ∧ 0 < e.2) (τ : Nat)
    (hτ : (expand es).sum ≤ τ) (h64 : (expand es).sum < 2 ^ 64) (hτ64 : τ < 2 ^ 64) :
    ∃ n, decodingSampleNumber (decRuns 0 0 es) τ = some n ∧ (expand es).length ≤ n := by
  have hne' : decRuns 0 0 es ≠ [] := by
    intro h; have := decRuns_length 0 0 es; rw [h] at this; simp at this; exact hne (List.length_eq_zero_iff.1 this.symm)
  obtain ⟨code, i, ⟨k, d⟩, g1, g2, g3⟩ := range_map_total (decRuns 0 0 es) τ hne'
  obtain ⟨e, he, hd, hk⟩ := decRuns_get es 0 0 i k d g2
  have hsplit := expand_split es i e he
  have hsum : (expand es).sum = (expand (es.take i)).sum + (e.1 * e.2 + (expand (es.drop (i + 1))).sum) := by
    rw [hsplit]; simp
  have hlen : (expand es).length = (expand (es.take i)).length + (e.1 + (expand (es.drop (i + 1))).length) := by
    rw [hsplit]; simp
  have hepos := hpos e (List.mem_of_getElem? he)
  simp only [Nat.zero_add] at hd hk
  -- the entry found is the last one
  have hlast : expand (es.drop (i + 1)) = [] := by
    rcases g3 with ⟨_, rfl, h⟩ | ⟨_, h, _⟩ | ⟨_, h1, h2, _⟩
    · simp only at h; omega
    · rw [decRuns_length] at h
      rw [List.drop_eq_nil_of_le (by omega)]; rfl
    · simp only at h1
      have : (expand (es.drop (i + 1))).sum = 0 := by omega
      by_contra hc
      obtain ⟨y, ys, hy⟩ := List.exists_cons_of_ne_nil hc
      have hy0 := expand_pos (es := es.drop (i + 1)) (fun e he => hpos e (List.mem_of_mem_drop he)) y (by rw [hy]; simp)
      rw [hy] at this; simp at this; omega
  rw [hlast] at hsum hlen
  simp only [List.sum_nil, List.length_nil, Nat.add_zero] at hsum hlen
  refine ⟨d.samples + (if d.delta = 0 then 0 else sub64 τ d.duration / d.delta), by simp only [decodingSampleNumber, g1], ?_⟩
  simp only [hd, show ¬ e.2 = 0 by omega, if_false]
  have hs : sub64 τ (expand (es.take i)).sum = τ - (expand (es.take i)).sum := by
    simp only [sub64]
    rw [show τ + 2 ^ 64 - (expand (es.take i)).sum = (τ - (expand (es.take i)).sum) + 2 ^ 64 by omega,
      Nat.add_mod_right, Nat.mod_eq_of_lt (by omega)]
  rw [hs, hlen]
  have : e.1 ≤ (τ - (expand (es.take i)).sum) / e.2 := by
    rw [Nat.le_div_iff_mul_le hepos.2]; omega
  omega

/-- the sample found for a decoding time: exactly the samples up to it have started -/
theorem decoding_number (es : List (Nat × Nat)) (hne : es ≠ []) (hpos : ∀ e ∈ es, 0 < e.1 ∧ 0 < e.2) (τ : Nat)
    (h64 : (expand es).sum < 2 ^ 64) (hτ64 : τ < 2 ^ 64) :
    ∃ n, decodingSampleNumber (decRuns 0 0 es) τ = some n ∧
      ∀ i, i < (expand es).length → (startOf (expand es) i ≤ τ ↔ i ≤ n) := by
  have hp := expand_pos hpos
  rcases Nat.lt_or_ge τ (expand es).sum with h | h
  · obtain ⟨s, n, h1, h2, h3, h4, h5⟩ := decoding_sample_read es hpos τ h h64 []
    obtain ⟨s', p1, _, p3⟩ := parse_stts_eq es []
    rw [p1] at h1; simp at h1; subst h1
    rw [p3] at h2
    refine ⟨n, h2, ?_⟩
    intro i hi
    constructor
    · intro hle
      by_contra hc
      have := startOf_le (expand es) hp (n + 1) i (by omega) (by omega)
      simp only [startOf] at *
      omega
    · intro hle
      have := startOf_le (expand es) hp i n hle (by omega)
      simp only [startOf] at *
      omega
  · obtain ⟨n, h1, h2⟩ := decoding_beyond es hne hpos τ h h64 hτ64
    refine ⟨n, h1, ?_⟩
    intro i hi
    have := startOf_le_sum (expand es) i
    constructor
    · intro _; omega
    · intro _; omega

/-! ### conversions -/

theorem hns_eq (x scale : Nat) (h : 10000000 * x < 2 ^ 64) : hns x scale = 10000000 * x / scale := by
  rw [hns, Nat.mod_eq_of_lt h]

theorem raw_hns_le (x scale : Nat) (h : 10000000 * x < 2 ^ 64) : raw (hns x scale) scale ≤ x := by
  rw [hns_eq x scale h, raw]
  have h1 : 10000000 * x / scale * scale ≤ 10000000 * x := Nat.div_mul_le_self _ _
  have h2 : 10000000 * x / scale * scale % 2 ^ 64 ≤ 10000000 * x := Nat.le_trans (Nat.mod_le _ _) h1
  calc _ ≤ 10000000 * x / 10000000 := Nat.div_le_div_right h2
    _ = x := Nat.mul_div_cancel_left x (by decide)

theorem raw_lt (x scale : Nat) : raw x scale < 2 ^ 64 := by
  rw [raw]
  have := Nat.mod_lt (x * scale) (show 0 < 2 ^ 64 by decide)
  exact Nat.lt_of_le_of_lt (Nat.div_le_self _ _) this

theorem raw_le (t scale : Nat) : 10000000 * raw t scale ≤ t * scale := by
  rw [raw]
  have h1 := Nat.mod_le (t * scale) (2 ^ 64)
  have h2 := Nat.mul_div_le (t * scale % 2 ^ 64) 10000000
  exact Nat.le_trans h2 h1

/-- a media time before the converted time is before the time -/
theorem hns_lt_of_lt_raw (x t scale : Nat) (hs : 0 < scale) (h : 10000000 * x < 2 ^ 64) (hx : x < raw t scale) :
    hns x scale < t := by
  rw [hns_eq x scale h, Nat.div_lt_iff_lt_mul hs]
  have := raw_le t scale
  omega

theorem hns_le_of_le_raw (x t scale : Nat) (hs : 0 < scale) (h : 10000000 * x < 2 ^ 64) (hx : x ≤ raw t scale) :
    hns x scale ≤ t := by
  rw [hns_eq x scale h]
  have := raw_le t scale
  have h2 : 10000000 * x / scale ≤ t * scale / scale := Nat.div_le_div_right (by omega)
  rwa [Nat.mul_div_cancel _ hs] at h2

theorem hns_mono (x y scale : Nat) (hxy : x ≤ y) (h : 10000000 * y < 2 ^ 64) : hns x scale ≤ hns y scale := by
  rw [hns_eq x scale (by omega), hns_eq y scale h]
  exact Nat.div_le_div_right (by omega)

/-! ### opened tracks -/

theorem openTrack_fields {b : TrackBoxes} {t : Track} (h : openTrack b = some t) :
    ∃ d c f, parseStts b.stts = some d ∧
      openCtts d.comps b.ctts = some c ∧ openStss b.stss = some f ∧
      t.sm = b.sm ∧ t.decMap = d.map ∧ t.comps = (match c with | some c => c.comps | none => d.comps) ∧
      t.hasCtts = b.ctts.isSome ∧ t.hasStss = b.stss.isSome ∧ t.iframes = f ∧ t.scale = b.scale ∧ t.elst = b.elst ∧
      t.mvhdScale = b.mvhdScale ∧ t.cttsCount = (b.ctts.getD []).headD 0 ∧ t.ltc = false := by
  simp only [openTrack, Option.bind_eq_bind, Option.bind_eq_some_iff, Option.pure_def, Option.some.injEq] at h
  obtain ⟨d, h1, c, h2, f, h3, rfl⟩ := h
  exact ⟨d, c, f, h1, h2, h3, rfl, rfl, rfl, rfl, rfl, rfl, rfl, rfl, rfl, rfl, rfl⟩

theorem timed_dec {b : TrackBoxes} {t : Track} {es : List (Nat × Nat)} (h : Timed b t es) :
    t.decMap = decRuns 0 0 es ∧ t.count = (expand es).length ∧ t.scale = b.scale ∧ 0 < (expand es).length := by
  obtain ⟨d, c, f, h1, _, _, h4, h5, _, _, _, _, h10, _⟩ := openTrack_fields h.opened
  obtain ⟨s, p1, _, p3⟩ := parse_stts_eq es []
  rw [show pairWords es ++ [] = b.stts by rw [h.stts, pairWords, List.append_nil], h1] at p1
  simp at p1; subst p1
  refine ⟨h5.trans p3, by rw [Track.count, h4, h.count], h10, ?_⟩
  obtain ⟨e, es', rfl⟩ := List.exists_cons_of_ne_nil h.ne
  have := (h.pos e (by simp)).1
  simp [expand]; omega

theorem timed_comps {b : TrackBoxes} {t : Track} {es : List (Nat × Nat)} (h : Timed b t es) (hc : b.ctts = none) :
    t.comps = compsOf (expand es) ∧ t.hasCtts = false ∧ t.cttsCount = 0 := by
  obtain ⟨d, c, f, h1, h2, _, h4, h5, h6, h7, _, _, _, _, _, h13, _⟩ := openTrack_fields h.opened
  obtain ⟨s, p1, p2, _⟩ := parse_stts_eq es []
  rw [show pairWords es ++ [] = b.stts by rw [h.stts, pairWords, List.append_nil], h1] at p1
  simp at p1; subst p1
  rw [hc] at h2 h7 h13
  simp [openCtts] at h2; subst h2
  exact ⟨h6.trans p2, h7, by simpa using h13⟩

end Verif.Reader
