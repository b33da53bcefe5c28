import Verif.Queue.Props

namespace Verif.Queue
open Spec (Item Op Answer stored unbounded contents)

theorem total_le {q : Ring} {l : List Item} (h : Inv q l) : 24 + total q.tsize l ≤ q.full := by
  have := h.least
  cases h.layout with
  | empty => rw [total_nil]; omega
  | flat hl seg h1 h2 h3 => omega
  | wrapped y ha segA segB link h1 h2 h3 gap => rw [total_append]; omega

/-- Without gaps, the space left is the rest of the block. -/
theorem space_le {q : Ring} {l : List Item} (h : Inv q l) (hl : l ≠ []) : q.tailSpace + q.headSpace ≤ (q.full : Int) - 24 - total q.tsize l := by
  cases h.layout with
  | empty => exact absurd rfl hl
  | flat hl seg h1 h2 h3 =>
    obtain ⟨s1, s2, _⟩ := space_flat h hl seg h3
    rw [s1, s2]; omega
  | wrapped y ha segA segB link h1 h2 h3 gap =>
    obtain ⟨s1, s2, _⟩ := space_wrapped h segB h2 h3
    rw [s1, s2, total_append]; push_cast; omega

theorem space_first {q : Ring} {l : List Item} (h : Inv q l) (hl : l ≠ []) (hf : q.first = 24) :
    q.headSpace = 0 ∧ q.tailSpace = (q.full : Int) - 24 - total q.tsize l := by
  cases h.layout with
  | empty => exact absurd rfl hl
  | flat hl seg h1 h2 h3 =>
    obtain ⟨s1, s2, _⟩ := space_flat h hl seg h3
    rw [s1, s2, hf]; constructor <;> rfl
  | wrapped y ha segA segB link h1 h2 h3 gap =>
    exfalso
    rw [hf, total_cons] at h2
    have := sz_ge q.tsize y
    omega

theorem sz_le_total {t : Nat} {x : Item} {l : List Item} (h : x ∈ l) : sz t x ≤ total t l := by
  induction l with
  | nil => cases h
  | cons y l ih =>
    rw [total_cons]
    rcases List.mem_cons.mp h with rfl | h
    · omega
    · have := ih h; omega

theorem Inv.head_length {q : Ring} {x : Item} {l : List Item} (h : Inv q (x :: l)) : x.head.length = q.tsize := by
  rw [← h.layout.head.head]; simp [load]

/-- An item that fits is written at once. -/
theorem push_fits {q : Ring} {l : List Item} (h : Inv q l) (ns : Ring → Option Ring) (fuel : Nat) (hf : 0 < fuel) (x : Item)
    (hx : x.head.length = q.tsize) (hb : x.bytes < 2 ^ 31) (hs : (sz q.tsize x : Int) ≤ q.tailSpace ∨ (sz q.tsize x : Int) ≤ q.headSpace) :
    push ns false fuel q x.head x.body = some (true, q.write (decide (q.tailSpace ≥ sz q.tsize x)) x.head x.body) := by
  obtain ⟨f, rfl⟩ : ∃ f, fuel = f + 1 := ⟨fuel - 1, by omega⟩
  simp only [push, makeRoom]
  rw [spaceOf_eq hx hb, if_neg (by omega)]
  simp only
  rw [if_neg (by omega)]

theorem write_first {q : Ring} {l : List Item} (h : Inv q l) (tail : Bool) (x : Item) (hf : l = [] ∨ q.first = 24) :
    (q.write tail x.head x.body).first = 24 := by
  rw [write_eq]
  obtain ⟨_, _, _, c4, _, _⟩ := counted_fields (if q.size ≠ 0 then (q.put (if tail = true ∧ q.size ≠ 0 then q.last + q.itemSize q.last else 24) x).store (q.last + 8)
    (bytes32 (if tail = true ∧ q.size ≠ 0 then q.last + q.itemSize q.last else 24)) else { (q.put (if tail = true ∧ q.size ≠ 0 then q.last + q.itemSize q.last else 24) x) with first := (if tail = true ∧ q.size ≠ 0 then q.last + q.itemSize q.last else 24) })
    (if tail = true ∧ q.size ≠ 0 then q.last + q.itemSize q.last else 24)
  refine c4.trans ?_
  by_cases hl : l = []
  · have hz : ¬ q.size ≠ 0 := by rw [h.size_ne]; simp [hl]
    simp [hz]
  · have hz : q.size ≠ 0 := h.size_ne.mpr hl
    rw [if_pos hz]
    rcases hf with hf | hf
    · exact absurd hf hl
    · exact hf

/-- The items are moved to the new block. -/
theorem copy_spec (ns : Ring → Option Ring) (pf : Nat) (hpf : 0 < pf) (rest : List Item) : ∀ (fuel : Nat) (owner q : Ring) (moved : List Item),
    rest.length < fuel → Inv owner rest → Inv q moved → (moved = [] ∨ q.first = 24) → owner.tsize = q.tsize →
    24 + total q.tsize moved + total q.tsize rest ≤ q.full →
    ∃ q', copyLoop ns pf fuel owner q = some q' ∧ Inv q' (moved ++ rest) ∧ q'.full = q.full ∧ q'.tsize = q.tsize ∧
      (moved ++ rest = [] ∨ q'.first = 24) := by
  induction rest with
  | nil =>
    intro fuel owner q moved hf ho hq hm ht hfit
    obtain ⟨f, rfl⟩ : ∃ f, fuel = f + 1 := ⟨fuel - 1, by simp at hf; omega⟩
    refine ⟨q, ?_, by simpa using hq, rfl, rfl, by simpa using hm⟩
    simp only [copyLoop]
    rw [if_neg]
    rw [ho.size_ne]; simp
  | cons x rest ih =>
    intro fuel owner q moved hf ho hq hm ht hfit
    obtain ⟨f, rfl⟩ : ∃ f, fuel = f + 1 := ⟨fuel - 1, by simp at hf; omega⟩
    rw [total_cons] at hfit
    have hx : x.head.length = q.tsize := by rw [← ht]; exact ho.head_length
    have hbytes : x.bytes < 2 ^ 31 := by
      have := hq.bound
      have : x.bytes = sz q.tsize x := by simp [Item.bytes, sz, hx]
      omega
    have hs : (sz q.tsize x : Int) ≤ q.tailSpace ∨ (sz q.tsize x : Int) ≤ q.headSpace := by
      by_cases hne : moved = []
      · subst hne
        right; rw [(space_empty hq).1]; rw [total_nil] at hfit; omega
      · left
        rw [(space_first hq hne (by rcases hm with h | h; exact absurd h hne; exact h)).2]; omega
    obtain ⟨w1, w2, w3⟩ := write_any hq x hx _ rfl hs
    have wf := write_first hq (decide (q.tailSpace ≥ sz q.tsize x)) x hm
    obtain ⟨d1, d2, d3⟩ := ho.deleteDirect
    obtain ⟨q', g1, g2, g3, g4, g5⟩ := ih f owner.deleteDirect _ (moved ++ [x]) (by simp at hf; omega) d1 w1 (Or.inr wf) (by rw [d3, w3, ht])
      (by rw [w3, w2, total_append, total_cons, total_nil]; omega)
    refine ⟨q', ?_, by simpa using g2, by rw [g3, w2], by rw [g4, w3], by simpa using g5⟩
    simp only [copyLoop]
    rw [if_pos (ho.size_ne.mpr (List.cons_ne_nil _ _)), ho.pick]
    simp only
    rw [push_fits hq ns pf hpf x hx hbytes hs]
    exact g1

/-- Growing keeps the items. -/
theorem regrow_spec (fresh : Nat → Mem) (pf cf d : Nat) {q : Ring} {l : List Item} (h : Inv q l) (h2 : q.full * 2 < 2 ^ 31) (hpf : 0 < pf)
    (hcf : l.length < cf) :
    ∃ q', regrow fresh pf cf (d + 1) q = some q' ∧ Inv q' l ∧ q'.full = q.full * 2 ∧ q'.tsize = q.tsize ∧ (l = [] ∨ q'.first = 24) := by
  have hleast := h.least
  have hle := total_le h
  obtain ⟨q', g1, g2, g3, g4, g5⟩ := copy_spec (regrow fresh pf cf d) pf hpf l cf q
    { allocate q.tsize (q.full * 2) (fresh (q.full * 2)) with overrun := q.overrun } [] hcf h
    ⟨h2, by show 24 ≤ q.full * 2; omega, rfl, h.safe, .empty⟩ (Or.inl rfl) rfl (by
      show 24 + total q.tsize [] + total q.tsize l ≤ q.full * 2
      rw [total_nil]; omega)
  exact ⟨q', g1, by simpa using g2, g3, g4, by simpa using g5⟩

/-- The bound on the size of the block: what it was, or four times what is needed. -/
theorem bound_step {F G b : Nat} (h : F * 2 ≤ b) (hG : G ≤ max (F * 2) b) : G ≤ max F b := by
  have : max (F * 2) b = b := by omega
  omega

theorem makeRoom_grow (fresh : Nat → Mem) (pf cf d : Nat) (hpf : 0 < pf) {l : List Item} (hl : l ≠ []) (hcf : l.length < cf) {s : Nat} (n : Nat) :
    ∀ (fuel : Nat) (q : Ring), Inv q l → 24 + total q.tsize l + s ≤ q.full * 2 ^ n → n + 1 < fuel → 48 + 4 * (total q.tsize l + s) < 2 ^ 31 →
      ∃ q', makeRoom (regrow fresh pf cf (d + 1)) false s fuel (q.tailSpace + q.headSpace) q.size q = some q' ∧ Inv q' l ∧ q'.tsize = q.tsize ∧
        q'.full ≤ max q.full (48 + 4 * (total q.tsize l + s)) ∧ ((s : Int) ≤ q'.tailSpace ∨ (s : Int) ≤ q'.headSpace) := by
  induction n with
  | zero =>
    intro fuel q h hn hf hb
    obtain ⟨f, rfl⟩ : ∃ f, fuel = f + 2 := ⟨fuel - 2, by omega⟩
    by_cases hfit : (s : Int) ≤ q.tailSpace ∨ (s : Int) ≤ q.headSpace
    · refine ⟨q, ?_, h, rfl, le_max_left _ _, hfit⟩
      simp only [makeRoom]
      rw [if_neg (by omega)]
    · have hr : q.full - 24 < 2 * (total q.tsize l + s) := by
        by_contra hc; exact hfit (room h (by omega))
      have hleast := h.least
      obtain ⟨q', g1, g2, g3, g4, g5⟩ := regrow_spec fresh pf cf d h (by omega) hpf hcf
      obtain ⟨e1, e2⟩ := space_first g2 hl (by rcases g5 with g | g; exact absurd g hl; exact g)
      have hsp := space_le h hl
      have hfit' : (s : Int) ≤ q'.tailSpace ∨ (s : Int) ≤ q'.headSpace := by
        left; rw [e2, g4, g3]; omega
      refine ⟨q', ?_, g2, g4, by rw [g3]; omega, hfit'⟩
      rw [makeRoom]
      rw [if_pos ⟨by omega, by omega, h.size_ne.mpr hl⟩, g1]
      simp only [Bool.false_eq_true, if_false]
      rw [if_neg (by rw [e1, e2, g4, g3]; omega)]
      simp only [makeRoom]
      rw [if_neg (by omega)]
  | succ n ih =>
    intro fuel q h hn hf hb
    obtain ⟨f, rfl⟩ : ∃ f, fuel = f + 1 := ⟨fuel - 1, by omega⟩
    by_cases hfit : (s : Int) ≤ q.tailSpace ∨ (s : Int) ≤ q.headSpace
    · refine ⟨q, ?_, h, rfl, le_max_left _ _, hfit⟩
      simp only [makeRoom]
      rw [if_neg (by omega)]
    · have hr : q.full - 24 < 2 * (total q.tsize l + s) := by
        by_contra hc; exact hfit (room h (by omega))
      have hleast := h.least
      obtain ⟨q', g1, g2, g3, g4, g5⟩ := regrow_spec fresh pf cf d h (by omega) hpf hcf
      obtain ⟨e1, e2⟩ := space_first g2 hl (by rcases g5 with g | g; exact absurd g hl; exact g)
      have hsp := space_le h hl
      obtain ⟨r, r1, r2, r3, r4, r5⟩ := ih f q' g2 (by rw [g4, g3, Nat.mul_assoc, ← Nat.pow_succ']; exact hn) (by omega) (by rw [g4]; exact hb)
      refine ⟨r, ?_, r2, by rw [r3, g4], ?_, r5⟩
      · rw [makeRoom]
        rw [if_pos ⟨by omega, by omega, h.size_ne.mpr hl⟩, g1]
        simp only [Bool.false_eq_true, if_false]
        rw [if_neg (by rw [e1, e2, g4, g3]; omega)]
        exact r1
      · rw [g4, g3] at r4
        exact bound_step (by omega) r4

theorem needRoom_grow (fresh : Nat → Mem) (pf cf d : Nat) (hpf : 0 < pf) (hcf : 0 < cf) {s : Nat} (n : Nat) :
    ∀ (fuel : Nat) (q : Ring), Inv q [] → 24 + s ≤ q.full * 2 ^ n → n < fuel → 48 + 4 * s < 2 ^ 31 → 0 < s →
      ∃ q', needRoom (regrow fresh pf cf (d + 1)) s fuel (q.tailSpace + q.headSpace) (q.tailSpace + q.headSpace) q = some (true, q') ∧ Inv q' [] ∧
        q'.tsize = q.tsize ∧ q'.full ≤ max q.full (48 + 4 * s) ∧ (s : Int) ≤ q'.headSpace := by
  have hdone : ∀ (fuel : Nat) (q : Ring), Inv q [] → 0 < fuel → 24 + s ≤ q.full →
      needRoom (regrow fresh pf cf (d + 1)) s fuel (q.tailSpace + q.headSpace) (q.tailSpace + q.headSpace) q = some (true, q) := by
    intro fuel q h hf hn
    obtain ⟨f, rfl⟩ : ∃ f, fuel = f + 1 := ⟨fuel - 1, by omega⟩
    obtain ⟨e1, e2⟩ := space_empty h
    simp only [needRoom]
    rw [if_neg (by omega)]
  induction n with
  | zero =>
    intro fuel q h hn hf hb _
    refine ⟨q, hdone fuel q h (by omega) (by omega), h, rfl, le_max_left _ _, ?_⟩
    rw [(space_empty h).1]; omega
  | succ n ih =>
    intro fuel q h hn hf hb hs
    by_cases hfit : 24 + s ≤ q.full
    · refine ⟨q, hdone fuel q h (by omega) hfit, h, rfl, le_max_left _ _, ?_⟩
      rw [(space_empty h).1]; omega
    · obtain ⟨f, rfl⟩ : ∃ f, fuel = f + 1 := ⟨fuel - 1, by omega⟩
      have hleast := h.least
      obtain ⟨e1, e2⟩ := space_empty h
      obtain ⟨q', g1, g2, g3, g4, g5⟩ := regrow_spec fresh pf cf d h (by omega) hpf (by simpa using hcf)
      obtain ⟨e3, e4⟩ := space_empty g2
      obtain ⟨r, r1, r2, r3, r4, r5⟩ := ih f q' g2 (by rw [g3, Nat.mul_assoc, ← Nat.pow_succ']; exact hn) (by omega) hb hs
      refine ⟨r, ?_, r2, by rw [r3, g4], ?_, r5⟩
      · rw [needRoom]
        rw [if_pos (Or.inl (by rw [e1, e2]; omega)), g1]
        simp only
        rw [if_neg (by rw [e1, e2, e3, e4, g3]; omega)]
        exact r1
      · rw [g3] at r4
        exact bound_step (by omega) r4

theorem enough (a F : Nat) (hF : 24 ≤ F) : a ≤ F * 2 ^ a := by
  have h1 : a < 2 ^ a := Nat.lt_two_pow_self
  have h2 : 1 * 2 ^ a ≤ F * 2 ^ a := Nat.mul_le_mul_right _ (by omega)
  omega

theorem length_le_total (t : Nat) (l : List Item) : l.length ≤ total t l := by
  induction l with
  | nil => simp
  | cons x l ih => rw [total_cons, List.length_cons]; have := sz_ge t x; omega

/-- `push` of the growing queue. -/
theorem push_grow (fresh : Nat → Mem) (fuel : Nat) {q : Ring} {l : List Item} (h : Inv q l) (x : Item) (hx : x.head.length = q.tsize)
    (hb : 48 + 4 * (total q.tsize l + sz q.tsize x) < 2 ^ 31) (hf : 2 ^ 31 ≤ fuel) :
    ∃ q', q.growPush fresh fuel x.head x.body = some (true, q') ∧ Inv q' (l ++ [x]) ∧ q'.tsize = q.tsize ∧
      q'.full ≤ max q.full (48 + 4 * (total q.tsize l + sz q.tsize x)) := by
  have hbytes : x.bytes = sz q.tsize x := by simp [Item.bytes, sz, hx]
  have hx31 : x.bytes < 2 ^ 31 := by omega
  obtain ⟨s, hs⟩ : ∃ s, s = sz q.tsize x := ⟨_, rfl⟩
  have hs12 : 12 ≤ s := by rw [hs]; exact sz_ge _ _
  have hlen := length_le_total q.tsize l
  obtain ⟨d, hd⟩ : ∃ d, fuel = d + 1 := ⟨fuel - 1, by omega⟩
  have hleast := h.least
  simp only [Ring.growPush, push]
  rw [spaceOf_eq hx hx31]
  rw [← hs] at hb
  simp only [← hs]
  have hdepth : regrow fresh fuel fuel fuel = regrow fresh fuel fuel (d + 1) := by rw [← hd]
  rw [hdepth]
  by_cases hl : l = []
  · subst hl
    have hm : makeRoom (regrow fresh fuel fuel (d + 1)) false s fuel (q.tailSpace + q.headSpace) q.size q = some q := by
      rw [hd, makeRoom, if_neg]
      rintro ⟨_, _, h'⟩
      rw [h.size_ne] at h'; exact h' rfl
    rw [hm]
    simp only
    rw [total_nil, Nat.zero_add] at hb ⊢
    by_cases hfit : (s : Int) ≤ q.tailSpace ∨ (s : Int) ≤ q.headSpace
    · rw [if_neg (by omega)]
      obtain ⟨w1, w2, w3⟩ := write_any h x hx (decide (q.tailSpace ≥ s)) (by rw [hs]) (by rw [← hs]; exact hfit)
      exact ⟨_, rfl, by simpa using w1, w3, by rw [w2]; exact le_max_left _ _⟩
    · rw [if_pos (by omega)]
      obtain ⟨q', g1, g2, g3, g4, g5⟩ := needRoom_grow fresh fuel fuel d (by omega) (by omega) (s := s) (24 + s) fuel q h (enough _ _ hleast) (by omega) hb (by omega)
      rw [g1]
      simp only
      obtain ⟨w1, w2, w3⟩ := write_empty g2 (decide (q.tailSpace ≥ s)) x (by rw [g3]; exact hx) (by rw [g3, ← hs]; exact g5)
      exact ⟨_, rfl, by simpa using w1, by rw [w3, g3], by rw [w2]; exact g4⟩
  · obtain ⟨q', g1, g2, g3, g4, g5⟩ := makeRoom_grow fresh fuel fuel d (by omega) hl (by omega) (s := s) (24 + total q.tsize l + s) fuel q h (enough _ _ hleast) (by omega) hb
    rw [g1]
    simp only
    rw [if_neg (by omega)]
    obtain ⟨w1, w2, w3⟩ := write_any g2 x (by rw [g3]; exact hx) (decide (q'.tailSpace ≥ s)) (by rw [g3, hs]) (by rw [g3, ← hs]; exact g5)
    exact ⟨_, rfl, w1, by rw [w3, g3], by rw [w2]; exact g4⟩

theorem grow_run (fresh : Nat → Mem) (t M S : Nat) (hM : 48 + 4 * M < 2 ^ 31) (fuel : Nat) (hf : 2 ^ 31 ≤ fuel) (ops : List Op) :
    (∀ x, .push x ∈ ops → x.head.length = t) → ∀ (q : Ring) (l : List Item), Inv q l → (∀ x ∈ l, x.head.length = t) → q.tsize = t → q.full ≤ max S (48 + 4 * M) →
      (∀ p, p <+: ops → stored (contents l p) ≤ M) →
      ∃ q', run (fun q => q.growPush fresh fuel) q ops = some (unbounded l ops, q') ∧ q'.overrun = false ∧ q'.full ≤ max S (48 + 4 * M) := by
  induction ops with
  | nil =>
    intro _ q l h _ _ hS _
    exact ⟨q, by simp [run, unbounded], h.safe, hS⟩
  | cons o ops ih =>
    intro hops q l h hl ht hS hp
    have ih' := ih (fun x hx => hops x (List.mem_cons_of_mem _ hx))
    cases o with
    | push x =>
      have hx := hops x List.mem_cons_self
      have hst : stored (l ++ [x]) ≤ M := by
        have := hp [.push x] ⟨ops, rfl⟩
        simpa [contents] using this
      have hall : ∀ y ∈ l ++ [x], y.head.length = t := by
        intro y hy
        rcases List.mem_append.mp hy with hy | hy
        · exact hl y hy
        · rw [List.mem_singleton.mp hy]; exact hx
      rw [stored_total hall, total_append, total_cons, total_nil, Nat.add_zero, ← ht] at hst
      obtain ⟨q', g1, g2, g3, g4⟩ := push_grow fresh fuel h x (by rw [ht]; exact hx) (by omega) hf
      obtain ⟨r, r1, r2, r3⟩ := ih' q' _ g2 hall (by rw [g3, ht]) (by omega) (fun p hpp => by
        have := hp (.push x :: p) (List.cons_prefix_cons.mpr ⟨rfl, hpp⟩)
        simpa [contents] using this)
      refine ⟨r, ?_, r2, r3⟩
      simp only [run, g1, r1, Option.map_some, unbounded]
    | pop b =>
      cases l with
      | nil =>
        obtain ⟨r, r1, r2, r3⟩ := ih' q [] h hl ht hS (fun p hpp => by
          have := hp (.pop b :: p) (List.cons_prefix_cons.mpr ⟨rfl, hpp⟩)
          simpa [contents] using this)
        refine ⟨r, ?_, r2, r3⟩
        simp only [run]
        rw [if_pos (by rw [h.size]; rfl), r1, Option.map_some]
        simp [unbounded]
      | cons x l =>
        have hz : ¬ q.size = 0 := h.size_ne.mpr (List.cons_ne_nil _ _)
        rcases pop_spec h b with ⟨n, rfl, hn, e1, e2, e3, e4⟩ | ⟨hn, e1, e2⟩
        · obtain ⟨r, r1, r2, r3⟩ := ih' _ l e2 (fun y hy => hl y (List.mem_cons_of_mem _ hy)) (by rw [e4, ht]) (by rw [e3]; exact hS) (fun p hpp => by
            have := hp (.pop (some n) :: p) (List.cons_prefix_cons.mpr ⟨rfl, hpp⟩)
            simpa [contents, hn] using this)
          refine ⟨r, ?_, r2, r3⟩
          simp only [run]
          rw [if_neg hz, e1, r1, Option.map_some]
          simp [unbounded, hn]
        · obtain ⟨r, r1, r2, r3⟩ := ih' q (x :: l) h hl ht hS (fun p hpp => by
            have := hp (.pop b :: p) (List.cons_prefix_cons.mpr ⟨rfl, hpp⟩)
            cases b with
            | none => simpa [contents] using this
            | some n => simpa [contents, Nat.not_le.mpr (hn n rfl)] using this)
          refine ⟨r, ?_, r2, r3⟩
          simp only [run]
          rw [if_neg hz, e1, e2, r1, Option.map_some]
          cases b with
          | none => simp [unbounded]
          | some n => simp [unbounded, Nat.not_le.mpr (hn n rfl)]
    | pick =>
      cases l with
      | nil =>
        obtain ⟨r, r1, r2, r3⟩ := ih' q [] h hl ht hS (fun p hpp => by
          have := hp (.pick :: p) (List.cons_prefix_cons.mpr ⟨rfl, hpp⟩)
          simpa [contents] using this)
        refine ⟨r, ?_, r2, r3⟩
        simp only [run]
        rw [if_pos (by rw [h.size]; rfl), r1, Option.map_some]
        simp [unbounded]
      | cons x l =>
        have hz : ¬ q.size = 0 := h.size_ne.mpr (List.cons_ne_nil _ _)
        obtain ⟨r, r1, r2, r3⟩ := ih' q (x :: l) h hl ht hS (fun p hpp => by
          have := hp (.pick :: p) (List.cons_prefix_cons.mpr ⟨rfl, hpp⟩)
          simpa [contents] using this)
        refine ⟨r, ?_, r2, r3⟩
        simp only [run]
        rw [if_neg hz, h.pick, r1, Option.map_some]
        simp [unbounded]
    | size =>
      obtain ⟨r, r1, r2, r3⟩ := ih' q l h hl ht hS (fun p hpp => by
        have := hp (.size :: p) (List.cons_prefix_cons.mpr ⟨rfl, hpp⟩)
        cases l <;> simpa [contents] using this)
      refine ⟨r, ?_, r2, r3⟩
      simp only [run]
      rw [h.size, r1, Option.map_some]
      cases l <;> simp [unbounded]
    | clear =>
      obtain ⟨r, r1, r2, r3⟩ := ih' q.clear [] h.clear (by simp) ht hS (fun p hpp => by
        have := hp (.clear :: p) (List.cons_prefix_cons.mpr ⟨rfl, hpp⟩)
        cases l <;> simpa [contents] using this)
      refine ⟨r, ?_, r2, r3⟩
      simp only [run]
      rw [r1, Option.map_some]
      cases l <;> simp [unbounded]

/-- C33: for every sequence of operations on a new growing queue of any size, whatever new blocks of memory contain: every operation returns, every
push is taken, the answers are those of an unbounded first-in first-out queue, nothing is stored outside the blocks, and the block is never larger
than it was or 48 bytes and four times the most that was stored. (The items stored at any time take `M` bytes at most, under 512 MB.) -/
theorem grow_unbounded (fresh : Nat → Mem) (t size : Nat) (h0 : 24 ≤ size) (h1 : size < 2 ^ 31) (m : Mem) (ops : List Op)
    (hops : ∀ x, .push x ∈ ops → x.head.length = t) (M : Nat) (hM : 48 + 4 * M < 2 ^ 31) (hp : ∀ p, p <+: ops → stored (contents [] p) ≤ M)
    (fuel : Nat) (hf : 2 ^ 31 ≤ fuel) :
    ∃ q', run (fun q => q.growPush fresh fuel) (allocate t size m) ops = some (unbounded [] ops, q') ∧ q'.overrun = false ∧
      q'.full ≤ max size (48 + 4 * M) :=
  grow_run fresh t M size hM fuel hf ops hops _ [] (Inv.allocate h0 h1) (by simp) rfl (le_max_left _ _) hp

/-- Three items of 20 bytes pushed to a queue with room for 16: the block grows. -/
example : (run (fun q => q.growPush (fun _ _ => 0xCD) 20) (allocate 4 40 fun _ => 0xCC)
    [.push ⟨[1, 1, 1, 1], [10, 11, 12, 13]⟩, .push ⟨[2, 2, 2, 2], [20, 21, 22, 23]⟩, .pop (some 4), .push ⟨[3, 3, 3, 3], [30, 31, 32, 33]⟩,
      .push ⟨[4, 4, 4, 4], [40, 41, 42, 43]⟩, .pop (some 4), .pop (some 4), .pop (some 4), .size]).map (fun r => (r.1, r.2.overrun, r.2.full))
    = some ([.pushed true, .pushed true, .item [1, 1, 1, 1] 4 (some [10, 11, 12, 13]), .pushed true, .pushed true,
      .item [2, 2, 2, 2] 4 (some [20, 21, 22, 23]), .item [3, 3, 3, 3] 4 (some [30, 31, 32, 33]),
      .item [4, 4, 4, 4] 4 (some [40, 41, 42, 43]), .size 0], false, 160) := by
  rfl

/-- The hypotheses are met. -/
example : ∃ q', run (fun q => q.growPush (fun _ _ => 0xCD) (2 ^ 31)) (allocate 4 40 fun _ => 0xCC)
    [.push ⟨[1, 1, 1, 1], [10, 11, 12, 13]⟩, .push ⟨[2, 2, 2, 2], [20, 21, 22, 23]⟩, .pop (some 4)] =
      some ([.pushed true, .pushed true, .item [1, 1, 1, 1] 4 (some [10, 11, 12, 13])], q') ∧ q'.overrun = false ∧ q'.full ≤ 208 := by
  refine grow_unbounded (fun _ _ => 0xCD) 4 40 (by decide) (by decide) (fun _ => 0xCC) _ ?_ 40 (by decide) ?_ _ (le_refl _)
  · simp
  · intro p hp
    have : p ∈ List.inits [Op.push ⟨[1, 1, 1, 1], [10, 11, 12, 13]⟩, .push ⟨[2, 2, 2, 2], [20, 21, 22, 23]⟩, .pop (some 4)] := (List.mem_inits _ _).mpr hp
    simp at this
    rcases this with rfl | rfl | rfl | rfl <;> simp [contents, stored, Item.bytes]

end Verif.Queue
