import Verif.Queue.Model
import Verif.Queue.Spec
import Mathlib.Tactic

namespace Verif.Queue
open Spec (Item stored)

theorem get32_congr {m m' : Mem} {off : Nat} (h : ∀ i, off ≤ i → i < off + 4 → m' i = m i) : get32 m' off = get32 m off := by
  simp only [get32]
  rw [h off (by omega) (by omega), h (off + 1) (by omega) (by omega), h (off + 2) (by omega) (by omega), h (off + 3) (by omega) (by omega)]

theorem load_congr {m m' : Mem} {off n : Nat} (h : ∀ i, off ≤ i → i < off + n → m' i = m i) : load m' off n = load m off n := by
  simp only [load]
  apply List.map_congr_left
  intro i hi
  exact h _ (by omega) (by have := List.mem_range.mp hi; omega)

theorem bytes32_length (v : Nat) : (bytes32 v).length = 4 := rfl

/-- The bytes of a number, read back. -/
theorem get32_of {m : Mem} {off v : Nat} (hv : v < 2 ^ 32) (h : ∀ i, i < 4 → m (off + i) = (bytes32 v).getD i 0) : get32 m off = v := by
  have h0 := h 0 (by omega)
  have h1 := h 1 (by omega)
  have h2 := h 2 (by omega)
  have h3 := h 3 (by omega)
  rw [Nat.add_zero] at h0
  simp only [get32, h0, h1, h2, h3, bytes32, List.getD_cons_zero, List.getD_cons_succ, UInt8.toNat_ofNat']
  omega

theorem load_of {m : Mem} {off : Nat} {bs : List UInt8} (h : ∀ i, i < bs.length → m (off + i) = bs.getD i 0) : load m off bs.length = bs := by
  apply List.ext_getElem
  · simp [load]
  · intro i h1 h2
    simp only [load, List.getElem_map, List.getElem_range]
    rw [h i h2]
    simp [List.getD_eq_getElem?_getD, List.getElem?_eq_getElem h2]

/-! ### Stores -/

theorem store_in (q : Ring) (off : Nat) (bs : List UInt8) (i : Nat) (h : i < bs.length) : (q.store off bs).mem (off + i) = bs.getD i 0 := by
  simp only [Ring.store]
  rw [if_pos (by omega)]
  congr 1
  omega

theorem store_out (q : Ring) (off : Nat) (bs : List UInt8) (i : Nat) (h : i < off ∨ off + bs.length ≤ i) : (q.store off bs).mem i = q.mem i := by
  simp only [Ring.store]
  rw [if_neg (by omega)]

theorem store_overrun (q : Ring) (off : Nat) (bs : List UInt8) (h0 : q.overrun = false) (h1 : 24 ≤ off) (h2 : off + bs.length ≤ q.full) :
    (q.store off bs).overrun = false := by
  simp [Ring.store, h0, h1, h2]

/-! ### Items in memory -/

/-- The bytes an item takes in the queue. -/
def sz (t : Nat) (x : Item) : Nat := 12 + t + x.body.length

def total (t : Nat) (l : List Item) : Nat := (l.map (sz t)).sum

theorem total_nil (t : Nat) : total t [] = 0 := rfl
theorem total_cons (t : Nat) (x : Item) (l : List Item) : total t (x :: l) = sz t x + total t l := by simp [total]
theorem total_append (t : Nat) (a b : List Item) : total t (a ++ b) = total t a + total t b := by simp [total]
theorem total_drop (t : Nat) (l : List Item) (k : Nat) : total t (l.drop k) ≤ total t l := by
  have := total_append t (l.take k) (l.drop k)
  rw [List.take_append_drop] at this
  omega

/-- The item at an offset. -/
structure Holds (m : Mem) (t off : Nat) (x : Item) : Prop where
  length : get32 m (off + 4) = x.body.length
  head : load m (off + 12) t = x.head
  body : load m (off + 12 + t) x.body.length = x.body

/-- Items one after the other. -/
def Seg (m : Mem) (t : Nat) : Nat → List Item → Prop
  | _, [] => True
  | off, [x] => Holds m t off x
  | off, x :: y :: l => Holds m t off x ∧ get32 m (off + 8) = off + sz t x ∧ Seg m t (off + sz t x) (y :: l)

/-- The offset of the last item. -/
def lastOff (t off : Nat) (l : List Item) : Nat := off + total t l.dropLast

theorem lastOff_cons (t off : Nat) (x y : Item) (l : List Item) : lastOff t off (x :: y :: l) = lastOff t (off + sz t x) (y :: l) := by
  simp only [lastOff, List.dropLast_cons₂, total_cons]
  omega

theorem total_last (t : Nat) (l : List Item) (h : l ≠ []) : total t l = total t l.dropLast + sz t (l.getLast h) := by
  conv_lhs => rw [← List.dropLast_append_getLast h]
  rw [total_append, total_cons, total_nil]
  omega

theorem Holds.congr {m m' : Mem} {t off : Nat} {x : Item} (h : Holds m t off x)
    (hm : ∀ i, off + 4 ≤ i → i < off + sz t x → (i < off + 8 ∨ off + 12 ≤ i) → m' i = m i) : Holds m' t off x := by
  simp only [sz] at hm
  refine ⟨?_, ?_, ?_⟩
  · rw [get32_congr (m := m) fun i h1 h2 => hm i (by omega) (by omega) (by omega)]; exact h.length
  · rw [load_congr (m := m) fun i h1 h2 => hm i (by omega) (by omega) (by omega)]; exact h.head
  · rw [load_congr (m := m) fun i h1 h2 => hm i (by omega) (by omega) (by omega)]; exact h.body

theorem sz_ge (t : Nat) (x : Item) : 12 ≤ sz t x := by simp only [sz]; omega

/-- Items are not changed by stores elsewhere, or in the last one's link. -/
theorem Seg.congr {m m' : Mem} {t : Nat} : ∀ (l : List Item) {off : Nat}, Seg m t off l →
    (∀ i, off ≤ i → i < off + total t l → (i < lastOff t off l + 8 ∨ lastOff t off l + 12 ≤ i) → m' i = m i) → Seg m' t off l := by
  intro l
  induction l with
  | nil => intros; trivial
  | cons x l ih =>
    intro off h hm
    cases l with
    | nil =>
      refine Holds.congr h fun i h1 h2 h3 => hm i (by omega) ?_ ?_
      · rw [total_cons, total_nil]; omega
      · simp only [lastOff, List.dropLast_singleton, total_nil]; omega
    | cons y l =>
      obtain ⟨h1, h2, h3⟩ := h
      rw [total_cons] at hm
      have hl : off + sz t x ≤ lastOff t off (x :: y :: l) := by rw [lastOff_cons]; simp only [lastOff]; omega
      have := sz_ge t x
      refine ⟨h1.congr fun i a b c => hm i (by omega) (by omega) (by omega), ?_, ?_⟩
      · rw [get32_congr (m := m) fun i a b => hm i (by omega) (by omega) (by omega)]; exact h2
      · refine ih h3 fun i a b c => hm i (by omega) (by omega) ?_
        rw [lastOff_cons]; exact c

theorem Seg.last {m : Mem} {t : Nat} : ∀ (l : List Item) {off : Nat} (h : l ≠ []), Seg m t off l → Holds m t (lastOff t off l) (l.getLast h) := by
  intro l
  induction l with
  | nil => intro _ h; exact absurd rfl h
  | cons x l ih =>
    intro off hne h
    cases l with
    | nil => exact h
    | cons y l =>
      rw [lastOff_cons, List.getLast_cons (List.cons_ne_nil y l)]
      exact ih (List.cons_ne_nil y l) h.2.2

/-- One more item. -/
theorem Seg.snoc {m : Mem} {t : Nat} (x : Item) : ∀ (l : List Item) {off : Nat}, l ≠ [] → Seg m t off l → get32 m (lastOff t off l + 8) = off + total t l →
    Holds m t (off + total t l) x → Seg m t off (l ++ [x]) := by
  intro l
  induction l with
  | nil => intro _ h; exact absurd rfl h
  | cons y l ih =>
    intro off _ h hl hx
    cases l with
    | nil =>
      simp only [total_cons, total_nil, Nat.add_zero, lastOff, List.dropLast_singleton] at hl hx
      exact ⟨h, hl, hx⟩
    | cons z l =>
      rw [lastOff_cons, total_cons, ← Nat.add_assoc] at hl
      rw [total_cons, ← Nat.add_assoc] at hx
      exact ⟨h.1, h.2.1, ih (List.cons_ne_nil z l) h.2.2 hl hx⟩

theorem Seg.head {m : Mem} {t off : Nat} {x : Item} {l : List Item} (h : Seg m t off (x :: l)) : Holds m t off x := by
  cases l with
  | nil => exact h
  | cons y l => exact h.1

theorem lastOff_snoc (t off : Nat) (l : List Item) (x : Item) : lastOff t off (l ++ [x]) = off + total t l := by
  simp [lastOff]

/-! ### The invariant -/

/-- Where the items are: one after the other, or some of them at the end of the block and the others at its start. -/
inductive Layout (q : Ring) : List Item → Prop
  | empty : Layout q []
  | flat {l : List Item} (hl : l ≠ []) (seg : Seg q.mem q.tsize q.first l) (h1 : 24 ≤ q.first) (h2 : q.first + total q.tsize l ≤ q.full)
      (h3 : q.last = lastOff q.tsize q.first l) : Layout q l
  | wrapped {a b : List Item} (y : Item) (ha : a ≠ []) (segA : Seg q.mem q.tsize q.first a) (segB : Seg q.mem q.tsize 24 (y :: b))
      (link : get32 q.mem (lastOff q.tsize q.first a + 8) = 24) (h1 : q.first + total q.tsize a ≤ q.full)
      (h2 : 24 + total q.tsize (y :: b) ≤ q.first) (h3 : q.last = lastOff q.tsize 24 (y :: b))
      (gap : q.full < q.first + total q.tsize a + sz q.tsize y) : Layout q (a ++ y :: b)

structure Inv (q : Ring) (l : List Item) : Prop where
  bound : q.full < 2 ^ 31
  least : 24 ≤ q.full
  count : q.written = q.deleted + l.length
  safe : q.overrun = false
  layout : Layout q l

theorem Inv.size {q : Ring} {l : List Item} (h : Inv q l) : q.size = l.length := by
  have := h.count
  simp only [Ring.size]
  omega

theorem Inv.size_ne {q : Ring} {l : List Item} (h : Inv q l) : q.size ≠ 0 ↔ l ≠ [] := by
  rw [h.size, ← List.length_pos_iff_ne_nil]
  omega

theorem Holds.itemSize {q : Ring} {off : Nat} {x : Item} (h : Holds q.mem q.tsize off x) : q.itemSize off = sz q.tsize x := by
  simp only [Ring.itemSize, sz, h.length]

theorem space_empty {q : Ring} (h : Inv q []) : q.headSpace = (q.full : Int) - 24 ∧ q.tailSpace = 0 := by
  have := h.count
  simp only [List.length_nil, Nat.add_zero] at this
  simp [Ring.headSpace, Ring.tailSpace, this]

theorem space_flat {q : Ring} {l : List Item} (h : Inv q l) (hl : l ≠ []) (seg : Seg q.mem q.tsize q.first l)
    (h3 : q.last = lastOff q.tsize q.first l) :
    q.headSpace = (q.first : Int) - 24 ∧ q.tailSpace = (q.full : Int) - q.first - total q.tsize l ∧
      q.last + q.itemSize q.last = q.first + total q.tsize l := by
  have hc : q.written ≠ q.deleted := by
    have := h.count; have := List.length_pos_iff_ne_nil.mpr hl; omega
  have hi := (Seg.last l hl seg).itemSize
  have ht := total_last q.tsize l hl
  rw [← h3] at hi
  have hlo : q.last = q.first + total q.tsize l.dropLast := h3
  have hnot : ¬ q.last < q.first := by omega
  refine ⟨?_, ?_, ?_⟩
  · simp only [Ring.headSpace, if_neg hc, if_neg hnot]
  · simp only [Ring.tailSpace, if_neg hc, if_neg hnot, hi]
    omega
  · rw [hi]; omega

theorem space_wrapped {q : Ring} {a b : List Item} {y : Item} (h : Inv q (a ++ y :: b)) (segB : Seg q.mem q.tsize 24 (y :: b))
    (h2 : 24 + total q.tsize (y :: b) ≤ q.first) (h3 : q.last = lastOff q.tsize 24 (y :: b)) :
    q.headSpace = 0 ∧ q.tailSpace = (q.first : Int) - 24 - total q.tsize (y :: b) ∧
      q.last + q.itemSize q.last = 24 + total q.tsize (y :: b) := by
  have hc : q.written ≠ q.deleted := by
    have := h.count; simp only [List.length_append, List.length_cons] at this; omega
  have hne : y :: b ≠ [] := List.cons_ne_nil _ _
  have hi := (Seg.last (y :: b) hne segB).itemSize
  have ht := total_last q.tsize (y :: b) hne
  rw [← h3] at hi
  have hlo : q.last = 24 + total q.tsize (y :: b).dropLast := h3
  have := sz_ge q.tsize ((y :: b).getLast hne)
  have hlt : q.last < q.first := by omega
  refine ⟨?_, ?_, ?_⟩
  · simp only [Ring.headSpace, if_neg hc, if_pos hlt]
  · simp only [Ring.tailSpace, if_neg hc, if_pos hlt, hi]
    omega
  · rw [hi]; omega

/-! ### Removing -/

/-- The next item is what `pick` returns. -/
theorem Layout.head {q : Ring} {x : Item} {l : List Item} (h : Layout q (x :: l)) : Holds q.mem q.tsize q.first x := by
  obtain ⟨l', hl'⟩ : ∃ l', l' = x :: l := ⟨_, rfl⟩
  rw [← hl'] at h
  cases h with
  | empty => cases hl'
  | flat hl seg => subst hl'; exact seg.head
  | wrapped y ha segA segB link h1 h2 h3 gap =>
    rename_i a b
    cases a with
    | nil => exact absurd rfl ha
    | cons z a =>
      simp only [List.cons_append, List.cons.injEq] at hl'
      obtain ⟨rfl, _⟩ := hl'
      exact segA.head

theorem Inv.pick {q : Ring} {x : Item} {l : List Item} (h : Inv q (x :: l)) : q.pick = (x.head, x.body.length, x.body) := by
  have := h.layout.head
  simp only [Ring.pick, this.length, this.head, this.body]

theorem Inv.deleteDirect {q : Ring} {x : Item} {l : List Item} (h : Inv q (x :: l)) :
    Inv q.deleteDirect l ∧ q.deleteDirect.full = q.full ∧ q.deleteDirect.tsize = q.tsize := by
  have hc := h.count
  simp only [List.length_cons] at hc
  have hs : ({ q with deleted := q.deleted + 1 } : Ring).size = l.length := by simp only [Ring.size]; omega
  by_cases hl : l = []
  · subst hl
    have he : q.deleteDirect = { q with deleted := q.deleted + 1 } := by
      simp only [Ring.deleteDirect]
      rw [if_neg (by rw [hs]; simp)]
    rw [he]
    exact ⟨⟨h.bound, h.least, by simp only [List.length_nil] at hc ⊢; omega, h.safe, .empty⟩, rfl, rfl⟩
  · have he : q.deleteDirect = { q with deleted := q.deleted + 1, first := get32 q.mem (q.first + 8) } := by
      simp only [Ring.deleteDirect]
      rw [if_pos]
      rw [hs]
      have := List.length_pos_iff_ne_nil.mpr hl
      omega
    rw [he]
    refine ⟨⟨h.bound, h.least, by show q.written = q.deleted + 1 + _; omega, h.safe, ?_⟩, rfl, rfl⟩
    have hlay := h.layout
    obtain ⟨l', hl'⟩ : ∃ l', l' = x :: l := ⟨_, rfl⟩
    rw [← hl'] at hlay
    cases hlay with
    | empty => cases hl'
    | flat _ seg h1 h2 h3 =>
      subst hl'
      cases l with
      | nil => exact absurd rfl hl
      | cons y l =>
        obtain ⟨s1, s2, s3⟩ := seg
        rw [total_cons] at h2
        rw [lastOff_cons] at h3
        refine .flat hl ?_ ?_ ?_ ?_
        · show Seg q.mem q.tsize (get32 q.mem (q.first + 8)) _
          rw [s2]; exact s3
        · show 24 ≤ get32 q.mem (q.first + 8)
          rw [s2]; omega
        · show get32 q.mem (q.first + 8) + _ ≤ q.full
          rw [s2]
          show _ + total q.tsize _ ≤ _
          omega
        · show q.last = lastOff q.tsize (get32 q.mem (q.first + 8)) _
          rw [s2]; exact h3
    | wrapped y ha segA segB link h1 h2 h3 gap =>
      rename_i a b
      cases a with
      | nil => exact absurd rfl ha
      | cons z a =>
        simp only [List.cons_append, List.cons.injEq] at hl'
        obtain ⟨rfl, hl'⟩ := hl'
        subst hl'
        cases a with
        | nil =>
          simp only [lastOff, List.dropLast_singleton, total_nil, Nat.add_zero] at link
          refine .flat (List.cons_ne_nil _ _) ?_ ?_ ?_ ?_
          · show Seg q.mem q.tsize (get32 q.mem (q.first + 8)) _
            rw [link]; exact segB
          · show 24 ≤ get32 q.mem (q.first + 8)
            omega
          · show get32 q.mem (q.first + 8) + total q.tsize (y :: b) ≤ q.full
            omega
          · show q.last = lastOff q.tsize (get32 q.mem (q.first + 8)) _
            rw [link]; exact h3
        | cons w a =>
          obtain ⟨s1, s2, s3⟩ := segA
          rw [total_cons] at h1 gap
          rw [lastOff_cons] at link
          refine .wrapped y (List.cons_ne_nil _ _) ?_ segB ?_ ?_ ?_ h3 ?_
          · show Seg q.mem q.tsize (get32 q.mem (q.first + 8)) _
            rw [s2]; exact s3
          · show get32 q.mem (lastOff q.tsize (get32 q.mem (q.first + 8)) _ + 8) = 24
            rw [s2]; exact link
          · show get32 q.mem (q.first + 8) + total q.tsize _ ≤ q.full
            omega
          · show 24 + total q.tsize (y :: b) ≤ get32 q.mem (q.first + 8)
            omega
          · show q.full < get32 q.mem (q.first + 8) + total q.tsize _ + sz q.tsize y
            omega

/-! ### Adding -/

/-- The memory after an item has been written, before the link is set. -/
def Ring.put (q : Ring) (off : Nat) (x : Item) : Ring :=
  ((q.store off (bytes32 0x200 ++ bytes32 x.body.length ++ bytes32 (2 ^ 31))).store (off + 12) x.head).store (off + 12 + q.tsize) x.body

theorem put_out (q : Ring) (off : Nat) (x : Item) (hx : x.head.length = q.tsize) (i : Nat) (h : i < off ∨ off + sz q.tsize x ≤ i) :
    (q.put off x).mem i = q.mem i := by
  simp only [sz] at h
  simp only [Ring.put]
  rw [store_out _ _ _ _ (by omega), store_out _ _ _ _ (by omega), store_out _ _ _ _ (by simp [bytes32_length]; omega)]

theorem put_holds (q : Ring) (off : Nat) (x : Item) (hx : x.head.length = q.tsize) (hb : x.body.length < 2 ^ 31) :
    Holds (q.put off x).mem q.tsize off x := by
  refine ⟨?_, ?_, ?_⟩
  · apply get32_of (by omega)
    intro i hi
    simp only [Ring.put]
    rw [store_out _ _ _ _ (by omega), store_out _ _ _ _ (by omega), Nat.add_assoc, store_in _ _ _ _ (by simp [bytes32_length]; omega)]
    have : i = 0 ∨ i = 1 ∨ i = 2 ∨ i = 3 := by omega
    rcases this with rfl | rfl | rfl | rfl <;> rfl
  · rw [← hx]
    apply load_of
    intro i hi
    simp only [Ring.put]
    rw [store_out _ _ _ _ (by omega), store_in _ _ _ _ hi]
  · apply load_of
    intro i hi
    simp only [Ring.put]
    rw [store_in _ _ _ _ hi]

theorem put_fields (q : Ring) (off : Nat) (x : Item) : (q.put off x).full = q.full ∧ (q.put off x).first = q.first ∧ (q.put off x).last = q.last ∧
    (q.put off x).written = q.written ∧ (q.put off x).deleted = q.deleted ∧ (q.put off x).tsize = q.tsize := ⟨rfl, rfl, rfl, rfl, rfl, rfl⟩

theorem put_safe (q : Ring) (off : Nat) (x : Item) (hx : x.head.length = q.tsize) (h0 : q.overrun = false) (h1 : 24 ≤ off)
    (h2 : off + sz q.tsize x ≤ q.full) : (q.put off x).overrun = false := by
  simp only [sz] at h2
  simp only [Ring.put]
  refine store_overrun _ _ _ (store_overrun _ _ _ (store_overrun _ _ _ h0 h1 ?_) (by omega) ?_) (by omega) ?_
  · simp only [List.length_append, bytes32_length]; omega
  · show _ ≤ q.full; omega
  · show _ ≤ q.full; omega

/-- The last step of `write`: the counters. -/
def Ring.counted (r : Ring) (off : Nat) : Ring :=
  let r := { r with last := off, written := r.written + 1 }
  if r.written > 2 ^ 31 - 1 - 10 then { r with written := r.written - r.deleted, deleted := 0 } else r

theorem write_eq (q : Ring) (tail : Bool) (x : Item) :
    q.write tail x.head x.body =
      let off := if tail ∧ q.size ≠ 0 then q.last + q.itemSize q.last else 24
      let r := q.put off x
      Ring.counted (if q.size ≠ 0 then r.store (q.last + 8) (bytes32 off) else { r with first := off }) off := rfl

theorem counted_fields (r : Ring) (off : Nat) : (r.counted off).mem = r.mem ∧ (r.counted off).tsize = r.tsize ∧ (r.counted off).full = r.full ∧
    (r.counted off).first = r.first ∧ (r.counted off).last = off ∧ (r.counted off).overrun = r.overrun := by
  simp only [Ring.counted]
  split <;> simp

theorem counted_count (r : Ring) (off n : Nat) (h : r.written = r.deleted + n) : (r.counted off).written = (r.counted off).deleted + (n + 1) := by
  simp only [Ring.counted]
  split
  · show r.written + 1 - r.deleted = 0 + (n + 1)
    omega
  · show r.written + 1 = r.deleted + (n + 1)
    omega

/-- Adding to an empty queue. -/
theorem write_empty {q : Ring} (h : Inv q []) (tail : Bool) (x : Item) (hx : x.head.length = q.tsize) (hs : (sz q.tsize x : Int) ≤ q.headSpace) :
    Inv (q.write tail x.head x.body) [x] ∧ (q.write tail x.head x.body).full = q.full ∧ (q.write tail x.head x.body).tsize = q.tsize := by
  have hz : ¬ q.size ≠ 0 := by rw [h.size_ne]; simp
  have hfit : 24 + sz q.tsize x ≤ q.full := by
    have := h.least
    rw [(space_empty h).1] at hs
    omega
  have hb : x.body.length < 2 ^ 31 := by
    have := h.bound; simp only [sz] at hfit; omega
  rw [write_eq]
  simp only [hz, and_false, if_false]
  obtain ⟨c1, c2, c3, c4, c5, c6⟩ := counted_fields { (q.put 24 x) with first := 24 } 24
  have hcount := counted_count { (q.put 24 x) with first := 24 } 24 0 (h.count)
  generalize hr : Ring.counted { (q.put 24 x) with first := 24 } 24 = r at *
  have c1' : r.mem = (q.put 24 x).mem := c1
  have c2' : r.tsize = q.tsize := c2
  have c3' : r.full = q.full := c3
  have c4' : r.first = 24 := c4
  refine ⟨⟨by rw [c3']; exact h.bound, by rw [c3']; exact h.least, hcount, ?_, ?_⟩, c3', c2'⟩
  · rw [c6]; exact put_safe q 24 x hx h.safe (by omega) hfit
  · refine .flat (by simp) ?_ (by omega) ?_ ?_
    · rw [c1', c2', c4']; exact put_holds q 24 x hx hb
    · rw [c2', c3', c4', total_cons, total_nil]; omega
    · rw [c4', c5, c2']; rfl

/-- Adding after the last item, or in front of the first one. -/
theorem write_more {q : Ring} {l : List Item} (h : Inv q l) (hl : l ≠ []) (x : Item) (hx : x.head.length = q.tsize) (tail : Bool)
    (ht : tail = decide (q.tailSpace ≥ sz q.tsize x)) (hs : (sz q.tsize x : Int) ≤ q.tailSpace ∨ (sz q.tsize x : Int) ≤ q.headSpace) :
    Inv (q.write tail x.head x.body) (l ++ [x]) ∧ (q.write tail x.head x.body).full = q.full ∧ (q.write tail x.head x.body).tsize = q.tsize := by
  have hz : q.size ≠ 0 := by rw [h.size_ne]; exact hl
  have hszx := sz_ge q.tsize x
  rw [write_eq]
  simp only [hz, ne_eq, not_false_eq_true, and_true, if_true]
  obtain ⟨off, hoff⟩ : ∃ off, off = if tail = true then q.last + q.itemSize q.last else 24 := ⟨_, rfl⟩
  rw [← hoff]
  obtain ⟨c1, c2, c3, c4, c5, c6⟩ := counted_fields ((q.put off x).store (q.last + 8) (bytes32 off)) off
  have hcount := counted_count ((q.put off x).store (q.last + 8) (bytes32 off)) off l.length h.count
  generalize hr : Ring.counted ((q.put off x).store (q.last + 8) (bytes32 off)) off = r at *
  have c2' : r.tsize = q.tsize := c2
  have c3' : r.full = q.full := c3
  have c4' : r.first = q.first := c4
  -- what the memory looks like
  have hmem : ∀ i, (i < off ∨ off + sz q.tsize x ≤ i) → (i < q.last + 8 ∨ q.last + 12 ≤ i) → r.mem i = q.mem i := by
    intro i h1 h2
    rw [c1, store_out _ _ _ _ (by rw [bytes32_length]; omega), put_out _ _ _ hx _ h1]
  have hlink : off < 2 ^ 32 → get32 r.mem (q.last + 8) = off := by
    intro hlt
    apply get32_of hlt
    intro i hi
    rw [c1, store_in _ _ _ _ (by rw [bytes32_length]; omega)]
  have hitem : x.body.length < 2 ^ 31 → (q.last + 12 ≤ off ∨ off + sz q.tsize x ≤ q.last) → Holds r.mem r.tsize off x := by
    intro hb hd
    rw [c2']
    refine (put_holds q off x hx hb).congr fun i h1 h2 h3 => ?_
    rw [c1, store_out _ _ _ _ (by rw [bytes32_length]; omega)]
  have hsafe : 24 ≤ off → off + sz q.tsize x ≤ q.full → 24 ≤ q.last → q.last + 12 ≤ q.full → r.overrun = false := by
    intro h1 h2 h3 h4
    rw [c6]
    exact store_overrun _ _ _ (put_safe q off x hx h.safe h1 h2) (by omega) (by rw [bytes32_length]; exact h4)
  have hinv : r.overrun = false → Layout r (l ++ [x]) → Inv r (l ++ [x]) ∧ r.full = q.full ∧ r.tsize = q.tsize := by
    intro h1 h2
    refine ⟨⟨by rw [c3']; exact h.bound, by rw [c3']; exact h.least, ?_, h1, h2⟩, c3', c2'⟩
    rw [List.length_append, List.length_singleton]; exact hcount
  have hbound := h.bound
  have hsz : sz q.tsize x = 12 + q.tsize + x.body.length := rfl
  cases h.layout with
  | empty => exact absurd rfl hl
  | flat _ seg h1 h2 h3 =>
    obtain ⟨s1, s2, s3⟩ := space_flat h hl seg h3
    have hlast : q.last = q.first + total q.tsize l.dropLast := h3
    have htl := total_last q.tsize l hl
    have hszl := sz_ge q.tsize (l.getLast hl)
    by_cases hfit : (sz q.tsize x : Int) ≤ q.tailSpace
    · have htt : tail = true := by rw [ht]; simpa using hfit
      rw [htt, if_pos rfl, s3] at hoff
      rw [s2] at hfit
      have hb : x.body.length < 2 ^ 31 := by omega
      refine hinv (hsafe (by omega) (by omega) (by omega) (by omega)) (.flat (by simp) ?_ (by omega) ?_ ?_)
      · rw [c2', c4']
        refine Seg.snoc x l hl (Seg.congr l seg fun i a b c => hmem i (by omega) (by rw [h3]; omega)) ?_ ?_
        · rw [← h3, hlink (by omega), hoff]
        · rw [← hoff, ← c2']; exact hitem hb (by omega)
      · rw [c2', c3', c4', total_append, total_cons, total_nil]; omega
      · rw [c2', c4', c5, lastOff_snoc, hoff]
    · have htt : tail = false := by rw [ht]; simp; omega
      have hhead : (sz q.tsize x : Int) ≤ q.headSpace := by rcases hs with h' | h'; exact absurd h' hfit; exact h'
      rw [htt, if_neg (by decide)] at hoff
      rw [s1] at hhead
      rw [s2] at hfit
      have hb : x.body.length < 2 ^ 31 := by omega
      refine hinv (hsafe (by omega) (by omega) (by omega) (by omega)) (.wrapped x hl ?_ ?_ ?_ ?_ ?_ ?_ ?_)
      · rw [c2', c4']
        exact Seg.congr l seg fun i a b c => hmem i (by omega) (by rw [h3]; omega)
      · have := hitem hb (by omega)
        rw [hoff] at this
        exact this
      · rw [c2', c4', ← h3, hlink (by omega), hoff]
      · rw [c2', c3', c4']; exact h2
      · rw [c2', c4', total_cons, total_nil]; omega
      · rw [c2', c5, hoff]; rfl
      · rw [c2', c3', c4']; omega
  | wrapped y ha segA segB link h1 h2 h3 gap =>
    rename_i a b
    obtain ⟨s1, s2, s3⟩ := space_wrapped h segB h2 h3
    have hne : y :: b ≠ [] := List.cons_ne_nil _ _
    have hlast : q.last = 24 + total q.tsize (y :: b).dropLast := h3
    have htl := total_last q.tsize (y :: b) hne
    have hszl := sz_ge q.tsize ((y :: b).getLast hne)
    have hfit : (sz q.tsize x : Int) ≤ q.tailSpace := by
      rcases hs with h' | h'
      · exact h'
      · omega
    have htt : tail = true := by rw [ht]; simpa using hfit
    rw [htt, if_pos rfl, s3] at hoff
    rw [s2] at hfit
    have hb : x.body.length < 2 ^ 31 := by omega
    have hla : q.first ≤ lastOff q.tsize q.first a := by simp only [lastOff]; omega
    have hla2 : lastOff q.tsize q.first a + 12 ≤ q.first + total q.tsize a := by
      have := total_last q.tsize a ha
      have := sz_ge q.tsize (a.getLast ha)
      simp only [lastOff]; omega
    have hlay : Layout r (a ++ y :: (b ++ [x])) := by
      refine .wrapped y ha ?_ ?_ ?_ ?_ ?_ ?_ ?_
      · rw [c2', c4']
        exact Seg.congr a segA fun i _ _ _ => hmem i (by omega) (by omega)
      · rw [c2']
        have : Seg r.mem q.tsize 24 ((y :: b) ++ [x]) := by
          refine Seg.snoc x (y :: b) hne (Seg.congr _ segB fun i _ _ _ => hmem i (by omega) (by rw [h3]; omega)) ?_ ?_
          · rw [← h3, hlink (by omega), hoff]
          · rw [← hoff, ← c2']; exact hitem hb (by omega)
        exact this
      · rw [c2', c4', get32_congr (m := q.mem) fun i _ _ => hmem i (by omega) (by omega)]
        exact link
      · rw [c2', c3', c4']; exact h1
      · rw [c2', c4', show y :: (b ++ [x]) = (y :: b) ++ [x] from rfl, total_append, total_cons _ x, total_nil]; omega
      · rw [c2', c5, show y :: (b ++ [x]) = (y :: b) ++ [x] from rfl, lastOff_snoc, hoff]
      · rw [c2', c3', c4']; exact gap
    have := hinv (hsafe (by omega) (by omega) (by omega) (by omega)) (by simpa using hlay)
    simpa using this

/-- There is room when the items and the new one take at most half of the space. -/
theorem room {q : Ring} {l : List Item} (h : Inv q l) {s : Nat} (hr : 2 * (total q.tsize l + s) ≤ q.full - 24) :
    (s : Int) ≤ q.tailSpace ∨ (s : Int) ≤ q.headSpace := by
  have := h.least
  cases h.layout with
  | empty =>
    right; rw [(space_empty h).1]; omega
  | flat hl seg h1 h2 h3 =>
    obtain ⟨s1, s2, _⟩ := space_flat h hl seg h3
    rw [s1, s2]; omega
  | wrapped y ha segA segB link h1 h2 h3 gap =>
    obtain ⟨s1, s2, _⟩ := space_wrapped h segB h2 h3
    left
    rw [s2]
    rw [total_append, total_cons] at hr
    rw [total_cons] at h2 ⊢
    push_cast
    omega

/-- Whatever is added. -/
theorem write_any {q : Ring} {l : List Item} (h : Inv q l) (x : Item) (hx : x.head.length = q.tsize) (tail : Bool)
    (ht : tail = decide (q.tailSpace ≥ sz q.tsize x)) (hs : (sz q.tsize x : Int) ≤ q.tailSpace ∨ (sz q.tsize x : Int) ≤ q.headSpace) :
    Inv (q.write tail x.head x.body) (l ++ [x]) ∧ (q.write tail x.head x.body).full = q.full ∧ (q.write tail x.head x.body).tsize = q.tsize := by
  by_cases hl : l = []
  · subst hl
    refine write_empty h tail x hx ?_
    rcases hs with h' | h'
    · have := sz_ge q.tsize x
      rw [(space_empty h).2] at h'
      omega
    · exact h'
  · exact write_more h hl x hx tail ht hs

end Verif.Queue
