import Verif.Queue.Lemmas

namespace Verif.Queue
open Spec (Item Op Answer stored Fifo)

/-- A user's operations on the queue, whose `push` is given: the answers and the queue afterwards. Before taking an item the user asks for the
size. -/
def run (push : Ring → List UInt8 → List UInt8 → Option (Bool × Ring)) : Ring → List Op → Option (List Answer × Ring)
  | q, [] => some ([], q)
  | q, .push x :: ops =>
    match push q x.head x.body with
    | none => none
    | some (ok, q) => (run push q ops).map fun r => (.pushed ok :: r.1, r.2)
  | q, .pop b :: ops =>
    if q.size = 0 then (run push q ops).map fun r => (.unit :: r.1, r.2)
    else (run push (q.pop b).2 ops).map fun r => (.item (q.pop b).1.1 (q.pop b).1.2.1 (q.pop b).1.2.2 :: r.1, r.2)
  | q, .pick :: ops =>
    if q.size = 0 then (run push q ops).map fun r => (.unit :: r.1, r.2)
    else (run push q ops).map fun r => (.item q.pick.1 q.pick.2.1 (some q.pick.2.2) :: r.1, r.2)
  | q, .size :: ops => (run push q ops).map fun r => (.size q.size :: r.1, r.2)
  | q, .clear :: ops => (run push q.clear ops).map fun r => (.unit :: r.1, r.2)

/-- The items pushed have a `T` of the right size and are smaller than 2 GB. -/
def Op.Ok (tsize : Nat) : Op → Prop
  | .push x => x.head.length = tsize ∧ x.bytes < 2 ^ 31
  | _ => True

theorem spaceOf_eq {q : Ring} {x : Item} (hx : x.head.length = q.tsize) (h : x.bytes < 2 ^ 31) : q.spaceOf x.body.length = sz q.tsize x := by
  simp only [Item.bytes] at h
  rw [hx] at h
  simp only [Ring.spaceOf, sz]
  rw [Nat.mod_eq_of_lt (by omega), if_pos h]

theorem stored_total {t : Nat} {l : List Item} (h : ∀ x ∈ l, x.head.length = t) : stored l = total t l := by
  induction l with
  | nil => rfl
  | cons x l ih =>
    rw [total_cons, ← ih fun y hy => h y (List.mem_cons_of_mem _ hy)]
    simp [stored, Item.bytes, sz, h x List.mem_cons_self]

theorem Inv.clear {q : Ring} {l : List Item} (h : Inv q l) : Inv q.clear [] := ⟨h.bound, h.least, by simp [Ring.clear], h.safe, .empty⟩

theorem Inv.allocate {t size : Nat} {m : Mem} (h0 : 24 ≤ size) (h1 : size < 2 ^ 31) : Inv (allocate t size m) [] :=
  ⟨h1, h0, rfl, rfl, .empty⟩

/-- The first loop, with items thrown away. -/
theorem makeRoom_drop {s : Nat} (bs bz : Int) (l : List Item) : ∀ {q : Ring} {fuel : Nat}, Inv q l → l.length < fuel → 0 < s →
    ∃ k q', k ≤ l.length ∧ makeRoom some true s fuel bs bz q = some q' ∧ Inv q' (l.drop k) ∧ q'.full = q.full ∧ q'.tsize = q.tsize ∧
      (((s : Int) ≤ q'.tailSpace ∨ (s : Int) ≤ q'.headSpace) ∨ k = l.length) ∧ ((s : Int) ≤ q.tailSpace ∨ (s : Int) ≤ q.headSpace → k = 0) := by
  induction l with
  | nil =>
    intro q fuel h hf _
    obtain ⟨f, rfl⟩ : ∃ f, fuel = f + 1 := ⟨fuel - 1, by simp at hf; omega⟩
    refine ⟨0, q, le_refl _, ?_, by simpa using h, rfl, rfl, Or.inr rfl, fun _ => rfl⟩
    simp only [makeRoom]
    rw [if_neg]
    rintro ⟨_, _, h'⟩
    rw [h.size_ne] at h'
    exact h' rfl
  | cons x l ih =>
    intro q fuel h hf hs
    obtain ⟨f, rfl⟩ : ∃ f, fuel = f + 1 := ⟨fuel - 1, by simp at hf; omega⟩
    by_cases hfit : (s : Int) ≤ q.tailSpace ∨ (s : Int) ≤ q.headSpace
    · refine ⟨0, q, Nat.zero_le _, ?_, by simpa using h, rfl, rfl, Or.inl hfit, fun _ => rfl⟩
      simp only [makeRoom]
      rw [if_neg (by omega)]
    · obtain ⟨h1, h2, h3⟩ := h.deleteDirect
      obtain ⟨k, q', g1, g2, g3, g4, g5, g6, _⟩ := ih h1 (fuel := f) (by simp at hf; omega) hs
      refine ⟨k + 1, q', by simpa using g1, ?_, by simpa using g3, by rw [g4, h2], by rw [g5, h3], ?_, fun h' => absurd h' hfit⟩
      · simp only [makeRoom]
        rw [if_pos ⟨by omega, by omega, h.size_ne.mpr (List.cons_ne_nil _ _)⟩]
        simpa using g2
      · rcases g6 with g | g
        · exact Or.inl g
        · right; simp [g]

/-- The first loop, when nothing is thrown away. -/
theorem makeRoom_keep {s : Nat} {q : Ring} {fuel : Nat} (hf : 1 < fuel) :
    makeRoom some false s fuel (q.tailSpace + q.headSpace) q.size q = some q := by
  obtain ⟨f, rfl⟩ : ∃ f, fuel = f + 1 := ⟨fuel - 1, by omega⟩
  simp only [makeRoom]
  split
  · simp
  · rfl

theorem needRoom_refuse {s : Nat} {q : Ring} {fuel : Nat} (hf : 0 < fuel) (hno : q.tailSpace < s ∧ q.headSpace < s) :
    needRoom some s fuel (q.tailSpace + q.headSpace) (q.tailSpace + q.headSpace) q = some (false, q) := by
  obtain ⟨f, rfl⟩ : ∃ f, fuel = f + 1 := ⟨fuel - 1, by omega⟩
  simp only [needRoom]
  rw [if_pos (Or.inr hno)]
  simp

/-- `push` of the fixed queue. -/
theorem push_fixed {q : Ring} {l : List Item} (h : Inv q l) (del : Bool) (fuel : Nat) (hf : l.length + 1 < fuel) (x : Item)
    (hx : x.head.length = q.tsize) (hb : x.bytes < 2 ^ 31) :
    ∃ ok q', q.push del fuel x.head x.body = some (ok, q') ∧ q'.full = q.full ∧ q'.tsize = q.tsize ∧
      if ok then ∃ k, k ≤ l.length ∧ Inv q' (l.drop k ++ [x]) ∧ (del = false → k = 0) ∧ (2 * (total q.tsize l + sz q.tsize x) ≤ q.full - 24 → k = 0)
      else Inv q' (if del then [] else l) ∧ (del = false → q.full - 24 < 2 * (total q.tsize l + sz q.tsize x)) ∧ (del = true → q.full - 24 < sz q.tsize x) := by
  obtain ⟨s, hs⟩ : ∃ s, s = sz q.tsize x := ⟨_, rfl⟩
  have hs12 : 12 ≤ s := by rw [hs]; exact sz_ge _ _
  simp only [Ring.push, push]
  rw [spaceOf_eq hx hb]
  simp only [← hs]
  cases del with
  | false =>
    rw [makeRoom_keep (by omega)]
    simp only
    by_cases hfit : (s : Int) ≤ q.tailSpace ∨ (s : Int) ≤ q.headSpace
    · rw [if_neg (by omega)]
      obtain ⟨w1, w2, w3⟩ := write_any h x hx (decide (q.tailSpace ≥ s)) (by rw [hs]) (by rw [← hs]; exact hfit)
      refine ⟨true, _, rfl, w2, w3, ?_⟩
      simp only [if_true]
      exact ⟨0, Nat.zero_le _, by simpa using w1, fun _ => rfl, fun _ => rfl⟩
    · have hno : q.tailSpace < s ∧ q.headSpace < s := by omega
      rw [if_pos hno, needRoom_refuse (by omega) hno]
      refine ⟨false, q, rfl, rfl, rfl, ?_⟩
      simp only [Bool.false_eq_true, if_false]
      refine ⟨h, fun _ => ?_, fun h' => by cases h'⟩
      by_contra hcon
      exact hfit (room h (by omega))
  | true =>
    obtain ⟨k, q', g1, g2, g3, g4, g5, g6, g7⟩ := makeRoom_drop (s := s) (q.tailSpace + q.headSpace) q.size l h (fuel := fuel) (by omega) (by omega)
    rw [g2]
    simp only
    by_cases hfit : (s : Int) ≤ q'.tailSpace ∨ (s : Int) ≤ q'.headSpace
    · rw [if_neg (by omega)]
      obtain ⟨w1, w2, w3⟩ := write_any g3 x (by rw [g5]; exact hx) (decide (q'.tailSpace ≥ s)) (by rw [hs, g5]) (by rw [g5, ← hs]; exact hfit)
      refine ⟨true, _, rfl, by rw [w2, g4], by rw [w3, g5], ?_⟩
      simp only [if_true]
      refine ⟨k, g1, w1, (fun h' => by cases h'), fun h' => g7 (room h ?_)⟩
      exact h'
    · have hno : q'.tailSpace < s ∧ q'.headSpace < s := by omega
      rw [if_pos hno, needRoom_refuse (by omega) hno]
      refine ⟨false, q', rfl, g4, g5, ?_⟩
      simp only [Bool.false_eq_true, if_false, if_true]
      have hk : k = l.length := by rcases g6 with g | g; exact absurd g hfit; exact g
      rw [hk, List.drop_length] at g3
      refine ⟨g3, (fun h' => by cases h'), fun _ => ?_⟩
      have := (space_empty g3).1
      have := h.least
      omega

/-- One operation other than `push`. -/
theorem pop_spec {q : Ring} {x : Item} {l : List Item} (h : Inv q (x :: l)) (b : Option Nat) :
    (∃ n, b = some n ∧ x.body.length ≤ n ∧ (q.pop b).1 = (x.head, x.body.length, some x.body) ∧ Inv (q.pop b).2 l ∧
        (q.pop b).2.full = q.full ∧ (q.pop b).2.tsize = q.tsize) ∨
      ((∀ n, b = some n → n < x.body.length) ∧ (q.pop b).1 = (x.head, x.body.length, none) ∧ (q.pop b).2 = q) := by
  have hp := h.pick
  obtain ⟨d1, d2, d3⟩ := h.deleteDirect
  cases b with
  | none => right; simp [Ring.pop, hp]
  | some n =>
    by_cases hn : x.body.length ≤ n
    · left
      refine ⟨n, rfl, hn, ?_⟩
      simp [Ring.pop, hp, hn, d1, d2, d3]
    · right
      simp only [Ring.pop, hp]
      rw [if_neg (by omega)]
      simp
      omega

/-- C32: whatever the operations, whatever is in the memory of the block, the queue behaves as a first-in first-out queue, and nothing is stored
outside the block. -/
theorem fixed_run (t size : Nat) (h0 : 24 ≤ size) (h1 : size < 2 ^ 31) (del : Bool) (ops : List Op) (hops : ∀ o ∈ ops, Op.Ok t o) :
    ∀ (fuel : Nat) (q : Ring) (l : List Item), l.length + ops.length + 1 < fuel → Inv q l → (∀ x ∈ l, x.head.length = t) → q.tsize = t → q.full = size →
      ∃ rs q', run (fun q => q.push del fuel) q ops = some (rs, q') ∧ Fifo (size - 24) del l ops rs ∧ q'.overrun = false := by
  induction ops with
  | nil => intro fuel q l _ h _ _ _; exact ⟨[], q, rfl, .done l, h.safe⟩
  | cons o ops ih =>
    intro fuel q l hf h hl ht hfull
    have ih' := ih (fun o ho => hops o (List.mem_cons_of_mem _ ho))
    simp only [List.length_cons] at hf
    cases o with
    | push x =>
      obtain ⟨hx, hb⟩ : x.head.length = t ∧ x.bytes < 2 ^ 31 := hops _ List.mem_cons_self
      obtain ⟨ok, q', g1, g2, g3, g4⟩ := push_fixed h del fuel (by omega) x (by rw [ht]; exact hx) hb
      have hst : stored l = total q.tsize l := by rw [ht]; exact stored_total hl
      have hxb : x.bytes = sz q.tsize x := by simp [Item.bytes, sz, hx, ht]
      cases ok with
      | true =>
        simp only [if_true] at g4
        obtain ⟨k, k1, k2, k3, k4⟩ := g4
        obtain ⟨rs, r, r1, r2, r3⟩ := ih' fuel q' _ (by simp; omega) k2 (by
          intro y hy
          rcases List.mem_append.mp hy with hy | hy
          · exact hl y (List.mem_of_mem_drop hy)
          · rw [List.mem_singleton.mp hy]; exact hx) (by rw [g3, ht]) (by rw [g2, hfull])
        refine ⟨.pushed true :: rs, r, ?_, .taken l k x ops rs k1 k3 (by rw [hst, hxb, ← hfull]; exact k4) r2, r3⟩
        simp only [run, g1, r1, Option.map_some]
      | false =>
        simp only [Bool.false_eq_true, if_false] at g4
        obtain ⟨k1, k2, k3⟩ := g4
        have hlen : (if del = true then ([] : List Item) else l).length ≤ l.length := by split <;> simp
        obtain ⟨rs, r, r1, r2, r3⟩ := ih' fuel q' _ (by omega) k1 (by
          intro y hy
          split at hy
          · cases hy
          · exact hl y hy) (by rw [g3, ht]) (by rw [g2, hfull])
        refine ⟨.pushed false :: rs, r, ?_, .refused l x ops rs (by rw [hst, hxb, ← hfull]; exact k2) (by rw [hxb, ← hfull]; exact k3) r2, r3⟩
        simp only [run, g1, r1, Option.map_some]
    | pop b =>
      cases l with
      | nil =>
        obtain ⟨rs, r, r1, r2, r3⟩ := ih' fuel q [] (by simp at hf ⊢; omega) h hl ht hfull
        refine ⟨.unit :: rs, r, ?_, .noPop b ops rs r2, r3⟩
        simp only [run]
        rw [if_pos (by rw [h.size]; rfl), r1, Option.map_some]
      | cons x l =>
        have hz : ¬ q.size = 0 := h.size_ne.mpr (List.cons_ne_nil _ _)
        rcases pop_spec h b with ⟨n, rfl, hn, e1, e2, e3, e4⟩ | ⟨hn, e1, e2⟩
        · obtain ⟨rs, r, r1, r2, r3⟩ := ih' fuel _ l (by simp at hf; omega) e2 (fun y hy => hl y (List.mem_cons_of_mem _ hy)) (by rw [e4, ht]) (by rw [e3, hfull])
          refine ⟨_, r, ?_, .popped l x n ops rs hn r2, r3⟩
          simp only [run]
          rw [if_neg hz, e1, r1, Option.map_some]
        · obtain ⟨rs, r, r1, r2, r3⟩ := ih' fuel q (x :: l) (by simp at hf ⊢; omega) h hl ht hfull
          refine ⟨_, r, ?_, .kept l x b ops rs hn r2, r3⟩
          simp only [run]
          rw [if_neg hz, e1, e2, r1, Option.map_some]
    | pick =>
      cases l with
      | nil =>
        obtain ⟨rs, r, r1, r2, r3⟩ := ih' fuel q [] (by simp at hf ⊢; omega) h hl ht hfull
        refine ⟨.unit :: rs, r, ?_, .noPick ops rs r2, r3⟩
        simp only [run]
        rw [if_pos (by rw [h.size]; rfl), r1, Option.map_some]
      | cons x l =>
        have hz : ¬ q.size = 0 := h.size_ne.mpr (List.cons_ne_nil _ _)
        obtain ⟨rs, r, r1, r2, r3⟩ := ih' fuel q (x :: l) (by simp at hf ⊢; omega) h hl ht hfull
        refine ⟨_, r, ?_, .picked l x ops rs r2, r3⟩
        simp only [run]
        rw [if_neg hz, h.pick, r1, Option.map_some]
    | size =>
      obtain ⟨rs, r, r1, r2, r3⟩ := ih' fuel q l (by omega) h hl ht hfull
      refine ⟨_, r, ?_, .size l ops rs r2, r3⟩
      simp only [run]
      rw [h.size, r1, Option.map_some]
    | clear =>
      obtain ⟨rs, r, r1, r2, r3⟩ := ih' fuel q.clear [] (by simp; omega) h.clear (by simp) ht hfull
      refine ⟨_, r, ?_, .clear l ops rs r2, r3⟩
      simp only [run]
      rw [r1, Option.map_some]

/-- C32: for every sequence of operations on a new queue of any size, with any contents of its memory: every operation returns, the answers are
those of a first-in first-out queue of that size, and nothing is stored outside the block. -/
theorem fixed_fifo (t size : Nat) (h0 : 24 ≤ size) (h1 : size < 2 ^ 31) (del : Bool) (m : Mem) (ops : List Op) (hops : ∀ o ∈ ops, Op.Ok t o)
    (fuel : Nat) (hf : ops.length + 1 < fuel) :
    ∃ rs q', run (fun q => q.push del fuel) (allocate t size m) ops = some (rs, q') ∧ Fifo (size - 24) del [] ops rs ∧ q'.overrun = false :=
  fixed_run t size h0 h1 del ops hops fuel _ [] (by simpa using hf) (Inv.allocate h0 h1) (by simp) rfl rfl

/-- Five items of 20 bytes go through a queue with room for 60 bytes; one of them lies behind, one in front of the older ones. -/
example : (run (fun q => q.push false 100) (allocate 4 84 fun _ => 0xCC)
    [.push ⟨[1, 1, 1, 1], [10, 11, 12, 13]⟩, .push ⟨[2, 2, 2, 2], [20, 21, 22, 23]⟩, .push ⟨[3, 3, 3, 3], [30, 31, 32, 33]⟩, .push ⟨[9, 9, 9, 9], [90, 91, 92, 93]⟩,
      .pop (some 4), .push ⟨[4, 4, 4, 4], [40, 41, 42, 43]⟩, .pop (some 4), .pop (some 4), .pop (some 3), .pop (some 4), .size]).map (fun r => (r.1, r.2.overrun))
    = some ([.pushed true, .pushed true, .pushed true, .pushed false, .item [1, 1, 1, 1] 4 (some [10, 11, 12, 13]), .pushed true,
      .item [2, 2, 2, 2] 4 (some [20, 21, 22, 23]), .item [3, 3, 3, 3] 4 (some [30, 31, 32, 33]), .item [4, 4, 4, 4] 4 none,
      .item [4, 4, 4, 4] 4 (some [40, 41, 42, 43]), .size 0], false) := by
  rfl

end Verif.Queue
