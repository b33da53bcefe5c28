import Verif.Resource.Spec
import Mathlib.Tactic

namespace Verif.Resource
open Spec (handles Careful CarefulRun)

/-! ### Counting -/

def varRefs (s : State) (o : Nat) : Nat := s.vars.countP fun v => v = some (some o)
def objRefs (s : State) (o : Nat) : Nat := s.objs.countP fun x => x.alive ∧ x.next = some o
def refs (s : State) (o : Nat) : Nat := varRefs s o + objRefs s o

/-- The handles that are going to be released are `pend`. -/
structure Inv (s : State) (pend : List Nat) : Prop where
  count : ∀ (o : Nat) (x : Obj), s.objs[o]? = some x → x.alive = true → x.count = ((refs s o + pend.count o : Nat) : Int)
  held : ∀ o, 0 < refs s o + pend.count o → ∃ x : Obj, s.objs[o]? = some x ∧ x.alive = true
  pos : ∀ (o : Nat) (x : Obj), s.objs[o]? = some x → x.alive = true → 0 < x.count
  log : ∀ o, s.log.count o = if ∃ x : Obj, s.objs[o]? = some x ∧ x.alive = false then 1 else 0
  safe : s.fault = false

theorem countP_set' {α : Type} {p : α → Bool} {l : List α} {i : Nat} {a x : α} (h : l[i]? = some x) :
    (l.set i a).countP p + (if p x then 1 else 0) = l.countP p + (if p a then 1 else 0) := by
  obtain ⟨hi, hx⟩ := List.getElem?_eq_some_iff.mp h
  rw [List.countP_set hi, hx]
  have : p x = true → 0 < l.countP p := fun hp => List.countP_pos_iff.mpr ⟨x, by rw [← hx]; exact List.getElem_mem hi, hp⟩
  split
  · rename_i hp; have := this hp; omega
  · omega

theorem getElem?_set' {α : Type} {l : List α} {i j : Nat} {a x : α} (h : l[i]? = some x) : (l.set i a)[j]? = if i = j then some a else l[j]? := by
  obtain ⟨hi, _⟩ := List.getElem?_eq_some_iff.mp h
  rw [List.getElem?_set]
  simp [hi]

/-- The number of objects still there. -/
def living (s : State) : Nat := s.objs.countP (·.alive)

theorem living_le (s : State) : living s ≤ s.objs.length := List.countP_le_length

/-- The state after an object has been deleted. -/
def kill (s : State) (o : Nat) (x : Obj) : State := { s with log := s.log ++ [o], objs := s.objs.set o { x with count := 0, alive := false } }

/-- The state after the count of an object has been changed. -/
def recount (s : State) (o : Nat) (x : Obj) (n : Int) : State := { s with objs := s.objs.set o { x with count := n } }

theorem kill_obj {s : State} {o : Nat} {x : Obj} (hx : s.objs[o]? = some x) (p : Nat) :
    (kill s o x).objs[p]? = if o = p then some { x with count := 0, alive := false } else s.objs[p]? := getElem?_set' hx

theorem recount_obj {s : State} {o : Nat} {x : Obj} (hx : s.objs[o]? = some x) (n : Int) (p : Nat) :
    (recount s o x n).objs[p]? = if o = p then some { x with count := n } else s.objs[p]? := getElem?_set' hx

theorem kill_living {s : State} {o : Nat} {x : Obj} (hx : s.objs[o]? = some x) (ha : x.alive = true) : living (kill s o x) + 1 = living s := by
  have := countP_set' (p := fun y : Obj => y.alive) (a := { x with count := 0, alive := false }) hx
  simp only [ha, if_true, Bool.false_eq_true, if_false] at this
  simp only [living, kill]; omega

theorem kill_inv {s : State} {o : Nat} {x : Obj} {pend : List Nat} (h : Inv s (o :: pend)) (hx : s.objs[o]? = some x) (ha : x.alive = true)
    (h0 : x.count - 1 = 0) : Inv (kill s o x) (x.next.toList ++ pend) := by
  have hc := h.count o x hx ha
  rw [List.count_cons_self] at hc
  obtain ⟨t, ht⟩ : ∃ t : State, t = kill s o x := ⟨_, rfl⟩
  have hnone : refs s o = 0 ∧ pend.count o = 0 := by omega
  have hobj : ∀ p, t.objs[p]? = if o = p then some { x with count := 0, alive := false } else s.objs[p]? := fun p => by
    rw [ht]; exact kill_obj hx p
  have hrefs : ∀ p, refs t p + (if x.next = some p then 1 else 0) = refs s p := by
    intro p
    have := countP_set' (p := fun y : Obj => y.alive ∧ y.next = some p) (a := { x with count := 0, alive := false }) hx
    simp only [ha, true_and, Bool.false_eq_true, false_and, decide_false, if_false, decide_eq_true_eq] at this
    rw [ht]
    simp only [refs, varRefs, objRefs, kill]
    omega
  have hp' : ∀ p, (x.next.toList ++ pend).count p = pend.count p + if x.next = some p then 1 else 0 := by
    intro p
    cases hn : x.next with
    | none => simp
    | some q => simp only [Option.toList_some, List.singleton_append, List.count_cons]; simp
  rw [← ht]
  refine ⟨?_, ?_, ?_, ?_, by rw [ht]; exact h.safe⟩
  · intro p y hy hay
    rw [hobj] at hy
    split at hy
    · cases hy; cases hay
    · rename_i hne
      have := h.count p y hy hay
      rw [List.count_cons_of_ne (by simpa using hne)] at this
      rw [this, hp']
      have := hrefs p
      congr 1; omega
  · intro p hp
    rw [hp'] at hp
    have := hrefs p
    by_cases hop : o = p
    · subst hop; omega
    · obtain ⟨y, hy, hay⟩ := h.held p (by rw [List.count_cons_of_ne (by simpa using hop)]; omega)
      exact ⟨y, by rw [hobj, if_neg hop]; exact hy, hay⟩
  · intro p y hy hay
    rw [hobj] at hy
    split at hy
    · cases hy; cases hay
    · exact h.pos p y hy hay
  · intro p
    have hlog := h.log p
    rw [show t.log = s.log ++ [o] by rw [ht]; rfl, List.count_append, hlog]
    by_cases hop : o = p
    · subst hop
      rw [if_neg, if_pos]
      · simp
      · exact ⟨{ x with count := 0, alive := false }, by rw [hobj, if_pos rfl], rfl⟩
      · rintro ⟨y, hy, hay⟩
        rw [hx] at hy; cases hy
        rw [ha] at hay; cases hay
    · rw [hobj, if_neg hop]
      simp [hop]

theorem recount_refs {s : State} {o : Nat} {x : Obj} (hx : s.objs[o]? = some x) (n : Int) (p : Nat) : refs (recount s o x n) p = refs s p := by
  have := countP_set' (p := fun y : Obj => y.alive ∧ y.next = some p) (a := { x with count := n }) hx
  have h2 : (s.objs.set o { x with count := n }).countP (fun y : Obj => y.alive ∧ y.next = some p) = s.objs.countP (fun y : Obj => y.alive ∧ y.next = some p) :=
    Nat.add_right_cancel this
  simp only [refs, varRefs, objRefs, recount]
  rw [h2]

/-- Changing a count along with the pending releases or the variables. -/
theorem recount_inv {s : State} {o : Nat} {x : Obj} {pend pend' : List Nat} (h : Inv s pend) (hx : s.objs[o]? = some x) (ha : x.alive = true) (n : Int)
    (vars : List (Option (Option Nat)))
    (hn : 0 < n) (ho : n - x.count = ((vars.countP fun v => v = some (some o)) + pend'.count o : Int) - (varRefs s o + pend.count o : Int))
    (hp : ∀ p, p ≠ o → (vars.countP fun v => v = some (some p)) + pend'.count p = varRefs s p + pend.count p) :
    Inv { recount s o x n with vars := vars } pend' := by
  obtain ⟨t, ht⟩ : ∃ t : State, t = { recount s o x n with vars := vars } := ⟨_, rfl⟩
  have hobj : ∀ p, t.objs[p]? = if o = p then some { x with count := n } else s.objs[p]? := fun p => by rw [ht]; exact recount_obj hx n p
  have hrefs : ∀ p, refs t p = (vars.countP fun v => v = some (some p)) + objRefs s p := by
    intro p
    have := recount_refs hx n p
    simp only [refs] at this
    have e : varRefs (recount s o x n) p = varRefs s p := rfl
    rw [ht]
    simp only [refs]
    have e2 : objRefs { recount s o x n with vars := vars } p = objRefs (recount s o x n) p := rfl
    rw [e2]
    simp only [varRefs] at e this ⊢
    omega
  have hco := h.count o x hx ha
  rw [← ht]
  refine ⟨?_, ?_, ?_, ?_, by rw [ht]; exact h.safe⟩
  · intro p y hy hay
    rw [hobj] at hy
    rw [hrefs]
    split at hy
    · rename_i hop; subst hop
      cases hy
      simp only [refs] at hco
      show n = _
      push_cast at hco ⊢
      omega
    · rename_i hop
      have := h.count p y hy hay
      rw [this]
      have := hp p (fun h => hop h.symm)
      simp only [refs]
      congr 1; omega
  · intro p hpp
    rw [hrefs] at hpp
    by_cases hop : o = p
    · subst hop
      exact ⟨{ x with count := n }, by rw [hobj, if_pos rfl], ha⟩
    · have := hp p (fun h => hop h.symm)
      obtain ⟨y, hy, hay⟩ := h.held p (by simp only [refs]; omega)
      exact ⟨y, by rw [hobj, if_neg hop]; exact hy, hay⟩
  · intro p y hy hay
    rw [hobj] at hy
    split at hy
    · cases hy
      exact hn
    · exact h.pos p y hy hay
  · intro p
    rw [show t.log = s.log by rw [ht]; rfl, h.log p]
    by_cases hop : o = p
    · subst hop
      rw [hobj, if_pos rfl, hx]
      simp [ha]
    · rw [hobj, if_neg hop]

/-- One step of `release`. -/
theorem release_step (fuel : Nat) {s : State} {o : Nat} {x : Obj} (hx : s.objs[o]? = some x) (ha : x.alive = true) :
    release (fuel + 1) s o = if x.count - 1 = 0 then (match x.next with | none => kill s o x | some p => release fuel (kill s o x) p)
      else recount s o x (x.count - 1) := by
  simp only [release, hx]
  rw [if_neg (by simp [ha])]
  rfl

/-- Releasing one handle. -/
theorem release_inv (fuel : Nat) : ∀ (s : State) (o : Nat) (pend : List Nat), Inv s (o :: pend) → living s ≤ fuel →
    Inv (release fuel s o) pend ∧ (release fuel s o).vars = s.vars ∧ (release fuel s o).objs.length = s.objs.length ∧
      (∀ (p : Nat) (x : Obj), (release fuel s o).objs[p]? = some x → x.alive = true → ∃ y : Obj, s.objs[p]? = some y ∧ y.alive = true ∧ x.next = y.next) := by
  induction fuel with
  | zero =>
    intro s o pend h hf
    exfalso
    obtain ⟨x, hx, ha⟩ := h.held o (by simp)
    have : 0 < living s := List.countP_pos_iff.mpr ⟨x, List.mem_of_getElem? hx, ha⟩
    omega
  | succ fuel ih =>
    intro s o pend h hf
    obtain ⟨x, hx, ha⟩ := h.held o (by simp)
    rw [release_step fuel hx ha]
    by_cases h0 : x.count - 1 = 0
    · rw [if_pos h0]
      have hk := kill_inv h hx ha h0
      have hback : ∀ (p : Nat) (y : Obj), (kill s o x).objs[p]? = some y → y.alive = true → ∃ z : Obj, s.objs[p]? = some z ∧ z.alive = true ∧ y.next = z.next := by
        intro p y hy hay
        rw [kill_obj hx] at hy
        split at hy
        · cases hy; cases hay
        · exact ⟨y, hy, hay, rfl⟩
      have hl := kill_living hx ha
      cases hn : x.next with
      | none =>
        rw [hn] at hk
        exact ⟨by simpa using hk, rfl, by simp [kill], hback⟩
      | some q =>
        rw [hn] at hk
        obtain ⟨i1, i2, i3, i4⟩ := ih (kill s o x) q pend (by simpa using hk) (by omega)
        refine ⟨i1, by rw [i2]; rfl, by rw [i3]; simp [kill], ?_⟩
        intro p y hy hay
        obtain ⟨z, hz, haz, hnz⟩ := i4 p y hy hay
        obtain ⟨w, hw, haw, hnw⟩ := hback p z hz haz
        exact ⟨w, hw, haw, hnz.trans hnw⟩
    · rw [if_neg h0]
      have hpos := h.pos o x hx ha
      refine ⟨?_, rfl, by simp [recount], ?_⟩
      · have := recount_inv (pend' := pend) h hx ha (x.count - 1) s.vars (by omega) (by
          rw [List.count_cons_self]; simp only [varRefs]; push_cast; omega) (by
          intro p hp
          rw [List.count_cons_of_ne (by simpa using hp.symm)]; rfl)
        exact this
      · intro p y hy hay
        rw [recount_obj hx] at hy
        split at hy
        · rename_i hop; subst hop; cases hy; exact ⟨x, hx, ha, rfl⟩
        · exact ⟨y, hy, hay, rfl⟩

/-- The handle in an object that is not deleted is not looked at. -/
theorem release_write (fuel : Nat) : ∀ (s : State) (o c : Nat) (w : Option Nat) (pend : List Nat) (xc : Obj), Inv s (o :: pend) → living s ≤ fuel → 0 < varRefs s c →
    s.objs[c]? = some xc → xc.alive = true → xc.next = none →
    ∃ yc : Obj, (release fuel s o).objs[c]? = some yc ∧ yc.alive = true ∧ yc.next = none ∧
      release fuel { s with objs := s.objs.set c { xc with next := w } } o =
        { release fuel s o with objs := (release fuel s o).objs.set c { yc with next := w } } := by
  induction fuel with
  | zero =>
    intro s o c w pend xc h hf
    exfalso
    obtain ⟨x, hx, ha⟩ := h.held o (by simp)
    have : 0 < living s := List.countP_pos_iff.mpr ⟨x, List.mem_of_getElem? hx, ha⟩
    omega
  | succ fuel ih =>
    intro s o c w pend xc h hf hv hc hac hnc
    obtain ⟨x, hx, ha⟩ := h.held o (by simp)
    have hcount := h.count o x hx ha
    rw [List.count_cons_self] at hcount
    by_cases hoc : o = c
    · subst hoc
      have hxc : x = xc := by rw [hx] at hc; exact Option.some.inj hc
      subst hxc
      have h0 : ¬ x.count - 1 = 0 := by simp only [refs] at hcount; omega
      rw [release_step fuel hx ha, if_neg h0]
      have hx' : ({ s with objs := s.objs.set o { x with next := w } } : State).objs[o]? = some { x with next := w } := by
        show (s.objs.set o _)[o]? = _
        rw [getElem?_set' hx, if_pos rfl]
      rw [release_step fuel hx' ha, if_neg (by exact h0)]
      refine ⟨{ x with count := x.count - 1 }, by rw [recount_obj hx, if_pos rfl], ha, hnc, ?_⟩
      simp [recount]
    · have hx' : ({ s with objs := s.objs.set c { xc with next := w } } : State).objs[o]? = some x := by
        show (s.objs.set c _)[o]? = _
        rw [getElem?_set' hc, if_neg (fun h => hoc h.symm)]; exact hx
      rw [release_step fuel hx ha, release_step fuel hx' ha]
      by_cases h0 : x.count - 1 = 0
      · rw [if_pos h0, if_pos h0]
        have hk := kill_inv h hx ha h0
        have hl := kill_living hx ha
        have hck : (kill s o x).objs[c]? = some xc := by rw [kill_obj hx, if_neg hoc]; exact hc
        have hswap : kill { s with objs := s.objs.set c { xc with next := w } } o x = { kill s o x with objs := (kill s o x).objs.set c { xc with next := w } } := by
          simp only [kill]
          rw [List.set_comm _ _ hoc]
        cases hn : x.next with
        | none =>
          simp only
          exact ⟨xc, hck, hac, hnc, hswap⟩
        | some q =>
          rw [hn] at hk
          simp only
          obtain ⟨yc, y1, y2, y3, y4⟩ := ih (kill s o x) q c w pend xc (by simpa using hk) (by omega) hv hck hac hnc
          exact ⟨yc, y1, y2, y3, by rw [hswap]; exact y4⟩
      · rw [if_neg h0, if_neg h0]
        refine ⟨xc, by rw [recount_obj hx, if_neg hoc]; exact hc, hac, hnc, ?_⟩
        simp only [recount]
        rw [List.set_comm _ _ hoc]

/-! ### Handles -/

/-- The handle is there. -/
def IsLoc (s : State) : Loc → Prop
  | .var v => ∃ q, s.vars[v]? = some (some q)
  | .inside c => ∃ x : Obj, s.objs[c]? = some x ∧ x.alive = true

theorem read_var {s : State} {v : Nat} {q : Option Nat} (h : s.vars[v]? = some (some q)) : read s (.var v) = q := by
  simp [read, List.getD_eq_getElem?_getD, h]

theorem read_inside {s : State} {c : Nat} {x : Obj} (h : s.objs[c]? = some x) : read s (.inside c) = x.next := by simp [read, h]

/-- Setting a handle moves references. -/
theorem write_inv {s : State} {pend pend' : List Nat} (h : Inv s pend) {a : Loc} (ha : IsLoc s a) (p : Option Nat)
    (hp : ∀ r, (if p = some r then 1 else 0) + pend'.count r = (if read s a = some r then 1 else 0) + pend.count r) : Inv (write s a p) pend' := by
  cases a with
  | var v =>
    obtain ⟨q, hq⟩ := ha
    rw [read_var hq] at hp
    have hrefs : ∀ r, refs (write s (.var v) p) r + (if q = some r then 1 else 0) = refs s r + (if p = some r then 1 else 0) := by
      intro r
      have := countP_set' (p := fun y : Option (Option Nat) => y = some (some r)) (a := some p) hq
      simp only [Option.some.injEq, decide_eq_true_eq] at this
      simp only [refs, varRefs, objRefs, write]
      omega
    have hsum : ∀ r, refs (write s (.var v) p) r + pend'.count r = refs s r + pend.count r := by
      intro r
      have := hrefs r; have := hp r; omega
    refine ⟨?_, ?_, h.pos, h.log, h.safe⟩
    · intro o x hx hax
      rw [hsum]; exact h.count o x hx hax
    · intro o ho
      rw [hsum] at ho; exact h.held o ho
  | inside c =>
    obtain ⟨x, hx, hax⟩ := ha
    rw [read_inside hx] at hp
    have hw : write s (.inside c) p = { s with objs := s.objs.set c { x with next := p } } := by simp only [write, hx]
    have hobj : ∀ r, (write s (.inside c) p).objs[r]? = if c = r then some { x with next := p } else s.objs[r]? := fun r => by rw [hw]; exact getElem?_set' hx
    have hrefs : ∀ r, refs (write s (.inside c) p) r + (if x.next = some r then 1 else 0) = refs s r + (if p = some r then 1 else 0) := by
      intro r
      have := countP_set' (p := fun y : Obj => y.alive ∧ y.next = some r) (a := { x with next := p }) hx
      obtain ⟨L, hL⟩ : ∃ L, L = s.objs.set c { x with next := p } := ⟨_, rfl⟩
      rw [hw]
      simp only [refs, varRefs, objRefs]
      rw [← hL] at this ⊢
      simp only [hax, true_and, decide_eq_true_eq] at this
      omega
    have hsum : ∀ r, refs (write s (.inside c) p) r + pend'.count r = refs s r + pend.count r := by
      intro r
      have := hrefs r; have := hp r; omega
    refine ⟨?_, ?_, ?_, ?_, by rw [hw]; exact h.safe⟩
    · intro o y hy hay
      rw [hsum]
      rw [hobj] at hy
      split at hy
      · rename_i e; subst e; cases hy; exact h.count c x hx hax
      · exact h.count o y hy hay
    · intro o ho
      rw [hsum] at ho
      obtain ⟨y, hy, hay⟩ := h.held o ho
      rw [hobj]
      split
      · rename_i e; subst e; exact ⟨_, rfl, hax⟩
      · exact ⟨y, hy, hay⟩
    · intro o y hy hay
      rw [hobj] at hy
      split at hy
      · cases hy; exact h.pos c x hx hax
      · exact h.pos o y hy hay
    · intro o
      rw [show (write s (.inside c) p).log = s.log by rw [hw], h.log o, hobj]
      by_cases e : c = o
      · subst e; rw [if_pos rfl, hx]; simp [hax]
      · rw [if_neg e]

theorem addRef_eq {s : State} {o : Nat} {x : Obj} (hx : s.objs[o]? = some x) (ha : x.alive = true) : addRef s o = recount s o x (x.count + 1) := by
  simp [addRef, hx, ha, recount]

theorem addRef_inv {s : State} {o : Nat} {x : Obj} {pend : List Nat} (h : Inv s pend) (hx : s.objs[o]? = some x) (ha : x.alive = true) :
    Inv (addRef s o) (o :: pend) := by
  rw [addRef_eq hx ha]
  have hpos := h.pos o x hx ha
  exact recount_inv h hx ha (x.count + 1) s.vars (by omega) (by rw [List.count_cons_self]; simp only [varRefs]; push_cast; omega)
    (fun p hp => by rw [List.count_cons_of_ne (by simpa using hp.symm)]; rfl)

/-- `addRef` after setting a handle. -/
theorem addRef_write {s : State} {a : Loc} (ha : IsLoc s a) {o : Nat} {x : Obj} (hx : s.objs[o]? = some x) (hax : x.alive = true) (p : Option Nat) :
    addRef (write s a p) o = write (addRef s o) a p := by
  rw [addRef_eq hx hax]
  cases a with
  | var v =>
    have : (write s (.var v) p).objs[o]? = some x := hx
    rw [addRef_eq this hax]
    rfl
  | inside c =>
    obtain ⟨y, hy, hay⟩ := ha
    have hw : write s (.inside c) p = { s with objs := s.objs.set c { y with next := p } } := by simp only [write, hy]
    by_cases e : c = o
    · subst e
      have exy : x = y := by rw [hx] at hy; exact Option.some.inj hy
      subst exy
      have h1 : (write s (.inside c) p).objs[c]? = some { x with next := p } := by rw [hw]; show (s.objs.set c _)[c]? = _; rw [getElem?_set' hx, if_pos rfl]
      rw [addRef_eq h1 hax, hw]
      have h2 : (recount s c x (x.count + 1)).objs[c]? = some { x with count := x.count + 1 } := by rw [recount_obj hx, if_pos rfl]
      simp only [write, h2]
      simp [recount]
    · have h1 : (write s (.inside c) p).objs[o]? = some x := by rw [hw]; show (s.objs.set c _)[o]? = _; rw [getElem?_set' hy, if_neg e]; exact hx
      rw [addRef_eq h1 hax, hw]
      have h2 : (recount s o x (x.count + 1)).objs[c]? = some y := by rw [recount_obj hx, if_neg (fun h => e h.symm)]; exact hy
      simp only [write, h2]
      simp only [recount]
      rw [List.set_comm _ _ e]

theorem isLoc_addRef {s : State} {a : Loc} (ha : IsLoc s a) {o : Nat} {x : Obj} (hx : s.objs[o]? = some x) (hax : x.alive = true) :
    IsLoc (addRef s o) a ∧ read (addRef s o) a = read s a := by
  rw [addRef_eq hx hax]
  cases a with
  | var v => exact ⟨ha, rfl⟩
  | inside c =>
    obtain ⟨y, hy, hay⟩ := ha
    by_cases e : o = c
    · subst e
      have exy : x = y := by rw [hx] at hy; exact Option.some.inj hy
      subst exy
      have : (recount s o x (x.count + 1)).objs[o]? = some { x with count := x.count + 1 } := by rw [recount_obj hx, if_pos rfl]
      exact ⟨⟨_, this, hax⟩, by rw [read_inside this, read_inside hx]⟩
    · have : (recount s o x (x.count + 1)).objs[c]? = some y := by rw [recount_obj hx, if_neg e]; exact hy
      exact ⟨⟨_, this, hay⟩, by rw [read_inside this, read_inside hy]⟩

/-- An empty handle is set to an object that is there. -/
theorem link_inv {s : State} (h : Inv s []) {a : Loc} (ha : IsLoc s a) (hn : read s a = none) (p : Option Nat)
    (hp : ∀ o, p = some o → ∃ x : Obj, s.objs[o]? = some x ∧ x.alive = true) : Inv (addRefTo (write s a p) p) [] := by
  cases p with
  | none => exact write_inv h ha none (by intro r; rw [hn])
  | some o =>
    obtain ⟨x, hx, hax⟩ := hp o rfl
    show Inv (addRef (write s a (some o)) o) []
    rw [addRef_write ha hx hax]
    obtain ⟨h1, h2⟩ := isLoc_addRef ha hx hax
    refine write_inv (addRef_inv h hx hax) h1 (some o) ?_
    intro r
    rw [h2, hn]
    simp [List.count_cons]

theorem release_vars (fuel : Nat) : ∀ (s : State) (o : Nat) (V : List (Option (Option Nat))),
    release fuel { s with vars := V } o = { release fuel s o with vars := V } := by
  induction fuel with
  | zero => intros; rfl
  | succ fuel ih =>
    intro s o V
    simp only [release]
    split
    · rfl
    · split
      · rfl
      · split
        · split
          · rfl
          · rename_i x _ _ _ _ _ _
            exact ih { s with log := s.log ++ [o], objs := s.objs.set o { x with count := 0, alive := false } } _ V
        · rfl

/-- A handle is emptied, and what it held is released; the handle still has its old value. -/
theorem unlink {s : State} (h : Inv s []) {a : Loc} (ha : IsLoc s a) (hv : ∀ c, a = .inside c → 0 < varRefs s c) {o : Nat} (ho : read s a = some o) :
    ∃ u, releaseAt s a = write u a (some o) ∧ Inv u [] ∧ IsLoc u a ∧ read u a = none ∧ u.vars = (write s a none).vars ∧
      (2 ≤ refs s o → ∀ (c : Nat) (x : Obj), s.objs[c]? = some x → x.alive = true → ∃ y : Obj, u.objs[c]? = some y ∧ y.alive = true ∧ (a ≠ .inside c → y.next = x.next)) := by
  have ht : Inv (write s a none) [o] := write_inv h ha none (by intro r; rw [ho]; simp [List.count_cons])
  have hliv : living (write s a none) ≤ s.objs.length := by
    refine (living_le _).trans ?_
    cases a with
    | var v => exact le_refl _
    | inside c => simp only [write]; split <;> simp
  obtain ⟨r1, r2, r3, r4⟩ := release_inv s.objs.length _ o [] ht hliv
  -- nothing is deleted when there is another handle
  have hkeep : 2 ≤ refs s o → ∀ (c : Nat) (x : Obj), (write s a none).objs[c]? = some x → x.alive = true →
      ∃ y : Obj, (release s.objs.length (write s a none) o).objs[c]? = some y ∧ y.alive = true ∧ y.next = x.next := by
    intro h2 c x hx hax
    obtain ⟨xo, hxo, hao⟩ := ht.held o (by simp)
    have hc := ht.count o xo hxo hao
    obtain ⟨xs, hxs, has⟩ := h.held o (by omega)
    have hcs := h.count o xs hxs has
    have hsame : xo.count = xs.count := by
      cases a with
      | var v =>
        have : s.objs[o]? = some xo := hxo
        rw [hxs] at this; cases this; rfl
      | inside d =>
        obtain ⟨xd, hxd, _⟩ := ha
        simp only [write, hxd] at hxo
        rw [getElem?_set' hxd] at hxo
        split at hxo
        · rename_i e; subst e; cases hxo; rw [hxd] at hxs; cases hxs; rfl
        · rw [hxs] at hxo; cases hxo; rfl
    have hpos : 0 < s.objs.length := (List.getElem?_eq_some_iff.mp hxs).1 |> Nat.zero_lt_of_lt
    obtain ⟨f, hf⟩ : ∃ f, s.objs.length = f + 1 := ⟨s.objs.length - 1, by omega⟩
    rw [hf, release_step f hxo hao, if_neg (by rw [hsame, hcs]; simp; omega), recount_obj hxo]
    split
    · rename_i e; subst e; rw [hxo] at hx; cases hx; exact ⟨_, rfl, hao, rfl⟩
    · exact ⟨x, hx, hax, rfl⟩
  cases a with
  | var v =>
    obtain ⟨q, hq⟩ := ha
    have hqo : q = some o := by rw [← read_var hq]; exact ho
    subst hqo
    have hlt := (List.getElem?_eq_some_iff.mp hq).1
    refine ⟨release s.objs.length (write s (.var v) none) o, ?_, r1, ⟨none, ?_⟩, ?_, r2, ?_⟩
    · have e1 : releaseAt s (.var v) = release s.objs.length s o := by simp only [releaseAt, ho]
      have e2 := release_vars s.objs.length s o (s.vars.set v (some none))
      have e3 : write s (.var v) none = { s with vars := s.vars.set v (some none) } := rfl
      rw [e1, e3, e2]
      have e4 : (release s.objs.length s o) = { release s.objs.length s o with vars := s.vars } := by
        have := release_vars s.objs.length s o s.vars
        exact this
      conv_lhs => rw [e4]
      simp only [write]
      congr 1
      rw [List.set_set]
      apply List.ext_getElem?
      intro i
      rw [List.getElem?_set]
      split
      · rename_i e; subst e; exact hq
      · rfl
    · rw [r2]; simp only [write]; rw [getElem?_set' hq, if_pos rfl]
    · have : (release s.objs.length (write s (.var v) none) o).vars[v]? = some (some none) := by rw [r2]; simp only [write]; rw [getElem?_set' hq, if_pos rfl]
      exact read_var this
    · intro h2 c x hx hax
      obtain ⟨y, h3, h4, h5⟩ := hkeep h2 c x hx hax
      exact ⟨y, h3, h4, fun _ => h5⟩
  | inside c =>
    obtain ⟨x, hx, hax⟩ := ha
    have hxo : x.next = some o := by rw [← read_inside hx]; exact ho
    have hvc := hv c rfl
    have hw : write s (.inside c) none = { s with objs := s.objs.set c { x with next := none } } := by simp only [write, hx]
    have hxc : (write s (.inside c) none).objs[c]? = some { x with next := none } := by rw [hw]; show (s.objs.set c _)[c]? = _; rw [getElem?_set' hx, if_pos rfl]
    obtain ⟨yc, y1, y2, y3, y4⟩ := release_write s.objs.length (write s (.inside c) none) o c (some o) [] { x with next := none } ht hliv
      (by rw [hw]; exact hvc) hxc hax rfl
    refine ⟨release s.objs.length (write s (.inside c) none) o, ?_, r1, ⟨yc, y1, y2⟩, by rw [read_inside y1]; exact y3, r2, ?_⟩
    · have e1 : releaseAt s (.inside c) = release s.objs.length s o := by simp only [releaseAt, ho]
      have e2 : ({ write s (.inside c) none with objs := (write s (.inside c) none).objs.set c { ({ x with next := none } : Obj) with next := some o } } : State) = s := by
        rw [hw]
        have hlt := (List.getElem?_eq_some_iff.mp hx).1
        have : (s.objs.set c { x with next := none }).set c { x with next := some o } = s.objs := by
          rw [List.set_set]
          apply List.ext_getElem?
          intro i
          rw [List.getElem?_set]
          split
          · rename_i e; subst e; rw [hx]
            congr 1
            cases x; simp only at hxo; subst hxo; rfl
          · rfl
        show ({ s with objs := (s.objs.set c { x with next := none }).set c { x with next := some o } } : State) = s
        rw [this]
      rw [e2] at y4
      rw [e1, y4]
      obtain ⟨t, ht⟩ : ∃ t, t = release s.objs.length (write s (.inside c) none) o := ⟨_, rfl⟩
      rw [← ht] at y1 ⊢
      simp only [write, y1]
    · intro h2 d z hz haz
      by_cases e : c = d
      · subst e
        exact ⟨yc, y1, y2, fun h => absurd rfl h⟩
      · obtain ⟨y, h3, h4, h5⟩ := hkeep h2 d z (by rw [hw]; show (s.objs.set c _)[d]? = _; rw [getElem?_set' hx, if_neg e]; exact hz) haz
        exact ⟨y, h3, h4, fun _ => h5⟩

/-! ### The specification's count -/

theorem zipIdx_count (log : List Nat) (o : Nat) : ∀ (l : List Obj) (k : Nat), (∀ (i : Nat) (x : Obj), l[i]? = some x → (x.alive = true ↔ i + k ∉ log)) →
    ((l.zipIdx k).filter fun x => x.2 ∉ log ∧ x.1.next = some o).length = l.countP fun x => x.alive ∧ x.next = some o := by
  intro l
  induction l with
  | nil => intro k _; rfl
  | cons x l ih =>
    intro k h
    have h0 := h 0 x rfl
    rw [Nat.zero_add] at h0
    have := ih (k + 1) (fun i y hy => by have := h (i + 1) y hy; rwa [Nat.add_assoc, Nat.add_comm 1 k] at this)
    rw [List.zipIdx_cons, List.countP_cons, List.filter_cons]
    by_cases hk : k ∉ log ∧ x.next = some o
    · rw [if_pos (by simpa using hk), if_pos (by simpa using ⟨h0.mpr hk.1, hk.2⟩), List.length_cons, this]
    · rw [if_neg (by simpa using hk), if_neg, this]
      · rfl
      · intro hc
        rw [decide_eq_true_eq] at hc
        exact hk ⟨h0.mp hc.1, hc.2⟩

theorem alive_iff {s : State} {pend : List Nat} (h : Inv s pend) {i : Nat} {x : Obj} (hx : s.objs[i]? = some x) : x.alive = true ↔ i ∉ s.log := by
  have := h.log i
  cases hax : x.alive with
  | true =>
    rw [if_neg (by rintro ⟨y, hy, hay⟩; rw [hx] at hy; cases hy; rw [hax] at hay; cases hay)] at this
    exact ⟨fun _ => List.count_eq_zero.mp this, fun _ => rfl⟩
  | false =>
    rw [if_pos ⟨x, hx, hax⟩] at this
    refine ⟨fun h => (nomatch h), fun hn => ?_⟩
    rw [List.count_eq_zero.mpr hn] at this; omega

theorem handles_eq {s : State} {pend : List Nat} (h : Inv s pend) (o : Nat) : handles s o = refs s o := by
  rw [handles, refs, varRefs, objRefs, List.countP_eq_length_filter]
  congr 1
  exact zipIdx_count s.log o s.objs 0 fun i x hx => by simpa using alive_iff h hx

/-! ### Steps -/

theorem touch_isLoc {s : State} {a : Loc} (h : IsLoc s a) : touch s a = s := by
  cases a with
  | var v => rfl
  | inside c => obtain ⟨x, hx, hax⟩ := h; simp [touch, hx, hax]

theorem isLoc_write {s : State} {a b : Loc} (h : IsLoc s b) (p : Option Nat) : IsLoc (write s a p) b := by
  cases a with
  | var v =>
    cases b with
    | var w =>
      obtain ⟨q, hq⟩ := h
      simp only [IsLoc, write, List.getElem?_set]
      have := (List.getElem?_eq_some_iff.mp hq).1
      split
      · rename_i e; subst e; simp [this]
      · exact ⟨q, hq⟩
    | inside c => exact h
  | inside d =>
    simp only [write]
    split
    · exact h
    · rename_i x hx
      cases b with
      | var w => exact h
      | inside c =>
        obtain ⟨y, hy, hay⟩ := h
        simp only [IsLoc]
        rw [getElem?_set' hx]
        split
        · rename_i e; subst e; rw [hx] at hy; cases hy; exact ⟨_, rfl, hay⟩
        · exact ⟨y, hy, hay⟩

theorem write_write {s : State} {a : Loc} (p q : Option Nat) : write (write s a p) a q = write s a q := by
  cases a with
  | var v => simp [write]
  | inside c =>
    cases hx : s.objs[c]? with
    | none => simp [write, hx]
    | some x =>
      have h1 : write s (.inside c) p = { s with objs := s.objs.set c { x with next := p } } := by simp only [write, hx]
      have h2 : (write s (.inside c) p).objs[c]? = some { x with next := p } := by rw [h1]; show (s.objs.set c _)[c]? = _; rw [getElem?_set' hx, if_pos rfl]
      rw [h1] at h2
      simp only [write, hx]
      simp only [write, h2]
      simp

theorem read_write {s : State} {a b : Loc} (ha : IsLoc s a) (p : Option Nat) : read (write s a p) b = if a = b then p else read s b := by
  cases a with
  | var v =>
    obtain ⟨q, hq⟩ := ha
    cases b with
    | var w =>
      by_cases e : v = w
      · subst e
        rw [if_pos rfl]
        exact read_var (by simp only [write]; rw [getElem?_set' hq, if_pos rfl])
      · rw [if_neg (by simpa using e)]
        simp [read, write, List.getElem?_set, e]
    | inside c => simp [read, write]
  | inside d =>
    obtain ⟨x, hx, hax⟩ := ha
    have h1 : write s (.inside d) p = { s with objs := s.objs.set d { x with next := p } } := by simp only [write, hx]
    cases b with
    | var w => rw [h1]; simp [read]
    | inside c =>
      rw [h1]
      simp only [read]
      rw [getElem?_set' hx]
      by_cases e : d = c
      · subst e; simp
      · simp [e]

theorem isLoc_of_locOf {s : State} (h : Inv s []) {pl : Place} {a : Loc} (ha : locOf s pl = some a) : IsLoc s a ∧ ∀ c, a = .inside c → 0 < varRefs s c := by
  cases pl with
  | var v =>
    simp only [locOf] at ha
    split at ha
    · rename_i hs
      cases ha
      refine ⟨?_, fun c h => nomatch h⟩
      cases hv : s.vars[v]? with
      | none => simp [hv] at hs
      | some q => cases q with
        | none => simp [hv] at hs
        | some q => exact ⟨q, hv⟩
    · cases ha
  | next v =>
    simp only [locOf] at ha
    split at ha
    · rename_i o ho
      cases ha
      have hv : s.vars[v]? = some (some (some o)) := by
        cases hq : s.vars[v]? with
        | none => simp [hq] at ho
        | some q => simp only [hq, Option.bind_some, id] at ho; rw [ho]
      have hpos : 0 < varRefs s o := List.countP_pos_iff.mpr ⟨_, List.mem_of_getElem? hv, by simp⟩
      refine ⟨h.held o (by simp only [refs]; omega), ?_⟩
      intro c hc; cases hc; exact hpos
    · cases ha

theorem read_held {s : State} (h : Inv s []) {b : Loc} (hb : IsLoc s b) {o : Nat} (ho : read s b = some o) : 0 < refs s o := by
  cases b with
  | var v =>
    obtain ⟨q, hq⟩ := hb
    rw [read_var hq] at ho
    subst ho
    have : 0 < varRefs s o := List.countP_pos_iff.mpr ⟨_, List.mem_of_getElem? hq, by simp⟩
    simp only [refs]; omega
  | inside c =>
    obtain ⟨x, hx, hax⟩ := hb
    rw [read_inside hx] at ho
    have : 0 < objRefs s o := List.countP_pos_iff.mpr ⟨x, List.mem_of_getElem? hx, by simp [hax, ho]⟩
    simp only [refs]; omega

theorem read_addRefTo {s : State} {a : Loc} (ha : IsLoc s a) (p : Option Nat) (hp : ∀ o, p = some o → ∃ x : Obj, s.objs[o]? = some x ∧ x.alive = true) :
    read (addRefTo s p) a = read s a := by
  cases p with
  | none => rfl
  | some o => obtain ⟨x, hx, hax⟩ := hp o rfl; exact (isLoc_addRef ha hx hax).2

theorem alive_write {s : State} {a : Loc} {p : Option Nat} {o : Nat} (h : ∃ x : Obj, s.objs[o]? = some x ∧ x.alive = true) :
    ∃ x : Obj, (write s a p).objs[o]? = some x ∧ x.alive = true :=
  isLoc_write (b := .inside o) h p

theorem assign_inv {s : State} (h : Inv s []) {a b : Loc} (ha : IsLoc s a) (hb : IsLoc s b) (hv : ∀ c, a = .inside c → 0 < varRefs s c)
    (hc : ∀ o, read s a = some o → 2 ≤ refs s o ∨ ∃ v, b = .var v ∧ a ≠ b) : Inv (assign s a b) [] ∧ read (assign s a b) a = read s b := by
  cases ho : read s a with
  | none =>
    have e : assign s a b = addRefTo (write s a (read s b)) (read s b) := by
      simp only [assign, releaseAt, ho, touch_isLoc hb, touch_isLoc ha]
    have hp : ∀ o, read s b = some o → ∃ x : Obj, s.objs[o]? = some x ∧ x.alive = true := fun o hr => h.held o (by have := read_held h hb hr; omega)
    rw [e]
    exact ⟨link_inv h ha ho _ hp, by rw [read_addRefTo (isLoc_write ha _) _ (fun o hr => alive_write (hp o hr)), read_write ha, if_pos rfl]⟩
  | some o =>
    obtain ⟨u, u1, u2, u3, u4, u5, u6⟩ := unlink h ha hv ho
    have hub : IsLoc u b := by
      rcases hc o ho with h2 | ⟨v, hbv, hne⟩
      · cases b with
        | var w => have := isLoc_write (a := a) hb none; simp only [IsLoc] at this ⊢; rw [u5]; exact this
        | inside c =>
          obtain ⟨x, hx, hax⟩ := hb
          obtain ⟨y, hy, hay, _⟩ := u6 h2 c x hx hax
          exact ⟨y, hy, hay⟩
      · subst hbv
        have := isLoc_write (a := a) hb none; simp only [IsLoc] at this ⊢; rw [u5]; exact this
    have e : assign s a b = addRefTo (write u a (if a = b then some o else read u b)) (if a = b then some o else read u b) := by
      simp only [assign]
      rw [u1, touch_isLoc (isLoc_write hub _), touch_isLoc (isLoc_write u3 _), write_write, read_write u3]
    have hval : (if a = b then some o else read u b) = read s b := by
      split
      · rename_i e; rw [← e, ho]
      · rename_i hne
        cases b with
        | var w =>
          have : read u (.var w) = read (write s a none) (.var w) := by simp only [read, u5]
          rw [this, read_write ha, if_neg hne]
        | inside c =>
          rcases hc o ho with h2 | ⟨v, hbv, _⟩
          · obtain ⟨x, hx, hax⟩ := hb
            obtain ⟨y, hy, hay, hyn⟩ := u6 h2 c x hx hax
            rw [read_inside hy, read_inside hx, hyn hne]
          · cases hbv
    have hp : ∀ q, (if a = b then some o else read u b) = some q → ∃ x : Obj, u.objs[q]? = some x ∧ x.alive = true := by
      intro q hq
      split at hq
      · rename_i e
        cases hq
        rcases hc o ho with h2 | ⟨v, hbv, hne⟩
        · obtain ⟨x, hx, hax⟩ := h.held o (by omega)
          obtain ⟨y, hy, hay, _⟩ := u6 h2 o x hx hax
          exact ⟨y, hy, hay⟩
        · exact absurd e hne
      · exact u2.held q (by have := read_held u2 hub hq; omega)
    rw [e]
    refine ⟨link_inv u2 u3 u4 _ hp, ?_⟩
    rw [read_addRefTo (isLoc_write u3 _) _ (fun o hr => alive_write (hp o hr)), read_write u3, if_pos rfl, hval]

theorem vars_inv {s : State} {pend : List Nat} (h : Inv s pend) (V : List (Option (Option Nat)))
    (hV : ∀ o, (V.countP fun v => v = some (some o)) = varRefs s o) : Inv { s with vars := V } pend := by
  have hrefs : ∀ o, refs { s with vars := V } o = refs s o := by intro o; simp only [refs]; rw [← hV o]; rfl
  exact ⟨fun o x hx ha => by rw [hrefs]; exact h.count o x hx ha, fun o ho => by rw [hrefs] at ho; exact h.held o ho, h.pos, h.log, h.safe⟩

theorem declare_inv {s : State} (h : Inv s []) : Inv { s with vars := s.vars ++ [some none] } [] :=
  vars_inv h _ (by intro o; simp [varRefs])

theorem newObj_inv {s : State} (h : Inv s []) : Inv (newObj s) [s.objs.length] := by
  have hnone : refs s s.objs.length = 0 := by
    by_contra hne
    obtain ⟨x, hx, _⟩ := h.held s.objs.length (by omega)
    have := (List.getElem?_eq_some_iff.mp hx).1
    omega
  have hrefs : ∀ o, refs (newObj s) o = refs s o := by intro o; simp [refs, varRefs, objRefs, newObj]
  have hobj : ∀ o, (newObj s).objs[o]? = if o = s.objs.length then some ⟨1, true, none⟩ else s.objs[o]? := by
    intro o
    show (s.objs ++ [_])[o]? = _
    rcases lt_trichotomy o s.objs.length with hlt | heq | hgt
    · rw [List.getElem?_append_left hlt, if_neg (by omega)]
    · subst heq; simp
    · rw [List.getElem?_eq_none (by simp; omega), if_neg (by omega), List.getElem?_eq_none (by omega)]
  have hcnt : ∀ o, [s.objs.length].count o = if o = s.objs.length then 1 else 0 := by
    intro o
    by_cases e : o = s.objs.length
    · subst e; simp
    · rw [if_neg e, List.count_cons_of_ne (fun h => e h.symm), List.count_nil]
  refine ⟨?_, ?_, ?_, ?_, h.safe⟩
  · intro o x hx hax
    rw [hobj] at hx
    rw [hrefs, hcnt]
    split at hx
    · rename_i e; subst e; cases hx; rw [hnone, if_pos rfl]; rfl
    · rename_i e; rw [if_neg e]; exact h.count o x hx hax
  · intro o ho
    rw [hrefs, hcnt] at ho
    rw [hobj]
    split
    · exact ⟨_, rfl, rfl⟩
    · rename_i e; rw [if_neg e] at ho; exact h.held o ho
  · intro o x hx hax
    rw [hobj] at hx
    split at hx
    · cases hx; exact Int.one_pos
    · exact h.pos o x hx hax
  · intro o
    rw [show (newObj s).log = s.log from rfl, h.log o, hobj]
    by_cases e : o = s.objs.length
    · subst e; simp
    · rw [if_neg e]

theorem newObj_isLoc {s : State} {a : Loc} (ha : IsLoc s a) : IsLoc (newObj s) a ∧ read (newObj s) a = read s a := by
  cases a with
  | var v => exact ⟨ha, rfl⟩
  | inside c =>
    obtain ⟨x, hx, hax⟩ := ha
    have : (newObj s).objs[c]? = some x := by
      show (s.objs ++ [_])[c]? = _
      rw [List.getElem?_append_left (List.getElem?_eq_some_iff.mp hx).1]; exact hx
    exact ⟨⟨x, this, hax⟩, by rw [read_inside this, read_inside hx]⟩

theorem create_inv {s : State} (h : Inv s []) {a : Loc} (ha : IsLoc s a) (hn : read s a = none) : Inv (write (newObj s) a (some s.objs.length)) [] := by
  obtain ⟨h1, h2⟩ := newObj_isLoc ha
  refine write_inv (newObj_inv h) h1 _ ?_
  intro r
  rw [h2, hn]
  simp [List.count_cons]

theorem step_inv {s : State} (h : Inv s []) (op : Op) (hc : Careful s op) : Inv (step s op) [] := by
  have hdecl := declare_inv h
  have hloc : IsLoc { s with vars := s.vars ++ [some none] } (.var s.vars.length) := ⟨none, by simp⟩
  have hread : read { s with vars := s.vars ++ [some none] } (.var s.vars.length) = none := read_var (by simp)
  cases op with
  | declare => exact hdecl
  | make =>
    have := create_inv hdecl hloc hread
    have e : write (newObj { s with vars := s.vars ++ [some none] }) (.var s.vars.length) (some s.objs.length) = step s .make := by
      simp [write, newObj, step]
    rw [← e]; exact this
  | copy p =>
    simp only [step]
    split
    · exact h
    · rename_i l hl
      obtain ⟨h1, _⟩ := isLoc_of_locOf h hl
      have := link_inv hdecl hloc hread (read s l) (fun o ho => h.held o (by have := read_held h h1 ho; omega))
      have e : write { s with vars := s.vars ++ [some none] } (.var s.vars.length) (read s l) = { s with vars := s.vars ++ [some (read s l)] } := by
        simp [write]
      rw [e] at this
      rw [touch_isLoc h1]
      exact this
  | assign l r =>
    simp only [step]
    split
    · rename_i a b hl hr
      obtain ⟨h1, h2⟩ := isLoc_of_locOf h hl
      obtain ⟨h3, _⟩ := isLoc_of_locOf h hr
      refine (assign_inv h h1 h3 h2 fun o ho => ?_).1
      rw [← handles_eq h]
      exact hc a b hl hr o ho
    · exact h
  | create p =>
    simp only [step]
    split
    · exact h
    · rename_i l hl
      obtain ⟨h1, _⟩ := isLoc_of_locOf h hl
      split
      · rename_i hn
        rw [touch_isLoc h1]
        exact create_inv h h1 hn
      · exact h
  | destroy v =>
    simp only [step]
    split
    · rename_i hs
      obtain ⟨q, hq⟩ : ∃ q, s.vars[v]? = some (some q) := by
        cases hv : s.vars[v]? with
        | none => simp [hv] at hs
        | some q => cases q with
          | none => simp [hv] at hs
          | some q => exact ⟨q, rfl⟩
      have hdrop : ∀ (t : State), Inv t [] → t.vars[v]? = some (some none) → Inv { t with vars := t.vars.set v none } [] := by
        intro t ht htv
        refine vars_inv ht _ fun o => ?_
        have := countP_set' (p := fun y : Option (Option Nat) => y = some (some o)) (a := none) htv
        simpa [varRefs] using this
      cases q with
      | none =>
        have e : releaseAt s (.var v) = s := by simp only [releaseAt, read_var hq]
        rw [e]
        exact hdrop s h hq
      | some o =>
        obtain ⟨u, u1, u2, ⟨w, u3⟩, u4, u5, _⟩ := unlink h (a := .var v) ⟨_, hq⟩ (fun c hc => nomatch hc) (read_var hq)
        have hw : w = none := by rw [← read_var u3]; exact u4
        subst hw
        have := hdrop u u2 u3
        rw [u1]
        have e : s.vars.set v none = u.vars.set v none := by rw [u5]; simp [write]
        rw [e]
        exact this
    · exact h

theorem init_inv : Inv {} [] := by
  refine ⟨?_, ?_, ?_, ?_, rfl⟩ <;> simp [refs, varRefs, objRefs]

theorem exec_inv : ∀ (ops : List Op) (s : State), Inv s [] → CarefulRun s ops → Inv (exec s ops) [] := by
  intro ops
  induction ops with
  | nil => intro s h _; exact h
  | cons op ops ih => intro s h hc; exact ih _ (step_inv h op hc.1) hc.2

/-- C37 (partial: assignments that keep their right hand side alive). Whatever a program does with handles, no deleted object is ever used, every
object is cleaned up and deleted at most once, and exactly when the last handle to it is gone; the reference count is the number of its handles. -/
theorem release_once_partial (ops : List Op) (h : CarefulRun {} ops) :
    (exec {} ops).fault = false ∧ (exec {} ops).log.Nodup ∧ (∀ o ∈ (exec {} ops).log, o < (exec {} ops).objs.length) ∧
      ∀ (o : Nat) (x : Obj), (exec {} ops).objs[o]? = some x →
        (o ∈ (exec {} ops).log ↔ handles (exec {} ops) o = 0) ∧ (o ∉ (exec {} ops).log → x.count = handles (exec {} ops) o) := by
  have hi := exec_inv ops {} init_inv h
  obtain ⟨s, hs⟩ : ∃ s, s = exec {} ops := ⟨_, rfl⟩
  rw [← hs] at hi ⊢
  refine ⟨hi.safe, ?_, ?_, ?_⟩
  · rw [List.nodup_iff_count_le_one]
    intro o; rw [hi.log]; split <;> omega
  · intro o ho
    have := hi.log o
    by_contra hge
    rw [if_neg (by rintro ⟨x, hx, _⟩; exact hge (List.getElem?_eq_some_iff.mp hx).1)] at this
    exact List.count_eq_zero.mp this ho
  · intro o x hx
    rw [handles_eq hi]
    have hal := alive_iff hi hx
    refine ⟨⟨fun ho => ?_, fun h0 => by_contra fun ho => ?_⟩, fun ho => ?_⟩
    · by_contra hne
      obtain ⟨y, hy, hay⟩ := hi.held o (by omega)
      rw [hx] at hy; cases hy
      exact hal.mp hay ho
    · have h1 := hi.count o x hx (hal.mpr ho)
      have h2 := hi.pos o x hx (hal.mpr ho)
      rw [h0] at h1; simp at h1; omega
    · simpa using hi.count o x hx (hal.mpr ho)

/-- C37: after an assignment that keeps its right hand side alive the left handle holds what the right one held before. -/
theorem assign_takes_value_partial (ops : List Op) (l r : Place) (h : CarefulRun {} (ops ++ [.assign l r])) (a b : Loc)
    (ha : locOf (exec {} ops) l = some a) (hb : locOf (exec {} ops) r = some b) :
    read (exec {} (ops ++ [.assign l r])) a = read (exec {} ops) b := by
  have hsplit : ∀ (ops : List Op) (s : State), CarefulRun s (ops ++ [.assign l r]) → CarefulRun s ops ∧ Careful (exec s ops) (.assign l r) := by
    intro ops
    induction ops with
    | nil => intro s h; exact ⟨trivial, h.1⟩
    | cons op ops ih => intro s h; have := ih _ h.2; exact ⟨⟨h.1, this.1⟩, this.2⟩
  obtain ⟨h1, h2⟩ := hsplit ops {} h
  have hi := exec_inv ops {} init_inv h1
  have e : exec {} (ops ++ [.assign l r]) = assign (exec {} ops) a b := by
    simp only [exec, List.foldl_append, List.foldl_cons, List.foldl_nil]
    simp only [exec] at ha hb
    simp only [step, ha, hb]
  rw [e]
  obtain ⟨g1, g2⟩ := isLoc_of_locOf hi ha
  obtain ⟨g3, _⟩ := isLoc_of_locOf hi hb
  exact (assign_inv hi g1 g3 g2 fun o ho => by rw [← handles_eq hi]; exact h2 a b ha hb o ho).2

/-- A program meeting the hypotheses: a list of two objects, whose head is dropped while the tail is kept. -/
example : CarefulRun {} [.make, .create (.next 0), .copy (.next 0), .assign (.var 0) (.var 1), .destroy 1, .destroy 0] ∧
    (exec {} [.make, .create (.next 0), .copy (.next 0), .assign (.var 0) (.var 1)]).log = [0] ∧
    (exec {} [.make, .create (.next 0), .copy (.next 0), .assign (.var 0) (.var 1), .destroy 1, .destroy 0]).log = [0, 1] := by
  refine ⟨⟨trivial, trivial, trivial, ?_, trivial, trivial, trivial⟩, by decide +kernel, by decide +kernel⟩
  intro a b ha hb o _
  right
  have ha' : some a = some (Loc.var 0) := by rw [← ha]; decide +kernel
  have hb' : some b = some (Loc.var 1) := by rw [← hb]; decide +kernel
  cases ha'; cases hb'
  exact ⟨1, rfl, by decide⟩

/-- Assigning the only handle of an object to itself deletes the object and then uses it. -/
theorem self_assign_faults : (exec {} [.make, .assign (.var 0) (.var 0)]).fault = true ∧ (exec {} [.make, .assign (.var 0) (.var 0)]).log = [0] ∧
    handles (exec {} [.make, .assign (.var 0) (.var 0)]) 0 = 1 := by decide +kernel

/-- Moving the only handle of a list to its next element reads the element from the deleted head, and deletes it as well. -/
theorem advance_faults : (exec {} [.make, .create (.next 0), .assign (.var 0) (.next 0)]).fault = true ∧
    (exec {} [.make, .create (.next 0), .assign (.var 0) (.next 0)]).log = [0, 1] := by decide +kernel

end Verif.Resource
