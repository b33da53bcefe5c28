import Verif.Promise.Spec
import Mathlib.Tactic.Tauto

namespace Verif.Promise
open Spec
variable {H V E : Type}

/-- The handlers of a node. -/
def Node.pair (n : Node H V E) : Pair H := (n.cb, n.er)

/-- Nothing has come to the node (a value that has been handled may be left in it). -/
def Node.Fresh (n : Node H V E) : Prop := n.eptr = none ∧ (n.cb = none → n.value = none)

/-- An exception has come to the first node. -/
def SettledE (T : Table H V E) : List (Node H V E) → E → Prop
  | [], _ => True
  | n :: rest, e => (n.cb = none → n.value = none) ∧
    match n.er with
    | none => n.eptr = some e ∧ ∀ m ∈ rest, m.Fresh
    | some h =>
      match T.er h e with
      | .ok true => SettledE T rest e
      | _ => ∀ m ∈ rest, m.Fresh

/-- A value has come to the first node. -/
def SettledV (T : Table H V E) : List (Node H V E) → V → Prop
  | [], _ => True
  | n :: rest, v =>
    match n.cb with
    | none => n.value = some v ∧ n.eptr = none ∧ ∀ m ∈ rest, m.Fresh
    | some h =>
      match T.cb h v with
      | some e => SettledE T (n :: rest) e
      | none => n.eptr = none ∧ SettledV T rest v

/-- Error handlers that do not throw. -/
def Quiet (T : Table H V E) : Prop := ∀ h e, ∃ b, T.er h e = .ok b

theorem callEr_spec (T : Table H V E) (hT : Quiet T) (e : E) : ∀ (n : Node H V E) (rest : List (Node H V E)), (n.cb = none → n.value = none) →
    (∀ m ∈ rest, m.Fresh) → (callEr T (n :: rest) e).chain.map Node.pair = (n :: rest).map Node.pair ∧
      SettledE T (callEr T (n :: rest) e).chain e ∧ (callEr T (n :: rest) e).calls = onError T ((n :: rest).map Node.pair) e ∧
      (callEr T (n :: rest) e).thrown = none := by
  intro n rest
  induction rest generalizing n with
  | nil =>
    intro h1 _
    simp only [callEr, List.map_cons, List.map_nil, Node.pair, onError]
    cases hn : n.er with
    | none => simpa [SettledE, hn, onError, Node.pair] using h1
    | some h =>
      obtain ⟨b, hb⟩ := hT h e
      cases b <;> simpa [SettledE, hn, onError, hb, Node.pair] using h1
  | cons m rest ih =>
    intro h1 h2
    rw [callEr]
    cases hn : n.er with
    | none => simp only [SettledE, List.map_cons, Node.pair, hn, onError]; exact ⟨trivial, ⟨h1, trivial, h2⟩, trivial, trivial⟩
    | some h =>
      obtain ⟨b, hb⟩ := hT h e
      cases b with
      | false =>
        simp only [hb, SettledE, hn, onError, List.map_cons, Node.pair]
        exact ⟨trivial, ⟨h1, h2⟩, trivial, trivial⟩
      | true =>
        obtain ⟨a1, a2, a3, a4⟩ := ih m (h2 m (by simp)).2 fun x hx => h2 x (by simp [hx])
        simp only [hb, SettledE, hn]
        refine ⟨by rw [List.map_cons, a1]; rfl, ⟨h1, a2⟩, ?_, a4⟩
        rw [List.map_cons (l := m :: rest), Node.pair, hn, onError, hb, a3]

theorem callCb_spec (T : Table H V E) (hT : Quiet T) (v : V) (hv : T.null v = false) : ∀ (c : List (Node H V E)), (∀ m ∈ c, m.Fresh) →
    (callCb T c v).chain.map Node.pair = c.map Node.pair ∧ SettledV T (callCb T c v).chain v ∧
      (callCb T c v).calls = onValue T (c.map Node.pair) v ∧ (callCb T c v).thrown = none := by
  intro c
  induction c with
  | nil => intro _; exact ⟨rfl, trivial, rfl, rfl⟩
  | cons n rest ih =>
    intro hf
    have hn := hf n (by simp)
    have hr : ∀ m ∈ rest, m.Fresh := fun m hm => hf m (by simp [hm])
    rw [callCb]
    cases hc : n.cb with
    | none =>
      simp only [SettledV, List.map_cons, Node.pair, hc, onValue, hv]
      exact ⟨trivial, ⟨rfl, hn.1, hr⟩, trivial, trivial⟩
    | some h =>
      cases hx : T.cb h v with
      | some e =>
        obtain ⟨a1, a2, a3, a4⟩ := callEr_spec T hT e n rest hn.2 hr
        simp only [hx]
        refine ⟨a1, ?_, ?_, a4⟩
        · generalize (callEr T (n :: rest) e).chain = d at a1 a2
          cases d with
          | nil => simp at a1
          | cons m d =>
            have : m.cb = some h := by
              have := congrArg List.head? a1
              simp only [List.map_cons, List.head?_cons, Option.some.injEq, Node.pair, Prod.mk.injEq] at this
              rw [this.1, hc]
            simp only [SettledV, this, hx]
            exact a2
        · rw [List.map_cons, Node.pair, hc, onValue, hx]
          simp only
          rw [a3, List.map_cons, Node.pair, hc]
      | none =>
        obtain ⟨a1, a2, a3, a4⟩ := ih hr
        simp only [hx, a4]
        refine ⟨by rw [List.map_cons, a1, List.map_cons], ?_, ?_, trivial⟩
        · simp only [SettledV, hc, hx]
          exact ⟨hn.1, a2⟩
        · rw [List.map_cons, Node.pair, hc, onValue, hx, a3]

/-! ### Attaching -/

theorem setEr_some (T : Table H V E) (h : H) {n : Node H V E} (rest : List (Node H V E)) {e : E} (he : n.eptr = some e) :
    setEr T h 0 (n :: rest) = callEr T ({ n with er := some h } :: rest) e := by
  unfold setEr
  split
  · rename_i hh; rw [he] at hh; cases hh
  · rename_i x hh; rw [he] at hh; cases hh; rfl

theorem setEr_none (T : Table H V E) (h : H) {n : Node H V E} (rest : List (Node H V E)) (he : n.eptr = none) :
    setEr T h 0 (n :: rest) = ⟨{ n with er := some h } :: rest, [], none⟩ := by
  unfold setEr
  split
  · rfl
  · rename_i x hh; rw [he] at hh; cases hh

theorem setCb_some (T : Table H V E) (h : H) {n : Node H V E} (rest : List (Node H V E)) {v : V} (he : n.value = some v) :
    setCb T h 0 (n :: rest) = callCb T ({ n with cb := some h } :: rest) v := by
  unfold setCb
  split
  · rename_i hh; rw [he] at hh; cases hh
  · rename_i x hh; rw [he] at hh; cases hh; rfl

theorem setCb_none (T : Table H V E) (h : H) {n : Node H V E} (rest : List (Node H V E)) (he : n.value = none) :
    setCb T h 0 (n :: rest) = ⟨{ n with cb := some h } :: rest, [], none⟩ := by
  unfold setCb
  split
  · rfl
  · rename_i x hh; rw [he] at hh; cases hh


/-- No value handler at place `i`. -/
def NoCb (c : List (Node H V E)) (i : Nat) : Prop := ∀ n, c[i]? = some n → n.cb = none
def NoEr (c : List (Node H V E)) (i : Nat) : Prop := ∀ n, c[i]? = some n → n.er = none

/-- What an operation that only attaches something does. -/
structure Attached (out : Out H V E) (c : List (Node H V E)) (i : Nat) (f : Pair H → Pair H) (calls : List (Call H V E)) : Prop where
  pairs : out.chain.map Node.pair = (c.map Node.pair).modify i f
  calls : out.calls = calls
  thrown : out.thrown = none

theorem setCb_fresh (T : Table H V E) (h : H) : ∀ (i : Nat) (c : List (Node H V E)), NoCb c i → (∀ m ∈ c, m.Fresh) →
    Attached (setCb T h i c) c i (fun p => (some h, p.2)) [] ∧ ∀ m ∈ (setCb T h i c).chain, m.Fresh := by
  intro i
  induction i with
  | zero =>
    intro c hn hf
    cases c with
    | nil => exact ⟨⟨by simp [setCb], rfl, rfl⟩, by simp [setCb]⟩
    | cons n rest =>
      have h0 := hf n (by simp)
      have hv := h0.2 (hn n rfl)
      rw [setCb_none T h rest hv]
      refine ⟨⟨by simp [Node.pair], rfl, rfl⟩, fun m hm => ?_⟩
      simp only [List.mem_cons] at hm
      rcases hm with rfl | hm
      · exact ⟨h0.1, fun hh => by simp at hh⟩
      · exact hf m (by simp [hm])
  | succ i ih =>
    intro c hn hf
    cases c with
    | nil => exact ⟨⟨by simp [setCb], rfl, rfl⟩, by simp [setCb]⟩
    | cons n rest =>
      obtain ⟨a, b⟩ := ih rest (fun m hm => hn m (by simpa using hm)) fun m hm => hf m (by simp [hm])
      refine ⟨⟨by simp [setCb, a.pairs], a.calls, a.thrown⟩, fun m hm => ?_⟩
      simp only [setCb, List.mem_cons] at hm
      rcases hm with rfl | hm
      · exact hf m (by simp)
      · exact b m hm

theorem setEr_fresh (T : Table H V E) (h : H) : ∀ (i : Nat) (c : List (Node H V E)), (∀ m ∈ c, m.Fresh) →
    Attached (setEr T h i c) c i (fun p => (p.1, some h)) [] ∧ ∀ m ∈ (setEr T h i c).chain, m.Fresh := by
  intro i
  induction i with
  | zero =>
    intro c hf
    cases c with
    | nil => exact ⟨⟨by simp [setEr], rfl, rfl⟩, by simp [setEr]⟩
    | cons n rest =>
      have h0 := hf n (by simp)
      rw [setEr_none T h rest h0.1]
      refine ⟨⟨by simp [Node.pair], rfl, rfl⟩, fun m hm => ?_⟩
      simp only [List.mem_cons] at hm
      rcases hm with rfl | hm
      · exact ⟨h0.1, h0.2⟩
      · exact hf m (by simp [hm])
  | succ i ih =>
    intro c hf
    cases c with
    | nil => exact ⟨⟨by simp [setEr], rfl, rfl⟩, by simp [setEr]⟩
    | cons n rest =>
      obtain ⟨a, b⟩ := ih rest fun m hm => hf m (by simp [hm])
      refine ⟨⟨by simp [setEr, a.pairs], a.calls, a.thrown⟩, fun m hm => ?_⟩
      simp only [setEr, List.mem_cons] at hm
      rcases hm with rfl | hm
      · exact hf m (by simp)
      · exact b m hm

/-- Value handlers do not matter for an exception. -/
theorem onError_cb (T : Table H V E) (h : H) (e : E) : ∀ (i : Nat) (l : List (Pair H)), onError T (l.modify i fun p => (some h, p.2)) e = onError T l e := by
  intro i
  induction i with
  | zero =>
    intro l
    cases l with
    | nil => rfl
    | cons p l => obtain ⟨a, b⟩ := p; cases b <;> rfl
  | succ i ih =>
    intro l
    cases l with
    | nil => rfl
    | cons p l =>
      obtain ⟨a, b⟩ := p
      rw [List.modify_succ_cons]
      cases b with
      | none => rfl
      | some b => rw [onError, onError, ih]

theorem setCb_settledE (T : Table H V E) (h : H) (e : E) : ∀ (i : Nat) (c : List (Node H V E)), NoCb c i → SettledE T c e →
    Attached (setCb T h i c) c i (fun p => (some h, p.2)) [] ∧ SettledE T (setCb T h i c).chain e := by
  intro i
  induction i with
  | zero =>
    intro c hn hs
    cases c with
    | nil => exact ⟨⟨by simp [setCb], rfl, rfl⟩, trivial⟩
    | cons n rest =>
      have hv := hs.1 (hn n rfl)
      rw [setCb_none T h rest hv]
      exact ⟨⟨by simp [Node.pair], rfl, rfl⟩, fun hh => by simp at hh, hs.2⟩
  | succ i ih =>
    intro c hn hs
    cases c with
    | nil => exact ⟨⟨by simp [setCb], rfl, rfl⟩, trivial⟩
    | cons n rest =>
      have hn' : NoCb rest i := fun m hm => hn m (by simpa using hm)
      obtain ⟨s1, s2⟩ := hs
      cases he : n.er with
      | none =>
        simp only [he] at s2
        obtain ⟨a, b⟩ := setCb_fresh T h i rest hn' s2.2
        exact ⟨⟨by simp [setCb, a.pairs], a.calls, a.thrown⟩, s1, by simp only [he]; exact ⟨s2.1, b⟩⟩
      | some k =>
        simp only [he] at s2
        by_cases ho : T.er k e = .ok true
        · simp only [ho] at s2
          obtain ⟨a, b⟩ := ih rest hn' s2
          exact ⟨⟨by simp [setCb, a.pairs], a.calls, a.thrown⟩, s1, by simp only [he, ho]; exact b⟩
        · have s3 : ∀ m ∈ rest, m.Fresh := by
            revert s2
            cases hx : T.er k e with
            | error x => exact fun s => s
            | ok b => cases b with
              | true => exact absurd hx ho
              | false => exact fun s => s
          obtain ⟨a, b⟩ := setCb_fresh T h i rest hn' s3
          refine ⟨⟨by simp [setCb, a.pairs], a.calls, a.thrown⟩, s1, ?_⟩
          simp only [he]
          cases hx : T.er k e with
          | error x => exact b
          | ok y => cases y with
            | true => exact absurd hx ho
            | false => exact b

theorem setEr_settledE (T : Table H V E) (hT : Quiet T) (h : H) (e : E) : ∀ (i : Nat) (c : List (Node H V E)), NoEr c i → SettledE T c e →
    ∃ calls, Attached (setEr T h i c) c i (fun p => (p.1, some h)) calls ∧ SettledE T (setEr T h i c).chain e ∧
      onError T ((c.map Node.pair).modify i fun p => (p.1, some h)) e = onError T (c.map Node.pair) e ++ calls := by
  intro i
  induction i with
  | zero =>
    intro c hn hs
    cases c with
    | nil => exact ⟨[], ⟨by simp [setEr], rfl, rfl⟩, trivial, rfl⟩
    | cons n rest =>
      obtain ⟨s1, s2⟩ := hs
      have hr := hn n rfl
      simp only [hr] at s2
      obtain ⟨a1, a2, a3, a4⟩ := callEr_spec T hT e { n with er := some h } rest s1 s2.2
      rw [setEr_some T h rest s2.1]
      refine ⟨_, ⟨by rw [a1]; rfl, rfl, a4⟩, a2, ?_⟩
      rw [a3]
      simp [Node.pair, hr, onError]
  | succ i ih =>
    intro c hn hs
    cases c with
    | nil => exact ⟨[], ⟨by simp [setEr], rfl, rfl⟩, trivial, rfl⟩
    | cons n rest =>
      have hn' : NoEr rest i := fun m hm => hn m (by simpa using hm)
      obtain ⟨s1, s2⟩ := hs
      cases he : n.er with
      | none =>
        simp only [he] at s2
        obtain ⟨a, b⟩ := setEr_fresh T h i rest s2.2
        exact ⟨[], ⟨by simp [setEr, a.pairs], a.calls, a.thrown⟩, ⟨s1, by simp only [he]; exact ⟨s2.1, b⟩⟩, by simp [Node.pair, he, onError]⟩
      | some k =>
        simp only [he] at s2
        by_cases ho : T.er k e = .ok true
        · simp only [ho] at s2
          obtain ⟨calls, a, b, d⟩ := ih rest hn' s2
          refine ⟨calls, ⟨by simp [setEr, a.pairs], a.calls, a.thrown⟩, ⟨s1, by simp only [he, ho]; exact b⟩, ?_⟩
          simp only [List.map_cons, List.modify_succ_cons, Node.pair, he, onError, ho]
          rw [d, List.cons_append]
        · have s3 : ∀ m ∈ rest, m.Fresh := by
            revert s2
            cases hx : T.er k e with
            | error x => exact fun s => s
            | ok b => cases b with
              | true => exact absurd hx ho
              | false => exact fun s => s
          obtain ⟨a, b⟩ := setEr_fresh T h i rest s3
          refine ⟨[], ⟨by simp [setEr, a.pairs], a.calls, a.thrown⟩, ⟨s1, ?_⟩, ?_⟩
          · simp only [he]
            cases hx : T.er k e with
            | error x => exact b
            | ok y => cases y with
              | true => exact absurd hx ho
              | false => exact b
          · simp only [List.map_cons, List.modify_succ_cons, Node.pair, he, onError]
            cases hx : T.er k e with
            | error x => rfl
            | ok y => cases y with
              | true => exact absurd hx ho
              | false => rfl

theorem setCb_settledV (T : Table H V E) (hT : Quiet T) (h : H) (v : V) (hv : T.null v = false) : ∀ (i : Nat) (c : List (Node H V E)), NoCb c i → SettledV T c v →
    ∃ calls, Attached (setCb T h i c) c i (fun p => (some h, p.2)) calls ∧ SettledV T (setCb T h i c).chain v ∧
      onValue T ((c.map Node.pair).modify i fun p => (some h, p.2)) v = onValue T (c.map Node.pair) v ++ calls := by
  intro i
  induction i with
  | zero =>
    intro c hn hs
    cases c with
    | nil => exact ⟨[], ⟨by simp [setCb], rfl, rfl⟩, trivial, rfl⟩
    | cons n rest =>
      have hr := hn n rfl
      simp only [SettledV, hr] at hs
      obtain ⟨a1, a2, a3, a4⟩ := callCb_spec T hT v hv ({ n with cb := some h } :: rest) (by
        intro m hm
        simp only [List.mem_cons] at hm
        rcases hm with rfl | hm
        · exact ⟨hs.2.1, fun hh => by simp at hh⟩
        · exact hs.2.2 m hm)
      rw [setCb_some T h rest hs.1]
      refine ⟨_, ⟨by rw [a1]; rfl, rfl, a4⟩, a2, ?_⟩
      rw [a3]
      simp [Node.pair, hr, onValue]
  | succ i ih =>
    intro c hn hs
    cases c with
    | nil => exact ⟨[], ⟨by simp [setCb], rfl, rfl⟩, trivial, rfl⟩
    | cons n rest =>
      have hn' : NoCb rest i := fun m hm => hn m (by simpa using hm)
      cases hc : n.cb with
      | none =>
        simp only [SettledV, hc] at hs
        obtain ⟨a, b⟩ := setCb_fresh T h i rest hn' hs.2.2
        exact ⟨[], ⟨by simp [setCb, a.pairs], a.calls, a.thrown⟩, by simp only [setCb, SettledV, hc]; exact ⟨hs.1, hs.2.1, b⟩,
          by simp [Node.pair, hc, onValue]⟩
      | some k =>
        simp only [SettledV, hc] at hs
        cases hx : T.cb k v with
        | none =>
          simp only [hx] at hs
          obtain ⟨calls, a, b, d⟩ := ih rest hn' hs.2
          refine ⟨calls, ⟨by simp [setCb, a.pairs], a.calls, a.thrown⟩, by simp only [setCb, SettledV, hc, hx]; exact ⟨hs.1, b⟩, ?_⟩
          simp only [List.map_cons, List.modify_succ_cons, Node.pair, hc, onValue, hx]
          rw [d, List.cons_append]
        | some e =>
          simp only [hx] at hs
          obtain ⟨a, b⟩ := setCb_settledE T h e (i + 1) (n :: rest) hn hs
          refine ⟨[], a, ?_, ?_⟩
          · simp only [setCb, SettledV, hc, hx]
            exact b
          · have := onError_cb T h e (i + 1) ((n :: rest).map Node.pair)
            simp only [List.map_cons, List.modify_succ_cons, Node.pair, hc, onValue, hx, List.append_nil] at this ⊢
            rw [this]

theorem setEr_settledV (T : Table H V E) (hT : Quiet T) (h : H) (v : V) : ∀ (i : Nat) (c : List (Node H V E)), NoEr c i → SettledV T c v →
    ∃ calls, Attached (setEr T h i c) c i (fun p => (p.1, some h)) calls ∧ SettledV T (setEr T h i c).chain v ∧
      onValue T ((c.map Node.pair).modify i fun p => (p.1, some h)) v = onValue T (c.map Node.pair) v ++ calls := by
  intro i
  induction i with
  | zero =>
    intro c hn hs
    cases c with
    | nil => exact ⟨[], ⟨by simp [setEr], rfl, rfl⟩, trivial, rfl⟩
    | cons n rest =>
      cases hc : n.cb with
      | none =>
        simp only [SettledV, hc] at hs
        rw [setEr_none T h rest hs.2.1]
        exact ⟨[], ⟨by simp [Node.pair], rfl, rfl⟩, by simp only [SettledV, hc]; exact hs, by simp [Node.pair, hc, onValue]⟩
      | some k =>
        simp only [SettledV, hc] at hs
        cases hx : T.cb k v with
        | none =>
          simp only [hx] at hs
          rw [setEr_none T h rest hs.1]
          refine ⟨[], ⟨by simp [Node.pair], rfl, rfl⟩, by simp only [SettledV, hc, hx]; exact hs, ?_⟩
          simp [Node.pair, hc, onValue, hx]
        | some e =>
          simp only [hx] at hs
          obtain ⟨calls, a, b, d⟩ := setEr_settledE T hT h e 0 (n :: rest) hn hs
          refine ⟨calls, a, ?_, ?_⟩
          · have hp := a.pairs
            generalize (setEr T h 0 (n :: rest)).chain = dd at b hp
            cases dd with
            | nil => simp at hp
            | cons m dd =>
              have hm : m.cb = some k := by
                have := congrArg List.head? hp
                simp only [List.map_cons, List.modify_zero_cons, List.head?_cons, Option.some.injEq, Node.pair, Prod.mk.injEq] at this
                rw [this.1, hc]
              simp only [SettledV, hm, hx]
              exact b
          · simp only [List.map_cons, List.modify_zero_cons, Node.pair, hc, onValue, hx, List.cons_append] at d ⊢
            rw [d]
  | succ i ih =>
    intro c hn hs
    cases c with
    | nil => exact ⟨[], ⟨by simp [setEr], rfl, rfl⟩, trivial, rfl⟩
    | cons n rest =>
      have hn' : NoEr rest i := fun m hm => hn m (by simpa using hm)
      cases hc : n.cb with
      | none =>
        simp only [SettledV, hc] at hs
        obtain ⟨a, b⟩ := setEr_fresh T h i rest hs.2.2
        exact ⟨[], ⟨by simp [setEr, a.pairs], a.calls, a.thrown⟩, by simp only [setEr, SettledV, hc]; exact ⟨hs.1, hs.2.1, b⟩,
          by simp [Node.pair, hc, onValue]⟩
      | some k =>
        simp only [SettledV, hc] at hs
        cases hx : T.cb k v with
        | none =>
          simp only [hx] at hs
          obtain ⟨calls, a, b, d⟩ := ih rest hn' hs.2
          refine ⟨calls, ⟨by simp [setEr, a.pairs], a.calls, a.thrown⟩, by simp only [setEr, SettledV, hc, hx]; exact ⟨hs.1, b⟩, ?_⟩
          simp only [List.map_cons, List.modify_succ_cons, Node.pair, hc, onValue, hx]
          rw [d, List.cons_append]
        | some e =>
          simp only [hx] at hs
          obtain ⟨calls, a, b, d⟩ := setEr_settledE T hT h e (i + 1) (n :: rest) hn hs
          refine ⟨calls, a, ?_, ?_⟩
          · simp only [setEr, SettledV, hc, hx]
            exact b
          · simp only [List.map_cons, List.modify_succ_cons, Node.pair, hc, onValue, hx, List.cons_append] at d ⊢
            rw [d]

end Verif.Promise
