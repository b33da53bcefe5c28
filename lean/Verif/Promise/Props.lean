import Verif.Promise.Lemmas

namespace Verif.Promise
open Spec
variable {H V E : Type}

/-- The state of a chain to which a result has come, or none. -/
def Inv (T : Table H V E) (c : List (Node H V E)) : Option (Result V E) → Prop
  | none => ∀ m ∈ c, m.Fresh
  | some (.value v) => T.null v = false ∧ SettledV T c v
  | some (.error e) => SettledE T c e

/-- The calls due for a result, or none. -/
def due (T : Table H V E) (hs : List (Pair H)) : Option (Result V E) → List (Call H V E)
  | none => []
  | some r => onResult T hs r

/-- The handlers that the operations attach are not attached yet. -/
def Avail (ops : List (Op H V E)) (c : List (Pair H)) : Prop :=
  ∀ op ∈ ops, match op with
    | .setCb i _ => ∀ p, c[i]? = some p → p.1 = none
    | .setEr i _ => ∀ p, c[i]? = some p → p.2 = none
    | _ => True

theorem noCb_of {c : List (Node H V E)} {i : Nat} (h : ∀ p, (c.map Node.pair)[i]? = some p → p.1 = none) : NoCb c i := by
  intro n hn
  exact h n.pair (by simp [hn])

theorem noEr_of {c : List (Node H V E)} {i : Nat} (h : ∀ p, (c.map Node.pair)[i]? = some p → p.2 = none) : NoEr c i := by
  intro n hn
  exact h n.pair (by simp [hn])

theorem avail_cb {i : Nat} {h : H} {ops : List (Op H V E)} {c : List (Pair H)} (hA : Avail (.setCb i h :: ops) c)
    (hO : Once (.setCb i h :: ops)) : Avail ops (c.modify i fun p => (some h, p.2)) := by
  intro op hop
  have h1 := hA op (by simp [hop])
  have h2 := (List.pairwise_cons.1 hO).1 op hop
  cases op with
  | setCb j k =>
    intro p hp
    simp only at h1 h2
    rw [List.getElem?_modify] at hp
    exact h1 p (by simpa [h2] using hp)
  | setEr j k =>
    intro p hp
    simp only at h1
    rw [List.getElem?_modify] at hp
    cases hc : c[j]? with
    | none => simp [hc] at hp
    | some q =>
      have := h1 q hc
      by_cases hij : i = j <;> simp [hc, hij] at hp <;> rw [← hp] <;> exact this
  | deliver v => trivial
  | fail e => trivial

theorem avail_er {i : Nat} {h : H} {ops : List (Op H V E)} {c : List (Pair H)} (hA : Avail (.setEr i h :: ops) c)
    (hO : Once (.setEr i h :: ops)) : Avail ops (c.modify i fun p => (p.1, some h)) := by
  intro op hop
  have h1 := hA op (by simp [hop])
  have h2 := (List.pairwise_cons.1 hO).1 op hop
  cases op with
  | setEr j k =>
    intro p hp
    simp only at h1 h2
    rw [List.getElem?_modify] at hp
    exact h1 p (by simpa [h2] using hp)
  | setCb j k =>
    intro p hp
    simp only at h1
    rw [List.getElem?_modify] at hp
    cases hc : c[j]? with
    | none => simp [hc] at hp
    | some q =>
      have := h1 q hc
      by_cases hij : i = j <;> simp [hc, hij] at hp <;> rw [← hp] <;> exact this
  | deliver v => trivial
  | fail e => trivial

theorem avail_tail {op : Op H V E} {ops : List (Op H V E)} {c : List (Pair H)} (h : Avail (op :: ops) c) : Avail ops c :=
  fun o ho => h o (by simp [ho])

/-- Attaching a value handler. -/
theorem step_cb (T : Table H V E) (hT : Quiet T) (i : Nat) (h : H) (c : List (Node H V E)) (r : Option (Result V E)) (hn : NoCb c i) (hI : Inv T c r) :
    ∃ calls, Attached (setCb T h i c) c i (fun p => (some h, p.2)) calls ∧ Inv T (setCb T h i c).chain r ∧
      due T ((c.map Node.pair).modify i fun p => (some h, p.2)) r = due T (c.map Node.pair) r ++ calls := by
  cases r with
  | none =>
    obtain ⟨a, b⟩ := setCb_fresh T h i c hn hI
    exact ⟨[], a, b, rfl⟩
  | some r =>
    cases r with
    | value v =>
      obtain ⟨calls, a, b, d⟩ := setCb_settledV T hT h v hI.1 i c hn hI.2
      exact ⟨calls, a, ⟨hI.1, b⟩, d⟩
    | error e =>
      obtain ⟨a, b⟩ := setCb_settledE T h e i c hn hI
      exact ⟨[], a, b, by rw [List.append_nil]; exact onError_cb T h e i _⟩

/-- Attaching an error handler. -/
theorem step_er (T : Table H V E) (hT : Quiet T) (i : Nat) (h : H) (c : List (Node H V E)) (r : Option (Result V E)) (hn : NoEr c i) (hI : Inv T c r) :
    ∃ calls, Attached (setEr T h i c) c i (fun p => (p.1, some h)) calls ∧ Inv T (setEr T h i c).chain r ∧
      due T ((c.map Node.pair).modify i fun p => (p.1, some h)) r = due T (c.map Node.pair) r ++ calls := by
  cases r with
  | none =>
    obtain ⟨a, b⟩ := setEr_fresh T h i c hI
    exact ⟨[], a, b, rfl⟩
  | some r =>
    cases r with
    | value v =>
      obtain ⟨calls, a, b, d⟩ := setEr_settledV T hT h v i c hn hI.2
      exact ⟨calls, a, ⟨hI.1, b⟩, d⟩
    | error e => exact setEr_settledE T hT h e i c hn hI

theorem run_spec (T : Table H V E) (hT : Quiet T) : ∀ (ops : List (Op H V E)) (c : List (Node H V E)) (r : Option (Result V E)),
    Once ops → Avail ops (c.map Node.pair) → Inv T c r → (r.toList ++ results ops).length ≤ 1 →
    (∀ v, .value v ∈ results ops → T.null v = false) →
    due T (c.map Node.pair) r ++ (run T ops c).2 = due T (attach ops (c.map Node.pair)) (r.toList ++ results ops).head? := by
  intro ops
  induction ops with
  | nil => intro c r _ _ _ _ _; cases r <;> simp [run, attach, results, due]
  | cons op ops ih =>
    intro c r hO hA hI hR hN
    have hO' := (List.pairwise_cons.1 hO).2
    cases op with
    | setCb i h =>
      obtain ⟨calls, a, b, d⟩ := step_cb T hT i h c r (noCb_of (hA (.setCb i h) (by simp))) hI
      have := ih (setCb T h i c).chain r hO' (by rw [a.pairs]; exact avail_cb hA hO) b hR hN
      simp only [run, step, attach, results, a.calls]
      rw [a.pairs] at this
      rw [← List.append_assoc, ← d, this]
    | setEr i h =>
      obtain ⟨calls, a, b, d⟩ := step_er T hT i h c r (noEr_of (hA (.setEr i h) (by simp))) hI
      have := ih (setEr T h i c).chain r hO' (by rw [a.pairs]; exact avail_er hA hO) b hR hN
      simp only [run, step, attach, results, a.calls]
      rw [a.pairs] at this
      rw [← List.append_assoc, ← d, this]
    | deliver v =>
      cases r with
      | some r => simp [results] at hR
      | none =>
        obtain ⟨a1, a2, a3, a4⟩ := callCb_spec T hT v (hN v (by simp [results])) c hI
        have := ih (callCb T c v).chain (some (.value v)) hO' (by rw [a1]; exact avail_tail hA) ⟨hN v (by simp [results]), a2⟩ (by simpa [results] using hR) (fun w hw => hN w (by simp [results, hw]))
        simp only [run, step, attach, results, a3]
        rw [a1] at this
        simpa [due, onResult] using this
    | fail e =>
      cases r with
      | some r => simp [results] at hR
      | none =>
        have hE : (callEr T c e).chain.map Node.pair = c.map Node.pair ∧ SettledE T (callEr T c e).chain e ∧
            (callEr T c e).calls = onError T (c.map Node.pair) e := by
          cases c with
          | nil => exact ⟨rfl, trivial, rfl⟩
          | cons n rest =>
            obtain ⟨b1, b2, b3, _⟩ := callEr_spec T hT e n rest (hI n (by simp)).2 fun m hm => hI m (by simp [hm])
            exact ⟨b1, b2, b3⟩
        obtain ⟨a1, a2, a3⟩ := hE
        have := ih (callEr T c e).chain (some (.error e)) hO' (by rw [a1]; exact avail_tail hA) a2 (by simpa [results] using hR) (fun w hw => hN w (by simp [results, hw]))
        simp only [run, step, attach, results, a3]
        rw [a1] at this
        simpa [due, onResult] using this

theorem avail_new (ops : List (Op H V E)) (n : Nat) : Avail ops ((List.replicate n (Node.empty (H := H) (V := V) (E := E))).map Node.pair) := by
  have key : ∀ (i : Nat) (p : Pair H), ((List.replicate n (Node.empty (H := H) (V := V) (E := E))).map Node.pair)[i]? = some p → p = (none, none) := by
    intro i p hp
    rw [List.map_replicate] at hp
    have := List.mem_of_getElem? hp
    exact (List.mem_replicate.1 this).2
  intro op _
  cases op with
  | setCb i h => intro p hp; rw [key i p hp]
  | setEr i h => intro p hp; rw [key i p hp]
  | deliver v => trivial
  | fail e => trivial

/-- C38 (partial). Every interleaving of the attaching of the handlers of a promise and of its forwards with the arrival of its result calls the
handlers that the result is for, each once and in the order of the chain, as if all of them had been attached before the result came.
What is missing is stated by the witnesses below: error handlers that throw, a null value, handlers that are attached twice, and promises that
are made by `forward` after the result has come. -/
theorem calls_partial (T : Table H V E) (hT : Quiet T) (n : Nat) (ops : List (Op H V E)) (hO : Once ops) (hR : (results ops).length ≤ 1)
    (hN : ∀ v, .value v ∈ results ops → T.null v = false) :
    (run T ops (List.replicate n .empty)).2 =
      match results ops with
      | [] => []
      | r :: _ => onResult T (attach ops (List.replicate n (none, none))) r := by
  have h := run_spec T hT ops (List.replicate n .empty) none hO (avail_new ops n) (fun m hm => by
    rw [(List.mem_replicate.1 hm).2]; exact ⟨rfl, fun _ => rfl⟩) (by simpa using hR) hN
  have e : (List.replicate n (Node.empty (H := H) (V := V) (E := E))).map Node.pair = List.replicate n (none, none) := by
    rw [List.map_replicate]; rfl
  rw [e] at h
  simp only [due, List.nil_append, Option.toList_none] at h
  rw [h]
  cases results ops <;> rfl

/-- Corollary in the terms of the caller: when the handlers are attached is not seen. Two histories with the same result that attach the same
handlers have the same calls. -/
theorem order_irrelevant_partial (T : Table H V E) (hT : Quiet T) (n : Nat) (a b : List (Op H V E)) (ha : Once a) (hb : Once b)
    (hr : results a = results b) (h1 : (results a).length ≤ 1) (hN : ∀ v, .value v ∈ results a → T.null v = false)
    (hs : attach a (List.replicate n (none, none)) = attach b (List.replicate n (none, none))) :
    (run T a (List.replicate n .empty)).2 = (run T b (List.replicate n .empty)).2 := by
  rw [calls_partial T hT n a ha h1 hN, calls_partial T hT n b hb (hr ▸ h1) (hr ▸ hN), ← hr, ← hs]

/-- A table with two handlers: value handlers throw `7` on the value 0; the error handlers 1 go on. -/
def tbl : Table Nat Nat Nat where
  cb := fun _ v => if v = 0 then some 7 else none
  null := fun _ => false
  er := fun h _ => .ok (h == 1)

theorem tbl_quiet : Quiet tbl := fun h _ => ⟨h == 1, rfl⟩

/-- Non-vacuity: handlers before and after the result, on three promises. -/
example : (run tbl [.setEr 0 1, .deliver 0, .setCb 0 10, .setEr 1 2, .setEr 2 3] (List.replicate 3 .empty)).2
    = [.value 10 0, .error 1 7, .error 2 7] := by decide

example : Once [Op.setEr 0 1, .deliver 0, .setCb 0 10, .setEr 1 2, .setEr 2 3 (H := Nat) (V := Nat) (E := Nat)] := by
  simp [Once]

/-- The value and error handlers never run for a result that has not come. -/
theorem no_result_no_call (T : Table H V E) (hT : Quiet T) (n : Nat) (ops : List (Op H V E)) (hO : Once ops) (hR : results ops = []) :
    (run T ops (List.replicate n .empty)).2 = [] := by
  rw [calls_partial T hT n ops hO (by simp [hR]) (by simp [hR]), hR]

example : (run tbl [.setEr 0 1, .setCb 1 10] (List.replicate 3 .empty)).2 = [] := by decide

/-! ### What the full property says and the code does not do -/

/-- A promise made by `forward` after the value has been handled never gets it: the new promise is empty, and `set_cb` finds no value in it. -/
theorem late_forward (T : Table H V E) (h k : H) (v : V) (hq : T.cb h v = none) :
    let c := (run T [.setCb 0 h, .deliver v] [.empty]).1
    (run T [.setCb 1 k] (forward c)).2 = [] ∧
      (run T [.setCb 0 h, .setCb 1 k, .deliver v] (forward [.empty])).2 = [.value h v, .value k v] ∨ T.cb k v ≠ none := by
  by_cases hk : T.cb k v = none
  · refine Or.inl ⟨?_, ?_⟩
    · simp [run, step, setCb, callCb, Node.empty, hq, forward]
    · simp [run, step, setCb, callCb, Node.empty, hq, hk, forward]
  · exact Or.inr hk

example : tbl.cb 10 5 = none := rfl

/-- A null value is for the handler that is attached when it comes, and is lost when the handler comes later. -/
theorem null_lost (T : Table H V E) (h : H) (v : V) (hv : T.null v = true) (hq : T.cb h v = none) :
    (run T [.deliver v, .setCb 0 h] [.empty]).2 = [] ∧ (run T [.setCb 0 h, .deliver v] [.empty]).2 = [.value h v] := by
  constructor
  · simp [run, step, callCb, setCb, Node.empty, hv]
  · simp [run, step, callCb, setCb, Node.empty, hq]

/-- Two error handlers attached to one promise after an exception are both called with it, where before it only the last would be. -/
theorem error_twice (T : Table H V E) (hT : Quiet T) (h k : H) (e : E) :
    (run T [.fail e, .setEr 0 h, .setEr 0 k] [.empty]).2 = [.error h e, .error k e] ∧
      (run T [.setEr 0 h, .setEr 0 k, .fail e] [.empty]).2 = [.error k e] := by
  obtain ⟨b, hb⟩ := hT h e
  obtain ⟨d, hd⟩ := hT k e
  cases b <;> cases d <;> simp [run, step, setEr, callEr, Node.empty, hb, hd]

/-- With an error handler that throws, as the one of `then` without an error handler does, the order matters: attached in time its exception goes
on to the error handler of the promise before; attached late it leaves `set_cb`, and the handler before is not told. -/
theorem throwing_order : ∃ (T : Table Nat Nat Nat) (pre post : Out Nat Nat Nat),
    (∃ c0 c1 : List (Node Nat Nat Nat),
      (run T [.setCb 0 10, .setEr 0 1, .setEr 1 2, .setCb 1 11] [.empty, .empty]).1 = c0 ∧ pre = step T c0 (.deliver 0) ∧
      (run T [.setCb 0 10, .setEr 0 1, .setEr 1 2, .deliver 0] [.empty, .empty]).1 = c1 ∧ post = step T c1 (.setCb 1 11)) ∧
    pre.calls = [.value 10 0, .value 11 0, .error 2 7, .error 1 7] ∧ pre.thrown = none ∧
    post.calls = [.value 11 0, .error 2 7] ∧ post.thrown = some 7 := by
  let T : Table Nat Nat Nat := ⟨fun h _ => if h = 11 then some 7 else none, fun _ => false, fun h e => if h = 2 then .error e else .ok false⟩
  refine ⟨T, _, _, ⟨_, _, rfl, rfl, rfl, rfl⟩, ?_, ?_, ?_, ?_⟩ <;> rfl

end Verif.Promise
