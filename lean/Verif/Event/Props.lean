import Verif.Event.Model
import Mathlib.Tactic.Tauto

namespace Verif.Event
variable {T : Type} [DecidableEq T]

/-- In a call of `signal`. -/
def Pc.inSignal (p : Pc) : Bool := p == .start .signal || p == .signalSet || p == .signalWake || p == .done .signal false || p == .done .signal true

/-- In a call of `reset`. -/
def Pc.inReset (p : Pc) : Bool := p == .start .reset || p == .done .reset false || p == .done .reset true

@[simp] theorem go_same (s : State T) (t : T) (p : Pc) : (s.go t p).pc t = p := by simp [State.go]

@[simp] theorem go_signed (s : State T) (t : T) (p : Pc) : (s.go t p).signed = s.signed := rfl

@[simp] theorem go_owner (s : State T) (t : T) (p : Pc) : (s.go t p).owner = s.owner := rfl

theorem go_pc (s : State T) (t u : T) (p : Pc) : (s.go t p).pc u = if u = t then p else s.pc u := rfl

theorem Run.nil_inv {s s' : State T} (h : Run s [] s') : s' = s := by
  generalize hx : ([] : List (Label T)) = l at h
  cases h with
  | nil => rfl
  | snoc => simp at hx

theorem Run.snoc_inv {s s'' : State T} {l : List (Label T)} {x : Label T} (h : Run s (l ++ [x]) s'') : ∃ s', Run s l s' ∧ Step s' x s'' := by
  generalize hx : l ++ [x] = m at h
  cases h with
  | nil => simp at hx
  | snoc h hs =>
    obtain ⟨rfl, h2⟩ := List.append_inj' hx rfl
    simp only [List.cons.injEq, and_true] at h2
    subst h2
    exact ⟨_, h, hs⟩

/-! ### No false alarm -/

/-- The event is not signalled and nothing is under way that could change this. -/
def Quiet (s : State T) : Prop := s.signed = false ∧ ∀ t, (s.pc t).inSignal = false ∧ s.pc t ≠ .done .timed true

theorem blocked_cases {p : Pc} (h : p.blocked = true) : p = .waitBlocked ∨ p = .timedBlocked := by
  simpa [Pc.blocked] using h

theorem Step.quiet {s s' : State T} {x : Label T} (h : Step s x s') (hx : ∀ t, x ≠ .call t .signal) (q : Quiet s) : Quiet s' := by
  obtain ⟨i1, i2⟩ := q
  cases h with
  | spurious t h =>
    refine ⟨i1, fun v => ?_⟩
    simp only [go_pc]
    split
    · rcases blocked_cases h with h | h <;> rw [h] <;> decide
    · exact i2 v
  | _ =>
    refine ⟨by simp_all [Pc.inSignal], fun v => ?_⟩
    have iv := i2 v
    simp only [go_pc]
    (try split) <;> (try exact iv) <;> (try simp_all [Pc.inSignal])

theorem Run.quiet {s s' : State T} {l : List (Label T)} (h : Run s l s') (hx : ∀ t, Label.call t .signal ∉ l) (q : Quiet s) : Quiet s' := by
  induction h with
  | nil => exact q
  | snoc h hs ih =>
    exact hs.quiet (fun t ht => hx t (by simp [ht])) (ih (fun t ht => hx t (by simp [ht])))

theorem quiet_init : Quiet (State.init : State T) := ⟨rfl, fun _ => by simp [State.init, Pc.inSignal]⟩

/-- C83: `wait(ms)`, and `is_signaled()`, return true only if `signal()` was called before, in every execution. -/
theorem timed_true_sound {l : List (Label T)} {s s' : State T} {t : T} (h : Run State.init l s) (hs : Step s (.ret t .timed true) s') :
    ∃ u, Label.call u .signal ∈ l := by
  by_contra hc
  have q := h.quiet (fun u hu => hc ⟨u, hu⟩) quiet_init
  cases hs with
  | ret _ _ _ hp => exact (q.2 t).2 hp

/-- C83: after a `reset()` that no other call overlaps, `wait(ms)` returns false until `signal()` is called again. -/
theorem reset_clears {s0 s1 s s' : State T} {u t : T} {l : List (Label T)} {r : Bool} (h0 : ∀ v, s0.pc v = .idle)
    (h1 : Run s0 [.call u .reset, .tau u, .ret u .reset false] s1) (h : Run s1 l s) (hl : ∀ v, Label.call v .signal ∉ l)
    (hs : Step s (.ret t .timed r) s') : r = false := by
  have hq : Quiet s1 := by
    obtain ⟨s3, h3, e3⟩ := Run.snoc_inv (l := [.call u .reset, .tau u]) h1
    obtain ⟨s2, h2, e2⟩ := Run.snoc_inv (l := [.call u .reset]) h3
    obtain ⟨s4, h4, e1⟩ := Run.snoc_inv (l := []) h2
    obtain rfl := Run.nil_inv h4
    cases e1
    cases e2 <;> simp_all [go_pc]
    cases e3
    refine ⟨rfl, fun v => ?_⟩
    simp only [go_pc]
    split
    · simp [Pc.inSignal]
    · simp [h0, Pc.inSignal]
  have q := h.quiet hl hq
  cases hs with
  | ret _ _ _ hp =>
    cases r with
    | false => rfl
    | true => exact absurd hp (q.2 t).2

/-! ### Once signalled -/

/-- The event is signalled and nothing is under way that could change this. -/
def Signalled (s : State T) : Prop := s.signed = true ∧ ∀ t, s.pc t ≠ .start .reset

theorem Step.signalled {s s' : State T} {x : Label T} (h : Step s x s') (hx : ∀ t, x ≠ .call t .reset) (q : Signalled s) : Signalled s' := by
  obtain ⟨i1, i2⟩ := q
  cases h with
  | spurious t h =>
    refine ⟨i1, fun v => ?_⟩
    simp only [go_pc]
    split
    · rcases blocked_cases h with h | h <;> rw [h] <;> decide
    · exact i2 v
  | signalWake t u h hu =>
    refine ⟨i1, fun v => ?_⟩
    simp only [go_pc]
    split
    · simp
    · split
      · rcases blocked_cases hu with h | h <;> rw [h] <;> decide
      · exact i2 v
  | _ =>
    refine ⟨by simp_all, fun v => ?_⟩
    have iv := i2 v
    simp only [go_pc]
    (try split) <;> (try exact iv) <;> (try simp_all)

/-- A completed `signal()` without any `reset()` leaves the event signalled. -/
def SignalInv (l : List (Label T)) (s : State T) : Prop :=
  (∀ t, s.pc t ≠ .start .reset) ∧ (∀ t, s.pc t = .signalWake ∨ (∃ b, s.pc t = .done .signal b) → s.signed = true) ∧
    ∀ u b, Label.ret u .signal b ∈ l → s.signed = true

theorem Run.signalInv {l : List (Label T)} {s : State T} (h : Run State.init l s) (hx : ∀ t, Label.call t .reset ∉ l) : SignalInv l s := by
  induction h with
  | nil => exact ⟨fun t => by simp [State.init], fun t => by simp [State.init], fun u => by simp⟩
  | @snoc l s x s' h hs ih =>
    obtain ⟨i1, i2, i3⟩ := ih fun t ht => hx t (by simp [ht])
    by_cases hsig : s.signed = true
    · obtain ⟨j1, j2⟩ := hs.signalled (fun t ht => hx t (by simp [ht])) ⟨hsig, i1⟩
      exact ⟨j2, fun _ _ => j1, fun _ _ _ => j1⟩
    · have n1 : ∀ t, s.pc t ≠ .signalWake := fun t ht => hsig (i2 t (Or.inl ht))
      have n2 : ∀ t b, s.pc t ≠ .done .signal b := fun t b ht => hsig (i2 t (Or.inr ⟨b, ht⟩))
      have n3 : ∀ u b, Label.ret u .signal b ∉ l := fun u b ht => hsig (i3 u b ht)
      cases hs with
      | spurious t h =>
        refine ⟨fun v => ?_, fun v => ?_, fun u b hu => ?_⟩
        · simp only [go_pc]
          split
          · rcases blocked_cases h with h | h <;> rw [h] <;> decide
          · exact i1 v
        · simp only [go_pc]
          split
          · rcases blocked_cases h with h | h <;> rw [h] <;> simp [Pc.woken]
          · intro hv
            exact absurd (i2 v hv) hsig
        · simp [n3] at hu
      | call t op hp =>
        refine ⟨fun v => ?_, fun v => ?_, fun u b hu => ?_⟩
        · simp only [go_pc]
          split
          · intro hc
            simp only [Pc.start.injEq] at hc
            exact hx t (by simp [hc])
          · exact i1 v
        · simp only [go_pc]
          split
          · simp
          · intro hv; exact absurd (i2 v hv) hsig
        · simp [n3] at hu
      | ret t op r hp =>
        refine ⟨fun v => ?_, fun v => ?_, fun u b hu => ?_⟩
        · simp only [go_pc]
          split
          · simp
          · exact i1 v
        · simp only [go_pc]
          split
          · simp
          · intro hv; exact absurd (i2 v hv) hsig
        · simp only [List.mem_append, n3, false_or, List.mem_singleton, Label.ret.injEq] at hu
          obtain ⟨rfl, rfl, rfl⟩ := hu
          exact absurd hp (n2 _ _)
      | signalSet t hp => exact ⟨fun v => by simp only [go_pc]; split; simp; exact i1 v, fun _ _ => rfl, fun _ _ _ => rfl⟩
      | _ =>
        refine ⟨fun v => ?_, fun v => ?_, fun u b hu => ?_⟩
        · have iv := i1 v
          simp only [go_pc]
          (try split) <;> (try exact iv) <;> (try simp_all)
        · simp only [go_pc]
          have iv := i2 v
          (try split) <;> (try simp_all)
        · simp [n3] at hu

/-- Where a thread is that called nothing before the event was signalled. -/
def Pc.passing (p : Pc) : Prop := p = .idle ∨ (∃ op, p = .start op) ∨ p = .done .timed true ∨ p = .done .wait false ∨ p = .done .signal false

theorem Step.passing {s s' : State T} {x : Label T} (h : Step s x s') (q : Signalled s) (t : T) (ht : (s.pc t).passing) : (s'.pc t).passing := by
  obtain ⟨i1, i2⟩ := q
  cases h with
  | spurious u h =>
    simp only [go_pc]
    split
    · rename_i hv; subst hv
      rcases blocked_cases h with h | h <;> rw [h] at ht <;> simp [Pc.passing] at ht
    · exact ht
  | signalWake u v h hu =>
    simp only [go_pc]
    split
    · simp [Pc.passing]
    · split
      · rename_i hv; subst hv
        rcases blocked_cases hu with h | h <;> rw [h] at ht <;> simp [Pc.passing] at ht
      · exact ht
  | _ =>
    simp only [go_pc]
    (try split) <;> (try exact ht) <;> (try subst_vars) <;> simp_all [Pc.passing]

theorem Run.passing {s s' : State T} {l : List (Label T)} (h : Run s l s') (hx : ∀ t, Label.call t .reset ∉ l) (q : Signalled s) (t : T)
    (ht : (s.pc t).passing) : Signalled s' ∧ (s'.pc t).passing := by
  induction h with
  | nil => exact ⟨q, ht⟩
  | snoc h hs ih =>
    obtain ⟨i1, i2⟩ := ih fun t ht => hx t (by simp [ht])
    exact ⟨hs.signalled (fun t ht => hx t (by simp [ht])) i1, hs.passing i1 t i2⟩

/-- C83: when `signal()` has returned and nobody calls `reset()`, every `wait(ms)` called from then on returns true, in every execution. -/
theorem timed_after_signal {pre post : List (Label T)} {s s' s'' : State T} {u t : T} {b r : Bool} (h : Run State.init pre s)
    (hu : Label.ret u .signal b ∈ pre) (ht : s.pc t = .idle) (h2 : Run s post s') (hr1 : ∀ v, Label.call v .reset ∉ pre)
    (hr2 : ∀ v, Label.call v .reset ∉ post) (hs : Step s' (.ret t .timed r) s'') : r = true := by
  obtain ⟨j1, j2, j3⟩ := h.signalInv hr1
  obtain ⟨_, hp⟩ := h2.passing hr2 ⟨j3 u b hu, j1⟩ t (Or.inl ht)
  cases hs with
  | ret _ _ _ hd =>
    rw [hd] at hp
    simpa [Pc.passing] using hp

/-- C39: when `signal()` has returned and nobody calls `reset()`, a `wait()` called from then on does not block: it is never in the condition wait
or at the mutex, and its next step is possible whatever the other threads do. -/
theorem wait_after_signal {pre post : List (Label T)} {s s' : State T} {u t : T} {b : Bool} (h : Run State.init pre s)
    (hu : Label.ret u .signal b ∈ pre) (ht : s.pc t = .idle) (h2 : Run s post s') (hr1 : ∀ v, Label.call v .reset ∉ pre)
    (hr2 : ∀ v, Label.call v .reset ∉ post) (hw : s'.pc t ≠ .idle) :
    ∃ x s'', Step s' x s'' ∧ (x = .tau t ∨ ∃ op r, x = .ret t op r) ∧ ∀ op, s'.pc t = .start op → ∃ r, s''.pc t = .done op r := by
  obtain ⟨j1, j2, j3⟩ := h.signalInv hr1
  obtain ⟨⟨q1, q2⟩, hp⟩ := h2.passing hr2 ⟨j3 u b hu, j1⟩ t (Or.inl ht)
  rcases hp with hp | ⟨op, hp⟩ | hp | hp | hp
  · exact absurd hp hw
  · cases op with
    | signal => exact ⟨_, _, .signalSeen _ t hp q1, Or.inl rfl, fun op ho => by rw [hp] at ho; cases ho; exact ⟨_, go_same _ _ _⟩⟩
    | reset => exact absurd hp (q2 t)
    | wait => exact ⟨_, _, .waitSeen _ t hp q1, Or.inl rfl, fun op ho => by rw [hp] at ho; cases ho; exact ⟨_, go_same _ _ _⟩⟩
    | timed => exact ⟨_, _, .timedSeen _ t hp q1, Or.inl rfl, fun op ho => by rw [hp] at ho; cases ho; exact ⟨_, go_same _ _ _⟩⟩
  all_goals exact ⟨_, _, .ret _ t _ _ hp, Or.inr ⟨_, _, rfl⟩, fun op ho => by rw [hp] at ho; cases ho⟩

end Verif.Event
