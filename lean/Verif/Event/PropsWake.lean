import Verif.Event.Props

namespace Verif.Event
variable {T : Type} [DecidableEq T]

/-! ### Lost wake ups -/

/-- A thread sleeps and nobody is going to wake it. -/
def Stuck (w : T) (s : State T) : Prop := Signalled s ∧ s.pc w = .waitBlocked ∧ ∀ t, s.pc t ≠ .signalSet ∧ s.pc t ≠ .signalWake

theorem Step.stuck {w : T} {s s' : State T} {x : Label T} (h : Step s x s') (hx : ∀ t, x ≠ .call t .reset) (hn : ∀ t, x ≠ .spurious t)
    (q : Stuck w s) : Stuck w s' := by
  obtain ⟨i1, i2, i3⟩ := q
  have j := h.signalled hx i1
  obtain ⟨i1a, i1b⟩ := i1
  refine ⟨j, ?_, fun v => ?_⟩
  · cases h with
    | spurious t h => exact absurd rfl (hn t)
    | signalWake t u h hu => exact absurd h (i3 t).2
    | _ =>
      simp only [go_pc]
      split
      · subst_vars; simp_all
      · exact i2
  · cases h with
    | spurious t h => exact absurd rfl (hn t)
    | signalWake t u h hu => exact absurd h (i3 t).2
    | _ =>
      have iv := i3 v
      simp only [go_pc]
      (try split) <;> (try exact iv) <;> (try simp_all)

theorem Run.stuck {w : T} {s s' : State T} {l : List (Label T)} (h : Run s l s') (hx : ∀ t, Label.call t .reset ∉ l)
    (hn : ∀ t, Label.spurious t ∉ l) (q : Stuck w s) : Stuck w s' := by
  induction h with
  | nil => exact q
  | snoc h hs ih =>
    exact hs.stuck (fun t ht => hx t (by simp [ht])) (fun t ht => hn t (by simp [ht])) (ih (fun t ht => hx t (by simp [ht])) fun t ht => hn t (by simp [ht]))

/-- One step of an execution with given labels. -/
theorem Run.then {s s' s'' : State T} {l : List (Label T)} {x : Label T} (h : Run s l s') (hs : Step s' x s'') : Run s (l ++ [x]) s'' := .snoc h hs

/-- C39: the wake up is lost. Thread 0 calls `wait()`, finds the event not signalled, thread 1 calls `signal()` and returns, and then thread 0 goes to
sleep. It sleeps for ever, whatever is called afterwards (more calls of `signal()` too) except `reset()`, unless it wakes without a signal. -/
theorem lost_wakeup :
    ∃ (l : List (Label (Fin 2))) (s : State (Fin 2)) (b : Bool), Run State.init l s ∧ Label.ret 1 .signal b ∈ l ∧
      (∀ t, Label.spurious t ∉ l ∧ Label.call t .reset ∉ l) ∧
      ∀ l' s', Run s l' s' → (∀ t, Label.spurious t ∉ l') → (∀ t, Label.call t .reset ∉ l') → s'.pc 0 = .waitBlocked := by
  have r0 : Run (T := Fin 2) .init [] .init := .nil _
  have r1 := r0.then (.call _ 0 .wait rfl)
  have r2 := r1.then (.waitCheck _ 0 rfl rfl)
  have r3 := r2.then (.call _ 1 .signal rfl)
  have r4 := r3.then (.signalCheck _ 1 rfl rfl)
  have r5 := r4.then (.signalSet _ 1 rfl)
  have r6 := r5.then (.signalNone _ 1 rfl (by decide))
  have r7 := r6.then (.ret _ 1 .signal false rfl)
  have r8 := r7.then (.waitLock _ 0 rfl rfl)
  have r9 := r8.then (.waitCond _ 0 rfl)
  exact ⟨_, _, false, r9, by simp, by simp, fun l' s' h hn hr => (h.stuck hr hn ⟨⟨rfl, by decide⟩, rfl, by decide⟩).2.1⟩

/-- C39: of two waiting threads (0 and 1) only one wakes. -/
theorem one_waiter_only :
    ∃ (l : List (Label (Fin 3))) (s : State (Fin 3)) (b : Bool), Run State.init l s ∧ Label.ret 2 .signal b ∈ l ∧
      (∀ t, Label.spurious t ∉ l ∧ Label.call t .reset ∉ l) ∧
      ∀ l' s', Run s l' s' → (∀ t, Label.spurious t ∉ l') → (∀ t, Label.call t .reset ∉ l') → s'.pc 0 = .waitBlocked := by
  have r0 : Run (T := Fin 3) .init [] .init := .nil _
  have r1 := r0.then (.call _ 0 .wait rfl)
  have r2 := r1.then (.waitCheck _ 0 rfl rfl)
  have r3 := r2.then (.waitLock _ 0 rfl rfl)
  have r4 := r3.then (.waitCond _ 0 rfl)
  have r5 := r4.then (.call _ 1 .wait rfl)
  have r6 := r5.then (.waitCheck _ 1 rfl rfl)
  have r7 := r6.then (.waitLock _ 1 rfl rfl)
  have r8 := r7.then (.waitCond _ 1 rfl)
  have r9 := r8.then (.call _ 2 .signal rfl)
  have r10 := r9.then (.signalCheck _ 2 rfl rfl)
  have r11 := r10.then (.signalSet _ 2 rfl)
  have r12 := r11.then (.signalWake _ 2 1 rfl rfl)
  have r13 := r12.then (.ret _ 2 .signal false rfl)
  exact ⟨_, _, false, r13, by simp, by simp, fun l' s' h hn hr => (h.stuck hr hn ⟨⟨rfl, by decide⟩, rfl, by decide⟩).2.1⟩

/-- C39: `wait()` returns without any `signal()` when the thread wakes by itself (the flag is not looked at again). -/
theorem wait_without_signal :
    ∃ (l : List (Label (Fin 1))) (s s' : State (Fin 1)), Run State.init l s ∧ Step s (.ret 0 .wait false) s' ∧ ∀ t, Label.call t .signal ∉ l := by
  have r0 : Run (T := Fin 1) .init [] .init := .nil _
  have r1 := r0.then (.call _ 0 .wait rfl)
  have r2 := r1.then (.waitCheck _ 0 rfl rfl)
  have r3 := r2.then (.waitLock _ 0 rfl rfl)
  have r4 := r3.then (.waitCond _ 0 rfl)
  have r5 := r4.then (.spurious _ 0 rfl)
  have r6 := r5.then (.waitAgain _ 0 rfl rfl)
  have r7 := r6.then (.waitUnlock _ 0 rfl)
  exact ⟨_, _, _, r7, .ret _ 0 .wait false rfl, by simp⟩

/-- C83: a `wait(ms)` that is under way when `signal()` returns can return false at once, without waiting: when another thread has the mutex. -/
theorem timed_busy :
    ∃ (l : List (Label (Fin 3))) (s s1 s' : State (Fin 3)), Run State.init l s ∧ Label.ret 2 .signal false ∈ l ∧ Step s (.tau 0) s1 ∧
      Step s1 (.ret 0 .timed false) s' := by
  have r0 : Run (T := Fin 3) .init [] .init := .nil _
  have r1 := r0.then (.call _ 1 .wait rfl)
  have r2 := r1.then (.waitCheck _ 1 rfl rfl)
  have r3 := r2.then (.waitLock _ 1 rfl rfl)
  have r4 := r3.then (.call _ 0 .timed rfl)
  have r5 := r4.then (.timedCheck _ 0 rfl rfl)
  have r6 := r5.then (.call _ 2 .signal rfl)
  have r7 := r6.then (.signalCheck _ 2 rfl rfl)
  have r8 := r7.then (.signalSet _ 2 rfl)
  have r9 := r8.then (.signalNone _ 2 rfl (by decide))
  have r10 := r9.then (.ret _ 2 .signal false rfl)
  exact ⟨_, _, _, _, r10, by simp, .timedBusy _ 0 1 rfl rfl, .ret _ 0 .timed false rfl⟩

/-- The hypotheses of `timed_true_sound`, `timed_after_signal` and `wait_after_signal` are met. -/
example : ∃ (l : List (Label (Fin 2))) (s s1 s2 : State (Fin 2)), Run State.init l s ∧ Label.ret 1 .signal false ∈ l ∧ s.pc 0 = .idle ∧
    (∀ v, Label.call v .reset ∉ l) ∧ Run s [.call 0 .timed, .tau 0] s1 ∧ Step s1 (.ret 0 .timed true) s2 := by
  have r0 : Run (T := Fin 2) .init [] .init := .nil _
  have r3 := r0.then (.call _ 1 .signal rfl)
  have r4 := r3.then (.signalCheck _ 1 rfl rfl)
  have r5 := r4.then (.signalSet _ 1 rfl)
  have r6 := r5.then (.signalNone _ 1 rfl (by decide))
  have r7 := r6.then (.ret _ 1 .signal false rfl)
  have q0 := (Run.nil (T := Fin 2) _).then (.call (((({ (State.init.go 1 (.start .signal)).go 1 .signalSet with signed := true }).go 1 .signalWake).go 1
    (.done .signal false)).go 1 .idle) 0 .timed rfl)
  have q1 := q0.then (.timedSeen _ 0 rfl rfl)
  exact ⟨_, _, _, _, r7, by simp, rfl, by simp, q1, .ret _ 0 .timed true rfl⟩

/-- The hypotheses of `reset_clears` are met. -/
example : ∃ (s0 s1 s s' : State (Fin 2)), (∀ v, s0.pc v = .idle) ∧ s0.signed = true ∧ Run s0 [.call 1 .reset, .tau 1, .ret 1 .reset false] s1 ∧
    Run s1 [.call 0 .timed, .tau 0, .tau 0, .tau 0, .tau 0, .tau 0, .tau 0] s ∧ Step s (.ret 0 .timed false) s' := by
  have q0 := (Run.nil (T := Fin 2) _).then (.call { State.init with signed := true } 1 .reset rfl)
  have q1 := q0.then (.reset _ 1 rfl)
  have q2 := q1.then (.ret _ 1 .reset false rfl)
  have p1 := (Run.nil (T := Fin 2) _).then (.call (({ ({ State.init with signed := true } : State (Fin 2)).go 1 (.start .reset) with signed := false }.go 1
    (.done .reset false)).go 1 .idle) 0 .timed rfl)
  have p2 := p1.then (.timedCheck _ 0 rfl rfl)
  have p3 := p2.then (.timedLock _ 0 rfl rfl)
  have p4 := p3.then (.timedCond _ 0 rfl)
  have p5 := p4.then (.timedOut _ 0 rfl)
  have p6 := p5.then (.timedAgain _ 0 true rfl rfl)
  have p7 := p6.then (.timedUnlockOut _ 0 rfl)
  exact ⟨_, _, _, _, fun v => rfl, rfl, q2, p7, .ret _ 0 .timed false rfl⟩

/-! ### One waiting thread -/

/-- An execution with one waiting thread `w`, in which `signal()` is not called while `w` is between its look at the flag and its sleep, and `w` does
not call `wait()` while another thread is in `signal()`; `reset` and `wait(ms)` are not called. -/
inductive Disciplined (w : T) : List (Label T) → State T → Prop
  | nil : Disciplined w [] .init
  | snoc {l s x s'} (h : Disciplined w l s) (hs : Step s x s')
      (h1 : ∀ t, x = .call t .signal → t ≠ w ∧ (s.pc w = .idle ∨ s.pc w = .waitBlocked))
      (h2 : ∀ t, x = .call t .wait → t = w ∧ ∀ u, (s.pc u).inSignal = false)
      (h3 : ∀ t, x ≠ .call t .reset) (h4 : ∀ t, x ≠ .call t .timed) : Disciplined w (l ++ [x]) s'

/-- Where the threads are. -/
def Pc.ofWaiter (p : Pc) : Prop :=
  p = .idle ∨ p = .start .wait ∨ p = .waitLock ∨ p = .waitCond ∨ p = .waitBlocked ∨ p = .waitWoken ∨ p = .waitUnlock ∨ p = .done .wait false

def Pc.ofOther (p : Pc) : Prop := p = .idle ∨ p.inSignal = true

structure WInv (w : T) (s : State T) : Prop where
  waiter : (s.pc w).ofWaiter
  other : ∀ t, t ≠ w → (s.pc t).ofOther
  window : s.pc w = .start .wait ∨ s.pc w = .waitLock ∨ s.pc w = .waitCond → ∀ t, (s.pc t).inSignal = false
  unseen : s.pc w = .waitLock ∨ s.pc w = .waitCond → s.signed = false
  sleeping : s.pc w = .waitBlocked → s.signed = true → ∃ t, s.pc t = .signalWake
  mutex : s.owner = if s.pc w = .waitCond ∨ s.pc w = .waitUnlock then some w else none

theorem WInv.init (w : T) : WInv w (State.init : State T) :=
  ⟨by simp [State.init, Pc.ofWaiter], by simp [State.init, Pc.ofOther], by simp [State.init], by simp [State.init], by simp [State.init],
    by simp [State.init]⟩

/-- A step of the waiting thread itself. -/
theorem WInv.own {w : T} {s s' : State T} (i : WInv w s) (p : Pc) (hs : ∀ t, t ≠ w → s'.pc t = s.pc t) (hw : s'.pc w = p) (hp : p.ofWaiter)
    (h1 : p = .start .wait ∨ p = .waitLock ∨ p = .waitCond → ∀ t, (s.pc t).inSignal = false)
    (h2 : p = .waitLock ∨ p = .waitCond → s'.signed = false) (h3 : p = .waitBlocked → s'.signed = false)
    (h4 : s'.owner = if p = .waitCond ∨ p = .waitUnlock then some w else none) : WInv w s' := by
  refine ⟨by rw [hw]; exact hp, fun t ht => by rw [hs t ht]; exact i.other t ht, fun h t => ?_, fun h => h2 (by rwa [hw] at h), fun h h' => ?_,
    by rw [hw]; exact h4⟩
  · by_cases ht : t = w
    · subst ht; rw [hw]
      rcases hp with rfl | rfl | rfl | rfl | rfl | rfl | rfl | rfl <;> simp [Pc.inSignal]
    · rw [hs t ht]; exact h1 (by rwa [hw] at h) t
  · rw [hw] at h
    rw [h3 h] at h'
    simp at h'

/-- A step of another thread. -/
theorem WInv.others {w : T} {s : State T} (i : WInv w s) {t : T} (ht : t ≠ w) (b : Bool) (p : Pc) (hp : p.ofOther)
    (hn : ¬ (s.pc w = .start .wait ∨ s.pc w = .waitLock ∨ s.pc w = .waitCond))
    (hb : s.pc w = .waitBlocked → b = true → p = .signalWake ∨ (s.signed = true ∧ s.pc t ≠ .signalWake)) :
    WInv w ({ s with signed := b }.go t p) := by
  have hw : ({ s with signed := b }.go t p).pc w = s.pc w := by simp [go_pc, ht.symm]
  refine ⟨by rw [hw]; exact i.waiter, fun u hu => ?_, fun h => absurd h (by rwa [hw]), fun h => ?_, fun h h' => ?_, by rw [hw]; exact i.mutex⟩
  · simp only [go_pc]
    split
    · exact hp
    · exact i.other u hu
  · rw [hw] at h
    exact absurd (Or.inr h) hn
  · rw [hw] at h
    rcases hb h h' with h | ⟨h1, h2⟩
    · exact ⟨t, by simp [h]⟩
    · obtain ⟨v, hv⟩ := i.sleeping h h1
      refine ⟨v, ?_⟩
      simp only [go_pc]
      rw [if_neg (by rintro rfl; exact h2 hv)]
      exact hv

theorem WInv.not_window {w : T} {s : State T} (i : WInv w s) {t : T} (ht : (s.pc t).inSignal = true) :
    ¬ (s.pc w = .start .wait ∨ s.pc w = .waitLock ∨ s.pc w = .waitCond) := by
  intro h
  rw [i.window h t] at ht
  simp at ht

theorem WInv.step {w : T} {s s' : State T} {x : Label T} (i : WInv w s) (hs : Step s x s')
    (h1 : ∀ t, x = .call t .signal → t ≠ w ∧ (s.pc w = .idle ∨ s.pc w = .waitBlocked))
    (h2 : ∀ t, x = .call t .wait → t = w ∧ ∀ u, (s.pc u).inSignal = false)
    (h3 : ∀ t, x ≠ .call t .reset) (h4 : ∀ t, x ≠ .call t .timed) : WInv w s' := by
  have hm := i.mutex
  have notW : ∀ t p, s.pc t = p → ¬ p.ofWaiter → t ≠ w := by
    rintro t p h hn rfl
    exact hn (h ▸ i.waiter)
  have isW : ∀ t p, s.pc t = p → ¬ p.ofOther → t = w := by
    intro t p h hn
    by_contra hc
    exact hn (h ▸ i.other t hc)
  have goo : ∀ (u : T) (p : Pc) (y : State T), u ≠ w → (y.go w p).pc u = y.pc u := fun u p y hu => by simp [go_pc, hu]
  cases hs with
  | call t op h =>
    cases op with
    | reset => exact absurd rfl (h3 t)
    | timed => exact absurd rfl (h4 t)
    | signal =>
      obtain ⟨a1, a2⟩ := h1 t rfl
      have hn : ¬ (s.pc w = .start .wait ∨ s.pc w = .waitLock ∨ s.pc w = .waitCond) := by rcases a2 with a | a <;> rw [a] <;> simp
      exact i.others a1 s.signed _ (by simp [Pc.ofOther, Pc.inSignal]) hn fun _ hb => Or.inr ⟨hb, by rw [h]; simp⟩
    | wait =>
      obtain ⟨rfl, a2⟩ := h2 t rfl
      exact i.own _ (fun u hu => goo u _ _ hu) (go_same _ _ _) (by simp [Pc.ofWaiter]) (fun _ => a2) (by simp) (by simp) (by simp [hm, h])
  | ret t op r h =>
    by_cases ht : t = w
    · subst ht
      exact i.own _ (fun u hu => goo u _ _ hu) (go_same _ _ _) (by simp [Pc.ofWaiter]) (by simp) (by simp) (by simp) (by simp [hm, h])
    · have ho := i.other t ht
      rw [h] at ho
      have hin : (s.pc t).inSignal = true := by rw [h]; simpa [Pc.ofOther] using ho
      exact i.others ht s.signed _ (by simp [Pc.ofOther]) (i.not_window hin) fun _ hb => Or.inr ⟨hb, by rw [h]; simp⟩
  | signalSeen t h hs =>
    exact i.others (notW t _ h (by simp [Pc.ofWaiter])) s.signed _ (by simp [Pc.ofOther, Pc.inSignal]) (i.not_window (t := t) (by rw [h]; rfl))
      fun _ hb => Or.inr ⟨hb, by rw [h]; simp⟩
  | signalCheck t h hs =>
    exact i.others (notW t _ h (by simp [Pc.ofWaiter])) s.signed _ (by simp [Pc.ofOther, Pc.inSignal]) (i.not_window (t := t) (by rw [h]; rfl))
      fun _ hb => Or.inr ⟨hb, by rw [h]; simp⟩
  | signalSet t h =>
    exact i.others (notW t _ h (by simp [Pc.ofWaiter])) true _ (by simp [Pc.ofOther, Pc.inSignal]) (i.not_window (t := t) (by rw [h]; rfl))
      fun _ hb => Or.inl rfl
  | signalNone t h hn =>
    exact i.others (notW t _ h (by simp [Pc.ofWaiter])) s.signed _ (by simp [Pc.ofOther, Pc.inSignal]) (i.not_window (t := t) (by rw [h]; rfl))
      fun hw _ => by have := hn w; rw [hw] at this; simp [Pc.blocked] at this
  | signalWake t u h hu =>
    have ht := notW t _ h (by simp [Pc.ofWaiter])
    obtain rfl : u = w := isW u _ rfl (by rcases blocked_cases hu with e | e <;> rw [e] <;> simp [Pc.ofOther, Pc.inSignal])
    have hw := i.waiter
    have hb : s.pc u = .waitBlocked := by
      rcases blocked_cases hu with e | e
      · exact e
      · rw [e] at hw; simp [Pc.ofWaiter] at hw
    have e : ((s.go u (s.pc u).woken).go t (.done .signal false)).pc u = .waitWoken := by simp [go_pc, ht.symm, hb, Pc.woken]
    refine ⟨by rw [e]; simp [Pc.ofWaiter], fun v hv => ?_, by rw [e]; simp, by rw [e]; simp, by rw [e]; simp, by rw [e]; simp [hm, hb]⟩
    simp only [go_pc]
    split
    · simp [Pc.ofOther, Pc.inSignal]
    · exact i.other v hv
  | reset t h =>
    by_cases ht : t = w
    · exact absurd ht (notW t _ h (by simp [Pc.ofWaiter]))
    · have := i.other t ht
      rw [h] at this
      simp [Pc.ofOther, Pc.inSignal] at this
  | waitSeen t h hs =>
    obtain rfl := isW t _ h (by simp [Pc.ofOther, Pc.inSignal])
    exact i.own _ (fun u hu => goo u _ _ hu) (go_same _ _ _) (by simp [Pc.ofWaiter]) (by simp) (by simp) (by simp) (by simp [hm, h])
  | waitCheck t h hs =>
    obtain rfl := isW t _ h (by simp [Pc.ofOther, Pc.inSignal])
    exact i.own _ (fun u hu => goo u _ _ hu) (go_same _ _ _) (by simp [Pc.ofWaiter]) (fun _ => i.window (Or.inl h)) (fun _ => hs) (by simp)
      (by simp [hm, h])
  | waitLock t h ho =>
    obtain rfl := isW t _ h (by simp [Pc.ofOther, Pc.inSignal])
    exact i.own _ (fun u hu => goo u _ _ hu) (go_same _ _ _) (by simp [Pc.ofWaiter]) (fun _ => i.window (Or.inr (Or.inl h)))
      (fun _ => i.unseen (Or.inl h)) (by simp) (by simp)
  | waitCond t h =>
    obtain rfl := isW t _ h (by simp [Pc.ofOther, Pc.inSignal])
    exact i.own _ (fun u hu => goo u _ _ hu) (go_same _ _ _) (by simp [Pc.ofWaiter]) (by simp) (by simp) (fun _ => i.unseen (Or.inr h)) (by simp)
  | waitAgain t h ho =>
    obtain rfl := isW t _ h (by simp [Pc.ofOther, Pc.inSignal])
    exact i.own _ (fun u hu => goo u _ _ hu) (go_same _ _ _) (by simp [Pc.ofWaiter]) (by simp) (by simp) (by simp) (by simp)
  | waitUnlock t h =>
    obtain rfl := isW t _ h (by simp [Pc.ofOther, Pc.inSignal])
    exact i.own _ (fun u hu => goo u _ _ hu) (go_same _ _ _) (by simp [Pc.ofWaiter]) (by simp) (by simp) (by simp) (by simp)
  | spurious t h =>
    obtain rfl : t = w := isW t _ rfl (by rcases blocked_cases h with e | e <;> rw [e] <;> simp [Pc.ofOther, Pc.inSignal])
    have hw := i.waiter
    have hb : s.pc t = .waitBlocked := by
      rcases blocked_cases h with e | e
      · exact e
      · rw [e] at hw; simp [Pc.ofWaiter] at hw
    exact i.own _ (fun u hu => goo u _ _ hu) (go_same _ _ _) (by simp [Pc.ofWaiter, hb, Pc.woken]) (by simp [hb, Pc.woken]) (by simp [hb, Pc.woken])
      (by simp [hb, Pc.woken]) (by simp [hm, hb, Pc.woken])
  | timedResult t h | timedCond t h | timedOut t h | timedUnlock t h | timedUnlockOut t h =>
    exact absurd (isW t _ h (by simp [Pc.ofOther, Pc.inSignal])) (notW t _ h (by simp [Pc.ofWaiter]))
  | timedSeen t h _ | timedCheck t h _ | timedLock t h _ | timedBusy t _ h _ | timedAgain t _ h _ =>
    exact absurd (isW t _ h (by simp [Pc.ofOther, Pc.inSignal])) (notW t _ h (by simp [Pc.ofWaiter]))

theorem Disciplined.inv {w : T} {l : List (Label T)} {s : State T} (h : Disciplined w l s) : WInv w s := by
  induction h with
  | nil => exact .init w
  | snoc _ hs h1 h2 h3 h4 ih => exact ih.step hs h1 h2 h3 h4

theorem Disciplined.run {w : T} {l : List (Label T)} {s : State T} (h : Disciplined w l s) : Run .init l s ∧ ∀ t, Label.call t .reset ∉ l := by
  induction h with
  | nil => exact ⟨.nil _, by simp⟩
  | snoc _ hs h1 h2 h3 h4 ih => exact ⟨.snoc ih.1 hs, fun t ht => by simp [ih.2, (h3 t).symm] at ht⟩

/-- C39 (partial: one waiting thread, and `signal()` is not called while it is between its look at the flag and its sleep). Once a `signal()` has
returned and none is under way, the waiting thread returns from `wait()` by its own steps alone, whatever it was doing. -/
theorem wakeup_partial {w u : T} {l : List (Label T)} {s : State T} {b : Bool} (h : Disciplined w l s) (hu : Label.ret u .signal b ∈ l)
    (hn : ∀ t, (s.pc t).inSignal = false) : ∃ l' s', Run s l' s' ∧ (∀ x ∈ l', x = .tau w ∨ x = .ret w .wait false) ∧ s'.pc w = .idle := by
  obtain ⟨hr, hx⟩ := h.run
  have hsig := (hr.signalInv hx).2.2 u b hu
  have i := h.inv
  have hm := i.mutex
  have fin : ∀ (y : State T), y.pc w = .done .wait false → ∃ l' s', Run y l' s' ∧ (∀ x ∈ l', x = .tau w ∨ x = .ret w .wait false) ∧ s'.pc w = .idle :=
    fun y hy => ⟨_, _, (Run.nil y).then (.ret _ w .wait false hy), by simp, by simp⟩
  have unlock : ∀ (y : State T), y.pc w = .waitUnlock → ∃ l' s', Run y l' s' ∧ (∀ x ∈ l', x = .tau w ∨ x = .ret w .wait false) ∧ s'.pc w = .idle :=
    fun y hy => ⟨_, _, ((Run.nil y).then (.waitUnlock _ w hy)).then (.ret _ w .wait false (by simp)), by simp, by simp⟩
  rcases i.waiter with e | e | e | e | e | e | e | e
  · exact ⟨[], s, .nil s, by simp, e⟩
  · exact ⟨_, _, ((Run.nil s).then (.waitSeen _ w e hsig)).then (.ret _ w .wait false (by simp)), by simp, by simp⟩
  · rw [i.unseen (Or.inl e)] at hsig; simp at hsig
  · rw [i.unseen (Or.inr e)] at hsig; simp at hsig
  · obtain ⟨t, ht⟩ := i.sleeping e hsig
    have := hn t
    rw [ht] at this
    simp [Pc.inSignal] at this
  · exact ⟨_, _, (((Run.nil s).then (.waitAgain _ w e (by simp [hm, e]))).then (.waitUnlock _ w (by simp))).then (.ret _ w .wait false (by simp)),
      by simp, by simp⟩
  · exact unlock s e
  · exact fin s e

/-- The hypotheses are met: thread 0 sleeps in `wait()`, thread 1 calls `signal()`. -/
example : ∃ (l : List (Label (Fin 2))) (s : State (Fin 2)), Disciplined 0 l s ∧ Label.ret 1 .signal false ∈ l ∧ (∀ t, (s.pc t).inSignal = false) ∧
    s.pc 0 = .waitWoken := by
  have r0 : Disciplined (T := Fin 2) 0 [] .init := .nil
  have r1 := r0.snoc (.call _ 0 .wait rfl) (by simp) (by simp; decide) (by simp) (by simp)
  have r2 := r1.snoc (.waitCheck _ 0 rfl rfl) (by simp) (by simp) (by simp) (by simp)
  have r3 := r2.snoc (.waitLock _ 0 rfl rfl) (by simp) (by simp) (by simp) (by simp)
  have r4 := r3.snoc (.waitCond _ 0 rfl) (by simp) (by simp) (by simp) (by simp)
  have r5 := r4.snoc (.call _ 1 .signal rfl) (by simp) (by simp) (by simp) (by simp)
  have r6 := r5.snoc (.signalCheck _ 1 rfl rfl) (by simp) (by simp) (by simp) (by simp)
  have r7 := r6.snoc (.signalSet _ 1 rfl) (by simp) (by simp) (by simp) (by simp)
  have r8 := r7.snoc (.signalWake _ 1 0 rfl rfl) (by simp) (by simp) (by simp) (by simp)
  have r9 := r8.snoc (.ret _ 1 .signal false rfl) (by simp) (by simp) (by simp) (by simp)
  exact ⟨_, _, r9, by simp, by decide, rfl⟩

end Verif.Event
