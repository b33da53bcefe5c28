import Verif.LoopThread.Model
/-
C115: requests given to the loop thread are served.
-/
namespace Verif.LoopThread

theorem runs_append : ∀ (as bs : List Act) (s : St), runs (as ++ bs) s = (runs as s).bind (runs bs)
  | [], bs, s => rfl
  | a :: as, bs, s => by
    simp only [List.cons_append, runs]
    cases step s a with
    | none => rfl
    | some t => exact runs_append as bs t

/-- A property that every action keeps holds after every history. -/
theorem runs_inv (P : St → Prop) (hstep : ∀ s a t, P s → step s a = some t → P t) :
    ∀ (as : List Act) (s t : St), P s → runs as s = some t → P t
  | [], s, t, hp, h => by simp only [runs, Option.some.injEq] at h; exact h ▸ hp
  | a :: as, s, t, hp, h => by
    simp only [runs] at h
    obtain ⟨u, hu, h⟩ := Option.bind_eq_some_iff.mp h
    exact runs_inv P hstep as u t (hstep s a u hp hu) h

/-! ### nothing is lost or served twice -/

theorem perm_erase : ∀ (l : List Req) (k : Nat) (r : Req), l[k]? = some r → l.Perm (r :: l.eraseIdx k)
  | [], _, _, h => by simp at h
  | x :: l, 0, r, h => by simp only [List.getElem?_cons_zero, Option.some.injEq] at h; subst h; exact List.Perm.refl _
  | x :: l, k + 1, r, h => by
    simp only [List.getElem?_cons_succ] at h
    simp only [List.eraseIdx_cons_succ]
    exact ((perm_erase l k r h).cons x).trans (List.Perm.swap r x _)

theorem callback_some (s t : St) (fin : Bool) (k : Nat) (h : callback s fin k = some t) :
    ∃ r, s.pending[k]? = some r ∧ t.pending = s.pending.eraseIdx k ∧ t.done = s.done ++ [r] ∧ t.submitted = s.submitted ∧
      t.mpc = s.mpc ∧ t.exit = s.exit ∧ t.stopFlag = s.stopFlag ∧ t.signed = s.signed ∧
      ((r.throws = true ∧ t.exc = some r.id ∧ t.tpc = .ended) ∨ (r.throws = false ∧ t.exc = s.exc ∧ t.tpc = .iter fin)) := by
  simp only [callback] at h
  split at h
  · simp at h
  · rename_i r hr
    split at h
    · rename_i ht
      simp only [Option.some.injEq] at h; subst h
      exact ⟨r, hr, rfl, rfl, rfl, rfl, rfl, rfl, rfl, Or.inl ⟨ht, rfl, rfl⟩⟩
    · rename_i ht
      simp only [Option.some.injEq] at h; subst h
      exact ⟨r, hr, rfl, rfl, rfl, rfl, rfl, rfl, rfl, Or.inr ⟨by simpa using ht, rfl, rfl⟩⟩

/-- The two ways a callback is called. -/
theorem complete_some (s t : St) (k : Nat) (h : step s (.complete k) = some t) :
    ∃ fin, callback s fin k = some t ∧ ((s.tpc = .top fin ∧ s.stopFlag = false) ∨ s.tpc = .iter fin) := by
  simp only [step] at h
  split at h
  · rename_i fin htp
    split at h
    · simp at h
    · rename_i hsf
      exact ⟨fin, h, Or.inl ⟨htp, by simpa using hsf⟩⟩
  · rename_i fin htp
    exact ⟨fin, h, Or.inr htp⟩
  · simp at h

theorem threadStep_keeps (s t : St) (h : threadStep s = some t) : t.pending = s.pending ∧ t.done = s.done ∧
    t.submitted = s.submitted ∧ t.exc = s.exc ∧ t.mpc = s.mpc ∧ t.exit = s.exit := by
  simp only [threadStep] at h
  split at h
  all_goals first
    | (simp at h; done)
    | (simp only [Option.some.injEq] at h; subst h; exact ⟨rfl, rfl, rfl, rfl, rfl, rfl⟩)
    | (split at h
       · simp only [Option.some.injEq] at h; subst h; exact ⟨rfl, rfl, rfl, rfl, rfl, rfl⟩
       · simp at h)

theorem submit_some (s t : St) (r : Req) (h : step s (.submit r) = some t) :
    s.mpc = .running ∧ (∀ f, s.tpc ≠ .top f) ∧ (∀ f, s.tpc ≠ .iter f) ∧
      t = { s with submitted := s.submitted ++ [r], pending := s.pending ++ [r] } := by
  simp only [step] at h
  split at h
  · simp at h
  · simp at h
  · rename_i h1 h2 h3
    refine ⟨h1, ?_, ?_, by simpa using h.symm⟩
    · intro f hf; exact h2 f hf
    · intro f hf; exact h3 f hf
  · simp at h

/-- C115, safety. After every history, in every order of the two threads and of the answers of the disk: the callbacks
that have been called and the requests still open are, together, exactly the requests queued; no callback is called twice or for a
request that was not queued. -/
theorem served_or_open (as : List Act) (s : St) (h : runs as {} = some s) :
    (s.done ++ s.pending).Perm s.submitted := by
  refine runs_inv (fun s => (s.done ++ s.pending).Perm s.submitted) ?_ as {} s (by simp) h
  intro s a t hp hs
  cases a with
  | submit r =>
    obtain ⟨_, _, _, rfl⟩ := submit_some s t r hs
    simp only
    rw [← List.append_assoc]
    exact hp.append_right [r]
  | loopNow => simp only [step, Option.some.injEq] at hs; subst hs; exact hp
  | stop => simp only [step] at hs; split at hs
            · simp only [Option.some.injEq] at hs; subst hs; exact hp
            · simp at hs
  | setExit => simp only [step] at hs; split at hs
               · simp only [Option.some.injEq] at hs; subst hs; exact hp
               · simp at hs
  | join => simp only [step] at hs; split at hs
            · simp only [Option.some.injEq] at hs; subst hs; exact hp
            · simp at hs
  | thread =>
    obtain ⟨h1, h2, h3, _⟩ := threadStep_keeps s t hs
    rw [h1, h2, h3]; exact hp
  | complete k =>
    obtain ⟨fin, hc, _⟩ := complete_some s t k hs
    obtain ⟨r, hr, h1, h2, h3, _⟩ := callback_some s t fin k hc
    rw [h1, h2, h3]
    refine List.Perm.trans ?_ hp
    rw [List.append_assoc]
    exact (perm_erase _ _ _ hr).symm.append_left _

example : runs [.submit ⟨1, false⟩, .submit ⟨2, false⟩, .thread, .thread, .complete 1, .complete 0, .thread, .thread, .thread] {} =
    some { submitted := [⟨1, false⟩, ⟨2, false⟩], done := [⟨2, false⟩, ⟨1, false⟩], tpc := .wait } := by decide

/-! ### the end -/

/-- What holds when `end` is not called between the return of the loop and the check of `_exit`. -/
structure EndInv (s : St) : Prop where
  run : s.mpc = .running → s.stopFlag = false ∧ s.exit = false
  exit : s.exit = true → s.mpc = .exiting ∨ s.mpc = .joined
  chk : ∀ b, s.tpc = .check b → s.stopFlag = false ∧ (b = false → s.mpc ≠ .running)
  fin : s.tpc = .final ∨ s.tpc = .top true ∨ s.tpc = .iter true → s.stopFlag = false ∧ s.mpc ≠ .running
  stp : s.tpc = .stopping → s.mpc ≠ .running ∧ s.pending = []
  over : s.tpc = .ended → s.exc = none → s.mpc ≠ .running ∧ s.pending = []
  exc : s.exc ≠ none → s.tpc = .ended
  join : s.mpc = .joined → s.tpc = .ended

theorem endInv_step (s t : St) (a : Act) (hi : EndInv s) (hok : a = .stop → ∀ b, s.tpc ≠ .check b)
    (h : step s a = some t) : EndInv t := by
  obtain ⟨i1, i2, i3, i4, i5, i6, i7, i8⟩ := hi
  cases a with
  | submit r =>
    obtain ⟨hm, n1, n2, rfl⟩ := submit_some s t r h
    refine ⟨i1, i2, i3, i4, ?_, ?_, i7, i8⟩
    · intro hp; exact absurd hm (i5 hp).1
    · intro hp he; exact absurd hm (i6 hp he).1
  | loopNow => simp only [step, Option.some.injEq] at h; subst h; exact ⟨i1, i2, i3, i4, i5, i6, i7, i8⟩
  | stop =>
    simp only [step] at h
    split at h
    · rename_i hm
      simp only [Option.some.injEq] at h; subst h
      refine ⟨by simp, ?_, ?_, ?_, ?_, ?_, i7, by simp⟩
      · intro he; simp only at he; rw [(i1 hm).2] at he; simp at he
      · intro b hb; exact absurd hb (hok rfl b)
      · intro hf; exact absurd hm (i4 hf).2
      · intro hp; exact ⟨by simp, (i5 hp).2⟩
      · intro hp he; exact ⟨by simp, (i6 hp he).2⟩
    · simp at h
  | setExit =>
    simp only [step] at h
    split at h
    · rename_i hm
      simp only [Option.some.injEq] at h; subst h
      refine ⟨by simp, by simp, ?_, ?_, ?_, ?_, i7, by simp⟩
      · intro b hb; exact ⟨(i3 b hb).1, by simp⟩
      · intro hf; exact ⟨(i4 hf).1, by simp⟩
      · intro hp; exact ⟨by simp, (i5 hp).2⟩
      · intro hp he; exact ⟨by simp, (i6 hp he).2⟩
    · simp at h
  | join =>
    simp only [step] at h
    split at h
    · rename_i hm
      simp only [Option.some.injEq] at h; subst h
      refine ⟨by simp, by simp, ?_, ?_, ?_, ?_, i7, fun _ => hm.2⟩
      · intro b hb; exact ⟨(i3 b hb).1, by simp⟩
      · intro hf; exact ⟨(i4 hf).1, by simp⟩
      · intro hp; exact ⟨by simp, (i5 hp).2⟩
      · intro hp he; exact ⟨by simp, (i6 hp he).2⟩
    · simp at h
  | thread =>
    have hexc : s.tpc ≠ .ended → s.exc = none := by
      intro hn
      exact Classical.byContradiction fun hc => hn (i7 hc)
    have hjoin : s.tpc ≠ .ended → s.mpc ≠ .joined := fun hn hj => hn (i8 hj)
    simp only [step, threadStep] at h
    split at h
    · rename_i htp
      simp only [Option.some.injEq] at h; subst h
      refine ⟨i1, i2, by simp, by simp, by simp, by simp, ?_, ?_⟩
      · intro hc; exact absurd (hexc (by simp [htp])) hc
      · intro hj; exact absurd hj (hjoin (by simp [htp]))
    · rename_i htp
      simp only [Option.some.injEq] at h; subst h
      refine ⟨i1, i2, by simp, by simp, by simp, by simp, ?_, ?_⟩
      · intro hc; exact absurd (hexc (by simp [htp])) hc
      · intro hj; exact absurd hj (hjoin (by simp [htp]))
    · rename_i fin htp
      split at h
      · rename_i hret
        simp only [Option.some.injEq] at h; subst h
        refine ⟨fun hm => ⟨rfl, (i1 hm).2⟩, i2, ?_, ?_, ?_, ?_, ?_, ?_⟩
        · intro b hb
          refine ⟨rfl, ?_⟩
          rintro rfl
          cases fin with
          | true => simp at hb
          | false =>
            simp only [Bool.false_eq_true, if_false, TPC.check.injEq, decide_eq_false_iff_not] at hb
            rcases hret with hr | hr
            · exact absurd hr hb
            · intro hm; rw [(i1 hm).1] at hr; simp at hr
        · intro hf; cases fin <;> simp at hf
        · intro hf
          cases fin with
          | false => simp at hf
          | true =>
            have hfin := i4 (Or.inr (Or.inl htp))
            refine ⟨hfin.2, ?_⟩
            rcases hret with hr | hr
            · exact hr
            · rw [hfin.1] at hr; simp at hr
        · intro hf; cases fin <;> simp at hf
        · intro hc; exact absurd (hexc (by simp [htp])) hc
        · intro hj; exact absurd hj (hjoin (by simp [htp]))
      · simp at h
    · rename_i fin htp
      simp only [Option.some.injEq] at h; subst h
      refine ⟨i1, i2, by simp, ?_, by simp, by simp, ?_, ?_⟩
      · intro hf
        have : fin = true := by simpa using hf
        subst this
        exact i4 (Or.inr (Or.inr htp))
      · intro hc; exact absurd (hexc (by simp [htp])) hc
      · intro hj; exact absurd hj (hjoin (by simp [htp]))
    · rename_i doRun htp
      simp only [Option.some.injEq] at h; subst h
      have hchk := i3 doRun htp
      refine ⟨i1, i2, ?_, ?_, ?_, ?_, ?_, ?_⟩
      · intro b hb; simp only at hb; split at hb <;> simp at hb
      · intro hf
        simp only at hf
        split at hf
        · simp at hf
        · rename_i hn
          refine ⟨hchk.1, ?_⟩
          intro hm
          apply hn
          refine ⟨?_, (i1 hm).2⟩
          cases hd : doRun with
          | true => rfl
          | false => exact absurd hm (hchk.2 hd)
      · intro hf; simp only at hf; split at hf <;> simp at hf
      · intro hf; simp only at hf; split at hf <;> simp at hf
      · intro hc; exact absurd (hexc (by simp [htp])) hc
      · intro hj; exact absurd hj (hjoin (by simp [htp]))
    · rename_i htp
      simp only [Option.some.injEq] at h; subst h
      refine ⟨i1, i2, by simp, by simp, by simp, by simp, ?_, ?_⟩
      · intro hc; exact absurd (hexc (by simp [htp])) hc
      · intro hj; exact absurd hj (hjoin (by simp [htp]))
    · rename_i htp
      simp only [Option.some.injEq] at h; subst h
      have hfin := i4 (Or.inl htp)
      refine ⟨i1, i2, ?_, ?_, ?_, ?_, ?_, ?_⟩
      · intro b hb; simp only at hb; split at hb <;> simp at hb
      · intro _; exact hfin
      · intro hf
        simp only at hf
        split at hf
        · rename_i hp; exact ⟨hfin.2, hp⟩
        · simp at hf
      · intro hf; simp only at hf; split at hf <;> simp at hf
      · intro hc; exact absurd (hexc (by simp [htp])) hc
      · intro hj; exact absurd hj (hjoin (by simp [htp]))
    · rename_i htp
      simp only [Option.some.injEq] at h; subst h
      refine ⟨i1, i2, by simp, by simp, by simp, fun _ _ => i5 htp, fun _ => rfl, fun _ => rfl⟩
    · simp at h
  | complete k =>
    obtain ⟨fin, hc, hcase⟩ := complete_some s t k h
    obtain ⟨r, hr, h1, h2, h3, h4, h5, h6, h7, hres⟩ := callback_some s t fin k hc
    have hne : s.tpc ≠ .ended := by rcases hcase with ⟨h, _⟩ | h <;> simp [h]
    have hjoin : s.mpc ≠ .joined := fun hj => hne (i8 hj)
    have hexc : s.exc = none := by
      exact Classical.byContradiction fun hc => hne (i7 hc)
    rcases hres with ⟨_, he, ht⟩ | ⟨_, he, ht⟩
    · refine ⟨by rw [h4, h5, h6]; exact i1, by rw [h4, h5]; exact i2, by simp [ht], by simp [ht], by simp [ht], by simp [he],
        fun _ => ht, fun _ => ht⟩
    · refine ⟨by rw [h4, h5, h6]; exact i1, by rw [h4, h5]; exact i2, by simp [ht], ?_, by simp [ht], by simp [ht], ?_, ?_⟩
      · intro hf
        rw [ht] at hf
        have : fin = true := by simpa using hf
        subst this
        rw [h6, h4]
        apply i4
        rcases hcase with ⟨h, _⟩ | h
        · exact Or.inr (Or.inl h)
        · exact Or.inr (Or.inr h)
      · intro hc; rw [he] at hc; exact absurd hexc hc
      · intro hj; rw [h4] at hj; exact absurd hj hjoin

/-- C115, `end` (partial: not when `end` is called just between the return of the loop and the check of `_exit`, see
`request_lost_witness`). When `end` has returned and no callback has thrown, all requests queued have been served. -/
theorem end_serves_all_partial (as : List Act) (s : St) (h : runs as {} = some s)
    (hok : ∀ bs cs u, as = bs ++ .stop :: cs → runs bs {} = some u → ∀ b, u.tpc ≠ .check b)
    (hj : s.mpc = .joined) (hexc : s.exc = none) : s.pending = [] ∧ s.done.Perm s.submitted := by
  have key : ∀ (bs cs : List Act) (u v : St), as = bs ++ cs → runs bs {} = some u → EndInv u → runs cs u = some v → EndInv v := by
    intro bs cs
    induction cs generalizing bs with
    | nil => intro u v _ _ hu hv; simp only [runs, Option.some.injEq] at hv; exact hv ▸ hu
    | cons a cs ih =>
      intro u v he hb hu hv
      simp only [runs] at hv
      obtain ⟨w, hw, hv⟩ := Option.bind_eq_some_iff.mp hv
      refine ih (bs ++ [a]) w v (by simp [he]) ?_ ?_ hv
      · rw [runs_append, hb]; simp [runs, hw]
      · refine endInv_step u w a hu ?_ hw
        rintro rfl
        exact hok bs cs u he hb
  have hinit : EndInv {} := ⟨by simp, by simp, by simp, by simp, by simp, by simp, by simp, by simp⟩
  have hs := key [] as {} s rfl rfl hinit h
  have hp := (hs.over (hs.join hj) hexc).2
  refine ⟨hp, ?_⟩
  have := served_or_open as s h
  rwa [hp, List.append_nil] at this

/-- A whole life: a request is queued, `end` is called while the thread waits. -/
def life : List Act := [.thread, .thread, .thread, .thread, .submit ⟨7, false⟩, .stop, .setExit, .thread, .thread, .thread, .thread,
  .thread, .thread, .complete 0, .thread, .thread, .thread, .join]

example : (runs life {}).map (fun s => (s.mpc, s.exc, s.done)) = some (.joined, none, [⟨7, false⟩]) := by decide

/-- The request that is lost: the loop has nothing to do and returns; a request is queued and `end` called before the thread looks
at `_exit`; the last run of the loop finds the stop flag still set and returns at once. `end` returns without an exception. -/
theorem request_lost_witness :
    runs [.thread, .thread, .thread, .submit ⟨7, false⟩, .stop, .setExit, .thread, .thread, .thread, .thread, .join] {} =
      some { submitted := [⟨7, false⟩], pending := [⟨7, false⟩], exit := true, tpc := .ended, mpc := .joined } := by decide

/-! ### `end` returns -/

/-- Steps the loop thread can still take once `_exit` is set. -/
def left (s : St) : Nat :=
  match s.tpc with
  | .wait => 2 * s.pending.length + 11
  | .reset => 2 * s.pending.length + 10
  | .enter => 2 * s.pending.length + 9
  | .iter false => 2 * s.pending.length + 8
  | .top false => 2 * s.pending.length + 7
  | .check _ => 2 * s.pending.length + 6
  | .final => 2 * s.pending.length + 5
  | .iter true => 2 * s.pending.length + 4
  | .top true => 2 * s.pending.length + 3
  | .stopping => 1
  | .ended => 0

theorem left_step (s t : St) (a : Act) (hx : s.exit = true) (hm : s.mpc ≠ .running) (h : step s a = some t) :
    t.exit = true ∧ t.mpc ≠ .running ∧ (if a.isThread then left t < left s else left t = left s) := by
  cases a with
  | submit r => exact absurd (submit_some s t r h).1 hm
  | loopNow => simp only [step, Option.some.injEq] at h; subst h; exact ⟨hx, hm, rfl⟩
  | stop => simp only [step, if_neg hm] at h; simp at h
  | setExit =>
    simp only [step] at h
    split at h
    · simp only [Option.some.injEq] at h; subst h; exact ⟨rfl, by simp, rfl⟩
    · simp at h
  | join =>
    simp only [step] at h
    split at h
    · simp only [Option.some.injEq] at h; subst h; exact ⟨hx, by simp, rfl⟩
    · simp at h
  | thread =>
    obtain ⟨h1, _, _, _, h5, h6⟩ := threadStep_keeps s t h
    refine ⟨by rw [h6]; exact hx, by rw [h5]; exact hm, ?_⟩
    simp only [Act.isThread, if_true]
    simp only [step, threadStep] at h
    split at h
    · rename_i htp; simp only [Option.some.injEq] at h; subst h; simp [left, htp]
    · rename_i htp; simp only [Option.some.injEq] at h; subst h; simp [left, htp]
    · rename_i fin htp
      split at h
      · simp only [Option.some.injEq] at h; subst h
        cases fin <;> simp [left, htp]
      · simp at h
    · rename_i fin htp; simp only [Option.some.injEq] at h; subst h; cases fin <;> simp [left, htp]
    · rename_i b htp; simp only [Option.some.injEq] at h; subst h; simp [left, htp, hx]
    · rename_i htp; simp only [Option.some.injEq] at h; subst h; simp [left, htp]
    · rename_i htp; simp only [Option.some.injEq] at h; subst h
      by_cases hp : s.pending = [] <;> simp [left, htp, hp]
    · rename_i htp; simp only [Option.some.injEq] at h; subst h; simp [left, htp]
    · simp at h
  | complete k =>
    obtain ⟨fin, hc, hcase⟩ := complete_some s t k h
    obtain ⟨r, hr, h1, h2, h3, h4, h5, h6, h7, hres⟩ := callback_some s t fin k hc
    refine ⟨by rw [h5]; exact hx, by rw [h4]; exact hm, ?_⟩
    simp only [Act.isThread, if_true]
    have hk : k < s.pending.length := (List.getElem?_eq_some_iff.1 hr).1
    have hl : t.pending.length = s.pending.length - 1 := by rw [h1, List.length_eraseIdx, if_pos hk]
    rcases hres with ⟨_, _, ht⟩ | ⟨_, _, ht⟩
    · rcases hcase with ⟨hp, _⟩ | hp <;> cases fin <;> simp [left, ht, hp]
    · rcases hcase with ⟨hp, _⟩ | hp <;> cases fin <;> simp only [left, ht, hp, hl] <;> omega

/-- C115, `end` returns. Once `_exit` is set the loop thread takes at most `2 n + 11` further steps (`n` requests open), and as long as
it is not over one of its steps is possible; when it is over `join` is possible. So in every history in which
the loop thread goes on, `end` returns. -/
theorem end_returns (as bs : List Act) (s t : St) (h : runs as {} = some s) (hx : s.mpc = .exiting) (ht : runs bs s = some t) :
    (bs.filter Act.isThread).length ≤ 2 * s.pending.length + 11 ∧
    (t.tpc ≠ .ended → ∃ a, a.isThread = true ∧ (step t a).isSome = true) ∧
    (t.tpc = .ended → t.mpc = .exiting → (step t .join).isSome = true) := by
  have hexit : s.exit = true := by
    have := runs_inv (fun s => s.mpc = .exiting ∨ s.mpc = .joined → s.exit = true) (by
      intro s a t hp hs
      cases a with
      | submit r => obtain ⟨_, _, _, rfl⟩ := submit_some s t r hs; exact hp
      | loopNow => simp only [step, Option.some.injEq] at hs; subst hs; exact hp
      | stop => simp only [step] at hs; split at hs
                · simp only [Option.some.injEq] at hs; subst hs; simp
                · simp at hs
      | setExit => simp only [step] at hs; split at hs
                   · simp only [Option.some.injEq] at hs; subst hs; simp
                   · simp at hs
      | join => simp only [step] at hs; split at hs
                · rename_i hm; simp only [Option.some.injEq] at hs; subst hs; exact fun _ => hp (Or.inl hm.1)
                · simp at hs
      | thread => obtain ⟨_, _, _, _, h5, h6⟩ := threadStep_keeps s t hs; rw [h5, h6]; exact hp
      | complete k =>
        obtain ⟨fin, hc, _⟩ := complete_some s t k hs
        obtain ⟨_, _, _, _, _, h4, h5, _⟩ := callback_some s t fin k hc
        rw [h4, h5]; exact hp) as {} s (by simp) h
    exact this (Or.inl hx)
  have hle : left s ≤ 2 * s.pending.length + 11 := by
    simp only [left]; split <;> omega
  have hcount : ∀ (bs : List Act) (s t : St), s.exit = true → s.mpc ≠ .running → runs bs s = some t →
      (bs.filter Act.isThread).length + left t ≤ left s := by
    intro bs
    induction bs with
    | nil => intro s t _ _ h; simp only [runs, Option.some.injEq] at h; subst h; simp
    | cons a bs ih =>
      intro s t he hm h
      simp only [runs] at h
      obtain ⟨u, hu, h⟩ := Option.bind_eq_some_iff.mp h
      obtain ⟨g1, g2, g3⟩ := left_step s u a he hm hu
      have := ih u t g1 g2 h
      cases ha : a.isThread with
      | true => rw [ha, if_pos rfl] at g3; simp only [List.filter_cons, ha, if_true, List.length_cons]; omega
      | false => rw [ha] at g3; simp only [Bool.false_eq_true, if_false] at g3
                 simp only [List.filter_cons, ha, Bool.false_eq_true, if_false]; omega
  refine ⟨?_, ?_, ?_⟩
  · have := hcount bs s t hexit (by simp [hx]) ht
    omega
  · intro hne
    cases htp : t.tpc with
    | top fin =>
      by_cases hc : t.pending = [] ∨ t.stopFlag
      · exact ⟨.thread, rfl, by simp only [step, threadStep, htp, if_pos hc]; rfl⟩
      · refine ⟨.complete 0, rfl, ?_⟩
        have hsf : ¬ (t.stopFlag = true) := fun hh => hc (Or.inr hh)
        cases hpend : t.pending with
        | nil => exact absurd (Or.inl hpend) hc
        | cons r l =>
          simp only [step, htp, if_neg hsf, callback, hpend, List.getElem?_cons_zero]
          cases r.throws <;> rfl
    | ended => exact absurd htp hne
    | reset => exact ⟨.thread, rfl, by simp [step, threadStep, htp]⟩
    | enter => exact ⟨.thread, rfl, by simp [step, threadStep, htp]⟩
    | iter fin => exact ⟨.thread, rfl, by simp [step, threadStep, htp]⟩
    | check b => exact ⟨.thread, rfl, by simp [step, threadStep, htp]⟩
    | wait => exact ⟨.thread, rfl, by simp [step, threadStep, htp]⟩
    | final => exact ⟨.thread, rfl, by simp [step, threadStep, htp]⟩
    | stopping => exact ⟨.thread, rfl, by simp [step, threadStep, htp]⟩
  · intro h1 h2
    simp [step, h1, h2]

example : (runs (life.take 7) {}).map (·.mpc) = some .exiting := by decide

/-! ### requests are served without `end` -/

/-- Steps of the loop thread until all requests open now are served, if no more come. -/
def far (s : St) : Nat :=
  2 * s.pending.length + match s.tpc with
    | .check _ => 5 | .wait => 4 | .reset => 3 | .enter => 2 | .iter _ => 1 | _ => 0

theorem step_perm (s t : St) (a : Act) (hp : (s.done ++ s.pending).Perm s.submitted) (hs : step s a = some t) :
    (t.done ++ t.pending).Perm t.submitted := by
  cases a with
  | submit r =>
    obtain ⟨_, _, _, rfl⟩ := submit_some s t r hs
    simp only
    rw [← List.append_assoc]
    exact hp.append_right [r]
  | loopNow => simp only [step, Option.some.injEq] at hs; subst hs; exact hp
  | stop => simp only [step] at hs; split at hs
            · simp only [Option.some.injEq] at hs; subst hs; exact hp
            · simp at hs
  | setExit => simp only [step] at hs; split at hs
               · simp only [Option.some.injEq] at hs; subst hs; exact hp
               · simp at hs
  | join => simp only [step] at hs; split at hs
            · simp only [Option.some.injEq] at hs; subst hs; exact hp
            · simp at hs
  | thread =>
    obtain ⟨h1, h2, h3, _⟩ := threadStep_keeps s t hs
    rw [h1, h2, h3]; exact hp
  | complete k =>
    obtain ⟨fin, hc, _⟩ := complete_some s t k hs
    obtain ⟨r, hr, h1, h2, h3, _⟩ := callback_some s t fin k hc
    rw [h1, h2, h3]
    refine List.Perm.trans ?_ hp
    rw [List.append_assoc]
    exact (perm_erase _ _ _ hr).symm.append_left _

theorem step_extends (s t : St) (a : Act) (hs : step s a = some t) : s.submitted <+: t.submitted ∧ s.done <+: t.done := by
  cases a with
  | submit r => obtain ⟨_, _, _, rfl⟩ := submit_some s t r hs; exact ⟨List.prefix_append _ _, List.prefix_refl _⟩
  | loopNow => simp only [step, Option.some.injEq] at hs; subst hs; exact ⟨List.prefix_refl _, List.prefix_refl _⟩
  | stop => simp only [step] at hs; split at hs
            · simp only [Option.some.injEq] at hs; subst hs; exact ⟨List.prefix_refl _, List.prefix_refl _⟩
            · simp at hs
  | setExit => simp only [step] at hs; split at hs
               · simp only [Option.some.injEq] at hs; subst hs; exact ⟨List.prefix_refl _, List.prefix_refl _⟩
               · simp at hs
  | join => simp only [step] at hs; split at hs
            · simp only [Option.some.injEq] at hs; subst hs; exact ⟨List.prefix_refl _, List.prefix_refl _⟩
            · simp at hs
  | thread =>
    obtain ⟨_, h2, h3, _⟩ := threadStep_keeps s t hs
    rw [h2, h3]; exact ⟨List.prefix_refl _, List.prefix_refl _⟩
  | complete k =>
    obtain ⟨fin, hc, _⟩ := complete_some s t k hs
    obtain ⟨r, _, _, h2, h3, _⟩ := callback_some s t fin k hc
    rw [h2, h3]; exact ⟨List.prefix_refl _, List.prefix_append _ _⟩

theorem far_step (s t : St) (a : Act) (h : step s a = some t) (hsf : s.stopFlag = false)
    (hp : s.tpc ≠ .final ∧ s.tpc ≠ .stopping ∧ s.tpc ≠ .ended ∧ s.tpc ≠ .top true ∧ s.tpc ≠ .iter true ∧ s.tpc ≠ .check false)
    (hne : s.pending ≠ []) (hexc : t.exc = none) (hx : s.exit = false) :
    far t + (if a.isThread then 1 else 0) ≤ far s + 2 * (t.submitted.length - s.submitted.length) := by
  obtain ⟨n1, n2, n3, n4, n5, n6⟩ := hp
  cases a with
  | submit r => obtain ⟨_, _, _, rfl⟩ := submit_some s t r h
                simp only [far, Act.isThread, List.length_append, List.length_singleton, Bool.false_eq_true, if_false]; omega
  | loopNow => simp only [step, Option.some.injEq] at h; subst h; simp [far, Act.isThread]
  | stop => simp only [step] at h; split at h
            · simp only [Option.some.injEq] at h; subst h; simp [far, Act.isThread]
            · simp at h
  | setExit => simp only [step] at h; split at h
               · simp only [Option.some.injEq] at h; subst h; simp [far, Act.isThread]
               · simp at h
  | join => simp only [step] at h; split at h
            · simp only [Option.some.injEq] at h; subst h; simp [far, Act.isThread]
            · simp at h
  | thread =>
    simp only [step, threadStep] at h
    simp only [Act.isThread, if_true]
    split at h
    · rename_i htp; simp only [Option.some.injEq] at h; subst h; simp only [far, htp]; omega
    · rename_i htp; simp only [Option.some.injEq] at h; subst h; simp only [far, htp]; omega
    · split at h
      · rename_i hret
        rcases hret with hr | hr
        · exact absurd hr hne
        · rw [hsf] at hr; cases hr
      · simp at h
    · rename_i fin htp; simp only [Option.some.injEq] at h; subst h; simp only [far, htp]; omega
    · rename_i b htp
      simp only [Option.some.injEq] at h; subst h
      cases b with
      | false => exact absurd htp n6
      | true => simp only [far, htp, hx, and_self, if_true]; omega
    · rename_i htp; simp only [Option.some.injEq] at h; subst h; simp only [far, htp]; omega
    · rename_i htp; exact absurd htp n1
    · rename_i htp; exact absurd htp n2
    · simp at h
  | complete k =>
    obtain ⟨fin, hc, hcase⟩ := complete_some s t k h
    obtain ⟨r, hr, h1, h2, h3, h4, h5, h6, h7, hres⟩ := callback_some s t fin k hc
    simp only [Act.isThread, if_true]
    have hk : k < s.pending.length := (List.getElem?_eq_some_iff.1 hr).1
    have hl : t.pending.length = s.pending.length - 1 := by rw [h1, List.length_eraseIdx, if_pos hk]
    rcases hres with ⟨_, he, _⟩ | ⟨_, _, ht⟩
    · rw [he] at hexc; cases hexc
    · rcases hcase with ⟨hp, _⟩ | hp <;> simp only [far, ht, hp, hl] <;> omega

/-- C115, progress. A request that is open is served, with or without `loop_now`, without `end`: as long as it is still open, `end` has
not been called and no callback has thrown, the loop thread has taken no more than `2 n + 5` steps (`n` requests open at first) and two more
for each request queued meanwhile, and one of its steps is possible. -/
theorem request_served (as bs : List Act) (s t : St) (h : runs as {} = some s) (ht : runs bs s = some t) (r : Req)
    (hnd : t.submitted.Nodup) (hfirst : r ∈ s.pending)
    (hstill : r ∈ t.pending) (hm : t.mpc = .running) (hexc : t.exc = none) :
    (bs.filter Act.isThread).length ≤
      2 * s.pending.length + 5 + 2 * (t.submitted.length - s.submitted.length) ∧
    ∃ a, a.isThread = true ∧ (step t a).isSome = true := by
  -- before `end` the thread is in its main loop, and stays there unless a callback throws
  let P : St → Prop := fun s => s.mpc = .running → s.stopFlag = false ∧ s.exit = false ∧
    (s.exc = none → s.tpc ≠ .final ∧ s.tpc ≠ .stopping ∧ s.tpc ≠ .ended ∧ s.tpc ≠ .top true ∧ s.tpc ≠ .iter true ∧ s.tpc ≠ .check false)
  have hP : ∀ s a t, P s → step s a = some t → P t := by
    intro s a t hp hs
    cases a with
    | submit r => obtain ⟨_, _, _, rfl⟩ := submit_some s t r hs; exact hp
    | loopNow => simp only [step, Option.some.injEq] at hs; subst hs; exact hp
    | stop => simp only [step] at hs; split at hs
              · simp only [Option.some.injEq] at hs; subst hs; simp [P]
              · simp at hs
    | setExit => simp only [step] at hs; split at hs
                 · simp only [Option.some.injEq] at hs; subst hs; simp [P]
                 · simp at hs
    | join => simp only [step] at hs; split at hs
              · simp only [Option.some.injEq] at hs; subst hs; simp [P]
              · simp at hs
    | thread =>
      obtain ⟨_, _, _, k4, k5, k6⟩ := threadStep_keeps s t hs
      intro hm
      rw [k5] at hm
      obtain ⟨p1, p2, p3⟩ := hp hm
      rw [k6, k4]
      simp only [step, threadStep] at hs
      split at hs
      · simp only [Option.some.injEq] at hs; subst hs; exact ⟨p1, p2, fun _ => by simp⟩
      · simp only [Option.some.injEq] at hs; subst hs; exact ⟨p1, p2, fun _ => by simp⟩
      · rename_i fin htp
        split at hs
        · rename_i hret
          simp only [Option.some.injEq] at hs; subst hs
          refine ⟨rfl, p2, fun he => ?_⟩
          have p4 := p3 he
          cases fin with
          | true => exact absurd htp p4.2.2.2.1
          | false =>
            rcases hret with hr | hr
            · simp [hr]
            · rw [p1] at hr; simp at hr
        · simp at hs
      · rename_i fin htp
        simp only [Option.some.injEq] at hs; subst hs
        refine ⟨p1, p2, fun he => ?_⟩
        have p4 := p3 he
        cases fin with
        | true => exact absurd htp p4.2.2.2.2.1
        | false => simp
      · rename_i b htp
        simp only [Option.some.injEq] at hs; subst hs
        refine ⟨p1, p2, fun he => ?_⟩
        have p4 := p3 he
        cases b with
        | false => exact absurd htp p4.2.2.2.2.2
        | true => simp [p2]
      · simp only [Option.some.injEq] at hs; subst hs; exact ⟨p1, p2, fun _ => by simp⟩
      · rename_i htp
        simp only [Option.some.injEq] at hs; subst hs
        refine ⟨p1, p2, fun he => ?_⟩
        exact absurd htp (p3 he).1
      · rename_i htp
        simp only [Option.some.injEq] at hs; subst hs
        refine ⟨p1, p2, fun he => ?_⟩
        exact absurd htp (p3 he).2.1
      · simp at hs
    | complete k =>
      obtain ⟨fin, hc, hcase⟩ := complete_some s t k hs
      obtain ⟨r, hr, h1, h2, h3, h4, h5, h6, h7, hres⟩ := callback_some s t fin k hc
      intro hm
      rw [h4] at hm
      obtain ⟨p1, p2, p3⟩ := hp hm
      rw [h6, h5]
      refine ⟨p1, p2, fun he => ?_⟩
      rcases hres with ⟨_, he', _⟩ | ⟨_, he', ht⟩
      · rw [he'] at he; simp at he
      · rw [he'] at he
        have p4 := p3 he
        cases fin with
        | true => rcases hcase with ⟨hh, _⟩ | hh
                  · exact absurd hh p4.2.2.2.1
                  · exact absurd hh p4.2.2.2.2.1
        | false => simp [ht]
  have hback : ∀ s a t, step s a = some t → t.mpc = .running → s.mpc = .running := by
    intro s a t hs hm
    cases a with
    | submit r => exact (submit_some s t r hs).1
    | loopNow => simp only [step, Option.some.injEq] at hs; subst hs; exact hm
    | stop => simp only [step] at hs; split at hs
              · simp only [Option.some.injEq] at hs; subst hs; simp at hm
              · simp at hs
    | setExit => simp only [step] at hs; split at hs
                 · simp only [Option.some.injEq] at hs; subst hs; simp at hm
                 · simp at hs
    | join => simp only [step] at hs; split at hs
              · simp only [Option.some.injEq] at hs; subst hs; simp at hm
              · simp at hs
    | thread => obtain ⟨_, _, _, _, h5, _⟩ := threadStep_keeps s t hs; rw [← h5]; exact hm
    | complete k =>
      obtain ⟨fin, hc, _⟩ := complete_some s t k hs
      obtain ⟨_, _, _, _, _, h4, _⟩ := callback_some s t fin k hc
      rw [← h4]; exact hm
  have hexcback : ∀ s a t, step s a = some t → t.exc = none → s.exc = none := by
    intro s a t hs he
    cases a with
    | submit r => obtain ⟨_, _, _, rfl⟩ := submit_some s t r hs; exact he
    | loopNow => simp only [step, Option.some.injEq] at hs; subst hs; exact he
    | stop => simp only [step] at hs; split at hs
              · simp only [Option.some.injEq] at hs; subst hs; exact he
              · simp at hs
    | setExit => simp only [step] at hs; split at hs
                 · simp only [Option.some.injEq] at hs; subst hs; exact he
                 · simp at hs
    | join => simp only [step] at hs; split at hs
              · simp only [Option.some.injEq] at hs; subst hs; exact he
              · simp at hs
    | thread => obtain ⟨_, _, _, h4, _⟩ := threadStep_keeps s t hs; rw [← h4]; exact he
    | complete k =>
      obtain ⟨fin, hc, _⟩ := complete_some s t k hs
      obtain ⟨_, _, _, _, _, _, _, _, _, hres⟩ := callback_some s t fin k hc
      rcases hres with ⟨_, h, _⟩ | ⟨_, h, _⟩
      · rw [h] at he; simp at he
      · rw [← h]; exact he
  have hPs : P s := runs_inv P hP as {} s (by intro _; simp) h
  have hcount : ∀ (bs : List Act) (s : St), P s → (s.done ++ s.pending).Perm s.submitted → r ∈ s.submitted → runs bs s = some t →
      s.mpc = .running ∧ s.exc = none ∧ s.submitted.length ≤ t.submitted.length ∧ r ∈ s.pending ∧ s.done <+: t.done ∧
      (bs.filter Act.isThread).length + far t ≤ far s + 2 * (t.submitted.length - s.submitted.length) := by
    intro bs
    induction bs with
    | nil =>
      intro s _ _ _ h
      simp only [runs, Option.some.injEq] at h; subst h
      exact ⟨hm, hexc, Nat.le_refl _, hstill, List.prefix_refl _, by simp⟩
    | cons a bs ih =>
      intro s hp hperm hsub h
      simp only [runs] at h
      obtain ⟨u, hu, h⟩ := Option.bind_eq_some_iff.mp h
      obtain ⟨e1, e2⟩ := step_extends s u a hu
      have hpu := hP s a u hp hu
      have hpermu := step_perm s u a hperm hu
      obtain ⟨q1, q2, q3, q4, q5, q6⟩ := ih u hpu hpermu (e1.subset hsub) h
      have hms := hback s a u hu q1
      have hes := hexcback s a u hu q2
      have hdone : s.done <+: t.done := e2.trans q5
      have htperm : (t.done ++ t.pending).Perm t.submitted := by
        exact runs_inv (fun s => (s.done ++ s.pending).Perm s.submitted) (fun s a t hp hs => step_perm s t a hp hs) bs u t hpermu h
      have hrp : r ∈ s.pending := by
        have : r ∈ s.done ++ s.pending := hperm.mem_iff.mpr hsub
        rcases List.mem_append.mp this with hd | hd
        · exfalso
          have hnd2 := htperm.nodup_iff.mpr hnd
          exact (List.nodup_append.mp hnd2).2.2 r (hdone.subset hd) r hstill rfl
        · exact hd
      refine ⟨hms, hes, Nat.le_trans e1.length_le q3, hrp, hdone, ?_⟩
      have hstep := far_step s u a hu (hp hms).1 (((hp hms).2.2 hes)) (List.ne_nil_of_mem hrp) q2 (hp hms).2.1
      have := e1.length_le
      cases ha : a.isThread with
      | true => rw [ha, if_pos rfl] at hstep; simp only [List.filter_cons, ha, if_true, List.length_cons]; omega
      | false => rw [ha] at hstep; simp only [Bool.false_eq_true, if_false] at hstep
                 simp only [List.filter_cons, ha, Bool.false_eq_true, if_false]; omega
  have hperm := served_or_open as s h
  obtain ⟨_, _, _, _, _, hc⟩ := hcount bs s hPs hperm (hperm.mem_iff.mp (List.mem_append_right _ hfirst)) ht
  have hfar : far s ≤ 2 * s.pending.length + 5 := by
    simp only [far]; split <;> omega
  refine ⟨by omega, ?_⟩
  have hPt : P t := runs_inv P hP bs s t hPs ht
  obtain ⟨p1, p2, p3⟩ := hPt hm
  have p4 := p3 hexc
  cases htp : t.tpc with
  | top fin =>
    refine ⟨.complete 0, rfl, ?_⟩
    have hsf : ¬ (t.stopFlag = true) := by simp [p1]
    cases hpend : t.pending with
    | nil => rw [hpend] at hstill; simp at hstill
    | cons r l =>
      simp only [step, htp, if_neg hsf, callback, hpend, List.getElem?_cons_zero]
      cases r.throws <;> rfl
  | ended => exact absurd htp p4.2.2.1
  | reset => exact ⟨.thread, rfl, by simp [step, threadStep, htp]⟩
  | enter => exact ⟨.thread, rfl, by simp [step, threadStep, htp]⟩
  | iter fin => exact ⟨.thread, rfl, by simp [step, threadStep, htp]⟩
  | check b => exact ⟨.thread, rfl, by simp [step, threadStep, htp]⟩
  | wait => exact ⟨.thread, rfl, by simp [step, threadStep, htp]⟩
  | final => exact ⟨.thread, rfl, by simp [step, threadStep, htp]⟩
  | stopping => exact ⟨.thread, rfl, by simp [step, threadStep, htp]⟩

example : ((runs (life.take 5) {}).map (fun s => (s.pending, s.mpc, s.exc, s.submitted)) =
    some ([⟨7, false⟩], .running, none, [⟨7, false⟩])) := by decide

/-! ### exceptions -/

/-- Nothing is served once the thread is over. -/
theorem ended_step (s t : St) (a : Act) (h : step s a = some t) (he : s.tpc = .ended) :
    t.tpc = .ended ∧ t.done = s.done ∧ t.exc = s.exc ∧ ∀ r ∈ s.pending, r ∈ t.pending := by
  cases a with
  | submit r => obtain ⟨_, _, _, rfl⟩ := submit_some s t r h
                exact ⟨he, rfl, rfl, fun r hr => List.mem_append_left _ hr⟩
  | loopNow => simp only [step, Option.some.injEq] at h; subst h; exact ⟨he, rfl, rfl, fun _ h => h⟩
  | stop => simp only [step] at h; split at h
            · simp only [Option.some.injEq] at h; subst h; exact ⟨he, rfl, rfl, fun _ h => h⟩
            · simp at h
  | setExit => simp only [step] at h; split at h
               · simp only [Option.some.injEq] at h; subst h; exact ⟨he, rfl, rfl, fun _ h => h⟩
               · simp at h
  | join => simp only [step] at h; split at h
            · simp only [Option.some.injEq] at h; subst h; exact ⟨he, rfl, rfl, fun _ h => h⟩
            · simp at h
  | thread => simp [step, threadStep, he] at h
  | complete k => simp [step, he] at h

/-- C115, exceptions. After every history at most one callback has thrown: the last one called. Its exception, and no other, is the
one `end` throws; without such a callback `end` returns. -/
theorem end_throws_iff (as : List Act) (s : St) (h : runs as {} = some s) :
    (∀ id, endResult s false false = .throws id ↔ ∃ ds r, s.done = ds ++ [r] ∧ r.throws = true ∧ r.id = id) ∧
    (endResult s false false = .returns ↔ ∀ r ∈ s.done, r.throws = false) ∧
    (∀ ds r, s.done = ds ++ [r] → ∀ q ∈ ds, q.throws = false) := by
  have hinv : (s.exc = none ∧ ∀ r ∈ s.done, r.throws = false) ∨
      (s.tpc = .ended ∧ ∃ ds r, s.done = ds ++ [r] ∧ r.throws = true ∧ s.exc = some r.id ∧ ∀ q ∈ ds, q.throws = false) := by
    refine runs_inv (fun s => (s.exc = none ∧ ∀ r ∈ s.done, r.throws = false) ∨
      (s.tpc = .ended ∧ ∃ ds r, s.done = ds ++ [r] ∧ r.throws = true ∧ s.exc = some r.id ∧ ∀ q ∈ ds, q.throws = false))
      ?_ as {} s (Or.inl ⟨rfl, by simp⟩) h
    intro s a t hp hs
    rcases hp with ⟨p1, p2⟩ | ⟨p1, ds, r, p2, p3, p4, p5⟩
    · cases a with
      | submit r => obtain ⟨_, _, _, rfl⟩ := submit_some s t r hs; exact Or.inl ⟨p1, p2⟩
      | loopNow => simp only [step, Option.some.injEq] at hs; subst hs; exact Or.inl ⟨p1, p2⟩
      | stop => simp only [step] at hs; split at hs
                · simp only [Option.some.injEq] at hs; subst hs; exact Or.inl ⟨p1, p2⟩
                · simp at hs
      | setExit => simp only [step] at hs; split at hs
                   · simp only [Option.some.injEq] at hs; subst hs; exact Or.inl ⟨p1, p2⟩
                   · simp at hs
      | join => simp only [step] at hs; split at hs
                · simp only [Option.some.injEq] at hs; subst hs; exact Or.inl ⟨p1, p2⟩
                · simp at hs
      | thread => obtain ⟨_, h2, _, h4, _⟩ := threadStep_keeps s t hs; rw [h2, h4]; exact Or.inl ⟨p1, p2⟩
      | complete k =>
        obtain ⟨fin, hc, _⟩ := complete_some s t k hs
        obtain ⟨r, _, _, h2, _, _, _, _, _, hres⟩ := callback_some s t fin k hc
        rcases hres with ⟨hr, he, ht⟩ | ⟨hr, he, ht⟩
        · exact Or.inr ⟨ht, s.done, r, h2, hr, he, p2⟩
        · refine Or.inl ⟨by rw [he]; exact p1, ?_⟩
          rw [h2]
          intro q hq
          rcases List.mem_append.mp hq with hq | hq
          · exact p2 q hq
          · rw [List.mem_singleton.mp hq]; exact hr
    · obtain ⟨e1, e2, e3, _⟩ := ended_step s t a hs p1
      exact Or.inr ⟨e1, ds, r, by rw [e2]; exact p2, p3, by rw [e3]; exact p4, p5⟩
  rcases hinv with ⟨p1, p2⟩ | ⟨_, ds, r, p2, p3, p4, p5⟩
  · have he : endResult s false false = .returns := by simp [endResult, p1]
    refine ⟨?_, ?_, ?_⟩
    · intro id
      rw [he]
      constructor
      · intro hc; cases hc
      · rintro ⟨ds, r, h1, h2, _⟩
        have := p2 r (by rw [h1]; simp)
        rw [h2] at this; cases this
    · simp only [he, true_iff]; exact p2
    · intro ds r hd q hq
      exact p2 q (by rw [hd]; exact List.mem_append_left _ hq)
  · have he : endResult s false false = .throws r.id := by simp [endResult, p4]
    refine ⟨?_, ?_, ?_⟩
    · intro id
      rw [he]
      constructor
      · intro hc; cases hc; exact ⟨ds, r, p2, p3, rfl⟩
      · rintro ⟨ds', r', h1, h2, rfl⟩
        rw [p2] at h1
        have := (List.append_inj' h1 rfl).2
        simp only [List.cons.injEq, and_true] at this
        rw [this]
    · rw [he]
      constructor
      · intro hc; cases hc
      · intro hall
        have := hall r (by rw [p2]; simp)
        rw [p3] at this; cases this
    · intro ds' r' hd q hq
      rw [p2] at hd
      rw [← (List.append_inj' hd rfl).1] at hq
      exact p5 q hq

/-- C115, exceptions. After a callback has thrown, no request is served any more: those open stay open, whatever happens. -/
theorem nothing_served_after_exception (as bs : List Act) (s t : St) (h : runs as {} = some s)
    (hthrown : ∃ q ∈ s.done, q.throws = true) (ht : runs bs s = some t) :
    t.done = s.done ∧ ∀ r ∈ s.pending, r ∈ t.pending := by
  have hended : s.tpc = .ended := by
    have := runs_inv (fun s => (∃ q ∈ s.done, q.throws = true) → s.tpc = .ended) (by
      intro s a t hp hs hq
      by_cases hx : ∃ q ∈ s.done, q.throws = true
      · exact (ended_step s t a hs (hp hx)).1
      · cases a with
        | submit r => obtain ⟨_, _, _, rfl⟩ := submit_some s t r hs; exact absurd hq hx
        | loopNow => simp only [step, Option.some.injEq] at hs; subst hs; exact absurd hq hx
        | stop => simp only [step] at hs; split at hs
                  · simp only [Option.some.injEq] at hs; subst hs; exact absurd hq hx
                  · simp at hs
        | setExit => simp only [step] at hs; split at hs
                     · simp only [Option.some.injEq] at hs; subst hs; exact absurd hq hx
                     · simp at hs
        | join => simp only [step] at hs; split at hs
                  · simp only [Option.some.injEq] at hs; subst hs; exact absurd hq hx
                  · simp at hs
        | thread => obtain ⟨_, h2, _⟩ := threadStep_keeps s t hs; rw [h2] at hq; exact absurd hq hx
        | complete k =>
          obtain ⟨fin, hc, _⟩ := complete_some s t k hs
          obtain ⟨r, _, _, h2, _, _, _, _, _, hres⟩ := callback_some s t fin k hc
          rcases hres with ⟨_, _, ht⟩ | ⟨hr, _, _⟩
          · exact ht
          · rw [h2] at hq
            obtain ⟨q, hq, hqt⟩ := hq
            rcases List.mem_append.mp hq with hq | hq
            · exact absurd ⟨q, hq, hqt⟩ hx
            · rw [List.mem_singleton.mp hq, hr] at hqt; cases hqt) as {} s (by simp) h
    exact this hthrown
  have := runs_inv (fun t => t.tpc = .ended ∧ t.done = s.done ∧ ∀ r ∈ s.pending, r ∈ t.pending) (by
    rintro u a v ⟨u1, u2, u3⟩ hs
    obtain ⟨e1, e2, _, e4⟩ := ended_step u v a hs u1
    exact ⟨e1, by rw [e2]; exact u2, fun r hr => e4 r (u3 r hr)⟩) bs s t ⟨hended, rfl, fun _ h => h⟩ ht
  exact ⟨this.2.1, this.2.2⟩

/-- Two requests, the first callback throws: the second stays open, and so does one queued later (its caller waits for ever). -/
def thrown : List Act := [.submit ⟨1, true⟩, .submit ⟨2, false⟩, .thread, .thread, .complete 0, .submit ⟨3, false⟩]

example : (runs thrown {}).map (fun s => (s.done, s.pending, endResult s false false)) =
    some ([⟨1, true⟩], [⟨2, false⟩, ⟨3, false⟩], .throws 1) := by decide

/-- The destructor of a loop thread in which a callback has thrown, and which `end` has not been called for, ends the program. -/
theorem destructor_terminates_witness :
    (runs (thrown ++ [.stop, .setExit, .join]) {}).map (fun s => endResult s true false) = some .terminate := by decide

end Verif.LoopThread
