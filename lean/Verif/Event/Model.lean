import Mathlib.Data.List.Basic

/-
Model of `signal_event` (src/mg/core/thread.h, src/mg/core/thread.cpp) used by any number of threads. The flag is read and written in single
steps in an arbitrary interleaving (in C++ these are data races). The mutex and the condition variable are those of POSIX: waiting releases the
mutex and blocks in one step, signalling wakes one blocked thread if there is one, a blocked thread may also wake without a signal, and a
thread that wakes has to take the mutex again.
-/
namespace Verif.Event

/-- The member functions. `timed` is `wait(ms)`, also `is_signaled()` (`wait(0)`). -/
inductive Op
  | signal
  | reset
  | wait
  | timed
  deriving DecidableEq

/-- Where a thread is. -/
inductive Pc
  /-- not in a call -/
  | idle
  /-- before the first step of a function -/
  | start (op : Op)
  /-- src/mg/core/thread.cpp 104: before `_signed = true` -/
  | signalSet
  /-- src/mg/core/thread.cpp 106: before `uv_cond_signal` -/
  | signalWake
  /-- src/mg/core/thread.cpp 120: before `lock` -/
  | waitLock
  /-- src/mg/core/thread.cpp 121: before `uv_cond_wait` -/
  | waitCond
  | waitBlocked
  /-- woken, before the mutex is taken again -/
  | waitWoken
  /-- src/mg/core/thread.cpp 122: before `unLock` -/
  | waitUnlock
  /-- src/mg/core/thread.cpp 136: before `try_lock` -/
  | timedLock
  /-- src/mg/core/thread.cpp 138: before `uv_cond_timedwait` -/
  | timedCond
  | timedBlocked
  /-- woken by a signal (`timeout = false`) or by the time -/
  | timedWoken (timeout : Bool)
  /-- src/mg/core/thread.cpp 139: before `unLock` -/
  | timedUnlock (timeout : Bool)
  /-- src/mg/core/thread.cpp 140-141: before `_signed` is read for the result -/
  | timedResult
  /-- about to return; the result of `timed` -/
  | done (op : Op) (result : Bool)
  deriving DecidableEq

/-- What happens in a step: a call or a return of a thread, a wake up without a signal, or anything else. -/
inductive Label (T : Type)
  | call (t : T) (op : Op)
  | ret (t : T) (op : Op) (result : Bool)
  | spurious (t : T)
  | tau (t : T)

/-- src/mg/core/thread.h 60-63: `_signed`, the owner of `_crit_sec`, and the threads. -/
structure State (T : Type) where
  signed : Bool
  owner : Option T
  pc : T → Pc

variable {T : Type} [DecidableEq T]

/-- src/mg/core/thread.cpp 86-90. -/
def State.init : State T := { signed := false, owner := none, pc := fun _ => .idle }

/-- Thread `t` goes on. -/
def State.go (s : State T) (t : T) (p : Pc) : State T := { s with pc := fun u => if u = t then p else s.pc u }

/-- A thread that waits for the condition. -/
def Pc.blocked (p : Pc) : Bool := p == .waitBlocked || p == .timedBlocked

/-- Where a blocked thread goes when it wakes. -/
def Pc.woken : Pc → Pc
  | .waitBlocked => .waitWoken
  | .timedBlocked => .timedWoken false
  | p => p

/-- src/mg/core/thread.cpp 97-152: the steps. -/
inductive Step : State T → Label T → State T → Prop
  | call (s t op) (h : s.pc t = .idle) : Step s (.call t op) (s.go t (.start op))
  | ret (s t op r) (h : s.pc t = .done op r) : Step s (.ret t op r) (s.go t .idle)
  -- `signal`, lines 97-108
  | signalSeen (s t) (h : s.pc t = .start .signal) (hs : s.signed = true) : Step s (.tau t) (s.go t (.done .signal false))
  | signalCheck (s t) (h : s.pc t = .start .signal) (hs : s.signed = false) : Step s (.tau t) (s.go t .signalSet)
  | signalSet (s t) (h : s.pc t = .signalSet) : Step s (.tau t) ({ s with signed := true }.go t .signalWake)
  | signalWake (s t u) (h : s.pc t = .signalWake) (hu : (s.pc u).blocked = true) :
      Step s (.tau t) ((s.go u (s.pc u).woken).go t (.done .signal false))
  | signalNone (s t) (h : s.pc t = .signalWake) (hn : ∀ u, (s.pc u).blocked = false) : Step s (.tau t) (s.go t (.done .signal false))
  -- `reset`, lines 110-113
  | reset (s t) (h : s.pc t = .start .reset) : Step s (.tau t) ({ s with signed := false }.go t (.done .reset false))
  -- `wait`, lines 115-123
  | waitSeen (s t) (h : s.pc t = .start .wait) (hs : s.signed = true) : Step s (.tau t) (s.go t (.done .wait false))
  | waitCheck (s t) (h : s.pc t = .start .wait) (hs : s.signed = false) : Step s (.tau t) (s.go t .waitLock)
  | waitLock (s t) (h : s.pc t = .waitLock) (ho : s.owner = none) : Step s (.tau t) ({ s with owner := some t }.go t .waitCond)
  | waitCond (s t) (h : s.pc t = .waitCond) : Step s (.tau t) ({ s with owner := none }.go t .waitBlocked)
  | waitAgain (s t) (h : s.pc t = .waitWoken) (ho : s.owner = none) : Step s (.tau t) ({ s with owner := some t }.go t .waitUnlock)
  | waitUnlock (s t) (h : s.pc t = .waitUnlock) : Step s (.tau t) ({ s with owner := none }.go t (.done .wait false))
  -- `wait(ms)`, lines 125-151
  | timedSeen (s t) (h : s.pc t = .start .timed) (hs : s.signed = true) : Step s (.tau t) (s.go t (.done .timed true))
  | timedCheck (s t) (h : s.pc t = .start .timed) (hs : s.signed = false) : Step s (.tau t) (s.go t .timedLock)
  | timedLock (s t) (h : s.pc t = .timedLock) (ho : s.owner = none) : Step s (.tau t) ({ s with owner := some t }.go t .timedCond)
  | timedBusy (s t u) (h : s.pc t = .timedLock) (ho : s.owner = some u) : Step s (.tau t) (s.go t (.done .timed false))
  | timedCond (s t) (h : s.pc t = .timedCond) : Step s (.tau t) ({ s with owner := none }.go t .timedBlocked)
  | timedOut (s t) (h : s.pc t = .timedBlocked) : Step s (.tau t) (s.go t (.timedWoken true))
  | timedAgain (s t b) (h : s.pc t = .timedWoken b) (ho : s.owner = none) : Step s (.tau t) ({ s with owner := some t }.go t (.timedUnlock b))
  | timedUnlock (s t) (h : s.pc t = .timedUnlock false) : Step s (.tau t) ({ s with owner := none }.go t .timedResult)
  | timedUnlockOut (s t) (h : s.pc t = .timedUnlock true) : Step s (.tau t) ({ s with owner := none }.go t (.done .timed false))
  | timedResult (s t) (h : s.pc t = .timedResult) : Step s (.tau t) (s.go t (.done .timed s.signed))
  -- a wake up without a signal
  | spurious (s t) (h : (s.pc t).blocked = true) : Step s (.spurious t) (s.go t (s.pc t).woken)

/-- An execution. -/
inductive Run : State T → List (Label T) → State T → Prop
  | nil (s) : Run s [] s
  | snoc {s l s' x s''} (h : Run s l s') (hs : Step s' x s'') : Run s (l ++ [x]) s''

end Verif.Event
