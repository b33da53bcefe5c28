/-
Model of the thread that runs the event loop, `uvloopthread` (/repo/src/mg/core/uvbase.h 112-196, uvbase.cpp 26-87), with the thread that
uses it: requests are queued under the lock of the loop (/repo/src/mg/core/file.cpp 253-258, 321-326, 393-398, 456-461), `loop_now`,
`stop` and `end` are called without it.

The two threads take turns in any order: a history is a list of actions, each of them the smallest step that
others can observe. Of libuv: `uv_run` in the mode `UV_RUN_DEFAULT` goes on as long as there are requests and nobody has called
`uv_stop`, serves at least one request per round, clears the stop flag when it returns, and tells whether requests are left.
Memory is sequentially consistent (the flags are plain variables in the code).
-/
namespace Verif.LoopThread

/-- A request with its callback; `throws`: the callback ends with an exception. -/
structure Req where
  id : Nat
  throws : Bool := false
deriving DecidableEq, Repr

/-- Where the loop thread is, uvbase.cpp 26-87. `fin`: in the last run of the loop (62-63). -/
inductive TPC
  /-- `_w.reset()`, line 37 -/
  | reset
  /-- before the lock, line 41 -/
  | enter
  /-- in `uv_run`, before a round -/
  | top (fin : Bool)
  /-- in `uv_run`, in a round: at least one callback has been called -/
  | iter (fin : Bool)
  /-- line 46, with the result `do_run` -/
  | check (doRun : Bool)
  /-- `_w.wait(_wait_time)`, line 49 -/
  | wait
  /-- lines 61-62 -/
  | final
  /-- line 69 -/
  | stopping
  /-- `_ended.signal()`, thread.h 95; the thread is over -/
  | ended
deriving DecidableEq, Repr

/-- Where the other thread is in `end`, uvbase.h 176-188: before it, after `_loop->stop()` (156), after `_exit = true` (156), after
`join()`. -/
inductive MPC
  | running | stopped | exiting | joined
deriving DecidableEq, Repr

/-- Both threads. `submitted` and `done` are what the user sees: requests queued, callbacks called, each in order. -/
structure St where
  submitted : List Req := []
  pending : List Req := []
  done : List Req := []
  stopFlag : Bool := false
  exit : Bool := false
  signed : Bool := false
  exc : Option Nat := none
  tpc : TPC := .reset
  mpc : MPC := .running
deriving DecidableEq, Repr

/-- Actions. `complete k`: the loop thread calls the callback of the `k`th request still open (the disk may answer in any
order); `thread`: its next other step. -/
inductive Act
  | submit (r : Req) | loopNow | stop | setExit | join
  | thread | complete (k : Nat)
deriving DecidableEq, Repr

/-- Steps of the loop thread. -/
def Act.isThread : Act → Bool
  | .thread => true
  | .complete _ => true
  | _ => false

/-- The next step of the loop thread other than a callback, uvbase.cpp 33-72. -/
def threadStep (s : St) : Option St :=
  match s.tpc with
  | .reset => some { s with signed := false, tpc := .enter }
  | .enter => some { s with tpc := .top false }
  | .top fin =>
    -- `uv_run` returns, uvbase.h 85-91
    if s.pending = [] ∨ s.stopFlag then
      some { s with stopFlag := false, tpc := if fin then .stopping else .check (decide (s.pending = [])) }
    else none
  | .iter fin => some { s with tpc := .top fin }
  | .check doRun => some { s with tpc := if doRun ∧ s.exit = false then .wait else .final }
  | .wait => some { s with tpc := .reset }
  | .final => some { s with tpc := if s.pending = [] then .stopping else .top true }
  | .stopping => some { s with tpc := .ended }
  | .ended => none

/-- A callback, called from `uv_run`; an exception leaves `run` through the `catch`, uvbase.cpp 75-86. -/
def callback (s : St) (fin : Bool) (k : Nat) : Option St :=
  match s.pending[k]? with
  | none => none
  | some r =>
    let s := { s with pending := s.pending.eraseIdx k, done := s.done ++ [r] }
    if r.throws then some { s with exc := some r.id, tpc := .ended } else some { s with tpc := .iter fin }

/-- One action; `none` = not possible now. Queueing needs the lock, which the loop thread has while it is in `uv_run`. -/
def step (s : St) : Act → Option St
  | .submit r =>
    match s.mpc, s.tpc with
    | .running, .top _ => none
    | .running, .iter _ => none
    | .running, _ => some { s with submitted := s.submitted ++ [r], pending := s.pending ++ [r] }
    | _, _ => none
  | .loopNow => some { s with signed := true }
  | .stop => if s.mpc = .running then some { s with stopFlag := true, mpc := .stopped } else none
  | .setExit => if s.mpc = .stopped then some { s with exit := true, mpc := .exiting } else none
  | .join => if s.mpc = .exiting ∧ s.tpc = .ended then some { s with mpc := .joined } else none
  | .thread => threadStep s
  | .complete k =>
    match s.tpc with
    | .top fin => if s.stopFlag then none else callback s fin k
    | .iter fin => callback s fin k
    | _ => none

/-- A history. -/
def runs : List Act → St → Option St
  | [], s => some s
  | a :: as, s => (step s a).bind (runs as)

/-- What `end` does after `join`, uvbase.h 183-187, and `check_exception`, 161-170: `check` is set in the destructor (190-193), `unwinding`
is `std::uncaught_exception()`. The destructor may not throw (destructors are `noexcept` unless declared otherwise). -/
inductive Outcome
  | returns | throws (id : Nat) | terminate
deriving DecidableEq, Repr

/-- `end(check)`, called by the user (`check = false`) or by the destructor (`check = true`), uvbase.h 176-193. -/
def endResult (s : St) (check unwinding : Bool) : Outcome :=
  if check ∧ unwinding then .returns
  else match s.exc with
    | none => .returns
    | some id => if check then .terminate else .throws id

end Verif.LoopThread
