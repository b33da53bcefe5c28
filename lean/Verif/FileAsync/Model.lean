import Mathlib.Data.List.Basic

/-
Model of the asynchronous file `cfile` (src/mg/core/file.cpp, src/mg/core/file.h). The requests go to the thread pool of libuv, which carries them
out and calls `uv_file_cb` for each of them, one at a time on the loop thread, in any order. Positions and sizes are natural numbers (files under
2^63 bytes); a request is carried out as a whole or fails.
-/
namespace Verif.FileAsync

abbrev Bytes := List UInt8

/-- src/mg/core/file.h 41-56: a `struct_file_cb` with its request. `data` is what a read finds at its position. -/
structure Req where
  seq : Nat
  read : Bool
  data : Bytes
  deriving DecidableEq

/-- A request of which libuv reports the completion: `failed` stands for `req->result < 0`. -/
structure Done where
  req : Req
  failed : Bool
  deriving DecidableEq

/-- A handler has been called: `call_cb` or `call_er` of the request `seq`. -/
structure Answer where
  seq : Nat
  data : Bytes
  error : Bool
  deriving DecidableEq

/-- src/mg/core/file.cpp 52-96: which request is to be served now. A read that is too early goes to the front of the list of early reads, and the first
one in that list whose turn it is is taken out of it. -/
def pick (served : Nat) (fwd : List Done) (d : Done) : Option (Done × List Done) :=
  if served < d.req.seq ∧ d.req.read = true then
    match (d :: fwd).find? (fun x => x.req.seq ≤ served) with
    | none => none
    | some t => some (t, (d :: fwd).erase t)
  else some (d, fwd)

theorem pick_length {served : Nat} {fwd : List Done} {d f : Done} {rest : List Done} (h : pick served fwd d = some (f, rest)) :
    rest.length = fwd.length := by
  unfold pick at h
  split at h
  · split at h
    · cases h
    · rename_i t ht
      cases h
      have := List.length_erase_of_mem (List.mem_of_find?_eq_some ht)
      simpa using this
  · cases h; rfl

/-- src/mg/core/file.cpp 29-162: `uv_file_cb`. `served` is `*_p_served` and `fwd` the list `*_p_forward`. The request to be served is `f`; the result that
is looked at is the one of `d`, with which the function was called. The front of the list, if there is one, is taken out and processed in the
same way after the handler. `fuel` bounds the recursion; the list gets shorter every time, so that its length is enough (the case 0 is not
reached, see `complete_more`). -/
def completeLoop : Nat → Nat → List Done → Done → Nat × List Done × List Answer
  | fuel, served, fwd, d =>
    match pick served fwd d with
    | none => (served, d :: fwd, [])
    | some (f, []) => (served + 1, [], [⟨f.req.seq, f.req.data, d.failed⟩])
    | some (f, t :: rest) =>
      match fuel with
      | 0 => (served + 1, t :: rest, [⟨f.req.seq, f.req.data, d.failed⟩])
      | fuel + 1 =>
        let r := completeLoop fuel (served + 1) rest t
        (r.1, r.2.1, ⟨f.req.seq, f.req.data, d.failed⟩ :: r.2.2)

def complete (served : Nat) (fwd : List Done) (d : Done) : Nat × List Done × List Answer := completeLoop fwd.length served fwd d

/-- What a program does with a file, and what libuv does. -/
inductive Ev
  /-- `read(size)` -/
  | read (size : Nat)
  /-- any other asynchronous request (`open`, `write`, `close`); it moves the position by `n` -/
  | other (n : Nat)
  /-- `set_position` -/
  | seek (p : Nat)
  /-- libuv has completed the request with number `seq` -/
  | complete (seq : Nat) (failed : Bool)

/-- src/mg/core/file.h 58-99: the members. `pending` are the requests libuv has not completed, `answers` the handlers called so far. -/
structure Sys where
  position : Nat
  outstanding : Nat
  served : Nat
  fwd : List Done
  pending : List Req
  answers : List Answer

def Sys.init : Sys := ⟨0, 0, 0, [], [], []⟩

/-- src/mg/core/file.h 117-123: `size()`; `stSize` is `_file_stat.st_size`. -/
def fileSize (stSize position : Nat) : Nat := if stSize ≤ position ∧ 0 < position then position else stSize

/-- src/mg/core/file.h 130-132: `eof()`. -/
def eof (stSize position : Nat) : Bool := if fileSize stSize position ≠ 0 then decide (fileSize stSize position ≤ position) else true

/-- src/mg/core/file.cpp 434-435: how far a read moves the position. -/
def advance (stSize position size : Nat) : Nat :=
  if fileSize stSize position < position + size then fileSize stSize position - position else size

/-- src/mg/core/file.cpp 405-469 (`read`), 352-403 (`write`), 277-350 (`close`), src/mg/core/file.h 88-99 (`do_outstanding`): one event; `none` if libuv
completes a request that it does not have. The read is carried out with the size that was asked for (line 416 sets the length of the buffer before
the size is cut). The file is not changed by others, and by no write that overlaps the reads. -/
def step (file : Bytes) (s : Sys) : Ev → Option Sys
  | .read size =>
    some { s with position := s.position + advance file.length s.position size, outstanding := s.outstanding + 1,
                  pending := ⟨s.outstanding, true, (file.drop s.position).take size⟩ :: s.pending }
  | .other n =>
    some { s with position := s.position + n, outstanding := s.outstanding + 1, pending := ⟨s.outstanding, false, []⟩ :: s.pending }
  | .seek p => some { s with position := p }
  | .complete seq failed =>
    match s.pending.find? (fun r => r.seq = seq) with
    | none => none
    | some r =>
      let q := complete s.served s.fwd ⟨r, failed⟩
      some { s with served := q.1, fwd := q.2.1, pending := s.pending.erase r, answers := s.answers ++ q.2.2 }

/-- A history. -/
def run (file : Bytes) : Sys → List Ev → Option Sys
  | s, [] => some s
  | s, e :: es =>
    match step file s e with
    | none => none
    | some s' => run file s' es

/-! ### Writes -/

/-- The contents of a file: the byte at every offset, and the length. -/
structure Disk where
  byte : Nat → UInt8
  length : Nat

def Disk.empty : Disk := ⟨fun _ => 0, 0⟩

/-- A write that has been issued: the position at that time and a copy of the bytes. -/
structure Write where
  pos : Nat
  data : Bytes

/-- The write is carried out (`pwrite`). -/
def Disk.write (d : Disk) (w : Write) : Disk :=
  ⟨fun i => if w.pos ≤ i ∧ i < w.pos + w.data.length then w.data.getD (i - w.pos) 0 else d.byte i, max d.length (w.pos + w.data.length)⟩

/-- What a program that writes does. -/
inductive WriteOp
  | write (data : Bytes)
  | seek (p : Nat)

/-- src/mg/core/file.cpp 352-403: the writes that are issued, from a position. -/
def issue : Nat → List WriteOp → List Write
  | _, [] => []
  | p, .write data :: ops => ⟨p, data⟩ :: issue (p + data.length) ops
  | _, .seek p :: ops => issue p ops

/-! ### copy_stream -/

/-- src/mg/core/bitstream.cpp 199-208: the loop of `copy_stream`: how many reads of `chunk` bytes it makes from position `pos` of a source of `len` bytes
(`fuel` bounds the loop; `len + 1` is enough because every read moves the position). The waits of the loop only limit the number of requests
under way, and do not change the reads that are made. -/
def copyReads (len chunk endpos : Nat) : Nat → Nat → Nat
  | 0, _ => 0
  | fuel + 1, pos =>
    if eof len pos = false ∧ (endpos = 0 ∨ pos < endpos) then 1 + copyReads len chunk endpos fuel (pos + advance len pos chunk) else 0

/-- src/mg/core/bitstream.cpp 141-156: `read_cb` writes what has been read, at the position of the destination; these are the writes issued for the
reads that have been answered. -/
def copyWrites (dst : Nat) (s : Sys) : List Write := issue dst (s.answers.map fun a => .write a.data)

end Verif.FileAsync
