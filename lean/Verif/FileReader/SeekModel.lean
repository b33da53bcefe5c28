import Verif.FileReader.Model

/-
Model of moving in a file that is read through `bitstream_base` (src/mg/core/bitstream.h): `set_position`, `skipbits`, `align`, and of `CMP4::skipbytes`
(src/mg/media/mp4parse.h).

`_load_lock` is held by the reader during these calls; an answer of the disk is delivered by another thread, which takes the same lock
(`read_cb`, line 1251), so that waiting for an answer with the lock held ends with the exception Timeout (bitstream.h 286-288). The lock is recursive (thread.cpp 64), so that a
synchronous file, which answers on the thread of the reader, is not affected.
-/
namespace Verif.FileReader
open Verif.BitStream (Byte Word Mem RErr)

/-- The exceptions. -/
inductive SErr
  | reader (e : RErr)
  | timeout
  deriving DecidableEq

/-- `_nextbits(32)` with the lock held: it waits for an answer that is under way when the buffer has to be filled (line 1169). A read is only under way
when the shadow buffer is not full. -/
def switchBuffer (s : St) : Except SErr St :=
  if s.pending.isSome ∧ s.cur + 32 > s.bufLen * 8 then .error .timeout
  else
    match nextbits s 32 with
    | .error e => .error (.reader e)
    | .ok (_, s) => .ok s

/-- `_cur_bit += n; _tot_bits += n`. -/
def ahead (s : St) (n : Nat) : St := { s with cur := s.cur + n, tot := s.tot + n }

/-- `set_position` of the storage: file.h 128 (asynchronous) and file.h 257-259: `fseek`, with the position cut to 32 bits; it clears the end of file indicator. -/
def storageSeek (s : St) (p : Nat) : St :=
  match s.kind with
  | .async => { s with pos := p }
  | .sync => { s with pos := p % 2 ^ 32, feof := false }

/-- src/mg/core/bitstream.h 716-830: the part of `_set_position_read` after the first wait; `locked` is true when the caller holds the lock (`_skipbits`), and
then the reload waits for the first buffer in vain, unless there is nothing to read or the file is synchronous. -/
def seekMoved (locked : Bool) (s : St) (p : Nat) : Except SErr St :=
  let kpos := s.pos - s.bufLen - s.shadowLen
  let pos := kpos + s.cur / 8
  if p < s.pos ∧ kpos ≤ p then
    let available := s.bufLen - s.cur / 8
    let advance := if p > pos then p - pos else 0
    if advance > available then
      match switchBuffer (ahead s (8 * available)) with
      | .error e => .error e
      | .ok s => .ok (ahead s (8 * (advance - available)))
    else if p < pos ∧ kpos ≤ p then
      .ok { s with cur := s.cur - 8 * (pos - p), tot := if s.tot < 8 * (pos - p) then 0 else s.tot - 8 * (pos - p) }
    else .ok (ahead s (8 * advance))
  else if s.eof = true ∧ s.pos < p then
    .ok (if pos < s.pos then ahead s (8 * (s.pos - pos)) else s)
  else if locked = true ∧ s.kind = .async ∧ (s.pending.isSome = true ∨ (storageSeek s p).eof = false) then .error .timeout
  else .ok (reload { storageSeek s p with tot := 8 * p })

/-- src/mg/core/bitstream.h 700-832: `_set_position_read`. -/
def seekWith (locked : Bool) (s : St) (p : Nat) : Except SErr St :=
  let s := if locked then s else look s
  if s.shadowLen = 0 ∧ (s.eof = false ∨ s.pending.isSome = true) then
    if locked = true ∧ s.pending.isSome = true then .error .timeout else seekMoved locked (wait s) p
  else seekMoved locked s p

/-- `set_position` of a stream that is read. -/
def seek (s : St) (p : Nat) : Except SErr St := seekWith false s p

/-- src/mg/core/bitstream.h 686-698: `get_position`. -/
def position (s : St) : Nat := s.tot / 8

/-- src/mg/core/bitstream.h 576-589: `has_bits`. -/
def hasBits (s : St) (n : Nat) : Bool := if s.eof then decide (n ≤ 8 * s.bufLen - s.cur) else true

/-- src/mg/core/bitstream.h 904-968: `_skipbits`. An answer can come before the lock is taken. -/
def skip (s : St) (n : Nat) : Except SErr St :=
  let s := look s
  let available := 8 * s.bufLen - s.cur
  if available < n then
    if available + 8 * s.shadowLen > n then
      match switchBuffer { s with cur := s.cur + available } with
      | .error e => .error e
      | .ok s => .ok { s with cur := s.cur + (n - available), tot := s.tot + n }
    else if hasBits s n then
      let pos := s.tot + n
      match seekWith true s ((pos + n) / 8) with
      | .error e => .error e
      | .ok s => .ok (ahead s (pos % 8))
    else .ok (if (atend s).1 then s else ahead s available)
  else .ok (ahead s n)

/-- The loop of lines 510-513. -/
def alignLoop : Nat → St → Nat → Except SErr St
  | 0, s, _ => .ok s
  | fuel + 1, s, n =>
    if s.tot % n = 0 then .ok s
    else
      match skip s 8 with
      | .error e => .error e
      | .ok s => alignLoop fuel s n

/-- src/mg/core/bitstream.h 497-515: `_align`, for multiples of 8 other than 0. -/
def align (s : St) (n : Nat) : Except SErr St :=
  if s.tot % 8 ≠ 0 then
    match skip s (8 - s.tot % 8) with
    | .error e => .error e
    | .ok s => alignLoop n s n
  else alignLoop n s n

/-- src/mg/media/mp4parse.h 290-309: `CMP4::skipbytes`, by 31 bits (`INT16_MAX / 1024`) at a time; `bits` are still to be skipped. -/
def skipLoop : Nat → St → Nat → Except SErr St
  | 0, s, _ => .ok s
  | fuel + 1, s, bits =>
    if bits > 31 then
      match skip s 31 with
      | .error e => .error e
      | .ok s =>
        match atend s with
        | (true, s) => .ok s
        | (false, s) => skipLoop fuel s (bits - 31)
    else if bits ≠ 0 then skip s bits
    else .ok s

def skipBytes (s : St) (n : Nat) : Except SErr St := skipLoop (8 * n + 1) s (8 * n)

/-- What a program asks for. -/
inductive Call
  | bits (n : Nat)
  | bytes (n : Nat)
  | seek (p : Nat)
  | skip (n : Nat)
  | skipBytes (n : Nat)
  | align (n : Nat)

/-- A call that only moves. -/
def moved (r : Except SErr St) : Except SErr (List Out × St) :=
  match r with
  | .error e => .error e
  | .ok s => .ok ([], s)

/-- A call that reads. -/
def gave (r : Except RErr (Out × St)) : Except SErr (List Out × St) :=
  match r with
  | .error e => .error (.reader e)
  | .ok (o, s) => .ok ([o], s)

/-- One call: what it gives and where it leaves the reader. -/
def call (s : St) : Call → Except SErr (List Out × St)
  | .bits n => gave (step s (.bits n))
  | .bytes n => gave (step s (.bytes n))
  | .seek p => moved (seek s p)
  | .skip n => moved (skip s n)
  | .skipBytes n => moved (skipBytes s n)
  | .align n => moved (align s n)

/-- Calls one after another. -/
def calls : St → List Call → List Out × Except SErr St
  | s, [] => ([], .ok s)
  | s, c :: cs =>
    match call s c with
    | .error e => ([], .error e)
    | .ok (o, s) =>
      let r := calls s cs
      (o ++ r.1, r.2)

end Verif.FileReader
