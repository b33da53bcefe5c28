import Verif.BitStream.Model
import Verif.FileAsync.Model

/-
Model of reading a file through `bitstream_base` (src/mg/core/bitstream.h): a buffer and a shadow buffer of `size` bytes each, which is filled by a
read that is under way while the buffer is used. The storage is a `file_bitstream` (asynchronous, file.h 138-178) or a `sync_file_bitstream`
(file.h 180-277).

Simplifications: positions and counters are natural numbers (files below 2^61 bytes, buffers below 2^29); reads do not fail and give all there is (see the module FileAsync
for `cfile`); `wait()` (bitstream.h 281-291) returns when the read that is under way has been answered (no time out, see C39 for the event);
`memcpy` of overlapping ranges is taken as `memmove` (line 1260; with 8 bytes and more the ranges do not overlap).
-/
namespace Verif.FileReader
open Verif.BitStream (Byte Word Mem RErr tmaskTable)

/-- file_bitstream or sync_file_bitstream. -/
inductive Kind | sync | async
  deriving DecidableEq

/-- src/mg/core/bitstream.h 260-279: the members `_buf`, `_buf_len`, `_cur_bit`, `_tot_bits`, `_buf_size`, `_shadow_buf`, `_shadow_len`, `_load_shadow`,
and the storage: the file, its position, the end of file indicator of a `FILE`, and the data of a read that is not answered yet (`_pending_read`).
`sched` says at each look at `_shadow_len` (numbered by `tick`) whether the answer has come before it: all schedules. -/
structure St where
  kind : Kind
  size : Nat
  buf : Mem
  bufLen : Nat
  cur : Nat
  tot : Nat
  shadow : Mem
  shadowLen : Nat
  loadShadow : Bool
  file : List Byte
  pos : Nat
  feof : Bool
  pending : Option (List Byte)
  sched : Nat → Bool
  tick : Nat

/-- `eof()` of the storage: file.h 130-132 (cfile) and 232-234 (feof). -/
def St.eof (s : St) : Bool :=
  match s.kind with
  | .sync => s.feof
  | .async => Verif.FileAsync.eof s.file.length s.pos

/-- `memcpy(to + at, data, data.size())`. -/
def store (m : Mem) (at_ : Nat) (data : List Byte) : Mem :=
  fun i => if at_ ≤ i ∧ i < at_ + data.length then data.getD (i - at_) 0 else m i

/-- src/mg/core/bitstream.h 1239-1289: `read_cb`. -/
def readCb (s : St) (data : List Byte) : St :=
  if s.loadShadow then
    if data.length ≠ 0 then
      let m : Mem := if s.shadowLen ≠ 0 then (fun i => if i < s.shadowLen then s.shadow (s.size - s.shadowLen + i) else s.shadow i) else s.shadow
      { s with shadow := store m s.shadowLen data, shadowLen := s.shadowLen + data.length, pending := none }
    else { s with pending := none }
  else { s with buf := store s.buf s.bufLen data, bufLen := s.bufLen + data.length, pending := none }

/-- src/mg/core/bitstream.h 281-291: `wait`. -/
def wait (s : St) : St :=
  match s.pending with
  | none => s
  | some d => readCb s d

/-- Between two steps of the reader the answer may come. -/
def look (s : St) : St :=
  if s.sched s.tick then { wait s with tick := s.tick + 1 } else { s with tick := s.tick + 1 }

/-- `read` of the storage: file.h 215-224 (`fread`, answered at once), file.h 144-151 and file.cpp 405-469 (position moved at once, answered later). -/
def storageRead (s : St) (n : Nat) : St :=
  let data := (s.file.drop s.pos).take n
  match s.kind with
  | .sync => readCb { s with pos := s.pos + data.length, feof := s.feof || decide (data.length < n) } data
  | .async => { s with pos := s.pos + Verif.FileAsync.advance s.file.length s.pos n, pending := some data }

/-- src/mg/core/bitstream.h 293-315: `internal_read`. -/
def internalRead (s : St) (n : Nat) (async : Bool) : St :=
  if s.eof then s
  else
    let s := storageRead (wait s) n
    if async then s else wait s

/-- src/mg/core/bitstream.h 363-384: `reload`. -/
def reload (s : St) : St :=
  let s := { wait s with bufLen := 0, shadowLen := 0, cur := 0, loadShadow := false }
  let s := internalRead s s.size false
  internalRead { s with loadShadow := true } s.size true

/-- src/mg/core/bitstream.h 386-400 (`init`), 521-543 (`create`), TBitstream.h 262-266 and 289-293 (`open`): a reader at the start of a file. `junk` and
`junk'` are the contents of the new buffers and of the memory after them. -/
def create (kind : Kind) (size : Nat) (file : List Byte) (junk junk' : Mem) (sched : Nat → Bool) : St :=
  reload { kind, size, buf := junk, bufLen := 0, cur := 0, tot := 0, shadow := junk', shadowLen := 0, loadShadow := false, file, pos := 0, feof := false,
           pending := none, sched, tick := 0 }

/-- src/mg/core/bitstream.h 566-574: `atend`, `eof()` of the stream. -/
def atend (s : St) : Bool × St :=
  let s := look s
  (s.eof && decide (s.shadowLen = 0) && decide (8 * s.bufLen ≤ s.cur), s)

/-- src/mg/core/bitstream.h 1181-1230: the middle of `fill_buf`: the unread bytes go to the start of the buffer, and bytes of the shadow buffer after them. -/
def moveUp (s : St) : Except RErr St :=
  let n := s.cur / 8
  if s.bufLen < n then .error .ub
  else
    let u := s.bufLen - n
    let k := if s.shadowLen > n then n else s.shadowLen
    .ok { s with
      buf := fun i => if i < u then s.buf (i + n) else if i < u + k then s.shadow (i - u) else if i < u + n then 0 else s.buf i
      cur := s.cur % 8, bufLen := u + k, shadowLen := s.shadowLen - k }

/-- src/mg/core/bitstream.h 1162-1237: `fill_buf`. -/
def fillBuf (s : St) : Except RErr St :=
  let s := look s
  if s.shadowLen = 0 ∧ s.eof = true then .error .endOfData
  else
    let s := if s.shadowLen ≠ s.size then wait s else s
    match moveUp s with
    | .error e => .error e
    | .ok s => .ok (internalRead { s with loadShadow := true } (s.size - s.shadowLen) true)

/-- src/mg/core/bitstream.h 1327-1341: the rest of `_nextbits`: `n` bits from bit `cur` of the memory on. -/
def extract (mem : Mem) (cur n : Nat) : Except RErr Word :=
  match tmaskTable[n]? with
  | none => .error .invalidInput
  | some m =>
    if n + cur % 8 = 0 then .error .ub       -- x >> 32
    else
      let i := cur / 8
      let x : Word := ((mem i).setWidth 32 <<< 24) ||| ((mem (i + 1)).setWidth 32 <<< 16) |||
        ((mem (i + 2)).setWidth 32 <<< 8) ||| (mem (i + 3)).setWidth 32
      if cur % 8 + n ≤ 32 then .ok ((x >>> (32 - (cur % 8 + n))) &&& m)
      else
        let k := cur % 8 + n - 32
        .ok (((x <<< k) ||| ((mem (i + 4)).setWidth 32 >>> (8 - k))) &&& m)

/-- The buffer of src/mg/core/bitstream.h 1320-1325, filled if the bits are not there. -/
def ensure (s : St) (n : Nat) : Except RErr St :=
  if s.cur + n > s.bufLen * 8 then fillBuf s else .ok s

/-- src/mg/core/bitstream.h 1309-1343: `_nextbits`. -/
def nextbits (s : St) (n : Nat) : Except RErr (Word × St) :=
  if n > 32 then .error .invalidInput
  else
    match ensure s n with
    | .error e => .error e
    | .ok s =>
      match extract s.buf s.cur n with
      | .error e => .error e
      | .ok x => .ok (x, s)

/-- src/mg/core/bitstream.h 408-418: `_getbits`. -/
def getbits (s : St) (n : Nat) : Except RErr (Word × St) :=
  match nextbits s n with
  | .error e => .error e
  | .ok (x, s) => .ok (x, { s with cur := s.cur + n, tot := s.tot + n })

/-- The bytes of the buffer from `used` on. -/
def slice (m : Mem) (used n : Nat) : List Byte := (List.range n).map fun i => m (used + i)

/-- "reload buffer if needed": `if (!atend()) _nextbits(32)`, src/mg/core/bitstream.h 1000-1007 and 1025-1026; `true` if at the end. -/
def turn (s : St) : Except RErr (Bool × St) :=
  match atend s with
  | (true, s) => .ok (true, s)
  | (false, s) =>
    match nextbits s 32 with
    | .error e => .error e
    | .ok (_, s) => .ok (false, s)

/-- src/mg/core/bitstream.h 971-1031: `__read`. -/
def readOnce (s : St) (n : Nat) : Except RErr (List Byte × St) :=
  let used := s.cur / 8
  let available := s.bufLen - used
  if available > n then
    let data := slice s.buf used n
    match nextbits { s with cur := s.cur + 8 * n, tot := s.tot + 8 * n } 32 with
    | .error e => .error e
    | .ok (_, s) => .ok (data, s)
  else
    let data := slice s.buf used available
    match turn { s with cur := s.cur + 8 * available, tot := s.tot + 8 * available } with
    | .error e => .error e
    | .ok (true, s) => .ok (data, s)
    | .ok (false, s) =>
      let todo := if n - available > s.bufLen then s.bufLen else n - available
      let more := slice s.buf 0 todo
      match turn { s with cur := s.cur + 8 * todo, tot := s.tot + 8 * todo } with
      | .error e => .error e
      | .ok (_, s) => .ok (data ++ more, s)

/-- src/mg/core/bitstream.h 1035-1064: `_read`; `first` is `done == 0`. The loop ends when there is nothing left to read or at the end; every round but the first
reads something, so that `n + 1` rounds are enough (`read_rounds`). -/
def readLoop : Nat → Bool → St → Nat → Except RErr (List Byte × St)
  | 0, _, s, _ => .ok ([], s)
  | fuel + 1, first, s, n =>
    if n = 0 then .ok ([], s)
    else
      match atend s with
      | (true, s) => .ok ([], s)
      | (false, s) =>
        match readOnce (if first then s else wait s) n with
        | .error e => .error e
        | .ok (data, s) =>
          match readLoop fuel (first && decide (data.length = 0)) s (n - data.length) with
          | .error e => .error e
          | .ok (rest, s) => .ok (data ++ rest, s)

def readBytes (s : St) (n : Nat) : Except RErr (List Byte × St) := readLoop (n + 1) true s n

/-- What a program asks for: the next field of `n` bits or the next `n` bytes. -/
inductive Op
  | bits (n : Nat)
  | bytes (n : Nat)

/-- What it gets. -/
inductive Out
  | word (n : Nat) (x : Word)
  | data (d : List Byte)

/-- One call. -/
def step (s : St) : Op → Except RErr (Out × St)
  | .bits n =>
    match getbits s n with
    | .error e => .error e
    | .ok (x, s) => .ok (.word n x, s)
  | .bytes n =>
    match readBytes s n with
    | .error e => .error e
    | .ok (d, s) => .ok (.data d, s)

/-- Calls one after another: what they gave, the exception that ended them if there was one, and the state otherwise. -/
def run : St → List Op → List Out × Except RErr St
  | s, [] => ([], .ok s)
  | s, op :: ops =>
    match step s op with
    | .error e => ([], .error e)
    | .ok (o, s) =>
      let r := run s ops
      (o :: r.1, r.2)

end Verif.FileReader
