/-
Model of the bit level reader / writer of mediagoom/mg.
Sources: /repo/src/mg/core/bitstream.h (bitstream_base), TBitstream.h (fixed_memory_read, fixed_memory_write).

Memory is a function from byte index (relative to `_buf`) to bytes, so that accesses past the allocated
`size` bytes can be expressed: `hi` records one past the highest index ever accessed.
Undefined behaviour of the C++ code (mask table overrun, shift by the word width) is the outcome `none`.
The `_ASSERTE` lines are debug only and are not modelled.
-/
namespace Verif.BitStream

abbrev Byte := BitVec 8
abbrev Word := BitVec 32
abbrev Mem := Nat → Byte

/-- `tmask`, bitstream.h 213-223. -/
def tmaskTable : List Word :=
  [0x00000000, 0x00000001, 0x00000003, 0x00000007,
   0x0000000f, 0x0000001f, 0x0000003f, 0x0000007f,
   0x000000ff, 0x000001ff, 0x000003ff, 0x000007ff,
   0x00000fff, 0x00001fff, 0x00003fff, 0x00007fff,
   0x0000ffff, 0x0001ffff, 0x0003ffff, 0x0007ffff,
   0x000fffff, 0x001fffff, 0x003fffff, 0x007fffff,
   0x00ffffff, 0x01ffffff, 0x03ffffff, 0x07ffffff,
   0x0fffffff, 0x1fffffff, 0x3fffffff, 0x7fffffff,
   0xffffffff]

/-- `ctmask`, bitstream.h 227-237. -/
def ctmaskTable : List Word :=
  [0xffffffff, 0xfffffffe, 0xfffffffc, 0xfffffff8,
   0xfffffff0, 0xffffffe0, 0xffffffc0, 0xffffff80,
   0xffffff00, 0xfffffe00, 0xfffffc00, 0xfffff800,
   0xfffff000, 0xffffe000, 0xffffc000, 0xffff8000,
   0xffff0000, 0xfffe0000, 0xfffc0000, 0xfff80000,
   0xfff00000, 0xffe00000, 0xffc00000, 0xff800000,
   0xff000000, 0xfe000000, 0xfc000000, 0xf8000000,
   0xf0000000, 0xe0000000, 0xc0000000, 0x80000000,
   0x00000000]

/-- `stmask`, bitstream.h 240-250. -/
def stmaskTable : List Word :=
  [0x00000000, 0x00000001, 0x00000002, 0x00000004,
   0x00000008, 0x00000010, 0x00000020, 0x00000040,
   0x00000080, 0x00000100, 0x00000200, 0x00000400,
   0x00000800, 0x00001000, 0x00002000, 0x00004000,
   0x00008000, 0x00010000, 0x00020000, 0x00040000,
   0x00080000, 0x00100000, 0x00200000, 0x00400000,
   0x00800000, 0x01000000, 0x02000000, 0x04000000,
   0x08000000, 0x10000000, 0x20000000, 0x40000000,
   0x80000000]

/-- Write side of `bitstream_base` (bitstream.h 260-279): `size` = `_buf_size`, `mem` = memory at `_buf`,
`cur` = `_cur_bit`, `tot` = `_tot_bits`, `out` = the bytes given to the storage so far, in order
(`internal_write`, 317-359, hands them over unchanged), `hi` = one past the highest index accessed. -/
structure WState where
  size : Nat
  mem : Mem
  cur : Nat
  tot : Nat
  out : List Byte
  hi : Nat

/-- `create`/`init`/`reload` with `load = false` (bitstream.h 364-400, 524-543): a zeroed buffer of `size`
bytes; `beyond` is whatever the memory after the allocation holds. -/
def wInit (size : Nat) (beyond : Mem) : WState :=
  { size, mem := fun i => if i < size then 0 else beyond i, cur := 0, tot := 0, out := [], hi := 0 }

/-- `_buf[i] |= b` (bitstream.h 455-458, 463-467). -/
def orByte (s : WState) (i : Nat) (b : Byte) : WState :=
  { s with mem := fun j => if j = i then s.mem j ||| b else s.mem j, hi := max s.hi (i + 1) }

/-- `_flush_buf`, bitstream.h 421-437. -/
def flushBuf (s : WState) : WState :=
  let l := s.cur / 8
  let out := s.out ++ (List.range l).map s.mem
  if s.cur % 8 ≠ 0 then
    { s with out := out, cur := s.cur % 8, hi := max s.hi (l + 1),
             mem := fun j => if j = 0 then s.mem l else if j < s.size then 0 else s.mem j }
  else
    { s with out := out, cur := s.cur % 8, hi := max s.hi l,
             mem := fun j => if j < s.size then 0 else s.mem j }

/-- The part of `_putbits` after the mask and the buffer check, bitstream.h 450-473.
`delta = 32 - n - (_cur_bit % 8)`; the test `delta >= 0` is written `n + cur % 8 ≤ 32`.
A shift by `delta = 32` (n = 0 at a byte boundary) is undefined. -/
def putCore (s : WState) (value val : Word) (n : Nat) : Option WState :=
  let idx := s.cur / 8
  if n + s.cur % 8 = 0 then none
  else if n + s.cur % 8 ≤ 32 then
    let tmp := val <<< (32 - n - s.cur % 8)
    let s1 := orByte s idx ((tmp >>> 24).setWidth 8)
    let s2 := orByte s1 (idx + 1) ((tmp >>> 16).setWidth 8)
    let s3 := orByte s2 (idx + 2) ((tmp >>> 8).setWidth 8)
    let s4 := orByte s3 (idx + 3) (tmp.setWidth 8)
    some { s4 with cur := s.cur + n, tot := s.tot + n }
  else
    let k := n + s.cur % 8 - 32                    -- -delta
    let tmp := val >>> k
    let s1 := orByte s idx ((tmp >>> 24).setWidth 8)
    let s2 := orByte s1 (idx + 1) ((tmp >>> 16).setWidth 8)
    let s3 := orByte s2 (idx + 2) ((tmp >>> 8).setWidth 8)
    let s4 := orByte s3 (idx + 3) (tmp.setWidth 8)
    let s5 := orByte s4 (idx + 4) ((value <<< (8 - k)).setWidth 8)
    some { s5 with cur := s.cur + n, tot := s.tot + n }

/-- `_putbits`, bitstream.h 439-476. `_buf_size << 3` is a 32 bit expression. `n` outside the mask table is
undefined behaviour. -/
def putbits (s : WState) (value : Word) (n : Nat) : Option WState :=
  match tmaskTable[n]? with
  | none => none
  | some m =>
    let val := value &&& m
    let s := if s.cur + n > s.size * 8 % 2 ^ 32 then flushBuf s else s
    putCore s value val n

/-- `_flush`, bitstream.h 478-486. -/
def flush (s : WState) : WState := if s.cur > 7 then flushBuf s else s

/-- `_write_direct`, bitstream.h 880-899 (`size << 3` is not allowed to overflow here: a single write is
shorter than 2^29 bytes). -/
def writeDirect (s : WState) (bs : List Byte) : WState :=
  let s := flush s
  { s with out := s.out ++ bs, tot := s.tot + bs.length * 8 }

/-- Calls a user of the writer makes. -/
inductive WOp where
  | put (value : Word) (n : Nat)
  | flush
  | bytes (bs : List Byte)

/-- One call (`putbits`, `flush`, `write`; bitstream.h 1121-1123, 1150-1153). -/
def wStep (s : WState) : WOp → Option WState
  | .put v n => putbits s v n
  | .flush => some (flush s)
  | .bytes bs => some (writeDirect s bs)

def wRun (s : WState) : List WOp → Option WState
  | [] => some s
  | op :: ops => (wStep s op).bind (fun s => wRun s ops)

/-- `_little_putbits`, bitstream.h 627-643: `bytes` whole bytes, least significant first, then the left over
bits. `i` counts from 0 up to `n >> 3`. -/
def littlePutLoop (s : WState) (value : Word) : (i bytes : Nat) → Option WState
  | _, 0 => some s
  | i, b + 1 =>
    match putbits s ((value >>> (8 * i)) &&& 0xff) 8 with
    | none => none
    | some s => littlePutLoop s value (i + 1) b

def littlePutbits (s : WState) (value : Word) (n : Nat) : Option WState :=
  match littlePutLoop s value 0 (n / 8) with
  | none => none
  | some s =>
    if n % 8 > 0 then
      match tmaskTable[n % 8]? with
      | none => none
      | some m => putbits s ((value >>> (8 * (n / 8))) &&& m) (n % 8)
    else some s

/-- Exceptions of the reader (bitstream.h 83-113) and undefined behaviour. -/
inductive RErr where
  | invalidInput | endOfData | ub
deriving DecidableEq, Repr

/-- Read side over `fixed_memory_bitstream` (TBitstream.h 98-109): the buffer has the size of the memory, the
first synchronous `internal_read` loads all of it (`len` = `_buf_len`) and the shadow buffer stays empty, with
the storage at eof. -/
structure RState where
  mem : Mem
  len : Nat
  cur : Nat
  tot : Nat

/-- `fixed_memory_bitstream` constructor. `beyond` is whatever follows the buffer in memory. -/
def rInit (bs : List Byte) (beyond : Mem) : RState :=
  { mem := fun i => match bs[i]? with | some b => b | none => beyond i, len := bs.length, cur := 0, tot := 0 }

/-- `_nextbits`, bitstream.h 1309-1343, in the situation of `fixed_memory_bitstream`: `fill_buf` (1164-1165)
throws EndOfData because the shadow is empty and the storage is at eof. -/
def nextbits (s : RState) (n : Nat) : Except RErr Word :=
  match tmaskTable[n]? with
  | none => .error .invalidInput
  | some m =>
    if s.cur + n > s.len * 8 % 2 ^ 32 then .error .endOfData
    else if n + s.cur % 8 = 0 then .error .ub       -- x >> 32
    else
      let i := s.cur / 8
      let x : Word := ((s.mem i).setWidth 32 <<< 24) ||| ((s.mem (i + 1)).setWidth 32 <<< 16) |||
        ((s.mem (i + 2)).setWidth 32 <<< 8) ||| (s.mem (i + 3)).setWidth 32
      if s.cur % 8 + n ≤ 32 then .ok ((x >>> (32 - (s.cur % 8 + n))) &&& m)
      else
        let k := s.cur % 8 + n - 32                   -- -s
        .ok (((x <<< k) ||| ((s.mem (i + 4)).setWidth 32 >>> (8 - k))) &&& m)

/-- `_getbits`, bitstream.h 408-418. -/
def getbits (s : RState) (n : Nat) : Except RErr (Word × RState) :=
  match nextbits s n with
  | .error e => .error e
  | .ok x => .ok (x, { s with cur := s.cur + n, tot := s.tot + n })

/-- `_sgetbits`, bitstream.h 488-495. -/
def sgetbits (s : RState) (n : Nat) : Except RErr (Word × RState) :=
  match getbits s n with
  | .error e => .error e
  | .ok (x, s) =>
    if n > 1 ∧ x &&& stmaskTable.getD n 0 ≠ 0 then .ok (x ||| ctmaskTable.getD n 0, s) else .ok (x, s)

/-- `_skipbits`, bitstream.h 904-968, for the fixed memory reader: within the buffer the cursor moves, past the
end it stops at the end (lines 949-959, since `has_bits` is false at eof). -/
def skipbits (s : RState) (n : Nat) : RState :=
  if s.len * 8 - s.cur < n then
    { s with cur := s.cur + (s.len * 8 - s.cur), tot := s.tot + (s.len * 8 - s.cur) }
  else { s with cur := s.cur + n, tot := s.tot + n }

/-- Reading a list of fields one after another. -/
def getMany (s : RState) : List Nat → Except RErr (List Word × RState)
  | [] => .ok ([], s)
  | n :: ns =>
    match getbits s n with
    | .error e => .error e
    | .ok (x, s) =>
      match getMany s ns with
      | .error e => .error e
      | .ok (xs, s) => .ok (x :: xs, s)

/-- `_little_getbits`, bitstream.h 645-663. -/
def littleGetLoop (s : RState) (x : Word) : (i bytes : Nat) → Except RErr (Word × RState)
  | _, 0 => .ok (x, s)
  | i, b + 1 =>
    match getbits s 8 with
    | .error e => .error e
    | .ok (y, s) => littleGetLoop s (x ||| (y <<< (8 * i))) (i + 1) b

def littleGetbits (s : RState) (n : Nat) : Except RErr (Word × RState) :=
  match littleGetLoop s 0 0 (n / 8) with
  | .error e => .error e
  | .ok (x, s) =>
    if n % 8 > 0 then
      match getbits s (n % 8) with
      | .error e => .error e
      | .ok (y, s) => .ok (x ||| (y <<< (8 * (n / 8))), s)
    else .ok (x, s)

end Verif.BitStream
