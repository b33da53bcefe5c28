import Mathlib.Data.List.Basic

/-
Model of the queue on one block of memory, `cfixed_queue` (src/mg/media/fixed_queue.h), and of `grow_queue` (src/mg/media/media_queue.h).
The block is a function from offsets to bytes; the `queue_header` in its first 24 bytes is kept as a record, and any store that would hit it or
leave the block is remembered in `overrun`. An item header is three little-endian 32 bit integers (starter, body_size, next_item_offset); the
`T` of an item is a block of `tsize` bytes. One thread: every public member function runs under one recursive lock
(src/mg/core/thread.cpp 56-80). Integers are unbounded; the theorems ask for sizes below 2^31.
-/
namespace Verif.Queue

/-- The contents of a block of memory. -/
abbrev Mem := Nat → UInt8

/-- A 32 bit integer in memory. -/
def get32 (m : Mem) (off : Nat) : Nat :=
  (m off).toNat + 256 * (m (off + 1)).toNat + 65536 * (m (off + 2)).toNat + 16777216 * (m (off + 3)).toNat

/-- The bytes of a 32 bit integer. -/
def bytes32 (v : Nat) : List UInt8 :=
  [UInt8.ofNat (v % 256), UInt8.ofNat (v / 256 % 256), UInt8.ofNat (v / 65536 % 256), UInt8.ofNat (v / 16777216 % 256)]

/-- A block of bytes in memory. -/
def load (m : Mem) (off n : Nat) : List UInt8 := (List.range n).map fun i => m (off + i)

/-- src/mg/media/fixed_queue.h 56-72: `queue_header` and the block; `first` and `last` are `start_offset` and `end_offset`. -/
structure Ring where
  tsize : Nat
  full : Nat
  first : Nat
  last : Nat
  written : Nat
  deleted : Nat
  mem : Mem
  overrun : Bool

/-- A store into the block. -/
def Ring.store (q : Ring) (off : Nat) (bs : List UInt8) : Ring :=
  { q with
    mem := fun i => if off ≤ i ∧ i < off + bs.length then bs.getD (i - off) 0 else q.mem i
    overrun := q.overrun || decide (off < 24) || decide (q.full < off + bs.length) }

/-- src/mg/media/fixed_queue.h 101-110 and 227-246: `allocate` and `init_header`; the block has arbitrary contents. -/
def allocate (tsize size : Nat) (m : Mem) : Ring :=
  { tsize := tsize, full := size, first := 2 ^ 31 - 1, last := 2 ^ 31 - 1, written := 0, deleted := 0, mem := m, overrun := false }

/-- src/mg/media/fixed_queue.h 487-495: `size`. -/
def Ring.size (q : Ring) : Int := (q.written : Int) - q.deleted

/-- src/mg/media/fixed_queue.h 91-99: `get_item_full_size` of the item at an offset. -/
def Ring.itemSize (q : Ring) (off : Nat) : Nat := 12 + q.tsize + get32 q.mem (off + 4)

/-- src/mg/media/fixed_queue.h 112-132: `get_head_space`. -/
def Ring.headSpace (q : Ring) : Int :=
  if q.written = q.deleted then (q.full : Int) - 24
  else if q.last < q.first then 0
  else (q.first : Int) - 24

/-- src/mg/media/fixed_queue.h 134-169: `get_tail_space`. -/
def Ring.tailSpace (q : Ring) : Int :=
  if q.written = q.deleted then 0
  else (q.full : Int) - q.itemSize q.last - q.last - (if q.last < q.first then (q.full : Int) - q.first else 0)

/-- src/mg/media/fixed_queue.h 179-202: `delete_direct`. -/
def Ring.deleteDirect (q : Ring) : Ring :=
  let r := { q with deleted := q.deleted + 1 }
  if r.size ≠ 0 then { r with first := get32 q.mem (q.first + 8) } else r

/-- src/mg/media/fixed_queue.h 259-273: `pick_next`: the `T`, the length and the body of the next item. -/
def Ring.pick (q : Ring) : List UInt8 × Nat × List UInt8 :=
  let n := get32 q.mem (q.first + 4)
  (load q.mem (q.first + 12) q.tsize, n, load q.mem (q.first + 12 + q.tsize) n)

/-- src/mg/media/fixed_queue.h 275-298: `pop` with a buffer of the given length, or none: what it returns, what it writes to the buffer, and the
queue. -/
def Ring.pop (q : Ring) (buffer : Option Nat) : (List UInt8 × Nat × Option (List UInt8)) × Ring :=
  match buffer with
  | some n => if n ≥ q.pick.2.1 then ((q.pick.1, q.pick.2.1, some q.pick.2.2), q.deleteDirect) else ((q.pick.1, q.pick.2.1, none), q)
  | none => ((q.pick.1, q.pick.2.1, none), q)

/-- src/mg/media/fixed_queue.h 500-507: `clear`. -/
def Ring.clear (q : Ring) : Ring := { q with deleted := q.written }

/-- src/mg/media/fixed_queue.h 324-359: the first loop of `push`: `noSpace` is the virtual `no_space`, `del` the virtual `delete_on_no_space`. `none`
when the fuel runs out. In the body of the loop `tail` is false and `get_head_space() < space`. -/
def makeRoom (noSpace : Ring → Option Ring) (del : Bool) (space : Int) : Nat → Int → Int → Ring → Option Ring
  | 0, _, _, _ => none
  | fuel + 1, beginSpace, beginSize, q =>
    if q.tailSpace < space ∧ q.headSpace < space ∧ q.size ≠ 0 then
      match noSpace q with
      | none => none
      | some q =>
        if del then makeRoom noSpace del space fuel beginSpace beginSize q.deleteDirect
        else if beginSpace = q.tailSpace + q.headSpace ∧ q.size = beginSize then some q
        else makeRoom noSpace del space fuel (q.tailSpace + q.headSpace) q.size q
    else some q

/-- src/mg/media/fixed_queue.h 375-400: the second loop of `push`; false when the item is refused (false or an exception). `missing` and
`available` are the variables of the code. -/
def needRoom (noSpace : Ring → Option Ring) (space : Int) : Nat → Int → Int → Ring → Option (Bool × Ring)
  | 0, _, _, _ => none
  | fuel + 1, missing, available, q =>
    if available < space ∨ (q.tailSpace < space ∧ q.headSpace < space) then
      match noSpace q with
      | none => none
      | some q =>
        if missing = q.tailSpace + q.headSpace then some (false, q)
        else needRoom noSpace space fuel (q.tailSpace + q.headSpace) (q.tailSpace + q.headSpace) q
    else some (true, q)

/-- src/mg/media/fixed_queue.h 405-484: the item is written. `tail` is the variable of the code. -/
def Ring.write (q : Ring) (tail : Bool) (t body : List UInt8) : Ring :=
  let off := if tail ∧ q.size ≠ 0 then q.last + q.itemSize q.last else 24
  let r := q.store off (bytes32 0x200 ++ bytes32 body.length ++ bytes32 (2 ^ 31))
  let r := r.store (off + 12) t
  let r := r.store (off + 12 + q.tsize) body
  let r := if q.size ≠ 0 then r.store (q.last + 8) (bytes32 off) else { r with first := off }
  let r := { r with last := off, written := r.written + 1 }
  if r.written > 2 ^ 31 - 1 - 10 then { r with written := r.written - r.deleted, deleted := 0 } else r

/-- src/mg/media/fixed_queue.h 318: the space an item needs; the sum is unsigned and is converted to `int`. -/
def Ring.spaceOf (q : Ring) (length : Nat) : Int :=
  let n : Nat := (12 + q.tsize + length) % 2 ^ 32
  if n < 2 ^ 31 then n else (n : Int) - 2 ^ 32

/-- src/mg/media/fixed_queue.h 300-485: `push`: whether the item was taken, and the queue. -/
def push (noSpace : Ring → Option Ring) (del : Bool) (fuel : Nat) (q : Ring) (t body : List UInt8) : Option (Bool × Ring) :=
  let space := q.spaceOf body.length
  match makeRoom noSpace del space fuel (q.tailSpace + q.headSpace) q.size q with
  | none => none
  | some q =>
    let tail := decide (q.tailSpace ≥ space)
    if q.tailSpace < space ∧ q.headSpace < space then
      match needRoom noSpace space fuel (q.tailSpace + q.headSpace) (q.tailSpace + q.headSpace) q with
      | some (true, q) => some (true, q.write tail t body)
      | r => r
    else some (true, q.write tail t body)

/-- src/mg/media/fixed_queue.h 171-177: `push` of the fixed queue. -/
def Ring.push (q : Ring) (del : Bool) (fuel : Nat) (t body : List UInt8) : Option (Bool × Ring) := Verif.Queue.push some del fuel q t body

/-- src/mg/media/media_queue.h 155-165: the loop that moves the items to the new block. -/
def copyLoop (noSpace : Ring → Option Ring) (pushFuel : Nat) : Nat → Ring → Ring → Option Ring
  | 0, _, _ => none
  | fuel + 1, owner, q =>
    if owner.size ≠ 0 then
      match push noSpace false pushFuel q owner.pick.1 owner.pick.2.2 with
      | some (true, q) => copyLoop noSpace pushFuel fuel owner.deleteDirect q
      | _ => none
    else some q

/-- src/mg/media/media_queue.h 100-173: `no_space` of the growing queue; the allocation is assumed to succeed. `fresh n` is what a new block of
`n` bytes contains. `overrun` remembers stores outside any of the blocks. -/
def regrow (fresh : Nat → Mem) (pushFuel copyFuel : Nat) : Nat → Ring → Option Ring
  | 0, _ => none
  | depth + 1, q => copyLoop (regrow fresh pushFuel copyFuel depth) pushFuel copyFuel q
    { allocate q.tsize (q.full * 2) (fresh (q.full * 2)) with overrun := q.overrun }

/-- src/mg/media/media_queue.h 82-173: `push` of the growing queue. -/
def Ring.growPush (q : Ring) (fresh : Nat → Mem) (fuel : Nat) (t body : List UInt8) : Option (Bool × Ring) :=
  Verif.Queue.push (regrow fresh fuel fuel fuel) false fuel q t body

end Verif.Queue
