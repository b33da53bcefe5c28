import Verif.BitStream.Props
import Verif.Buffer.Props
/-
Model of the MP4 box writer `CMP4W` (/repo/src/mg/media/mp4write.h 73-194) on top of the bit writer over the
memory storage (`write_memory_bitstream`, /repo/src/mg/media/TBitstream.h 215-240).
-/
namespace Verif.Box
open Verif.BitStream (Byte Word Mem WState)
open Verif.Buffer (MemFile)

/-- `write_memory_bitstream`: bit writer state and its storage. -/
structure WM where
  w : WState
  m : MemFile Byte

/-- Constructor `write_memory_bitstream(buf_len, size)`, TBitstream.h 221-225. -/
def WM.mk0 (bufLen size : Nat) (beyond : Mem) : WM :=
  ⟨Verif.BitStream.wInit size beyond, MemFile.mk0 bufLen⟩

/-- The bytes the bit writer handed to `internal_write` / `_p_cb->write` go to the storage
(bitstream.h 317-359, 896). Simplification: the bytes of one call are stored by one `write`. -/
def WM.store (s : WM) : Option WM :=
  if s.w.out.isEmpty then some s
  else
    match s.m.write s.w.out with
    | none => none
    | some m => some { w := { s.w with out := [] }, m }

/-- `putbits(x, 32)`. -/
def WM.put32 (s : WM) (x : Word) : Option WM :=
  match Verif.BitStream.putbits s.w x 32 with
  | none => none
  | some w => WM.store { s with w }

/-- `write(pbytes, size)`, bitstream.h 880-899. -/
def WM.bytes (s : WM) (bs : List Byte) : Option WM :=
  WM.store { s with w := Verif.BitStream.writeDirect s.w bs }

/-- `get_position`, bitstream.h 666-698. -/
def WM.position (s : WM) : Nat := s.w.tot / 8

/-- `flush`, bitstream.h 478-486. -/
def WM.flush (s : WM) : Option WM :=
  WM.store { s with w := Verif.BitStream.flush s.w }

/-- `set_position` of a writing stream, bitstream.h 834-865. -/
def WM.seek (s : WM) (p : Nat) : Option WM :=
  match s.flush with
  | none => none
  | some s => some { w := { s.w with tot := p * 8 }, m := s.m.setPosition p }

/-- `CMP4W` (mp4write.h 73-86): the stream and the stack of open boxes (type, position). -/
structure CMP4W where
  s : WM
  parents : List (Word × Nat)

/-- `open_box`, mp4write.h 124-132. -/
def CMP4W.openBox (c : CMP4W) (type : Word) : Option CMP4W :=
  let bp := (type, c.s.position)
  match c.s.put32 0xFFFFFFFF with
  | none => none
  | some s =>
    match s.put32 type with
    | none => none
    | some s => some { s, parents := bp :: c.parents }

/-- `close_box`, mp4write.h 134-149; `none` when no box is open. The type is only asserted. -/
def CMP4W.closeBox (c : CMP4W) (_type : Word) : Option CMP4W :=
  match c.parents with
  | [] => none
  | (_, start) :: parents =>
    let ende := c.s.position
    let size := ende - start
    match c.s.seek start with
    | none => none
    | some s =>
      match s.put32 (BitVec.ofNat 32 size) with
      | none => none
      | some s =>
        match s.seek ende with
        | none => none
        | some s => some { s, parents }

/-- What a caller writes: `write_uint` (mp4write.h 160-163), `write_bytes` (151-158) and
`open_box` .. `close_box` pairs, in sequence. `write_child_box` (103-122) is a `box` whose body is the box's
own fields. -/
inductive Items where
  | nil
  | uint (x : Word) (rest : Items)
  | bytes (bs : List Byte) (rest : Items)
  | box (type : Word) (body : Items) (rest : Items)

/-- The calls for a sequence of items, mp4write.h 103-163. -/
def CMP4W.write (c : CMP4W) : Items → Option CMP4W
  | .nil => some c
  | .uint x rest => (c.s.put32 x).bind (fun s => CMP4W.write { c with s } rest)
  | .bytes bs rest => (c.s.bytes bs).bind (fun s => CMP4W.write { c with s } rest)
  | .box t body rest =>
    (c.openBox t).bind (fun c => (CMP4W.write c body).bind (fun c => (c.closeBox t).bind (fun c =>
      CMP4W.write c rest)))

end Verif.Box
