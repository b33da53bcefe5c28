/-
Model of the growing buffer `CBuffer` / `ResetBuffer` (/repo/src/mg/cbuffer.h) and of the memory storage
`fixed_memory_write` built on it (/repo/src/mg/media/TBitstream.h 113-213).

`data` is the whole allocation (`m_iSize` = its length), `current` = `m_iCurrent`, `origin` = `m_iOrigin`.
Allocation failure is not modelled. `size_t` is unbounded.
-/
namespace Verif.Buffer

structure CBuf (α : Type) where
  data : List α
  current : Nat
  origin : Nat

variable {α : Type} [Zero α]

/-- Constructor, cbuffer.h 78-88. -/
def CBuf.mk0 (size : Nat) : CBuf α := ⟨List.replicate size 0, 0, size⟩

/-- `growth` without its final call of `prepare`, cbuffer.h 51-62: a zeroed allocation larger by
`max origin size`, the `current` first elements copied. -/
def CBuf.growOnce (b : CBuf α) (size : Nat) : CBuf α :=
  let n := max b.origin size
  { b with data := b.data.take b.current ++ List.replicate (b.data.length + n - (b.data.take b.current).length) 0 }

theorem growOnce_length (b : CBuf α) (size : Nat) :
    (b.growOnce size).data.length = b.data.length + max b.origin size := by
  simp only [CBuf.growOnce, List.length_append, List.length_replicate, List.length_take]; omega

/-- `prepare` (cbuffer.h 125-130) and the recursive call at the end of `growth` (64). `none`: the recursion
never ends (`origin = size = 0`). -/
def CBuf.prepare (b : CBuf α) (size : Nat) : Option (CBuf α) :=
  if _h : b.data.length - b.current ≤ size then
    if _h0 : max b.origin size = 0 then none
    else (b.growOnce size).prepare size
  else some b
termination_by size + b.current + 1 - b.data.length
decreasing_by
  rw [growOnce_length]
  show size + b.current + 1 - _ < _
  omega

/-- `memcpy(&m_p[pos], source, n)` inside the allocation; `none` when it would overrun it. -/
def overwrite (data : List α) (pos : Nat) (xs : List α) : Option (List α) :=
  if pos + xs.length ≤ data.length then some (data.take pos ++ xs ++ data.drop (pos + xs.length)) else none

/-- `add`, cbuffer.h 94-108. -/
def CBuf.add (b : CBuf α) (xs : List α) : Option (CBuf α) :=
  if xs.length = 0 then some b
  else
    match b.prepare xs.length with
    | none => none
    | some b =>
      match overwrite b.data b.current xs with
      | none => none
      | some d => some { b with data := d, current := b.current + xs.length }

/-- Direct use: `prepare(n)`, the caller stores `n` elements at `getCurrent()`, `updatePosition(n)`
(cbuffer.h 93, 115-130). -/
def CBuf.direct (b : CBuf α) (xs : List α) : Option (CBuf α) :=
  match b.prepare xs.length with
  | none => none
  | some b =>
    match overwrite b.data b.current xs with
    | none => none
    | some d => some { b with data := d, current := b.current + xs.length }

/-- `ResetBuffer::Reset`, cbuffer.h 201-206. -/
def CBuf.reset (b : CBuf α) : CBuf α := { b with data := List.replicate b.data.length 0, current := 0 }

/-- `ResetBuffer::Back` with zeroing, cbuffer.h 208-214; `none` when more than the content is taken back
(asserted against; unsigned underflow). -/
def CBuf.back (b : CBuf α) (n : Nat) : Option (CBuf α) :=
  if n ≤ b.current then
    (overwrite b.data (b.current - n) (List.replicate n 0)).map
      (fun d => { b with data := d, current := b.current - n })
  else none

inductive BOp (α : Type) where
  | add (xs : List α)
  | direct (xs : List α)
  | reset
  | back (n : Nat)

def bStep (b : CBuf α) : BOp α → Option (CBuf α)
  | .add xs => b.add xs
  | .direct xs => b.direct xs
  | .reset => some b.reset
  | .back n => b.back n

def bRun (b : CBuf α) : List (BOp α) → Option (CBuf α)
  | [] => some b
  | op :: ops => (bStep b op).bind (fun b => bRun b ops)

/-! ### fixed_memory_write -/

/-- `fixed_memory_write` (TBitstream.h 116-120): the buffer (`_buffer`, whose `current` always equals
`_current_pos`, lines 160, 179, 203) and `_size`. -/
structure MemFile (α : Type) where
  buf : CBuf α
  pos : Nat
  size : Nat

/-- Constructor, TBitstream.h 131-134. -/
def MemFile.mk0 (init : Nat) : MemFile α := ⟨CBuf.mk0 init, 0, 0⟩

/-- `write`, TBitstream.h 153-182. -/
def MemFile.write (f : MemFile α) (xs : List α) : Option (MemFile α) :=
  let b? := if f.buf.data.length - f.pos ≤ xs.length then f.buf.prepare xs.length else some f.buf
  match b? with
  | none => none
  | some b =>
    match overwrite b.data f.pos xs with
    | none => none
    | some d =>
      let pos := f.pos + xs.length
      some { buf := { b with data := d, current := b.current + xs.length }, pos,
             size := if pos ≥ f.size then pos else f.size }

/-- `set_position`, TBitstream.h 194-205: `MoveBack` or `updatePosition` so that the buffer position follows. -/
def MemFile.setPosition (f : MemFile α) (p : Nat) : MemFile α :=
  { f with pos := p,
           buf := { f.buf with current := if p < f.buf.current then f.buf.current - (f.buf.current - p)
                                          else f.buf.current + (p - f.buf.current) } }

/-- `read`, TBitstream.h 136-151: the bytes handed to the callback. -/
def MemFile.read (f : MemFile α) (n : Nat) : List α × MemFile α :=
  let possible := if f.size - f.pos < n then f.size - f.pos else n
  let pos := f.pos + possible
  ((f.buf.data.drop f.pos).take possible, { f with pos, size := if pos ≥ f.size then pos else f.size })

end Verif.Buffer
