import Mathlib.Data.List.Basic

/-
Model of the reference counting handles `CResource` (src/mg/cresource.h). A program has handle variables, and every managed object contains one
handle itself (as `CPromise` does, `_forward`). Objects are never reused; touching a deleted one sets `fault`.
-/
namespace Verif.Resource

/-- src/mg/cresource.h 44-60: a `CInternalResource` with its object: the reference count, whether it is allocated, and the handle in the object. -/
structure Obj where
  count : Int
  alive : Bool
  next : Option Nat

/-- The handle variables in the order of their construction (`none` after destruction; otherwise the object they hold, if any), the objects in the
order of their creation, the objects for which the clean-up function was called and that were deleted, and whether deleted memory was used. -/
structure State where
  vars : List (Option (Option Nat)) := []
  objs : List Obj := []
  log : List Nat := []
  fault : Bool := false

/-- Where a handle is: a variable or in an object. -/
inductive Loc
  | var (v : Nat)
  | inside (o : Nat)
  deriving DecidableEq

/-- src/mg/cresource.h 77-87 and 57-60, 168-171: `release`: the last one calls the clean-up function and deletes the object, whose own handle is
released then. The fuel does not run out (there are fewer objects). -/
def release : Nat → State → Nat → State
  | 0, s, _ => { s with fault := true }
  | fuel + 1, s, o =>
    match s.objs[o]? with
    | none => { s with fault := true }
    | some x =>
      if x.alive = false then { s with fault := true }
      else if x.count - 1 = 0 then
        let s := { s with log := s.log ++ [o], objs := s.objs.set o { x with count := 0, alive := false } }
        match x.next with
        | none => s
        | some p => release fuel s p
      else { s with objs := s.objs.set o { x with count := x.count - 1 } }

/-- src/mg/cresource.h 89-92: `addRef`. -/
def addRef (s : State) (o : Nat) : State :=
  match s.objs[o]? with
  | none => { s with fault := true }
  | some x => if x.alive then { s with objs := s.objs.set o { x with count := x.count + 1 } } else { s with fault := true }

/-- The object a handle holds. -/
def read (s : State) : Loc → Option Nat
  | .var v => (s.vars.getD v none).join
  | .inside o => (s.objs[o]?).bind (·.next)

/-- Reading or writing a handle in a deleted object. -/
def touch (s : State) : Loc → State
  | .var _ => s
  | .inside o => if ((s.objs[o]?).map (·.alive)).getD false then s else { s with fault := true }

/-- A handle is set. -/
def write (s : State) (l : Loc) (p : Option Nat) : State :=
  match l with
  | .var v => { s with vars := s.vars.set v (some p) }
  | .inside o =>
    match s.objs[o]? with
    | none => s
    | some x => { s with objs := s.objs.set o { x with next := p } }

/-- `release` on what a handle holds, if it holds something. -/
def releaseAt (s : State) (l : Loc) : State :=
  match read s l with
  | none => s
  | some o => release s.objs.length s o

/-- `addRef` on an object, if there is one. -/
def addRefTo (s : State) : Option Nat → State
  | none => s
  | some o => addRef s o

/-- src/mg/cresource.h 121-127: `Assign`. -/
def assign (s : State) (l r : Loc) : State :=
  let s := releaseAt s l
  let s := touch s r
  let p := read s r
  let s := write (touch s l) l p
  addRefTo s p

/-- What a program names: a variable `h`, or the handle in the object that `h` holds (`h->next`). -/
inductive Place
  | var (v : Nat)
  | next (v : Nat)

/-- src/mg/cresource.h 182-196: the handle a place is (`operator->`); none if the variable is not there or holds nothing. -/
def locOf (s : State) : Place → Option Loc
  | .var v => if ((s.vars[v]?).bind id).isSome then some (.var v) else none
  | .next v =>
    match (s.vars[v]?).bind id with
    | some (some o) => some (.inside o)
    | _ => none

/-- What a program does. -/
inductive Op
  /-- `CResource h;` -/
  | declare
  /-- `CResource h(new T);` -/
  | make
  /-- `CResource h(place);` -/
  | copy (p : Place)
  /-- `l = r;` -/
  | assign (l r : Place)
  /-- `place.Create();` -/
  | create (p : Place)
  /-- The variable goes out of scope. -/
  | destroy (v : Nat)

/-- src/mg/cresource.h 62-75: a new object with one reference. -/
def newObj (s : State) : State := { s with objs := s.objs ++ [⟨1, true, none⟩] }

/-- src/mg/cresource.h 114-116, 136-140, 163-171, 236-247: one step. Places that are not there are not used by a program: nothing happens. -/
def step (s : State) : Op → State
  | .declare => { s with vars := s.vars ++ [some none] }
  | .make => { newObj s with vars := s.vars ++ [some (some s.objs.length)] }
  | .copy p =>
    match locOf s p with
    | none => s
    | some l => addRefTo { touch s l with vars := s.vars ++ [some (read s l)] } (read s l)
  | .assign l r =>
    match locOf s l, locOf s r with
    | some l, some r => assign s l r
    | _, _ => s
  | .create p =>
    match locOf s p with
    | none => s
    | some l => if read s l = none then write (newObj (touch s l)) l (some s.objs.length) else s
  | .destroy v =>
    if ((s.vars[v]?).bind id).isSome then { releaseAt s (.var v) with vars := s.vars.set v none } else s

/-- A program. -/
def exec (s : State) (ops : List Op) : State := ops.foldl step s

end Verif.Resource
