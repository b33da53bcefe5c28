import Verif.Strings.Model
/-
Model of the command line parser `console_command` (/repo/src/mg/cmdline.h 367-595) and of the conversions of its values (`CstringT`, /repo/src/mg/alxstring.h 680-748, on Linux).

Simplifications: strings are lists of characters without NUL, a character stands for a byte; memory exhaustion is not modelled. `std::map` is a list of pairs ordered by name.
The help text and `set_value` are not modelled. `none` stands for an exception or a failed assertion.
-/
namespace Verif.Cmdline
open Verif.Strings (strstr isSpace)

abbrev Str := List Char

/-- `operator<` on strings (`strcmp`), alxstring.h 863-868: bytes from the left, a proper beginning comes first. -/
def less : Str → Str → Bool
  | _, [] => false
  | [], _ :: _ => true
  | a :: as, b :: bs => if a.toNat < b.toNat then true else if b.toNat < a.toNat then false else less as bs

/-- `command_type`, cmdline.h 383. -/
inductive Kind
  | string | int | bool
deriving DecidableEq, Repr

/-- `console_item`, cmdline.h 388-395 (`short = none`: 0; the description is left out). -/
structure Item where
  kind : Kind
  required : Bool
  short : Option Char
  values : List Str
deriving DecidableEq, Repr

/-- `_commands`, cmdline.h 397. -/
abbrev Map := List (Str × Item)

/-- `_commands.find(name)`. -/
def find (m : Map) (name : Str) : Option Item := (m.find? fun x => x.1 == name).map (·.2)

/-- `_commands[name] = item`. -/
def set : Map → Str → Item → Map
  | [], name, i => [(name, i)]
  | x :: m, name, i => if x.1 = name then (name, i) :: m else if less name x.1 then (name, i) :: x :: m else x :: set m name i

/-- `add`, cmdline.h 400-415. -/
def add (m : Map) (name : Str) (kind : Kind) (required : Bool) (short : Option Char) : Option Map :=
  if (find m name).isSome then none else some (set m name ⟨kind, required, short, []⟩)

/-- `subString(begin, len)`, alxstring.h 636-646, of a string assigned from a C string (its buffer has room for the NUL). -/
def sub (s : Str) (begin len : Nat) : Option Str := Strings.subString s (s.length + 1) begin len

/-- Where the value begins, cmdline.h 432-434: the first `:`, or else the first `=`. -/
def separator (command : Str) : Option Nat := (strstr command [':']).or (strstr command ['='])

/-- The value of an option without one, cmdline.h 447-454: `T` for a switch. -/
def bareValue (m : Map) (name : Str) : Str :=
  match find m name with
  | some i => if i.kind = .bool then ['T'] else []
  | none => []

/-- What a single argument says, cmdline.h 425-460: name and value; `none` for an argument that is no option (it is ignored). The outer `none`: outside of the buffer. -/
def readArg (m : Map) (command : Str) : Option (Option (Str × Str)) := do
  let first ← sub command 0 1
  if first ≠ ['-'] then some none
  else do
    let x := separator command
    let second ← sub command 1 1
    let ss := if second = ['-'] then 2 else 1
    match x with
    | none => do
      let name ← sub command ss (command.length - ss)
      some (some (name, bareValue m name))
    | some x => do
      let name ← sub command ss (x - ss)
      let value ← sub command (x + 1) (command.length - (x + 1))
      some (some (name, value))

/-- The search for a shortcut, cmdline.h 466-481: the first command in the order of the map that has it. -/
def byShortcut (m : Map) (name : Str) : Option Str :=
  match name with
  | [s] => (m.find? fun x => x.2.short == some s).map (·.1)
  | _ => none

/-- An unclassified parameter, cmdline.h 485. -/
def unclassified : Item := ⟨.string, false, some '0', []⟩

/-- `push_back`, cmdline.h 490. -/
def push (m : Map) (name value : Str) : Map :=
  match find m name with
  | some i => set m name { i with values := i.values ++ [value] }
  | none => set m name ⟨.string, false, none, [value]⟩

/-- The name a value is kept under, and the commands with that name in them, cmdline.h 462-488. -/
def target (m : Map) (name : Str) : Map × Str :=
  if (find m name).isSome then (m, name)
  else match byShortcut m name with
    | some n => (m, n)
    | none => (set m name unclassified, name)

/-- One round of the loop of `process`, cmdline.h 423-492. -/
def step (m : Map) (command : Str) : Option Map := do
  match ← readArg m command with
  | none => some m
  | some (name, value) => some (push (target m name).1 (target m name).2 value)

def steps : Map → List Str → Option Map
  | m, [] => some m
  | m, a :: as => (step m a).bind fun m => steps m as

/-- The check of required commands, cmdline.h 494-508: the name in the error message. -/
def missing (m : Map) : Option Str := (m.find? fun x => x.2.required && x.2.values == []).map (·.1)

/-- `process(argc, argv)`, cmdline.h 417-511, with the arguments after the program name: what is returned, the error message, the commands. -/
def process (m : Map) (args : List Str) : Option (Bool × Str × Map) :=
  (steps m args).map fun m =>
    match missing m with
    | some n => (false, "missing parameter: ".toList ++ n, m)
    | none => (true, [], m)

/-- `get_value(name, idx)`, cmdline.h 533-539. -/
def getValue (m : Map) (name : Str) (idx : Nat) : Option Str := (find m name).bind fun i => i.values[idx]?

/-- `get_command_count(name)`, cmdline.h 555-559 (the empty entry it makes for an unknown name is left out). -/
def count (m : Map) (name : Str) : Nat :=
  match find m name with
  | some i => i.values.length
  | none => 0

/-- `command_specified(name, idx)`, cmdline.h 585-594. -/
def specified (m : Map) (name : Str) (idx : Nat) : Bool :=
  match find m name with
  | some i => decide (idx < i.values.length)
  | none => false

/-- Decimal digits as `sscanf` takes them. -/
def digits : Nat → Str → Nat
  | n, [] => n
  | n, c :: cs => if '0' ≤ c ∧ c ≤ '9' then digits (10 * n + (c.toNat - 48)) cs else n

/-- `operator int64_t`, alxstring.h 696-702, with `to_type` (120-134): `sscanf(s, "%ld", &k)`: white space, a sign, at least one digit; the rest is not looked at. Too big numbers become the biggest or
smallest one (glibc). `none`: nothing converted, an exception. -/
def toInt64 (s : Str) : Option Int :=
  match Strings.scanSign (s.dropWhile isSpace) with
  | (neg, c :: cs) =>
    if '0' ≤ c ∧ c ≤ '9' then
      let n : Int := digits 0 (c :: cs)
      some (if neg then max (-n) (-2 ^ 63) else min n (2 ^ 63 - 1))
    else none
  | (_, []) => none

/-- `get_integer64_value(name, idx)`, cmdline.h 518-526. -/
def getInteger64 (m : Map) (name : Str) (idx : Nat) : Option Int := (getValue m name idx).bind toInt64

/-- `get_integer_value(name)`, cmdline.h 528-531: the conversion to `int` keeps the low 32 bits. -/
def getInteger (m : Map) (name : Str) : Option Int :=
  (getInteger64 m name 0).map fun n => if n % 2 ^ 32 < 2 ^ 31 then n % 2 ^ 32 else n % 2 ^ 32 - 2 ^ 32

/-- `operator bool`, alxstring.h 730-742. -/
def toBool (s : Str) : Bool := ["1".toList, "true".toList, "yes".toList, "TRUE".toList, "True".toList].contains s

end Verif.Cmdline
