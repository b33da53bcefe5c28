import Verif.Cmdline.Model
import Verif.Strings.Spec
/-
What a command line says to its user.
-/
namespace Verif.Cmdline.Spec

/-- What can stand in a command line: something that is not an option, or an option: `-` or `--`, a name, and possibly `:` or `=` and a value. -/
inductive Arg
  | word (s : Str)
  | opt (long : Bool) (name : Str) (value : Option (Bool × Str))

/-- The text of an argument (`true`: with `=`, `false`: with `:`). -/
def Arg.text : Arg → Str
  | .word s => s
  | .opt long name v =>
    (if long then ['-', '-'] else ['-']) ++ name ++ (match v with | none => [] | some (eq, v) => (if eq then '=' else ':') :: v)

/-- A declaration. -/
structure Decl where
  name : Str
  kind : Kind
  required : Bool
  short : Option Char

/-- Whether `c` is the shortcut of `d` and not the name of a command. -/
def isShortcut (ds : List Decl) (name : Str) (d : Decl) : Prop := (∃ c, name = [c] ∧ d.short = some c) ∧ d ∈ ds ∧ ∀ e ∈ ds, e.name ≠ name

/-- Which name an option with the name `given` is for: `name` itself, unless it is a shortcut for another. -/
def Means (ds : List Decl) (given name : Str) : Prop :=
  (∃ d, isShortcut ds given d ∧ d.name = name) ∨ (given = name ∧ ∀ d, ¬ isShortcut ds given d)

/-- The value an option gives: the one behind `:` or `=`, otherwise `T` for a switch. -/
def givenValue (ds : List Decl) (name : Str) : Option (Bool × Str) → Str → Prop
  | some (_, v), w => w = v
  | none, w => w = if ∃ d ∈ ds, d.name = name ∧ d.kind = .bool then ['T'] else []

/-- The values for `name`, in order. -/
inductive Values (ds : List Decl) (name : Str) : List Arg → List Str → Prop
  | nil : Values ds name [] []
  | word {s as vs} : Values ds name as vs → Values ds name (.word s :: as) vs
  | other {l n v as vs} : ¬ Means ds n name → Values ds name as vs → Values ds name (.opt l n v :: as) vs
  | this {l n v w as vs} : Means ds n name → givenValue ds name v w → Values ds name as vs → Values ds name (.opt l n v :: as) (w :: vs)

/-- Declarations in order. -/
def declare : List Decl → Option Map
  | [] => some []
  | d :: ds => (declare ds).bind fun m => add m d.name d.kind d.required d.short

/-- The whole number a text begins with: white space, a sign, digits, and then something that is not a digit. -/
def Number (s : Str) (n : Int) : Prop :=
  ∃ (space : Str) (sign : Str) (ds rest : Str) (k : Nat), s = space ++ (sign ++ (ds ++ rest)) ∧ (∀ c ∈ space, Strings.isSpace c = true) ∧ Strings.Spec.decimal ds = some k ∧
    (∀ c, rest.head? = some c → Strings.Spec.digit c = none) ∧ ((sign = [] ∨ sign = ['+']) ∧ n = k ∨ sign = ['-'] ∧ n = -(k : Int))

end Verif.Cmdline.Spec
