/-
What a user of a presentation index relies on, in terms of the calls made to it.
-/
namespace Verif.Dynamic.Spec

/-- A call that adds a segment start: its time and the composition time given for it (`none` for a start that lies across two files). -/
abbrev PointCall := Int × Option Int

/-- The composition time of a time is the one given last. -/
def compositionOf (calls : List PointCall) (t : Int) : Option (Option Int) :=
  ((calls.reverse.find? fun c => c.1 = t)).map (·.2)

/-- `times` lists the times of the calls, each once, in increasing order. -/
def TimesOf (calls : List PointCall) (times : List Int) : Prop :=
  times.Pairwise (· < ·) ∧ ∀ t, t ∈ times ↔ ∃ c ∈ calls, c.1 = t

/-- The registrations of files that count: the first file is also registered at time 0 when it starts later. -/
def registrations {P : Type} : List (Int × P) → List (Int × P)
  | [] => []
  | (s, p) :: h => if s > 0 then (0, p) :: (s, p) :: h else (s, p) :: h

/-- The path registered first for a start time. -/
def firstAt {P : Type} (h : List (Int × P)) (s : Int) : Option P := (h.find? fun e => e.1 = s).map (·.2)

/-- `s` is the start of the file that covers time `t`: the greatest registered start not after `t` or, if `t` is before all of them, the
first one. -/
def Covers {P : Type} (h : List (Int × P)) (t s : Int) : Prop :=
  (∃ e ∈ h, e.1 = s) ∧
    ((s ≤ t ∧ ∀ e ∈ h, e.1 ≤ t → e.1 ≤ s) ∨ ((∀ e ∈ h, t < e.1) ∧ ∀ e ∈ h, s ≤ e.1))

/-- Distance of two times. -/
def dist (a b : Int) : Nat := (a - b).natAbs

end Verif.Dynamic.Spec
