/-
Model of `CRangeMap` (/repo/src/mg/media/mp4parse.h 71-242), the variant compiled with `XVEC` (defined at
mp4parse.h 50): a vector of (key, value) pairs in insertion order, searched by bisection.
-/
namespace Verif.RangeMap

/-- `CRangeMap`, mp4parse.h 77-87: the vector of `CRangeMapData`. `_last_start_range` is only the key found by
the last `get` and is returned by `get` in the model. -/
abbrev RMap (T : Type) := List (Nat × T)

/-- `add`, mp4parse.h 92-126. -/
def add {T : Type} (m : RMap T) (k : Nat) (t : T) : RMap T := m ++ [(k, t)]

/-- Key at an index; the bound check is the caller's (index out of range gives `none`). -/
def key {T : Type} (m : RMap T) (i : Nat) : Option Nat := (m[i]?).map (·.1)

/-- One evaluation of the loop condition, mp4parse.h 182-195; `none` = read outside the vector. -/
def cond {T : Type} (m : RMap T) (k idx : Nat) : Option Bool :=
  if idx < m.length then
    match key m idx with
    | none => none
    | some ki =>
      if 0 < idx then
        match key m (idx - 1) with
        | none => none
        | some kp => some (decide (kp ≥ k ∨ ki < k))
      else some (decide (ki < k))
  else some false

/-- The loop body, mp4parse.h 197-214: new (idx, lower, upper). -/
def body {T : Type} (m : RMap T) (k idx lower upper : Nat) : Option (Nat × Nat × Nat) :=
  match key m idx with
  | none => none
  | some ki =>
    let left := match key m (idx - 1) with | some kp => decide (kp ≥ k) | none => false
    let upper := if 0 < idx ∧ left = true then idx - 1 else upper
    let lower := if ki < k then (if lower = idx then lower + 1 else idx) else lower
    some (if upper > lower then (upper - lower) / 2 + lower else lower, lower, upper)

/-- The search loop, mp4parse.h 182-215. `fuel` bounds the iterations: `none` = not finished within `fuel`
iterations (or out of the vector); the theorems show it always finishes. -/
def search {T : Type} (m : RMap T) (k : Nat) : (fuel idx lower upper : Nat) → Option Nat
  | fuel, idx, lower, upper =>
    match cond m k idx with
    | none => none
    | some false => some idx
    | some true =>
      match fuel with
      | 0 => none
      | fuel + 1 =>
        match body m k idx lower upper with
        | none => none
        | some (idx, lower, upper) => search m k fuel idx lower upper

/-- `get`, mp4parse.h 161-226: return code, key and value found. `none` = access outside the vector (in
particular the empty vector) or an endless loop. Sizes below 2^32 (the `ST_U32` casts) are assumed. -/
def get {T : Type} (m : RMap T) (k : Nat) : Option (Int × Nat × T) :=
  match m.head?, m.getLast? with
  | some (k0, t0), some (kl, tl) =>
    if k0 > k then some (-1, k0, t0)
    else if kl < k then some (1, kl, tl)
    else
      match search m k (2 * m.length) (m.length / 2) 0 (m.length - 1) with
      | none => none
      | some i => (m[i]?).map (fun e => (0, e.1, e.2))
  | _, _ => none

end Verif.RangeMap
