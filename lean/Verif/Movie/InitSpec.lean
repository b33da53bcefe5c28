import Verif.Movie.Spec
/-
An initialization segment (ISO/IEC 14496-12, 8.8; 23009-1, 6.3.3) as a player reads it: one track without samples, what its fragments inherit, and the boxes with data for the key systems.
-/
namespace Verif.Movie.Spec
open Verif.Fragment.Spec (num raw full Box find)

/-- What the samples of fragments inherit (8.8.3): track, description, duration, size, flags. -/
structure Inherit where
  track : Nat
  description : Nat
  duration : Nat
  size : Nat
  flags : Nat
deriving DecidableEq, Repr

def trex (b : List UInt8) : Option Inherit := do
  let (_, _, r) ← full b
  let (track, r) ← num 4 r
  let (description, r) ← num 4 r
  let (duration, r) ← num 4 r
  let (size, r) ← num 4 r
  let (flags, r) ← num 4 r
  if r = [] then some ⟨track, description, duration, size, flags⟩ else none

/-- The duration of the whole presentation with its fragments (8.8.2). -/
def mehd (b : List UInt8) : Option Nat := do
  let (v, _, r) ← full b
  let (duration, r) ← num (if v = 1 then 8 else 4) r
  if r = [] then some duration else none

/-- An initialization segment. -/
structure Init where
  scale : Nat
  nextTrack : Nat
  track : Track
  inherit : Inherit
  duration : Nat
  /-- contents of the boxes for the key systems -/
  pssh : List (List UInt8)
deriving DecidableEq, Repr

def init (file : List UInt8) : Option Init := do
  let moov ← child file "moov"
  let (scale, _, next) ← mvhd (← child moov "mvhd")
  let bs ← parts moov
  match bs.filter (fun b => b.type == "trak".toList) with
  | [t] =>
    let tr ← track file t.body
    let i ← trex (← path moov ["mvex", "trex"])
    let d ← mehd (← path moov ["mvex", "mehd"])
    some ⟨scale, next, tr, i, d, (bs.filter fun b => b.type == "pssh".toList).map (·.body)⟩
  | _ => none

end Verif.Movie.Spec
