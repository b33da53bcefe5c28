import Verif.Moof.Model
import Verif.Interleave.Model
/-
Model of the command that makes a movie out of files with fragments, `do_moof_mux` (/repo/src/mgcli/mp4info.cpp 3903-4165): which files are taken, in which order, and which calls of `add_sample` they lead to. A single file is the
subject of module Moof, what becomes of the calls that of Interleave, Movie and Parse.
-/
namespace Verif.Remux
open Verif.Moof (Opts Out moofMux)
open Verif.Interleave (QSample)

/-- The values of a parameter `S1`, `S2`, ... : the files in order, and the tracks that the reader finds in the first of them (sound or not, time scale; tracks that are neither picture nor sound are left out), mp4info.cpp 3958-4035. -/
structure Source where
  tracks : List (Bool × Nat)
  files : List (List UInt8)

/-- `scount`, mp4info.cpp 3943-3958: S1, S2 and S3 as long as there are files. -/
def counted (given : List Source) : List Source := (given.take 3).takeWhile fun s => !s.files.isEmpty

/-- `count`, mp4info.cpp 3951-3952. -/
def count (ss : List Source) : Nat := ss.foldl (fun n s => if s.files.length > n then s.files.length else n) 0

/-- `astream` and `time_base`, mp4info.cpp 4008-4030: the tracks of all first files, one behind the other. -/
def table (ss : List Source) : List (Bool × Nat) := ss.flatMap (·.tracks)

/-- What is used for stream `k`, mp4info.cpp 4084-4086; `none` for an access outside the tables. `norm` is `normalize_time` for a time scale. -/
def optsOf (key : Option (List UInt8 → List UInt8)) (norm : Nat → Nat → Nat) (ss : List Source) (k : Nat) : Option Opts :=
  (table ss)[k]?.map fun t => ⟨key, t.1, t.2, norm t.2⟩

/-- File `i` of stream `k`, if the stream has so many, mp4info.cpp 4046-4158. `g` are values of memory that was not initialised. -/
def fileOf (o : Nat → Option Opts) (fuel : Nat) (g : Nat → Nat → Nat × Nat) (i k : Nat) (s : Source) : Option (List (Nat × Out)) :=
  match s.files[i]? with
  | none => some []
  | some f => (o k).bind fun p => (moofMux p fuel (g k i).1 (g k i).2 f).map fun out => out.map fun x => (k, x)

/-- The inner loop, mp4info.cpp 4042-4160, from stream `k` on. -/
def turn (o : Nat → Option Opts) (fuel : Nat) (g : Nat → Nat → Nat × Nat) (i : Nat) : (k : Nat) → List Source → Option (List (Nat × Out))
  | _, [] => some []
  | k, s :: ss => do
    let a ← fileOf o fuel g i k s
    let b ← turn o fuel g i (k + 1) ss
    some (a ++ b)

/-- The outer loop, mp4info.cpp 4040, from file `i` on, `n` times. -/
def turns (o : Nat → Option Opts) (fuel : Nat) (g : Nat → Nat → Nat × Nat) (ss : List Source) : (n i : Nat) → Option (List (Nat × Out))
  | 0, _ => some []
  | n + 1, i => do
    let a ← turn o fuel g i 0 ss
    let b ← turns o fuel g ss n (i + 1)
    some (a ++ b)

/-- `do_moof_mux`: the calls of `add_sample`, with the number of the stream. -/
def remux (key : Option (List UInt8 → List UInt8)) (norm : Nat → Nat → Nat) (fuel : Nat) (g : Nat → Nat → Nat × Nat) (given : List Source) : Option (List (Nat × Out)) :=
  turns (optsOf key norm (counted given)) fuel g (counted given) (count (counted given)) 0

/-- A call of `add_sample` as the writer takes it (mp4mux.h 298-327, mp4write.h 2106; the duration is not used). -/
def added (x : Nat × Out) : Nat × QSample := (x.1, ⟨x.2.composition, x.2.decoding, x.2.sync, x.2.body⟩)

end Verif.Remux
