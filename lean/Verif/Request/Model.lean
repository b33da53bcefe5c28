import Verif.Cmdline.Model
/-
Model of how the publishing commands read their command line: kind `hls`, `do_hls_mux` (/repo/src/mg/media/tsinfo.cpp 716-837), and kinds `ssf` and `dash` (/repo/src/mgcli/mp4info.cpp 4748-4764, 5135-5325):
which files with which bit rates become the items of which `Add` call (module Presentation models the calls).

Simplifications: there are fewer than 2^31 arguments (`argc` is an `int`), so the counts are not reduced; the files can be opened; the options for time scales and the length of segments are left out.
A `dynamic_item` is what is stored in it.
-/
namespace Verif.Request
open Verif.Cmdline

/-- Why a command ends before the first call that writes: the value it returns, or the behaviour is undefined: a division by zero, memory outside of an array. -/
inductive Stop
  | exit (code : Nat)
  | crash
deriving DecidableEq, Repr

/-- `dynamic_item`, /repo/src/mg/media/mp4dynamic.h 134-147. -/
structure Entry where
  bitrate : Nat
  audioBitrate : Nat
  path : Str
  langs : List Nat
deriving DecidableEq, Repr

/-- The arguments of a call of `Add`, /repo/src/mg/media/mp4dynamic.h 326-328. -/
structure Job where
  start : Nat
  stop : Nat
  items : List Entry
deriving DecidableEq, Repr

/-- The conversion of a signed to an unsigned number of 64 bits. -/
def u64 (n : Int) : Nat := (n % 2 ^ 64).toNat

/-- `c.get_value(name, idx)`, /repo/src/mg/cmdline.h 533-539. -/
def value (m : Map) (name : Str) (idx : Nat) : Except Stop Str :=
  match getValue m name idx with
  | some v => .ok v
  | none => .error .crash

/-- `c.get_integer64_value(name, idx)`, /repo/src/mg/cmdline.h 518-521: what is not a number is an exception, which ends the command with `fail`: 1244 (tsinfo.cpp 1377-1381) or 1277 (mp4info.cpp 5991-5996). -/
def number (fail : Nat) (m : Map) (name : Str) (idx : Nat) : Except Stop Int :=
  match value m name idx with
  | .error e => .error e
  | .ok s =>
    match toInt64 s with
    | some n => .ok n
    | none => .error (.exit fail)

/-- The checks of the counts, tsinfo.cpp 718-765, mp4info.cpp 5140-5182: how many inputs, how many further files for each. `npaths % cnt` is a division by zero without an input. -/
def checks (m : Map) : Except Stop (Nat × Nat) :=
  let cnt := count m "input".toList
  if cnt ≠ count m "starttime".toList ∨ cnt ≠ count m "endtime".toList then .error (.exit 2020)
  else
    let npaths := count m "path".toList
    if npaths + cnt ≠ count m "bitrate".toList then .error (.exit 2021)
    else if cnt = 0 then .error .crash
    else if npaths % cnt ≠ 0 then .error (.exit 2022)
    else .ok (cnt, npaths / cnt)

/-- The loop over the items of an input, tsinfo.cpp 807-818, mp4info.cpp 5247-5301: `n` rounds are left, the next one is round `pp`; `pi` is `path_idx` and `bi` is `bitrate_idx`. `langs` is what the
inner loop stores or how it ends the command. -/
def entries (fail : Nat) (m : Map) (audio : Nat) (langs : Except Stop (List Nat)) (idx : Nat) : (n pp pi bi : Nat) → Except Stop (List Entry × Nat × Nat)
  | 0, _, pi, bi => .ok ([], pi, bi)
  | n + 1, pp, pi, bi => do
    let b ← number fail m "bitrate".toList bi
    let ls ← langs
    let path ← if pp = 0 then value m "input".toList idx else value m "path".toList pi
    let (es, pi, bi) ← entries fail m audio langs idx n (pp + 1) (if pp = 0 then pi else pi + 1) (bi + 1)
    .ok (⟨u64 b * 1000 % 2 ^ 64, audio, path, ls⟩ :: es, pi, bi)

/-- The loop over the inputs, tsinfo.cpp 788-837, mp4info.cpp 5227-5322: `n` inputs are left, the next one is input `idx`; `per` further files each. The numbers are read for the report first. -/
def jobs (fail : Nat) (m : Map) (audio : Nat) (langs : Except Stop (List Nat)) (per : Nat) : (n idx pi bi : Nat) → Except Stop (List Job)
  | 0, _, _, _ => .ok []
  | n + 1, idx, pi, bi => do
    let s ← number fail m "starttime".toList idx
    let e ← number fail m "endtime".toList idx
    let _ ← number fail m "bitrate".toList bi
    let (es, pi, bi) ← entries fail m audio langs idx (per + 1) 0 pi bi
    let js ← jobs fail m audio langs per n (idx + 1) pi bi
    .ok (⟨u64 s, u64 e, es⟩ :: js)

/-- The calls of `Add` of `do_hls_mux`, tsinfo.cpp 716-837. -/
def hls (m : Map) : Except Stop (List Job) := do
  let (cnt, per) ← checks m
  jobs 1244 m 96000 (.ok []) per cnt 0 0 0

/-- The code of a language, mp4info.cpp 5263-5266 and 5288-5291: the three bytes are shifted to their places and then joined by `||`, which is 0 or 1. -/
def langCode (a b c : Nat) : Nat := if (a % 256) * 2 ^ 24 ≠ 0 ∨ (b % 256) * 2 ^ 16 ≠ 0 ∨ (c % 256) * 2 ^ 8 ≠ 0 then 1 else 0

/-- The characters 0, 1, 2 of a string, mp4info.cpp 5258-5260: the NUL is behind the last one, what is behind that is not part of the string. -/
def three (s : Str) : Option (Nat × Nat × Nat) :=
  match s with
  | a :: b :: c :: _ => some (a.toNat, b.toNat, c.toNat)
  | [a, b] => some (a.toNat, b.toNat, 0)
  | _ => none

/-- `langs[ll] = k` of an array of 16, mp4dynamic.h 142. -/
def store (ll k : Nat) : Except Stop Nat := if ll < 16 then .ok k else .error .crash

/-- One round of the loop over the languages of an item, mp4info.cpp 5253-5293: what is stored. -/
def language (m : Map) (ll : Nat) : Except Stop Nat :=
  if specified m "lang".toList ll then
    match three ((getValue m "lang".toList ll).getD []) with
    | some (a, b, c) => store ll (langCode a b c)
    | none => .error .crash
  else if 0 < ll then .error (.exit 2025)
  else store ll (langCode 'U'.toNat 'N'.toNat 'D'.toNat)

/-- The loop over the languages of an item, mp4info.cpp 5251-5294. -/
def languages (m : Map) : (n ll : Nat) → Except Stop (List Nat)
  | 0, _ => .ok []
  | n + 1, ll => do
    let k ← language m ll
    let ks ← languages m n (ll + 1)
    .ok (k :: ks)

/-- `audio_streams`, mp4info.cpp 5217-5221: an `unsigned short`. -/
def audioStreams (m : Map) : Except Stop Nat :=
  if specified m "audio_streams".toList 0 then
    match getInteger m "audio_streams".toList with
    | some n => .ok (n % 2 ^ 16).toNat
    | none => .error (.exit 1277)
  else .ok 1

/-- `audio_bitrate`, mp4info.cpp 5218, 5223-5224. -/
def audioRate (m : Map) : Except Stop Nat :=
  if specified m "audio_bitrate".toList 0 then (number 1277 m "audio_bitrate".toList 0).map u64 else .ok 96000

/-- The calls of `Add` of kinds `ssf` and `dash`, mp4info.cpp 4748-4764 and 5140-5322. -/
def dash (m : Map) : Except Stop (List Job) :=
  if !specified m "input".toList 0 then .error (.exit 2)
  else do
    let (cnt, per) ← checks m
    let n ← audioStreams m
    let a ← audioRate m
    jobs 1277 m a (languages m n 0) per cnt 0 0 0

end Verif.Request
