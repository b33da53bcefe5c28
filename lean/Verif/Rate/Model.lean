import Verif.Parse.Model
/-
Model of the size, duration and bit rate that the reader of MP4 files reports for a track (`get_stream_total_size`, `get_stream_duration`, `get_stream_bit_rate`; /repo/src/mg/media/mp4parse.h 776-803, 2216-2253, 2721-2725, 2833-2843,
/repo/src/mg/media/mp4/mp4.fl 410), shown by `mg` for every file and given as the bit rate of audio to the writer when files are cut or joined (mp4info.cpp 2512, 5040, mp4edit.cpp 136, 145, 152).

The words of the sample size box are those read by module Parse. Numbers wrap as in the code: products of `unsigned int` at 2^32, the rest at 2^64. `none`: division by zero, or fewer words than the table says.
-/
namespace Verif.Rate
open Verif.Reader (hns)

/-- `_total_size`, mp4parse.h 788-799: the sum of the sizes as 64 bit number; with one size for all samples the product of two `unsigned int` (lines 615-616), which is taken at 2^32 before it is stored. -/
def totalSize (words : List Nat) : Option Nat :=
  match words with
  | size :: count :: rest =>
    if size = 0 then (if count ≤ rest.length then some ((rest.take count).foldl (fun s w => (s + w) % 2 ^ 64) 0) else none)
    else some (size * count % 2 ^ 32)
  | _ => none

/-- `get_trak_duration`, mp4parse.h 2220-2223, with `get_duration_hns` of the media header, mp4/mp4.fl 410: in units of 100 ns. -/
def trackDuration (media scale : Nat) : Option Nat := if scale = 0 then none else some (hns media scale)

/-- `get_trak_bit_rate`, mp4parse.h 2238-2253. -/
def bitRate (words : List Nat) (media scale : Nat) : Option Nat := do
  let d ← trackDuration media scale
  if d = 0 then some 0
  else
    let d := d / 10000000
    if d = 0 then some 0
    else do
      let n ← totalSize words
      some (n * 8 % 2 ^ 64 / d)

/-- The rate of a track read from a file; without a sample size box no size is known (`_total_size(0)`, mp4parse.h 645). -/
def trackRate (t : Verif.Parse.TrackRd) : Option Nat := bitRate (t.stsz.getD [0, 0]) t.mediaDuration t.scale

/-- What the writer of a joined file is given: `static_cast<uint32_t>`, mp4edit.cpp 136, 145, 152. -/
def joinedRate (t : Verif.Parse.TrackRd) : Option Nat := (trackRate t).map (· % 2 ^ 32)

end Verif.Rate
