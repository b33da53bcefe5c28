import Verif.Moof.Props
/-
Where the reading of fragments goes wrong.
-/
namespace Verif.Moof
open Verif.Fragment (fourcc box Frag Sample segBytes toyCipher toyCipher_length)
open Verif.Cenc.Spec (be)
open Verif.Fragment.Spec (num raw)
open Spec

/-- Version and flags. -/
def vf (v f : Nat) : List UInt8 := be 1 v ++ be 3 f

/-- Fragments by hand: a moof with the boxes given for its traf, and an mdat. -/
def fragment (traf mdat : List UInt8) : List UInt8 :=
  box (fourcc 'm' 'o' 'o' 'f') (box (fourcc 'm' 'f' 'h' 'd') (vf 0 0 ++ be 4 1) ++ box (fourcc 't' 'r' 'a' 'f') traf) ++ box (fourcc 'm' 'd' 'a' 't') mdat

def tfhd (flags : Nat) (more : List UInt8) : List UInt8 := box (fourcc 't' 'f' 'h' 'd') (vf 0 flags ++ be 4 2 ++ more)
def tfdt (t : Nat) : List UInt8 := box (fourcc 't' 'f' 'd' 't') (vf 1 0 ++ be 8 t)
/-- A run with durations and sizes. -/
def trun (xs : List (Nat × Nat)) : List UInt8 := box (fourcc 't' 'r' 'u' 'n') (vf 0 0x300 ++ be 4 xs.length ++ xs.flatMap fun x => be 4 x.1 ++ be 4 x.2)

def plain : Opts := ⟨none, false, 10000000, id⟩

/-- A well formed fragment is read. -/
theorem plain_fragment : moofMux plain 13 0 0 (fragment (tfhd 0 [] ++ tfdt 50 ++ trun [(5, 2), (6, 1)]) [1, 2, 3]) =
    some [⟨[1, 2], true, 50, 50, 5⟩, ⟨[3], false, 55, 55, 6⟩] := by decide +kernel

/-- Of two runs in a track fragment only the last is delivered, and its samples are taken from the beginning of the data. -/
theorem earlier_run_is_lost : moofMux plain 13 0 0 (fragment (tfhd 0 [] ++ tfdt 50 ++ trun [(5, 2)] ++ trun [(6, 1)]) [1, 2, 3]) =
    some [⟨[1], true, 50, 50, 6⟩] := by decide +kernel

/-- The same with two tracks. -/
theorem earlier_track_is_lost :
    moofMux plain 13 0 0 (box (fourcc 'm' 'o' 'o' 'f') (box (fourcc 't' 'r' 'a' 'f') (tfhd 0 [] ++ tfdt 50 ++ trun [(5, 2)]) ++
      box (fourcc 't' 'r' 'a' 'f') (tfhd 0 [] ++ tfdt 70 ++ trun [(6, 1)])) ++ box (fourcc 'm' 'd' 'a' 't') [1, 2, 3]) =
    some [⟨[1], true, 70, 70, 6⟩] := by decide +kernel

/-- Without a base time the samples begin at -1. -/
theorem no_base_time : moofMux plain 13 0 0 (fragment (tfhd 0 [] ++ trun [(5, 2), (6, 1)]) [1, 2, 3]) =
    some [⟨[1, 2], true, -1, -1, 5⟩, ⟨[3], false, 4, 4, 6⟩] := by decide +kernel

/-- A fragment without a base time begins where the one before it began. -/
theorem base_time_of_the_fragment_before :
    moofMux plain 13 0 0 (fragment (tfhd 0 [] ++ tfdt 50 ++ trun [(5, 2)]) [1, 2] ++ fragment (tfhd 0 [] ++ trun [(6, 1)]) [3]) =
    some [⟨[1, 2], true, 50, 50, 5⟩, ⟨[3], true, 50, 50, 6⟩] := by decide +kernel

/-- A duration of 2^31 or more counts backwards, in the run; not as the default of the fragment. -/
theorem long_duration_is_negative :
    moofMux plain 13 0 0 (fragment (tfhd 0 [] ++ tfdt 50 ++ trun [(0x80000000, 2), (6, 1)]) [1, 2, 3]) =
      some [⟨[1, 2], true, 50, 50, -2147483648⟩, ⟨[3], false, -2147483598, -2147483598, 6⟩] ∧
    moofMux plain 13 0 0 (fragment (tfhd 0x8 (be 4 0x80000000) ++ tfdt 50 ++ box (fourcc 't' 'r' 'u' 'n') (vf 0 0x200 ++ be 4 2 ++ be 4 2 ++ be 4 1)) [1, 2, 3]) =
      some [⟨[1, 2], true, 50, 50, 2147483648⟩, ⟨[3], false, 2147483698, 2147483698, 2147483648⟩] := by
  constructor <;> decide +kernel

/-- In version 0 composition offsets are not signed; an offset of 2^31 or more is read as a negative one. -/
theorem unsigned_offset :
    moofMux plain 13 0 0 (fragment (tfhd 0x18 (be 4 5 ++ be 4 1) ++ tfdt 50 ++ box (fourcc 't' 'r' 'u' 'n') (vf 0 0x800 ++ be 4 1 ++ be 4 0x80000000)) [1]) =
      some [⟨[1], true, -2147483598, 50, 5⟩] := by decide +kernel

/-- A default sample size of the fragment header holds for all fragments after it: a later fragment that relies on the defaults of the movie (a trex box, which is
not read) gets the size of the earlier one, and without an earlier one samples without bytes. -/
theorem movie_defaults_are_not_read :
    moofMux plain 13 0 0 (fragment (tfhd 0x18 (be 4 5 ++ be 4 2) ++ tfdt 50 ++ box (fourcc 't' 'r' 'u' 'n') (vf 0 0 ++ be 4 1)) [1, 2] ++
      fragment (tfhd 0 [] ++ tfdt 60 ++ box (fourcc 't' 'r' 'u' 'n') (vf 0 0 ++ be 4 1)) [3, 4, 5]) =
      some [⟨[1, 2], true, 50, 50, 5⟩, ⟨[3, 4], true, 60, 60, 5⟩] ∧
    moofMux plain 13 0 0 (fragment (tfhd 0 [] ++ tfdt 60 ++ box (fourcc 't' 'r' 'u' 'n') (vf 0 0 ++ be 4 1)) [3, 4, 5]) = some [⟨[], true, 60, 60, 0⟩] := by
  constructor <;> decide +kernel

/-- The content of a user defined box is read as boxes: here it brings a second run, which replaces the real one. -/
theorem user_box_content_is_read :
    moofMux plain 13 0 0 (fragment (tfhd 0 [] ++ tfdt 50 ++ trun [(5, 2)] ++ box (fourcc 'u' 'u' 'i' 'd') (List.replicate 16 0 ++ trun [(6, 1)])) [1, 2]) =
    some [⟨[1], true, 50, 50, 6⟩] := by decide +kernel

/-- A run with a data offset. -/
def trunAt (o : Nat) (xs : List (Nat × Nat)) : List UInt8 := box (fourcc 't' 'r' 'u' 'n') (vf 0 0x301 ++ be 4 xs.length ++ be 4 o ++ xs.flatMap fun x => be 4 x.1 ++ be 4 x.2)

/-- After a data box with a 64 bit size the first eight bytes of what follows are lost. Here they are the header of the next fragment, whose samples are then looked for at the
place of the earlier one; with a data box of the usual size all is well. -/
theorem large_data_box :
    moofMux plain 13 0 0 (fragment (tfhd 0 [] ++ tfdt 50 ++ trun [(5, 2)]) [1, 2] ++ fragment (tfhd 0 [] ++ tfdt 60 ++ trunAt 104 [(6, 1)]) [3]) =
      some [⟨[1, 2], true, 50, 50, 5⟩, ⟨[3], true, 60, 60, 6⟩] ∧
    moofMux plain 13 0 0 (box (fourcc 'm' 'o' 'o' 'f') (box (fourcc 'm' 'f' 'h' 'd') (vf 0 0 ++ be 4 1) ++ box (fourcc 't' 'r' 'a' 'f') (tfhd 0 [] ++ tfdt 50 ++ trun [(5, 2)])) ++
      (be 4 1 ++ be 4 (fourcc 'm' 'd' 'a' 't') ++ be 8 18 ++ [1, 2]) ++ fragment (tfhd 0 [] ++ tfdt 60 ++ trunAt 104 [(6, 1)]) [3]) =
      some [⟨[1, 2], true, 50, 50, 5⟩, ⟨[0], true, 60, 60, 6⟩] := by
  constructor <;> decide +kernel

/-- A `free` box of size 0 is never left: no number of rounds suffices, wherever it stands. -/
theorem free_box_of_size_zero (pre post : List UInt8) (hl : pre.length < 2 ^ 64) (strict : Bool) (r : Rd) (h0 : r.mdat = 0) (fuel : Nat) :
    loop (pre ++ (be 4 0 ++ be 4 (fourcc 'f' 'r' 'e' 'e') ++ post)) strict fuel r pre.length = none := by
  have hb : ∀ post : List UInt8, getBox (be 4 0 ++ be 4 (fourcc 'f' 'r' 'e' 'e') ++ post) = some (⟨0, fourcc 'f' 'r' 'e' 'e', []⟩, post) := by
    intro post
    rw [getBox, List.append_assoc, Fragment.num4 0]
    simp only [Option.bind_eq_bind, Option.bind_some]
    rw [Fragment.num4]
    simp only [Option.bind_some]
    rw [if_neg (by decide), if_neg (by decide)]
    rfl
  induction fuel with
  | zero => rfl
  | succ n ih =>
    have hlen : ¬ (pre ++ (be 4 0 ++ be 4 (fourcc 'f' 'r' 'e' 'e') ++ post)).length ≤ pre.length := by
      simp only [List.length_append, Cenc.be_length]; omega
    have hh : handle (pre ++ (be 4 0 ++ be 4 (fourcc 'f' 'r' 'e' 'e') ++ post)) r pre.length = some (r, pre.length) := by
      rw [handle, List.drop_left', hb]
      · simp only [Option.bind_eq_bind, Option.bind_some]
        rw [show kind (fourcc 'f' 'r' 'e' 'e') = .free by decide]
        simp only [Head.getSize]
        rw [if_neg (by decide), Nat.add_zero, Nat.mod_eq_of_lt hl]
      · rfl
    rw [loop, if_neg hlen, hh, Option.bind_some, if_neg (by simp [h0])]
    exact ih

example : loop ([1, 2] ++ (be 4 0 ++ be 4 (fourcc 'f' 'r' 'e' 'e') ++ [])) false 1000 (Rd.new 0 0) 2 = none :=
  free_box_of_size_zero [1, 2] [] (by decide) false (Rd.new 0 0) rfl 1000

/-- `parse` in its strict form throws on every file that begins with a segment which this program wrote (its first box is `styp`). -/
theorem strict_parse_refuses (f : Frag) (post : List UInt8) (fuel : Nat) (r : Rd) : parseStrict (segBytes f ++ post) fuel r = none := by
  have hs : ∃ rest, segBytes f ++ post = be 4 (8 + Fragment.stypBody.length) ++ (be 4 (fourcc 's' 't' 'y' 'p') ++ rest) := by
    rw [segBytes_lead, lead]
    simp only [box, List.append_assoc]
    exact ⟨_, rfl⟩
  obtain ⟨rest, hs⟩ := hs
  rw [hs, parseStrict, getBox, Fragment.num4]
  simp only [Option.bind_eq_bind, Option.bind_some]
  rw [Fragment.num4]
  simp only [Option.bind_some]
  rw [if_neg (by decide), if_neg (by decide)]
  simp only [Option.bind_some]
  rw [if_pos (by decide)]

/-- A fragment in the clear after an encrypted one is decrypted with the vectors of the earlier one: other bytes come out than went in. -/
theorem clear_after_encrypted :
    moofMux ⟨some toyCipher, false, 10000000, id⟩ 13 0 0 (written id toyCipher 10000000
      [⟨0, some (false, [1, 2, 3, 4, 5, 6, 7, 255]), 2, 7, 0, [⟨[1, 2, 3], 0, 0, 400⟩], 4, 5⟩, ⟨400, none, 2, 8, 0, [⟨[7, 8, 9], 400, 400, 400⟩], 4, 5⟩]).bytes =
    some [⟨[1, 2, 3], true, 0, 0, 400⟩, ⟨[7 ^^^ 4, 8 ^^^ 5, 9 ^^^ 6], true, 400, 400, 400⟩] := by decide +kernel

end Verif.Moof
