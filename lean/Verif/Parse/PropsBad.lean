import Verif.Parse.Props
/-
A file that meets the hypotheses, and files on which the reader fails.
-/
namespace Verif.Parse
open Verif.Cenc.Spec (be beVal)
open Verif.Fragment (box fourcc box_length)
open Verif.Tables (sub64 u32)
open Verif.Interleave (QSample IStream Mux toU64)
open Verif.Movie (MStream movieFile streamsOf streamOf History shifted stepsOf offsetOf)
open Verif.Movie.Sample (ts hn ps hist mux file)
open Verif.Reader (readAll Reader)

def anything : Accept := ⟨fun _ => true, fun _ => true⟩

/-- The hypothesis of the two theorems is met by video with reordered frames and audio that starts late, encrypted. -/
theorem readable_met : Readable anything ts hn 20 10000000 true ps hist mux := by
  refine ⟨Verif.Movie.Sample.met, ?_, ?_⟩
  · intro p hp
    simp only [ps, List.mem_cons, List.not_mem_nil, or_false] at hp
    rcases hp with rfl | rfl <;> exact ⟨rfl, rfl⟩
  · intro i p s hp hs j f q hf hq
    match i with
    | 0 =>
      simp only [ps, mux, List.getElem?_cons_zero, Option.some.injEq] at hp hs
      subst hp; subst hs
      simp only [List.map_cons, List.getElem?_cons_zero, Option.some.injEq, List.map_nil] at hf hq
      subst hf
      match j with
      | 0 => simp only [List.getElem?_cons_zero, Option.some.injEq] at hq; subst hq; decide
      | 1 => simp only [List.getElem?_cons_zero, List.getElem?_cons_succ, Option.some.injEq] at hq; subst hq; decide
      | 2 => simp only [List.getElem?_cons_zero, List.getElem?_cons_succ, Option.some.injEq] at hq; subst hq; decide
      | j + 3 => simp at hq
    | 1 =>
      simp only [ps, mux, List.getElem?_cons_zero, List.getElem?_cons_succ, Option.some.injEq] at hp hs
      subst hp; subst hs
      simp only [List.map_cons, List.getElem?_cons_zero, Option.some.injEq, List.map_nil] at hf hq
      subst hf
      match j with
      | 0 => simp only [List.getElem?_cons_zero, Option.some.injEq] at hq; subst hq; decide
      | 1 => simp only [List.getElem?_cons_zero, List.getElem?_cons_succ, Option.some.injEq] at hq; subst hq; decide
      | 2 => simp only [List.getElem?_cons_zero, List.getElem?_cons_succ, Option.some.injEq] at hq; subst hq; decide
      | j + 3 => simp at hq
    | n + 2 => simp [ps] at hp

/-- The first 16 bytes of a file: a file type box without brands. -/
def ftypBox : List UInt8 := box (fourcc 'f' 't' 'y' 'p') (be 4 (fourcc 'i' 's' 'o' 'm') ++ be 4 1)

/-- The place, size, decoding and composition time of the samples that come out. -/
def delivered (calls : Nat) (x : Res (FileRd × Reader)) : Option (List (Nat × Nat × Nat × Nat × Nat)) :=
  match x with
  | .ok x => (readAll calls x.2).map fun out => out.map fun o => (o.1, o.2.offset, o.2.size, o.2.decoding, o.2.composition)
  | .error _ => none

/-- How the opening of a file fails. -/
def failure {α : Type} (x : Res α) : Option Stop :=
  match x with
  | .ok _ => none
  | .error e => some e

/-- The reader on the sample file of module Movie. -/
example : delivered 10 (openFile anything 1357 file) =
    some [(1, 1346, 1, 0, 0), (0, 1347, 3, 0, 400000), (0, 1350, 1, 400000, 1200000), (1, 1351, 2, 213333, 213333), (0, 1353, 2, 800000, 800000), (1, 1355, 2, 426666, 426666)] := by decide +kernel

/-! ### Boxes of size 0 -/

/-- The header of a box as it is in the file: size and type. -/
def head (size type : Nat) : List UInt8 := be 4 size ++ be 4 type

theorem doBox_head (N s t : Nat) (h : Hdr) (r : List UInt8) (hs : s < 2 ^ 32) (hs1 : s ≠ 1) (ht : PlainType t) :
    doBox N h (head s t ++ r) = .ok (⟨N - (8 + r.length), s, t⟩, r) := by
  have hne : head s t ++ r ≠ [] := by
    intro h'
    have := congrArg List.length h'
    simp [head, Verif.Cenc.be_length] at this
  rw [doBox, if_neg hne, head, List.append_assoc]
  exact getBox_hdr N s t r hs hs1 ht.1 ht.2

theorem zero_loop (ok : Accept) (F : Nat) (pre post : List UInt8) (t : Nat) (ht : t = fourcc 'm' 'd' 'a' 't' ∨ t = fourcc 'f' 'r' 'e' 'e') (hN : (pre ++ (head 0 t ++ post)).length < 2 ^ 64) :
    ∀ (fuel : Nat) (h : Hdr) (f : FileRd), fileBoxes ok F (pre ++ (head 0 t ++ post)) fuel h f (head 0 t ++ post) = .error .endless
  | 0, _, _ => rfl
  | fuel + 1, h, f => by
    have hne : head 0 t ++ post ≠ [] := by
      intro h'
      have := congrArg List.length h'
      simp [head, Verif.Cenc.be_length] at this
    have hp : PlainType t := by rcases ht with rfl | rfl <;> exact ⟨by decide, by decide⟩
    have hl : (head 0 t).length = 8 := by simp [head, Verif.Cenc.be_length]
    have hst : (pre ++ (head 0 t ++ post)).length - (8 + post.length) = pre.length := by simp only [List.length_append, hl]; omega
    have hmod : (pre.length + 0) % 2 ^ 64 = pre.length := by
      rw [List.length_append] at hN
      rw [Nat.add_zero, Nat.mod_eq_of_lt (by omega)]
    rw [fileBoxes, if_neg hne, doBox_head _ 0 t h post (by omega) (by omega) hp]
    simp only [ok_bind, hst, fileBox]
    rcases ht with rfl | rfl
    · have e : known (fourcc 'm' 'd' 'a' 't') = .mdat := by decide
      simp only [e, ok_bind, hmod, List.drop_left]
      exact zero_loop ok F pre post _ (Or.inl rfl) hN fuel _ _
    · have e : known (fourcc 'f' 'r' 'e' 'e') = .free := by decide
      simp only [e, ok_bind, hmod, List.drop_left]
      exact zero_loop ok F pre post _ (Or.inr rfl) hN fuel _ _

/-- The file type box is read and the loop goes on behind it. -/
theorem ftyp_step (ok : Accept) (n : Nat) (r : List UInt8) (hr : (ftypBox ++ r).length < 2 ^ 32) :
    ∃ (h : Hdr) (f : FileRd), f.tracks = [] ∧ parseFile ok n (ftypBox ++ r) = fileBoxes ok n (ftypBox ++ r) n h f r := by
  have hp : PlainType (fourcc 'f' 't' 'y' 'p') := ⟨by decide, by decide⟩
  have hb : (box (fourcc 'f' 't' 'y' 'p') (be 4 (fourcc 'i' 's' 'o' 'm') ++ be 4 1)).length < 2 ^ 32 := by rw [box_length]; decide
  have e : known (fourcc 'f' 't' 'y' 'p') = .ftyp := by decide
  have hne : ftypBox ++ r ≠ [] := by
    intro h'
    have := congrArg List.length h'
    simp [ftypBox, box_length] at this
  refine ⟨?_, ?_, ?_, ?_⟩
  rotate_left 3
  · rw [parseFile]
    have g := getBox_box (ftypBox ++ r).length (fourcc 'f' 't' 'y' 'p') (be 4 (fourcc 'i' 's' 'o' 'm') ++ be 4 1) r hb hp
    rw [← ftypBox] at g
    simp only [g, ok_bind, e, if_true]
    rw [fileBoxes, if_neg hne]
    have d := doBox_box (ftypBox ++ r).length (fourcc 'f' 't' 'y' 'p') ⟨0, 0, 0⟩ (be 4 (fourcc 'i' 's' 'o' 'm') ++ be 4 1) r hb hp
    rw [← ftypBox] at d
    simp only [d, ok_bind, fileBox, e, getFtyp]
    have k : u32 (u32 (8 + (be 4 (fourcc 'i' 's' 'o' 'm') ++ be 4 1).length) + 2 ^ 32 - 16) = 0 := by decide
    rw [k, List.append_assoc, pass_be _ _ _ _ (by omega), pass_be _ _ _ _ (by omega), pass_zero]
    simp only [ok_bind, getBytes, Nat.zero_mod, if_true, Nat.zero_le, List.take_zero, List.drop_zero]
    rfl
  · rfl

/-- C138 fails for a box of size 0, which in the format means up to the end of the file: an mdat or free box with this size after the file type box keeps the reader going round for ever, whatever follows. -/
theorem size_zero_witness (ok : Accept) (post : List UInt8) (t : Nat) (ht : t = fourcc 'm' 'd' 'a' 't' ∨ t = fourcc 'f' 'r' 'e' 'e') (hl : (ftypBox ++ (head 0 t ++ post)).length < 2 ^ 32) (n : Nat) :
    openFile ok n (ftypBox ++ (head 0 t ++ post)) = .error .endless := by
  obtain ⟨h, f, -, e⟩ := ftyp_step ok n (head 0 t ++ post) hl
  rw [openFile, e, zero_loop ok n ftypBox post t ht (by omega)]
  rfl

/-! ### A file that is cut inside of a track -/

/-- At the end of the data the box is the last one: with a box without content of its own, or one that is not known, the loop over the boxes of a track does not move. -/
theorem cut_loop (ok : Accept) (F N stop : Nat) (hs : N < stop) (h : Hdr) (t : TrackRd) (hk : known h.type = .mdia ∨ known h.type = .edts ∨ known h.type = .trak ∨ known h.type = .other) :
    ∀ fuel, trackBoxes ok F N stop fuel h t [] = .error .endless
  | 0 => rfl
  | fuel + 1 => by
    rw [trackBoxes, if_pos (by simpa using hs), doBox, if_pos rfl]
    have e : trackBox ok F N h t [] = .ok (t, h, []) := by
      rcases hk with k | k | k | k <;> simp only [trackBox, k, skip, List.drop_nil]
    simp only [ok_bind, e]
    exact cut_loop ok F N stop hs h t hk fuel

/-- C138 fails for a file cut off behind the header of an mdia, edts, or not known box (also one with content that is cut short) of its track: the recursion never ends. `size` is the size in the trak box, `inner` the size in
the header of the last box. -/
theorem cut_track_witness (ok : Accept) (size inner t : Nat) (hs : 16 < size ∧ size < 2 ^ 32) (hi : inner < 2 ^ 32 ∧ inner ≠ 1) (ht : PlainType t)
    (hk : known t = .mdia ∨ known t = .edts ∨ known t = .other) (n : Nat) :
    openFile ok n (ftypBox ++ (head size (fourcc 't' 'r' 'a' 'k') ++ head inner t)) = .error .endless := by
  have hl : ∀ s t, (head s t).length = 8 := fun s t => by simp [head, Verif.Cenc.be_length]
  have hfl : ftypBox.length = 16 := by decide
  have hN : (ftypBox ++ (head size (fourcc 't' 'r' 'a' 'k') ++ head inner t)).length = 32 := by simp only [List.length_append, hl, hfl]
  obtain ⟨h, f, -, e⟩ := ftyp_step ok n (head size (fourcc 't' 'r' 'a' 'k') ++ head inner t) (by rw [hN]; omega)
  rw [openFile, e]
  generalize hG : ftypBox ++ (head size (fourcc 't' 'r' 'a' 'k') ++ head inner t) = G at hN
  have main : fileBoxes ok n G n h f (head size (fourcc 't' 'r' 'a' 'k') ++ head inner t) = .error .endless := by
    cases n with
    | zero => rfl
    | succ n =>
      have hne : head size (fourcc 't' 'r' 'a' 'k') ++ head inner t ≠ [] := by
        intro h'
        have := congrArg List.length h'
        simp [hl] at this
      have ek : known (fourcc 't' 'r' 'a' 'k') = .trak := by decide
      rw [fileBoxes, if_neg hne, doBox_head _ size _ h _ hs.2 (by omega) ⟨by decide, by decide⟩]
      have m1 : (16 + size) % 2 ^ 64 = 16 + size := Nat.mod_eq_of_lt (by omega)
      simp only [ok_bind, fileBox, ek, trackParse, hN, hl, m1]
      have d := doBox_head 32 inner t ⟨32 - (8 + 8), size, fourcc 't' 'r' 'a' 'k'⟩ [] hi.1 hi.2 ht
      rw [List.append_nil] at d
      have tl : trackBoxes ok (n + 1) 32 (16 + size) (n + 1) ⟨32 - (8 + 8), size, fourcc 't' 'r' 'a' 'k'⟩ {} (head inner t) = .error .endless := by
        rw [trackBoxes, if_pos (by rw [hl]; omega), d]
        have eb : trackBox ok (n + 1) 32 ⟨32 - (8 + ([] : List UInt8).length), inner, t⟩ {} [] = .ok ({}, ⟨32 - (8 + ([] : List UInt8).length), inner, t⟩, []) := by
          rcases hk with k | k | k <;> simp only [trackBox, k, skip, List.drop_nil]
        simp only [ok_bind, eb]
        exact cut_loop ok (n + 1) 32 (16 + size) (by omega) _ _ (by rcases hk with k | k | k <;> simp [k]) n
      simp only [tl]
      rfl
  rw [main]
  rfl

/-- The file of the sample, cut behind the header of its first mdia box, by more than a kilobyte. -/
example : failure (openFile anything 5000 (file.take 256)) = some .endless ∧ file.length = 1357 := by decide +kernel

/-! ### Boxes that are not known -/

/-- C139. A box of a kind that is not known is passed over, whatever is in it, with what follows read next; also at the end of the data. -/
theorem unknown_skipped (ok : Accept) (F : Nat) (file : List UInt8) (fuel : Nat) (h : Hdr) (f : FileRd) (t : Nat) (b post : List UInt8) (ht : PlainType t)
    (hk : known t = .other) (hl : (box t b).length < 2 ^ 32) :
    ∃ h', fileBoxes ok F file (fuel + 1) h f (box t b ++ post) = fileBoxes ok F file fuel h' f post := by
  have hne : box t b ++ post ≠ [] := by
    intro h'
    have := congrArg List.length h'
    simp [box_length] at this
  refine ⟨⟨file.length - (8 + (b ++ post).length), 8 + b.length, t⟩, ?_⟩
  rw [fileBoxes, if_neg hne, doBox_box _ t h b post hl ht]
  simp only [ok_bind, fileBox, hk]
  rw [skip_box _ t b post hl]

/-- C139 fails for a box with a 64 bit size: eight bytes of what follows are passed over too. -/
theorem long_size_witness (ok : Accept) (F : Nat) (file : List UInt8) (fuel : Nat) (h : Hdr) (f : FileRd) (t : Nat) (b post : List UInt8) (ht : PlainType t)
    (hk : known t = .other) (hl : 16 + b.length < 2 ^ 32) :
    ∃ h', fileBoxes ok F file (fuel + 1) h f (be 4 1 ++ (be 4 t ++ (be 8 (16 + b.length) ++ (b ++ post)))) = fileBoxes ok F file fuel h' f (post.drop 8) := by
  have hne : be 4 1 ++ (be 4 t ++ (be 8 (16 + b.length) ++ (b ++ post))) ≠ [] := by
    intro h'
    have := congrArg List.length h'
    simp [Verif.Cenc.be_length] at this
  refine ⟨⟨file.length - (be 4 1 ++ (be 4 t ++ (be 8 (16 + b.length) ++ (b ++ post)))).length, 16 + b.length, t⟩, ?_⟩
  rw [fileBoxes, if_neg hne, doBox, if_neg hne, getBox]
  simp only [get4 1 (by omega), get4 t ht.1, ok_bind, longSize, if_true, get8 (16 + b.length) (by omega), uuidSize, ht.2, if_false, fileBox, hk]
  have e : sub64 (16 + b.length) 8 * 8 % 2 ^ 64 / 8 = b.length + 8 := by
    simp only [sub64]; omega
  rw [skip]
  simp only [e, List.drop_append, List.drop_of_length_le (Nat.le_add_right b.length 8), List.nil_append, Nat.add_sub_cancel_left]

/-- The units of the movie that the reader finds. -/
def scaleRead (x : Res (FileRd × Reader)) : Option Nat :=
  match x with
  | .ok x => some x.1.scale
  | .error _ => none

/-- The mvhd box behind such a box is not seen: the units stay 0. Behind one with a 32 bit size it is. -/
example : scaleRead (openFile anything 300 (ftypBox ++ (be 4 1 ++ (be 4 (fourcc 'a' 'b' 'c' 'd') ++ (be 8 16 ++ box (fourcc 'm' 'v' 'h' 'd') (List.replicate 112 1)))))) = some 0 ∧
    scaleRead (openFile anything 300 (ftypBox ++ (box (fourcc 'a' 'b' 'c' 'd') (List.replicate 8 0) ++ box (fourcc 'm' 'v' 'h' 'd') (List.replicate 112 1)))) = some 0x01010101 := by
  decide +kernel

/-! ### Samples presented before the first -/

namespace First

/-- As in the sample, but the second sample of the video is presented before the first. -/
def hist : List (Nat × QSample) := [(0, ⟨1200000, 0, true, [1, 2, 3]⟩), (0, ⟨400000, 400000, false, [4]⟩), (0, ⟨800000, 800000, false, [8, 9]⟩)]
def ps : List (MStream × List UInt8) := [(Verif.Movie.Sample.video, [1, 100, 0, 31])]
def mux : Mux := (Verif.Interleave.addAll 20 (Mux.new [{}] 10000000 true) hist).getD (Mux.new [{}] 10000000 true)
def file : List UInt8 := (movieFile ts hn 5 (streamsOf ps mux) mux.mdat).getD []

end First

/-- C136 fails without `first`: the writer accepts a sample presented before the first one and makes a file of it, but the reader looks before the start of an array when it opens it. -/
theorem movie_first_witness : (Verif.Interleave.addAll 20 (Mux.new [{}] 10000000 true) First.hist).isSome = true ∧
    movieFile ts hn 5 (streamsOf First.ps First.mux) First.mux.mdat = some First.file ∧ failure (openFile anything 5000 First.file) = some .thrown := by
  refine ⟨by decide +kernel, by decide +kernel, by decide +kernel⟩

end Verif.Parse
