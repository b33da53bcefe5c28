import Verif.Parse.TrackRead
namespace Verif.Parse
open Verif.Cenc.Spec (be beVal)
open Verif.Cenc (be_length beVal_be)
open Verif.Fragment (fourcc full box box_length)
open Verif.Movie (words cat cat_cons cat_append cat_nil cat_one MStream Fits traks moovList mvhdOf movieFtyp trakList mvhdBody)
open Verif.Tables (sub64 u32)

attribute [local irreducible] sub64 u32

/-! ### The file -/

theorem ne_nil_of_box (t : Nat) (b post : List UInt8) : box t b ++ post ≠ [] := by
  intro h
  have := congrArg List.length h
  simp [box_length] at this

/-- What is asked of the stream `x.1` with the sample to chunk entries `x.2`. -/
def StreamOk (ok : Accept) (ts hn : Nat → Nat → Nat) (k : Nat) (x : MStream × List (Nat × Nat)) : Prop :=
  (∃ config, Fits ts x.1 config) ∧ TablesOk ts hn x.1 x.2 k ∧ Accepted ok x.1.kind x.1.kid ∧ Accepted ok x.1.kind none

theorem fileBoxes_traks (ok : Accept) (F : Nat) (file : List UInt8) (ts hn : Nat → Nat → Nat) (now k : Nat) (hN : file.length < 2 ^ 32) (hF : file.length ≤ F) :
    ∀ (l : List (MStream × List (Nat × Nat))) (fuel : Nat) (h : Hdr) (f : FileRd) (post : List UInt8), (∀ x ∈ l, StreamOk ok ts hn k x) →
      (cat (traks ts hn now k l) ++ post).length ≤ file.length →
      ∃ h', fileBoxes ok F file (fuel + l.length) h f (cat (traks ts hn now k l) ++ post) =
        fileBoxes ok F file fuel h' { f with tracks := f.tracks ++ l.map fun x => (trackRd ts hn x.1 x.2 k, f.scale) } post
  | [], fuel, h, f, post, _, _ => ⟨h, by simp [traks, cat_nil]⟩
  | x :: l, fuel, h, f, post, hx, hl => by
    obtain ⟨⟨config, hfit⟩, htab, hok1, hok2⟩ := hx x (by simp)
    have e0 : cat (traks ts hn now k (x :: l)) ++ post = box (fourcc 't' 'r' 'a' 'k') (cat (trakList ts hn now x.1 x.2 k)) ++ (cat (traks ts hn now k l) ++ post) := by
      simp only [traks, List.map_cons, cat_cons, List.append_assoc]
    rw [e0] at hl ⊢
    have hl' := hl
    rw [List.length_append, box_length] at hl'
    obtain ⟨T, hT⟩ : ∃ T, T = cat (trakList ts hn now x.1 x.2 k) := ⟨_, rfl⟩
    obtain ⟨h1, e1⟩ := trackParse_trak ok F file.length ts hn now x.1 x.2 k config (cat (traks ts hn now k l) ++ post) hfit htab ⟨hok1, hok2⟩ hN hF (by rw [List.length_append]; omega)
    obtain ⟨h', e2⟩ := fileBoxes_traks ok F file ts hn now k hN hF l fuel h1 { f with tracks := f.tracks ++ [(trackRd ts hn x.1 x.2 k, f.scale)] } post (fun y hy => hx y (by simp [hy])) (by omega)
    refine ⟨h', ?_⟩
    rw [← hT] at hl e1 ⊢
    have hk : known (fourcc 't' 'r' 'a' 'k') = .trak := by decide
    have hlen : fuel + (x :: l).length = fuel + l.length + 1 := by rw [List.length_cons]; omega
    rw [hlen, fileBoxes, if_neg (ne_nil_of_box _ _ _), doBox_step file.length _ h T _ hN hl ⟨by decide, by decide⟩, ok_bind]
    simp only
    rw [fileBox]
    simp only [hk]
    rw [e1, ok_bind, ok_bind]
    simp only
    rw [e2]
    simp only [List.map_cons, List.append_assoc, List.singleton_append]

/-- The brands of the file. -/
def brandBytes : List UInt8 := words [fourcc 'i' 's' 'o' 'm', fourcc 'i' 's' 'o' '2', fourcc 'a' 'v' 'c' '1', fourcc 'm' 'p' '4' '1']

/-- The whole file is read. -/
theorem parseFile_movie (ok : Accept) (fuel : Nat) (ts hn : Nat → Nat → Nat) (now k duration next : Nat) (l : List (MStream × List (Nat × Nat))) (body M file : List UInt8)
    (hM : M = box (fourcc 'm' 'v' 'h' 'd') (mvhdBody 0 now 1000 duration next) ++ cat (traks ts hn now k l))
    (hfile : file = box (fourcc 'f' 't' 'y' 'p') movieFtyp ++ (box (fourcc 'm' 'o' 'o' 'v') M ++ box (fourcc 'm' 'd' 'a' 't') body))
    (hx : ∀ x ∈ l, StreamOk ok ts hn k x) (hN : file.length < 2 ^ 32) (hF : file.length ≤ fuel) (hd : duration < 2 ^ 32) :
    parseFile ok fuel file = .ok { brands := brandBytes, scale := 1000, duration, mdatEnd := file.length, tracks := l.map fun x => (trackRd ts hn x.1 x.2 k, 1000) } := by
  have hNl := congrArg List.length hfile
  have hMl := congrArg List.length hM
  simp only [List.length_append, box_length] at hNl hMl
  have hf1 : movieFtyp.length = 24 := by decide
  have hcat : l.length * 8 ≤ (cat (traks ts hn now k l)).length := by
    clear hMl hNl hM hx
    induction l with
    | nil => simp
    | cons x l ih =>
      simp only [traks, List.map_cons, cat_cons, List.length_append, box_length, List.length_cons] at ih ⊢; omega
  obtain ⟨n, hn'⟩ : ∃ n, fuel + 1 = (n + 2) + l.length + 3 := ⟨fuel + 1 - (l.length + 5), by omega⟩
  have k1 : known (fourcc 'f' 't' 'y' 'p') = .ftyp := by decide
  have k2 : known (fourcc 'm' 'o' 'o' 'v') = .moov := by decide
  have k3 : known (fourcc 'm' 'v' 'h' 'd') = .mvhd := by decide
  have k4 : known (fourcc 'm' 'd' 'a' 't') = .mdat := by decide
  have p1 : PlainType (fourcc 'f' 't' 'y' 'p') := ⟨by decide, by decide⟩
  have p2 : PlainType (fourcc 'm' 'o' 'o' 'v') := ⟨by decide, by decide⟩
  have p3 : PlainType (fourcc 'm' 'v' 'h' 'd') := ⟨by decide, by decide⟩
  have p4 : PlainType (fourcc 'm' 'd' 'a' 't') := ⟨by decide, by decide⟩
  have g1 : getBox file.length file = .ok (hdrOf file.length (fourcc 'f' 't' 'y' 'p') movieFtyp (box (fourcc 'm' 'o' 'o' 'v') M ++ box (fourcc 'm' 'd' 'a' 't') body),
      movieFtyp ++ (box (fourcc 'm' 'o' 'o' 'v') M ++ box (fourcc 'm' 'd' 'a' 't') body)) := by
    have := getBox_box file.length (fourcc 'f' 't' 'y' 'p') movieFtyp (box (fourcc 'm' 'o' 'o' 'v') M ++ box (fourcc 'm' 'd' 'a' 't') body) (by rw [box_length, hf1]; decide) p1
    rw [← hfile] at this
    exact this
  rw [parseFile, g1, ok_bind]
  simp only [k1, if_true]
  rw [hn', fileBoxes, if_neg (by rw [hfile]; exact ne_nil_of_box _ _ _)]
  have g2 : ∀ h, doBox file.length h file = .ok (hdrOf file.length (fourcc 'f' 't' 'y' 'p') movieFtyp (box (fourcc 'm' 'o' 'o' 'v') M ++ box (fourcc 'm' 'd' 'a' 't') body),
      movieFtyp ++ (box (fourcc 'm' 'o' 'o' 'v') M ++ box (fourcc 'm' 'd' 'a' 't') body)) := by
    intro h
    rw [doBox, if_neg (by rw [hfile]; exact ne_nil_of_box _ _ _), g1]
  rw [g2, ok_bind]
  simp only
  rw [fileBox]
  simp only [k1]
  have e1 := getFtyp_body {} (file.length - (8 + (movieFtyp ++ (box (fourcc 'm' 'o' 'o' 'v') M ++ box (fourcc 'm' 'd' 'a' 't') body)).length)) (fourcc 'f' 't' 'y' 'p')
    (fourcc 'i' 's' 'o' 'm') 512 [fourcc 'i' 's' 'o' 'm', fourcc 'i' 's' 'o' '2', fourcc 'a' 'v' 'c' '1', fourcc 'm' 'p' '4' '1']
    (box (fourcc 'm' 'o' 'o' 'v') M ++ box (fourcc 'm' 'd' 'a' 't') body) (by decide)
  rw [← Verif.Movie.movieFtyp] at e1
  rw [hdrOf, e1, ok_bind, ok_bind]
  simp only
  rw [← brandBytes]
  rw [fileBoxes, if_neg (ne_nil_of_box _ _ _), doBox_step file.length _ _ M _ hN (by simp only [List.length_append, box_length]; omega) p2, ok_bind]
  simp only
  rw [fileBox]
  simp only [k2]
  rw [ok_bind]
  simp only
  rw [hM, List.append_assoc]
  rw [fileBoxes, if_neg (ne_nil_of_box _ _ _), doBox_step file.length _ _ _ _ hN (by simp only [List.length_append, box_length]; omega) p3, ok_bind]
  simp only
  rw [fileBox]
  simp only [k3]
  rw [getMvhd_body _ 0 now 1000 duration next _ rfl (by decide) hd, ok_bind, ok_bind]
  simp only
  obtain ⟨h', e2⟩ := fileBoxes_traks ok fuel file ts hn now k hN hF l (n + 2)
    (hdrOf file.length (fourcc 'm' 'v' 'h' 'd') (mvhdBody 0 now 1000 duration next) (cat (traks ts hn now k l) ++ box (fourcc 'm' 'd' 'a' 't') body))
    { brands := brandBytes, scale := 1000, duration } (box (fourcc 'm' 'd' 'a' 't') body) hx (by simp only [List.length_append, box_length]; omega)
  rw [e2, ← List.append_nil (box (fourcc 'm' 'd' 'a' 't') body)]
  rw [fileBoxes, if_neg (ne_nil_of_box _ _ _), doBox_step file.length _ _ _ _ hN (by simp only [List.length_append, box_length, List.length_nil]; omega) p4, ok_bind]
  simp only
  rw [fileBox]
  simp only [k4]
  have e3 : (file.length - (8 + (body ++ []).length) + (8 + body.length)) % 2 ^ 64 = file.length := by
    rw [List.append_nil]; omega
  rw [e3, List.drop_length, ok_bind]
  simp only
  rw [fileBoxes, if_pos rfl, List.nil_append]

end Verif.Parse
