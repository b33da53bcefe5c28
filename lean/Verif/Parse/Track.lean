import Verif.Parse.Lemmas
namespace Verif.Parse
open Verif.Cenc.Spec (be beVal)
open Verif.Cenc (be_length beVal_be)
open Verif.Fragment (fourcc full box box_length)
open Verif.Movie (words cat cat_cons cat_append cat_nil cat_one tkhdBody mdhdBody hdlrBody visualBody audioBody mvhdBody matrix full_length langBits Kind tableBody)
open Verif.Tables (sub64 u32)

/-! ### Bodies of the headers -/

theorem pass_full (n v f : Nat) (r : List UInt8) (h : 4 ≤ n) : pass n (full v f ++ r) = pass (n - 4) r := by
  rw [pass_app _ _ _ (by rw [full_length]; exact h), full_length]

theorem getTkhd_body (t : TrackRd) (now id duration volume width height : Nat) (r : List UInt8) (hid : id < 2 ^ 32) (hd : duration < 2 ^ 32) (hw : width < 2 ^ 16) (hh : height < 2 ^ 16) :
    getTkhd t (tkhdBody now id duration volume width height ++ r) = .ok ({ t with id, duration, width, height }, r) := by
  rw [getTkhd, tkhdBody]
  simp only [matrix, List.append_assoc]
  rw [getFull_full 0 1 (by omega)]
  simp (decide := true) only [ok_bind, if_false, pass_be, pass_zero, Nat.reduceSub, Nat.reduceMul]
  rw [get4 id hid]
  simp (decide := true) only [ok_bind, if_false, pass_be, pass_zero, Nat.reduceSub, Nat.reduceMul]
  rw [get4 duration hd]
  simp (decide := true) only [ok_bind, if_false, pass_be, pass_zero, Nat.reduceSub, Nat.reduceMul]
  rw [get2 width hw]
  simp (decide := true) only [ok_bind, if_false, pass_be, pass_zero, Nat.reduceSub, Nat.reduceMul]
  rw [get2 height hh]
  simp (decide := true) only [ok_bind, if_false, pass_be, pass_zero, Nat.reduceSub, Nat.reduceMul]

/-- The language as the reader gives it. -/
def langOf (l : Char × Char × Char) : Nat × Nat × Nat := (langBits l.1 + 0x60, langBits l.2.1 + 0x60, langBits l.2.2 + 0x60)

theorem langBits_lt (c : Char) : langBits c < 32 := Nat.mod_lt _ (by decide)

theorem getMdhd_body (t : TrackRd) (now scale duration : Nat) (lang : Char × Char × Char) (r : List UInt8) (hs : scale < 2 ^ 32) (hd : duration < 2 ^ 32) :
    getMdhd t (mdhdBody now scale duration lang ++ r) = .ok ({ t with scale, mediaDuration := duration, lang := langOf lang }, r) := by
  have h1 := langBits_lt lang.1
  have h2 := langBits_lt lang.2.1
  have h3 := langBits_lt lang.2.2
  rw [getMdhd, mdhdBody, langOf]
  generalize langBits lang.1 = a at *
  generalize langBits lang.2.1 = b at *
  generalize langBits lang.2.2 = c at *
  simp only [List.append_assoc]
  rw [getFull_full 0 0 (by omega)]
  simp (decide := true) only [ok_bind, if_false, pass_be, pass_zero, Nat.reduceSub, Nat.reduceMul]
  rw [get4 scale hs]
  simp only [ok_bind]
  rw [get4 duration hd]
  simp only [ok_bind]
  rw [get2 _ (by omega)]
  simp (decide := true) only [ok_bind, if_false, pass_be, pass_zero, Nat.reduceSub, Nat.reduceMul]
  have e1 : (a * 2 ^ 10 + b * 2 ^ 5 + c) / 1024 % 32 = a := by omega
  have e2 : (a * 2 ^ 10 + b * 2 ^ 5 + c) / 32 % 32 = b := by omega
  have e3 : (a * 2 ^ 10 + b * 2 ^ 5 + c) % 32 = c := by omega
  rw [e1, e2, e3]

theorem handlerName_length : Verif.Movie.handlerName.length = 25 := by decide +kernel

theorem getHdlr_body (t : TrackRd) (n ty type : Nat) (r : List UInt8) (ht : type < 2 ^ 32) :
    getHdlr ⟨n, 8 + (hdlrBody type).length, ty⟩ t (hdlrBody type ++ r) = .ok ({ t with handler := some type }, r) := by
  have hl : (hdlrBody type).length = 49 := by
    simp only [hdlrBody, List.length_append, full_length, be_length, handlerName_length]
  rw [getHdlr, hl]
  rw [hdlrBody]
  simp only [List.append_assoc]
  rw [getFull_full 0 0 (by omega)]
  simp (decide := true) only [ok_bind, if_false, pass_be, pass_zero, Nat.reduceSub, Nat.reduceMul]
  rw [get4 type ht]
  simp (decide := true) only [ok_bind, if_false, pass_be, pass_zero, Nat.reduceSub, Nat.reduceMul]
  have e : u32 (u32 (8 + 49) + 2 ^ 32 - 32) = 25 := by decide
  rw [e, if_pos (by decide), pass_app _ _ _ (by rw [handlerName_length]), handlerName_length, pass_zero]
  rfl

theorem getMvhd_body (f : FileRd) (version now scale duration next : Nat) (r : List UInt8) (hv : version = 0) (hs : scale < 2 ^ 32) (hd : duration < 2 ^ 32) :
    getMvhd f (mvhdBody version now scale duration next ++ r) = .ok ({ f with scale, duration }, r) := by
  subst hv
  rw [getMvhd, mvhdBody]
  simp (decide := true) only [matrix, List.append_assoc, if_false]
  rw [getFull_full 0 0 (by omega)]
  simp (decide := true) only [ok_bind, if_false, pass_be, pass_zero, Nat.reduceSub, Nat.reduceMul]
  rw [get4 scale hs]
  simp only [ok_bind]
  rw [get4 duration hd]
  simp (decide := true) only [ok_bind, if_false, pass_be, pass_zero, Nat.reduceSub, Nat.reduceMul]

theorem getMvhd_body1 (f : FileRd) (now scale duration next : Nat) (r : List UInt8) (hs : scale < 2 ^ 32) (hd : duration < 2 ^ 64) :
    getMvhd f (mvhdBody 1 now scale duration next ++ r) = .ok ({ f with scale, duration }, r) := by
  rw [getMvhd, mvhdBody]
  simp (decide := true) only [matrix, List.append_assoc, if_true]
  rw [getFull_full 1 0 (by omega)]
  simp (decide := true) only [ok_bind, if_true, pass_be, pass_zero, Nat.reduceSub, Nat.reduceMul]
  rw [get4 scale hs]
  simp only [ok_bind]
  rw [get8 duration hd]
  simp (decide := true) only [ok_bind, if_false, pass_be, pass_zero, Nat.reduceSub, Nat.reduceMul]

theorem getFtyp_body (f : FileRd) (n ty major minor : Nat) (brands : List Nat) (r : List UInt8) (hl : 16 + 4 * brands.length < 2 ^ 32) :
    getFtyp ⟨n, 8 + (Verif.Movie.ftypBody major minor brands).length, ty⟩ f (Verif.Movie.ftypBody major minor brands ++ r) = .ok ({ f with brands := words brands }, r) := by
  have hlen : (Verif.Movie.ftypBody major minor brands).length = 8 + 4 * brands.length := by
    simp only [Verif.Movie.ftypBody, List.length_append, be_length, words_length]
  have e : u32 (u32 (8 + (8 + 4 * brands.length)) + 2 ^ 32 - 16) = (words brands).length := by
    rw [words_length]; unfold u32; omega
  rw [getFtyp, hlen, e, Verif.Movie.ftypBody, List.append_assoc, List.append_assoc, pass_be _ _ _ _ (by decide), pass_be _ _ _ _ (by decide), pass_zero]
  simp only [ok_bind]
  rw [if_pos (by rw [words_length]; omega), getBytes_app]
  simp only [ok_bind]

theorem getElst_body (d1 d2 : Nat) (r : List UInt8) (h1 : d1 < 2 ^ 32) :
    getElst (full 0 0 ++ be 4 2 ++ (be 4 d1 ++ be 4 0xFFFFFFFF ++ be 2 1 ++ be 2 0) ++ (be 4 d2 ++ be 4 0 ++ be 2 1 ++ be 2 0) ++ r) = .ok (d1, r) := by
  rw [getElst]
  simp only [List.append_assoc]
  rw [getFull_full 0 0 (by omega)]
  simp only [ok_bind]
  rw [get4 2 (by decide)]
  simp (decide := true) only [ok_bind, getEdits, if_false, pass_be, pass_zero, Nat.reduceSub]
  rw [get4 d1 h1]
  simp (decide := true) only [ok_bind, get_be, pass_be, pass_zero, Nat.reduceSub]
  rfl

end Verif.Parse
