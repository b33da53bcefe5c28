import Verif.Fragment.Model
import Verif.Fragment.Spec
import Verif.Cenc.Props
namespace Verif.Fragment
open Verif.Cenc.Spec (be beVal)
open Verif.Cenc (be_length beVal_be)

/-- A box as a byte string. -/
def box (t : Nat) (b : List UInt8) : List UInt8 := be 4 (8 + b.length) ++ be 4 t ++ b

theorem box_length (t : Nat) (b : List UInt8) : (box t b).length = 8 + b.length := by
  simp [box, be_length]; omega

/-- A file written to its end. -/
def atEnd (B : List UInt8) (ps : List Nat) : W := ⟨B, B.length, ps⟩

theorem put_atEnd (B b : List UInt8) (ps : List Nat) : (atEnd B ps).put b = atEnd (B ++ b) ps := by
  simp [atEnd, W.put]

theorem patch (a o x c : List UInt8) (ps : List Nat) (p e : Nat) (h : o.length = x.length) (hp : p = a.length) :
    ((W.seek ⟨a ++ (o ++ c), e, ps⟩ p).put x).seek e = ⟨a ++ (x ++ c), e, ps⟩ := by
  subst hp
  simp only [W.seek, W.put, W.mk.injEq, and_true]
  rw [List.take_left, List.append_assoc]
  congr 2
  rw [← h, ← List.append_assoc, ← List.length_append, List.drop_left]

theorem child_atEnd (B b : List UInt8) (t : Nat) (ps : List Nat) : (atEnd B ps).child t b = atEnd (B ++ box t b) ps := by
  simp only [W.child, put_atEnd]
  have h := patch B (be 4 0xFFFFFFFF) (be 4 (8 + b.length)) (be 4 t ++ b) ps B.length (B ++ (be 4 0xFFFFFFFF ++ (be 4 t ++ b))).length
    (by rw [be_length, be_length]) rfl
  have e : (B ++ be 4 0xFFFFFFFF ++ be 4 t ++ b).length - B.length = 8 + b.length := by
    simp only [List.length_append, be_length]; omega
  have e' : (atEnd B ps).pos = B.length := rfl
  have e'' : (atEnd (B ++ be 4 0xFFFFFFFF ++ be 4 t ++ b) ps).pos = (B ++ be 4 0xFFFFFFFF ++ be 4 t ++ b).length := rfl
  rw [e', e'', e]
  rw [show atEnd (B ++ be 4 0xFFFFFFFF ++ be 4 t ++ b) ps =
    ⟨B ++ (be 4 0xFFFFFFFF ++ (be 4 t ++ b)), (B ++ (be 4 0xFFFFFFFF ++ (be 4 t ++ b))).length, ps⟩ by simp [atEnd]]
  rw [show (B ++ be 4 0xFFFFFFFF ++ be 4 t ++ b).length = (B ++ (be 4 0xFFFFFFFF ++ (be 4 t ++ b))).length by simp, h]
  simp [atEnd, box, be_length]

/-- What `open_box` leaves in the file. -/
def opened (t : Nat) : List UInt8 := be 4 0xFFFFFFFF ++ be 4 t

theorem opened_length (t : Nat) : (opened t).length = 8 := by simp [opened, be_length]

theorem openBox_atEnd (B : List UInt8) (t : Nat) (ps : List Nat) :
    (atEnd B ps).openBox t = atEnd (B ++ opened t) (B.length :: ps) := by
  simp only [W.openBox, put_atEnd]
  simp [atEnd, opened]

theorem closeBox_atEnd (X B b : List UInt8) (t : Nat) (ps : List Nat) (h : X = B ++ (opened t ++ b)) :
    (atEnd X (B.length :: ps)).closeBox = atEnd (B ++ box t b) ps := by
  subst h
  have h := patch B (be 4 0xFFFFFFFF) (be 4 (8 + b.length)) (be 4 t ++ b) (B.length :: ps) B.length (B ++ (be 4 0xFFFFFFFF ++ (be 4 t ++ b))).length
    (by rw [be_length, be_length]) rfl
  simp only [W.closeBox, atEnd, opened]
  have e : (B ++ (be 4 0xFFFFFFFF ++ be 4 t ++ b)).length - B.length = 8 + b.length := by
    simp only [List.length_append, be_length]; omega
  rw [e]
  have e2 : be 4 0xFFFFFFFF ++ be 4 t ++ b = be 4 0xFFFFFFFF ++ (be 4 t ++ b) := by simp
  rw [e2, h]
  simp [box, be_length]

/-! ### The segment as a byte string -/

def tfdtBytes (f : Frag) : List UInt8 :=
  if f.base ≠ 2 ^ 64 - 1 then box (fourcc 't' 'f' 'd' 't') (full 1 0 ++ be 4 (f.base / 2 ^ 32) ++ be 4 f.base) else []

def mfhdBytes (f : Frag) : List UInt8 := box (fourcc 'm' 'f' 'h' 'd') (full 0 0 ++ be 4 f.sequence)
def tfhdBytes (f : Frag) : List UInt8 := box (fourcc 't' 'f' 'h' 'd') (full 0 0 ++ be 4 f.trackId)
def trunBytes (f : Frag) (g : Nat) : List UInt8 := box (fourcc 't' 'r' 'u' 'n') (trunBody f g)

/-- Bytes of the moof before the encryption boxes. -/
def beforeEnc (f : Frag) : Nat := 8 + (mfhdBytes f).length + 8 + (tfhdBytes f).length + (tfdtBytes f).length + (trunBytes f 0).length

def encBytes (f : Frag) : List UInt8 :=
  match f.enc with
  | none => []
  | some (_, s) =>
    box (fourcc 's' 'a' 'i' 'z') (saizBody s.entries.length) ++ (box (fourcc 's' 'a' 'i' 'o') (saioBody (beforeEnc f + 53)) ++
      box (fourcc 's' 'e' 'n' 'c') (sencBody s.entries))

def trafBody (f : Frag) (g : Nat) : List UInt8 := tfhdBytes f ++ (tfdtBytes f ++ (trunBytes f g ++ encBytes f))

def moofBytes (f : Frag) (g : Nat) : List UInt8 :=
  box (fourcc 'm' 'o' 'o' 'f') (mfhdBytes f ++ box (fourcc 't' 'r' 'a' 'f') (trafBody f g))

def segBytes (f : Frag) : List UInt8 :=
  box (fourcc 's' 't' 'y' 'p') stypBody ++
    (box (fourcc 's' 'i' 'd' 'x') (sidxBody f ((moofBytes f 0).length + 8 + f.mdat.length)) ++
      (moofBytes f ((moofBytes f 0).length + 8) ++ box (fourcc 'm' 'd' 'a' 't') f.mdat))

theorem trunBody_length (f : Frag) (g g' : Nat) : (trunBody f g).length = (trunBody f g').length := by
  simp only [trunBody, List.length_append, be_length]
  split <;> simp [be_length]

theorem moof_length (f : Frag) (g g' : Nat) : (moofBytes f g).length = (moofBytes f g').length := by
  simp only [moofBytes, box_length, List.length_append, trafBody, trunBytes, trunBody_length f g g']

theorem endHead_eq (f : Frag) (gs gt : Nat) (B : List UInt8) (ps : List Nat) :
    let A := B ++ box (fourcc 's' 't' 'y' 'p') stypBody ++ box (fourcc 's' 'i' 'd' 'x') (sidxBody f gs)
    let M := A ++ opened (fourcc 'm' 'o' 'o' 'f') ++ mfhdBytes f
    f.endHead gs gt (atEnd B ps) =
      (atEnd (M ++ opened (fourcc 't' 'r' 'a' 'f') ++ tfhdBytes f ++ tfdtBytes f ++ trunBytes f gt) (M.length :: A.length :: ps),
        A.length, (M ++ opened (fourcc 't' 'r' 'a' 'f') ++ tfhdBytes f ++ tfdtBytes f).length + 16,
        (B ++ box (fourcc 's' 't' 'y' 'p') stypBody).length + 32) := by
  intro A M
  simp only [Frag.endHead, child_atEnd, openBox_atEnd]
  by_cases hb : f.base ≠ 2 ^ 64 - 1
  · simp only [if_pos hb, child_atEnd, tfdtBytes, mfhdBytes, tfhdBytes, trunBytes, M, A]
    rfl
  · simp only [if_neg hb, child_atEnd, tfdtBytes, mfhdBytes, tfhdBytes, trunBytes, List.append_nil, M, A]
    rfl

theorem endEnc_eq (f : Frag) (X : List UInt8) (ps : List Nat) (p : Nat) (h : X.length = p + beforeEnc f) :
    f.endEnc p (atEnd X ps) = atEnd (X ++ encBytes f) ps := by
  unfold Frag.endEnc encBytes
  cases he : f.enc with
  | none => simp
  | some v =>
    obtain ⟨sub, s⟩ := v
    simp only [child_atEnd]
    rw [show (atEnd X ps).pos + 16 - p + 17 + 20 = beforeEnc f + 53 from by
      rw [show (atEnd X ps).pos = X.length from rfl, h]; omega]
    simp

theorem sidxBody_split (f : Frag) (g : Nat) : ∃ a c, a.length = 24 ∧ ∀ g, sidxBody f g = a ++ (be 4 g ++ c) := by
  refine ⟨full 0 0 ++ be 4 f.trackId ++ be 4 f.timescale ++ be 4 ((f.items.headD ⟨0, 0, 0⟩).offset + f.base) ++ be 4 0 ++
    be 2 0 ++ be 2 1, be 4 f.duration ++ be 4 (1 * 2 ^ 31 + 1 * 2 ^ 28), by simp [full, be_length], ?_⟩
  intro g
  simp [sidxBody]

theorem trunBody_split (f : Frag) (hf : f.trunFlags &&& 0x000001 ≠ 0) :
    ∃ a c, a.length = 8 ∧ ∀ g, trunBody f g = a ++ (be 4 g ++ c) := by
  refine ⟨full 1 f.trunFlags ++ be 4 f.items.length, (if f.trunFlags &&& 0x000004 ≠ 0 then be 4 f.firstFlags else []) ++ f.items.flatMap (itemBody f.trunFlags),
    by simp [full, be_length], ?_⟩
  intro g
  rw [trunBody, if_pos hf]
  simp

/-- The bytes that `end` adds to the file. -/
theorem finish_eq (f : Frag) (hf : f.trunFlags &&& 0x000001 ≠ 0) (gs gt : Nat) (B : List UInt8) (ps : List Nat) :
    f.finish gs gt (atEnd B ps) = atEnd (B ++ segBytes f) ps := by
  obtain ⟨sa, sc, hsl, hs⟩ := sidxBody_split f 0
  obtain ⟨ta, tc, htl, ht⟩ := trunBody_split f hf
  simp only [Frag.finish]
  rw [endHead_eq]
  obtain ⟨A, hA⟩ : ∃ A, A = B ++ box (fourcc 's' 't' 'y' 'p') stypBody ++ box (fourcc 's' 'i' 'd' 'x') (sidxBody f gs) := ⟨_, rfl⟩
  obtain ⟨M, hM⟩ : ∃ M, M = A ++ opened (fourcc 'm' 'o' 'o' 'f') ++ mfhdBytes f := ⟨_, rfl⟩
  rw [← hA, ← hM]
  simp only
  rw [endEnc_eq f _ _ _ (by
    simp only [hM, beforeEnc, List.length_append, opened_length, trunBytes, box_length]
    rw [trunBody_length f gt 0]; omega)]
  rw [closeBox_atEnd _ M (trafBody f gt) (fourcc 't' 'r' 'a' 'f') _ (by simp [trafBody])]
  rw [closeBox_atEnd _ A (mfhdBytes f ++ box (fourcc 't' 'r' 'a' 'f') (trafBody f gt)) (fourcc 'm' 'o' 'o' 'f') _ (by simp [hM])]
  rw [put_atEnd, put_atEnd, put_atEnd, if_pos hf]
  rw [← moofBytes]
  obtain ⟨T, hT⟩ : ∃ T, T = B ++ box (fourcc 's' 't' 'y' 'p') stypBody := ⟨_, rfl⟩
  rw [← hT] at hA ⊢
  have p1 : (atEnd (A ++ moofBytes f gt ++ be 4 (f.mdat.length + 8) ++ be 4 (fourcc 'm' 'd' 'a' 't')) ps).pos - A.length =
      (moofBytes f 0).length + 8 := by
    show (A ++ moofBytes f gt ++ be 4 (f.mdat.length + 8) ++ be 4 (fourcc 'm' 'd' 'a' 't')).length - A.length = _
    simp only [List.length_append, be_length, moof_length f gt 0]; omega
  have p2 : (atEnd (A ++ moofBytes f gt ++ be 4 (f.mdat.length + 8) ++ be 4 (fourcc 'm' 'd' 'a' 't') ++ f.mdat) ps).pos - A.length =
      (moofBytes f 0).length + 8 + f.mdat.length := by
    show (A ++ moofBytes f gt ++ be 4 (f.mdat.length + 8) ++ be 4 (fourcc 'm' 'd' 'a' 't') ++ f.mdat).length - A.length = _
    simp only [List.length_append, be_length, moof_length f gt 0]; omega
  rw [p1, p2]
  -- the data offset
  have q1 : ∀ g, A ++ moofBytes f g ++ be 4 (f.mdat.length + 8) ++ be 4 (fourcc 'm' 'd' 'a' 't') ++ f.mdat =
      (A ++ be 4 (8 + (mfhdBytes f ++ box (fourcc 't' 'r' 'a' 'f') (trafBody f 0)).length) ++ be 4 (fourcc 'm' 'o' 'o' 'f') ++ mfhdBytes f ++
        be 4 (8 + (trafBody f 0).length) ++ be 4 (fourcc 't' 'r' 'a' 'f') ++ tfhdBytes f ++ tfdtBytes f ++ be 4 (8 + (trunBody f 0).length) ++
        be 4 (fourcc 't' 'r' 'u' 'n') ++ ta) ++
      (be 4 g ++ (tc ++ encBytes f ++ be 4 (f.mdat.length + 8) ++ be 4 (fourcc 'm' 'd' 'a' 't') ++ f.mdat)) := by
    intro g
    have l1 : (mfhdBytes f ++ box (fourcc 't' 'r' 'a' 'f') (trafBody f g)).length = (mfhdBytes f ++ box (fourcc 't' 'r' 'a' 'f') (trafBody f 0)).length := by
      simp only [List.length_append, box_length, trafBody, trunBytes, trunBody_length f g 0]
    have l2 : (trafBody f g).length = (trafBody f 0).length := by
      simp only [List.length_append, box_length, trafBody, trunBytes, trunBody_length f g 0]
    have l3 := trunBody_length f g 0
    obtain ⟨k1, hk1⟩ : ∃ k, (mfhdBytes f ++ box (fourcc 't' 'r' 'a' 'f') (trafBody f 0)).length = k := ⟨_, rfl⟩
    obtain ⟨k2, hk2⟩ : ∃ k, (trafBody f 0).length = k := ⟨_, rfl⟩
    obtain ⟨k3, hk3⟩ : ∃ k, (trunBody f 0).length = k := ⟨_, rfl⟩
    rw [hk1] at l1 ⊢; rw [hk2] at l2 ⊢; rw [hk3] at l3 ⊢
    rw [moofBytes, box, l1, box, l2, trafBody, trunBytes, box, l3, ht g]
    simp only [List.append_assoc]
  obtain ⟨Z, hZ⟩ : ∃ Z, Z = (atEnd (A ++ moofBytes f gt ++ be 4 (f.mdat.length + 8) ++ be 4 (fourcc 'm' 'd' 'a' 't') ++ f.mdat) ps).pos := ⟨_, rfl⟩
  rw [← hZ]
  have hZ' : Z = (A ++ moofBytes f gt ++ be 4 (f.mdat.length + 8) ++ be 4 (fourcc 'm' 'd' 'a' 't') ++ f.mdat).length := hZ
  rw [show atEnd (A ++ moofBytes f gt ++ be 4 (f.mdat.length + 8) ++ be 4 (fourcc 'm' 'd' 'a' 't') ++ f.mdat) ps =
    ⟨A ++ moofBytes f gt ++ be 4 (f.mdat.length + 8) ++ be 4 (fourcc 'm' 'd' 'a' 't') ++ f.mdat, Z, ps⟩ by rw [atEnd, hZ']]
  rw [q1 gt]
  rw [patch _ _ (be 4 ((moofBytes f 0).length + 8)) _ ps _ Z (by rw [be_length, be_length]) (by
    simp only [hM, List.length_append, be_length, opened_length, htl])]
  rw [← q1]
  -- the referenced size
  have q2 : ∀ g Y, T ++ box (fourcc 's' 'i' 'd' 'x') (sidxBody f g) ++ Y =
      (T ++ be 4 (8 + (sidxBody f 0).length) ++ be 4 (fourcc 's' 'i' 'd' 'x') ++ sa) ++ (be 4 g ++ (sc ++ Y)) := by
    intro g Y
    rw [box, hs g, hs 0]
    simp [be_length]
  rw [hA]
  rw [show T ++ box (fourcc 's' 'i' 'd' 'x') (sidxBody f gs) ++ moofBytes f ((moofBytes f 0).length + 8) ++ be 4 (f.mdat.length + 8) ++
    be 4 (fourcc 'm' 'd' 'a' 't') ++ f.mdat = T ++ box (fourcc 's' 'i' 'd' 'x') (sidxBody f gs) ++
      (moofBytes f ((moofBytes f 0).length + 8) ++ be 4 (f.mdat.length + 8) ++ be 4 (fourcc 'm' 'd' 'a' 't') ++ f.mdat) by simp]
  rw [q2, patch _ _ (be 4 ((moofBytes f 0).length + 8 + f.mdat.length)) _ ps _ Z (by rw [be_length, be_length]) (by
    simp only [List.length_append, be_length, hsl])]
  rw [← q2]
  have hseg : T ++ box (fourcc 's' 'i' 'd' 'x') (sidxBody f ((moofBytes f 0).length + 8 + f.mdat.length)) ++
      (moofBytes f ((moofBytes f 0).length + 8) ++ be 4 (f.mdat.length + 8) ++ be 4 (fourcc 'm' 'd' 'a' 't') ++ f.mdat) = B ++ segBytes f := by
    rw [hT, segBytes, box, box, box]
    simp [Nat.add_comm]
  rw [hseg, atEnd, hZ', ← hseg, hA]
  simp only [W.mk.injEq, true_and, and_true, List.length_append, box_length, be_length, moof_length f gt ((moofBytes f 0).length + 8),
    hs, Nat.add_assoc]

end Verif.Fragment
