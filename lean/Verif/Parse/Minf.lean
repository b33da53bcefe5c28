import Verif.Parse.Entry
namespace Verif.Parse
open Verif.Cenc.Spec (be beVal)
open Verif.Cenc (be_length beVal_be)
open Verif.Fragment (fourcc full box box_length)
open Verif.Movie (words cat cat_cons cat_append cat_nil cat_one full_length Kind stsdBody MStream dinfBody KindOk)
open Verif.Tables (sub64 u32)

attribute [local irreducible] sub64 u32

theorem doBox_hdr (N s t : Nat) (h : Hdr) (r : List UInt8) (hs : s < 2 ^ 32) (hs1 : s ≠ 1) (ht : PlainType t) :
    doBox N h (be 4 s ++ (be 4 t ++ r)) = .ok (⟨N - (8 + r.length), s, t⟩, r) := by
  have hne : be 4 s ++ (be 4 t ++ r) ≠ [] := by
    intro h'
    have := congrArg List.length h'
    simp [be_length] at this
  rw [doBox, if_neg hne, getBox_hdr N s t r hs hs1 ht.1 ht.2]

/-- The content of the dref box. -/
def drefBody : List UInt8 := full 0 0 ++ be 4 1 ++ cat [(fourcc 'u' 'r' 'l' ' ', full 0 1)]

theorem dinfBody_eq : dinfBody = box (fourcc 'd' 'r' 'e' 'f') drefBody := cat_one _ _

theorem getDref_body (N : Nat) (r : List UInt8) : getDref N (drefBody ++ r) = .ok r := by
  rw [getDref, drefBody, cat_one, List.append_assoc, List.append_assoc, getFull_full 0 0 (by omega), ok_bind]
  simp only
  rw [get4 1 (by decide), ok_bind]
  simp only
  rw [getBox_box N _ (full 0 1) r (by rw [box_length, full_length]; decide) ⟨by decide, by decide⟩, ok_bind]
  simp only
  rw [getFull_full 0 1 (by omega), ok_bind]

theorem mediaHeader_body (N : Nat) (kind : Kind) (n sz : Nat) (r : List UInt8) :
    mediaHeader N (handlerOfKind kind) ⟨n, sz, (Verif.Movie.mediaHeader kind).1⟩ ((Verif.Movie.mediaHeader kind).2 ++ r) = doBox N ⟨n, sz, (Verif.Movie.mediaHeader kind).1⟩ r := by
  cases kind with
  | visual =>
    have hk : known (fourcc 'v' 'm' 'h' 'd') = .vmhd := by decide
    simp only [mediaHeader, handlerOfKind, Verif.Movie.mediaHeader, hk]
    simp only [List.append_assoc]
    rw [pass_full _ _ _ _ (by decide), pass_be _ _ _ _ (by decide), pass_be _ _ _ _ (by decide), pass_be _ _ _ _ (by decide), pass_be _ _ _ _ (by decide), pass_zero, ok_bind]
  | audio =>
    have hk : known (fourcc 's' 'm' 'h' 'd') = .smhd := by decide
    simp only [mediaHeader, handlerOfKind, Verif.Movie.mediaHeader, hk]
    simp only [List.append_assoc]
    rw [pass_full _ _ _ _ (by decide), pass_be _ _ _ _ (by decide), pass_be _ _ _ _ (by decide), pass_zero, ok_bind]

theorem not_text (kind : Kind) : handlerOfKind kind ≠ .text := by cases kind <;> simp [handlerOfKind]

theorem handlerBoxes_stbl (ok : Accept) (F N stop fuel n sz : Nat) (kind : Kind) (r : List UInt8) (hs : N - r.length < stop) (t : Nat) (ht : t = fourcc 's' 't' 'b' 'l' ∨ t = fourcc 'd' 'i' 'n' 'f') :
    handlerBoxes ok F N stop (handlerOfKind kind) (fuel + 1) ⟨n, sz, t⟩ r = (doBox N ⟨n, sz, t⟩ r >>= fun x => handlerBoxes ok F N stop (handlerOfKind kind) fuel x.1 x.2) := by
  rcases ht with rfl | rfl
  · have hk : known (fourcc 's' 't' 'b' 'l') = .stbl := by decide
    simp only [handlerBoxes, hk, not_text kind, if_false, if_neg (Nat.not_le.2 hs)]
  · have hk : known (fourcc 'd' 'i' 'n' 'f') = .dinf := by decide
    simp only [handlerBoxes, hk, not_text kind, if_false, if_neg (Nat.not_le.2 hs)]

theorem handlerBoxes_dref (ok : Accept) (F N stop fuel n sz : Nat) (kind : Kind) (r : List UInt8) (hs : N - r.length < stop) :
    handlerBoxes ok F N stop (handlerOfKind kind) (fuel + 1) ⟨n, sz, fourcc 'd' 'r' 'e' 'f'⟩ (drefBody ++ r) =
      (doBox N ⟨n, sz, fourcc 'd' 'r' 'e' 'f'⟩ r >>= fun x => handlerBoxes ok F N stop (handlerOfKind kind) fuel x.1 x.2) := by
  have hk : known (fourcc 'd' 'r' 'e' 'f') = .dref := by decide
  simp only [handlerBoxes, hk, getDref_body, ok_bind, not_text kind, if_false, if_neg (Nat.not_le.2 hs)]

theorem handlerBoxes_stsd (ok : Accept) (F N stop fuel n sz : Nat) (s : MStream) (config post : List UInt8) (hN : N < 2 ^ 32) (hk : KindOk config s.kind)
    (hl : (stsdBody s ++ post).length ≤ N) (hok : Accepted ok s.kind s.kid ∧ Accepted ok s.kind none) (hf : 3 ≤ F) :
    ∃ h', handlerBoxes ok F N stop (handlerOfKind s.kind) (fuel + 1) ⟨n, sz, fourcc 's' 't' 's' 'd'⟩ (stsdBody s ++ post) = .ok (entriesRd s, h', post) := by
  have hkn : known (fourcc 's' 't' 's' 'd') = .stsd := by decide
  obtain ⟨h', e⟩ := sampleEntries_stream ok F N s ⟨n, sz, fourcc 's' 't' 's' 'd'⟩ config post hN hk
    (by rw [stsdBody] at hl; simp only [List.length_append] at hl ⊢; omega) hok hf
  refine ⟨h', ?_⟩
  simp only [handlerBoxes, hkn]
  rw [stsdBody, List.append_assoc, getFull_full 0 0 (by omega), ok_bind]
  simp only
  rw [List.append_assoc, get4 _ (by split <;> decide), ok_bind]
  simp only
  rw [e, ok_bind]
  simp only
  rw [if_neg (by split <;> decide)]

/-- The bytes of a minf box from its content up to the first table: media header, data reference, header of the sample table box with size `s2`, sample descriptions. -/
def minfHead (s : MStream) (s2 : Nat) : List UInt8 :=
  box (Verif.Movie.mediaHeader s.kind).1 (Verif.Movie.mediaHeader s.kind).2 ++ (box (fourcc 'd' 'i' 'n' 'f') dinfBody ++ (be 4 s2 ++ (be 4 (fourcc 's' 't' 'b' 'l') ++ box (fourcc 's' 't' 's' 'd') (stsdBody s))))

theorem mediaHeader_plain (kind : Kind) : PlainType (Verif.Movie.mediaHeader kind).1 := by
  cases kind <;> simp only [Verif.Movie.mediaHeader] <;> exact ⟨by decide, by decide⟩

theorem handlerParse_body (ok : Accept) (F N n sz s2 : Nat) (s : MStream) (config post : List UInt8) (hN : N < 2 ^ 32) (hk : KindOk config s.kind)
    (hl : 8 + (minfHead s s2 ++ post).length ≤ N) (hok : Accepted ok s.kind s.kid ∧ Accepted ok s.kind none) (hf : 4 ≤ F) (hn : n = N - (8 + (minfHead s s2 ++ post).length))
    (hsz : 8 + (minfHead s s2).length ≤ sz) (hsz2 : sz < 2 ^ 32) (hs2 : s2 < 2 ^ 32) (hs21 : s2 ≠ 1) :
    ∃ h', handlerParse ok F N (handlerOfKind s.kind) ⟨n, sz, fourcc 'm' 'i' 'n' 'f'⟩ (minfHead s s2 ++ post) = .ok (entriesRd s, h', post) := by
  obtain ⟨f, rfl⟩ : ∃ f, F = f + 1 + 1 + 1 + 1 := ⟨F - 4, by omega⟩
  have hstop : N - post.length ≤ n + sz := by rw [hn]; simp only [List.length_append] at hl ⊢; omega
  rw [handlerParse]
  simp only
  rw [Nat.mod_eq_of_lt (by omega : n + sz < 2 ^ 64)]
  generalize n + sz = stop at hstop
  clear hn hsz
  simp only [minfHead, List.append_assoc] at hl ⊢
  rw [doBox_step N _ _ _ _ hN (by simp only [List.length_append] at hl ⊢; omega) (mediaHeader_plain s.kind), ok_bind]
  simp only
  rw [mediaHeader_body, doBox_step N _ _ _ _ hN (by simp only [List.length_append] at hl ⊢; omega) ⟨by decide, by decide⟩, ok_bind]
  simp only
  rw [handlerBoxes_stbl _ _ _ _ _ _ _ _ _ (by simp only [List.length_append, box_length] at hl ⊢; omega) _ (Or.inr rfl)]
  rw [dinfBody_eq] at hl ⊢
  rw [doBox_step N _ _ _ _ hN (by simp only [List.length_append, box_length] at hl ⊢; omega) ⟨by decide, by decide⟩, ok_bind]
  simp only
  rw [handlerBoxes_dref _ _ _ _ _ _ _ _ _ (by simp only [List.length_append, box_length] at hl ⊢; omega), doBox_hdr N s2 _ _ _ hs2 hs21 ⟨by decide, by decide⟩, ok_bind]
  simp only
  rw [handlerBoxes_stbl _ _ _ _ _ _ _ _ _ (by simp only [List.length_append, box_length] at hl ⊢; omega) _ (Or.inl rfl),
    doBox_step N _ _ _ _ hN (by simp only [List.length_append, box_length] at hl ⊢; omega) ⟨by decide, by decide⟩, ok_bind]
  simp only
  exact handlerBoxes_stsd ok _ N stop _ _ _ s config post hN hk (by simp only [List.length_append, box_length] at hl ⊢; omega) hok (by omega)

end Verif.Parse
