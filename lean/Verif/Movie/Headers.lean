import Verif.Movie.Stbl
namespace Verif.Movie
open Verif.Cenc.Spec (be beVal)
open Verif.Cenc (be_length beVal_be)
open Verif.Fragment (W fourcc full box box_length num_be num1 num2 num3 num4 num4' raw_append full_read boxList)
open Verif.Fragment.Spec (chars num raw)

theorem num22 (a b : Nat) (r : List UInt8) : num 4 (be 2 a ++ (be 2 b ++ r)) = some (a % 2 ^ 16 * 2 ^ 16 + b % 2 ^ 16, r) := by
  have h : 4 ≤ (be 2 a ++ (be 2 b ++ r)).length := by simp only [List.length_append, be_length]; omega
  rw [num, if_pos h]
  have l : (be 2 a ++ be 2 b).length = 4 := by simp [be_length]
  have e1 : (be 2 a ++ (be 2 b ++ r)).take 4 = be 2 a ++ be 2 b := by
    rw [← List.append_assoc, List.take_append_of_le_length (by omega), List.take_of_length_le (by omega)]
  have e2 : (be 2 a ++ (be 2 b ++ r)).drop 4 = r := by
    rw [← List.append_assoc]
    conv => lhs; arg 1; rw [← l]
    exact List.drop_left
  rw [e1, e2, Cenc.beVal_append, beVal_be, beVal_be, be_length, show 256 ^ 2 = 2 ^ 16 from rfl]

theorem raw_of (k : Nat) (a r : List UInt8) (X : List UInt8) (hX : X = a ++ r) (h : a.length = k) : raw k X = some (a, r) := by rw [hX]; exact raw_append k a r h

theorem matrix_length : matrix.length = 36 := by simp [matrix, be_length]

theorem times0 (now : Nat) (f : Nat) (r : List UInt8) : Spec.times (full 0 f ++ (be 4 now ++ (be 4 now ++ r))) = some (4, r) := by
  simp only [Spec.times, full_read, Option.bind_eq_bind, Option.bind_some, Nat.reducePow, Nat.reduceMod, OfNat.zero_ne_ofNat, if_false, num4, Nat.zero_ne_one]

theorem times1 (now : Nat) (f : Nat) (r : List UInt8) : Spec.times (full 1 f ++ (be 8 now ++ (be 8 now ++ r))) = some (8, r) := by
  simp only [Spec.times, full_read, Option.bind_eq_bind, Option.bind_some, Nat.reducePow, Nat.reduceMod, if_true, num_be]

theorem mvhd_read (version now scale duration next : Nat) (hv : version = 0 ∨ version = 1) (hs : scale < 2 ^ 32) (hd : duration < 2 ^ (if version = 1 then 64 else 32)) (hn : next < 2 ^ 32) :
    Spec.mvhd (mvhdBody version now scale duration next) = some (scale, duration, next) := by
  have tail : be 4 0x00010000 ++ (be 2 0x0100 ++ (be 2 0 ++ (be 4 0 ++ (be 4 0 ++ (matrix ++ (be 4 0 ++ (be 4 0 ++ (be 4 0 ++ (be 4 0 ++ (be 4 0 ++ (be 4 0 ++ be 4 next))))))))))) =
      (be 4 0x00010000 ++ (be 2 0x0100 ++ (be 2 0 ++ (be 4 0 ++ (be 4 0 ++ (matrix ++ (be 4 0 ++ (be 4 0 ++ (be 4 0 ++ (be 4 0 ++ (be 4 0 ++ be 4 0))))))))))) ++ be 4 next := by
    simp only [List.append_assoc]
  rcases hv with rfl | rfl
  · simp only [mvhdBody, Nat.zero_ne_one, if_false, List.append_assoc] at hd ⊢
    rw [Spec.mvhd, times0]
    simp only [Option.bind_eq_bind, Option.bind_some, num4]
    rw [raw_of 76 _ _ _ tail (by simp [be_length, matrix_length])]
    simp only [Option.bind_some, num4', if_true, Nat.mod_eq_of_lt hs, Nat.mod_eq_of_lt hd, Nat.mod_eq_of_lt hn]
  · simp only [mvhdBody, if_true, List.append_assoc] at hd ⊢
    rw [Spec.mvhd, times1]
    simp only [Option.bind_eq_bind, Option.bind_some, num4, num_be]
    rw [raw_of 76 _ _ _ tail (by simp [be_length, matrix_length])]
    simp only [Option.bind_some, num4', if_true, Nat.mod_eq_of_lt (show scale < 256 ^ 4 from hs), Nat.mod_eq_of_lt (show duration < 256 ^ 8 from hd), Nat.mod_eq_of_lt hn]

theorem tkhd_read (now id duration volume width height : Nat) (hi : id < 2 ^ 32) (hd : duration < 2 ^ 32) (hv : volume < 2 ^ 16) (hw : width < 2 ^ 16) (hh : height < 2 ^ 16) :
    Spec.tkhd (tkhdBody now id duration volume width height) = some (1, id, duration, volume, width * 2 ^ 16, height * 2 ^ 16) := by
  simp only [tkhdBody, List.append_assoc]
  rw [Spec.tkhd, full_read, times0]
  simp only [Option.bind_eq_bind, Option.bind_some, num4]
  rw [raw_of 12 (be 4 0 ++ (be 4 0 ++ (be 2 0 ++ be 2 0))) _ _ (by simp only [List.append_assoc]; rfl) (by simp [be_length])]
  simp only [Option.bind_some, num2]
  rw [raw_of 38 (be 2 0 ++ matrix) _ _ (by simp only [List.append_assoc]; rfl) (by simp [be_length, matrix_length])]
  have e := num22 height 0 []
  rw [List.append_nil] at e
  simp only [Option.bind_some, num22, e, if_true, Nat.mod_eq_of_lt hi, Nat.mod_eq_of_lt hd, Nat.mod_eq_of_lt hv, Nat.mod_eq_of_lt hw, Nat.mod_eq_of_lt hh, Nat.zero_mod, Nat.add_zero]

/-- A small letter. -/
def Letter (c : Char) : Prop := 0x61 ≤ c.toNat ∧ c.toNat ≤ 0x7a

theorem langBits_eq (c : Char) (h : Letter c) : langBits c = c.toNat - 0x60 := by
  obtain ⟨h1, h2⟩ := h
  rw [langBits, show c.toNat + 2 ^ 32 - 0x60 = (c.toNat - 0x60) + 32 * 2 ^ 27 by omega, Nat.add_mul_mod_self_left, Nat.mod_eq_of_lt (by omega)]

theorem letter_back (c : Char) (h : Letter c) : Char.ofNat (langBits c + 0x60) = c := by
  rw [langBits_eq c h, Nat.sub_add_cancel (by have := h.1; omega), Char.ofNat_toNat]

theorem mdhd_read (now scale duration : Nat) (lang : Char × Char × Char) (hs : scale < 2 ^ 32) (hd : duration < 2 ^ 32) (hl : Letter lang.1 ∧ Letter lang.2.1 ∧ Letter lang.2.2) :
    Spec.mdhd (mdhdBody now scale duration lang) = some (scale, duration, [lang.1, lang.2.1, lang.2.2]) := by
  have b : ∀ c, langBits c < 32 := fun c => Nat.mod_lt _ (by decide)
  have b1 := b lang.1; have b2 := b lang.2.1; have b3 := b lang.2.2
  simp only [mdhdBody, List.append_assoc]
  rw [Spec.mdhd, times0]
  have e := num_be 2 0 []
  rw [List.append_nil] at e
  simp only [Option.bind_eq_bind, Option.bind_some, num4, num2, e, if_true, Nat.mod_eq_of_lt hs, Nat.mod_eq_of_lt hd]
  have l1 := letter_back _ hl.1
  have l2 := letter_back _ hl.2.1
  have l3 := letter_back _ hl.2.2
  obtain ⟨n1, hn1⟩ : ∃ n, n = langBits lang.1 := ⟨_, rfl⟩
  obtain ⟨n2, hn2⟩ : ∃ n, n = langBits lang.2.1 := ⟨_, rfl⟩
  obtain ⟨n3, hn3⟩ : ∃ n, n = langBits lang.2.2 := ⟨_, rfl⟩
  rw [← hn1] at b1 l1 ⊢; rw [← hn2] at b2 l2 ⊢; rw [← hn3] at b3 l3 ⊢
  have q : (n1 * 2 ^ 10 + n2 * 2 ^ 5 + n3) % 2 ^ 16 = n1 * 1024 + n2 * 32 + n3 := Nat.mod_eq_of_lt (by omega)
  rw [q, show (n1 * 1024 + n2 * 32 + n3) / 1024 % 32 = n1 by omega, show (n1 * 1024 + n2 * 32 + n3) / 32 % 32 = n2 by omega, show (n1 * 1024 + n2 * 32 + n3) % 32 = n3 by omega]
  simp only [List.map_cons, List.map_nil, l1, l2, l3]

theorem hdlr_read (type : Nat) : Spec.hdlr (hdlrBody type) = some (chars (be 4 type)) := by
  simp only [hdlrBody, List.append_assoc]
  rw [Spec.hdlr, full_read]
  simp only [Option.bind_eq_bind, Option.bind_some, num4]
  rw [raw_append 4 _ _ (be_length _ _)]
  rfl

/-! ### Sample descriptions -/

theorem sinf_read (format : Nat) (kid : List UInt8) (hk : kid.length = 16) :
    Spec.sinf (cat [(fourcc 'f' 'r' 'm' 'a', be 4 format), (fourcc 's' 'c' 'h' 'm', full 0 0 ++ be 4 (fourcc 'c' 'e' 'n' 'c') ++ be 4 0x10000),
      (fourcc 's' 'c' 'h' 'i', cat [(fourcc 't' 'e' 'n' 'c', full 0 0 ++ be 1 0 ++ be 1 0 ++ be 1 1 ++ be 1 8 ++ kid)])]) =
    some (chars (be 4 format), "cenc".toList, 8, kid) := by
  obtain ⟨T, hT⟩ : ∃ T, T = full 0 0 ++ be 1 0 ++ be 1 0 ++ be 1 1 ++ be 1 8 ++ kid := ⟨_, rfl⟩
  have hTl : T.length = 24 := by rw [hT]; simp [full_length, be_length, hk]
  rw [← hT]
  have h1 : (cat [(fourcc 't' 'e' 'n' 'c', T)]).length = 32 := by rw [cat_one, box_length, hTl]
  have h2 : (cat [(fourcc 'f' 'r' 'm' 'a', be 4 format), (fourcc 's' 'c' 'h' 'm', full 0 0 ++ be 4 (fourcc 'c' 'e' 'n' 'c') ++ be 4 0x10000),
      (fourcc 's' 'c' 'h' 'i', cat [(fourcc 't' 'e' 'n' 'c', T)])]).length < 2 ^ 32 := by
    simp only [cat_cons, cat_nil, List.length_append, box_length, be_length, full_length, hTl, List.length_nil]; decide
  have c1 : Spec.child (cat [(fourcc 't' 'e' 'n' 'c', T)]) "tenc" = some T := by
    rw [child_cat _ _ (by rw [h1]; decide)]
    simp (decide := true) only [List.find?_cons_of_pos, Option.map_some]
  obtain ⟨S, hS⟩ : ∃ S, S = cat [(fourcc 't' 'e' 'n' 'c', T)] := ⟨_, rfl⟩
  rw [← hS] at c1 h2 ⊢
  simp only [Spec.sinf, Spec.path, child_cat _ _ h2]
  simp (decide := true) only [List.find?_cons_of_pos, List.find?_cons_of_neg, Option.map_some, Option.bind_eq_bind, Option.bind_some, c1]
  have e0 := raw_append 4 (be 4 format) [] (be_length _ _)
  rw [List.append_nil] at e0
  have e1 : raw 16 kid = some (kid, []) := by have := raw_append 16 kid [] hk; rwa [List.append_nil] at this
  have e2 : ∀ r, num 2 (be 1 0 ++ (be 1 0 ++ r)) = some (0, r) := by
    intro r
    rw [show be 1 0 ++ (be 1 0 ++ r) = be 2 0 ++ r from rfl, num2]
  rw [e0, hT]
  simp only [Option.bind_some, List.append_assoc, full_read, raw_append 4 _ _ (be_length _ _), num1, e1, e2]
  rw [show chars (be 4 (fourcc 'c' 'e' 'n' 'c')) = "cenc".toList by decide]
  simp (decide := true) only [and_self, if_true]

/-- What a reader should see of a sample description. -/
def descriptionOf (kind : Kind) (config : List UInt8) (kid : Option (List UInt8)) : Spec.Description :=
  match kind with
  | .visual width height _ _ => ⟨"avc1".toList, .video width height, config, kid.map fun k => ("cenc".toList, 8, k)⟩
  | .audio rate channels _ => ⟨"mp4a".toList, .audio channels rate, config, kid.map fun k => ("cenc".toList, 8, k)⟩

/-- The entry can be written: dimensions of 16 bits; the decoder configuration of an audio stream is an esds box with content `config`; the name of the compressor has its 31 bytes. -/
def KindOk (config : List UInt8) : Kind → Prop
  | .visual width height c name => width < 2 ^ 16 ∧ height < 2 ^ 16 ∧ c = config ∧ name.length = 31
  | .audio rate channels c => rate < 2 ^ 16 ∧ channels < 2 ^ 16 ∧ c = box (fourcc 'e' 's' 'd' 's') config

def sinfList (format : Nat) : Option (List UInt8) → List (Nat × List UInt8)
  | none => []
  | some kid => [(fourcc 's' 'i' 'n' 'f', cat [(fourcc 'f' 'r' 'm' 'a', be 4 format), (fourcc 's' 'c' 'h' 'm', full 0 0 ++ be 4 (fourcc 'c' 'e' 'n' 'c') ++ be 4 0x10000),
      (fourcc 's' 'c' 'h' 'i', cat [(fourcc 't' 'e' 'n' 'c', full 0 0 ++ be 1 0 ++ be 1 0 ++ be 1 1 ++ be 1 8 ++ kid)])])]

theorem sinfBytes_eq (format : Nat) (kid : Option (List UInt8)) : sinfBytes format kid = cat (sinfList format kid) := by
  cases kid with
  | none => rfl
  | some k => rw [sinfList, cat_one]; rfl

theorem describe_read (kind : Kind) (config : List UInt8) (kid : Option (List UInt8)) (ok : KindOk config kind) (hk : ∀ k, kid = some k → k.length = 16)
    (hl : (entryOf kind kid).2.length < 2 ^ 32) :
    Spec.describe (chars (be 4 kind.handler)) (chars (be 4 (entryOf kind kid).1)) (entryOf kind kid).2 = some (descriptionOf kind config kid) := by
  cases kind with
  | visual width height c name =>
    obtain ⟨h1, h2, rfl, h4⟩ := ok
    have hcat : (entryOf (.visual width height c name) kid).2 = visualBody width height name ++ cat (sinfList (fourcc 'a' 'v' 'c' '1') kid ++ [(fourcc 'a' 'v' 'c' 'C', c)]) := by
      rw [cat_append, cat_one, ← sinfBytes_eq]; rfl
    rw [hcat] at hl ⊢
    obtain ⟨L, hL⟩ : ∃ L, L = sinfList (fourcc 'a' 'v' 'c' '1') kid ++ [(fourcc 'a' 'v' 'c' 'C', c)] := ⟨_, rfl⟩
    rw [← hL] at hl ⊢
    have hLl : (cat L).length < 2 ^ 32 := by rw [List.length_append] at hl; omega
    have hv : visualBody width height name ++ cat L = (be 6 0 ++ be 2 1 ++ be 2 0 ++ be 2 0 ++ be 4 0 ++ be 4 0 ++ be 4 0) ++ (be 2 width ++ (be 2 height ++
        ((be 4 72 ++ be 4 72 ++ be 4 0 ++ be 2 1 ++ be 1 0 ++ name ++ be 2 0 ++ be 2 0xFFFF) ++ cat L))) := by
      simp only [visualBody, List.append_assoc]
    rw [hv, Spec.describe]
    have hvide : chars (be 4 (Kind.handler (.visual width height c name))) = "vide".toList := by simp only [Kind.handler]; decide
    rw [if_pos hvide, raw_append 24 _ _ (by simp [be_length])]
    simp only [Option.bind_eq_bind, Option.bind_some, num2]
    rw [raw_append 50 _ _ (by simp [be_length, h4])]
    simp only [Option.bind_some, Spec.format, child_cat _ _ hLl, Nat.mod_eq_of_lt h1, Nat.mod_eq_of_lt h2]
    cases kid with
    | none =>
      rw [hL, sinfList]
      simp (decide := true) only [entryOf, Option.isSome_none, Bool.false_eq_true, if_false, List.nil_append, List.find?_cons_of_pos, Option.map_some, Option.bind_some, descriptionOf, Option.map_none]
      rfl
    | some k =>
      have hs := sinf_read (fourcc 'a' 'v' 'c' '1') k (hk k rfl)
      rw [hL, sinfList]
      simp (decide := true) only [entryOf, Option.isSome_some, if_true, List.cons_append, List.nil_append, List.find?_cons_of_pos, List.find?_cons_of_neg, Option.map_some, Option.bind_eq_bind, Option.bind_some, hs, descriptionOf,
        true_or]
      rw [show chars (be 4 (fourcc 'a' 'v' 'c' '1')) = "avc1".toList by decide]
  | audio rate channels c =>
    obtain ⟨h1, h2, rfl⟩ := ok
    have hcat : (entryOf (.audio rate channels (box (fourcc 'e' 's' 'd' 's') config)) kid).2 = audioBody rate channels ++ cat ((fourcc 'e' 's' 'd' 's', config) :: sinfList (fourcc 'm' 'p' '4' 'a') kid) := by
      rw [cat_cons, ← sinfBytes_eq]; rfl
    rw [hcat] at hl ⊢
    obtain ⟨L, hL⟩ : ∃ L, L = (fourcc 'e' 's' 'd' 's', config) :: sinfList (fourcc 'm' 'p' '4' 'a') kid := ⟨_, rfl⟩
    rw [← hL] at hl ⊢
    have hLl : (cat L).length < 2 ^ 32 := by rw [List.length_append] at hl; omega
    have hv : audioBody rate channels ++ cat L = (be 6 0 ++ be 2 1 ++ be 4 0 ++ be 4 0) ++ (be 2 channels ++ ((be 2 16 ++ be 2 0 ++ be 2 0) ++ (be 4 (rate * 2 ^ 16) ++ cat L))) := by
      simp only [audioBody, List.append_assoc]
    rw [hv, Spec.describe]
    have hvide : ¬chars (be 4 (Kind.handler (.audio rate channels (box (fourcc 'e' 's' 'd' 's') config)))) = "vide".toList := by simp only [Kind.handler]; decide
    rw [if_neg hvide, raw_append 16 _ _ (by simp [be_length])]
    simp only [Option.bind_eq_bind, Option.bind_some, num2]
    rw [raw_append 6 _ _ (by simp [be_length])]
    simp only [Option.bind_some, num4, Spec.format, child_cat _ _ hLl, Nat.mod_eq_of_lt h2, Nat.mod_eq_of_lt (show rate * 2 ^ 16 < 2 ^ 32 by omega)]
    rw [Nat.mul_div_cancel _ (by decide)]
    cases kid with
    | none =>
      rw [hL, sinfList]
      simp (decide := true) only [entryOf, Option.isSome_none, Bool.false_eq_true, if_false, List.find?_cons_of_pos, Option.map_some, Option.bind_some, descriptionOf, Option.map_none]
      rfl
    | some k =>
      have hs := sinf_read (fourcc 'm' 'p' '4' 'a') k (hk k rfl)
      rw [hL, sinfList]
      simp (decide := true) only [entryOf, Option.isSome_some, if_true, List.find?_cons_of_pos, List.find?_cons_of_neg, Option.map_some, Option.bind_eq_bind, Option.bind_some, hs, descriptionOf,
        or_true]
      rw [show chars (be 4 (fourcc 'm' 'p' '4' 'a')) = "mp4a".toList by decide]

end Verif.Movie
