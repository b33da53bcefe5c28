import Verif.Drm.Lemmas
/-
DRM signalling: theorems.
-/
namespace Verif.Drm
open Verif.BitStream (Mem)

/-! ### C118: the PlayReady object -/

theorem body_object (w : Nat) (h : List Char) :
    Spec.playReadyObject (leB 4 (10 + w * h.length) ++ leB 2 1 ++ leB 2 1 ++ leB 2 (w * h.length) ++ h.flatMap fun c => leB 2 c.toNat) =
      if (10 + w * h.length) % 2 ^ 32 = 10 + 2 * h.length then
        (if w * h.length % 65536 ≤ 2 * h.length then
          (Spec.records 0 ((h.flatMap fun c => leB 2 c.toNat).drop (w * h.length % 65536))).map fun rs =>
            (1, (h.flatMap fun c => leB 2 c.toNat).take (w * h.length % 65536)) :: rs
        else none)
      else none := by
  have hfl := flat_length h
  generalize (h.flatMap fun c => leB 2 c.toNat) = fl at hfl ⊢
  rw [leB4, leB2, leB2]
  simp only [List.cons_append, List.nil_append, Spec.playReadyObject, le4]
  simp only [List.length_cons, hfl]
  rw [show 2 * h.length + 1 + 1 + 1 + 1 + 1 + 1 + 1 + 1 + 1 + 1 = 10 + 2 * h.length by omega]
  have e1 : Spec.le [UInt8.ofNat 1, UInt8.ofNat (1 / 256)] = 1 := rfl
  rw [e1]
  simp only [Spec.records, le2, hfl, e1]

/-- C118 (part): where `wchar_t` has two bytes (Windows) and the header text has fewer than 32768 characters, the object is what a
PlayReady client expects: its length field is its length, it has one record of type 1, and the record is the UTF-16 text of the
header. -/
theorem playready_object_partial (beyond : Mem) (header : List Char) (hl : header.length < 32768)
    (hc : ∀ c ∈ header, c.toNat < 65536) :
    ∃ body v, proBody beyond 2 header = some body ∧ Spec.playReadyObject body = some [(1, v)] ∧
      Spec.utf16 v = some (header.map Char.toNat) := by
  refine ⟨_, header.flatMap (fun c => leB 2 c.toNat), body_bytes beyond 2 header, ?_, ?_⟩
  · have hfl := flat_length header
    rw [body_object, Nat.mod_eq_of_lt (show 2 * header.length < 65536 by omega), if_pos (by omega), if_pos (by omega),
      List.drop_of_length_le (by omega), List.take_of_length_le (by omega)]
    rfl
  · rw [utf16_flat]
    congr 1
    apply List.map_congr_left
    intro c h
    exact Nat.mod_eq_of_lt (hc c h)

example : (wmHeader none (List.replicate 16 1) (List.replicate 16 2) none).length < 32768 ∧
    ∀ c ∈ wmHeader none (List.replicate 16 1) (List.replicate 16 2) none, c.toNat < 65536 := by decide +kernel

/-- C118, why only in part: where `wchar_t` has four bytes (Linux) no header text whatever gives an object a PlayReady client
accepts: the length field counts four bytes for each character, two are written. -/
theorem playready_object_linux_witness (beyond : Mem) (header : List Char) (h0 : header ≠ []) (hl : header.length < 2 ^ 29)
    (body : List UInt8) (hb : proBody beyond 4 header = some body) : Spec.playReadyObject body = none := by
  rw [body_bytes, Option.some.injEq] at hb
  have : 0 < header.length := by cases header with | nil => exact absurd rfl h0 | cons _ _ => simp
  rw [← hb, body_object, if_neg (by omega)]

example : ∃ body, proBody (fun _ => 0) 4 "<WRMHEADER>".toList = some body ∧ "<WRMHEADER>".toList ≠ [] ∧
    "<WRMHEADER>".toList.length < 2 ^ 29 := ⟨_, body_bytes _ _ _, by decide, by decide⟩

/-- C118, why only in part: the record length has 16 bits; from 32768 characters on (a long license address) the object is not
accepted on any platform. -/
theorem playready_long_header_witness (beyond : Mem) (header : List Char) (h0 : 32768 ≤ header.length) (hl : header.length < 2 ^ 29)
    (body : List UInt8) (hb : proBody beyond 2 header = some body) : Spec.playReadyObject body = none := by
  rw [body_bytes, Option.some.injEq] at hb
  have hfl := flat_length header
  rw [← hb, body_object, if_pos (by omega), if_pos (by omega)]
  cases hd : (header.flatMap fun c => leB 2 c.toNat).drop (2 * header.length % 65536) with
  | nil =>
    have := congrArg List.length hd
    rw [List.length_drop, hfl, List.length_nil] at this
    omega
  | cons a l => rfl

example : 32768 ≤ (List.replicate 40000 'a').length ∧ (List.replicate 40000 'a').length < 2 ^ 29 := by
  simp only [List.length_replicate]; decide

/-! ### C119: what the header says -/

/-- The key id in Microsoft's layout stands for the same UUID. -/
theorem kid_layout (kid : List UInt8) (hk : kid.length = 16) :
    (binaryEncodeKid kid).length = 16 ∧ Spec.guidValue (binaryEncodeKid kid) = Spec.uuidValue kid := by
  match kid, hk with
  | [a, b, c, d, e, f, g, h, i, j, k, l, m, n, o, p], _ =>
    refine ⟨rfl, ?_⟩
    simp only [binaryEncodeKid, Spec.guidValue, Spec.uuidValue, List.map_cons, List.map_nil, List.cons_append, List.nil_append,
      List.getD_cons_zero, List.getD_cons_succ, Spec.le, Spec.be, List.take, List.drop, List.foldl_cons, List.foldl_nil, Nat.reduceSub]
    simp only [Prod.mk.injEq]
    refine ⟨by omega, by omega, by omega, trivial⟩

theorem elem_text (tag : String) (a x r : List Char) (hp : tag.toList ≠ []) (ha : absent tag.toList a = true)
    (hx : ∀ c ∈ x, c ≠ '<') : Spec.textOf tag (a ++ tag.toList ++ x ++ '<' :: r) = some x := by
  rw [Spec.textOf, List.append_assoc, List.append_assoc, after_split _ _ _ hp ha, Option.map_some,
    takeWhile_stop _ _ _ _ (fun c hc => by simpa using hx c hc) (by simp)]

/-- A mark that starts with `x`: a text without the mark, then one without `x`. -/
theorem absent_then (x : Char) (p a b : List Char) (ha : absent (x :: p) a = true) (hb : x ∉ b) : absent (x :: p) (a ++ b) = true := by
  induction a with
  | nil => exact absent_of_head x p b hb
  | cons c a ih =>
    simp only [absent, Bool.and_eq_true] at ha
    rw [List.cons_append, absent, Bool.and_eq_true]
    refine ⟨?_, ih ha.2⟩
    have : ∀ (q l m : List Char), clash q l = true → clash q (l ++ m) = true := by
      intro q
      induction q with
      | nil => intro l m h; simp [clash] at h
      | cons y q ih =>
        intro l m h
        cases l with
        | nil => simp [clash] at h
        | cons z l =>
          simp only [clash, Bool.or_eq_true, List.cons_append] at h ⊢
          exact h.imp id (ih l m)
    exact this _ _ b ha.1

theorem absent_both (p a b : List Char) (ha : absent p a = true) (hb : absent p b = true) : absent p (a ++ b) = true := by
  induction a with
  | nil => exact hb
  | cons c a ih =>
    simp only [absent, Bool.and_eq_true] at ha
    rw [List.cons_append, absent, Bool.and_eq_true]
    refine ⟨?_, ih ha.2⟩
    have : ∀ (q l m : List Char), clash q l = true → clash q (l ++ m) = true := by
      intro q
      induction q with
      | nil => intro l m h; simp [clash] at h
      | cons y q ih =>
        intro l m h
        cases l with
        | nil => simp [clash] at h
        | cons z l =>
          simp only [clash, Bool.or_eq_true, List.cons_append] at h ⊢
          exact h.imp id (ih l m)
    exact this _ _ b ha.1

/-- C119 (part): the header names the key: the text of its KID element is the Base64 text of 16 bytes that stand, in Microsoft's
layout, for the same UUID as the key id; the CHECKSUM element is the Base64 text of the first eight bytes of that block encrypted with
the key; and the LA_URL element is the license address, when that has no `<`. -/
theorem playready_header_partial (aes : List UInt8 → List UInt8 → List UInt8) (key kid : List UInt8) (url : Option (List Char))
    (hk : kid.length = 16) (hu : ∀ u, url = some u → '<' ∉ u) :
    ∃ guid t s, guid.length = 16 ∧ Spec.guidValue guid = Spec.uuidValue kid ∧
      Spec.textOf "<KID>" (wmHeader (some aes) key kid url) = some t ∧ Spec.isBase64Of t guid ∧
      Spec.textOf "<CHECKSUM>" (wmHeader (some aes) key kid url) = some s ∧ Spec.isBase64Of s ((aes key guid).take 8) ∧
      Spec.textOf "<LA_URL>" (wmHeader (some aes) key kid url) = some (theUrl url) ∧
      (∀ u, url = some u → theUrl url = u) := by
  obtain ⟨hl, hg⟩ := kid_layout kid hk
  have hb1 := base64_chars (binaryEncodeKid kid) 0
  have hb2 := base64_chars ((aes key (binaryEncodeKid kid)).take 8) 0
  have hu' : ∀ c ∈ theUrl url, c ≠ '<' := by
    intro c hc h
    subst h
    cases url with
    | some u => exact hu u rfl hc
    | none => exact absurd hc (by decide +kernel)
  refine ⟨_, _, _, hl, hg, ?_, base64_is _ 0, ?_, base64_is _ 0, ?_, by rintro u rfl; rfl⟩
  · obtain ⟨a, ha, hab⟩ : ∃ a, headA = a ++ "<KID>".toList ∧ absent "<KID>".toList a = true :=
      ⟨headA.take (headA.length - 5), by decide +kernel, by decide +kernel⟩
    have e : wmHeader (some aes) key kid url = a ++ "<KID>".toList ++ base64 (binaryEncodeKid kid) ++
        '<' :: (headB.drop 1 ++ checksum (some aes) key (binaryEncodeKid kid) ++ headC ++ theUrl url ++ headD) := by
      rw [wmHeader, ha, show headB = '<' :: headB.drop 1 by decide +kernel]
      simp [List.append_assoc]
    rw [e]
    exact elem_text "<KID>" _ _ _ (by decide) hab (fun c hc => (hb1 c hc).1)
  · have e : wmHeader (some aes) key kid url = (headA ++ base64 (binaryEncodeKid kid) ++ "</KID>".toList) ++ "<CHECKSUM>".toList ++
        base64 ((aes key (binaryEncodeKid kid)).take 8) ++ '<' :: (headC.drop 1 ++ theUrl url ++ headD) := by
      rw [wmHeader, show headB = "</KID>".toList ++ "<CHECKSUM>".toList by decide +kernel,
        show headC = '<' :: headC.drop 1 by decide +kernel]
      simp [List.append_assoc, checksum]
    rw [e]
    refine elem_text "<CHECKSUM>" _ _ _ (by decide) ?_ (fun c hc => (hb2 c hc).1)
    exact absent_both _ _ _ (absent_then '<' "CHECKSUM>".toList _ _ (by decide +kernel) (fun h => (hb1 _ h).1 rfl)) (by decide +kernel)
  · have e : wmHeader (some aes) key kid url = (headA ++ base64 (binaryEncodeKid kid) ++ headB ++
        base64 ((aes key (binaryEncodeKid kid)).take 8) ++ "</CHECKSUM>".toList) ++ "<LA_URL>".toList ++ theUrl url ++
        '<' :: (headD.drop 1) := by
      rw [wmHeader, show headC = "</CHECKSUM>".toList ++ "<LA_URL>".toList by decide +kernel,
        show headD = '<' :: headD.drop 1 by decide +kernel]
      simp [List.append_assoc, checksum]
    rw [e]
    refine elem_text "<LA_URL>" _ _ _ (by decide) ?_ hu'
    exact absent_both _ _ _ (absent_then '<' "LA_URL>".toList _ _ (absent_both _ _ _
      (absent_then '<' "LA_URL>".toList _ _ (by decide +kernel) (fun h => (hb1 _ h).1 rfl)) (by decide +kernel))
      (fun h => (hb2 _ h).1 rfl)) (by decide +kernel)

example : ([0x10, 0, 0, 0, 0x10, 0, 0x10, 0, 0x10, 0, 0x10, 0, 0, 0, 0, 1] : List UInt8).length = 16 ∧
    (∀ u, some "http://a/b".toList = some u → '<' ∉ u) :=
  ⟨rfl, fun u h => by obtain rfl := Option.some.inj h; decide⟩

/-- C119, why only in part: the address is not escaped. With an address that has two parameters the header is not well-formed XML;
the built-in address, which is written escaped in the source, is fine. -/
theorem playready_url_not_escaped_witness :
    Spec.referencesClosed (wmHeader none (List.replicate 16 7) (List.replicate 16 9) none) = true ∧
    Spec.referencesClosed (wmHeader none (List.replicate 16 7) (List.replicate 16 9)
      (some "http://host/rightsmanager.asmx?PlayRight=1&Simple=1".toList)) = false := by
  decide +kernel

end Verif.Drm
