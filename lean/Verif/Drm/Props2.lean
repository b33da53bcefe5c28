import Verif.Drm.Props
/-
DRM signalling: the manifest, the `pssh` boxes, the printed form and the clear key license.
-/
namespace Verif.Drm
open Verif.BitStream (Mem)

/-! ### C120: the manifest and the file carry the same data -/

theorem uuid_text (kid : List UInt8) (hk : kid.length = 16) : Spec.uuid (kidToString kid) = some kid ∧
    '"' ∉ kidToString kid ∧ '<' ∉ kidToString kid := by
  match kid, hk with
  | [a, b, c, d, e, f, g, h, i, j, k, l, m, n, o, p], _ =>
    have e1 : kidToString [a, b, c, d, e, f, g, h, i, j, k, l, m, n, o, p] =
        Strings.appendHex [] [a, b, c, d] ++ '-' :: (Strings.appendHex [] [e, f] ++ '-' :: (Strings.appendHex [] [g, h] ++ '-' ::
          (Strings.appendHex [] [i, j] ++ '-' :: Strings.appendHex [] [k, l, m, n, o, p]))) := by
      simp only [kidToString, List.take, List.drop]
      rw [Strings.appendHex_append (_ ++ ['-']) [e, f], Strings.appendHex_append (_ ++ ['-']) [g, h],
        Strings.appendHex_append (_ ++ ['-']) [i, j], Strings.appendHex_append (_ ++ ['-']) [k, l, m, n, o, p]]
      simp [List.append_assoc]
    have e0 : Strings.appendHex [] [] = [] := rfl
    constructor
    · obtain ⟨t, h1, h2, h3⟩ := Strings.hex_text [] [a, b, c, d, e, f, g, h, i, j, k, l, m, n, o, p]
      rw [List.nil_append] at h1
      rw [← h1] at h3
      rw [e1]
      simp only [Strings.appendHex_cons, e0] at h3 ⊢
      simp only [List.cons_append, List.nil_append, Spec.uuid, List.length_cons, List.length_nil, List.getD_cons_succ, List.getD_cons_zero,
        List.take, List.drop]
      simpa using h3
    · rw [e1]
      have hq : ∀ (x : Char), (∀ n : Fin 16, x ≠ Strings.hexChars.getD n.val '\x00') → ∀ bs : List UInt8,
          x ∉ Strings.appendHex [] bs := by
        intro x hn bs hm
        induction bs with
        | nil => simp [e0] at hm
        | cons b bs ih =>
          rw [Strings.appendHex_cons] at hm
          simp only [List.mem_cons] at hm
          rcases hm with hm | hm | hm
          · have hlt : (b.toNat >>> 4) &&& 0x0F < 16 := Nat.lt_of_le_of_lt Nat.and_le_right (by decide)
            exact hn ⟨_, hlt⟩ hm
          · have hlt : b.toNat &&& 0x0F < 16 := Nat.lt_of_le_of_lt Nat.and_le_right (by decide)
            exact hn ⟨_, hlt⟩ hm
          · exact ih hm
      simp [hq '"' (by decide), hq '<' (by decide)]

theorem attr_text (name : String) (p a x r : List Char) (hp : p ≠ []) (he : (name ++ "=\"").toList = p) (ha : absent p a = true)
    (hx : '"' ∉ x) : Spec.attrOf name (a ++ p ++ x ++ '"' :: r) = some x := by
  rw [Spec.attrOf, he, List.append_assoc, List.append_assoc, after_split _ _ _ hp ha, Option.map_some,
    takeWhile_stop _ _ _ _ (fun c hc => by
      have : c ≠ '"' := fun h => hx (h ▸ hc)
      simpa using this) (by simp)]

theorem drop4 (a b c d : UInt8) (r : List UInt8) : ([a, b, c, d] ++ r).drop 4 = r := rfl
theorem take4 (a b c d : UInt8) (r : List UInt8) : ([a, b, c, d] ++ r).take 4 = [a, b, c, d] := rfl

theorem kids_copies (n : Nat) (kid r : List UInt8) (hk : kid.length = 16) :
    Spec.kidList n ((List.replicate n kid).flatten ++ r) = some (List.replicate n kid, r) := by
  induction n with
  | zero => rfl
  | succ n ih =>
    rw [List.replicate_succ, List.flatten_cons, List.append_assoc, Spec.kidList,
      if_neg (by simp [hk]), List.drop_left' hk, List.take_left' hk, ih]
    rfl

theorem put_length (p : Pssh) (hs : p.systemId.length = 16) : 24 ≤ p.put.length := by
  simp only [Pssh.put, List.length_append, List.length_cons, List.length_nil, hs, be32_length]
  omega

/-- A box as the code writes it, read by the standard. -/
theorem pssh_standard (p : Pssh) (rest : List UInt8) (hv : p.version < 256) (hs : p.systemId.length = 16) (hk : p.kid.length = 16)
    (hn : p.kidCount < 2 ^ 32) (hsz : 8 + p.put.length < 2 ^ 32) :
    Spec.psshBox (psshBox p ++ rest) =
      some (⟨p.version, p.systemId, if p.version = 0 then [] else List.replicate p.kidCount p.kid, p.data⟩, rest) := by
  have hput := put_length p hs
  have hdl : p.data.length < 2 ^ 32 := by
    have : p.data.length ≤ p.put.length := by simp only [Pssh.put, List.length_append]; omega
    omega
  have hlen : (psshBox p).length = 8 + p.put.length := by
    simp only [psshBox, List.length_append, be32_length, List.length_cons, List.length_nil]
  have h4 : (psshBox p ++ rest).take 4 = be32 (8 + p.put.length) := by
    rw [psshBox, List.append_assoc, List.append_assoc]; exact List.take_left' rfl
  have hty : ((psshBox p ++ rest).drop 4).take 4 = "pssh".toList.map (fun c => UInt8.ofNat c.toNat) := by
    rw [psshBox, List.append_assoc, List.append_assoc, List.drop_left' (be32_length _), take4]; decide
  have hbody : ((psshBox p ++ rest).take (8 + p.put.length)).drop 8 = p.put := by
    rw [List.take_left' hlen, psshBox]; exact List.drop_left' rfl
  have hrest : (psshBox p ++ rest).drop (8 + p.put.length) = rest := List.drop_left' hlen
  have hL : (psshBox p ++ rest).length = 8 + p.put.length + rest.length := by rw [List.length_append, hlen]
  rw [Spec.psshBox, if_neg (by omega)]
  simp only [h4, be_be32 _ hsz, hty, hbody, hrest, hL]
  rw [if_neg (by simp)]
  have hb1 : Spec.be (p.put.take 1) = p.version := by
    simp only [Pssh.put, List.cons_append, List.nil_append, List.take, Spec.be, List.foldl_cons, List.foldl_nil, UInt8.toNat_ofNat']
    omega
  have hsys : (p.put.drop 4).take 16 = p.systemId := by
    simp only [Pssh.put, List.append_assoc]
    rw [drop4, List.take_left' hs]
  have h20 : p.put.drop 20 = (if p.version > 0 then be32 p.kidCount ++ (List.replicate p.kidCount p.kid).flatten else []) ++
      (be32 p.data.length ++ p.data) := by
    simp only [Pssh.put, List.append_assoc]
    rw [show (20 : Nat) = 4 + 16 from rfl, ← List.drop_drop, drop4, List.drop_left' hs]
  have hkids : (if p.version = 0 then some (([] : List (List UInt8)), p.put.drop 20)
      else Spec.kidList (Spec.be ((p.put.drop 20).take 4)) (p.put.drop 24)) =
      some (if p.version = 0 then [] else List.replicate p.kidCount p.kid, be32 p.data.length ++ p.data) := by
    by_cases h0 : p.version = 0
    · rw [if_pos h0, if_pos h0, h20, if_neg (by omega)]; rfl
    · rw [if_neg h0, if_neg h0, show (24 : Nat) = 20 + 4 from rfl, ← List.drop_drop, h20, if_pos (by omega),
        List.append_assoc, List.take_left' (be32_length _), List.drop_left' (be32_length _), be_be32 _ hn, kids_copies _ _ _ hk]
  rw [hb1, hsys, hkids, Option.bind_some]
  simp only [List.take_left' (be32_length _), List.drop_left' (be32_length _), be_be32 _ hdl]
  rw [if_neg (by simp [be32_length])]

/-- C120: for every 16 byte key id and PlayReady object, the manifest names the key (as a UUID, in both of its attributes' common value)
and carries the object in Base64; the `pssh` box of the file, read by the standard, has PlayReady's system id and the same object. -/
theorem playready_manifest (kid body rest : List UInt8) (hk : kid.length = 16) (hb : body.length < 2 ^ 31) :
    (∃ t, Spec.attrOf "cenc:default_KID" (playReadyXml kid body) = some t ∧ Spec.uuid t = some kid) ∧
    (∃ t, Spec.textOf "<mspr:pro>" (playReadyXml kid body) = some t ∧ Spec.isBase64Of t body) ∧
    Spec.psshBox (psshBox (playReadyPssh body) ++ rest) = some (⟨0, playReadyId, [], body⟩, rest) ∧
    Spec.uuid "9a04f079-9840-4286-ab92-e65be0885f95".toList = some playReadyId := by
  obtain ⟨hu, hq, hlt⟩ := uuid_text kid hk
  refine ⟨⟨_, ?_, hu⟩, ⟨_, ?_, base64_is body 0⟩, ?_, by decide +kernel⟩
  · obtain ⟨a, ha, hab⟩ : ∃ a, prA = a ++ "cenc:default_KID=\"".toList ∧ absent "cenc:default_KID=\"".toList a = true :=
      ⟨prA.take (prA.length - 18), by decide +kernel, by decide +kernel⟩
    have e : playReadyXml kid body = a ++ "cenc:default_KID=\"".toList ++ kidToString kid ++ '"' ::
        (prB.drop 1 ++ kidToString kid ++ prC ++ base64 body ++ prD) := by
      rw [playReadyXml, ha, show prB = '"' :: prB.drop 1 by decide +kernel]
      simp only [List.append_assoc, List.cons_append, List.drop]
    rw [e]
    exact attr_text "cenc:default_KID" _ _ _ _ (by decide) (by decide) hab hq
  · have e : playReadyXml kid body = (prA ++ kidToString kid ++ prB ++ kidToString kid ++ prC.take 2) ++ "<mspr:pro>".toList ++
        base64 body ++ '<' :: prD.drop 1 := by
      rw [playReadyXml, show prD = '<' :: prD.drop 1 by decide +kernel]
      conv => lhs; rw [show prC = prC.take 2 ++ "<mspr:pro>".toList by decide +kernel]
      simp only [List.append_assoc, List.drop]
    rw [e]
    refine elem_text "<mspr:pro>" _ _ _ (by decide) ?_ (fun c hc => (base64_chars body 0 c hc).1)
    exact absent_both _ _ _ (absent_then '<' "mspr:pro>".toList _ _ (absent_both _ _ _
      (absent_then '<' "mspr:pro>".toList _ _ (by decide +kernel) hlt) (by decide +kernel)) hlt) (by decide +kernel)
  · exact pssh_standard (playReadyPssh body) rest (by simp [playReadyPssh]) rfl rfl (by simp [playReadyPssh]) (by
      have : playReadyId.length = 16 := rfl
      simp [playReadyPssh, Pssh.put, be32_length, this]
      omega)

example : ([0x10, 0, 0, 0, 0x10, 0, 0x10, 0, 0x10, 0, 0x10, 0, 0, 0, 0, 1] : List UInt8).length = 16 ∧
    ([1, 2, 3] : List UInt8).length < 2 ^ 31 := by decide

theorem pssh_elem (a b : List Char) (box : List UInt8) (h : b = a ++ "<cenc:pssh>".toList ∧ absent "<cenc:pssh>".toList a = true) :
    Spec.textOf "<cenc:pssh>" (b ++ base64 box ++ psshEnd) = some (base64 box) := by
  rw [h.1, show psshEnd = '<' :: psshEnd.drop 1 by decide +kernel]
  exact elem_text "<cenc:pssh>" _ _ _ (by decide) h.2 (fun c hc => (base64_chars box 0 c hc).1)

/-- C120: the ClearKey element of the manifest carries, in Base64, exactly the box that is in the file; read by the standard, that box
has the clear key system id and this one key id. -/
theorem clearkey_manifest (kid rest : List UInt8) (hk : kid.length = 16) :
    (∃ t, Spec.textOf "<cenc:pssh>" (clearKeyXml kid) = some t ∧ Spec.isBase64Of t (psshBox (clearKeyPssh kid))) ∧
    Spec.psshBox (psshBox (clearKeyPssh kid) ++ rest) = some (⟨1, clearKeyId, [kid], []⟩, rest) ∧
    Spec.uuid "1077efec-c0b2-4d02-ace3-3c1e52e2fb4b".toList = some clearKeyId := by
  refine ⟨⟨_, ?_, base64_is _ 0⟩, ?_, by decide +kernel⟩
  · exact pssh_elem (ckA.take (ckA.length - 11)) ckA _ (by decide +kernel)
  · have := pssh_standard (clearKeyPssh kid) rest (by simp [clearKeyPssh]) rfl hk (by simp [clearKeyPssh]) (by
      have : clearKeyId.length = 16 := rfl
      simp [clearKeyPssh, Pssh.put, be32_length, this, hk])
    simpa [clearKeyPssh] using this

/-- C120: `-widevinebody` given as the Base64 text of any data: the box in the file has the Widevine system id and exactly that data,
and the manifest carries exactly that box. -/
theorem widevine_manifest (data rest : List UInt8) (hd : data.length < 2 ^ 31) :
    ∃ body, widevineBody (Base64.Spec.rfc4648 data) = some body ∧
      (∃ t, Spec.textOf "<cenc:pssh>" (widevineXml body) = some t ∧ Spec.isBase64Of t (psshBox (widevinePssh body))) ∧
      Spec.psshBox (psshBox (widevinePssh body) ++ rest) = some (⟨0, widevineId, [], data⟩, rest) ∧
      Spec.uuid "edef8ba9-79d6-4ace-a3c8-27dcd51d21ed".toList = some widevineId := by
  refine ⟨data, ?_, ⟨_, ?_, base64_is _ 0⟩, ?_, by decide +kernel⟩
  · have := Base64.base64_roundtrip [data] [Base64.Spec.rfc4648 data]
      (by rw [Base64.base64_encode_is_rfc4648]; simp)
    simpa [widevineBody] using this
  · exact pssh_elem (wvA.take (wvA.length - 11)) wvA _ (by decide +kernel)
  · exact pssh_standard (widevinePssh data) rest (by simp [widevinePssh]) rfl rfl (by simp [widevinePssh]) (by
      have : widevineId.length = 16 := rfl
      simp [widevinePssh, Pssh.put, be32_length, this]
      omega)

/-- C120: several boxes one after the other (one for each DRM system) are read as these boxes, in order. -/
theorem pssh_boxes_parse (ps : List Pssh) (h : ∀ p ∈ ps, p.version < 256 ∧ p.systemId.length = 16 ∧ p.kid.length = 16 ∧
      p.kidCount < 2 ^ 32 ∧ 8 + p.put.length < 2 ^ 32) :
    Spec.psshBoxes ps.length (psshBoxes ps) =
      some (ps.map fun p => ⟨p.version, p.systemId, if p.version = 0 then [] else List.replicate p.kidCount p.kid, p.data⟩) := by
  induction ps with
  | nil => rfl
  | cons p ps ih =>
    obtain ⟨h1, h2, h3, h4, h5⟩ := h p (by simp)
    rw [psshBoxes, List.flatMap_cons, List.length_cons, Spec.psshBoxes, pssh_standard p _ h1 h2 h3 h4 h5, Option.bind_some]
    have := ih (fun q hq => h q (by simp [hq]))
    rw [psshBoxes] at this
    simp only [this, Option.map_some, List.map_cons]

example : Spec.psshBoxes 2 (psshBoxes [clearKeyPssh (List.replicate 16 5), widevinePssh [1, 2, 3]]) =
    some [⟨1, clearKeyId, [List.replicate 16 5], []⟩, ⟨0, widevineId, [], [1, 2, 3]⟩] := by decide +kernel

/-! ### C121: reading a box back -/

theorem takeBytes_app (n : Nat) (a b : List UInt8) (h : a.length = n) : takeBytes n (a ++ b) = some (a, b) := by
  rw [takeBytes, if_neg (by simp; omega), List.take_left' h, List.drop_left' h]

/-- A list of key ids, read by the loop of the code: the last one remains. -/
theorem getKids_flat (kids : List (List UInt8)) (h : ∀ k ∈ kids, k.length = 16) : ∀ (k0 r : List UInt8),
    getKids kids.length k0 (kids.flatten ++ r) = some (kids.getLast?.getD k0, r) := by
  induction kids with
  | nil => intro k0 r; rfl
  | cons k kids ih =>
    intro k0 r
    rw [List.length_cons, getKids, List.flatten_cons, List.append_assoc, takeBytes_app 16 _ _ (h k (by simp)), Option.bind_some,
      ih (fun q hq => h q (by simp [hq])) k r]
    cases kids with
    | nil => rfl
    | cons a l => simp [List.getLast?_cons_cons, List.getLast?_cons]

/-- A `pssh` box body with any key ids, as other programs write it (ISO/IEC 23001-7, 8.1.2). -/
def otherPssh (version flags : Nat) (system : List UInt8) (kids : List (List UInt8)) (data : List UInt8) : List UInt8 :=
  [UInt8.ofNat version, UInt8.ofNat (flags / 2 ^ 16), UInt8.ofNat (flags / 2 ^ 8), UInt8.ofNat flags] ++ system ++
  (if version > 0 then be32 kids.length ++ kids.flatten else []) ++ be32 data.length ++ data

theorem get_other (version flags : Nat) (system : List UInt8) (kids : List (List UInt8)) (data rest : List UInt8)
    (hv : version < 256) (hf : flags < 2 ^ 24) (hs : system.length = 16) (hk : ∀ k ∈ kids, k.length = 16)
    (hn : kids.length < 2 ^ 32) (hd : data.length < 2 ^ 32) :
    Pssh.get (otherPssh version flags system kids data ++ rest) =
      some ⟨version, flags, system, if version > 0 then kids.length else 0,
        if version > 0 then kids.getLast?.getD (List.replicate 16 0) else List.replicate 16 0, data⟩ := by
  have e : otherPssh version flags system kids data ++ rest = [UInt8.ofNat version] ++
      ([UInt8.ofNat (flags / 2 ^ 16), UInt8.ofNat (flags / 2 ^ 8), UInt8.ofNat flags] ++ (system ++
      ((if version > 0 then be32 kids.length ++ kids.flatten else []) ++ (be32 data.length ++ (data ++ rest))))) := by
    simp [otherPssh, List.append_assoc]
  have h1 : beVal [UInt8.ofNat version] = version := by
    simp only [beVal, List.foldl_cons, List.foldl_nil, UInt8.toNat_ofNat']; omega
  have h2 : beVal [UInt8.ofNat (flags / 2 ^ 16), UInt8.ofNat (flags / 2 ^ 8), UInt8.ofNat flags] = flags := by
    simp only [beVal, List.foldl_cons, List.foldl_nil, UInt8.toNat_ofNat']; omega
  have h3 : beVal (be32 data.length) = data.length := be_be32 _ hd
  have h4 : beVal (be32 kids.length) = kids.length := be_be32 _ hn
  rw [e, Pssh.get, takeBytes_app 1 _ _ rfl, Option.bind_some, takeBytes_app 3 _ _ rfl, Option.bind_some, takeBytes_app 16 _ _ hs,
    Option.bind_some]
  simp only [h1, h2]
  by_cases h0 : version > 0
  · simp only [if_pos h0]
    rw [List.append_assoc, takeBytes_app 4 _ _ rfl, Option.bind_some]
    simp only [h4]
    rw [getKids_flat kids hk, Option.map_some, Option.bind_some, takeBytes_app 4 _ _ rfl, Option.bind_some]
    simp only [h3]
    rw [takeBytes_app _ _ _ rfl, Option.bind_some]
  · simp only [if_neg h0, List.nil_append]
    rw [Option.bind_some, takeBytes_app 4 _ _ rfl, Option.bind_some]
    simp only [h3]
    rw [takeBytes_app _ _ _ rfl, Option.bind_some]

/-- C121 (part): a box with at most one key id, read and written again, is the same box. -/
theorem pssh_copy_partial (version flags : Nat) (system : List UInt8) (kids : List (List UInt8)) (data rest : List UInt8)
    (hv : version < 256) (hf : flags < 2 ^ 24) (hs : system.length = 16) (hk : ∀ k ∈ kids, k.length = 16)
    (hn : kids.length ≤ 1) (hd : data.length < 2 ^ 32) :
    ∃ p, Pssh.get (otherPssh version flags system kids data ++ rest) = some p ∧ p.put = otherPssh version flags system kids data := by
  refine ⟨_, get_other version flags system kids data rest hv hf hs hk (by omega) hd, ?_⟩
  match kids, hn with
  | [], _ =>
    simp only [Pssh.put, otherPssh]
    by_cases h0 : version > 0 <;> simp [h0]
  | [k], _ =>
    simp only [Pssh.put, otherPssh]
    by_cases h0 : version > 0 <;> simp [h0]

example : ∃ p, Pssh.get (otherPssh 1 0 clearKeyId [List.replicate 16 3] [9, 9] ++ [1]) = some p ∧ p.kid = List.replicate 16 3 ∧ p.data = [9, 9] :=
  ⟨_, get_other 1 0 clearKeyId [List.replicate 16 3] [9, 9] [1] (by decide) (by decide) rfl (by simp) (by decide) (by decide),
    by decide, by decide⟩

/-- C121, why only in part: a box with several key ids keeps the last one only, and a copy has that one in all places. -/
theorem pssh_kids_lost_witness (kids : List (List UInt8)) (k : List UInt8) (hk : ∀ k ∈ kids, k.length = 16) (h16 : k.length = 16)
    (hn : kids.length + 1 < 2 ^ 32) :
    ∃ p, Pssh.get (otherPssh 1 0 clearKeyId (kids ++ [k]) []) = some p ∧
      p.put = otherPssh 1 0 clearKeyId (List.replicate (kids.length + 1) k) [] := by
  have := get_other 1 0 clearKeyId (kids ++ [k]) [] [] (by decide) (by decide) rfl
    (by intro q hq; rw [List.mem_append, List.mem_singleton] at hq; exact hq.elim (hk q) (fun h => h ▸ h16))
    (by simpa using hn) (by decide)
  rw [List.append_nil] at this
  refine ⟨_, this, ?_⟩
  simp [Pssh.put, otherPssh]

example : otherPssh 1 0 clearKeyId ([List.replicate 16 1] ++ [List.replicate 16 2]) [] ≠
    otherPssh 1 0 clearKeyId (List.replicate (1 + 1) (List.replicate 16 2)) [] := by decide

/-! ### C123: the clear key license file -/

theorem json_text (name : String) (p a x r : List Char) (hp : p ≠ []) (he : ("\"" ++ name ++ "\" : \"").toList = p)
    (ha : absent p a = true) (hx : ∀ c ∈ x, c ≠ '"') : Spec.jsonOf name (a ++ p ++ x ++ '"' :: r) = some x := by
  rw [Spec.jsonOf, he, List.append_assoc, List.append_assoc, after_split _ _ _ hp ha, Option.map_some,
    takeWhile_stop _ _ _ _ (fun c hc => by simpa using hx c hc) (by simp)]

theorem json_kid_text (kid key : List UInt8) : Spec.jsonOf "kid" (jsonKey kid key) = some (base64 kid) := by
  obtain ⟨a, ha, hab⟩ : ∃ a, jsonA = a ++ "\"kid\" : \"".toList ∧ absent "\"kid\" : \"".toList a = true :=
    ⟨jsonA.take (jsonA.length - 9), by decide +kernel, by decide +kernel⟩
  have e : jsonKey kid key = a ++ "\"kid\" : \"".toList ++ base64 kid ++ '"' :: (jsonB.drop 1 ++ base64 key ++ jsonC) := by
    rw [jsonKey, ha, show jsonB = '"' :: jsonB.drop 1 by decide +kernel]
    simp only [List.append_assoc, List.cons_append, List.drop]
  rw [e]
  exact json_text "kid" _ _ _ _ (by decide) (by decide) hab (fun c hc => (base64_chars kid 0 c hc).2.1)

theorem json_k_text (kid key : List UInt8) : Spec.jsonOf "k" (jsonKey kid key) = some (base64 key) := by
  have e : jsonKey kid key = (jsonA.take 19 ++ '"' :: (base64 kid ++ jsonB.take 4)) ++ "\"k\" : \"".toList ++ base64 key ++
      '"' :: jsonC.drop 1 := by
    rw [jsonKey, show jsonC = '"' :: jsonC.drop 1 by decide +kernel]
    conv =>
      lhs
      rw [show jsonB = jsonB.take 4 ++ "\"k\" : \"".toList by decide +kernel, show jsonA = jsonA.take 19 ++ ['"'] by decide +kernel]
    simp only [List.append_assoc, List.drop, List.cons_append, List.nil_append]
  rw [e]
  have hq : ∀ c ∈ base64 kid, c ≠ '"' := fun c hc => (base64_chars kid 0 c hc).2.1
  refine json_text "k" _ _ _ _ (by decide) (by decide) (absent_both _ _ _ (by decide +kernel) ?_)
    (fun c hc => (base64_chars key 0 c hc).2.1)
  have hp : "\"k\" : \"".toList = ['"', 'k', '"', ' ', ':', ' ', '"'] := by decide +kernel
  have hB : jsonB.take 4 = ['"', ' ', ',', ' '] := by decide +kernel
  rw [absent, Bool.and_eq_true]
  constructor
  · rw [hp, hB]
    match hb : base64 kid with
    | [] => decide
    | [c] => by_cases hc : c = 'k' <;> simp [clash, hc]
    | c :: d :: t =>
      have hd : '"' ≠ d := fun h => hq d (by rw [hb]; simp) h.symm
      simp [clash, hd]
  · exact absent_both _ _ _ (absent_of_head '"' _ _ (fun h => hq _ h rfl)) (by decide +kernel)

/-- C123 (part): the members `kid` and `k` of the license file are the Base64 texts of the key id and the key. -/
theorem json_key_partial (kid key : List UInt8) :
    (∃ t, Spec.jsonOf "kid" (jsonKey kid key) = some t ∧ Spec.isBase64Of t kid) ∧
    (∃ t, Spec.jsonOf "k" (jsonKey kid key) = some t ∧ Spec.isBase64Of t key) :=
  ⟨⟨_, json_kid_text kid key, base64_is kid 0⟩, ⟨_, json_k_text kid key, base64_is key 0⟩⟩

/-- C123, why only in part: a browser wants Base64 for addresses without padding (W3C Encrypted Media Extensions, 9.1.4): but for every
key id and key of 16 bytes both texts end with two `=`. -/
theorem json_key_padding_witness (kid key : List UInt8) (hk : kid.length = 16) (hy : key.length = 16) :
    ∃ t u, Spec.jsonOf "kid" (jsonKey kid key) = some (t ++ ['=', '=']) ∧ Spec.jsonOf "k" (jsonKey kid key) = some (u ++ ['=', '=']) := by
  have h16 : ∀ b : List UInt8, b.length = 16 → ∃ t, base64 b = t ++ ['=', '='] := by
    intro b hb
    match b, hb with
    | [a, b, c, d, e, f, g, h, i, j, k, l, m, n, o, p], _ =>
      rw [base64_text]
      simp only [Base64.Spec.rfc4648]
      rw [show ∀ (A B C D E : List UInt8) (x y : UInt8), A ++ (B ++ (C ++ (D ++ (E ++ [x, y, Base64.Spec.pad, Base64.Spec.pad])))) =
        (A ++ (B ++ (C ++ (D ++ (E ++ [x, y]))))) ++ [Base64.Spec.pad, Base64.Spec.pad] from by intros; simp [List.append_assoc],
        List.map_append]
      exact ⟨_, rfl⟩
  obtain ⟨t, ht⟩ := h16 kid hk
  obtain ⟨u, hu⟩ := h16 key hy
  exact ⟨t, u, by rw [json_kid_text, ht], by rw [json_k_text, hu]⟩

example : (List.replicate 16 (1 : UInt8)).length = 16 := rfl

end Verif.Drm
