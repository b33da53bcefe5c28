import Verif.HlsCrypt.Model
import Verif.HlsCrypt.Spec
import Verif.Cenc.Props

/-!
Encryption of HLS segments (C25) and the initialisation vector a player uses (C67).
-/
namespace Verif.HlsCrypt
open Spec Verif.Cenc.Spec

theorem xor_length (a b : List UInt8) (ha : a.length = 16) (hb : b.length = 16) : (xorBlock a b).length = 16 := by
  simp [xorBlock, ha, hb]

theorem uxor_cancel (x y : UInt8) : (x ^^^ y) ^^^ x = y := by
  rw [UInt8.xor_comm x y, UInt8.xor_assoc, UInt8.xor_self, UInt8.xor_zero]

theorem xor_cancel : ∀ (a b : List UInt8), a.length = b.length → Spec.xor (xorBlock a b) a = b := by
  intro a
  induction a with
  | nil => intro b h; cases b with
    | nil => rfl
    | cons => simp at h
  | cons x a ih =>
    intro b h
    cases b with
    | nil => simp at h
    | cons y b =>
      simp only [xorBlock, Spec.xor, List.zipWith_cons_cons] at ih ⊢
      rw [ih b (by simpa using h), uxor_cancel]

/-- Decrypting what the library wrote for `n` blocks gives these blocks. -/
theorem cbc_spec {E D : List UInt8 → List UInt8} (hc : Cipher E D) : ∀ n iv data, iv.length = 16 → 16 * n ≤ data.length →
    (aesCbcEncrypt E n iv data).1.length = 16 * n ∧ (aesCbcEncrypt E n iv data).2.length = 16 ∧
      cbcDecrypt D iv (blocks n (aesCbcEncrypt E n iv data).1) = blocks n data := by
  intro n
  induction n with
  | zero => intro iv data hi _; exact ⟨rfl, hi, rfl⟩
  | succ n ih =>
    intro iv data hi hl
    have h16 : (data.take 16).length = 16 := by rw [List.length_take]; omega
    have hx := xor_length iv (data.take 16) hi h16
    have hE := hc.length _ hx
    obtain ⟨h1, h2, h3⟩ := ih (E (xorBlock iv (data.take 16))) (data.drop 16) hE (by rw [List.length_drop]; omega)
    simp only [aesCbcEncrypt]
    refine ⟨by rw [List.length_append, h1, hE]; omega, h2, ?_⟩
    simp only [blocks]
    rw [List.take_append_of_le_length (by omega), List.take_of_length_le (by omega), List.drop_append_of_le_length (by omega),
      List.drop_of_length_le (by omega), List.nil_append]
    simp only [cbcDecrypt]
    rw [h3, hc.inverse _ hx, xor_cancel _ _ (by omega)]

/-- Encrypting in two calls is encrypting at once. -/
theorem cbc_append (E : List UInt8 → List UInt8) (m : Nat) : ∀ n iv a b, a.length = 16 * n →
    aesCbcEncrypt E (n + m) iv (a ++ b) =
      ((aesCbcEncrypt E n iv a).1 ++ (aesCbcEncrypt E m (aesCbcEncrypt E n iv a).2 b).1,
       (aesCbcEncrypt E m (aesCbcEncrypt E n iv a).2 b).2) := by
  intro n
  induction n with
  | zero =>
    intro iv a b h
    have : a = [] := List.length_eq_zero_iff.mp (by omega)
    subst this
    simp [aesCbcEncrypt]
  | succ n ih =>
    intro iv a b h
    rw [Nat.add_right_comm]
    simp only [aesCbcEncrypt]
    rw [List.take_append_of_le_length (by omega), List.drop_append_of_le_length (by omega),
      ih _ (a.drop 16) b (by rw [List.length_drop]; omega)]
    simp

/-- Only the first `16 * n` bytes matter. -/
theorem cbc_take (E : List UInt8 → List UInt8) : ∀ n iv a, aesCbcEncrypt E n iv (a.take (16 * n)) = aesCbcEncrypt E n iv a := by
  intro n
  induction n with
  | zero => intro iv a; rfl
  | succ n ih =>
    intro iv a
    have h1 : (a.take (16 * (n + 1))).take 16 = a.take 16 := by rw [List.take_take, Nat.min_eq_left (by omega)]
    have h2 : (a.take (16 * (n + 1))).drop 16 = (a.drop 16).take (16 * n) := by
      rw [List.drop_take]; congr 1
    simp only [aesCbcEncrypt, h1, h2, ih]

theorem blocks_flatten : ∀ n (l : List UInt8), l.length = 16 * n → (blocks n l).flatten = l := by
  intro n
  induction n with
  | zero => intro l h; rw [List.length_eq_zero_iff.mp (show l.length = 0 by omega)]; rfl
  | succ n ih =>
    intro l h
    simp only [blocks, List.flatten_cons]
    rw [ih _ (by rw [List.length_drop]; omega), List.take_append_drop]

/-- PKCS7 padding of a text to a multiple of 16. -/
def padded (clear : List UInt8) : List UInt8 :=
  clear ++ List.replicate (encMissing clear.length) (UInt8.ofNat (encMissing clear.length))

theorem unpad_padded (clear : List UInt8) : unpad (padded clear) = some clear := by
  have hm : 1 ≤ encMissing clear.length ∧ encMissing clear.length ≤ 16 := by simp only [encMissing]; omega
  have hn : (UInt8.ofNat (encMissing clear.length)).toNat = encMissing clear.length := by
    rw [UInt8.toNat_ofNat', Nat.mod_eq_of_lt (by omega)]
  have hlast : (padded clear).getLast? = some (UInt8.ofNat (encMissing clear.length)) := by
    rw [padded, List.getLast?_append, List.getLast?_replicate, if_neg (by omega)]; rfl
  have hl : (padded clear).length = clear.length + encMissing clear.length := by simp [padded]
  simp only [unpad, hlast, hn, hl, Nat.add_sub_cancel]
  rw [if_pos ⟨hm.1, hm.2, by omega, by rw [padded, List.drop_left]⟩]
  rw [padded, List.take_left]

theorem padded_split (clear : List UInt8) : padded clear = clear.take (16 * (clear.length / 16)) ++
    poke (List.replicate 16 (UInt8.ofNat (encMissing clear.length))) 0
      ((clear.drop (clear.length / 16 * 16)).take (16 - encMissing clear.length)) := by
  have hd := Nat.div_add_mod clear.length 16
  have hmod := Nat.mod_lt clear.length (y := 16) (by decide)
  have h1 : (clear.drop (clear.length / 16 * 16)).take (16 - encMissing clear.length) = clear.drop (16 * (clear.length / 16)) := by
    rw [Nat.mul_comm, List.take_of_length_le]
    rw [List.length_drop]; simp only [encMissing]; omega
  rw [h1, poke, List.take_zero, List.nil_append, ← List.append_assoc, List.take_append_drop, padded, List.drop_replicate]
  congr 2
  rw [List.length_drop]; simp only [encMissing]; omega

theorem padded_length (clear : List UInt8) : (padded clear).length = 16 * (clear.length / 16 + 1) := by
  simp only [padded, List.length_append, List.length_replicate, encMissing]; omega

/-- The vector the code builds is that of the sequence number, when it is not negative. -/
theorem iv_eq (k : Nat) (hk : k < 2 ^ 31) : List.replicate 12 (0 : UInt8) ++
      [UInt8.ofNat (((k : Int) / 2 ^ 24) % 256).toNat, UInt8.ofNat (((k : Int) / 2 ^ 16) % 256).toNat,
       UInt8.ofNat (((k : Int) / 2 ^ 8) % 256).toNat, UInt8.ofNat ((k : Int) % 256).toNat] = Spec.iv k := by
  have e : ∀ j : Nat, UInt8.ofNat (((k : Int) / (2 : Int) ^ j) % 256).toNat = UInt8.ofNat (k / 2 ^ j) := by
    intro j
    have : (((k : Int) / (2 : Int) ^ j) % 256).toNat = k / 2 ^ j % 256 := by
      rw [show ((2 : Int) ^ j) = ((2 ^ j : Nat) : Int) by simp, ← Int.natCast_ediv]
      omega
    rw [this]
    apply UInt8.toNat.inj
    simp [UInt8.toNat_ofNat']
  have e0 : UInt8.ofNat ((k : Int) % 256).toNat = UInt8.ofNat k := by
    have := e 0
    simpa using this
  rw [e, e, e, e0]
  have z : ∀ j, 256 ^ 4 ≤ j → k / j = 0 := fun j hj => Nat.div_eq_of_lt (by omega)
  simp only [Spec.iv, be, Nat.div_div_eq_div_mul, Nat.reduceMul]
  simp only [z _ (show 256 ^ 4 ≤ 4294967296 by decide), z _ (show 256 ^ 4 ≤ 1099511627776 by decide),
    z _ (show 256 ^ 4 ≤ 281474976710656 by decide), z _ (show 256 ^ 4 ≤ 72057594037927936 by decide),
    z _ (show 256 ^ 4 ≤ 18446744073709551616 by decide), z _ (show 256 ^ 4 ≤ 4722366482869645213696 by decide),
    z _ (show 256 ^ 4 ≤ 1208925819614629174706176 by decide), z _ (show 256 ^ 4 ≤ 309485009821345068724781056 by decide),
    z _ (show 256 ^ 4 ≤ 79228162514264337593543950336 by decide),
    z _ (show 256 ^ 4 ≤ 20282409603651670423947251286016 by decide),
    z _ (show 256 ^ 4 ≤ 5192296858534827628530496329220096 by decide),
    z _ (show 256 ^ 4 ≤ 1329227995784915872903807060280344576 by decide)]
  rfl

theorem iv_length (k : Nat) : (Spec.iv k).length = 16 := Verif.Cenc.be_length 16 k

/-- The encrypted text is the library's CBC of the padded text. -/
theorem encryptBuffer_eq {E D : List UInt8 → List UInt8} (hc : Cipher E D) (dest clear : List UInt8) (destSize k : Nat)
    (h0 : clear ≠ []) (hsz : encSize clear.length ≤ destSize) (hdest : dest.length = destSize) (hl : clear.length < 2 ^ 32)
    (hk : k < 2 ^ 31) :
    encryptBuffer E dest destSize clear k = .ok (encSize clear.length)
      ((aesCbcEncrypt E (clear.length / 16 + 1) (Spec.iv k) (padded clear)).1 ++ dest.drop (encSize clear.length)) := by
  have hn : clear.length ≠ 0 := fun h => h0 (List.length_eq_zero_iff.mp h)
  have hes : encSize clear.length = 16 * (clear.length / 16 + 1) := by
    rw [← padded_length]; simp [padded, encSize]
  have hd0 : ¬ destSize = 0 := by omega
  simp only [encryptBuffer, if_neg hn, if_neg hd0, if_neg (Nat.not_lt.mpr hsz), iv_eq k hk]
  have hfb : clear.length / 16 * 16 % 2 ^ 32 / 16 = clear.length / 16 := by
    rw [Nat.mod_eq_of_lt (by omega), Nat.mul_div_cancel _ (by decide)]
  rw [hfb]
  refine congrArg (Result.ok _) ?_
  have hiv := iv_length k
  rw [padded_split, cbc_append E 1 (clear.length / 16) _ _ _ (by rw [List.length_take]; omega), cbc_take]
  obtain ⟨o1, ho1⟩ : ∃ t, t = aesCbcEncrypt E (clear.length / 16) (Spec.iv k) clear := ⟨_, rfl⟩
  obtain ⟨la, hla⟩ : ∃ t, t = poke (List.replicate 16 (UInt8.ofNat (encMissing clear.length))) 0
      ((clear.drop (clear.length / 16 * 16)).take (16 - encMissing clear.length)) := ⟨_, rfl⟩
  obtain ⟨h1, h2, _⟩ := cbc_spec hc (clear.length / 16) (Spec.iv k) clear hiv (by omega)
  have hlal : la.length = 16 := by
    have := padded_length clear
    rw [padded_split, ← hla, List.length_append, List.length_take] at this
    omega
  rw [← ho1] at h1 h2 ⊢
  rw [← hla]
  obtain ⟨h3, _, _⟩ := cbc_spec hc 1 o1.2 la h2 (by omega)
  obtain ⟨o2, ho2⟩ : ∃ t, t = aesCbcEncrypt E 1 o1.2 la := ⟨_, rfl⟩
  rw [← ho2] at h3 ⊢
  simp only [poke, List.take_zero, List.nil_append, Nat.zero_add]
  rw [List.take_append_of_le_length (by omega), List.take_of_length_le (by omega), List.drop_append, List.drop_drop, h1, h3,
    List.drop_of_length_le (by omega), List.nil_append, List.append_assoc]
  rw [show 16 * (clear.length / 16) + (clear.length / 16 * 16 + 16 * 1 - 16 * (clear.length / 16)) = encSize clear.length by omega, List.append_assoc]

/-- C25: the size asked for beforehand is the size of the encrypted segment, which is the next larger multiple of 16; the encrypted
segment is decrypted by a player (CBC with the vector of the sequence number, PKCS7) to the segment; nothing else of the destination is
touched. For every cipher, every non-empty segment below 4 GiB and every sequence number. -/
theorem encrypt_decrypt {E D : List UInt8 → List UInt8} (hc : Cipher E D) (dest clear : List UInt8) (k : Nat)
    (h0 : clear ≠ []) (hl : clear.length < 2 ^ 32) (hk : k < 2 ^ 31)
    (hsz : encSize clear.length ≤ dest.length) :
    ∃ size out, encryptBuffer E dest 0 clear k = .sizeQuery size ∧ encryptBuffer E dest dest.length clear k = .ok size out ∧
      clear.length < size ∧ size ≤ clear.length + 16 ∧ size % 16 = 0 ∧
      out.length = dest.length ∧ out.drop size = dest.drop size ∧
      Spec.decrypt D (Spec.iv k) (out.take size) = some clear := by
  have hn : clear.length ≠ 0 := fun h => h0 (List.length_eq_zero_iff.mp h)
  have hes : encSize clear.length = 16 * (clear.length / 16 + 1) := by
    rw [← padded_length]; simp [padded, encSize]
  obtain ⟨h1, _, h3⟩ := cbc_spec hc (clear.length / 16 + 1) (Spec.iv k) (padded clear) (iv_length k) (by rw [padded_length]; omega)
  refine ⟨encSize clear.length, _, by simp [encryptBuffer, hn], encryptBuffer_eq hc dest clear _ k h0 hsz rfl hl hk,
    by omega, by omega, by omega, ?_, ?_, ?_⟩
  · rw [List.length_append, h1, List.length_drop]; omega
  · rw [List.drop_append_of_le_length (by omega), List.drop_of_length_le (by omega), List.nil_append]
  · rw [List.take_append_of_le_length (by omega), List.take_of_length_le (by omega)]
    simp only [Spec.decrypt, h1]
    rw [if_pos (by omega), Nat.mul_div_cancel_left _ (by decide), h3, blocks_flatten _ _ (padded_length clear), unpad_padded]

/-- C25: a buffer that is too small is refused, and so is an empty segment. -/
theorem encrypt_refuses (E : List UInt8 → List UInt8) (dest clear : List UInt8) (destSize : Nat) (k : Int) :
    (clear = [] → encryptBuffer E dest destSize clear k = .invalidArg) ∧
    (clear ≠ [] → 0 < destSize → destSize < clear.length + (16 - clear.length % 16) →
      encryptBuffer E dest destSize clear k = .invalidInput) := by
  constructor
  · rintro rfl; rfl
  · intro h0 h1 h2
    have hn : clear.length ≠ 0 := fun h => h0 (List.length_eq_zero_iff.mp h)
    have hd : ¬ destSize = 0 := by omega
    have hs : encSize clear.length > destSize := h2
    simp only [encryptBuffer, if_neg hn, if_neg hd, if_pos hs]

/-- C25 for files: the file is replaced by text that the player of the given sequence number decrypts to the old content. -/
theorem file_decrypt {E D : List UInt8 → List UInt8} (hc : Cipher E D) (dest clear : List UInt8) (k : Nat)
    (h0 : clear ≠ []) (hl : clear.length < 2 ^ 32) (hk : k < 2 ^ 31) (hsz : dest.length = encSize clear.length) :
    ∃ out, encryptFile E dest clear k = some out ∧ Spec.decrypt D (Spec.iv k) out = some clear := by
  obtain ⟨size, out, _, h2, _, _, _, _, _, h8⟩ := encrypt_decrypt hc dest clear k h0 hl hk (by omega)
  rw [hsz] at h2
  exact ⟨out.take size, by simp only [encryptFile, h2], h8⟩

/-! ### C67: the initialisation vector of the player -/

theorem segmentSequence_eq (k : Nat) : segmentSequence k = (k + 1) % 256 := by
  induction k with
  | zero => rfl
  | succ k ih => simp only [segmentSequence, ih]; omega

/-- The encrypted file as CBC of the padded content. -/
theorem encryptFile_eq {E D : List UInt8 → List UInt8} (hc : Cipher E D) (dest clear : List UInt8) (k : Nat)
    (h0 : clear ≠ []) (hl : clear.length < 2 ^ 32) (hk : k < 2 ^ 31) (hsz : dest.length = encSize clear.length) :
    encryptFile E dest clear k = some (aesCbcEncrypt E (clear.length / 16 + 1) (Spec.iv k) (padded clear)).1 := by
  have hes : encSize clear.length = 16 * (clear.length / 16 + 1) := by
    rw [← padded_length]; simp [padded, encSize]
  obtain ⟨h1, _, _⟩ := cbc_spec hc (clear.length / 16 + 1) (Spec.iv k) (padded clear) (iv_length k) (by rw [padded_length]; omega)
  have := encryptBuffer_eq hc dest clear _ k h0 (Nat.le_refl _) hsz hl hk
  simp only [encryptFile, this]
  rw [List.take_append_of_le_length (by omega), List.take_of_length_le (by omega)]

theorem xor_swap : ∀ (a b c : List UInt8), a.length = b.length → c.length = b.length →
    Spec.xor (xorBlock a b) c = Spec.xor (Spec.xor a c) b := by
  intro a
  induction a with
  | nil => intro b c h h'; cases b with
    | nil => cases c with
      | nil => rfl
      | cons => simp at h'
    | cons => simp at h
  | cons x a ih =>
    intro b c h h'
    cases b with
    | nil => simp at h
    | cons y b =>
      cases c with
      | nil => simp at h'
      | cons z c =>
        simp only [xorBlock, Spec.xor, List.zipWith_cons_cons] at ih ⊢
        rw [ih b c (by simpa using h) (by simpa using h')]
        congr 1
        rw [UInt8.xor_assoc, UInt8.xor_comm y z, ← UInt8.xor_assoc]

/-- CBC decryption with another vector differs in the first block only, by the difference of the vectors. -/
theorem cbc_other_iv {E D : List UInt8 → List UInt8} (hc : Cipher E D) (n : Nat) (iv iv' data : List UInt8) (h : iv.length = 16)
    (h' : iv'.length = 16) (hl : 16 * (n + 1) ≤ data.length) :
    cbcDecrypt D iv' (blocks (n + 1) (aesCbcEncrypt E (n + 1) iv data).1) =
      Spec.xor (Spec.xor iv iv') (data.take 16) :: blocks n (data.drop 16) := by
  have h16 : (data.take 16).length = 16 := by rw [List.length_take]; omega
  have hx := xor_length iv (data.take 16) h h16
  have hE := hc.length _ hx
  obtain ⟨h1, h2, h3⟩ := cbc_spec hc n (E (xorBlock iv (data.take 16))) (data.drop 16) hE (by rw [List.length_drop]; omega)
  simp only [aesCbcEncrypt, blocks]
  rw [List.take_append_of_le_length (by omega), List.take_of_length_le (by omega), List.drop_append_of_le_length (by omega),
    List.drop_of_length_le (by omega), List.nil_append]
  simp only [cbcDecrypt]
  rw [h3, hc.inverse _ hx, xor_swap _ _ _ (by omega) (by omega)]

theorem unpad_prefix (x y z : List UInt8) (m : Nat) (hm : 1 ≤ m ∧ m ≤ 16) (r : List UInt8)
    (he : y ++ z = r ++ List.replicate m (UInt8.ofNat m)) (hr : y.length ≤ r.length) :
    unpad (x ++ z) = some (x ++ r.drop y.length) := by
  have hz : z = r.drop y.length ++ List.replicate m (UInt8.ofNat m) := by
    have := congrArg (List.drop y.length) he
    rwa [List.drop_left, List.drop_append_of_le_length hr] at this
  have hn : (UInt8.ofNat m).toNat = m := by
    rw [UInt8.toNat_ofNat', Nat.mod_eq_of_lt (by omega)]
  have hlast : (x ++ z).getLast? = some (UInt8.ofNat m) := by
    rw [hz, ← List.append_assoc, List.getLast?_append, List.getLast?_replicate, if_neg (by omega)]; rfl
  have hl : (x ++ z).length = (x ++ r.drop y.length).length + m := by rw [hz]; simp; omega
  have e : x ++ z = (x ++ r.drop y.length) ++ List.replicate m (UInt8.ofNat m) := by rw [hz, List.append_assoc]
  simp only [unpad, hlast, hn, hl, Nat.add_sub_cancel]
  rw [e, List.drop_left, List.take_left, if_pos ⟨hm.1, hm.2, by omega, rfl⟩]

theorem xor_iv_ne {a b c : List UInt8} (h : a.length = b.length) (h' : c.length = b.length) (hab : a ≠ b) : Spec.xor (Spec.xor a b) c ≠ c := by
  intro he
  apply hab
  have key : ∀ (a b c : List UInt8), a.length = b.length → c.length = b.length → Spec.xor (Spec.xor a b) c = c → a = b := by
    intro a
    induction a with
    | nil => intro b c h _ _; cases b with
      | nil => rfl
      | cons => simp at h
    | cons x a ih =>
      intro b c h h' he
      cases b with
      | nil => simp at h
      | cons y b =>
        cases c with
        | nil => simp at h'
        | cons z c =>
          simp only [Spec.xor, List.zipWith_cons_cons, List.cons.injEq] at he ih
          rw [ih b c (by simpa using h) (by simpa using h') he.2]
          have : x ^^^ y = 0 := by
            have := congrArg (· ^^^ z) he.1
            simpa [UInt8.xor_assoc] using this
          rw [UInt8.xor_eq_zero_iff.mp this]
  exact key a b c h h' he

/-- C67 is false of the code: the segments are numbered from 1 (and modulo 256) when they are encrypted but from 0 in the playlist, so the
player uses another vector. For every cipher, every segment of at least one block, at every place of the playlist, what the player gets is
not the segment: its first 16 bytes are wrong. -/
theorem player_iv_witness {E D : List UInt8 → List UInt8} (hc : Cipher E D) (dest clear : List UInt8) (k : Nat)
    (h0 : 16 ≤ clear.length) (hl : clear.length < 2 ^ 32) (hk : k < 2 ^ 31) (hsz : dest.length = encSize clear.length) :
    ∃ out got, encryptFile E dest clear (segmentSequence k) = some out ∧
      Spec.decrypt D (Spec.iv (mediaSequence k)) out = some got ∧ got.length = clear.length ∧
      got.drop 16 = clear.drop 16 ∧ got.take 16 ≠ clear.take 16 := by
  have hne : clear ≠ [] := by rintro rfl; simp at h0
  have hs : segmentSequence k < 256 := by rw [segmentSequence_eq]; omega
  have hm : encMissing clear.length ≤ 16 ∧ 1 ≤ encMissing clear.length := by simp only [encMissing]; omega
  have hpl := padded_length clear
  obtain ⟨h1, _, _⟩ := cbc_spec hc (clear.length / 16 + 1) (Spec.iv (segmentSequence k)) (padded clear) (iv_length _)
    (by rw [padded_length]; omega)
  have hp16 : (padded clear).take 16 = clear.take 16 := by rw [padded, List.take_append_of_le_length (by omega)]
  have hx : (Spec.xor (Spec.xor (Spec.iv (segmentSequence k)) (Spec.iv k)) (clear.take 16)).length = 16 := by
    simp [Spec.xor, iv_length]; omega
  refine ⟨_, Spec.xor (Spec.xor (Spec.iv (segmentSequence k)) (Spec.iv k)) (clear.take 16) ++ clear.drop 16,
    encryptFile_eq hc dest clear _ hne hl (by omega) hsz, ?_, ?_, ?_, ?_⟩
  · simp only [Spec.decrypt, h1, mediaSequence, Nat.zero_add]
    rw [if_pos (by omega), Nat.mul_div_cancel_left _ (by decide),
      cbc_other_iv hc _ _ _ _ (iv_length _) (iv_length _) (by rw [padded_length]; omega), List.flatten_cons,
      blocks_flatten _ _ (by rw [List.length_drop, padded_length]; omega), hp16]
    have := unpad_prefix (Spec.xor (Spec.xor (Spec.iv (segmentSequence k)) (Spec.iv k)) (clear.take 16)) (clear.take 16)
      ((padded clear).drop 16) (encMissing clear.length) ⟨hm.2, hm.1⟩ clear
      (by rw [← hp16, List.take_append_drop]; rfl) (by rw [List.length_take]; omega)
    rw [this, List.length_take, Nat.min_eq_left h0]
  · rw [List.length_append, hx, List.length_drop]; omega
  · rw [List.drop_append_of_le_length (by omega), List.drop_of_length_le (by omega), List.nil_append]
  · rw [List.take_append_of_le_length (by omega), List.take_of_length_le (by omega)]
    refine xor_iv_ne (by rw [iv_length, iv_length]) (by rw [iv_length, List.length_take]; omega) ?_
    intro h
    have h2 := congrArg beVal h
    simp only [Spec.iv, Verif.Cenc.beVal_be] at h2
    rw [Nat.mod_eq_of_lt (Nat.lt_trans hs (by decide)), Nat.mod_eq_of_lt (Nat.lt_trans hk (by decide)), segmentSequence_eq] at h2
    omega

/-- C67, the part that holds: everything after the first 16 bytes of a segment reaches the player (see `player_iv_witness` for the rest). -/
theorem player_iv_partial {E D : List UInt8 → List UInt8} (hc : Cipher E D) (dest clear : List UInt8) (k : Nat)
    (h0 : 16 ≤ clear.length) (hl : clear.length < 2 ^ 32) (hk : k < 2 ^ 31) (hsz : dest.length = encSize clear.length) :
    ∃ out got, encryptFile E dest clear (segmentSequence k) = some out ∧
      Spec.decrypt D (Spec.iv (mediaSequence k)) out = some got ∧ got.length = clear.length ∧ got.drop 16 = clear.drop 16 := by
  obtain ⟨out, got, h1, h2, h3, h4, _⟩ := player_iv_witness hc dest clear k h0 hl hk hsz
  exact ⟨out, got, h1, h2, h3, h4⟩

-- non-vacuity: a cipher, a segment of 20 bytes
def exE (b : List UInt8) : List UInt8 := (b.map (· + 5)).reverse
def exD (b : List UInt8) : List UInt8 := b.reverse.map (· - 5)
example : Cipher exE exD := ⟨by intro b h; simp [exE, h], by
  intro b _; simp only [exE, exD, List.reverse_reverse, List.map_map]
  have : ((fun x : UInt8 => x - 5) ∘ fun x => x + 5) = id := by funext x; simp
  rw [this, List.map_id]⟩
example : ∃ out, encryptFile exE (List.replicate 32 0) ((List.range 20).map UInt8.ofNat) (segmentSequence 7) = some out ∧
    Spec.decrypt exD (Spec.iv 8) out = some ((List.range 20).map UInt8.ofNat) ∧
    Spec.decrypt exD (Spec.iv 7) out ≠ some ((List.range 20).map UInt8.ofNat) := ⟨_, rfl, by decide +kernel, by decide +kernel⟩
example : encSize 20 = 32 ∧ encSize 32 = 48 := by decide

end Verif.HlsCrypt
