import Verif.Drm.Model
import Verif.Drm.Spec
/-
Lemmas for the DRM properties: the bytes of the PlayReady object, search in texts, numbers.
-/
namespace Verif.Drm
open Verif.BitStream

/-- `k` bytes of a number, least significant first. -/
def leB (k v : Nat) : List UInt8 := (List.range k).map fun i => UInt8.ofNat (v / 256 ^ i)

theorem wRun_append (a b : List WOp) : ∀ s, wRun s (a ++ b) = (wRun s a).bind fun s => wRun s b := by
  induction a with
  | nil => intro s; rfl
  | cons o a ih =>
    intro s
    simp only [List.cons_append, wRun]
    cases wStep s o with
    | none => rfl
    | some s => simp only [Option.bind_some]; exact ih s

/-- The `putbits` calls of a `little_putbits` of whole bytes. -/
def littleOps (c : Word × Nat) : List WOp :=
  (List.range (c.2 / 8)).map (fun k => WOp.put ((c.1 >>> (8 * (0 + k))) &&& 0xff) 8)

theorem runLittle_eq (cs : List (Word × Nat)) (h : ∀ c ∈ cs, c.2 % 8 = 0) : ∀ s,
    runLittle s cs = wRun s (cs.flatMap littleOps) := by
  induction cs with
  | nil => intro s; rfl
  | cons c cs ih =>
    intro s
    have hc : littlePutbits s c.1 c.2 = wRun s (littleOps c) := by
      simp only [littlePutbits, littlePutLoop_eq, littleOps, h c (by simp)]
      cases wRun s _ <;> simp
    obtain ⟨v, n⟩ := c
    simp only [runLittle, List.flatMap_cons, wRun_append]
    rw [hc]
    congr 1
    funext s
    exact ih (fun c hc => h c (by simp [hc])) s

theorem ok_append (a b : List WOp) : ∀ t, Spec.ok t a → (∀ t, Spec.ok t b) → Spec.ok t (a ++ b) := by
  induction a with
  | nil => intro t _ h; exact h t
  | cons o a ih =>
    intro t h1 h2
    cases o with
    | put v n => exact ⟨h1.1, h1.2.1, ih _ h1.2.2 h2⟩
    | flush => exact ih _ h1 h2
    | bytes bs => exact ⟨h1.1, ih _ h1.2 h2⟩

theorem ok_puts {α} (f : α → Word) (l : List α) : ∀ t, Spec.ok t (l.map fun k => WOp.put (f k) 8) := by
  induction l with
  | nil => intro t; trivial
  | cons a l ih => intro t; exact ⟨by decide, by decide, ih _⟩

theorem ok_flat {α} (f : α → List WOp) (h : ∀ a t, Spec.ok t (f a)) (l : List α) : ∀ t, Spec.ok t (l.flatMap f) := by
  induction l with
  | nil => intro t; trivial
  | cons a l ih => intro t; rw [List.flatMap_cons]; exact ok_append _ _ _ (h a t) ih

theorem opsBits_append (a b : List WOp) : Spec.opsBits (a ++ b) = Spec.opsBits a ++ Spec.opsBits b := by
  induction a with
  | nil => rfl
  | cons o a ih => cases o <;> simp [Spec.opsBits, ih]

theorem bits_byte (v : Word) : Spec.fieldBits (v &&& 0xff) 8 = Spec.fieldBits (v.setWidth 8) 8 := by
  simp only [Spec.fieldBits]
  apply List.map_congr_left
  intro q hq
  rw [List.mem_range] at hq
  rw [BitVec.getLsbD_and, BitVec.getLsbD_setWidth]
  have h : ∀ q : Fin 8, (255 : Word).getLsbD (8 - 1 - q.val) = true := by decide
  have := h ⟨q, hq⟩
  simp only at this
  rw [this]
  have h8 : 8 - 1 - q < 8 := by omega
  simp [h8]

/-- The bytes of a `little_putbits` call. -/
def littleBytes (c : Word × Nat) : List Byte := (List.range (c.2 / 8)).map fun i => (c.1 >>> (8 * i)).setWidth 8

theorem opsBits_little (c : Word × Nat) : Spec.opsBits (littleOps c) = Spec.bytesBits (littleBytes c) := by
  unfold littleOps littleBytes
  generalize List.range (c.2 / 8) = l
  induction l with
  | nil => rfl
  | cons a l ih =>
    simp only [List.map_cons, Spec.opsBits, Spec.bytesBits, List.flatMap_cons, bits_byte, Nat.zero_add]
    congr 1
    simpa only [Spec.bytesBits, Nat.zero_add] using ih

theorem opsBits_flat (cs : List (Word × Nat)) : Spec.opsBits (cs.flatMap littleOps) =
    Spec.bytesBits (cs.flatMap littleBytes) := by
  induction cs with
  | nil => rfl
  | cons c cs ih => rw [List.flatMap_cons, List.flatMap_cons, opsBits_append, bytesBits_append, ih, opsBits_little]

/-- The bytes written by `little_putbits` calls. -/
theorem little_bytes (beyond : Mem) (cs : List (Word × Nat)) (h : ∀ c ∈ cs, c.2 % 8 = 0) :
    (runLittle (wInit 1024 beyond) cs).map (fun s => (flush s).out) =
      some (cs.flatMap littleBytes) := by
  obtain ⟨s, h1, h2, h3, _⟩ := bitwriter_output 1024 beyond (cs.flatMap littleOps) (by decide) (by decide)
    (ok_flat _ (fun c t => ok_puts _ _ t) _ 0)
  rw [runLittle_eq _ h, h1, Option.map_some]
  congr 1
  rw [opsBits_flat, bytesBits_length] at h3
  rw [show ∀ n, 8 * (8 * n / 8) = 8 * n from fun n => by omega, List.take_of_length_le (by rw [bytesBits_length]; omega)] at h3
  exact bytesBits_inj h3

theorem le_byte (v i : Nat) (hi : i < 4) :
    UInt8.ofBitVec ((BitVec.ofNat 32 v >>> (8 * i)).setWidth 8) = UInt8.ofNat (v / 256 ^ i) := by
  apply UInt8.toNat_inj.mp
  simp only [UInt8.toNat_ofBitVec, BitVec.toNat_setWidth, BitVec.toNat_ushiftRight, BitVec.toNat_ofNat, Nat.shiftRight_eq_div_pow,
    UInt8.toNat_ofNat']
  match i, hi with
  | 0, _ => simp only [Nat.mul_zero, Nat.pow_zero, Nat.div_one]; omega
  | 1, _ => simp only [Nat.reducePow, Nat.reduceMul]; omega
  | 2, _ => simp only [Nat.reducePow, Nat.reduceMul]; omega
  | 3, _ => simp only [Nat.reducePow, Nat.reduceMul]; omega

/-- The bytes of the PlayReady object. -/
theorem body_bytes (beyond : Mem) (w : Nat) (h : List Char) :
    proBody beyond w h = some (leB 4 (10 + w * h.length) ++ leB 2 1 ++ leB 2 1 ++ leB 2 (w * h.length) ++
      h.flatMap fun c => leB 2 c.toNat) := by
  have hl := little_bytes beyond (bodyCalls w h) (by
    intro c hc
    simp only [bodyCalls, List.cons_append, List.nil_append, List.mem_cons, List.mem_map] at hc
    rcases hc with rfl | rfl | rfl | rfl | ⟨_, _, rfl⟩ <;> simp)
  have hp : proBody beyond w h = ((runLittle (wInit 1024 beyond) (bodyCalls w h)).map (fun s => (flush s).out)).map
      (fun l => l.map UInt8.ofBitVec) := by
    rw [proBody]; cases runLittle (wInit 1024 beyond) (bodyCalls w h) <;> rfl
  rw [hp, hl, Option.map_some]
  refine congrArg some ?_
  have h4 : ∀ v : Nat, (littleBytes (BitVec.ofNat 32 v, 32)).map UInt8.ofBitVec = leB 4 v := by
    intro v
    rw [leB, littleBytes, List.map_map]
    simp only [Nat.reduceDiv]
    apply List.map_congr_left
    intro i hi
    rw [List.mem_range] at hi
    exact le_byte v i (by omega)
  have h2 : ∀ v : Nat, (littleBytes (BitVec.ofNat 32 v, 16)).map UInt8.ofBitVec = leB 2 v := by
    intro v
    rw [leB, littleBytes, List.map_map]
    simp only [Nat.reduceDiv]
    apply List.map_congr_left
    intro i hi
    rw [List.mem_range] at hi
    exact le_byte v i (by omega)
  have hchars : ∀ l : List Char, ((l.map fun c => (BitVec.ofNat 32 c.toNat, 16)).flatMap littleBytes).map UInt8.ofBitVec =
      l.flatMap fun c => leB 2 c.toNat := by
    intro l
    induction l with
    | nil => rfl
    | cons c l ih => rw [List.map_cons, List.flatMap_cons, List.map_append, ih, List.flatMap_cons, h2]
  rw [bodyCalls, List.flatMap_append, List.map_append, hchars]
  refine congrArg (· ++ _) ?_
  simp only [List.flatMap_cons, List.flatMap_nil, List.append_nil, List.map_append, h4, h2, List.append_assoc]
  rw [show ((1 : Word), 16) = (BitVec.ofNat 32 1, 16) from rfl, h2]

theorem leB4 (v : Nat) : leB 4 v = [UInt8.ofNat v, UInt8.ofNat (v / 256), UInt8.ofNat (v / 65536), UInt8.ofNat (v / 16777216)] := by
  simp [leB, List.range_succ]

theorem leB2 (v : Nat) : leB 2 v = [UInt8.ofNat v, UInt8.ofNat (v / 256)] := by
  simp [leB, List.range_succ]

theorem le4 (v : Nat) : Spec.le [UInt8.ofNat v, UInt8.ofNat (v / 256), UInt8.ofNat (v / 65536), UInt8.ofNat (v / 16777216)] = v % 2 ^ 32 := by
  simp only [Spec.le, UInt8.toNat_ofNat']
  omega

theorem le2 (v : Nat) : Spec.le [UInt8.ofNat v, UInt8.ofNat (v / 256)] = v % 65536 := by
  simp only [Spec.le, UInt8.toNat_ofNat']
  omega

theorem leVal_eq (bs : List UInt8) : leVal bs = Spec.le bs := by
  induction bs with
  | nil => rfl
  | cons b bs ih => simp [leVal, Spec.le, ih]

theorem beVal_eq (bs : List UInt8) : beVal bs = Spec.be bs := rfl

theorem be_be32 (n : Nat) (h : n < 2 ^ 32) : Spec.be (be32 n) = n := by
  simp only [Spec.be, be32, List.foldl_cons, List.foldl_nil, UInt8.toNat_ofNat']
  omega

theorem be32_length (n : Nat) : (be32 n).length = 4 := rfl

theorem flat_length (h : List Char) : (h.flatMap fun c => leB 2 c.toNat).length = 2 * h.length := by
  induction h with
  | nil => rfl
  | cons c h ih => rw [List.flatMap_cons, List.length_append, ih, List.length_cons]; simp [leB]; omega

/-- The header text in the record is the UTF-16 text. -/
theorem utf16_flat (h : List Char) : Spec.utf16 (h.flatMap fun c => leB 2 c.toNat) = some (h.map fun c => c.toNat % 65536) := by
  induction h with
  | nil => rfl
  | cons c h ih =>
    rw [List.flatMap_cons, leB2, List.cons_append, List.cons_append, List.nil_append, Spec.utf16, ih, le2]
    rfl

/-! Search in texts. -/

/-- Two texts differ at a common position. -/
def clash : List Char → List Char → Bool
  | x :: p, y :: l => x != y || clash p l
  | _, _ => false

theorem clash_not_prefix (p : List Char) : ∀ l r, clash p l = true → p.isPrefixOf (l ++ r) = false := by
  induction p with
  | nil => intro l r h; simp [clash] at h
  | cons x p ih =>
    intro l r h
    cases l with
    | nil => simp [clash] at h
    | cons y l =>
      simp only [clash, Bool.or_eq_true, bne_iff_ne, ne_eq] at h
      simp only [List.cons_append, List.isPrefixOf, Bool.and_eq_false_iff, beq_eq_false_iff_ne, ne_eq]
      rcases h with h | h
      · exact Or.inl h
      · exact Or.inr (ih l r h)

/-- `p` starts nowhere in `a`, whatever follows. -/
def absent (p : List Char) : List Char → Bool
  | [] => true
  | c :: cs => clash p (c :: cs) && absent p cs

theorem after_skip (p a : List Char) (r : List Char) (h : absent p a = true) : Spec.after p (a ++ r) = Spec.after p r := by
  induction a with
  | nil => rfl
  | cons c a ih =>
    simp only [absent, Bool.and_eq_true] at h
    have := clash_not_prefix p _ r h.1
    rw [List.cons_append] at this ⊢
    rw [Spec.after, this]
    exact ih h.2

theorem absent_of_head (x : Char) (p a : List Char) (h : x ∉ a) : absent (x :: p) a = true := by
  induction a with
  | nil => rfl
  | cons c a ih =>
    simp only [List.mem_cons, not_or] at h
    simp only [absent, clash, Bool.and_eq_true, Bool.or_eq_true, bne_iff_ne, ne_eq]
    exact ⟨Or.inl h.1, ih h.2⟩

theorem after_here (p r : List Char) (hp : p ≠ []) : Spec.after p (p ++ r) = some r := by
  cases p with
  | nil => exact absurd rfl hp
  | cons x p =>
    rw [List.cons_append, Spec.after, if_pos]
    · rw [← List.cons_append, List.drop_left]
    · rw [← List.cons_append]
      exact List.isPrefixOf_iff_prefix.mpr (List.prefix_append _ _)

/-- Text before the mark without a mark in it, the mark, the text. -/
theorem after_split (p a r : List Char) (hp : p ≠ []) (h : absent p a = true) : Spec.after p (a ++ (p ++ r)) = some r := by
  rw [after_skip _ _ _ h, after_here _ _ hp]

theorem takeWhile_stop (q : Char → Bool) (a : List Char) (c : Char) (r : List Char) (ha : ∀ x ∈ a, q x = true) (hc : q c = false) :
    (a ++ c :: r).takeWhile q = a := by
  induction a with
  | nil => simp [List.takeWhile, hc]
  | cons x a ih =>
    rw [List.cons_append, List.takeWhile_cons, ha x (by simp), if_pos rfl, ih (fun y hy => ha y (by simp [hy]))]

/-- Base64 text consists of the 64 symbols and `=`. -/
theorem rfc_chars (bs : List UInt8) : ∀ c ∈ Base64.Spec.rfc4648 bs, c.toNat < 128 ∧ c ≠ 60 ∧ c ≠ 34 ∧ c ≠ 38 := by
  have hs : ∀ n, (Base64.Spec.sym n).toNat < 128 ∧ Base64.Spec.sym n ≠ 60 ∧ Base64.Spec.sym n ≠ 34 ∧ Base64.Spec.sym n ≠ 38 := by
    intro n
    by_cases h : n < 64
    · have : ∀ i : Fin 64, (Base64.Spec.sym i.val).toNat < 128 ∧ Base64.Spec.sym i.val ≠ 60 ∧ Base64.Spec.sym i.val ≠ 34 ∧
          Base64.Spec.sym i.val ≠ 38 := by decide +kernel
      exact this ⟨n, h⟩
    · have hl : Base64.Spec.alphabet.length = 64 := by decide +kernel
      have : Base64.Spec.sym n = 61 := by
        simp only [Base64.Spec.sym, List.getD_eq_getElem?_getD]
        rw [List.getElem?_eq_none (by omega)]
        rfl
      rw [this]; decide
  have hp : Base64.Spec.pad.toNat < 128 ∧ Base64.Spec.pad ≠ 60 ∧ Base64.Spec.pad ≠ 34 ∧ Base64.Spec.pad ≠ 38 := by decide
  fun_induction Base64.Spec.rfc4648 bs with
  | case1 => intro c hc; simp at hc
  | case2 a => intro c hc; simp only [List.mem_cons, List.not_mem_nil, or_false] at hc; rcases hc with rfl | rfl | rfl | rfl <;> first | exact hs _ | exact hp
  | case3 a b => intro c hc; simp only [List.mem_cons, List.not_mem_nil, or_false] at hc; rcases hc with rfl | rfl | rfl | rfl <;> first | exact hs _ | exact hp
  | case4 a b d rest n ih =>
    intro c hc
    simp only [List.mem_append, List.mem_cons, List.not_mem_nil, or_false] at hc
    rcases hc with (rfl | rfl | rfl | rfl) | h
    · exact hs _
    · exact hs _
    · exact hs _
    · exact hs _
    · exact ih c h

theorem char_toNat (c : UInt8) (h : c.toNat < 128) : (Char.ofNat c.toNat).toNat = c.toNat := by
  have : ∀ i : Fin 128, (Char.ofNat i.val).toNat = i.val := by decide +kernel
  exact this ⟨c.toNat, h⟩

theorem base64_text (bs : List UInt8) (f : Nat) : base64 bs f = (Base64.Spec.rfc4648 bs).map fun c => Char.ofNat c.toNat := by
  rw [base64, Base64.base64_encode_is_rfc4648]
  simp

/-- The text made of bytes is their Base64 text. -/
theorem base64_is (bs : List UInt8) (f : Nat) : Spec.isBase64Of (base64 bs f) bs := by
  rw [Spec.isBase64Of, base64_text, List.map_map]
  conv => rhs; rw [← List.map_id (Base64.Spec.rfc4648 bs)]
  apply List.map_congr_left
  intro c hc
  have := char_toNat c (rfc_chars bs c hc).1
  simp only [Function.comp, this, UInt8.ofNat_toNat, id]

theorem base64_chars (bs : List UInt8) (f : Nat) : ∀ c ∈ base64 bs f, c ≠ '<' ∧ c ≠ '"' ∧ c ≠ '&' := by
  intro c hc
  rw [base64_text, List.mem_map] at hc
  obtain ⟨b, hb, rfl⟩ := hc
  obtain ⟨h0, h1, h2, h3⟩ := rfc_chars bs b hb
  have e := char_toNat b h0
  have key : ∀ (d : Char) (x : UInt8), d.toNat = x.toNat → b ≠ x → Char.ofNat b.toNat ≠ d := by
    intro d x hd hx h
    apply hx
    apply UInt8.toNat_inj.mp
    rw [← e, h, hd]
  exact ⟨key _ 60 rfl h1, key _ 34 rfl h2, key _ 38 rfl h3⟩

end Verif.Drm
