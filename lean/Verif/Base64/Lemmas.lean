import Verif.Base64.Model
import Verif.Base64.Spec

namespace Verif.Base64
open Spec

theorem forall_u8 {p : UInt8 → Prop} [DecidablePred p] (h : ∀ n : Fin 256, p (UInt8.ofNat n.val)) :
    ∀ x, p x := by
  intro x
  have := h ⟨x.toNat, x.toNat_lt⟩
  simpa using this

theorem encodeBlock_append (s : EState) (xs ys : List UInt8) :
    encodeBlock s (xs ++ ys) =
      ((encodeBlock s xs).1 ++ (encodeBlock (encodeBlock s xs).2 ys).1,
       (encodeBlock (encodeBlock s xs).2 ys).2) := by
  induction xs generalizing s with
  | nil => simp [encodeBlock]
  | cons f fs ih => simp [encodeBlock, ih]

theorem encodeBlocks_eq (s : EState) (bs : List (List UInt8)) :
    encodeBlocks s bs = encodeBlock s bs.flatten := by
  induction bs generalizing s with
  | nil => simp [encodeBlocks, encodeBlock]
  | cons b bs ih => simp [encodeBlocks, encodeBlock_append, ih]

theorem decodeBlock_append (s : DState) (xs ys : List UInt8) :
    decodeBlock s (xs ++ ys) =
      (match decodeBlock s xs with
       | none => none
       | some (o, s') =>
         match decodeBlock s' ys with
         | none => none
         | some (os, s'') => some (o ++ os, s'')) := by
  induction xs generalizing s with
  | nil => simp [decodeBlock]; cases decodeBlock s ys <;> simp
  | cons c cs ih =>
    simp only [List.cons_append, decodeBlock]
    cases decodeValue c with
    | oob => simp
    | skip => simp [ih]
    | val v =>
      simp only [ih]
      cases decodeBlock (decVal s v).2 cs with
      | none => simp
      | some p =>
        obtain ⟨o, s'⟩ := p
        simp only
        cases decodeBlock s' ys <;> simp

theorem decodeBlocks_eq (s : DState) (bs : List (List UInt8)) :
    decodeBlocks s bs = decodeBlock s bs.flatten := by
  induction bs generalizing s with
  | nil => simp [decodeBlocks, decodeBlock]
  | cons b bs ih =>
    simp only [decodeBlocks, List.flatten_cons, decodeBlock_append]
    cases decodeBlock s b with
    | none => simp
    | some p => obtain ⟨o, s'⟩ := p; simp only [ih]; cases decodeBlock s' bs.flatten <;> rfl

/-! bit facts, each over the whole byte domain -/

set_option maxRecDepth 20000 in
theorem encA (x : UInt8) : encodeValue ((x &&& 0xfc) >>> 2) = sym (x.toNat / 4) :=
  forall_u8 (p := fun x => encodeValue ((x &&& 0xfc) >>> 2) = sym (x.toNat / 4)) (by decide +kernel) x

set_option maxRecDepth 20000 in
theorem encD (x : UInt8) : encodeValue (x &&& 0x3f) = sym (x.toNat % 64) :=
  forall_u8 (p := fun x => encodeValue (x &&& 0x3f) = sym (x.toNat % 64)) (by decide +kernel) x

set_option maxRecDepth 20000 in
theorem encB0 (x : UInt8) : encodeValue ((x &&& 0x03) <<< 4) = sym (x.toNat % 4 * 16) :=
  forall_u8 (p := fun x => encodeValue ((x &&& 0x03) <<< 4) = sym (x.toNat % 4 * 16)) (by decide +kernel) x

set_option maxRecDepth 20000 in
theorem encC0 (x : UInt8) : encodeValue ((x &&& 0x0f) <<< 2) = sym (x.toNat % 16 * 4) :=
  forall_u8 (p := fun x => encodeValue ((x &&& 0x0f) <<< 2) = sym (x.toNat % 16 * 4)) (by decide +kernel) x

/-- two byte case by splitting into the small pieces the mask keeps -/
theorem encB_aux : ∀ i : Fin 4, ∀ j : Fin 16,
    encodeValue ((UInt8.ofNat i.val <<< 4) ||| UInt8.ofNat j.val) = sym (i.val * 16 + j.val) := by
  decide +kernel

theorem and3 (x : UInt8) : x &&& 0x03 = UInt8.ofNat (x.toNat % 4) :=
  forall_u8 (p := fun x => x &&& 0x03 = UInt8.ofNat (x.toNat % 4)) (by decide +kernel) x
theorem andF0 (x : UInt8) : (x &&& 0xf0) >>> 4 = UInt8.ofNat (x.toNat / 16) :=
  forall_u8 (p := fun x => (x &&& 0xf0) >>> 4 = UInt8.ofNat (x.toNat / 16)) (by decide +kernel) x
theorem and0F (x : UInt8) : x &&& 0x0f = UInt8.ofNat (x.toNat % 16) :=
  forall_u8 (p := fun x => x &&& 0x0f = UInt8.ofNat (x.toNat % 16)) (by decide +kernel) x
theorem andC0 (x : UInt8) : (x &&& 0xc0) >>> 6 = UInt8.ofNat (x.toNat / 64) :=
  forall_u8 (p := fun x => (x &&& 0xc0) >>> 6 = UInt8.ofNat (x.toNat / 64)) (by decide +kernel) x

theorem encB (x y : UInt8) :
    encodeValue (((x &&& 0x03) <<< 4) ||| ((y &&& 0xf0) >>> 4)) = sym (x.toNat % 4 * 16 + y.toNat / 16) := by
  have hy := y.toNat_lt
  rw [and3, andF0]
  exact encB_aux ⟨x.toNat % 4, by omega⟩ ⟨y.toNat / 16, by omega⟩

theorem encC_aux : ∀ i : Fin 16, ∀ j : Fin 4,
    encodeValue ((UInt8.ofNat i.val <<< 2) ||| UInt8.ofNat j.val) = sym (i.val * 4 + j.val) := by
  decide +kernel

theorem encC (x y : UInt8) :
    encodeValue (((x &&& 0x0f) <<< 2) ||| ((y &&& 0xc0) >>> 6)) = sym (x.toNat % 16 * 4 + y.toNat / 64) := by
  have hy := y.toNat_lt
  rw [and0F, andC0]
  exact encC_aux ⟨x.toNat % 16, by omega⟩ ⟨y.toNat / 64, by omega⟩

/-- Starting from step A the encoder output plus the ending is the RFC text. -/
theorem encode_rfc (bs : List UInt8) : ∀ s : EState, s.step = .A →
    (encodeBlock s bs).1 ++ encodeBlockEnd (encodeBlock s bs).2 = rfc4648 bs := by
  induction bs using rfc4648.induct with
  | case1 => intro s h; simp [encodeBlock, encodeBlockEnd, h, rfc4648]
  | case2 a =>
    intro s h
    simp only [encodeBlock, encChar, h, encodeBlockEnd, rfc4648, List.append_nil]
    rw [encA, encB0]
    have e1 : a.toNat / 4 = a.toNat * 65536 / 262144 := by omega
    have e2 : a.toNat % 4 * 16 = a.toNat * 65536 / 4096 % 64 := by omega
    simp [e1, e2, pad]
  | case3 a b =>
    intro s h
    have hb := b.toNat_lt
    simp only [encodeBlock, encChar, h, encodeBlockEnd, rfc4648, List.append_nil]
    rw [encA, encB, encC0]
    have e1 : a.toNat / 4 = (a.toNat * 65536 + b.toNat * 256) / 262144 := by omega
    have e2 : a.toNat % 4 * 16 + b.toNat / 16 = (a.toNat * 65536 + b.toNat * 256) / 4096 % 64 := by omega
    have e3 : b.toNat % 16 * 4 = (a.toNat * 65536 + b.toNat * 256) / 64 % 64 := by omega
    simp [e1, e2, e3, pad]
  | case4 a b c rest ih =>
    intro s h
    have hb := b.toNat_lt
    have hc := c.toNat_lt
    have ih' := ih ⟨.A, c &&& 0x3f, if s.stepcount + 1 = 25000 then 0 else s.stepcount + 1⟩ rfl
    simp only [encodeBlock, encChar, h, rfc4648]
    rw [encA, encB, encC, encD]
    have e1 : a.toNat / 4 = (a.toNat * 65536 + b.toNat * 256 + c.toNat) / 262144 := by omega
    have e2 : a.toNat % 4 * 16 + b.toNat / 16 =
      (a.toNat * 65536 + b.toNat * 256 + c.toNat) / 4096 % 64 := by omega
    have e3 : b.toNat % 16 * 4 + c.toNat / 64 =
      (a.toNat * 65536 + b.toNat * 256 + c.toNat) / 64 % 64 := by omega
    have e4 : c.toNat % 64 = (a.toNat * 65536 + b.toNat * 256 + c.toNat) % 64 := by omega
    rw [← ih', ← e1, ← e2, ← e3, ← e4]
    simp

/-! decoder -/

theorem decodeValue_sym : ∀ i : Fin 64, decodeValue (sym i.val) = .val (UInt8.ofNat i.val) := by
  decide +kernel

theorem decodeValue_sym' (n : Nat) (h : n < 64) : decodeValue (sym n) = .val (UInt8.ofNat n) :=
  decodeValue_sym ⟨n, h⟩

theorem decodeValue_pad : decodeValue pad = .skip := by decide +kernel

theorem decVal_b_aux : ∀ i : Fin 64, ∀ j : Fin 4, ∀ k : Fin 16,
    (((UInt8.ofNat i.val &&& 0x3f) <<< 2) ||| ((UInt8.ofNat (j.val * 16 + k.val) &&& 0x30) >>> 4))
      = UInt8.ofNat (i.val * 4 + j.val) := by
  decide +kernel

theorem decVal_c_aux : ∀ j : Fin 4, ∀ k : Fin 16, ∀ l : Fin 16, ∀ m : Fin 4,
    (((UInt8.ofNat (j.val * 16 + k.val) &&& 0x0f) <<< 4) |||
      ((UInt8.ofNat (l.val * 4 + m.val) &&& 0x3c) >>> 2))
      = UInt8.ofNat (k.val * 16 + l.val) := by
  decide +kernel

theorem decVal_d_aux : ∀ l : Fin 16, ∀ m : Fin 4, ∀ q : Fin 64,
    (((UInt8.ofNat (l.val * 4 + m.val) &&& 0x03) <<< 6) ||| (UInt8.ofNat q.val &&& 0x3f))
      = UInt8.ofNat (m.val * 64 + q.val) := by
  decide +kernel

theorem dec_b (a b : UInt8) :
    (((UInt8.ofNat (a.toNat / 4) &&& 0x3f) <<< 2) |||
      ((UInt8.ofNat (a.toNat % 4 * 16 + b.toNat / 16) &&& 0x30) >>> 4)) = a := by
  have ha := a.toNat_lt
  have hb := b.toNat_lt
  have := decVal_b_aux ⟨a.toNat / 4, by omega⟩ ⟨a.toNat % 4, by omega⟩ ⟨b.toNat / 16, by omega⟩
  simp only at this
  rw [this]
  have : a.toNat / 4 * 4 + a.toNat % 4 = a.toNat := by omega
  rw [this]; simp

theorem dec_c (a b c : UInt8) :
    (((UInt8.ofNat (a.toNat % 4 * 16 + b.toNat / 16) &&& 0x0f) <<< 4) |||
      ((UInt8.ofNat (b.toNat % 16 * 4 + c.toNat / 64) &&& 0x3c) >>> 2)) = b := by
  have hb := b.toNat_lt
  have hc := c.toNat_lt
  have := decVal_c_aux ⟨a.toNat % 4, by omega⟩ ⟨b.toNat / 16, by omega⟩ ⟨b.toNat % 16, by omega⟩
    ⟨c.toNat / 64, by omega⟩
  simp only at this
  rw [this]
  have : b.toNat / 16 * 16 + b.toNat % 16 = b.toNat := by omega
  rw [this]; simp

theorem dec_d (b c : UInt8) :
    (((UInt8.ofNat (b.toNat % 16 * 4 + c.toNat / 64) &&& 0x03) <<< 6) |||
      (UInt8.ofNat (c.toNat % 64) &&& 0x3f)) = c := by
  have hc := c.toNat_lt
  have := decVal_d_aux ⟨b.toNat % 16, by omega⟩ ⟨c.toNat / 64, by omega⟩ ⟨c.toNat % 64, by omega⟩
  simp only at this
  rw [this]
  have : c.toNat / 64 * 64 + c.toNat % 64 = c.toNat := by omega
  rw [this]; simp

attribute [local irreducible] sym isSym

theorem decode_rfc (bs : List UInt8) : ∀ s : DState, s.step = .a →
    (decodeBlock s (rfc4648 bs)).map (·.1) = some bs := by
  induction bs using rfc4648.induct with
  | case1 => intro s h; simp [decodeBlock, rfc4648]
  | case2 a =>
    intro s h
    have ha := a.toNat_lt
    have e1 : a.toNat * 65536 / 262144 = a.toNat / 4 := by omega
    have e2 : a.toNat * 65536 / 4096 % 64 = a.toNat % 4 * 16 + (0 : UInt8).toNat / 16 := by
      simp; omega
    simp only [rfc4648, e1, e2, decodeBlock]
    rw [decodeValue_sym' _ (by omega), decodeValue_sym' _ (by simp; omega), decodeValue_pad]
    simp only [decVal, h, Option.map_some, List.nil_append, List.append_nil]
    rw [dec_b]
  | case3 a b =>
    intro s h
    have ha := a.toNat_lt
    have hb := b.toNat_lt
    have e1 : (a.toNat * 65536 + b.toNat * 256) / 262144 = a.toNat / 4 := by omega
    have e2 : (a.toNat * 65536 + b.toNat * 256) / 4096 % 64 = a.toNat % 4 * 16 + b.toNat / 16 := by omega
    have e3 : (a.toNat * 65536 + b.toNat * 256) / 64 % 64 = b.toNat % 16 * 4 + (0 : UInt8).toNat / 64 := by
      simp; omega
    simp only [rfc4648, e1, e2, e3, decodeBlock]
    rw [decodeValue_sym' _ (by omega), decodeValue_sym' _ (by omega), decodeValue_sym' _ (by simp; omega),
      decodeValue_pad]
    simp only [decVal, h, Option.map_some, List.nil_append, List.append_nil]
    rw [dec_b, dec_c]; rfl
  | case4 a b c rest ih =>
    intro s h
    have ha := a.toNat_lt
    have hb := b.toNat_lt
    have hc := c.toNat_lt
    have e1 : (a.toNat * 65536 + b.toNat * 256 + c.toNat) / 262144 = a.toNat / 4 := by omega
    have e2 : (a.toNat * 65536 + b.toNat * 256 + c.toNat) / 4096 % 64 =
      a.toNat % 4 * 16 + b.toNat / 16 := by omega
    have e3 : (a.toNat * 65536 + b.toNat * 256 + c.toNat) / 64 % 64 =
      b.toNat % 16 * 4 + c.toNat / 64 := by omega
    have e4 : (a.toNat * 65536 + b.toNat * 256 + c.toNat) % 64 = c.toNat % 64 := by omega
    have ih' := ih ⟨.a, 0⟩ rfl
    simp only [rfc4648, e1, e2, e3, e4, decodeBlock, List.cons_append, List.nil_append]
    rw [decodeValue_sym' _ (by omega), decodeValue_sym' _ (by omega), decodeValue_sym' _ (by omega),
      decodeValue_sym' _ (by omega)]
    simp only [decVal, h, List.nil_append]
    rw [dec_b, dec_c, dec_d]
    cases hd : decodeBlock ⟨.a, 0⟩ (rfc4648 rest) with
    | none => rw [hd] at ih'; simp at ih'
    | some p => rw [hd] at ih'; simp at ih'; simp [ih']

/-! classification of characters -/

theorem decodeValue_class_b (c : UInt8) :
    (match decodeValue c with
      | .val _ => isSym c
      | .skip => !isSym c
      | .oob => !isSym c && c == 123) = true :=
  forall_u8 (p := fun c => (match decodeValue c with
      | .val _ => isSym c
      | .skip => !isSym c
      | .oob => !isSym c && c == 123) = true) (by decide +kernel) c

theorem decodeValue_class (c : UInt8) :
    (isSym c = true → ∃ v, decodeValue c = .val v) ∧
    (isSym c = false → c ≠ 123 → decodeValue c = .skip) := by
  have h := decodeValue_class_b c
  revert h
  generalize decodeValue c = d
  generalize isSym c = b
  intro h
  cases d with
  | val v => simp only at h; subst h; simp
  | skip => simp only [Bool.not_eq_true'] at h; subst h; simp
  | oob =>
    simp only [Bool.and_eq_true, Bool.not_eq_true', beq_iff_eq] at h
    obtain ⟨h1, h2⟩ := h
    subst h1; simp [h2]

theorem decodeBlock_filter (s : DState) (t : List UInt8) (h : ∀ c ∈ t, c ≠ 123) :
    decodeBlock s t = decodeBlock s (t.filter isSym) := by
  induction t generalizing s with
  | nil => simp
  | cons c cs ih =>
    have hcs : ∀ c ∈ cs, c ≠ 123 := fun x hx => h x (by simp [hx])
    have hc := decodeValue_class c
    cases hs : isSym c with
    | true =>
      obtain ⟨v, hv⟩ := hc.1 hs
      simp only [List.filter_cons, hs, if_true, decodeBlock, hv, ih _ hcs]
    | false =>
      have hv := hc.2 hs (h c (by simp))
      simp [hs, decodeBlock, hv, ih _ hcs]

theorem decodeBlock_defined (s : DState) (t : List UInt8) (h : ∀ c ∈ t, c ≠ 123) :
    ∃ r, decodeBlock s t = some r := by
  induction t generalizing s with
  | nil => exact ⟨_, rfl⟩
  | cons c cs ih =>
    have hcs : ∀ c ∈ cs, c ≠ 123 := fun x hx => h x (by simp [hx])
    have hc := decodeValue_class c
    cases hs : isSym c with
    | true =>
      obtain ⟨v, hv⟩ := hc.1 hs
      obtain ⟨r, hr⟩ := ih (decVal s v).2 hcs
      simp [decodeBlock, hv, hr]
    | false =>
      have hv := hc.2 hs (h c (by simp))
      obtain ⟨r, hr⟩ := ih s hcs
      simp [decodeBlock, hv, hr]

theorem rfc_length (bs : List UInt8) : (rfc4648 bs).length = 4 * ((bs.length + 2) / 3) := by
  induction bs using rfc4648.induct with
  | case1 => simp [rfc4648]
  | case2 => simp [rfc4648]
  | case3 => simp [rfc4648]
  | case4 a b c rest ih => simp [rfc4648, ih]; omega

end Verif.Base64
