import Verif.KeyText.Model
import Verif.KeyText.Spec
import Verif.Base64.Props
import Verif.Strings.Props
/-
C170: converting a key between hexadecimal text and base64.
-/
namespace Verif.KeyText
open Verif.Base64 Verif.Strings Verif.KeyText.Spec

theorem code_text (bs : List UInt8) : code (text bs) = bs := by
  have h : ∀ b : UInt8, UInt8.ofNat (Char.ofNat b.toNat).toNat = b := by
    intro b
    have : ∀ n : Fin 256, (Char.ofNat n.val).toNat = n.val := by decide +kernel
    have := this ⟨b.toNat, b.toNat_lt⟩
    simp only at this
    rw [this, UInt8.ofNat_toNat]
  induction bs with
  | nil => rfl
  | cons b bs ih =>
    have e : code (text (b :: bs)) = UInt8.ofNat (Char.ofNat b.toNat).toNat :: code (text bs) := rfl
    rw [e, ih, h]

/-- The first line of the program is taken up to a zero byte. -/
theorem cText_none {bs : List UInt8} (h : 0 ∉ bs) : cText bs = none := by rw [cText, if_neg h]

/-- The bytes of a hexadecimal key. -/
theorem extract_key {key : List Char} {bs : List UInt8} (h : Strings.Spec.unhex key = some bs) {alloc : Nat} (ha : key.length ≤ alloc) : extractHex key alloc (key.length / 2) 0 = some bs := by
  have l : ∀ (t : List Char) (bs : List UInt8), Strings.Spec.unhex t = some bs → t.length = 2 * bs.length := by
    intro t
    induction t using Strings.Spec.unhex.induct with
    | case1 => intro bs h; simp [Strings.Spec.unhex] at h; subst h; rfl
    | case2 => intro bs h; simp [Strings.Spec.unhex] at h
    | case3 a b cs ih =>
      intro bs h
      simp only [Strings.Spec.unhex, Option.bind_eq_some_iff, Option.map_eq_some_iff] at h
      obtain ⟨_, _, _, _, bs', e, rfl⟩ := h
      simp only [List.length_cons, ih bs' e]; omega
  have := hex_extract [] key [] alloc bs h (by simpa using ha)
  rw [l key bs h, Nat.mul_div_cancel_left _ (by decide : 0 < 2)]
  simpa using this

/-- C170, hexadecimal to base64: for every key in which a zero byte stands behind bytes that the locale can show, the last line is the base64 of its bytes. -/
theorem hex64_partial (widens : UInt8 → Bool) (key : List Char) (alloc : Nat) (pre post : List UInt8) (h : Strings.Spec.unhex key = some (pre ++ 0 :: post)) (ha : key.length ≤ alloc) (hw : ∀ b ∈ pre, widens b = true ∧ b ≠ 0) :
    hex64 widens key alloc = some [pre, Base64.Spec.rfc4648 (pre ++ 0 :: post)] := by
  have t : (pre ++ 0 :: post).takeWhile (· ≠ 0) = pre := by
    rw [List.takeWhile_append_of_pos (fun b hb => by simpa using (hw b hb).2)]; simp
  have c : cText (pre ++ 0 :: post) = some pre := by rw [cText, if_pos (by simp), t]
  have w : pre.all widens = true := List.all_eq_true.mpr fun b hb => (hw b hb).1
  simp only [hex64, extract_key h ha, c, Option.bind_eq_bind, Option.bind_some, w, if_true, base64_encode_is_rfc4648, List.flatten_cons, List.flatten_nil, List.append_nil]

/-- C170 fails for every key without a zero byte: the program reads behind its buffer. -/
theorem hex64_no_zero (widens : UInt8 → Bool) (key : List Char) (alloc : Nat) (bs : List UInt8) (h : Strings.Spec.unhex key = some bs) (ha : key.length ≤ alloc) (h0 : 0 ∉ bs) : hex64 widens key alloc = none := by
  simp only [hex64, extract_key h ha, cText_none h0, Option.bind_eq_bind, Option.bind_some, Option.bind_none]

/-- C170 fails for keys with a byte that the locale cannot show before the zero byte: the base64 text is not shown. -/
theorem hex64_lost (widens : UInt8 → Bool) (key : List Char) (alloc : Nat) (pre mid post : List UInt8) (b : UInt8) (h : Strings.Spec.unhex key = some (pre ++ b :: mid ++ 0 :: post)) (ha : key.length ≤ alloc)
    (hp : ∀ b ∈ pre, widens b = true ∧ b ≠ 0) (hb : widens b = false ∧ b ≠ 0) (hm : 0 ∉ mid) : hex64 widens key alloc = some [pre] := by
  have t : (pre ++ b :: mid ++ 0 :: post).takeWhile (· ≠ 0) = pre ++ b :: mid := by
    rw [List.takeWhile_append_of_pos]
    · simp
    · intro x hx
      rcases List.mem_append.mp hx with hx | hx
      · simpa using (hp x hx).2
      · rcases List.mem_cons.mp hx with rfl | hx
        · simpa using hb.2
        · have n : x ≠ 0 := by rintro rfl; exact hm hx
          simpa using n
  have c : cText (pre ++ b :: mid ++ 0 :: post) = some (pre ++ b :: mid) := by rw [cText, if_pos (by simp), t]
  have w : (pre ++ b :: mid).all widens = false := by simp [hb.1]
  have r : (pre ++ b :: mid).takeWhile widens = pre := by
    rw [List.takeWhile_append_of_pos (fun b hb => (hp b hb).1)]; simp [hb.1]
  simp only [hex64, extract_key h ha, c, Option.bind_eq_bind, Option.bind_some, w, r, Bool.false_eq_true, if_false]

/-- A last digit without partner is left out. -/
theorem hex64_odd (widens : UInt8 → Bool) (key : List Char) (c : Char) (alloc : Nat) (bs : List UInt8) (h : Strings.Spec.unhex key = some bs) (ha : key.length < alloc) : hex64 widens (key ++ [c]) alloc = hex64 widens key alloc := by
  have l : (key ++ [c]).length / 2 = key.length / 2 := by
    have := extract_key h (Nat.le_of_lt ha)
    have e : ∀ (t : List Char) (bs : List UInt8), Strings.Spec.unhex t = some bs → t.length % 2 = 0 := by
      intro t
      induction t using Strings.Spec.unhex.induct with
      | case1 => intros; rfl
      | case2 => intro bs h; simp [Strings.Spec.unhex] at h
      | case3 a b cs ih =>
        intro bs h
        simp only [Strings.Spec.unhex, Option.bind_eq_some_iff, Option.map_eq_some_iff] at h
        obtain ⟨_, _, _, _, bs', e, rfl⟩ := h
        have := ih bs' e
        simp only [List.length_cons]; omega
    have := e key bs h
    simp only [List.length_append, List.length_singleton]; omega
  have x : extractHex (key ++ [c]) alloc ((key ++ [c]).length / 2) 0 = some bs := by
    rw [l]
    have a := extract_key h (Nat.le_of_lt ha)
    have len : key.length / 2 = bs.length := by
      have : ∀ (n at' : Nat) (s : List Char) (r : List UInt8), extractHex s alloc n at' = some r → r.length = n := by
        intro n
        induction n with
        | zero => intro at' s r h; simp [extractHex] at h; subst h; rfl
        | succ n ih =>
          intro at' s r h
          simp only [extractHex] at h
          split at h
          · exact absurd h (by simp)
          · split at h
            · exact absurd h (by simp)
            · obtain ⟨r', e, rfl⟩ := Option.map_eq_some_iff.mp h
              simp [ih _ _ _ e]
      exact (this _ _ _ _ a).symm
    rw [len]
    simpa using hex_extract [] key [c] alloc bs h (by simp; omega)
  simp only [hex64, x, extract_key h (Nat.le_of_lt ha)]

/-- The state of the decoder as number of bits waiting. -/
def held : DStep → Nat
  | .a => 0
  | .b => 3
  | .c => 2
  | .d => 1

theorem decodeBlock_room (s : DState) (t : List UInt8) (o : List UInt8) (s' : DState) (h : decodeBlock s t = some (o, s')) : 4 * o.length + held s'.step ≤ 3 * t.length + held s.step := by
  induction t generalizing s o s' with
  | nil => simp only [decodeBlock, Option.some.injEq, Prod.mk.injEq] at h; obtain ⟨rfl, rfl⟩ := h; simp
  | cons c cs ih =>
    simp only [decodeBlock] at h
    split at h
    · exact absurd h (by simp)
    · have := ih _ _ _ h
      simp only [List.length_cons]; omega
    · rename_i v _
      split at h
      · exact absurd h (by simp)
      · rename_i os s2 e
        simp only [Option.some.injEq, Prod.mk.injEq] at h
        obtain ⟨rfl, rfl⟩ := h
        have := ih _ _ _ e
        rcases s with ⟨step, p⟩
        cases step <;> simp only [decVal, held, List.length_append, List.length_cons, List.length_nil] at this ⊢ <;> omega

/-- The decoder stays in its buffer: for every key that is not empty. -/
theorem decode_room (key : List Char) (out : List UInt8) (h0 : key ≠ []) (h : decodeAll [code key] = some out) : out.length < key.length := by
  simp only [decodeAll, decodeBlocks_eq, List.flatten_cons, List.flatten_nil, List.append_nil, Option.map_eq_some_iff] at h
  obtain ⟨⟨o, s⟩, h, rfl⟩ := h
  have := decodeBlock_room _ _ _ _ h
  have l : (code key).length = key.length := by simp [code]
  have p : 0 < key.length := List.length_pos_iff.mpr h0
  have e : held initD.step = 0 := rfl
  show o.length < _
  omega

/-- C170, base64 to hexadecimal: for every key of at least one byte the text shown are the digits of its bytes. -/
theorem hex_of_64 (bs : List UInt8) (h : bs ≠ []) : ∃ t, hexOf64 (text (Base64.Spec.rfc4648 bs)) = some t ∧ Strings.Spec.unhex t = some bs := by
  have d : decodeAll [code (text (Base64.Spec.rfc4648 bs))] = some bs := by
    have := base64_roundtrip [bs] [code (text (Base64.Spec.rfc4648 bs))] (by rw [code_text, base64_encode_is_rfc4648]; simp)
    simpa using this
  have ne : text (Base64.Spec.rfc4648 bs) ≠ [] := by
    have := base64_encode_length [bs]
    rw [base64_encode_is_rfc4648] at this
    simp only [List.flatten_cons, List.flatten_nil, List.append_nil] at this
    have p : 0 < bs.length := List.length_pos_iff.mpr h
    intro e
    have : (text (Base64.Spec.rfc4648 bs)).length = 0 := by rw [e]; rfl
    simp only [text, List.length_map] at this
    omega
  obtain ⟨t, e, _, u⟩ := hex_text [] bs
  refine ⟨t, ?_, u⟩
  simp only [hexOf64, d, Option.bind_eq_bind, Option.bind_some, if_pos (decode_room _ _ ne d), e, List.nil_append]

/-- C170 for any text: line breaks, spaces and other characters are skipped, and nothing but `{` stops the program. -/
theorem any_text (key : List Char) (h0 : key ≠ []) (h : ∀ c ∈ code key, c ≠ 123) :
    ∃ out, hexOf64 key = some (appendHex [] out) ∧ decodeAll [(code key).filter Base64.Spec.isSym] = some out := by
  obtain ⟨⟨out, e⟩, f⟩ := base64_decode_ignores_foreign_partial _ h
  exact ⟨out, by simp only [hexOf64, e, Option.bind_eq_bind, Option.bind_some, if_pos (decode_room _ _ h0 e)], f ▸ e⟩

/-- An empty key: the decoder writes to a buffer of no bytes. -/
theorem empty_key : hexOf64 [] = none := by decide +kernel

/-- C170: what the first command shows the second one turns back to the same key. -/
theorem there_and_back_partial (widens : UInt8 → Bool) (key : List Char) (alloc : Nat) (pre post : List UInt8) (h : Strings.Spec.unhex key = some (pre ++ 0 :: post)) (ha : key.length ≤ alloc) (hw : ∀ b ∈ pre, widens b = true ∧ b ≠ 0) :
    ∃ shown t, hex64 widens key alloc = some [pre, shown] ∧ hexOf64 (text shown) = some t ∧ Strings.Spec.unhex t = Strings.Spec.unhex key := by
  obtain ⟨t, e, u⟩ := hex_of_64 (pre ++ 0 :: post) (by simp)
  exact ⟨_, t, hex64_partial widens key alloc pre post h ha hw, e, by rw [u, h]⟩

/-- The hypotheses are met: a key with a zero byte, one without, one with a byte that ASCII lacks, and one in base64. -/
example : hex64 (· < 128) "4d0061".toList 8 = some [[77], [84, 81, 66, 104]] ∧ hex64 (· < 128) "4d61".toList 8 = none ∧ hex64 (· < 128) "4dff00".toList 8 = some [[77]] ∧
    hexOf64 "TQBh".toList = some "4D0061".toList ∧ hexOf64 "TQ\nBh".toList = some "4D0061".toList := by decide +kernel

example : Strings.Spec.unhex "4d0061".toList = some ([77] ++ 0 :: [97]) ∧ Strings.Spec.unhex "4dff00".toList = some ([77] ++ 255 :: [] ++ 0 :: []) ∧ Strings.Spec.unhex "4d61".toList = some [77, 97] := by decide +kernel

end Verif.KeyText
