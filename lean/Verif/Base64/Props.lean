import Verif.Base64.Lemmas

/-!
Properties C01, C02, C03 (base64 codec).
-/
namespace Verif.Base64
open Spec

/-- C01: decoding the encoding of any byte string gives it back, for any way of cutting the input into
`base64_encode_block` calls and the text into `base64_decode_block` calls. -/
theorem base64_roundtrip (bs : List (List UInt8)) (ts : List (List UInt8))
    (h : ts.flatten = encodeAll bs) : decodeAll ts = some bs.flatten := by
  have h1 : encodeAll bs = rfc4648 bs.flatten := by
    simp only [encodeAll, encodeBlocks_eq]
    exact encode_rfc _ initE rfl
  simp only [decodeAll, decodeBlocks_eq, h, h1]
  exact decode_rfc _ initD rfl

example : decodeAll [encodeAll [[0, 255], [], [7, 200, 13]]] = some [0, 255, 7, 200, 13] := by decide +kernel

/-- C02: whatever the block cuts, the produced text is the RFC 4648 encoding of the concatenated input. -/
theorem base64_encode_is_rfc4648 (bs : List (List UInt8)) : encodeAll bs = rfc4648 bs.flatten := by
  simp only [encodeAll, encodeBlocks_eq]
  exact encode_rfc _ initE rfl

/-- C02: length of the text is `4 * ceil(n / 3)`. -/
theorem base64_encode_length (bs : List (List UInt8)) :
    (encodeAll bs).length = 4 * ((bs.flatten.length + 2) / 3) := by
  rw [base64_encode_is_rfc4648, rfc_length]

/-- C02: decoding does not depend on how the text is cut into blocks. -/
theorem base64_decode_block_independent (ts us : List (List UInt8)) (h : ts.flatten = us.flatten) :
    decodeAll ts = decodeAll us := by
  simp [decodeAll, decodeBlocks_eq, h]

example : encodeAll [[77], [97, 110]] = [84, 87, 70, 117] := by decide +kernel
example : [[84, 87], [70, 117]].flatten = ([[84], [87, 70, 117]] : List (List UInt8)).flatten := by decide

/-- C03 (partial: texts containing '{' are excluded, see `base64_decode_table_overrun`):
the decoder never leaves its table and only the alphabet characters matter. -/
theorem base64_decode_ignores_foreign_partial (t : List UInt8) (h : ∀ c ∈ t, c ≠ 123) :
    (∃ out, decodeAll [t] = some out) ∧ decodeAll [t] = decodeAll [t.filter isSym] := by
  constructor
  · obtain ⟨r, hr⟩ := decodeBlock_defined initD t h
    exact ⟨r.1, by simp [decodeAll, decodeBlocks_eq, hr]⟩
  · simp [decodeAll, decodeBlocks_eq, decodeBlock_filter initD t h]

example : (∀ c ∈ ([84, 87, 10, 70, 32, 117, 61] : List UInt8), c ≠ 123) ∧
    decodeAll [[84, 87, 10, 70, 32, 117, 61]] = some [77, 97, 110] := by decide +kernel

/-- C03 is false of the code at exactly one character value: '{' (123) passes the range check
`value_in > decoding_size` and reads the entry after the last one of the table. -/
theorem base64_decode_table_overrun (c : UInt8) : decodeAll [[c]] = none ↔ c = 123 := by
  constructor
  · intro h
    refine Classical.byContradiction fun hc => ?_
    obtain ⟨r, hr⟩ := decodeBlock_defined initD [c] (by simpa using hc)
    simp [decodeAll, decodeBlocks_eq, hr] at h
  · intro h; subst h; decide +kernel

end Verif.Base64
