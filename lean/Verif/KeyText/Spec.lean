/-
Characters and bytes of ASCII text.
-/
namespace Verif.KeyText.Spec

/-- The text whose characters have these codes. -/
def text (bytes : List UInt8) : List Char := bytes.map fun b => Char.ofNat b.toNat

end Verif.KeyText.Spec
