/-
Video streams with parameter sets as start code delimited bytes (ISO/IEC 14496-10, annex B).
-/
namespace Verif.CodecData.Spec

/-- Parameter sets, each behind a start code of four bytes. -/
def annexB (sets : List (List UInt8)) : List UInt8 := (sets.map fun s => [0, 0, 0, 1] ++ s).flatten

end Verif.CodecData.Spec
