/-
Bit rate of a track: the bits of its samples and its length in seconds (`media` units of 1 / `scale` seconds).
-/
namespace Verif.Rate.Spec

/-- The words of a sample size box for samples of the given sizes: one size for each. -/
def table (sizes : List Nat) : List Nat := 0 :: sizes.length :: sizes

/-- The same for `count` samples of one size. -/
def tableOf (size count : Nat) : List Nat := [size, count]

/-- `rate` is the number of bits by the length in seconds, `rate = 8 bytes / (media / scale)`, not lower (but for the part behind the point), and higher by the factor `num / den` at most. -/
structure Within (bytes media scale rate num den : Nat) : Prop where
  low : 8 * bytes * scale < (rate + 1) * media
  high : rate * media * den ≤ 8 * bytes * scale * num

end Verif.Rate.Spec
