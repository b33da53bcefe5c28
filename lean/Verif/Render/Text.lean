import Lean

/-! Notation for texts: `t! "abc"` is the list of characters `'a' :: 'b' :: 'c' :: []`. -/
namespace Verif.Render

macro "t! " s:str : term => do
  let mut r ← `(([] : List Char))
  for c in s.getString.toList.reverse do
    r ← `(List.cons $(Lean.Syntax.mkCharLit c) $r)
  return r

end Verif.Render
