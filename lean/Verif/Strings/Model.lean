/-
Model of the text helpers of mg: `Csplitter`, `replace`, the number and hexadecimal operators of `CstringT` (src/mg/splitter.h and
src/mg/alxstring.h). A `Cstring` (TCHAR = char on Linux) is a list of characters without the terminating NUL; the allocated size of
its buffer is passed where the code looks at it. Memory exhaustion and null strings are not modelled.
-/
namespace Verif.Strings

/-- C's `strstr` as used by the code: position of the first occurrence, `none` for a null result. -/
def strstr (s sep : List Char) : Option Nat :=
  match s with
  | [] => if sep = [] then some 0 else none
  | c :: t => if sep.isPrefixOf (c :: t) then some 0 else (strstr t sep).map (· + 1)

/-- src/mg/splitter.h 32-36: `struct locator`. -/
structure Locator where
  begin : Nat
  len : Nat

/-- src/mg/splitter.h 62-88: the loop of `Csplitter::split`, at most `fuel` rounds (`none`: still running after them). The test
`if(!pszbegin)` in lines 84-85 is never true, because the pointer has just been advanced from a non-null value. -/
def splitLoop (content sep : List Char) : (fuel : Nat) → (begin : Nat) → List Locator → Option (List Locator)
  | 0, _, _ => none
  | fuel + 1, b, locs =>
    match strstr (content.drop b) sep with
    | none => some (locs ++ [⟨b, content.length - b⟩])
    | some k => splitLoop content sep fuel (b + k + sep.length) (locs ++ [⟨b, k⟩])

/-- src/mg/splitter.h 51-90: `Csplitter::split`. The number of rounds is bounded by the length of the text plus one, which is enough
whenever the separator is not empty (`split_total`); with an empty separator the code loops for ever (`split_empty_hangs`). -/
def split (content sep : List Char) : Option (List Locator) := splitLoop content sep (content.length + 1) 0 []

/-- src/mg/splitter.h 97-104: `Csplitter::operator[]`, the part a locator stands for. -/
def part (content : List Char) (l : Locator) : List Char := (content.drop l.begin).take l.len

/-- src/mg/splitter.h 114-128: `replace(str, in, out)`, which puts `in` in the place of every `out`; `none` if it does not return. -/
def replace (str inn out : List Char) : Option (List Char) :=
  match split str out with
  | none => none
  | some [] => none
  | some (l :: ls) => some (ls.foldl (fun r l' => r ++ inn ++ part str l') (part str l))

/-- src/mg/alxstring.h 67-69: the hexadecimal digits `s_chHexChars`. -/
def hexChars : List Char :=
  ['0', '1', '2', '3', '4', '5', '6', '7', '8', '9', 'A', 'B', 'C', 'D', 'E', 'F']

/-- src/mg/alxstring.h 786-803: `append_hex_buffer`. The byte goes through a `char`, which is signed: `(ch >> 4)` is an arithmetic
shift, but the mask `0x0F` leaves the upper four bits of the byte. -/
def appendHex (s : List Char) (bytes : List UInt8) : List Char :=
  bytes.foldl (fun s b => s ++ [hexChars.getD ((b.toNat >>> 4) &&& 0x0F) '\x00'] ++ [hexChars.getD (b.toNat &&& 0x0F) '\x00']) s

/-- src/mg/alxstring.h 636-646: `subString(nbegin, nLen)` of a string whose buffer has `alloc` characters. When the buffer has fewer
than `nLen` characters after `nbegin` the length becomes that of the whole buffer (and not of the rest): the code then reads past the
end of the buffer, which is modelled as `none`. Otherwise it copies `nLen` characters, of which a C string keeps those up to the
terminating NUL, that is up to the end of the text. -/
def subString (s : List Char) (alloc begin len : Nat) : Option (List Char) :=
  if alloc - begin < len then none else some ((s.drop begin).take len)

/-- White space for C's `sscanf`. -/
def isSpace (c : Char) : Bool := c = ' ' || c = '\t' || c = '\n' || c = '\x0B' || c = '\x0C' || c = '\r'

/-- Value of a hexadecimal digit for C's `sscanf`. -/
def hexVal (c : Char) : Option Nat :=
  let n := c.toNat
  if 48 ≤ n ∧ n ≤ 57 then some (n - 48)
  else if 65 ≤ n ∧ n ≤ 70 then some (n - 55)
  else if 97 ≤ n ∧ n ≤ 102 then some (n - 87)
  else none

/-- The digits `sscanf` takes. -/
def scanDigits : Nat → List Char → Nat
  | acc, [] => acc
  | acc, c :: cs => match hexVal c with
    | some d => scanDigits (acc * 16 + d) cs
    | none => acc

/-- An optional sign. -/
def scanSign : List Char → Bool × List Char
  | [] => (false, [])
  | c :: t => if c = '-' then (true, t) else if c = '+' then (false, t) else (false, c :: t)

/-- An optional `0x`. -/
def scanPrefix : List Char → List Char
  | a :: b :: t => if a = '0' ∧ (b = 'x' ∨ b = 'X') then t else a :: b :: t
  | s => s

/-- `sscanf(s, "%lx", &b)`: leading white space, an optional sign, an optional `0x`, at least one hexadecimal digit; whatever follows
is ignored. `none`: no conversion. (A lone `0x` with no digit after it counts as no conversion, as in glibc.) Only texts of at most two
characters are passed to it. -/
def scanHex (s : List Char) : Option Nat :=
  let (neg, s) := scanSign (s.dropWhile isSpace)
  match scanPrefix s with
  | [] => none
  | c :: cs =>
    if (hexVal c).isSome then
      some (if neg then (2 ^ 64 - scanDigits 0 (c :: cs)) % 2 ^ 64 else scanDigits 0 (c :: cs))
    else none

/-- src/mg/alxstring.h 806-824: `extract_binary_hex(pb, size, start_at)` on a string whose buffer has `alloc` characters; `none`: the
call throws (`to_type`, lines 120-134, when nothing is converted) or reads outside of the buffer. -/
def extractHex (s : List Char) (alloc : Nat) : (size : Nat) → (startAt : Nat) → Option (List UInt8)
  | 0, _ => some []
  | size + 1, at' =>
    match subString s alloc at' 2 with
    | none => none
    | some t => match scanHex t with
      | none => none
      | some b => (extractHex s alloc size (at' + 2)).map (UInt8.ofNat b :: ·)

/-- The digits of `sprintf("%" PRIu64)`, least significant last, prepended to `acc`; twenty digits are enough for 64 bits. -/
def decGo : (fuel : Nat) → Nat → List Char → List Char
  | 0, _, acc => acc
  | fuel + 1, n, acc =>
    let acc := Char.ofNat (48 + n % 10) :: acc
    if n / 10 = 0 then acc else decGo fuel (n / 10) acc

/-- src/mg/alxstring.h 538-562: `operator+=(uint64_t)`: the decimal text of a 64-bit number. -/
def dec (n : Nat) : List Char := decGo 20 n []

/-- src/mg/alxstring.h 564-574 and 481-505: `operator+=(int)`, by way of `int64_t` and `%" PRId64`. -/
def decInt (n : Int) : List Char := if n < 0 then '-' :: dec n.natAbs else dec n.natAbs

end Verif.Strings
