import Verif.Base64.Spec
import Verif.Strings.Spec
/-
Specification side: how the receivers of the DRM data read it.

* PlayReady object: Microsoft's "PlayReady Header Object": 32 bit length of the object, 16 bit number of records, then records of
  16 bit type, 16 bit length in bytes, value; all little endian; the rights management header (type 1) is UTF-16, little endian.
* UUID text: RFC 4122, 8-4-4-4-12 hexadecimal digits.
* `pssh` box: ISO/IEC 23001-7, 8.1.
* element and attribute text of an XML document that has them once: the characters between the first `<tag>` and the next `<`.
-/
namespace Verif.Drm.Spec

/-- A little endian number. -/
def le : List UInt8 → Nat
  | [] => 0
  | b :: bs => b.toNat + 256 * le bs

/-- A big endian number. -/
def be (bs : List UInt8) : Nat := bs.foldl (fun a b => a * 256 + b.toNat) 0

/-- `n` records, and nothing after them. -/
def records : Nat → List UInt8 → Option (List (Nat × List UInt8))
  | 0, [] => some []
  | 0, _ :: _ => none
  | n + 1, a :: b :: c :: d :: rest =>
    if le [c, d] ≤ rest.length then
      (records n (rest.drop (le [c, d]))).map fun rs => (le [a, b], rest.take (le [c, d])) :: rs
    else none
  | _ + 1, _ => none

/-- A PlayReady object: types and values of its records. -/
def playReadyObject (bs : List UInt8) : Option (List (Nat × List UInt8)) :=
  match bs with
  | a :: b :: c :: d :: e :: f :: rest => if le [a, b, c, d] = bs.length then records (le [e, f]) rest else none
  | _ => none

/-- The UTF-16 units in some bytes. -/
def utf16 : List UInt8 → Option (List Nat)
  | [] => some []
  | [_] => none
  | a :: b :: rest => (utf16 rest).map fun us => le [a, b] :: us

/-- What follows the first occurrence of `p`. -/
def after (p : List Char) : List Char → Option (List Char)
  | [] => if p = [] then some [] else none
  | c :: cs => if p.isPrefixOf (c :: cs) then some ((c :: cs).drop p.length) else after p cs

/-- Text of the first element that starts with `tag` (written with its angle brackets). -/
def textOf (tag : String) (doc : List Char) : Option (List Char) :=
  (after tag.toList doc).map fun r => r.takeWhile (fun c => c != '<')

/-- Value of the first attribute that starts with `name="`. -/
def attrOf (name : String) (doc : List Char) : Option (List Char) :=
  (after (name ++ "=\"").toList doc).map fun r => r.takeWhile (fun c => c != '"')

/-- Value of the first string member `"name" : "`. -/
def jsonOf (name : String) (doc : List Char) : Option (List Char) :=
  (after ("\"" ++ name ++ "\" : \"").toList doc).map fun r => r.takeWhile (fun c => c != '"')

/-- Every `&` of an XML text starts a reference: a name, then `;`. -/
def referencesClosed : List Char → Bool
  | [] => true
  | c :: cs =>
    (c != '&' || (cs.dropWhile (fun d => d.isAlphanum || d == '#')).head? == some ';') && referencesClosed cs

/-- The text is the Base64 text (RFC 4648, with padding) of the bytes. -/
def isBase64Of (t : List Char) (bs : List UInt8) : Prop := t.map (fun c => UInt8.ofNat c.toNat) = Base64.Spec.rfc4648 bs

/-- The bytes of a UUID text, 8-4-4-4-12 hexadecimal digits. -/
def uuid (t : List Char) : Option (List UInt8) :=
  if t.length = 36 ∧ t.getD 8 ' ' = '-' ∧ t.getD 13 ' ' = '-' ∧ t.getD 18 ' ' = '-' ∧ t.getD 23 ' ' = '-' then
    Strings.Spec.unhex (t.take 8 ++ (t.drop 9).take 4 ++ (t.drop 14).take 4 ++ (t.drop 19).take 4 ++ t.drop 24)
  else none

/-- A UUID given by the numbers of its text (first group, second, third, the other eight bytes) in Microsoft's memory layout: the
numbers little endian. -/
def guidValue (bs : List UInt8) : Nat × Nat × Nat × List UInt8 :=
  (le (bs.take 4), le ((bs.drop 4).take 2), le ((bs.drop 6).take 2), bs.drop 8)

/-- The same four parts of a UUID in its network layout: big endian. -/
def uuidValue (bs : List UInt8) : Nat × Nat × Nat × List UInt8 :=
  (be (bs.take 4), be ((bs.drop 4).take 2), be ((bs.drop 6).take 2), bs.drop 8)

/-- Contents of a `pssh` box: version, system, key ids, data. -/
structure PsshContent where
  version : Nat
  system : List UInt8
  kids : List (List UInt8)
  data : List UInt8
deriving DecidableEq, Repr

/-- Key ids of 16 bytes each. -/
def kidList : Nat → List UInt8 → Option (List (List UInt8) × List UInt8)
  | 0, bs => some ([], bs)
  | n + 1, bs => if bs.length < 16 then none else (kidList n (bs.drop 16)).map fun r => (bs.take 16 :: r.1, r.2)

/-- One `pssh` box at the start of the bytes, and what follows the box. The box has to end with its data. -/
def psshBox (bs : List UInt8) : Option (PsshContent × List UInt8) :=
  if bs.length < 28 then none else
  let size := be (bs.take 4)
  let b := (bs.take size).drop 8
  if bs.length < size ∨ (bs.drop 4).take 4 ≠ "pssh".toList.map (fun c => UInt8.ofNat c.toNat) then none else
  let v := be (b.take 1)
  let sys := (b.drop 4).take 16
  (if v = 0 then some ([], b.drop 20) else kidList (be ((b.drop 20).take 4)) (b.drop 24)).bind fun r =>
  if r.2.length < 4 ∨ be (r.2.take 4) ≠ (r.2.drop 4).length then none else
  some (⟨v, sys, r.1, r.2.drop 4⟩, bs.drop size)

/-- All `pssh` boxes of a byte string. -/
def psshBoxes : Nat → List UInt8 → Option (List PsshContent)
  | 0, bs => if bs = [] then some [] else none
  | n + 1, bs => (psshBox bs).bind fun r => (psshBoxes n r.2).map fun ps => r.1 :: ps

end Verif.Drm.Spec
