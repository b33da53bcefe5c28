/-
Model of the bundled base64 codec (libb64) of mediagoom/mg.
Sources: /repo/src/b64/src/cencode.cpp, /repo/src/b64/src/cdecode.cpp.

`char` is the signed 8 bit type of the supported targets; a character is represented here by its bit pattern
`UInt8`, and the places where the sign matters (`base64_decode_value`) reinterpret it explicitly.
Output buffers become returned lists, the `switch` into the `while (1)` becomes a per-character transition.
-/
namespace Verif.Base64

/-- `base64_encodestep` (cencode.h; used in cencode.cpp 31-36, 56-103). -/
inductive EStep where
  | A | B | C
deriving DecidableEq, Repr

/-- `base64_encodestate` (cencode.cpp 31-36): step, partial result and the line counter. -/
structure EState where
  step : EStep
  result : UInt8
  stepcount : Nat
deriving DecidableEq, Repr

/-- `base64_init_encodestate`, cencode.cpp 31-36. -/
def initE : EState := ⟨.A, 0, 0⟩

/-- The 64 characters of `encoding`, cencode.cpp 40. -/
def encTable : List UInt8 :=
  "ABCDEFGHIJKLMNOPQRSTUVWXYZabcdefghijklmnopqrstuvwxyz0123456789+/".toList.map
    (fun c => UInt8.ofNat c.toNat)

/-- `base64_encode_value`, cencode.cpp 38-43. The argument is always below 64 when called by the encoder
(theorem `enc_result_lt`), so the sign of `char` plays no role. -/
def encodeValue (v : UInt8) : UInt8 :=
  if v > 63 then 61 else encTable.getD v.toNat 61

/-- One turn of the state machine of `base64_encode_block` for one input character `f` (`fragment`),
cencode.cpp 56-103: the characters emitted and the new state. The inserted line break is commented out in the
source; only the counter is kept (`CHARS_PER_LINE/4 = 25000`). -/
def encChar (s : EState) (f : UInt8) : List UInt8 × EState :=
  match s.step with
  | .A => ([encodeValue ((f &&& 0xfc) >>> 2)], { s with step := .B, result := (f &&& 0x03) <<< 4 })
  | .B => ([encodeValue (s.result ||| ((f &&& 0xf0) >>> 4))],
           { s with step := .C, result := (f &&& 0x0f) <<< 2 })
  | .C => ([encodeValue (s.result ||| ((f &&& 0xc0) >>> 6)), encodeValue (f &&& 0x3f)],
           { step := .A, result := f &&& 0x3f,
             stepcount := if s.stepcount + 1 = 25000 then 0 else s.stepcount + 1 })

/-- `base64_encode_block`, cencode.cpp 45-106. -/
def encodeBlock (s : EState) : List UInt8 → List UInt8 × EState
  | [] => ([], s)
  | f :: fs =>
    let (o, s') := encChar s f
    let (os, s'') := encodeBlock s' fs
    (o ++ os, s'')

/-- `base64_encode_blockend`, cencode.cpp 108-129 (the final newline is commented out in the source). -/
def encodeBlockEnd (s : EState) : List UInt8 :=
  match s.step with
  | .B => [encodeValue s.result, 61, 61]
  | .C => [encodeValue s.result, 61]
  | .A => []

/-- A sequence of `base64_encode_block` calls on one state, outputs appended by the caller. -/
def encodeBlocks (s : EState) : List (List UInt8) → List UInt8 × EState
  | [] => ([], s)
  | b :: bs =>
    let (o, s') := encodeBlock s b
    let (os, s'') := encodeBlocks s' bs
    (o ++ os, s'')

/-- Encoding of a text cut into blocks: init, one call per block, blockend
(this is the sequence used at cenc_provider.h 163-177 with a single block). -/
def encodeAll (bs : List (List UInt8)) : List UInt8 :=
  let (o, s) := encodeBlocks initE bs
  o ++ encodeBlockEnd s

/-- Outcome of `base64_decode_value`. -/
inductive DVal where
  /-- value 0..63 of an alphabet character -/
  | val (v : UInt8)
  /-- a negative value: -1 (not in the alphabet) or -2 ('=') -/
  | skip
  /-- the lookup reads past the end of the 80 entry table: undefined behaviour -/
  | oob
deriving DecidableEq, Repr

/-- The `decoding` table, cdecode.cpp 34. -/
def decTable : List Int :=
  [62,-1,-1,-1,63,52,53,54,55,56,57,58,59,60,61,-1,-1,-1,-2,-1,-1,-1,0,1,2,3,4,5,6,7,8,9,10,11,12,13,14,
   15,16,17,18,19,20,21,22,23,24,25,-1,-1,-1,-1,-1,-1,26,27,28,29,30,31,32,33,34,35,36,37,38,39,40,41,42,43,
   44,45,46,47,48,49,50,51]

/-- Signed reading of an 8 bit pattern. -/
def sgn8 (n : Nat) : Int := if n % 256 < 128 then (n % 256 : Nat) else ((n % 256 : Nat) : Int) - 256

/-- `base64_decode_value`, cdecode.cpp 32-39: `value_in -= 43` wraps in `char`, the range check is
`value_in < 0 || value_in > decoding_size` with `decoding_size == 80`. -/
@[irreducible] def decodeValue (c : UInt8) : DVal :=
  let v := sgn8 (c.toNat + 213)          -- (c - 43) mod 256, read as signed
  if v < 0 ∨ v > 80 then .skip
  else
    match decTable[v.toNat]? with
    | none => .oob
    | some x => if x < 0 then .skip else .val (UInt8.ofNat x.toNat)

/-- `base64_decodestep`. -/
inductive DStep where
  | a | b | c | d
deriving DecidableEq, Repr

/-- `base64_decodestate`, cdecode.cpp 41-45. -/
structure DState where
  step : DStep
  plainchar : UInt8
deriving DecidableEq, Repr

/-- `base64_init_decodestate`, cdecode.cpp 41-45. -/
def initD : DState := ⟨.a, 0⟩

/-- Consuming one accepted value `v` at each step of `base64_decode_block`, cdecode.cpp 59-104: the completed
output bytes and the new state. After step d the byte under construction is whatever the output buffer holds;
it is overwritten by step a before use, the model puts 0. -/
def decVal (s : DState) (v : UInt8) : List UInt8 × DState :=
  match s.step with
  | .a => ([], ⟨.b, (v &&& 0x3f) <<< 2⟩)
  | .b => ([s.plainchar ||| ((v &&& 0x30) >>> 4)], ⟨.c, (v &&& 0x0f) <<< 4⟩)
  | .c => ([s.plainchar ||| ((v &&& 0x3c) >>> 2)], ⟨.d, (v &&& 0x03) <<< 6⟩)
  | .d => ([s.plainchar ||| (v &&& 0x3f)], ⟨.a, 0⟩)

/-- `base64_decode_block`, cdecode.cpp 47-109; `none` is undefined behaviour (table overrun). -/
def decodeBlock (s : DState) : List UInt8 → Option (List UInt8 × DState)
  | [] => some ([], s)
  | c :: cs =>
    match decodeValue c with
    | .oob => none
    | .skip => decodeBlock s cs
    | .val v =>
      let (o, s') := decVal s v
      match decodeBlock s' cs with
      | none => none
      | some (os, s'') => some (o ++ os, s'')

/-- A sequence of `base64_decode_block` calls on one state, outputs appended by the caller. -/
def decodeBlocks (s : DState) : List (List UInt8) → Option (List UInt8 × DState)
  | [] => some ([], s)
  | b :: bs =>
    match decodeBlock s b with
    | none => none
    | some (o, s') =>
      match decodeBlocks s' bs with
      | none => none
      | some (os, s'') => some (o ++ os, s'')

/-- Decoding a whole text cut into blocks; the bytes delivered. -/
def decodeAll (bs : List (List UInt8)) : Option (List UInt8) :=
  (decodeBlocks initD bs).map (·.1)

end Verif.Base64
