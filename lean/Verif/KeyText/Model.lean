import Verif.Base64.Model
import Verif.Strings.Model
/-
Model of the two commands that convert a key between hexadecimal text and base64: `mg -k:hex64 -key:...` and `mg -k:64hex -key:...` (/repo/src/mgcli/mp4info.cpp 4646-4711), with `PlayReadyCencProvider::Base64`
(/repo/src/mgcli/cenc_provider.h 147-180). The codecs are those of the modules Base64 and Strings.

A key is a list of characters of one byte. The wide output stream is modelled as the lines put on it: a byte that the locale cannot turn into a wide character makes it fail, and everything after is dropped. `none`: an exception, or memory is
read or written out of bounds. Not modelled: the formatted dump of `64hex` (line 4706), which is shown besides the plain text.
-/
namespace Verif.KeyText
open Verif.Base64 Verif.Strings

/-- A buffer of bytes put on a stream as C text, `reinterpret_cast<char*>(buffer.get())`, mp4info.cpp 4662: it is read up to the first zero byte; there is none behind the buffer (cbuffer.h 80-91). -/
def cText (buffer : List UInt8) : Option (List UInt8) := if 0 ∈ buffer then some (buffer.takeWhile (· ≠ 0)) else none

/-- `kind == hex64`, mp4info.cpp 4646-4673: the lines shown. `alloc` characters are allocated for the key. -/
def hex64 (widens : UInt8 → Bool) (key : List Char) (alloc : Nat) : Option (List (List UInt8)) := do
  let buffer ← extractHex key alloc (key.length / 2) 0
  let raw ← cText buffer
  if raw.all widens then some [raw, encodeAll [buffer]] else some [raw.takeWhile widens]

/-- `str64 += k`, mp4info.cpp 4686: the characters as bytes. -/
def code (key : List Char) : List UInt8 := key.map fun c => UInt8.ofNat c.toNat

/-- `kind == 64hex`, mp4info.cpp 4675-4711: the last line. The decoder writes the bytes and at most one place behind them (cdecode.cpp 53, 78) to a buffer of as many bytes as the key has characters (line 4688). -/
def hexOf64 (key : List Char) : Option (List Char) := do
  let out ← decodeAll [code key]
  if out.length < key.length then some (appendHex [] out) else none

end Verif.KeyText
