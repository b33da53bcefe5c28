/-
Model of the common encryption of fragments: `CMP4Fragment::counter8`, `counter`, `encrypt` and the part of `add_sample` that
splits a sample (/repo/src/mg/media/mp4fragmented.h 129-189, 208-260, 336-411), built with CENC and HAVE_LIBGYPAES.

AES itself and `aes_ctr_encrypt` are library code outside the repository: the block cipher is an arbitrary function `E`, and
counter mode is modelled as documented by the library (the key stream is E of the counter block, which the callback
increments after each block; a last incomplete block uses the first bytes of its key stream block).
-/
namespace Verif.Cenc

/-- `counter8`, mp4fragmented.h 208-235, on the first eight bytes (`unsigned char` promoted to int, masked, 64 bit arithmetic). -/
def counter8 (c : List UInt8) : List UInt8 :=
  let b := fun i => (c.getD i 0).toNat
  let tmp := ((b 0 <<< 24) &&& 0xFF000000) ||| ((b 1 <<< 16) &&& 0x00FF0000) ||| ((b 2 <<< 8) &&& 0x0000FF00) ||| (b 3 &&& 0x000000FF)
  let val := ((b 4 <<< 24) &&& 0xFF000000) ||| ((b 5 <<< 16) &&& 0x00FF0000) ||| ((b 6 <<< 8) &&& 0x0000FF00) ||| (b 7 &&& 0x000000FF)
  let val := val ||| ((tmp <<< 32) &&& 0xFFFFFFFF00000000)
  let val := (val + 1) % 2 ^ 64
  [56, 48, 40, 32, 24, 16, 8, 0].map (fun s => UInt8.ofNat ((val >>> s) &&& 0xFF)) ++ c.drop 8

/-- `counter`, mp4fragmented.h 237-260: the second half counts, with a carry into the first. -/
def counter (c : List UInt8) : List UInt8 :=
  if (c.drop 8).take 8 = List.replicate 8 0xFF then counter8 (c.take 8) ++ List.replicate 8 0
  else c.take 8 ++ counter8 (c.drop 8)

/-- n-fold application -/
def iter {α : Type} (f : α → α) : Nat → α → α
  | 0, x => x
  | n + 1, x => iter f n (f x)

/-- Key stream of `aes_ctr_encrypt` from a counter block, `n` blocks. -/
def keyStream (E : List UInt8 → List UInt8) : (n : Nat) → List UInt8 → List UInt8
  | 0, _ => []
  | n + 1, c => E c ++ keyStream E n (counter c)

/-- `aes_ctr_encrypt(in, out, len, iv, counter, ctx)` with a fresh context. -/
def ctr (E : List UInt8 → List UInt8) (c : List UInt8) (data : List UInt8) : List UInt8 :=
  List.zipWith (· ^^^ ·) data (keyStream E ((data.length + 15) / 16) c)

/-- What `encrypt` records for a sample: a `SingleEncryptionBox`. -/
structure Entry where
  iv : List UInt8
  clear : Nat
  prot : Nat
deriving DecidableEq, Repr

/-- Encryption state of a fragment: `_iv` and the samples of `_senc`. -/
structure State where
  iv : List UInt8
  entries : List Entry

/-- `encrypt`, mp4fragmented.h 129-189: (sample as stored, state). -/
def encrypt (E : List UInt8 → List UInt8) (s : State) (body : List UInt8) (clear prot : Nat) : List UInt8 × State :=
  let iv := s.iv.take 8 ++ List.replicate 8 0
  let body := if prot ≠ 0 then body.take clear ++ ctr E iv ((body.drop clear).take prot) ++ body.drop (clear + prot) else body
  (body, { iv := counter8 s.iv, entries := s.entries ++ [⟨iv.take 8, clear, prot⟩] })

/-- The split of a sample, mp4fragmented.h 367-402 (`subSample` = flag 2 of `_senc`, CLEARINITSIZE is 96): (clear, protected). -/
def split (subSample : Bool) (size : Nat) : Nat × Nat :=
  if subSample then
    if 96 + 16 ≥ size then (size, 0) else (96 + size % 16, size - (96 + size % 16))
  else (0, size)

/-- The encryption part of `add_sample`, mp4fragmented.h 365-404. -/
def addSample (E : List UInt8 → List UInt8) (subSample : Bool) (s : State) (body : List UInt8) : List UInt8 × State :=
  encrypt E s body (split subSample body.length).1 (split subSample body.length).2

/-- Samples one after the other. -/
def addAll (E : List UInt8 → List UInt8) (subSample : Bool) (s : State) : List (List UInt8) → List (List UInt8) × State
  | [] => ([], s)
  | b :: bs =>
    let r := addSample E subSample s b
    let rs := addAll E subSample r.2 bs
    (r.1 :: rs.1, rs.2)

/-- `set_encryption`, mp4fragmented.h 282-299: eight random bytes, eight zero bytes. -/
def start (random : List UInt8) : State := ⟨random ++ List.replicate 8 0, []⟩

end Verif.Cenc
