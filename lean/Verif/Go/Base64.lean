import Verif.Go.Core
/-!
# encoding/base64 (`RawURLEncoding`) and encoding/hex

Concrete models of the two standard library codecs used by bls/bls.go. `RawURLEncoding` is the URL-safe
alphabet without padding, not strict: unused low bits of the last character are ignored, and `\r`, `\n`
are skipped when decoding.
-/

namespace Dusk.Base64

/-- The URL-safe alphabet: `A-Z a-z 0-9 - _`. -/
def digit (s : Nat) : UInt8 :=
  if s < 26 then UInt8.ofNat (65 + s)
  else if s < 52 then UInt8.ofNat (97 + (s - 26))
  else if s < 62 then UInt8.ofNat (48 + (s - 52))
  else if s = 62 then 45
  else 95

/-- Value of a character of the alphabet (`enc.decodeMap`). -/
def value (c : UInt8) : Option Nat :=
  let n := c.toNat
  if 65 ≤ n ∧ n ≤ 90 then some (n - 65)
  else if 97 ≤ n ∧ n ≤ 122 then some (n - 97 + 26)
  else if 48 ≤ n ∧ n ≤ 57 then some (n - 48 + 52)
  else if n = 45 then some 62
  else if n = 95 then some 63
  else none

/-- `Encoding.Encode` for `RawURLEncoding`: three bytes become four characters; a last group of one or two
bytes becomes two or three characters. -/
def encode : List UInt8 → List UInt8
  | a :: b :: c :: rest =>
    let v := a.toNat * 65536 + b.toNat * 256 + c.toNat
    digit (v / 262144 % 64) :: digit (v / 4096 % 64) :: digit (v / 64 % 64) :: digit (v % 64) :: encode rest
  | [a, b] =>
    let v := a.toNat * 65536 + b.toNat * 256
    [digit (v / 262144 % 64), digit (v / 4096 % 64), digit (v / 64 % 64)]
  | [a] =>
    let v := a.toNat * 65536
    [digit (v / 262144 % 64), digit (v / 4096 % 64)]
  | [] => []

/-- `decodeQuantum` on the values of the significant characters: four values give three bytes, three give
two, two give one; a single left-over character is a `CorruptInputError`. -/
def assemble : List Nat → Option (List UInt8)
  | w :: x :: y :: z :: rest =>
    let v := w * 262144 + x * 4096 + y * 64 + z
    (assemble rest).map fun t =>
      UInt8.ofNat (v / 65536) :: UInt8.ofNat (v / 256) :: UInt8.ofNat v :: t
  | [w, x, y] =>
    let v := w * 262144 + x * 4096 + y * 64
    some [UInt8.ofNat (v / 65536), UInt8.ofNat (v / 256)]
  | [w, x] =>
    let v := w * 262144 + x * 4096
    some [UInt8.ofNat (v / 65536)]
  | [_] => none
  | [] => some []

/-- The values of the characters, skipping `\n` and `\r`; `none` if another character is not in the
alphabet. -/
def values : List UInt8 → Option (List Nat)
  | [] => some []
  | c :: cs =>
    if c = 10 ∨ c = 13 then values cs
    else
      match value c with
      | none => none
      | some v => (values cs).map (v :: ·)

/-- `Encoding.Decode` for `RawURLEncoding`; on failure the error is `CorruptInputError`. -/
def decode (b : List UInt8) : Res (List UInt8) :=
  match (values b).bind assemble with
  | some r => .ok r
  | none => .err "illegal base64 data"

end Dusk.Base64

namespace Dusk.Hex

/-- `fromHexChar` of encoding/hex. -/
def value (c : Char) : Option Nat :=
  let n := c.toNat
  if 48 ≤ n ∧ n ≤ 57 then some (n - 48)
  else if 97 ≤ n ∧ n ≤ 102 then some (n - 97 + 10)
  else if 65 ≤ n ∧ n ≤ 70 then some (n - 65 + 10)
  else none

/-- `hex.DecodeString` on the characters of the string. -/
def decode : List Char → Option (List UInt8)
  | a :: b :: rest =>
    match value a, value b, decode rest with
    | some x, some y, some t => some (UInt8.ofNat (x * 16 + y) :: t)
    | _, _, _ => none
  | [_] => none
  | [] => some []

end Dusk.Hex
