import Verif.Base

/-!
# Model of `src/Hex.cpp`

A C string is the list of its characters before the terminating NUL (bytes; none of them is 0). `isspace` is that of the "C" locale.
`Hex::print` and `Hex::dump` (output only) are not modelled.
-/

namespace Rtmfp
namespace Hex

/-- src/Hex.cpp:79 `_digits` -/
def digits : List UInt8 := [0x30, 0x31, 0x32, 0x33, 0x34, 0x35, 0x36, 0x37, 0x38, 0x39, 0x61, 0x62, 0x63, 0x64, 0x65, 0x66]

/-- src/Hex.cpp:87-93: the loop of `encode`. -/
def encode : Bytes → Bytes
  | [] => []
  | b :: rest => digits.getD (b >>> 4).toNat 0 :: digits.getD (b &&& 0x0f).toNat 0 :: encode rest

/-- `isspace` in the "C" locale -/
def isspace (d : UInt8) : Bool := d == 0x20 || (decide (0x09 ≤ d) && decide (d ≤ 0x0d))

/-- src/Hex.cpp:138-149 `decodeDigit`. -/
def decodeDigit (d : UInt8) : Int :=
  if 0x30 ≤ d ∧ d ≤ 0x39 then (d.toNat : Int) - 0x30
  else if 0x61 ≤ d ∧ d ≤ 0x66 then (d.toNat : Int) - 0x61 + 0x0a
  else if 0x41 ≤ d ∧ d ≤ 0x46 then (d.toNat : Int) - 0x41 + 0x0a
  else if isspace d then -1
  else -2

/-- src/Hex.cpp:110-129: the loop of `decode` and the tests after it; `none` is `goto fail`, otherwise the bytes pushed to `dst`. -/
def decodeLoop (val : UInt8) (onFirstDigit : Bool) : Bytes → Option Bytes
  | [] => if onFirstDigit then some [] else none
  | d :: rest =>
    let digit := decodeDigit d
    if digit < 0 then
      if digit < -1 ∨ onFirstDigit = false then none else decodeLoop val onFirstDigit rest
    else
      let val := (val <<< 4) + UInt8.ofNat digit.toNat
      if onFirstDigit then decodeLoop val false rest
      else (decodeLoop 0 true rest).map (val :: ·)

/-- src/Hex.cpp:102-136 `decode`: the contents of `dst` afterwards and the answer. -/
def decode (hex : Bytes) (dst : Bytes) : Bytes × Bool :=
  match decodeLoop 0 true hex with
  | some bs => (dst ++ bs, true)
  | none => (dst, false)

/-- src/Hex.cpp:151-162 `decodeByte`: the first two characters; a string shorter than two ends with the NUL (digit −2). `none` is −1. -/
def decodeByte (hex : Bytes) : Option Nat :=
  let d1 := decodeDigit (hex.getD 0 0)
  if d1 ≥ 0 then
    let d2 := decodeDigit (hex.getD 1 0)
    if d2 ≥ 0 then some ((d1.toNat <<< 4) + d2.toNat) else none
  else none

end Hex
end Rtmfp
