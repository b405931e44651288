import Verif.Model.AMF
/-! # The text of AMF0 values: `repr` and `toJSON` of src/AMF.cpp

`toJSON(indent)` and `repr(indent)` are the same functions with a flag. Text is bytes. Simplified: a finite `double` is its sign and the exact fraction it
stands for, and arithmetic on fractions is exact (multiplying a remainder by ten can round in the code). What `log10l` and `powl` yield is a parameter. -/
namespace Rtmfp
namespace Json
open AMF

/-- a `double`: not a number, infinite, or finite: `num / den` -/
inductive Dbl where
  | nan
  | inf (neg : Bool)
  | fin (neg : Bool) (num den : Nat)
  deriving DecidableEq

/-- the `double` with these bits (IEEE 754 binary64; the union of AMF.cpp:401-404) -/
def ofBits (b : UInt64) : Dbl :=
  let neg := decide (b.toNat / 2 ^ 63 = 1)
  let e := b.toNat / 2 ^ 52 % 2 ^ 11
  let m := b.toNat % 2 ^ 52
  if e = 2047 then (if m = 0 then .inf neg else .nan)
  else if e = 0 then .fin neg m (2 ^ 1074)
  else if 1075 ≤ e then .fin neg ((2 ^ 52 + m) * 2 ^ (e - 1075)) 1
  else .fin neg (2 ^ 52 + m) (2 ^ (1075 - e))

/-- bytes of a text -/
def ascii (s : String) : Bytes := s.toList.map (fun c => UInt8.ofNat c.toNat)

/-- `'0' + digit` -/
def digitChar (d : Nat) : UInt8 := UInt8.ofNat (0x30 + d)

/-- AMF.cpp:28-32: the loop of `toBase10`; there is room for `room` characters, `acc` is what was put so far -/
def toBase10Loop : (room : Nat) → (remaining : Nat) → (acc : Bytes) → Bytes
  | 0, _, acc => acc
  | room + 1, remaining, acc =>
    if remaining / 10 ≠ 0 ∧ 0 < room then toBase10Loop room (remaining / 10) (digitChar (remaining % 10) :: acc) else digitChar (remaining % 10) :: acc

/-- AMF.cpp:20-35 `toBase10`: 40 characters with the terminator -/
def toBase10 (v : Nat) : Bytes := toBase10Loop 39 v []

/-- AMF.cpp:54-65: the loop of `fractionToBase10NoTrailingZeros`. The remainder is `r / q`; `error_M` is `e / (2 * 10^n)`. Yields the digits put, the last digit before rounding and
the last remainder; `none`: not ended after `fuel` rounds (never: `fracLoop_ends`). -/
def fracLoop (q n : Nat) : (fuel : Nat) → (r e : Nat) → Option (Bytes × Nat × Nat)
  | 0, _, _ => none
  | fuel + 1, r, e =>
    let digit := 10 * r / q
    let r := 10 * r % q
    let e := 10 * e
    if r * (2 * 10 ^ n) < e * q ∨ (q - r) * (2 * 10 ^ n) < e * q then some ([], digit, r)
    else (fracLoop q n fuel r e).map (fun x => (digitChar digit :: x.1, x.2))

/-- AMF.cpp:37-75 `fractionToBase10NoTrailingZeros` of the fraction `p / q`; the caller's fraction is less than one (lines 50-52 have no effect). `none`: not ended
after `fuel` calls (never: `fraction_ends`). -/
def fraction (p q : Nat) : (fuel : Nat) → (n : Nat) → Option Bytes
  | 0, _ => none
  | fuel + 1, n =>
    (fracLoop q n (n + 3) p 1).bind fun x =>
      let digit := if q ≤ 2 * x.2.2 then x.2.1 + 1 else x.2.1
      if digit > 9 then fraction p q fuel (n + 1) else some (x.1 ++ [digitChar digit])

/-- `DBL_DIG` -/
def DBL_DIG : Nat := 15

/-- AMF.cpp:119-127: `bonusDigits` of `p / q`; the constants are the `double`s nearest to 0.1, 0.01 and 0.001 -/
def bonusDigits (p q : Nat) : Nat :=
  1 + (if p < q then 1 else 0) + (if p * 2 ^ 55 < 3602879701896397 * q then 1 else 0) + (if p * 2 ^ 59 < 5764607523034235 * q then 1 else 0) +
    (if p * 2 ^ 60 < 1152921504606847 * q then 1 else 0)

/-- AMF.cpp:110-132: a number less than 2^64, without sign and exponent -/
def fixed (p q : Nat) : Option Bytes :=
  let digits := toBase10 (p / q)
  if p % q ≠ 0 then
    (fraction (p % q) q (q + 1) (bonusDigits p q + DBL_DIG - min DBL_DIG digits.length)).map (fun f => digits ++ ascii "." ++ f)
  else some digits

/-- AMF.cpp:92: the test for the notation with exponent; 0.0001 as `double` -/
def needsExponent (p q : Nat) : Bool := decide (2 ^ 64 * q ≤ p) || (decide (0 < p) && decide (p * 2 ^ 66 < 7378697629483821 * q))

/-- What AMF.cpp:96-104 computes of a number with floating point logarithms and powers: `shifted` as a fraction and `exponent` -/
abbrev Shift := Nat → Nat → (Nat × Nat) × Int

/-- AMF.cpp:81-135 `dtoa`; `none`: not ended after `fuel` calls (never: `dtoa_ends`), it always answers true -/
def dtoa (shift : Shift) (json : Bool) : (fuel : Nat) → Dbl → Option Bytes
  | 0, _ => none
  | _ + 1, .nan => some (if json then ascii "null" else ascii "nan")
  | fuel + 1, .inf true => (dtoa shift json fuel (.inf false)).map (ascii "-" ++ ·)
  | _ + 1, .inf false => some (if json then ascii "1e5000" else ascii "inf")
  | fuel + 1, .fin true p q => (dtoa shift json fuel (.fin false p q)).map (ascii "-" ++ ·)
  | fuel + 1, .fin false p q =>
    if needsExponent p q then
      let x := shift p q
      (dtoa shift json fuel (.fin false x.1.1 x.1.2)).bind fun a => (dtoa shift json fuel (.fin (decide (x.2 < 0)) x.2.natAbs 1)).map fun b => a ++ ascii "e" ++ b
    else fixed p q

/-- AMF.cpp:170: `hexdigits` -/
def hexDigit (n : Nat) : UInt8 := (ascii "0123456789ABCDEF").getD n 0

/-- AMF.cpp:148-174: what is put for one byte of a string -/
def escape (b : UInt8) : Bytes :=
  if b = 0x5c ∨ b = 0x22 then [0x5c, b]
  else if b = 0x08 then ascii "\\b"
  else if b = 0x0c then ascii "\\f"
  else if b = 0x0a then ascii "\\n"
  else if b = 0x0d then ascii "\\r"
  else if b = 0x09 then ascii "\\t"
  else if b < 0x20 ∨ b = 0x7f then ascii "\\u00" ++ [hexDigit (b.toNat / 16 % 16), hexDigit (b.toNat % 16)]
  else [b]

/-- AMF.cpp:138-178 `jsonString` -/
def jsonString (s : Bytes) : Bytes := ascii "\"" ++ (s.map escape).flatten ++ ascii "\""

/-- AMF.cpp:13-18 `_indent` -/
def indentation (indent depth : Nat) : Bytes := (if indent ≠ 0 then ascii "\n" else []) ++ List.replicate (depth * indent) 0x20

/-- `isUndefined`, or no value: AMF.cpp:619 -/
def omitted : Val → Bool
  | .nullptr => true
  | .undef => true
  | _ => false

mutual
/-- `repr` with an indent and `asJson`: AMF.cpp:395, 454, 483-486, 600-605, 703-715, 768, 785, 868-883. A missing element of an array prints as undefined (861-866). Numbers are
printed by `number` (`dtoa` with `asJson`). Simplified: an array of 2^32 elements or more would be printed forever. -/
def repr (number : UInt64 → Bytes) (indent : Nat) (json : Bool) (depth : Nat) : Val → Bytes
  | .nullptr => if json then ascii "null" else ascii "undefined"
  | .num b => number b
  | .bool b => if b then ascii "true" else ascii "false"
  | .str s => jsonString s
  | .obj m => ascii "{" ++ reprMembers number indent json depth true m ++ ascii "}"
  | .null => ascii "null"
  | .undef => if json then ascii "null" else ascii "undefined"
  | .ecma m => ascii "{" ++ reprMembers number indent json depth true m ++ ascii "}"
  | .arr l => ascii "[" ++ reprElements number indent json depth true l ++ ascii "]"
  | .typed n m =>
    if json then ascii "{" ++ reprMembers number indent json depth true m ++ ascii "}"
    else ascii "<" ++ jsonString n ++ ascii ":{" ++ reprMembers number indent json depth true m ++ ascii "}>"
/-- AMF.cpp:613-638 `reprMembers`: the loop, with `isFirst` -/
def reprMembers (number : UInt64 → Bytes) (indent : Nat) (json : Bool) (depth : Nat) : (isFirst : Bool) → Mem → Bytes
  | isFirst, .nil => if isFirst then [] else indentation indent depth
  | isFirst, .cons k v m =>
    if json = false ∨ omitted v = false then
      (if isFirst then [] else ascii ",") ++ indentation indent (depth + 1) ++ jsonString k ++ ascii ":" ++ (if indent ≠ 0 then ascii " " else []) ++
        repr number indent json (depth + 1) v ++ reprMembers number indent json depth false m
    else reprMembers number indent json depth isFirst m
/-- AMF.cpp:871-881: the loop of `AMF0Array::repr` -/
def reprElements (number : UInt64 → Bytes) (indent : Nat) (json : Bool) (depth : Nat) : (isFirst : Bool) → Vals → Bytes
  | isFirst, .nil => if isFirst then [] else indentation indent depth
  | isFirst, .cons v l =>
    (if isFirst then [] else ascii ",") ++ indentation indent (depth + 1) ++ repr number indent json (depth + 1) v ++ reprElements number indent json depth false l
end

/-- a number printed; `dtoa` always ends (`dtoa_ends`) -/
def number (shift : Shift) (json : Bool) (b : UInt64) : Bytes := (dtoa shift json 4 (ofBits b)).getD []

/-- AMF.cpp:370-375 `toJSON` -/
def toJSON (shift : Shift) (indent : Nat) (v : Val) : Bytes := repr (number shift true) indent true 0 v

/-- AMF.cpp:358-363 `repr` -/
def reprText (shift : Shift) (indent : Nat) (v : Val) : Bytes := repr (number shift false) indent false 0 v

end Json
end Rtmfp
