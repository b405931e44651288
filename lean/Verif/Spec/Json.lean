import Verif.Base
/-! # A reader of JSON

RFC 8259 on UTF-8 text, written without regard to the code it is used to judge. Bytes from 0x80 in strings are passed on as they are. -/
namespace Rtmfp
namespace JsonSpec

/-- JSON values. A number is `± digits / 10^scale * 10^exp`. -/
inductive JVal where
  | null
  | bool (b : Bool)
  | num (neg : Bool) (digits scale : Nat) (exp : Int)
  | str (s : Bytes)
  | arr (l : List JVal)
  | obj (m : List (Bytes × JVal))

/-- white space: space, tab, line feed, carriage return -/
def isWs (b : UInt8) : Bool := b == 0x20 || b == 0x09 || b == 0x0a || b == 0x0d

def skip (t : Bytes) : Bytes := t.dropWhile isWs

def isDigit (b : UInt8) : Bool := decide (0x30 ≤ b) && decide (b ≤ 0x39)

/-- the number that digits stand for -/
def digitsValue (d : Bytes) : Nat := d.foldl (fun n b => 10 * n + (b.toNat - 0x30)) 0

/-- digits in front, and what follows -/
def digits (t : Bytes) : Bytes × Bytes := (t.takeWhile isDigit, t.dropWhile isDigit)

/-- at least one digit -/
def digits1 (t : Bytes) : Option (Bytes × Bytes) := if (digits t).1 = [] then none else some (digits t)

/-- `int`: zero, or digits that don't begin with zero -/
def intPart (t : Bytes) : Option (Bytes × Bytes) :=
  match t with
  | 0x30 :: r => some ([0x30], r)
  | _ => digits1 t

/-- `frac`, if there is one -/
def fracPart (t : Bytes) : Option (Bytes × Bytes) :=
  match t with
  | 0x2e :: r => digits1 r
  | _ => some ([], t)

/-- the digits of `exp` with a sign -/
def expDigits (t : Bytes) : Option (Int × Bytes) :=
  match t with
  | 0x2d :: r => (digits1 r).map (fun x => (-(digitsValue x.1 : Int), x.2))
  | 0x2b :: r => (digits1 r).map (fun x => ((digitsValue x.1 : Int), x.2))
  | _ => (digits1 t).map (fun x => ((digitsValue x.1 : Int), x.2))

/-- `exp`, if there is one -/
def expPart (t : Bytes) : Option (Int × Bytes) :=
  match t with
  | 0x65 :: r => expDigits r
  | 0x45 :: r => expDigits r
  | _ => some (0, t)

/-- a number without its sign -/
def unsigned (neg : Bool) (t : Bytes) : Option (JVal × Bytes) :=
  (intPart t).bind fun i => (fracPart i.2).bind fun f => (expPart f.2).map fun e => (.num neg (digitsValue (i.1 ++ f.1)) f.1.length e.1, e.2)

def number (t : Bytes) : Option (JVal × Bytes) :=
  match t with
  | 0x2d :: r => unsigned true r
  | _ => unsigned false t

/-- a hexadecimal digit, either case -/
def hexVal (b : UInt8) : Option Nat :=
  if 0x30 ≤ b ∧ b ≤ 0x39 then some (b.toNat - 0x30)
  else if 0x41 ≤ b ∧ b ≤ 0x46 then some (b.toNat - 0x41 + 10)
  else if 0x61 ≤ b ∧ b ≤ 0x66 then some (b.toNat - 0x61 + 10)
  else none

/-- four hexadecimal digits -/
def hex4 : Bytes → Option (Nat × Bytes)
  | a :: b :: c :: d :: r => (hexVal a).bind fun a => (hexVal b).bind fun b => (hexVal c).bind fun c => (hexVal d).map fun d => (((a * 16 + b) * 16 + c) * 16 + d, r)
  | _ => none

/-- UTF-8 of a code point -/
def utf8 (c : Nat) : Bytes :=
  if c < 0x80 then [UInt8.ofNat c]
  else if c < 0x800 then [UInt8.ofNat (0xc0 + c / 64), UInt8.ofNat (0x80 + c % 64)]
  else if c < 0x10000 then [UInt8.ofNat (0xe0 + c / 4096), UInt8.ofNat (0x80 + c / 64 % 64), UInt8.ofNat (0x80 + c % 64)]
  else [UInt8.ofNat (0xf0 + c / 262144), UInt8.ofNat (0x80 + c / 4096 % 64), UInt8.ofNat (0x80 + c / 64 % 64), UInt8.ofNat (0x80 + c % 64)]

/-- after `\u`: a character, or two surrogates that stand for one -/
def unicode (t : Bytes) : Option (Bytes × Bytes) :=
  (hex4 t).bind fun x =>
    if 0xd800 ≤ x.1 ∧ x.1 < 0xdc00 then
      match x.2 with
      | 0x5c :: 0x75 :: r => (hex4 r).bind fun y => if 0xdc00 ≤ y.1 ∧ y.1 < 0xe000 then some (utf8 (0x10000 + (x.1 - 0xd800) * 1024 + (y.1 - 0xdc00)), y.2) else none
      | _ => none
    else if 0xdc00 ≤ x.1 ∧ x.1 < 0xe000 then none
    else some (utf8 x.1, x.2)

/-- after a backslash -/
def escaped (t : Bytes) : Option (Bytes × Bytes) :=
  match t with
  | 0x22 :: r => some ([0x22], r)
  | 0x5c :: r => some ([0x5c], r)
  | 0x2f :: r => some ([0x2f], r)
  | 0x62 :: r => some ([0x08], r)
  | 0x66 :: r => some ([0x0c], r)
  | 0x6e :: r => some ([0x0a], r)
  | 0x72 :: r => some ([0x0d], r)
  | 0x74 :: r => some ([0x09], r)
  | 0x75 :: r => unicode r
  | _ => none

/-- a string from behind its opening quote -/
def string : (fuel : Nat) → Bytes → Option (Bytes × Bytes)
  | 0, _ => none
  | _ + 1, [] => none
  | fuel + 1, b :: r =>
    if b = 0x22 then some ([], r)
    else if b = 0x5c then (escaped r).bind fun x => (string fuel x.2).map fun y => (x.1 ++ y.1, y.2)
    else if b < 0x20 then none
    else (string fuel r).map fun y => (b :: y.1, y.2)

mutual
/-- a value -/
def value : (fuel : Nat) → Bytes → Option (JVal × Bytes)
  | 0, _ => none
  | fuel + 1, t =>
    match t with
    | 0x6e :: r => match r with | 0x75 :: 0x6c :: 0x6c :: r => some (.null, r) | _ => none
    | 0x74 :: r => match r with | 0x72 :: 0x75 :: 0x65 :: r => some (.bool true, r) | _ => none
    | 0x66 :: r => match r with | 0x61 :: 0x6c :: 0x73 :: 0x65 :: r => some (.bool false, r) | _ => none
    | 0x22 :: r => (string (r.length + 1) r).map fun x => (.str x.1, x.2)
    | 0x5b :: r => match skip r with | 0x5d :: r => some (.arr [], r) | r => (elements fuel r).map fun x => (.arr x.1, x.2)
    | 0x7b :: r => match skip r with | 0x7d :: r => some (.obj [], r) | r => (members fuel r).map fun x => (.obj x.1, x.2)
    | _ => number t
/-- values with commas between, and the closing bracket -/
def elements : (fuel : Nat) → Bytes → Option (List JVal × Bytes)
  | 0, _ => none
  | fuel + 1, t => (value fuel t).bind fun v =>
    match skip v.2 with
    | 0x5d :: r => some ([v.1], r)
    | 0x2c :: r => (elements fuel (skip r)).map fun x => (v.1 :: x.1, x.2)
    | _ => none
/-- a key, a colon and a value -/
def member : (fuel : Nat) → Bytes → Option ((Bytes × JVal) × Bytes)
  | 0, _ => none
  | fuel + 1, t =>
    match t with
    | 0x22 :: r => (string (r.length + 1) r).bind fun k =>
      match skip k.2 with
      | 0x3a :: r => (value fuel (skip r)).map fun v => ((k.1, v.1), v.2)
      | _ => none
    | _ => none
/-- members with commas between, and the closing brace -/
def members : (fuel : Nat) → Bytes → Option (List (Bytes × JVal) × Bytes)
  | 0, _ => none
  | fuel + 1, t => (member fuel t).bind fun v =>
    match skip v.2 with
    | 0x7d :: r => some ([v.1], r)
    | 0x2c :: r => (members fuel (skip r)).map fun x => (v.1 :: x.1, x.2)
    | _ => none
end

/-- A JSON text: one value, white space around it. Three rounds for each byte are always enough. -/
def read (t : Bytes) : Option JVal :=
  (value (3 * t.length + 3) (skip t)).bind fun x => if skip x.2 = [] then some x.1 else none

end JsonSpec
end Rtmfp
