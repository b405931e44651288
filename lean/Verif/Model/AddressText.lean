import Verif.Model.Address

/-!
# Model of the presentation functions of `src/Address.cpp`

Text is bytes up to the terminator. `inet_ntop` and `inet_pton` are parameters (`Net`); `sscanf` and `snprintf` are modelled as far as the four formats
go. A number that doesn't fit an `int` is undefined in the standard; modelled is what glibc does (the nearest `long`, of which `setPort` keeps 16 bits).
-/

namespace Rtmfp
namespace AddressText
open Address

/-- <arpa/inet.h> `inet_ntop` of an address of a family, and `inet_pton` -/
structure Net where
  ntop : Nat → Bytes → Bytes
  pton : Nat → Bytes → Option Bytes

/-- `%u`: the decimal digits of a number (`fuel` of them at most; 20 are enough for 64 bits) -/
def digits : (fuel : Nat) → Nat → Bytes
  | 0, _ => []
  | fuel + 1, n => if n < 10 then [UInt8.ofNat (48 + n)] else digits fuel (n / 10) ++ [UInt8.ofNat (48 + n % 10)]

/-- src/Address.cpp:312-331 `toPresentation`: `snprintf` writes at most MAX_PRESENTATION_LENGTH - 1 bytes (include/rtmfp/Address.hpp:74). An address without a
family has no text (`inet_ntop` fails). -/
def toText (n : Net) (a : Address) (withPort : Bool) : Bytes :=
  if a.family ≠ AF_INET ∧ a.family ≠ AF_INET6 then []
  else
    let buf := n.ntop a.family (getIP a)
    (if ¬ withPort then buf
     else if a.family = AF_INET then buf ++ [0x3a] ++ digits 20 (getPort a)
     else [0x5b] ++ buf ++ [0x5d, 0x3a] ++ digits 20 (getPort a)).take 53

/-- src/Address.cpp:333-341 `_count_colons` -/
def colons (src : Bytes) : Nat := src.count 0x3a

/-- `isspace` in the C locale -/
def isSpace (b : UInt8) : Bool := b == 0x20 || (decide (0x09 ≤ b) && decide (b ≤ 0x0d))

/-- `[0-9]` -/
def isDigit (b : UInt8) : Bool := decide (0x30 ≤ b) && decide (b ≤ 0x39)

/-- `[0-9a-fA-F:.]` -/
def isText6 (b : UInt8) : Bool := isDigit b || (decide (0x61 ≤ b) && decide (b ≤ 0x66)) || (decide (0x41 ≤ b) && decide (b ≤ 0x46)) || b == 0x3a || b == 0x2e

/-- `[0-9.]` -/
def isText4 (b : UInt8) : Bool := isDigit b || b == 0x2e

/-- `%45[...]`: as many bytes of the set as there are, up to 45, at least one; what was read and what is left -/
def scanSet (p : UInt8 → Bool) (src : Bytes) : Option (Bytes × Bytes) :=
  let t := (src.take 45).takeWhile p
  if t = [] then none else some (t, src.drop t.length)

/-- the value of digits -/
def value (ds : Bytes) : Nat := ds.foldl (fun n d => 10 * n + (d.toNat - 48)) 0

/-- `%d`: white space, a sign, digits; what follows is not looked at -/
def scanInt (src : Bytes) : Option Int :=
  let s := src.dropWhile isSpace
  let r : Bool × Bytes := match s with
    | 0x2d :: r => (true, r)
    | 0x2b :: r => (false, r)
    | _ => (false, s)
  let ds := r.2.takeWhile isDigit
  if ds = [] then none else some (if r.1 then -(value ds : Int) else value ds)

/-- src/Address.cpp:355 `"[%45[0-9a-fA-F:.]]:%d"`: both, or not 2 -/
def scan6 : Bytes → Option (Bytes × Int)
  | 0x5b :: src =>
    match scanSet isText6 src with
    | some (ip, 0x5d :: 0x3a :: rest) => (scanInt rest).map (fun v => (ip, v))
    | _ => none
  | _ => none

/-- src/Address.cpp:360 `"%45[0-9.]:%d"`: both, or not 2 -/
def scan4 (src : Bytes) : Option (Bytes × Int) :=
  match scanSet isText4 src with
  | some (ip, 0x3a :: rest) => (scanInt rest).map (fun v => (ip, v))
  | _ => none

/-- src/Address.cpp:354-362 with a port: in brackets, or else, unless it is to be IPv6, without -/
def scanPort (family : Nat) (src : Bytes) : Option (Bytes × Int) :=
  match scan6 src with
  | some r => some r
  | none => if family = AF_INET6 then none else scan4 src

/-- src/Address.cpp:366 `"[%45[^]]]"` -/
def bracketed : Bytes → Option Bytes
  | 0x5b :: r => (scanSet (fun b => b != 0x5d) r).map Prod.fst
  | _ => none

/-- src/Address.cpp:366 `"[%45[^]]]"` or `"%45s"` -/
def scanBare (src : Bytes) : Option Bytes :=
  match bracketed src with
  | some ip => some ip
  | none => (scanSet (fun b => !isSpace b) (src.dropWhile isSpace)).map Prod.fst

/-- what `setPort` keeps of a number that `%d` read -/
def toPort (v : Int) : Nat := ((max (-(2 ^ 63)) (min v (2 ^ 63 - 1))) % 65536).toNat

/-- src/Address.cpp:343-380 `setFromPresentation` -/
def fromText (n : Net) (a : Address) (src : Bytes) (withPort : Bool) : Address × Bool :=
  let family := if colons src > 1 then AF_INET6 else AF_INET
  let scanned : Option (Bytes × Int) :=
    if withPort then scanPort family src
    else (scanBare src).map (fun ip => (ip, 0))
  match scanned with
  | none => (a, false)
  | some (ip, port) =>
    match n.pton family ip with
    | none => (a, false)
    | some ipaddr =>
      let b := (setIP a ipaddr).1
      (if withPort then setPort b (toPort port) else b, true)

end AddressText
end Rtmfp
