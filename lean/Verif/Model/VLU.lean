import Verif.Base

/-!
# Model of `src/VLU.cpp`

Only calls with a non-null `limit` are modelled: the source pointer and limit become the list of
bytes between them.  A return value of 0 ("could not parse") becomes `none`.
-/

namespace Rtmfp

/-- src/VLU.cpp:17-23, the `do … while(val)` loop of `VLU::encode`.  `acc` is the part
`buf[i .. MAX_VLU_SIZE)` filled so far, so `rv = acc.length`.  The fixed buffer of 10 bytes is a
list here; `C01_vlu_encode_size` shows it is never overrun. `fuel` bounds the number of rounds; `val + 1` is always enough
(`encode_eq`). -/
def VLU.encodeLoop : (fuel val : Nat) → (acc : Bytes) → Bytes
  | 0, _, acc => acc
  | fuel + 1, val, acc =>
    let b : UInt8 := UInt8.ofNat (val &&& 0x7f) ||| (if acc.length ≠ 0 then 0x80 else 0)
    if val >>> 7 = 0 then b :: acc else VLU.encodeLoop fuel (val >>> 7) (b :: acc)

/-- src/VLU.cpp:11-29 `VLU::encode`: the bytes copied to `dst` (`rv` is the length). -/
def VLU.encode (val : Nat) : Bytes := VLU.encodeLoop (val + 1) val []

/-- src/VLU.cpp:31-36 `VLU::append`. -/
def VLU.append (val : Nat) (dst : Bytes) : Bytes := dst ++ VLU.encode val

/-- src/VLU.cpp:45-55, the loop of `VLU::parse` together with the tests after it (57-66). The list
is `[src, limit)`; `rv` counts the bytes consumed.  `none` is `return 0`. -/
def VLU.parseLoop (saturate : Bool) (value rv : Nat) (saturated : Bool) : Bytes → Option (Nat × Nat)
  | [] => none
  | b :: rest =>
    let saturated := saturated || decide (value > U64MAX >>> 7)
    let value := ((value <<< 7) % W64 + (b &&& 0x7f).toNat) % W64
    if b &&& 0x80 = 0 then
      some (if saturated && saturate then U64MAX else value, rv + 1)
    else VLU.parseLoop saturate value (rv + 1) saturated rest

/-- src/VLU.cpp:38-67 `VLU::parse` with a limit: the value and the number of bytes consumed. -/
def VLU.parse (src : Bytes) (saturate : Bool := true) : Option (Nat × Nat) :=
  VLU.parseLoop saturate 0 0 false src

/-- src/VLU.cpp:69-88 `VLU::parseField` with a limit: the payload and the number of bytes
consumed (`rv + fieldLength`). -/
def VLU.parseField (src : Bytes) : Option (Bytes × Nat) :=
  match VLU.parse src with
  | none => none
  | some (fieldLength, rv) =>
    let cursor := src.drop rv
    if fieldLength > cursor.length then none
    else some (cursor.take fieldLength, rv + fieldLength)

/-- What `Option::parse` reports: the type and, unless the option is an empty field (a marker), the
value.  `value = none` is the null pointer of a marker. -/
structure OptItem where
  type : Nat
  value : Option Bytes
deriving DecidableEq, Repr

/-- src/VLU.cpp:90-120 `Option::parse` with a limit. -/
def Opt.parse (src : Bytes) : Option (OptItem × Nat) :=
  match VLU.parseField src with
  | none => none
  | some (fieldPayload, fieldConsumed) =>
    if fieldPayload.length = 0 then some (⟨0, none⟩, fieldConsumed)
    else
      match VLU.parse fieldPayload with
      | none => none
      | some (optionType, rv) => some (⟨optionType, some (fieldPayload.drop rv)⟩, fieldConsumed)

/-- src/VLU.cpp:122-134 `Option::append(type, value, valueLen, dst)`. -/
def Opt.append (type : Nat) (value : Bytes) (dst : Bytes) : Bytes :=
  let typeVLU := VLU.encode type
  let lenVLU := VLU.encode ((typeVLU.length + value.length) % W64)
  dst ++ lenVLU ++ typeVLU ++ value

/-- src/VLU.cpp:141-146 `Option::append(type, uintmax_t value, dst)`. -/
def Opt.appendVLU (type : Nat) (value : Nat) (dst : Bytes) : Bytes :=
  Opt.append type (VLU.encode value) dst

/-- src/VLU.cpp:148-151 `Option::append(type, dst)`: a bare type. -/
def Opt.appendType (type : Nat) (dst : Bytes) : Bytes := Opt.append type [] dst

/-- src/VLU.cpp:153-156 `Option::append(dst)`: a marker. -/
def Opt.appendMarker (dst : Bytes) : Bytes := VLU.append 0 dst

/-- The loop by which callers scan an option list up to a limit, e.g. src/FlashCryptoAdapter.cpp:476-506
and src/Media.cpp:97-104: parse options until the bytes run out; fail if one does not parse.
Simplified: collects the options instead of dispatching on the type. Each round consumes at least
one byte; the recursion is on the number of bytes left. -/
def Opt.parseAll (fuel : Nat) (src : Bytes) : Option (List OptItem) :=
  match fuel, src with
  | _, [] => some []
  | 0, _ => none
  | fuel + 1, src =>
    match Opt.parse src with
    | none => none
    | some (o, n) => (Opt.parseAll fuel (src.drop n)).map (o :: ·)

/-- src/Session.cpp:1920-1955 (`onUserDataChunk`) and src/Media.cpp:405-416: option lists ended by a
marker.  Parse options until the marker; answer the options and the rest after the marker. -/
def Opt.parseUntilMarker (fuel : Nat) (src : Bytes) : Option (List OptItem × Bytes) :=
  match fuel with
  | 0 => none
  | fuel + 1 =>
    match Opt.parse src with
    | none => none
    | some (o, n) =>
      match o.value with
      | none => some ([], src.drop n)
      | some _ => (Opt.parseUntilMarker fuel (src.drop n)).map (fun r => (o :: r.1, r.2))

end Rtmfp
