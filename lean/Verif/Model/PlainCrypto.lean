import Verif.Model.FlashCrypto

/-! # Model of `src/PlainCryptoAdapter.cpp` -/

namespace Rtmfp
namespace Plain
open Flash (Res bytesLt)

/-- src/PlainCryptoAdapter.cpp:15-21 `u16_bytes` -/
def u16 (n : Nat) : Bytes := [UInt8.ofNat (n >>> 8), UInt8.ofNat (n &&& 0xff)]

/-- src/PlainCryptoAdapter.cpp:111-114 -/
structure Key where
  txSalt : Nat
  rxSalt : Nat
  complete : Bool
deriving DecidableEq, Repr

/-- src/PlainCryptoAdapter.cpp:25-28; `random` is what `rand` answers. -/
def Key.init (random : Nat) : Key := { txSalt := 0, rxSalt := random % 65536, complete := false }

/-- src/PlainCryptoAdapter.cpp:30-33 -/
def frontMargin : Nat := 16

/-- src/PlainCryptoAdapter.cpp:35-56 `encrypt`; the caller's buffer has 18 more bytes. -/
def Key.encrypt (k : Key) (room : Nat) (src : Bytes) (margin : Nat) : Option Bytes :=
  if margin > src.length then none
  else
    let body := src.drop margin ++ List.replicate 16 0xff
    let cksum := (Checksums.in_cksum body + (if k.complete then k.txSalt else 0)) % 65536
    let out := body ++ u16 cksum
    if room < out.length then none else some out

/-- src/PlainCryptoAdapter.cpp:58-75 `decrypt`: the buffer and its front margin. Simplified: the first 16 bytes of the buffer, which the code leaves as
they are, are zero here. -/
def Key.decrypt (k : Key) (room : Nat) (src : Bytes) : Option (Bytes × Nat) :=
  if src.length < 2 then none
  else if room < src.length + 16 - 2 then none
  else
    let hi := src.getD (src.length - 2) 0
    let lo := src.getD (src.length - 1) 0
    let cksum := (hi.toNat * 256 + lo.toNat + 65536 - (if k.complete then k.rxSalt else 0)) % 65536
    if Checksums.in_cksum (src.take (src.length - 2)) ≠ cksum then none
    else some (List.replicate 16 0 ++ src.take (src.length - 2), 16)

/-- src/PlainCryptoAdapter.cpp:77-80 -/
def Key.nearNonce (k : Key) : Bytes := u16 k.rxSalt
/-- src/PlainCryptoAdapter.cpp:82-85 -/
def Key.farNonce (k : Key) : Bytes := u16 k.txSalt

/-- src/PlainCryptoAdapter.cpp:87-91 `generateInitiatorKeyingComponent` -/
def Key.component (k : Key) : Bytes := u16 k.rxSalt

/-- src/PlainCryptoAdapter.cpp:93-100 `initiatorCombineResponderKeyingComponent` and 102-110 `generateResponderKeyingComponent` (whose component is
`Key.component`, made first). -/
def Key.combine (k : Key) (component : Bytes) : Option Key :=
  match component with
  | hi :: lo :: _ => some { k with txSalt := (hi.toNat * 256 + lo.toNat) % 65536, complete := true }
  | _ => none

/-- src/PlainCryptoAdapter.cpp:174-177 and 126-129 `isSelectedByEPD`, of the adapter and of the certificate, whose bytes are both the identity -/
def isSelected (identity epd : Bytes) : Bool := decide (epd.length = identity.length) && decide (epd = identity)

/-- src/PlainCryptoAdapter.cpp:184-187 `checkNearWinsGlare` -/
def nearWinsGlare (identity farIdentity : Bytes) : Bool := bytesLt identity farIdentity

end Plain
end Rtmfp
