import Verif.Model.VLU

/-! # Model of `src/TCMessage.cpp` (timestamps, metadata and message headers) and of the user control messages of
`src/FlowSyncManager.cpp` and `src/TCConnection.cpp`

`uint32_t` values are natural numbers below 2^32; out-parameters are results. The `command` functions (which only
concatenate AMF0 encodings) are in the model of AMF0. -/

namespace Rtmfp
namespace TC

/-- the four `push_back((v >> 24) & 0xff)` … `push_back(v & 0xff)` of src/TCMessage.cpp:276-279 and
src/FlowSyncManager.cpp:60-68 -/
def put32 (v : Nat) : Bytes :=
  [UInt8.ofNat ((v >>> 24) &&& 0xff), UInt8.ofNat ((v >>> 16) &&& 0xff), UInt8.ofNat ((v >>> 8) &&& 0xff), UInt8.ofNat (v &&& 0xff)]

/-! ## timestamps -/

/-- src/TCMessage.cpp:183-186 `Message::timestamp_gt`; the subtraction is modulo 2^32. -/
def timestamp_gt (l r : Nat) : Bool := decide ((r + 4294967296 - l) % 4294967296 > 0x7fffffff)

/-- src/TCMessage.cpp:178-181 `Message::timestamp_lt`. -/
def timestamp_lt (l r : Nat) : Bool := timestamp_gt r l

/-- the conversion `int32_t(x)` of a `uint32_t` (two's complement) -/
def toInt32 (x : Nat) : Int := if x < 2147483648 then x else (x : Int) - 4294967296

/-- src/TCMessage.cpp:188-193 `Message::timestamp_diff`. `0 - int32_t(r - l)` can't overflow because `r - l` is below 2^31 there
(`C40_diff_congruent` does not depend on it). -/
def timestamp_diff (l r : Nat) : Int :=
  if timestamp_gt l r then toInt32 ((l + 4294967296 - r) % 4294967296)
  else 0 - toInt32 ((r + 4294967296 - l) % 4294967296)

/-! ## metadata -/

/-- the receive orders (`ReceiveOrder` of include/rtmfp/rtmfp.hpp) -/
inductive RO where | sequence | network | hold
deriving DecidableEq, Repr

/-- src/TCMessage.cpp:203-228 `TCMetadata::parse`: the stream id, the receive order and the number of bytes consumed. -/
def parseMetadata : Bytes → Option (Nat × RO × Nat)
  | m0 :: m1 :: m2 :: m3 :: rest =>
    if m0 ≠ 0x54 ∨ m1 ≠ 0x43 ∨ m2 &&& 0x04 = 0 then none
    else match VLU.parse (m3 :: rest) with
      | none => none
      | some (streamID, rv) =>
        if streamID > 4294967295 then none
        else some (streamID, if m2 &&& 0x01 = 1 then .network else .sequence, 3 + rv)
  | _ => none

/-- src/TCMessage.cpp:235-245 `TCMetadata::encode`. -/
def encodeMetadata (streamID : Nat) (rxOrder : RO) : Bytes :=
  VLU.append streamID [0x54, 0x43, 0x04 ||| (if rxOrder = .network then 1 else 0)]

/-! ## messages -/

/-- src/TCMessage.cpp:249-269 `TCMessage::parseHeader`: type, timestamp, bytes consumed. -/
def parseHeader : Bytes → Option (UInt8 × Nat × Nat)
  | t :: a :: b :: c :: d :: _ =>
    let timestamp := a.toNat
    let timestamp := ((timestamp <<< 8) % 4294967296 + b.toNat) % 4294967296
    let timestamp := ((timestamp <<< 8) % 4294967296 + c.toNat) % 4294967296
    let timestamp := ((timestamp <<< 8) % 4294967296 + d.toNat) % 4294967296
    some (t, timestamp, 5)
  | _ => none

/-- src/TCMessage.cpp:271-285 `TCMessage::message`; a null `msg` is the empty list. -/
def message (type : UInt8) (timestamp : Nat) (msg : Bytes) : Bytes := type :: (put32 timestamp ++ msg)

/-! ## flow synchronization messages -/

/-- src/FlowSyncManager.cpp:53-71 `FlowSyncManager::makeSyncMessage(syncID, count)`; `count` is a `size_t`. -/
def makeSyncMessage (syncID count : Nat) : Bytes :=
  message 4 0 [] ++ [0, 34] ++ put32 syncID ++ put32 count

/-- `(p[0] << 24) | (p[1] << 16) | (p[2] << 8) | p[3]`: each byte is promoted to `int`, so the value is an `int` of which the
top bit is the sign (two's complement; the shift into the sign bit is well defined since C++20 and in practice before). The
fields don't overlap, so `|` is written as `+`. -/
def int32At (a b c d : UInt8) : Int := toInt32 (a.toNat * 16777216 + b.toNat * 65536 + c.toNat * 256 + d.toNat)

/-- the implicit conversion of an `int` to an unsigned type of `2^k = w` values -/
def toUnsigned (w : Nat) (x : Int) : Nat := (x % (w : Int)).toNat

/-- src/FlowSyncManager.cpp:87-96 `FlowSyncManager::parseUserCommandPayload`: `syncID` is a `uint32_t`, `count` a `size_t`. -/
def parseSyncPayload : Bytes → Option (Nat × Nat × Nat)
  | a :: b :: c :: d :: e :: f :: g :: h :: _ =>
    some (toUnsigned 4294967296 (int32At a b c d), toUnsigned W64 (int32At e f g h), 8)
  | _ => none

/-- src/FlowSyncManager.cpp:73-85 `FlowSyncManager::parse`: id, count, bytes parsed. -/
def parseSync (tcmessage : Bytes) : Option (Nat × Nat × Nat) :=
  if tcmessage.length < 15 ∨ tcmessage[0]? ≠ some 4 ∨ tcmessage[5]? ≠ some 0 ∨ tcmessage[6]? ≠ some 34 then none
  else match parseSyncPayload (tcmessage.drop 7) with
    | none => none
    | some (syncID, count, rv) => some (syncID, count, 7 + rv)

/-! ## set keepalive -/

/-- the fields of an `RTMFPTCConnection` set by a set-keepalive command, in milliseconds -/
structure Keepalive where
  /-- `m_controlRecv->setSessionKeepalivePeriod` -/
  server : Nat
  /-- `m_rtmfp->setDefaultSessionKeepalivePeriod` -/
  peer : Nat
deriving DecidableEq, Repr

/-- src/TCConnection.cpp:822-835 `RTMFPTCConnection::onSetKeepaliveUserCommand`: `none` when the command is ignored. The
division by 1000.0 (to seconds) and the setters' own minimum (`MIN_KEEPALIVE_PERIOD`, 1 s) are left out. The local variables
are `uint32_t`, so the sign of the `int` sum doesn't matter. -/
def onSetKeepalive (ignore : Bool) : Bytes → Option Keepalive
  | _ :: _ :: a :: b :: c :: d :: e :: f :: g :: h :: _ =>
    if ignore then none
    else
      let serverPeriodMsec := toUnsigned 4294967296 (int32At a b c d)
      let peerPeriodMsec := toUnsigned 4294967296 (int32At e f g h)
      let serverPeriodMsec := max serverPeriodMsec 5000
      let _ := peerPeriodMsec
      let peerPeriodMsec := max serverPeriodMsec 5000
      some ⟨serverPeriodMsec, peerPeriodMsec⟩
  | _ => none

/-- src/TCConnection.cpp:806-820 `RTMFPTCConnection::onUserControlMessage` -/
def onUserControl (ignore : Bool) (payload : Bytes) : Option Keepalive :=
  if payload[0]? = some 0 ∧ payload[1]? = some 41 then onSetKeepalive ignore payload else none

end TC
end Rtmfp
