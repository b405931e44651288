import Verif.Base

/-! # Model of the session id scrambling (`src/Session.cpp`, `src/RTMFP.cpp`)

`uint32_t` words are natural numbers below 2^32, loaded from and stored to memory (`memmove`) in the byte order of the host,
which is a parameter. The session ids themselves are carried in the handshake by `memmove` too (src/Session.cpp:310, 851, 1808,
src/RTMFP.cpp:410). -/

namespace Rtmfp
namespace SessionId

inductive Endian where | little | big
deriving DecidableEq

/-- a `uint32_t` from memory: `memmove(&word, bytes, 4)` -/
def load : Endian → UInt8 → UInt8 → UInt8 → UInt8 → Nat
  | .little, a, b, c, d => 256 * (256 * (256 * d.toNat + c.toNat) + b.toNat) + a.toNat
  | .big, a, b, c, d => 256 * (256 * (256 * a.toNat + b.toNat) + c.toNat) + d.toNat

/-- a `uint32_t` to memory: `memmove(bytes, &word, 4)` -/
def store : Endian → Nat → Bytes
  | .little, w => [UInt8.ofNat w, UInt8.ofNat (w / 256), UInt8.ofNat (w / 65536), UInt8.ofNat (w / 16777216)]
  | .big, w => [UInt8.ofNat (w / 16777216), UInt8.ofNat (w / 65536), UInt8.ofNat (w / 256), UInt8.ofNat w]

/-- `memmove` of up to four bytes into a zeroed word -/
def word (e : Endian) (bs : Bytes) : Nat :=
  load e (bs[0]?.getD 0) (bs[1]?.getD 0) (bs[2]?.getD 0) (bs[3]?.getD 0)

/-- src/Session.cpp:105-110 in `ISession::encryptAndSendPacket`: the packet written, given the output of the cipher. -/
def scramble (e : Endian) (sessionID : Nat) (ciphertext : Bytes) : Bytes :=
  let sid1 := word e (ciphertext.take 4)
  let sid2 := word e ((ciphertext.drop 4).take 4)
  store e (sessionID ^^^ sid1 ^^^ sid2) ++ ciphertext

/-- src/RTMFP.cpp:217-226 of `RTMFP::onReceivePacket`: the session id, and the bytes given to the session (237). `none` if the
packet is too short. -/
def descramble (e : Endian) (bytes : Bytes) : Option (Nat × Bytes) :=
  if bytes.length < 4 then none
  else some (word e (bytes.take 4) ^^^ word e ((bytes.drop 4).take 4) ^^^ word e ((bytes.drop 8).take 4), bytes.drop 4)

/-- the session that a packet is given to -/
inductive Target (σ : Type) where
  | startup
  | session (s : σ)
  | nobody

/-- src/RTMFP.cpp:217-238 `RTMFP::onReceivePacket`; `sessions` is the look-up in `m_sessions` -/
def onReceivePacket {σ : Type} (e : Endian) (sessions : Nat → Option σ) (bytes : Bytes) : Target σ × Bytes :=
  match descramble e bytes with
  | none => (.nobody, [])
  | some (sessionID, rest) =>
    if sessionID = 0 then (.startup, rest)
    else match sessions sessionID with
      | some s => (.session s, rest)
      | none => (.nobody, [])

end SessionId
end Rtmfp
