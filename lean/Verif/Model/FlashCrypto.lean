import Verif.Model.VLU
import Verif.Model.IndexSet
import Verif.Model.Checksums

/-!
# Model of `src/FlashCryptoAdapter.cpp`: certificates, endpoint discriminators, keying and packet encryption

The cryptographic primitives are parameters (`Prims`). Contexts (`AES_Context`, `HMACSHA256_Context`, `DH_Context`) are represented by their
keys; making and initializing one, and encrypting or hashing with one, doesn't fail (no lack of memory). Random numbers are arguments.
-/

namespace Rtmfp
namespace Flash

/-- The primitives: `hmacSHA256` (key, message), `sha256`, AES-CBC with a zero initialization vector (key, message), the public key for a group and a
private key, and the shared secret of a group, the own private and the other's public key. -/
structure Prims where
  hmac : Bytes → Bytes → Bytes
  sha : Bytes → Bytes
  aesEnc : Bytes → Bytes → Bytes
  aesDec : Bytes → Bytes → Bytes
  dhPublic : Nat → Nat → Bytes
  dhSecret : Nat → Nat → Bytes → Option Bytes

/-! ## Options: src/FlashCryptoAdapter.cpp:22-108 -/

/-- src/FlashCryptoAdapter.cpp:23-50 `optionSearch`: the value found and what follows the option (the code returns how much it consumed). -/
def optSearch : (fuel : Nat) → (src : Bytes) → (type : Nat) → Option (Bytes × Bytes)
  | 0, _, _ => none
  | fuel + 1, src, type =>
    if src = [] then none
    else
      match Opt.parse src with
      | none => none
      | some (o, n) =>
        match o.value with
        | none => none
        | some v => if o.type = type then some (v, src.drop n) else optSearch fuel (src.drop n) type

/-- the same with enough fuel (`optSearch_fuel`) -/
def optionSearch (src : Bytes) (type : Nat) : Option (Bytes × Bytes) := optSearch (src.length + 1) src type

/-- src/FlashCryptoAdapter.cpp:57-82 `optionSearchForGroupAndKey`: the group, the key, and what follows the option. -/
def searchGroupAndKey (src : Bytes) (type : Nat) : Option (Nat × Bytes × Bytes) :=
  match optionSearch src type with
  | none => none
  | some (value, rest) =>
    match VLU.parse value with
    | none => none
    | some (group, n) => if group > 2147483647 then none else some (group, value.drop n, rest)

/-- src/FlashCryptoAdapter.cpp:84-103 `groupOptionSearch` -/
def groupSearch : (fuel : Nat) → (src : Bytes) → (type group : Nat) → Option Bytes
  | 0, _, _, _ => none
  | fuel + 1, src, type, group =>
    if src = [] then none
    else
      match searchGroupAndKey src type with
      | none => none
      | some (g, key, rest) => if g = group then some key else groupSearch fuel rest type group

/-- the same with enough fuel (`groupSearch_fuel`) -/
def groupOptionSearch (src : Bytes) (type group : Nat) : Option Bytes := groupSearch (src.length + 1) src type group

/-- src/FlashCryptoAdapter.cpp:110-128 `negotiationOptionSearch`: the flags and `*hmacLength`, which was 0. -/
def negotiationSearch (src : Bytes) (type : Nat) : UInt8 × Nat :=
  match optionSearch src type with
  | none => (0, 0)
  | some ([], _) => (0, 0)
  | some (flags :: more, _) =>
    match VLU.parse more with
    | none => (flags, 0)
    | some (len, _) => (flags, len)

/-- src/FlashCryptoAdapter.cpp:135-140 `negotiationFlags`: SND is 4, SOR is 2, REQ is 1. -/
def negotiationFlags (willSendAlways willSendOnRequest recvRequired : Bool) : UInt8 :=
  (if willSendAlways then 4 else 0) ||| (if willSendOnRequest then 2 else 0) ||| (if recvRequired then 1 else 0)

/-- src/FlashCryptoAdapter.cpp:142-151 `negotiateFlags`: `sendAlways` and `recvRequired` afterwards, `none` if it fails (they are then unchanged). -/
def negotiateFlags (flags : UInt8) (sendAlways recvRequired : Bool) : Option (Bool × Bool) :=
  if recvRequired && decide (flags &&& (4 ||| 2) = 0) then none
  else some (sendAlways || decide (flags &&& 1 ≠ 0), recvRequired || decide (flags &&& 4 ≠ 0))

/-! ## The adapter -/

/-- include/rtmfp/FlashCryptoAdapter.hpp:160-177; `hostname` is `m_hasHostname` and `m_hostname`, `statics` are the private keys of
`m_staticDHContexts`, `groups` is what `getSupportedDHGroups` answers. -/
structure Adapter where
  isServer : Bool
  encodedCert : Bytes
  hostname : Option Bytes
  fingerprint : Bytes
  hmacLength : Nat
  hmacSendAlways : Bool
  hmacRecvRequired : Bool
  sseqSendAlways : Bool
  sseqRecvRequired : Bool
  statics : List (Nat × Nat)
  groups : List Nat

/-- src/FlashCryptoAdapter.cpp:259-266 `setHMACLength` -/
def clampHMACLength (len : Nat) : Nat :=
  let len := if len < 4 then 4 else len
  if len > 32 then 32 else len

/-- src/FlashCryptoAdapter.cpp:425-430 -/
def supportedGroups : List Nat := [2]

/-- src/FlashCryptoAdapter.cpp:169-231 `init`, then the setters; `priv` is the private key drawn for a group. -/
def Adapter.init (P : Prims) (isServer isEphemeral : Bool) (hostname : Option Bytes) (priv : Nat → Nat) (randomness : Bytes)
    (hmacLength : Nat) (hmacSend hmacRecv sseqSend sseqRecv : Bool) : Adapter :=
  let cert : Bytes := []
  let cert := match hostname with | some h => Opt.append 0x00 h cert | none => cert
  let cert := if isServer then Opt.appendType 0x0a cert else cert
  let cert :=
    if isEphemeral then
      Opt.append 0x0e randomness (supportedGroups.foldl (fun cert g => Opt.appendVLU 0x15 g cert) cert)
    else supportedGroups.foldl (fun cert g => Opt.append 0x1d (VLU.append g [] ++ P.dhPublic g (priv g)) cert) cert
  { isServer := isServer, encodedCert := cert, hostname := hostname, fingerprint := P.sha cert, hmacLength := clampHMACLength hmacLength
    hmacSendAlways := hmacSend, hmacRecvRequired := hmacRecv, sseqSendAlways := sseqSend, sseqRecvRequired := sseqRecv
    statics := if isEphemeral then [] else supportedGroups.map (fun g => (g, priv g)), groups := supportedGroups }

/-- src/FlashCryptoAdapter.cpp:243-246 `isStatic` -/
def Adapter.isStatic (A : Adapter) : Bool := !A.statics.isEmpty

/-- src/FlashCryptoAdapter.cpp:450-456 `computeSharedSecret` -/
def Adapter.computeSecret (P : Prims) (A : Adapter) (group : Nat) (otherPublic : Bytes) : Option Bytes :=
  match A.statics.find? (fun p => p.1 == group) with
  | none => none
  | some p => P.dhSecret group p.2 otherPublic

/-- src/FlashCryptoAdapter.cpp:441-448 `supportsDHGroup` -/
def Adapter.supportsGroup (A : Adapter) (group : Nat) : Bool := A.groups.contains group

/-- include/rtmfp/FlashCryptoAdapter.hpp:146-153: the fields of an endpoint discriminator -/
structure EPD where
  hostname : Option Bytes
  ancillary : Option Bytes
  fingerprint : Option Bytes

/-- src/FlashCryptoAdapter.cpp:476-506: the loop of `EPDParseState::parse`; `none` is `return false` (or out of fuel). -/
def epdLoop : (fuel : Nat) → (src : Bytes) → EPD → Option EPD
  | fuel, src, e =>
    if src = [] then some e
    else
      match fuel with
      | 0 => none
      | fuel + 1 =>
        match Opt.parse src with
        | none => none
        | some (o, n) =>
          match o.value with
          | none => epdLoop fuel (src.drop n) e
          | some v =>
            epdLoop fuel (src.drop n)
              (if o.type = 0x00 then { e with hostname := some v }
              else if o.type = 0x0a then { e with ancillary := some v }
              else if o.type = 0x0f then { e with fingerprint := some v }
              else e)

/-- src/FlashCryptoAdapter.cpp:468-509 `EPDParseState::parse` -/
def epdParse (epd : Bytes) : Option EPD :=
  match epdLoop epd.length epd ⟨none, none, none⟩ with
  | none => none
  | some e => if e.fingerprint.isSome || e.ancillary.isSome || e.hostname.isSome then some e else none

/-- src/FlashCryptoAdapter.cpp:334-360 `isSelectedByEPD`; `accept` is the user's `isSelectedByAncillaryData`, if any. -/
def Adapter.isSelected (A : Adapter) (accept : Option (Bytes → Bool)) (epd : Bytes) : Bool :=
  match epdParse epd with
  | none => false
  | some e =>
    match e.fingerprint with
    | some f => decide (f.length = 32) && decide (f = A.fingerprint)
    | none =>
      let hostOk :=
        match e.hostname with
        | some h => (match A.hostname with | none => false | some mine => decide (h.length = mine.length) && decide (mine = h))
        | none => true
      if !hostOk then false
      else
        match e.ancillary with
        | some a => if !A.isServer then false else (match accept with | some f => f a | none => true)
        | none => true

/-- src/FlashCryptoAdapter.cpp:389-409 `makeEPD`, of the decoded fingerprint -/
def makeEPD (fingerprint ancillary hostname : Option Bytes) : Option Bytes :=
  if fingerprint = none ∧ ancillary = none ∧ hostname = none then none
  else
    let dst : Bytes := []
    let dst := match fingerprint with | some f => Opt.append 0x0f f dst | none => dst
    let dst := match ancillary with | some a => Opt.append 0x0a a dst | none => dst
    some (match hostname with | some h => Opt.append 0x00 h dst | none => dst)

/-- src/FlashCryptoAdapter.cpp:248-251, 418-423 `getCanonicalEPD` -/
def Adapter.canonicalEPD (A : Adapter) : Bytes := Opt.append 0x0f A.fingerprint []

/-- `operator<` of `std::vector<uint8_t>` -/
def bytesLt : Bytes → Bytes → Bool
  | _, [] => false
  | [], _ :: _ => true
  | a :: as, b :: bs => if a < b then true else if b < a then false else bytesLt as bs

/-- src/FlashCryptoAdapter.cpp:367-370 `checkNearWinsGlare` -/
def Adapter.nearWinsGlare (A : Adapter) (farCert : Bytes) : Bool := !(bytesLt farCert A.encodedCert)

/-! ## Certificates: src/FlashCryptoAdapter.cpp:920-1050 -/

/-- include/rtmfp/FlashCryptoAdapter.hpp:279-284 -/
structure Cert where
  raw : Bytes
  fingerprint : Bytes
  hasHostname : Bool
  acceptsAncillary : Bool
  isStatic : Bool

/-- the variables of the loop of `FlashCryptoCert::init` -/
structure CertScan where
  hasHostname : Bool
  acceptsAncillary : Bool
  isStatic : Bool
  isEphemeral : Bool
  markerFound : Bool
  canonicalLength : Nat

/-- src/FlashCryptoAdapter.cpp:936-964: the loop; `none` is `return false` (or out of fuel). -/
def certLoop : (fuel : Nat) → (src : Bytes) → CertScan → Option CertScan
  | fuel, src, c =>
    if src = [] then some c
    else
      match fuel with
      | 0 => none
      | fuel + 1 =>
        match Opt.parse src with
        | none => none
        | some (o, n) =>
          let c := if c.markerFound then c else { c with canonicalLength := c.canonicalLength + n }
          match o.value with
          | none => certLoop fuel (src.drop n) { c with markerFound := true }
          | some _ =>
            certLoop fuel (src.drop n)
              (if c.markerFound then c
              else if o.type = 0x00 then { c with hasHostname := true }
              else if o.type = 0x0a then { c with acceptsAncillary := true }
              else if o.type = 0x15 then { c with isEphemeral := true }
              else if o.type = 0x1d then { c with isStatic := true }
              else c)

/-- src/FlashCryptoAdapter.cpp:922-969 `FlashCryptoCert::init` -/
def Cert.init (P : Prims) (raw : Bytes) : Option Cert :=
  match certLoop raw.length raw ⟨false, false, false, false, false, 0⟩ with
  | none => none
  | some c =>
    if c.isStatic ≠ c.isEphemeral then
      some { raw := raw, fingerprint := P.sha (raw.take c.canonicalLength), hasHostname := c.hasHostname, acceptsAncillary := c.acceptsAncillary, isStatic := c.isStatic }
    else none

/-- src/FlashCryptoAdapter.cpp:981-984 `supportsDHGroup` -/
def Cert.supportsGroup (c : Cert) (group : Nat) : Bool :=
  (groupOptionSearch c.raw (if c.isStatic then 0x1d else 0x15) group).isSome

/-- src/FlashCryptoAdapter.cpp:986-989 `getPublicKey` -/
def Cert.publicKey (c : Cert) (group : Nat) : Option Bytes := if c.isStatic then groupOptionSearch c.raw 0x1d group else none

/-- src/FlashCryptoAdapter.cpp:1001-1030 `isSelectedByEPD` -/
def Cert.isSelected (c : Cert) (epd : Bytes) : Bool :=
  match epdParse epd with
  | none => false
  | some e =>
    match e.fingerprint with
    | some f => decide (f.length = 32) && decide (f = c.fingerprint)
    | none =>
      let hostOk :=
        match e.hostname with
        | some h =>
          if !c.hasHostname then false
          else (match optionSearch c.raw 0x00 with | none => false | some (mine, _) => decide (mine.length = h.length) && decide (mine = h))
        | none => true
      if !hostOk then false
      else if e.ancillary.isSome && !c.acceptsAncillary then false
      else true

/-- src/FlashCryptoAdapter.cpp:432-439 `getBestDHGroup` -/
def Adapter.bestGroup (A : Adapter) (far : Cert) : Option Nat := A.groups.find? (fun g => far.supportsGroup g)

/-! ## Keys -/

/-- include/rtmfp/FlashCryptoAdapter.hpp:232-258; contexts are their keys, `none` a null pointer; the private key of `m_dh_context` is for
`m_groupID`; the nonces are arbitrary until computed. -/
structure Key where
  complete : Bool
  hmacSend : Bool
  hmacRecv : Bool
  sseqSend : Bool
  sseqRecv : Bool
  txSeq : Nat
  rxSeqs : IndexSet
  dh : Option Nat
  group : Option Nat
  publicKeyNeeded : Bool
  secret : Bytes
  sknc : Bytes
  nearNonce : Bytes
  farNonce : Bytes
  txKey : Option Bytes
  rxKey : Option Bytes
  txHMAC : Option Bytes
  txHMACLength : Nat
  rxHMAC : Option Bytes
  rxHMACLength : Nat

/-- src/FlashCryptoAdapter.cpp:520-535 `FlashCryptoKey::init` -/
def Key.init (A : Adapter) : Key :=
  { complete := false, hmacSend := A.hmacSendAlways, hmacRecv := A.hmacRecvRequired, sseqSend := A.sseqSendAlways, sseqRecv := A.sseqRecvRequired
    txSeq := 0, rxSeqs := [], dh := none, group := none, publicKeyNeeded := false, secret := [], sknc := [], nearNonce := [], farNonce := []
    txKey := none, rxKey := none, txHMAC := none, txHMACLength := A.hmacLength, rxHMAC := none, rxHMACLength := 0 }

/-- src/FlashCryptoAdapter.cpp:878-918 `computeKeysAndNonces` -/
def Key.computeKeys (P : Prims) (k : Key) (sknc skfc : Bytes) : Key :=
  let encryptKey := P.hmac k.secret (P.hmac skfc sknc)
  let decryptKey := P.hmac k.secret (P.hmac sknc skfc)
  { k with
    nearNonce := P.hmac k.secret sknc, farNonce := P.hmac k.secret skfc
    txKey := some (encryptKey.take 16), rxKey := some (decryptKey.take 16)
    txHMAC := if k.hmacSend then some (P.hmac k.secret encryptKey) else k.txHMAC
    rxHMAC := if k.hmacRecv then some (P.hmac k.secret decryptKey) else k.rxHMAC }

/-- src/FlashCryptoAdapter.cpp:719-722, 811-813: the value of the HMAC negotiation option -/
def Key.hmacOffer (k : Key) : Bytes := negotiationFlags k.hmacSend true k.hmacRecv :: VLU.encode k.txHMACLength

/-- src/FlashCryptoAdapter.cpp:724, 794: the value of the sequence number negotiation option -/
def Key.sseqOffer (k : Key) : Bytes := [negotiationFlags k.sseqSend true k.sseqRecv]

/-- src/FlashCryptoAdapter.cpp:673-731 `generateInitiatorKeyingComponent`; `priv` is the private key drawn. -/
def Key.initiator (P : Prims) (A : Adapter) (k : Key) (far : Cert) (priv : Nat) (randomness : Bytes) : Key × Option Bytes :=
  let k := { k with sknc := [] }
  match A.bestGroup far with
  | none => ({ k with group := none }, none)
  | some g =>
    let k :=
      if A.isStatic then { k with group := some g, sknc := Opt.append 0x0e randomness (Opt.appendVLU 0x1d g []) }
      else { k with group := some g, dh := some priv, sknc := Opt.append 0x0d (VLU.append g [] ++ P.dhPublic g priv) [] }
    let r : Option Key :=
      if far.isStatic then
        match far.publicKey g with
        | none => none
        | some pub =>
          match k.dh with
          | some d => (P.dhSecret g d pub).map (fun s => { k with secret := s, dh := none })
          | none => (A.computeSecret P g pub).map (fun s => { k with secret := s })
      else some { k with publicKeyNeeded := true }
    match r with
    | none => (k, none)
    | some k =>
      let k := { k with sknc := Opt.append 0x1a k.hmacOffer k.sknc }
      let k := { k with sknc := Opt.append 0x1e k.sseqOffer k.sknc }
      (k, some k.sknc)

/-- src/FlashCryptoAdapter.cpp:742-746, 788-791 and 748-757, 797-806: the common part of both sides' handling of the other's negotiation options. What
was changed before a failure stays changed. -/
def Key.negotiate (k : Key) (component : Bytes) : Key × Bool :=
  match negotiateFlags (negotiationSearch component 0x1e).1 k.sseqSend k.sseqRecv with
  | none => (k, false)
  | some (send, recv) =>
    let k := { k with sseqSend := send, sseqRecv := recv }
    let offer := negotiationSearch component 0x1a
    match negotiateFlags offer.1 k.hmacSend k.hmacRecv with
    | none => (k, false)
    | some (send, recv) =>
      let k := { k with hmacSend := send, hmacRecv := recv }
      if k.hmacRecv then
        if offer.2 < 4 ∨ offer.2 > 32 then (k, false)
        else ({ k with rxHMACLength := offer.2 }, true)
      else (k, true)

/-- src/FlashCryptoAdapter.cpp:759-772: the secret from the responder's public key, with the private key drawn or else the adapter's -/
def Key.secretWith (P : Prims) (A : Adapter) (k : Key) (g : Nat) (pub : Bytes) : Option Bytes :=
  match k.dh with
  | some d => P.dhSecret g d pub
  | none => A.computeSecret P g pub

/-- src/FlashCryptoAdapter.cpp:733-780 `initiatorCombineResponderKeyingComponent` -/
def Key.combine (P : Prims) (A : Adapter) (k : Key) (component : Bytes) : Key × Bool :=
  match k.negotiate component with
  | (k, false) => (k, false)
  | (k, true) =>
    let r : Key × Bool :=
      if k.publicKeyNeeded then
        let k := { k with secret := [] }
        match k.group with
        | none => (k, false)
        | some g =>
          match groupOptionSearch component 0x0d g with
          | none => (k, false)
          | some pub =>
            match k.secretWith P A g pub with
            | none => (k, false)
            | some s => ({ k with secret := s }, true)
      else (k, true)
    match r with
    | (k, false) => (k, false)
    | (k, true) => ({ k.computeKeys P k.sknc component with secret := [], dh := none, complete := true }, true)

/-- src/FlashCryptoAdapter.cpp:782-869 `generateResponderKeyingComponent`; `priv` is the private key drawn. A key that fails is discarded by the
caller, so it isn't part of the answer. -/
def Key.responder (P : Prims) (A : Adapter) (k : Key) (far : Cert) (component : Bytes) (priv : Nat) (randomness : Bytes) : Option (Key × Bytes) :=
  match k.negotiate component with
  | (_, false) => none
  | (k, true) =>
    let sknc := Opt.append 0x1a k.hmacOffer (Opt.append 0x1e k.sseqOffer [])
    let theirs : Option (Nat × Bytes) :=
      if far.isStatic then
        match searchGroupAndKey component 0x1d with
        | none => none
        | some (g, _, _) => (far.publicKey g).map (fun pub => (g, pub))
      else (searchGroupAndKey component 0x0d).map (fun r => (r.1, r.2.1))
    match theirs with
    | none => none
    | some (g, pub) =>
      let k := { k with group := some g }
      if !A.supportsGroup g then none
      else
        let r : Option (Bytes × Bytes) :=
          if A.isStatic then (A.computeSecret P g pub).map (fun s => (s, Opt.append 0x0e randomness sknc))
          else (P.dhSecret g priv pub).map (fun s => (s, Opt.append 0x0d (VLU.append g [] ++ P.dhPublic g priv) sknc))
        match r with
        | none => none
        | some (secret, sknc) =>
          some ({ ({ k with secret := secret }).computeKeys P sknc component with secret := [], dh := none, complete := true }, sknc)

/-! ## Packets -/

/-- what a call gives: a value, `false`, or the use of a null pointer -/
inductive Res (α : Type)
  | ok (a : α)
  | fail
  | crash
deriving DecidableEq, Repr

/-- src/FlashCryptoAdapter.cpp:17-20 `default_session_key` -/
def defaultKey : Bytes := [0x41, 0x64, 0x6F, 0x62, 0x65, 0x20, 0x53, 0x79, 0x73, 0x74, 0x65, 0x6D, 0x73, 0x20, 0x30, 0x32]

/-- src/FlashCryptoAdapter.cpp:537-547 `getEncryptSrcFrontMargin` -/
def Key.frontMargin (k : Key) : Nat :=
  if !k.complete then 2
  else (if k.hmacSend then 0 else 2) + (if k.sseqSend then (VLU.encode k.txSeq).length else 0)

/-- writing bytes over part of a buffer -/
def overwrite (buf : Bytes) (at_ : Nat) (bytes : Bytes) : Bytes := buf.take at_ ++ bytes ++ buf.drop (at_ + bytes.length)

/-- src/FlashCryptoAdapter.cpp:556-565: padding to a multiple of 16 -/
def padded (src : Bytes) : Bytes := if src.length % 16 ≠ 0 then src ++ List.replicate (16 - src.length % 16) 0xff else src

/-- src/FlashCryptoAdapter.cpp:549-591 `encrypt` of a buffer (with the margin in front) to at most `room` bytes. The caller's buffer has room for
the padding. -/
def Key.encrypt (P : Prims) (k : Key) (room : Nat) (src : Bytes) (margin : Nat) : Key × Res Bytes :=
  let useSSeq := k.complete && k.sseqSend
  let useHMAC := k.complete && k.hmacSend
  let buf := padded src
  if room < buf.length + 32 then (k, .fail)
  else
    let seq := if useSSeq then VLU.encode k.txSeq else []
    let buf := overwrite buf 0 seq
    let k := if useSSeq then { k with txSeq := (k.txSeq + 1) % W64 } else k
    let buf :=
      if useHMAC then buf
      else
        let cksum := Checksums.in_cksum (buf.drop margin)
        overwrite buf seq.length [UInt8.ofNat (cksum >>> 8), UInt8.ofNat (cksum &&& 0xff)]
    match (if k.complete then k.txKey else some defaultKey) with
    | none => (k, .crash)
    | some key =>
      let dst := P.aesEnc key buf
      if useHMAC then
        match k.txHMAC with
        | none => (k, .crash)
        | some hkey => (k, .ok (dst ++ (P.hmac hkey dst).take k.txHMACLength))
      else (k, .ok dst)

/-- src/FlashCryptoAdapter.cpp:212 `MAX_SSEQ_GAP` (include/rtmfp) -/
def maxGap : Nat := 32

/-- src/FlashCryptoAdapter.cpp:593-661 `decrypt`: the buffer and its front margin -/
def Key.decrypt (P : Prims) (k : Key) (room : Nat) (src : Bytes) : Key × Res (Bytes × Nat) :=
  let useSSeq := k.complete && k.sseqRecv
  let useHMAC := k.complete && k.hmacRecv
  let hmacLen := if useHMAC then k.rxHMACLength else 0
  if room + hmacLen < src.length ∨ src.length < hmacLen then (k, .fail)
  else
    let body := src.take (src.length - hmacLen)
    if body.length % 16 ≠ 0 ∨ body.length = 0 then (k, .fail)
    else
      match (if useHMAC then k.rxHMAC else some []) with
      | none => (k, .crash)
      | some hkey =>
        if useHMAC ∧ (P.hmac hkey body).take hmacLen ≠ src.drop (src.length - hmacLen) then (k, .fail)
        else
          match (if k.complete then k.rxKey else some defaultKey) with
          | none => (k, .crash)
          | some key =>
            let dst := P.aesDec key body
            match (if useSSeq then VLU.parse dst else some (0, 0)) with
            | none => (k, .fail)
            | some (seq, cursor) =>
              if useSSeq ∧ k.rxSeqs.contains seq then (k, .fail)
              else
                let sum := dst.drop cursor
                if !useHMAC ∧ (sum.length < 2 ∨ (sum.getD 0 0).toNat * 256 + (sum.getD 1 0).toNat ≠ Checksums.in_cksum (sum.drop 2)) then (k, .fail)
                else
                  let cursor := if useHMAC then cursor else cursor + 2
                  let k :=
                    if useSSeq then
                      let s := k.rxSeqs.add seq seq
                      { k with rxSeqs := if seq > maxGap then s.add 0 (seq - maxGap) else s }
                    else k
                  (k, .ok (dst, cursor))

end Flash
end Rtmfp
