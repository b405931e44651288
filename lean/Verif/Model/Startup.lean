import Verif.Model.Packet
import Verif.Model.Cookie
import Verif.Model.SessionId

/-!
# Model of the startup messages: `StartupSession` (`src/Session.cpp`), their senders and their handlers (`src/RTMFP.cpp`, `src/Flow.cpp`)

What is said when a session is opened (hello, answer, redirect, keying), forwarded hellos, and what is made of the bytes that arrive.

* A packet is here what is between the front margin and the padding of the cipher: `C45_round_trip` and `C50_startup` show that it arrives at the
  other side's startup session followed by bytes 0xff.
* The `CryptoAdapter` is a parameter (`Host`). A certificate is its encoded bytes.
* What becomes of a hello that was answered or of a keying that is to be checked is in `Model/Instance.lean`; here it ends with the call (`Out`).
* Chunks of a packet are handled one after the other; a handler may change the state of the instance before the next is handled, so the calls
  that a packet leads to (`onStartupPacket`) are separate from what each does (`onIHello` and so on).
-/

namespace Rtmfp
namespace Startup
open Address (Sockaddr)

/-- include/rtmfp/params.hpp:12 `MAX_STARTUP_PACKET_LENGTH` -/
def maxStartup : Nat := 4256
/-- include/rtmfp/params.hpp:13 `MAX_SESSION_PACKET_LENGTH` -/
def maxSession : Nat := 1200
/-- include/rtmfp/packet.hpp:13, 16 `HEADER_FLAG_MOD_MASK`, `HEADER_MODE_STARTUP` -/
def modeStartup : UInt8 := 3
/-- include/rtmfp/packet.hpp:21 -/
def cIHello : UInt8 := 0x30
/-- include/rtmfp/packet.hpp:22 -/
def cFIHello : UInt8 := 0x0f
/-- include/rtmfp/packet.hpp:23 -/
def cRHello : UInt8 := 0x70
/-- include/rtmfp/packet.hpp:24 -/
def cRedirect : UInt8 := 0x71
/-- include/rtmfp/packet.hpp:25 -/
def cCookieChange : UInt8 := 0x79
/-- include/rtmfp/packet.hpp:26 -/
def cIIKeying : UInt8 := 0x38
/-- include/rtmfp/packet.hpp:27 -/
def cRIKeying : UInt8 := 0x78

/-! ## Assembling -/

/-- one call of `push` or `pushField` of the assembler -/
inductive Put
  | raw (bs : Bytes)
  | field (bs : Bytes)
deriving DecidableEq, Repr

/-- calls joined by `&&`: the first that fails ends it -/
def pushAll (p : PA) : List Put → Option PA
  | [] => some p
  | .raw bs :: l => if (p.push bs).2 then pushAll (p.push bs).1 l else none
  | .field bs :: l => if (p.pushField bs).2 then pushAll (p.pushField bs).1 l else none

/-- The pattern of src/RTMFP.cpp:133-145, 151-158, 331-339, 535-547, src/Session.cpp:846-865 and src/Flow.cpp:159-170: an array on the stack (whose
contents are `stack`), one chunk, `toVector`. (src/RTMFP.cpp:334 and src/Session.cpp:849 don't look at the answer of `startChunk`, which succeeds.) -/
def assemble (stack : Nat → UInt8) (room : Nat) (type : UInt8) (l : List Put) : Option Bytes :=
  let r := (PA.init ((List.range room).map stack) 0 room).startChunk type
  if r.2 then
    match pushAll r.1 l with
    | some p => p.commitChunk.map PA.toVector
    | none => none
  else none

/-- src/RTMFP.cpp:151-156 `sendIHello`: the chunk -/
def ihello (stack : Nat → UInt8) (epd tag : Bytes) : Option Bytes := assemble stack maxStartup cIHello [.field epd, .raw tag]

/-- src/RTMFP.cpp:131-145 `sendResponderRedirect`: the chunk -/
def redirect (stack : Nat → UInt8) (tag : Bytes) (addrs : List Address) : Option Bytes :=
  assemble stack maxStartup cRedirect (.field tag :: addrs.map (fun a => .raw (Address.encode a)))

/-- src/RTMFP.cpp:535-547: the chunk -/
def rhello (stack : Nat → UInt8) (tag cookie cert : Bytes) : Option Bytes :=
  assemble stack maxStartup cRHello [.field tag, .field cookie, .raw cert]

/-- src/RTMFP.cpp:330-339: the chunk -/
def cookieChange (stack : Nat → UInt8) (old new : Bytes) : Option Bytes := assemble stack maxStartup cCookieChange [.field old, .raw new]

/-- src/Flow.cpp:159-170 `forwardIHello`: the chunk -/
def fihello (stack : Nat → UInt8) (epd : Bytes) (reply : Address) (tag : Bytes) : Option Bytes :=
  assemble stack maxSession cFIHello [.field epd, .raw (Address.encode reply), .raw tag]

/-- src/Session.cpp:844-867 `makeIIKeyingChunk`; `sign` is `CryptoAdapter::sign` for the other side's certificate. -/
def iikeying (stack : Nat → UInt8) (e : SessionId.Endian) (sign : Bytes → Bytes) (rxSessionID : Nat) (cookie cert skic : Bytes) : Option Bytes :=
  let signedPart := SessionId.store e rxSessionID ++ (VLU.encode cookie.length ++ cookie) ++ (VLU.encode cert.length ++ cert) ++ (VLU.encode skic.length ++ skic)
  assemble stack maxStartup cIIKeying [.raw (SessionId.store e rxSessionID), .field cookie, .field cert, .field skic, .raw (sign signedPart)]

/-- src/RTMFP.cpp:406-426 `makeRIKeyingChunk`: the length is cut to 16 bits -/
def rikeying (e : SessionId.Endian) (sign : Bytes → Bytes) (rsid : Nat) (skrc skic : Bytes) : Bytes :=
  let part := VLU.append skrc.length (SessionId.store e rsid) ++ skrc
  let payload := part ++ sign (part ++ skic)
  cRIKeying :: UInt8.ofNat ((payload.length >>> 8) &&& 0xff) :: UInt8.ofNat (payload.length &&& 0xff) :: payload

/-- src/Session.cpp:171-190 `StartupSession::onInterfaceWritable`: the packet that the chunks of an item become, without the front margin, or none.
`buf` is the plaintext buffer, `margin` the front margin that the key asks for. -/
def packetOf (buf : Bytes) (margin : Nat) (mode : UInt8) (ts tse : Option Nat) (chunks : Bytes) : Option Bytes :=
  let p := PA.initHeader buf margin maxStartup mode ts tse
  if (p.push chunks).2 then some ((p.push chunks).1.toVector.drop margin) else none

/-! ## Parsing -/

/-- The calls that chunks lead to. -/
inductive Call
  | ihello (epd tag : Bytes)
  | rhello (tag cookie cert : Bytes)
  | redirect (tag : Bytes) (dests : List Address)
  | iikeying (isid : Nat) (cookie cert skic signedPart sig : Bytes)
  | rikeying (rsid : Nat) (skrc signedPart sig : Bytes)
  | cookieChange (old new : Bytes)
  | fihello (epd : Bytes) (reply : Address) (tag : Bytes)
deriving DecidableEq, Repr

/-- src/Session.cpp:220-237 `onIHelloChunk` from the parsing on -/
def onIHelloChunk (chunk : Bytes) : Option Call :=
  match VLU.parseField chunk with
  | none => none
  | some (epd, rv) => some (.ihello epd (chunk.drop rv))

/-- src/Session.cpp:239-262 `onRHelloChunk` -/
def onRHelloChunk (chunk : Bytes) : Option Call :=
  match VLU.parseField chunk with
  | none => none
  | some (tag, rv) =>
    match VLU.parseField (chunk.drop rv) with
    | none => none
    | some (cookie, rv') => some (.rhello tag cookie ((chunk.drop rv).drop rv'))

/-- src/Session.cpp:276-283: the loop of `onRedirectChunk`; `tmp` is the address that is decoded into. Each round uses a byte at least, `fuel`
bounds the rounds (the number of bytes is enough). -/
def redirectLoop (fuel : Nat) (tmp : Address) (rest : Bytes) : Option (List Address) :=
  match fuel, rest with
  | _, [] => some []
  | 0, _ => none
  | fuel + 1, rest =>
    let r := Address.setFromEncoding tmp rest
    if r.2 = 0 then none else (redirectLoop fuel r.1 (rest.drop r.2)).map (r.1 :: ·)

/-- include/rtmfp/Address.hpp:27 `ORIGIN_OBSERVED` -/
def originObserved : Nat := 2

/-- src/Session.cpp:264-289 `onRedirectChunk`; `src` is where the packet came from. -/
def onRedirectChunk (src : Sockaddr) (chunk : Bytes) : Option Call :=
  match VLU.parseField chunk with
  | none => none
  | some (tag, rv) =>
    match redirectLoop chunk.length Address.init (chunk.drop rv) with
    | none => none
    | some dests => some (.redirect tag (if dests.isEmpty then [Address.ofSockaddr (some src) originObserved] else dests))

/-- src/Session.cpp:291-331 `onIIKeyingChunk` -/
def onIIKeyingChunk (e : SessionId.Endian) (chunk : Bytes) : Option Call :=
  if chunk.length < 4 then none
  else
    match VLU.parseField (chunk.drop 4) with
    | none => none
    | some (cookie, r1) =>
      match VLU.parseField ((chunk.drop 4).drop r1) with
      | none => none
      | some (cert, r2) =>
        match VLU.parseField (((chunk.drop 4).drop r1).drop r2) with
        | none => none
        | some (skic, r3) =>
          let n := 4 + r1 + r2 + r3
          some (.iikeying (SessionId.word e (chunk.take 4)) cookie cert skic (chunk.take n) (chunk.drop n))

/-- src/Session.cpp:1793-1821 `onRIKeyingChunk` -/
def onRIKeyingChunk (e : SessionId.Endian) (chunk : Bytes) : Option Call :=
  if chunk.length < 4 then none
  else
    match VLU.parseField (chunk.drop 4) with
    | none => none
    | some (skrc, r1) => some (.rikeying (SessionId.word e (chunk.take 4)) skrc (chunk.take (4 + r1)) (chunk.drop (4 + r1)))

/-- src/Session.cpp:1823-1840 `onCookieChangeChunk` -/
def onCookieChangeChunk (chunk : Bytes) : Option Call :=
  match VLU.parseField chunk with
  | none => none
  | some (old, rv) => some (.cookieChange old (chunk.drop rv))

/-- src/Session.cpp:1842-1865 `onFIHelloChunk` -/
def onFIHelloChunk (chunk : Bytes) : Option Call :=
  match VLU.parseField chunk with
  | none => none
  | some (epd, rv) =>
    let r := Address.setFromEncoding Address.init (chunk.drop rv)
    if r.2 = 0 then none else some (.fihello epd r.1 ((chunk.drop rv).drop r.2))

/-- src/Session.cpp:201-218 `StartupSession::onChunk` with 226-228: whether a hello has been seen in this packet, and the call -/
def startupChunk (e : SessionId.Endian) (src : Sockaddr) (seen : Bool) (c : Chunk) : Bool × Option Call :=
  if c.type = cIHello then (if seen then (true, none) else (true, onIHelloChunk c.payload))
  else if c.type = cRHello then (seen, onRHelloChunk c.payload)
  else if c.type = cRedirect then (seen, onRedirectChunk src c.payload)
  else if c.type = cIIKeying then (seen, onIIKeyingChunk e c.payload)
  else (seen, none)

/-- the calls of the chunks of a packet -/
def startupChunks (e : SessionId.Endian) (src : Sockaddr) : Bool → List Chunk → List Call
  | _, [] => []
  | seen, c :: cs => (startupChunk e src seen c).2.toList ++ startupChunks e src (startupChunk e src seen c).1 cs

/-- src/Session.cpp:39-90 with 195-199 `StartupSession::onPacketHeader`: what a packet leads to; `none` if it is refused. -/
def onStartupPacket (e : SessionId.Endian) (src : Sockaddr) (packet : Bytes) : Option (List Call) :=
  match parsePacket packet with
  | none => none
  | some (hd, cs) => if hd.flags &&& HEADER_FLAG_MOD_MASK = modeStartup then some (startupChunks e src false cs) else none

/-- src/Session.cpp:1643-1662 `Session::onChunk` in the state S_KEYING_SENT -/
def keyingChunk (e : SessionId.Endian) (mode : UInt8) (c : Chunk) : Option Call :=
  if mode ≠ modeStartup then none
  else if c.type = cRIKeying then onRIKeyingChunk e c.payload
  else if c.type = cCookieChange then onCookieChangeChunk c.payload
  else none

/-- src/Session.cpp:1663-1671 `Session::onChunk` in the state S_OPEN, as far as forwarded hellos are concerned -/
def openChunk (mode : UInt8) (c : Chunk) : Option Call :=
  if mode = modeStartup then none
  else if c.type = cFIHello then onFIHelloChunk c.payload
  else none

/-- src/Session.cpp:39-90: the calls of a packet for a session that waits for the answer to its keying. Simplified: it waits still
when the next chunk is handled. -/
def onKeyingPacket (e : SessionId.Endian) (packet : Bytes) : List Call :=
  match parsePacket packet with
  | none => []
  | some (hd, cs) => cs.filterMap (keyingChunk e (hd.flags &&& HEADER_FLAG_MOD_MASK))

/-- src/Session.cpp:39-90: the forwarded hellos of a packet for an open session. Simplified: it is open still when the next chunk is handled. -/
def onOpenPacket (packet : Bytes) : List Call :=
  match parsePacket packet with
  | none => []
  | some (hd, cs) => cs.filterMap (openChunk (hd.flags &&& HEADER_FLAG_MOD_MASK))

/-! ## Handling -/

/-- include/rtmfp/rtmfp.hpp:33 `FIHelloResponseMode` -/
inductive Mode
  | ignore
  | sendRedirect
  | sendRHello
deriving DecidableEq, Repr

/-- A session that is opening (src/Session.hpp): its tag, and whether it still waits for an answer to its hello (S_IHELLO_SENT). -/
structure Opening where
  name : Nat
  waits : Bool
  tag : Bytes
deriving DecidableEq, Repr

/-- What the startup of an instance depends on: the crypto adapter (whether it is selected by an endpoint discriminator, its certificate for one,
which certificates it can decode, its hash), the secret, its age, its interfaces, whether it is shutting down, the sessions that are opening, whether
the user has set the callbacks, and the contents of the stack. -/
structure Host where
  selected : Bytes → Bool
  certFor : Bytes → Bytes
  decodes : Bytes → Bool
  hash : Bytes → Bytes
  secret : Bytes
  age : Rat
  interfaces : List Nat
  isShutdown : Bool
  opening : List Opening
  onUnmatchedIHello : Bool
  onUnmatchedRHello : Bool
  stack : Nat → UInt8

/-- src/Session.cpp:117-123 `SendItem`: chunks to be sent to a session of another host by an interface. -/
structure Item where
  chunks : Bytes
  sessionID : Nat
  interface : Nat
  dest : Sockaddr

/-- What handling a call does: a packet is queued, a callback of the user is called, or a session is told. -/
inductive Out
  | queue (i : Item)
  | unmatchedIHello (epd tag : Bytes) (interface : Option Nat) (src : Sockaddr)
  | unmatchedRHello (tag cookie cert : Bytes) (interface : Option Nat) (src : Sockaddr)
  | answered (session : Nat) (cookie cert : Bytes) (interface : Option Nat) (src : Sockaddr)
  | candidates (session : Nat) (dests : List Address)
  | keying (isid : Nat) (cert skic signedPart sig : Bytes) (interface : Option Nat) (src : Sockaddr)

/-- src/Session.cpp:138-150 `StartupSession::sendPacket`; `none` is `INTERFACE_ID_ALL`. (An interface with a negative number, with which the code
would not come to an end, can't be said here.) -/
def sendPacket (h : Host) (chunks : Bytes) (sid : Nat) (interface : Option Nat) (dest : Sockaddr) : List Item :=
  match interface with
  | none => h.interfaces.map (fun i => { chunks := chunks, sessionID := sid, interface := i, dest := dest })
  | some i => if i ∈ h.interfaces then [{ chunks := chunks, sessionID := sid, interface := i, dest := dest }] else []

/-- a chunk that was assembled is sent -/
def sendIf (h : Host) (chunks : Option Bytes) (sid : Nat) (interface : Option Nat) (dest : Sockaddr) : List Item :=
  match chunks with
  | none => []
  | some c => sendPacket h c sid interface dest

/-- src/RTMFP.cpp:149-160 `sendIHello` -/
def sendIHello (h : Host) (epd tag : Bytes) (interface : Option Nat) (dest : Sockaddr) : List Item :=
  sendIf h (ihello h.stack epd tag) 0 interface dest

/-- src/RTMFP.cpp:131-147 `sendResponderRedirect` -/
def sendResponderRedirect (h : Host) (tag : Bytes) (addrs : List Address) (interface : Option Nat) (dest : Sockaddr) : List Item :=
  sendIf h (redirect h.stack tag addrs) 0 interface dest

/-- src/RTMFP.cpp:328-342 `sendCookieChange` -/
def sendCookieChange (h : Host) (sid : Nat) (cookie : Bytes) (interface : Option Nat) (dest : Sockaddr) : List Item :=
  sendIf h (cookieChange h.stack cookie (Cookie.make h.hash h.secret h.age (some dest))) sid interface dest

/-- src/RTMFP.cpp:517-552 `onIHello` -/
def onIHello (h : Host) (epd tag : Bytes) (interface : Option Nat) (src : Sockaddr) (mode : Mode) : List Out :=
  if mode = .ignore then []
  else if ¬ h.selected epd then (if h.onUnmatchedIHello then [.unmatchedIHello epd tag interface src] else [])
  else match mode with
    | .sendRedirect => (sendResponderRedirect h tag [] interface src).map .queue
    | _ => (sendIf h (rhello h.stack tag (Cookie.make h.hash h.secret h.age (some src)) (h.certFor epd)) 0 interface src).map .queue

/-- src/RTMFP.cpp:379-388 `findOpeningSessionByTag` -/
def findByTag (h : Host) (tag : Bytes) : Option Opening := h.opening.find? (fun o => o.waits && decide (o.tag = tag))

/-- src/RTMFP.cpp:554-566 `onRHello` -/
def onRHello (h : Host) (tag cookie cert : Bytes) (interface : Option Nat) (src : Sockaddr) : List Out :=
  match findByTag h tag with
  | none => if h.onUnmatchedRHello then [.unmatchedRHello tag cookie cert interface src] else []
  | some o => [.answered o.name cookie cert interface src]

/-- src/RTMFP.cpp:705-713 `onRedirect` -/
def onRedirect (h : Host) (tag : Bytes) (dests : List Address) : List Out :=
  match findByTag h tag with
  | none => []
  | some o => [.candidates o.name dests]

/-- src/RTMFP.cpp:604-626 `onIIKeying` up to the checks of the certificate and the signature -/
def onIIKeying (h : Host) (isid : Nat) (cookie cert skic signedPart sig : Bytes) (interface : Option Nat) (src : Sockaddr) : List Out :=
  if h.isShutdown then []
  else match Cookie.check h.hash h.secret h.age cookie (some src) with
    | .bad => []
    | .mismatch => (sendCookieChange h isid cookie interface src).map .queue
    | .ok => if h.decodes cert then [.keying isid cert skic signedPart sig interface src] else []

/-- `Address::getSockaddr` -/
def sockaddrOf (a : Address) : Sockaddr := { family := a.family, ip := a.ip, port := a.port }

/-- The handlers by call; `mode` is the mode of the session that a forwarded hello came by (src/Session.cpp:1864). The keying calls of a session
are handled by it (`Model/Instance.lean`). -/
def handle (h : Host) (mode : Mode) (interface : Option Nat) (src : Sockaddr) : Call → List Out
  | .ihello epd tag => onIHello h epd tag interface src .sendRHello
  | .rhello tag cookie cert => onRHello h tag cookie cert interface src
  | .redirect tag dests => onRedirect h tag dests
  | .iikeying isid cookie cert skic signedPart sig => onIIKeying h isid cookie cert skic signedPart sig interface src
  | .fihello epd reply tag => onIHello h epd tag none (sockaddrOf reply) mode
  | .rikeying _ _ _ _ => []
  | .cookieChange _ _ => []

/-- src/Flow.cpp:154-176 `Flow::forwardIHello`: the packets queued and the answer; `peer` is the other side of the flow's session if that is open:
its session id, the interface and the address. -/
def forwardIHello (h : Host) (peer : Option (Nat × Nat × Sockaddr)) (epd : Bytes) (reply : Address) (tag : Bytes) : List Item × Bool :=
  match peer with
  | none => ([], false)
  | some (sid, ifc, dest) =>
    match fihello h.stack epd reply tag with
    | none => ([], false)
    | some c => (sendPacket h c sid (some ifc) dest, true)

end Startup
end Rtmfp
