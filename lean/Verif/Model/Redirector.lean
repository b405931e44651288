import Verif.Model.VLU

/-!
# Model of `src/RedirectorClient.cpp`

A client of the redirector protocol, its flows (as far as it sees them), its timers and the user's callbacks.

* Times are integers (microseconds); the clock doesn't go backwards. A timer of the run loop fires at its time or later. (`C31` is about the run loop.)
* Flows are numbered in the order they are opened; whether `openFlow` answers a flow is up to the environment. What the client does to its flows is in the log `out`.
* `setStatus` runs the user's callback: the rest of the function that called it is a frame, done when the callback returns (`ret`). The user may call the client
  from inside of the callback, and the flow may fail meanwhile (the user may shut the library down). Timers don't fire inside of callbacks. Without a callback it returns at once.
* The other callbacks are called last, so what the user does in them happens after the function returned.
* Not modelled: the redirector's addresses, `setFIHelloMode`, getters.
* Addresses are given by their encodings (`C35`); the set of them is in the order of insertion (the order of `std::set<Address>` isn't modelled).
* A null pointer used as an object is noted in `null`.
-/

namespace Rtmfp
namespace Redir

/-- include/rtmfp/RedirectorClient.hpp:63-70 `Status` -/
inductive Status where | idle | connecting | connected | disconnected | badAuth | closed
deriving DecidableEq, Repr

/-- include/rtmfp/RedirectorClient.hpp:85-97 the messages -/
def CMD_SIMPLE_AUTH : UInt8 := 0x1d
/-- include/rtmfp/RedirectorClient.hpp:88 -/
def CMD_SETTINGS : UInt8 := 0x05
/-- include/rtmfp/RedirectorClient.hpp:89 -/
def CMD_DRAINING : UInt8 := 0x00
/-- include/rtmfp/RedirectorClient.hpp:90 -/
def CMD_LOAD_FACTOR : UInt8 := 0x0f
/-- include/rtmfp/RedirectorClient.hpp:93 -/
def CMD_REFLEXIVE_ADDR_REPORT : UInt8 := 0x0d
/-- include/rtmfp/RedirectorClient.hpp:96 -/
def CMD_USER_DATA : UInt8 := 0x10
/-- include/rtmfp/RedirectorClient.hpp:100 -/
def SETTINGS_OPT_INCLUDE_REFLEXIVE : Nat := 0x0d
/-- include/rtmfp/RedirectorClient.hpp:101 -/
def SETTINGS_OPT_ADD_ADDRESS : Nat := 0x0a
/-- include/rtmfp/RedirectorClient.hpp:105 -/
def EXCEPTION_BAD_AUTH : Nat := 0x0a
/-- src/RedirectorClient.cpp:12 `minimumReconnectIntervalLimit`, 5 seconds -/
def intervalLimit : Int := 5000000
/-- src/RedirectorClient.cpp:11 `signature` without the terminating 0: "http://zenomt.com/ns/rtmfp#redirector" -/
def signature : Bytes := [0x68, 0x74, 0x74, 0x70, 0x3a, 0x2f, 0x2f, 0x7a, 0x65, 0x6e, 0x6f, 0x6d, 0x74, 0x2e, 0x63, 0x6f, 0x6d, 0x2f, 0x6e, 0x73, 0x2f, 0x72, 0x74, 0x6d, 0x66,
  0x70, 0x23, 0x72, 0x65, 0x64, 0x69, 0x72, 0x65, 0x63, 0x74, 0x6f, 0x72]

/-- What can be observed. -/
inductive Ev where
  /-- an attempt to connect, and when -/
  | attempt (at_ : Int)
  /-- flow `k` was opened -/
  | opened (k : Nat)
  /-- flow `k` was closed by the client -/
  | closedFlow (k : Nat)
  /-- a message was written to flow `k` -/
  | wrote (k : Nat) (msg : Bytes)
  /-- the keepalive period and the retransmit limit of the session of flow `k` -/
  | keepalive (k : Nat) (t : Int)
  | limit (k : Nat) (t : Int)
  /-- the user's callbacks -/
  | status (st : Status)
  | reflexive (addr : Bytes)
  | userData (data : Bytes)
deriving DecidableEq, Repr

/-- The callers of `setStatus`: in the callback for which status the user is. -/
inductive Frame where | connecting | connected | disconnected
deriving DecidableEq, Repr

/-- What a timer's action is for: src/RedirectorClient.cpp:329-333, 373-376. -/
inductive Kind where | reconnect | load
deriving DecidableEq, Repr

/-- A timer of the run loop. -/
structure Tm where
  id : Nat
  kind : Kind
  at_ : Int
deriving DecidableEq, Repr

/-- include/rtmfp/RedirectorClient.hpp:123-145 the members, with the clock, the timers of the run loop that are pending, the flows opened, frames, and what was observed.
`waiting`: the flow's `onWritable` will be called when it is writable. -/
structure RC where
  now : Int
  status : Status
  minInterval : Int
  active : Bool
  paused : Bool
  advertise : Bool
  loadFactor : Nat
  loadInterval : Int
  loadChanged : Bool
  loadTimer : Option Nat
  addrs : List Bytes
  reflexiveValid : Bool
  retransmitLimit : Int
  keepalivePeriod : Int
  auth : List (Bytes × Bytes)
  send : Option Nat
  waiting : Bool
  recv : Bool
  reconnectTimer : Option Nat
  lastAttempt : Option Int
  flows : Nat
  timers : List Tm
  nextTimer : Nat
  frames : List Frame
  out : List Ev
  null : Bool
deriving DecidableEq, Repr

/-- include/rtmfp/RedirectorClient.hpp:23, 123-145, src/RedirectorClient.cpp:18-19 -/
def init (now : Int) : RC :=
  { now, status := .idle, minInterval := 30000000, active := true, paused := false, advertise := true, loadFactor := 0, loadInterval := 0, loadChanged := false,
    loadTimer := none, addrs := [], reflexiveValid := false, retransmitLimit := 10000000, keepalivePeriod := 10000000, auth := [], send := none, waiting := false,
    recv := false, reconnectTimer := none, lastAttempt := none, flows := 0, timers := [], nextTimer := 0, frames := [], out := [], null := false }

/-- something is observed -/
def say (s : RC) (e : Ev) : RC := { s with out := s.out ++ [e] }

/-- src/RedirectorClient.cpp:32-35 -/
def isConnected (s : RC) : Bool := decide (s.status = .connected)

/-- src/RunLoop.cpp `schedule`: a new timer -/
def schedule (s : RC) (kind : Kind) (t : Int) : RC := { s with timers := s.timers ++ [⟨s.nextTimer, kind, t⟩], nextTimer := s.nextTimer + 1 }

/-- `Timer::cancel` of what the pointer refers to, if it isn't empty -/
def cancel (s : RC) (t : Option Nat) : RC := { s with timers := s.timers.filter fun x => !(decide (some x.id = t)) }

/-- `m_send->write(msg)` -/
def write (s : RC) (msg : Bytes) : RC :=
  match s.send with
  | none => { s with null := true }
  | some k => say s (.wrote k msg)

/-- src/RedirectorClient.cpp:242-244: `m_send` is closed -/
def closeSend (s : RC) : RC :=
  match s.send with
  | none => s
  | some k => say s (.closedFlow k)

/-- src/RedirectorClient.cpp:240-249 `closeFlows`. A closed flow calls back no more (`C25`). -/
def closeFlows (s : RC) : RC := { closeSend s with send := none, waiting := false, recv := false, reflexiveValid := false }

/-- src/RedirectorClient.cpp:251-256 `setStatus`: the user's callback is called, and the caller waits for it -/
def setStatus (s : RC) (st : Status) (f : Frame) : RC := { say { s with status := st } (.status st) with frames := f :: s.frames }

/-- src/RedirectorClient.cpp:364-368 `onException` up to the callback -/
def onException (s : RC) (reason : Nat) : RC :=
  setStatus (closeFlows s) (if reason = EXCEPTION_BAD_AUTH then .badAuth else .disconnected) .disconnected

/-- src/RedirectorClient.cpp:258-279 `doConnect` up to the callback; `ok`: whether `openFlow` answers a flow -/
def doConnect (s : RC) (ok : Bool) : RC :=
  let s := { say s (.attempt s.now) with lastAttempt := some s.now }
  if ok then setStatus { say s (.opened s.flows) with send := some s.flows, flows := s.flows + 1, waiting := true } .connecting .connecting
  else onException { s with send := none } 0

/-- src/RedirectorClient.cpp:287-296: the message for one key; `hmac` is `hmacSHA256` and `nonce` the far nonce -/
def authMsg (hmac : Bytes → Bytes → Bytes) (nonce : Bytes) (a : Bytes × Bytes) : Bytes := CMD_SIMPLE_AUTH :: hmac a.2 nonce ++ a.1

/-- src/RedirectorClient.cpp:281-298 `sendAuth` -/
def sendAuth (hmac : Bytes → Bytes → Bytes) (nonce : Bytes) (s : RC) : RC := (s.auth.map (authMsg hmac nonce)).foldl write s

/-- src/RedirectorClient.cpp:304-309 -/
def settingsMsg (s : RC) : Bytes :=
  s.addrs.foldl (fun m a => Opt.append SETTINGS_OPT_ADD_ADDRESS a m) (if s.advertise then Opt.appendType SETTINGS_OPT_INCLUDE_REFLEXIVE [CMD_SETTINGS] else [CMD_SETTINGS])

/-- src/RedirectorClient.cpp:300-312 `sendSettingsIfActive` -/
def sendSettings (s : RC) : RC := if isConnected s && s.active && !s.paused then write s (settingsMsg s) else s

/-- src/RedirectorClient.cpp:314-321 `sendDrainingIfInactive` -/
def sendDraining (s : RC) : RC := if isConnected s && !s.active then write s [CMD_DRAINING] else s

/-- src/RedirectorClient.cpp:337-347 `sendLoadFactor` -/
def sendLoad (s : RC) : RC :=
  let s := if isConnected s then write s (VLU.append s.loadFactor [CMD_LOAD_FACTOR]) else s
  { s with loadChanged := false }

/-- src/RedirectorClient.cpp:323-335 `scheduleSendLoadFactor` -/
def scheduleLoad (s : RC) : RC :=
  if s.loadTimer = none then
    let s := sendLoad s
    { schedule s .load (s.now + s.loadInterval) with loadTimer := some s.nextTimer }
  else s

/-- src/RedirectorClient.cpp:55-60, 67-72: a setting of the session -/
def tell (s : RC) (e : Nat → Ev) : RC :=
  match s.send with
  | none => { s with null := true }
  | some k => say s (e k)

/-- src/RedirectorClient.cpp:349-362 `onConnected` after the callback -/
def afterConnected (hmac : Bytes → Bytes → Bytes) (nonce : Bytes) (s : RC) : RC :=
  if isConnected s then
    sendLoad (sendDraining (sendSettings (sendAuth hmac nonce (tell (tell s (.keepalive · s.keepalivePeriod)) (.limit · s.retransmitLimit)))))
  else s

/-- src/RedirectorClient.cpp:369-378 `onException` after the callback. (Without an attempt, the time would be -∞.) -/
def afterException (s : RC) : RC :=
  if s.status = .closed then s
  else { schedule s .reconnect ((s.lastAttempt.getD s.now) + max s.minInterval intervalLimit) with reconnectTimer := some s.nextTimer }

/-- src/RedirectorClient.cpp:37-53 `close` -/
def close (s : RC) : RC :=
  let s := { s with status := .closed, active := false }
  let s := { cancel s s.reconnectTimer with reconnectTimer := none }
  let s := { cancel s s.loadTimer with loadTimer := none }
  closeFlows s

/-- src/RedirectorClient.cpp:229-236 `checkFlowMetadata` -/
def checkMetadata (m : Bytes) : Bool :=
  if m.length ≥ signature.length + 1 then decide (m.take (signature.length + 1) = signature ++ [0])
  else if m.length < signature.length then false
  else decide (m.take signature.length = signature)

/-- src/RedirectorClient.cpp:390-416 `onMessage`; `valid`: whether the address can be read (`C35`) -/
def onMessage (s : RC) (valid : Bytes → Bool) : Bytes → RC
  | [] => s
  | c :: rest =>
    if c = CMD_REFLEXIVE_ADDR_REPORT then
      let s := { s with reflexiveValid := valid rest }
      if valid rest then say s (.reflexive rest) else s
    else if c = CMD_USER_DATA then say s (.userData rest)
    else s

/-- Calls of the user, and what happens. -/
inductive Op where
  | connect (ok : Bool)
  | close
  | setMinInterval (t : Int)
  | setActive (b : Bool)
  | setPaused (b : Bool)
  | setLoadFactor (n : Nat)
  | setLoadInterval (t : Int)
  | setAdvertise (b : Bool)
  | addAddress (a : Bytes)
  | removeAddress (a : Bytes)
  | clearAddresses
  | addAuth (key pw : Bytes)
  | setKeepalive (t : Int)
  | setLimit (t : Int)
  | sendUserData (d : Bytes)
  /-- the user's status callback returns; `nonce`: the far nonce -/
  | ret (nonce : Bytes)
  /-- time passes -/
  | tick (d : Nat)
  /-- a timer fires; `ok`: whether `openFlow` would answer a flow -/
  | fire (id : Nat) (ok : Bool)
  /-- callbacks of the flows -/
  | writable
  | exception (reason : Nat)
  | recvFlow (metadata : Bytes)
  | message (msg : Bytes)
deriving DecidableEq, Repr

/-- a call of the user, possible at any time, also in the status callback -/
def Op.user : Op → Bool
  | .ret _ | .tick _ | .fire _ _ | .writable | .exception _ | .recvFlow _ | .message _ => false
  | _ => true

/-- What the library and the run loop do: callbacks of flows only while they are open, timers when it is time. Flow ids and load factors have 64 bits. -/
def allowed (s : RC) : Op → Bool
  | .setLoadFactor n => decide (n < 2 ^ 64)
  | .addAddress a => decide (a.length + 10 < 2 ^ 64)
  | .ret _ => !s.frames.isEmpty
  | .tick _ => s.frames.isEmpty
  | .fire id _ => s.frames.isEmpty && s.timers.any fun t => decide (t.id = id) && decide (t.at_ ≤ s.now)
  | .writable => s.frames.isEmpty && s.send.isSome && s.waiting
  | .exception _ => s.send.isSome
  | .recvFlow _ => s.frames.isEmpty && s.send.isSome
  | .message _ => s.frames.isEmpty && s.recv
  | _ => true

/-- src/RedirectorClient.cpp:98-108 `setLoadFactor` -/
def setLoadFactor (s : RC) (n : Nat) : RC :=
  if n ≠ s.loadFactor then scheduleLoad { s with loadFactor := n, loadChanged := true } else s

/-- src/RedirectorClient.cpp:115-120 `setLoadFactorUpdateInterval` -/
def setLoadInterval (s : RC) (t : Int) : RC :=
  let s := { s with loadInterval := max t 0 }
  { s with timers := s.timers.map fun x => if some x.id = s.loadTimer then { x with at_ := s.now } else x }

/-- src/RedirectorClient.cpp:74-84 `setActive` -/
def setActive (s : RC) (b : Bool) : RC := if b ≠ s.active then sendDraining (sendSettings { s with active := b }) else s

/-- src/RedirectorClient.cpp:91-96 `setPaused` -/
def setPaused (s : RC) (b : Bool) : RC := if b then { s with paused := true } else sendSettings { s with paused := false }

/-- src/RedirectorClient.cpp:146-149 `m_simpleAuth[keyID] = password`, a map (in the order of insertion) -/
def setAuth (l : List (Bytes × Bytes)) (key pw : Bytes) : List (Bytes × Bytes) :=
  if l.any fun x => decide (x.1 = key) then l.map fun x => if x.1 = key then (key, pw) else x else l ++ [(key, pw)]

/-- src/RedirectorClient.cpp:187-191: insertion in a set -/
def insert (l : List Bytes) (a : Bytes) : List Bytes := if a ∈ l then l else l ++ [a]

/-- a timer fires: src/RedirectorClient.cpp:329-333, 373-376 -/
def fired (s : RC) (ok : Bool) : Kind → RC
  | .reconnect => doConnect { s with reconnectTimer := none } ok
  | .load =>
    let s := { s with loadTimer := none }
    if s.loadChanged then scheduleLoad s else s

/-- the frame is done: the callback returned -/
def returned (hmac : Bytes → Bytes → Bytes) (nonce : Bytes) (s : RC) : Frame → RC
  | .connecting => s
  | .connected => afterConnected hmac nonce s
  | .disconnected => afterException s

/-- One thing happens. -/
def step (hmac : Bytes → Bytes → Bytes) (valid : Bytes → Bool) (s : RC) : Op → RC
  | .connect ok => if s.status = .idle then doConnect s ok else s
  | .close => close s
  | .setMinInterval t => { s with minInterval := t }
  | .setActive b => setActive s b
  | .setPaused b => setPaused s b
  | .setLoadFactor n => setLoadFactor s n
  | .setLoadInterval t => setLoadInterval s t
  | .setAdvertise b => if b ≠ s.advertise then sendSettings { s with advertise := b } else s
  | .addAddress a => sendSettings { s with addrs := insert s.addrs a }
  | .removeAddress a => sendSettings { s with addrs := s.addrs.filter fun x => decide (x ≠ a) }
  | .clearAddresses => sendSettings { s with addrs := [] }
  | .addAuth k p => { s with auth := setAuth s.auth k p }
  | .setKeepalive t =>
    let s := { s with keepalivePeriod := t }
    if isConnected s then tell s (.keepalive · t) else s
  | .setLimit t =>
    let s := { s with retransmitLimit := t }
    if isConnected s then tell s (.limit · t) else s
  | .sendUserData d => if isConnected s then write s (CMD_USER_DATA :: d) else s
  | .ret nonce =>
    match s.frames with
    | [] => s
    | f :: fs => returned hmac nonce { s with frames := fs } f
  | .tick d => { s with now := s.now + d }
  | .fire id ok =>
    match s.timers.find? fun t => decide (t.id = id) with
    | none => s
    | some t => fired { s with timers := s.timers.filter fun x => !(decide (x.id = id)) } ok t.kind
  | .writable => setStatus { s with waiting := false } .connected .connected
  | .exception reason => onException s reason
  | .recvFlow m => if s.recv || !checkMetadata m then s else { s with recv := true }
  | .message m => onMessage s valid m

end Redir
end Rtmfp
