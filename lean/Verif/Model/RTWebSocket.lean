import Verif.Model.VLU

/-!
# Model of `test/RTWebSocket.cpp` and `test/RTWebSocket.hpp`: flows of messages over a message transport

An `RTWebSocket` carries any number of flows each way over a transport that keeps the order and the
bounds of messages.  The model is one end of it, with all its flows.  The other end and the transport
are the history: any message may arrive at any time.  The application is an `App`: after every
callback it may make any calls.

Simplified, throughout:

* the model begins after `init` (27-35), which the application calls before anything may arrive;
* `size_t` and `uintmax_t` counters are natural numbers, except that the number of bytes in flight
  wraps as in the code, and that what a message says in a VLU is a number below 2^64;
* time is not modelled: how many of the first messages of a flow have expired when the code looks is
  part of the history (`exp`), as is whether a round trip measurement begins (`probe`); what
  `measureRTT` and `addRTT` (529-580) do to `outstandingThresh` is the step `limit`;
* `notifyWhenWritable`, `isWritable`, `doWritable` (700-761) of a flow are not modelled;
* the deferred `trimSendBuffer` (809-818) may happen at any time (step `trim`);
* the calls an application makes from a callback which happens inside `RTWebSocket::close` are not
  modelled (the callbacks are); all others are.
-/

namespace Rtmfp.RTWS

/-- The messages of the protocol, test/RTWebSocket.hpp:22-35. -/
inductive Msg where
  | ping (b : Bytes)
  | pong (b : Bytes)
  | window (n : Nat)
  /-- `ret` is the flow it is a return of, if any -/
  | opens (id : Nat) (ret : Option Nat) (about : Bytes)
  | data (id : Nat) (more : Bool) (b : Bytes)
  /-- `extra` is the count minus one -/
  | abandon (id extra : Nat)
  | closes (id : Nat)
  | ack (id delta adv : Nat)
  | closeAck (id : Nat)
  | refuse (id reason : Nat) (text : Bytes)
  deriving DecidableEq, Repr

/-- How each message is written: test/RTWebSocket.cpp:211-214 (pong), 522-525 (window), 634-639
(opens), 859-862 (data), 778-783 (abandon: the count is left out when it is one), 790-793 (closes),
1068-1073 (ack), 1079-1082 (closeAck), 979-983 (refuse).  A ping is never sent by this code. -/
def Msg.encode : Msg → Bytes
  | .ping b => 0x01 :: b
  | .pong b => 0x41 :: b
  | .window n => 0x0a :: VLU.encode n
  | .opens id .none m => 0x10 :: (VLU.encode id ++ m)
  | .opens id (.some r) m => 0x30 :: (VLU.encode id ++ (VLU.encode r ++ m))
  | .data id more b => (if more then 0x3d else 0x1d) :: (VLU.encode id ++ b)
  | .abandon id extra => 0x1a :: (VLU.encode id ++ (if extra = 0 then [] else VLU.encode extra))
  | .closes id => 0x1c :: VLU.encode id
  | .ack id d a => 0x5a :: (VLU.encode id ++ (VLU.encode d ++ VLU.encode a))
  | .closeAck id => 0x5c :: VLU.encode id
  | .refuse id r t => 0x5e :: (VLU.encode id ++ (VLU.encode r ++ t))

/-- `cursor += (rv = VLU::parse(cursor, limit, &v)); if(0 == rv) return false;`, e.g.
test/RTWebSocket.cpp:241-243: the number and the rest. -/
def vlu (b : Bytes) : Option (Nat × Bytes) :=
  match VLU.parse b with
  | .none => .none
  | .some (v, n) => .some (v, b.drop n)

/-- How a message is read: `onBinaryMessage`, test/RTWebSocket.cpp:145-201, and the parsing halves of
the functions it calls (209-421).  `none`: a message that can't be read (the function answers false).
`some none`: nothing to do (an empty message, or one of an unknown kind).  Simplified: in the code the
look-up of the flow comes between the reading of the numbers of a FLOW_OPEN_RETURN (245-254); either
way the answer is false. -/
def Msg.decode : Bytes → Option (Option Msg)
  | [] => .some .none
  | t :: b =>
    if t = 0x01 then .some (.some (.ping b))
    else if t = 0x41 then .some (.some (.pong b))
    else if t = 0x0a then (vlu b).map fun p => .some (.window p.1)
    else if t = 0x10 then (vlu b).map fun p => .some (.opens p.1 .none p.2)
    else if t = 0x30 then (vlu b).bind fun p => (vlu p.2).map fun q => .some (.opens p.1 (.some q.1) q.2)
    else if t = 0x1d then (vlu b).map fun p => .some (.data p.1 false p.2)
    else if t = 0x3d then (vlu b).map fun p => .some (.data p.1 true p.2)
    else if t = 0x1a then (vlu b).bind fun p =>
      if p.2 = [] then .some (.some (.abandon p.1 0)) else (vlu p.2).map fun q => .some (.abandon p.1 q.1)
    else if t = 0x1c then (vlu b).map fun p => .some (.closes p.1)
    else if t = 0x5a then (vlu b).bind fun p => (vlu p.2).bind fun q => (vlu q.2).map fun r =>
      .some (.ack p.1 q.1 r.1)
    else if t = 0x5c then (vlu b).map fun p => .some (.closeAck p.1)
    else if t = 0x5e then (vlu b).bind fun p =>
      if p.2 = [] then .some (.some (.refuse p.1 0 [])) else (vlu p.2).map fun q => .some (.refuse p.1 q.1 q.2)
    else .some .none

/-- A message waiting to be sent: `SendFlow::WriteMessage`, test/RTWebSocket.cpp:611-625.  `num` is
its place in the order of writing, which the code doesn't keep; `fin`: the use count of its receipt is
zero, so that it can't be abandoned any more. -/
structure WMsg where
  num : Nat
  bytes : Bytes
  off : Nat
  fin : Bool := false
  deriving DecidableEq, Repr

/-- `SendFlow`, test/RTWebSocket.hpp:166-187.  `opening` is `m_flowOpenMessage`, `count` the number of
messages ever written (not in the code), `lost` is `m_abandonCount`. -/
structure SFlow where
  id : Nat
  pri : Nat
  opening : Option Msg
  up : Bool := true
  buf : List WMsg := []
  count : Nat := 0
  exc : Bool := false
  lost : Nat := 0
  sent : Nat := 0
  through : Nat := 65536
  acked : Nat := 0
  shut : Bool := false
  deriving DecidableEq, Repr

/-- A message that is arriving or has arrived: `RecvFlow::ReadMessage`, test/RTWebSocket.cpp:911-934.
Simplified: the fragments are put together as they come. -/
structure RMsg where
  num : Nat
  bytes : Bytes
  whole : Bool
  deriving DecidableEq, Repr

/-- `RecvFlow`, test/RTWebSocket.hpp:244-262.  `yes` is `m_userOpen`, `ended` is `m_complete`, `told`
is `m_sentComplete`, `over` is `m_sentCloseAck`, `got` is `m_receivedByteCount`, `size` is
`m_receiveBufferByteLength`. -/
structure RFlow where
  id : Nat
  about : Bytes
  yes : Bool := false
  up : Bool := true
  paused : Bool := false
  cap : Nat := 2097151
  size : Nat := 0
  got : Nat := 0
  thresh : Nat := 0
  ended : Bool := false
  told : Bool := false
  over : Bool := false
  next : Nat := 1
  pending : Bool := false
  buf : List RMsg := []
  deriving DecidableEq, Repr

/-- Who sends a message: a sending flow, a receiving flow (by the order in which they came to be), or
the connection itself. -/
inductive Who where
  | s (n : Nat)
  | r (n : Nat)
  | self
  deriving DecidableEq, Repr

/-- What can be seen.  `tx`: a message given to the transport.  `heard`: a message for the receiving
flow arrived.  `wrote`: an accepted `write`.  `offered`: the `onRecvFlow` callback, with the sending
flow it returns to if it was called there.  `message`, `complete`, `refused`, `done`, `dropped`,
`error`: the callbacks `onMessage`, `onComplete`, `onException`, `onFinished(false)`,
`onFinished(true)`, `onError`. -/
inductive Ev where
  | tx (who : Who) (m : Msg)
  | heard (r : Nat) (m : Msg)
  | wrote (s : Nat) (b : Bytes)
  | offered (r : Nat) (on : Option Nat)
  | message (r num : Nat) (b : Bytes)
  | complete (r : Nat)
  | refused (s reason : Nat) (text : Bytes)
  | done (s num : Nat)
  | dropped (s num : Nat)
  | error
  deriving DecidableEq, Repr

/-- The calls an application can make.  In `opens` and `back` (open a return flow) `id` is the number
the list of flows gives the new flow: any that isn't in use. -/
inductive Call where
  | opens (id : Nat) (about : Bytes) (pri : Nat)
  | back (r id : Nat) (about : Bytes) (pri : Nat)
  | write (s : Nat) (b : Bytes)
  | closeS (s : Nat)
  | priority (s pri : Nat)
  | accept (r : Nat)
  | closeR (r reason : Nat) (text : Bytes)
  | capacity (r n : Nat)
  | pause (r : Nat) (yes : Bool)
  | close
  deriving DecidableEq, Repr

/-- The application: what it calls in a callback, given all that has happened, the callback last. -/
structure App where
  react : List Ev → List Call

/-- `RTWebSocket`, test/RTWebSocket.hpp:119-137.  Flows are named by the order in which they came to
be; `S`, `R` are the objects (which live on after the connection has forgotten them), `sIds`, `rIds`
the tables `m_sendFlows`, `m_recvFlows` by flow number.  `ackFlows` is in the order of insertion; in
the code it is ordered by address.  `tasks` are the `deliverData` waiting in `doLater`.  `trimming` is
the flow whose `trimSendBuffer` (820-842) is calling an `onFinished` while it holds a reference into
the list; `wild` says that the list was changed under that reference, and the behaviour is undefined
from there on. -/
structure St where
  up : Bool := true
  userUp : Bool := true
  ackNow : Bool := false
  sendNow : Bool := false
  acc : Nat := 0
  ackWin : Nat := 2800
  bytesSent : Nat := 0
  bytesAcked : Nat := 0
  thresh : Nat := 65536
  minThresh : Nat := 65536
  chunk : Nat := 1400
  nS : Nat := 0
  nR : Nat := 0
  S : Nat → SFlow := fun _ => { id := 0, pri := 0, opening := .none }
  R : Nat → RFlow := fun _ => { id := 0, about := [] }
  sIds : List (Nat × Nat) := []
  rIds : List (Nat × Nat) := []
  ackFlows : List Nat := []
  work : Nat → List Nat := fun _ => []
  tasks : List Nat := []
  trimming : Option Nat := .none
  wild : Bool := false
  log : List Ev := []

/-- A freshly made connection after `init`, test/RTWebSocket.cpp:17-35. -/
def init : St := {}

/-- Something that can be seen happens.  Not in the code. -/
def note (st : St) (e : Ev) : St := { st with log := st.log ++ [e] }

/-- Change a sending flow.  Not in the code. -/
def setS (st : St) (s : Nat) (f : SFlow) : St := { st with S := fun i => if i = s then f else st.S i }

/-- Change a receiving flow.  Not in the code. -/
def setR (st : St) (r : Nat) (f : RFlow) : St := { st with R := fun i => if i = r then f else st.R i }

/-- `sendBytes`, test/RTWebSocket.cpp:134-143. -/
def tx (st : St) (who : Who) (m : Msg) : St := if st.up then note st (.tx who m) else st

/-- `scheduleTransmission`, test/RTWebSocket.cpp:466-473: `sendNow` also stands for the notification
asked of the transport. -/
def schedule (st : St) : St := if st.up && !st.sendNow then { st with sendNow := true } else st

/-- `scheduleAckNow`, test/RTWebSocket.cpp:442-449. -/
def scheduleAck (st : St) : St := if st.ackNow then st else schedule { st with ackNow := true }

/-- `queueAck`, test/RTWebSocket.cpp:432-440. -/
def queueAck (st : St) (r : Nat) (now : Bool) : St :=
  if st.up then
    let st := if r ∈ st.ackFlows then st else { st with ackFlows := st.ackFlows ++ [r] }
    if now then scheduleAck st else st
  else st

/-- `queueTransmission`, test/RTWebSocket.cpp:459-464. -/
def queueTx (st : St) (s : Nat) : St :=
  schedule (if st.up && !decide (s ∈ st.work (st.S s).pri) then
    { st with work := fun p => if p = (st.S s).pri then st.work p ++ [s] else st.work p } else st)

/-- `getBytesInFlight`, test/RTWebSocket.cpp:104-107; a `size_t` wraps. -/
def inFlight (st : St) : Nat :=
  if st.bytesAcked ≤ st.bytesSent then st.bytesSent - st.bytesAcked
  else 2 ^ 64 - (st.bytesAcked - st.bytesSent)

/-- `basicOpenFlow`, test/RTWebSocket.cpp:119-132, and the constructor of `SendFlow`, 627-640.
Simplified: `setPriority` (128) may queue the flow already; it is queued once all the same. -/
def openFlow (st : St) (id : Nat) (ret : Option Nat) (about : Bytes) (pri : Nat) : St :=
  if st.up && !(st.sIds.any fun p => p.1 == id) then
    let st := { setS st st.nS { id := id, pri := pri, opening := .some (.opens id ret about) } with
      nS := st.nS + 1, sIds := st.sIds ++ [(id, st.nS)] }
    queueTx st (st.nS - 1)
  else st

/-- `SendFlow::write`, test/RTWebSocket.cpp:642-658.  A write to the flow whose list is being trimmed
may move the list under `trimSendBuffer`'s reference; it is taken always to do so. -/
def write (st : St) (s : Nat) (b : Bytes) : St :=
  let f := st.S s
  if s < st.nS && f.up then
    let st := { st with wild := st.wild || decide (st.trimming = .some s) }
    queueTx (note (setS st s { f with buf := f.buf ++ [⟨f.count + 1, b, 0, false⟩], count := f.count + 1 }) (.wrote s b)) s
  else st

/-- `SendFlow::close`, test/RTWebSocket.cpp:670-684. -/
def closeS (st : St) (s : Nat) : St :=
  if s < st.nS && (st.S s).up then queueTx (setS st s { st.S s with up := false }) s else st

/-- `SendFlow::setPriority`, test/RTWebSocket.cpp:691-698. -/
def setPriority (st : St) (s pri : Nat) : St :=
  if s < st.nS ∧ pri < 8 ∧ (st.S s).pri ≠ pri then queueTx (setS st s { st.S s with pri := pri }) s else st

/-- `RecvFlow::accept`, test/RTWebSocket.cpp:948-952. -/
def accept (st : St) (r : Nat) : St :=
  if r < st.nR && (st.R r).up then setR st r { st.R r with yes := true } else st

/-- `RecvFlow::setBufferCapacity`, test/RTWebSocket.cpp:1002-1007. -/
def capacity (st : St) (r n : Nat) : St :=
  let st := if n = (st.R r).cap then st else queueAck st r true
  setR st r { st.R r with cap := n }

/-- `RecvFlow::close`, test/RTWebSocket.cpp:954-988. -/
def closeR (st : St) (r reason : Nat) (text : Bytes) : St :=
  if (st.R r).up then
    let st := capacity (setR st r { st.R r with up := false, yes := false }) r 0
    if (st.R r).ended then st else tx st (.r r) (.refuse (st.R r).id reason text)
  else st

/-- `RecvFlow::queueDelivery`, test/RTWebSocket.cpp:1131-1138, with `safeDoLater`, 582-592. -/
def queueDelivery (st : St) (r : Nat) : St :=
  let f := st.R r
  if !f.pending && !f.paused then
    let st := setR st r { f with pending := true }
    if st.up then { st with tasks := st.tasks ++ [r] } else st
  else st

/-- `RecvFlow::setPaused`, test/RTWebSocket.cpp:1019-1029. -/
def pause (st : St) (r : Nat) (yes : Bool) : St :=
  let was := (st.R r).paused
  let st := setR st r { st.R r with paused := yes }
  if yes then st else
    let st := queueDelivery st r
    if was then queueAck st r true else st

/-- `RecvFlow::getBufferAdvertisement`, test/RTWebSocket.cpp:990-1000. -/
def advert (f : RFlow) : Nat := if f.paused then f.cap - f.size else f.cap

/-- `RecvFlow::sendAck`, test/RTWebSocket.cpp:1060-1085. -/
def sendAck (st : St) (r : Nat) : St :=
  let f := st.R r
  if f.over then st else
    let st := setR st r { f with thresh := advert f / 2 }
    let st := tx st (.r r) (.ack f.id f.got (advert f))
    let st := setR st r { st.R r with got := 0 }
    if f.ended then setR (tx st (.r r) (.closeAck f.id)) r { st.R r with over := true } else st

/-- `sendAcks`, test/RTWebSocket.cpp:451-457. -/
def sendAcks (st : St) : St :=
  { st.ackFlows.foldl sendAck { st with ackNow := false } with ackFlows := [] }

/-- `ackIfNeeded`, test/RTWebSocket.cpp:423-430. -/
def ackIfNeeded (st : St) : St :=
  if st.ackWin ≤ st.acc then { scheduleAck st with acc := st.acc % st.ackWin } else st

/-- `RecvFlow::onDataAbandon`, test/RTWebSocket.cpp:1116-1129. -/
def onAbandon (st : St) (r extra : Nat) : St :=
  let f := st.R r
  let f := match f.buf.getLast? with
    | .some m => if m.whole then { f with next := f.next + (extra + 1) } else
        { f with size := f.size - m.bytes.length, buf := f.buf.dropLast, next := f.next + extra }
    | .none => { f with next := f.next + (extra + 1) }
  queueAck (setR st r f) r true

/-- `RecvFlow::onFlowCloseMessage`, test/RTWebSocket.cpp:1087-1093. -/
def onClose (st : St) (r : Nat) : St :=
  queueAck (queueDelivery (onAbandon (setR st r { st.R r with ended := true }) r 0) r) r true

/-- `RecvFlow::onData`, test/RTWebSocket.cpp:1095-1114, with `ReadMessage::addFragment`, 920-926. -/
def onData (st : St) (r : Nat) (more : Bool) (b : Bytes) (len : Nat) : St :=
  let f := st.R r
  let f := { f with got := f.got + len, size := f.size + b.length }
  let f := match f.buf.getLast? with
    | .some m => if m.whole then { f with buf := f.buf ++ [⟨f.next, b, !more⟩], next := f.next + 1 } else
        { f with buf := f.buf.dropLast ++ [⟨m.num, m.bytes ++ b, !more⟩] }
    | .none => { f with buf := [⟨f.next, b, !more⟩], next := f.next + 1 }
  let st := setR st r f
  let st := if more then st else queueDelivery st r
  queueAck st r (decide ((st.R r).thresh ≤ (st.R r).got))

/-- The end of a receiving flow when nobody answers the callback: `deliverCompleteAndClose`,
test/RTWebSocket.cpp:1168-1177, as called by `RTWebSocket::close` (79). -/
def endQuietly (st : St) (r : Nat) : St :=
  let f := st.R r
  let st := if f.told then st else
    let st := setR st r { f with told := true }
    if f.up && f.yes then note st (.complete r) else st
  closeR st r 0 []

/-- `trimSendBuffer`, test/RTWebSocket.cpp:820-842, of a flow that was refused, when nobody answers the
callbacks: all messages are abandoned, up to one that is already finished (`abandon` does nothing to it,
WriteReceipt.cpp:22).  `n` is at least the number of messages. -/
def dropAll : Nat → St → Nat → St
  | 0, st, _ => st
  | n + 1, st, s =>
    let f := st.S s
    match f.buf with
    | [] => st
    | m :: rest => if m.fin then st else dropAll n (setS (note st (.dropped s m.num)) s { f with buf := rest, lost := f.lost + 1 }) s

/-- What `RTWebSocket::close` does to a sending flow: test/RTWebSocket.cpp:63-67 with
`onExceptionMessage`, 890-903.  Its `queueTransmission` does nothing as the connection is closed. -/
def endS (st : St) (s : Nat) : St :=
  let f := st.S s
  if f.up then
    let st := note (setS st s { f with exc := true, up := false }) (.refused s 0 [])
    dropAll (st.S s).buf.length st s
  else st

/-- What `RTWebSocket::close` does to a receiving flow: test/RTWebSocket.cpp:76-80. -/
def endR (st : St) (r : Nat) : St :=
  if (st.R r).up && (st.R r).yes then endQuietly (onClose st r) r else st

/-- `RTWebSocket::close`, test/RTWebSocket.cpp:47-87.  When it is called from the `onFinished` of a
message that `trimSendBuffer` abandons, the message list is emptied under that function's reference if
the flow is open; this is taken always to be so, and nothing more is modelled then (`wild`).
Simplified: receiving flows are ended in the order of their coming, not of their numbers. -/
def close (st : St) : St :=
  if !st.userUp then st
  else if st.trimming.isSome then { st with wild := true }
  else
    let st := { st with up := false, userUp := false }
    let st := st.sIds.foldl (fun st p => endS st p.2) { st with sIds := [] }
    let st := st.rIds.foldl (fun st p => endR st p.2) { st with rIds := [] }
    { st with ackFlows := [], work := fun _ => [] }

/-- A call by the application.  Opening a return flow: `openReturnFlow`, test/RTWebSocket.cpp:1041-1051. -/
def call (st : St) : Call → St
  | .opens id about pri => if pri < 8 then openFlow st id .none about pri else st
  | .back r id about pri =>
    if r < st.nR && !(st.R r).ended && (st.R r).up && decide (pri < 8) then openFlow st id (.some (st.R r).id) about pri else st
  | .write s b => write st s b
  | .closeS s => closeS st s
  | .priority s pri => setPriority st s pri
  | .accept r => accept st r
  | .closeR r reason text => if r < st.nR then closeR st r reason text else st
  | .capacity r n => if r < st.nR then capacity st r n else st
  | .pause r yes => if r < st.nR then pause st r yes else st
  | .close => close st

/-- A callback: what the application sees, and what it calls then. -/
def tell (app : App) (st : St) (e : Ev) : St :=
  let st := note st e
  (app.react st.log).foldl call st

/-- `trimSendBuffer`, test/RTWebSocket.cpp:820-842: `n` is how many of the first messages are abandoned
(all of them if the flow was refused).  The `onFinished` callback of `abandon` comes before the message
is removed. -/
def trimLoop (app : App) : Nat → St → Nat → St
  | 0, st, _ => st
  | n + 1, st, s =>
    match (st.S s).buf with
    | [] => st
    | m :: _ =>
      let st := tell app { st with trimming := .some s } (.dropped s m.num)
      let f := st.S s
      trimLoop app n (setS { st with trimming := .none } s { f with buf := f.buf.tail, lost := f.lost + 1 }) s

/-- `trimSendBuffer`, test/RTWebSocket.cpp:820-842: `exp` messages have expired. -/
def trim (app : App) (st : St) (s exp : Nat) : St :=
  trimLoop app (if (st.S s).exc then (st.S s).buf.length else exp) st s

/-- `transmitOneFragment`, test/RTWebSocket.cpp:844-879. -/
def fragment (app : App) (st : St) (s : Nat) : St × Bool :=
  let f := st.S s
  match f.buf with
  | [] => (st, false)
  | m :: rest =>
    let size := min (2 ^ 20) (min st.chunk (f.through - f.sent))
    if size = 0 then (st, false) else
      let b := (m.bytes.drop m.off).take size
      let last := decide (m.bytes.length ≤ m.off + size)
      let msg : Msg := .data f.id (!last) b
      let st := tx st (.s s) msg
      let st := { st with bytesSent := st.bytesSent + msg.encode.length }
      let f := { f with sent := f.sent + msg.encode.length }
      if last then
        let st := tell app (setS st s { f with buf := { m with off := m.bytes.length, fin := true } :: rest }) (.done s m.num)
        (setS st s { st.S s with buf := (st.S s).buf.tail }, true)
      else (setS st s { f with buf := { m with off := m.off + size } :: rest }, true)

/-- `SendFlow::transmit`, test/RTWebSocket.cpp:763-802. -/
def transmitS (app : App) (st : St) (s pri exp : Nat) : St × Bool :=
  if pri ≠ (st.S s).pri then (st, false) else
  match (st.S s).opening with
  | .some m => (setS (tx st (.s s) m) s { st.S s with opening := .none }, true)
  | .none =>
    let st := trim app st s exp
    let f := st.S s
    if 0 < f.lost then
      (setS (tx st (.s s) (.abandon f.id (f.lost - 1))) s { f with lost := 0 }, true)
    else if !f.up && f.buf.isEmpty && !f.shut then
      (setS (tx st (.s s) (.closes f.id)) s { f with shut := true }, true)
    else if f.through ≤ f.sent then (st, false)
    else fragment app st s

/-- `startRTT`, test/RTWebSocket.cpp:512-527, when it begins a measurement. -/
def startRTT (st : St) (probe : Bool) : St :=
  if probe then
    tx st .self (.window (min (max 2800 (inFlight st / 4)) (min 11200 st.minThresh)))
  else st

/-- The `while` loop of `transmit`, test/RTWebSocket.cpp:493-503, for one priority.  `n` is at least the
length of the queue: a flow that has nothing to send doesn't change the queues. -/
def tryPri (app : App) (exp : Nat → Nat) (probe : Bool) : Nat → St → Nat → St × Bool
  | 0, st, _ => (st, false)
  | n + 1, st, pri =>
    match st.work pri with
    | [] => (st, false)
    | s :: _ =>
      let r := transmitS app st s pri (exp s)
      if r.2 then
        let st := r.1
        let st := if s ∈ st.work pri then
          { st with work := fun p => if p = pri then (st.work p).erase s ++ [s] else st.work p } else st
        (startRTT st probe, true)
      else
        tryPri app exp probe n { r.1 with work := fun p => if p = pri then (r.1.work p).erase s else r.1.work p } pri

/-- The `for` loop of `transmit`, test/RTWebSocket.cpp:488-504: priorities `n - 1` down to 0. -/
def tryAll (app : App) (exp : Nat → Nat) (probe : Bool) : Nat → St → St × Bool
  | 0, st => (st, false)
  | n + 1, st =>
    let r := tryPri app exp probe (st.work n).length st n
    if r.2 then r else tryAll app exp probe n r.1

/-- `RTWebSocket::transmit`, test/RTWebSocket.cpp:475-510, called when the transport has room, as long
as it has answered true. -/
def transmit (app : App) (exp : Nat → Nat) (probe : Bool) (st : St) : St :=
  if !st.up || !st.sendNow then st
  else if st.ackNow then sendAcks st
  else
    let r := if inFlight st < st.thresh then tryAll app exp probe 8 st else (st, false)
    if r.2 then r.1 else { r.1 with sendNow := false }

/-- `deliverCompleteAndClose`, test/RTWebSocket.cpp:1168-1177. -/
def endFlow (app : App) (st : St) (r : Nat) : St :=
  let f := st.R r
  let st := if f.told then st else
    let st := setR st r { f with told := true }
    if f.up && f.yes then tell app st (.complete r) else st
  closeR st r 0 []

/-- The loop of `deliverData`, test/RTWebSocket.cpp:1144-1162.  `n` is the number of messages in the
buffer; nothing arrives in the meantime. -/
def deliverLoop (app : App) : Nat → St → Nat → St
  | 0, st, _ => st
  | n + 1, st, r =>
    let f := st.R r
    match f.buf with
    | [] => st
    | m :: rest =>
      if f.paused || !(f.up && f.yes) || !m.whole then st
      else deliverLoop app n (tell app (setR st r { f with buf := rest, size := f.size - m.bytes.length }) (.message r m.num m.bytes)) r

/-- `deliverData`, test/RTWebSocket.cpp:1140-1166. -/
def deliver (app : App) (st : St) (r : Nat) : St :=
  let st := setR st r { st.R r with pending := false }
  let st := deliverLoop app (st.R r).buf.length st r
  if (st.R r).ended && (st.R r).buf.isEmpty then endFlow app st r else st

/-- `closeWithError`, test/RTWebSocket.cpp:594-603. -/
def fail (app : App) (st : St) : St := close (tell app st .error)

/-- `SendFlow::onExceptionMessage`, test/RTWebSocket.cpp:890-903. -/
def onRefuse (app : App) (st : St) (s reason : Nat) (text : Bytes) : St :=
  let f := st.S s
  let st := setS st s { f with exc := true }
  let st := if f.up then tell app (closeS st s) (.refused s reason text) else st
  queueTx (trim app st s 0) s

/-- Where a flow number leads.  `m_sendFlows.has` / `at`, `m_recvFlows.find`. -/
def find (t : List (Nat × Nat)) (id : Nat) : Option Nat := (t.find? fun p => p.1 == id).map (·.2)

/-- The new flow in `onFlowOpenMessage`, test/RTWebSocket.cpp:263-264. -/
def newR (st : St) (id : Nat) (about : Bytes) : St :=
  { setR st st.nR { id := id, about := about } with nR := st.nR + 1, rIds := st.rIds ++ [(id, st.nR)] }

/-- The second half of `onFlowOpenMessage`, test/RTWebSocket.cpp:272-288: `on` is the sending flow whose
`onRecvFlow` is called, if any. -/
def offer (app : App) (st : St) (r : Nat) (on : Option Nat) : St :=
  let st := tell app st (.offered r on)
  let st := if (st.R r).up && (st.R r).yes then st else closeR st r 0 []
  queueAck st r true

/-- The acting halves of `onPingMessage` … `onFlowExceptionMessage`, test/RTWebSocket.cpp:209-421; false
if the message is refused.  `len` is its length.  Simplified: the texts of the code's own refusals
("not accepted", "return association not found") are empty here. -/
def act (app : App) (st : St) (len : Nat) : Msg → St × Bool
  | .ping b => (tx st .self (.pong b), true)
  | .pong _ => (st, true)
  | .window n => (ackIfNeeded { st with ackWin := max n 2800 }, true)
  | .opens id ret about =>
    if (find st.rIds id).isSome then (st, false) else
    let r := st.nR
    let st := note (newR st id about) (.heard r (.opens id ret about))
    match ret with
    | .none => (offer app st r .none, true)
    | .some t =>
      match find st.sIds t with
      | .none => (closeR st r 0 [], true)
      | .some s => if (st.S s).up then (offer app st r (.some s), true) else (closeR st r 0 [], true)
  | .data id more b =>
    match find st.rIds id with
    | .none => (st, false)
    | .some r =>
      let st := ackIfNeeded { st with acc := st.acc + len }
      (onData (note st (.heard r (.data id more b))) r more b len, true)
  | .abandon id extra =>
    match find st.rIds id with
    | .none => (st, false)
    | .some r => (onAbandon (note st (.heard r (.abandon id extra))) r extra, true)
  | .closes id =>
    match find st.rIds id with
    | .none => (st, false)
    | .some r =>
      let st := onClose (note st (.heard r (.closes id))) r
      ({ st with rIds := st.rIds.filter fun p => p.1 != id }, true)
  | .ack id d a =>
    match find st.sIds id with
    | .none => (st, false)
    | .some s =>
      let f := st.S s
      let st := { st with bytesAcked := st.bytesAcked + d }
      (queueTx (setS st s { f with acked := f.acked + d, through := f.acked + d + a }) s, true)
  | .closeAck id =>
    match find st.sIds id with
    | .none => (st, false)
    | .some s => if (st.S s).up then (st, false) else ({ st with sIds := st.sIds.filter fun p => p.1 != id }, true)
  | .refuse id reason text =>
    match find st.sIds id with
    | .none => (st, false)
    | .some s => (onRefuse app st s reason text, true)

/-- `onBinaryMessage`, test/RTWebSocket.cpp:145-207. -/
def arrive (app : App) (st : St) (b : Bytes) : St :=
  match Msg.decode b with
  | .none => fail app st
  | .some .none => st
  | .some (.some m) =>
    let r := act app st b.length m
    if r.2 then r.1 else fail app r.1

/-- What can happen to a connection. -/
inductive Op where
  | call (c : Call)
  | recv (b : Bytes)
  | transmit (exp : Nat → Nat) (probe : Bool)
  | task
  | trim (s exp : Nat)
  | gone
  | limit (thresh minThresh chunk : Nat)

/-- One step.  After `close` the transport calls no more (`onClientClosed`, 56), but what was put off
with `doLater` still runs. -/
def step (app : App) (st : St) (o : Op) : St :=
  if st.wild then st else
  match o with
  | .call c => call st c
  | .recv b => if st.userUp then arrive app st b else st
  | .transmit exp probe => transmit app exp probe st
  | .task => match st.tasks with
    | [] => st
    | r :: rest => deliver app { st with tasks := rest } r
  | .trim s exp => if s < st.nS then trim app st s exp else st
  | .gone => if st.userUp then fail app st else st
  | .limit a b c => { st with thresh := a, minThresh := b, chunk := c }

/-- A history. -/
def run (app : App) (st : St) (os : List Op) : St := os.foldl (step app) st

end Rtmfp.RTWS
