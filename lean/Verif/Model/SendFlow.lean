import Verif.Model.RecvFlow
import Verif.Model.WriteReceipt

/-!
# Model of `src/SendFlow.cpp` and of what `src/Session.cpp` does with outstanding fragments

All send flows of one session are modelled together, because their fragments share the session's list of outstanding
fragments and its transmission numbers. Flows are numbered by the order of their creation.

* `m_send_queue` is the sequence of its elements, each with its `List` name. The names that `List::append` gives are arguments of
  the operations (as in the model of receive flows): any names not in use.
* The session's `m_outstandingFrags` refers to fragments by flow and sequence number; the members that don't change while a
  fragment is in the list (`m_transmit_size` and `m_tsn`) are copied in the entry.
* `size_t` counters wrap modulo 2^64 (`add64`, `sub64`).
* A completion callback is an output, and what the user does in it happens after the library function returned. (Writing to the flow
  from inside of a callback invalidates the references held by `trimSendQueue` and `assembleData`; this is not modelled.)
* When the alarms fire, the list of flows ready for transmission and the writable notification are not modelled: `transmit` may happen to any bound flow.
* Sequence and transmission numbers are unbounded (2^64 fragments are not reached).
-/

namespace Rtmfp

/-- `size_t` addition -/
def add64 (a b : Nat) : Nat := (a + b) % W64
/-- `size_t` subtraction -/
def sub64 (a b : Nat) : Nat := (a + (W64 - b % W64)) % W64

/-- include/rtmfp/packet.hpp:32 -/
def CHUNK_USERDATA : UInt8 := 0x10
/-- include/rtmfp/packet.hpp:33 -/
def CHUNK_NEXT_USERDATA : UInt8 := 0x11
/-- include/rtmfp/params.hpp:15 `MAX_DATA_FRAG_LENGTH` -/
def MAX_DATA_FRAG_LENGTH : Nat := 1161
/-- include/rtmfp/params.hpp:16 -/
def MAX_METADATA_LENGTH : Nat := 512
/-- include/rtmfp/Priority.hpp:19 `PRI_ROUTINE` -/
def PRI_ROUTINE : Nat := 3
/-- include/rtmfp/packet.hpp:60-63 the options of a data chunk -/
def USERDATA_OPTION_METADATA : Nat := 0x0000
/-- include/rtmfp/packet.hpp:61 -/
def USERDATA_OPTION_RETURN_ASSOCIATION : Nat := 0x000a
/-- include/rtmfp/packet.hpp:62 -/
def USERDATA_OPTION_MANDATORY_CUTOFF : Nat := 0x2000

/-- src/SendFlow.cpp:61-65: the option with the id of the flow this one is in return to -/
def assocOption (o : Bytes) : Option Nat → Bytes
  | none => o
  | some id => Opt.appendVLU USERDATA_OPTION_RETURN_ASSOCIATION id o

/-- src/SendFlow.cpp:60-66: the startup options for metadata and possibly the id of the flow this one is in return to -/
def startupOptions (metadata : Bytes) (assoc : Option Nat) : Bytes :=
  Opt.appendMarker (assocOption (Opt.append USERDATA_OPTION_METADATA metadata []) assoc)

/-- src/SendFrag.hpp:8-26 `SendFrag`, with its name in the send queue. `m_owner` is the flow whose queue it is in;
`m_session_outstanding_name` is the entry of the session's list with its flow and sequence number. -/
structure SFrag where
  name : Nat
  sn : Nat
  fra : Fra
  data : Bytes
  receipt : Nat
  sentAbandoned : Bool
  nak : Nat
  inFlight : Bool
  everSent : Bool
  size : Nat
  tsn : Nat
deriving DecidableEq, Repr

/-- src/SendFlow.cpp:14-28: a new fragment -/
def SFrag.new (name sn : Nat) (fra : Fra) (data : Bytes) (receipt : Nat) : SFrag :=
  { name, sn, fra, data, receipt, sentAbandoned := false, nak := 0, inFlight := false, everSent := false, size := 0, tsn := 0 }

/-- include/rtmfp/rtmfp.hpp:306 `SendFlow::State` -/
inductive SFState where | opened | closing | completeLinger | closed
deriving DecidableEq, Repr

/-- The order of the enumeration. -/
def SFState.rank : SFState → Nat | .opened => 0 | .closing => 1 | .completeLinger => 2 | .closed => 3

/-- include/rtmfp/rtmfp.hpp:308-326 `SendFlow`. `baseOpen` is `Flow::m_base_isOpen`; `bound`: `m_session` is set; the exception
callback is a flag; `assoc`: `m_tmp_association` is set. -/
structure SF where
  baseOpen : Bool
  state : SFState
  bound : Bool
  flowId : Nat
  options : Bytes
  assoc : Bool
  priority : Nat
  outstanding : Nat
  rxBuffer : Nat
  nextSn : Nat
  finalSn : Nat
  exception : Bool
  onException : Bool
  lastName : Nat
  queue : List SFrag
deriving DecidableEq, Repr

/-- src/SendFlow.cpp:42-66 the constructor, given the startup options; `INITIAL_RECV_BUFFER` is 65536. -/
def SF.init (options : Bytes) (assoc : Bool) (priority : Nat) : SF :=
  { baseOpen := true, state := .opened, bound := false, flowId := 0, options, assoc, priority, outstanding := 0, rxBuffer := 65536,
    nextSn := 1, finalSn := 0, exception := false, onException := false, lastName := 0, queue := [] }

/-- An element of `m_outstandingFrags` (src/Session.hpp:181). -/
structure OutRef where
  flow : Nat
  sn : Nat
  size : Nat
  tsn : Nat
deriving DecidableEq, Repr

/-- The part of a session that concerns sending: its flows and those of them that are bound (`m_sendFlows`), all receipts, the outstanding fragments with their sum, and transmission
numbers (src/Session.hpp:177-181, 216-217). -/
structure SS where
  isOpen : Bool
  flow : Nat → SF
  sendFlows : List Nat
  receipts : RStore
  outs : List OutRef
  outSum : Nat
  nextTsn : Nat
  maxTsnAck : Nat

namespace SS

/-- src/Session.cpp:340-380: a new session -/
def init : SS :=
  { isOpen := false, flow := fun _ => { SF.init [] false 0 with baseOpen := false, state := .closed }, sendFlows := [], receipts := RStore.init, outs := [], outSum := 0,
    nextTsn := 1, maxTsnAck := 0 }

/-- assignment to members of a flow -/
def setFlow (s : SS) (i : Nat) (f : SF) : SS := { s with flow := fun j => if j = i then f else s.flow j }

end SS

/-! ## receipts -/

/-- A call that may run a completion callback, which has returned. -/
def settled (r : RStore × List (Nat × Bool)) : RStore × List (Nat × Bool) := (if r.2 = [] then r.1 else r.1.callbackReturned, r.2)

/-- src/WriteReceipt.cpp:21-31 -/
def RStore.abandonNow (r : RStore) (i : Nat) : RStore × List (Nat × Bool) := settled (r.abandon i)
/-- src/WriteReceipt.cpp:33-43 -/
def RStore.abandonDue (r : RStore) (i : Nat) (now : Int) : RStore × List (Nat × Bool) := settled (r.abandonIfNeeded i now)
/-- src/WriteReceipt.cpp:87-96 -/
def RStore.countDown (r : RStore) (i : Nat) : RStore × List (Nat × Bool) := settled (r.useCountDown i)

/-! ## writing -/

/-- src/SendFlow.cpp:226-251: the loop of `basicWrite`: the contents and marks of the fragments. `fra` is the mark of the previous
fragment, `WHOLE` before the first. `none`: not ended after `fuel` rounds (never: `cut_ends`). -/
def cut (maxLen : Nat) : Nat → Fra → Bytes → Option (List (Fra × Bytes))
  | 0, _, _ => none
  | fuel + 1, fra, rem =>
    let fragSize := if rem.length > maxLen then maxLen else rem.length
    let fra := if rem.length > maxLen then (if fra = .whole then .begin else .middle) else (if fra = .whole then .whole else .end)
    let rest := rem.drop fragSize
    if rest = [] then some [(fra, rem.take fragSize)] else (cut maxLen fuel fra rest).map ((fra, rem.take fragSize) :: ·)

/-- src/SendFlow.cpp:244-248: the fragments with consecutive numbers from `sn`; `names` gives the name of the fragment with a number -/
def number (receipt : Nat) (names : Nat → Nat) : Nat → List (Fra × Bytes) → List SFrag
  | _, [] => []
  | sn, (fra, d) :: rest => SFrag.new (names sn) sn fra d receipt :: number receipt names (sn + 1) rest

/-- src/SendFlow.cpp:224: the longest fragment for this many bytes of startup options (`size_t`) -/
def maxFrag (options : Bytes) : Nat := sub64 MAX_DATA_FRAG_LENGTH options.length

namespace SS

/-- src/SendFlow.cpp:219-220, 244-250: the fragments of a message are queued, with a new receipt called `rid` -/
def queueFrags (s : SS) (i : Nat) (frags : List (Fra × Bytes)) (now startWithin finishWithin : Int) (rid : Nat) (names : Nat → Nat) : SS :=
  { s.setFlow i { s.flow i with
        queue := (s.flow i).queue ++ number rid names (s.flow i).nextSn frags, nextSn := (s.flow i).nextSn + frags.length } with
    receipts := (s.receipts.step (.issue rid now startWithin finishWithin frags.length)).1 }

/-- src/SendFlow.cpp:217-259 `basicWrite` -/
def basicWrite (s : SS) (i : Nat) (msg : Bytes) (now startWithin finishWithin : Int) (rid : Nat) (names : Nat → Nat) : Option SS :=
  (cut (maxFrag (s.flow i).options) (msg.length + 1) .whole msg).map fun frags => s.queueFrags i frags now startWithin finishWithin rid names

/-- src/SendFlow.cpp:154-160 `write`: `none` is a null receipt (refused), and `basicWrite` always ends. -/
def write (s : SS) (i : Nat) (msg : Bytes) (now startWithin finishWithin : Int) (rid : Nat) (names : Nat → Nat) : Option SS :=
  if (s.flow i).baseOpen then s.basicWrite i msg now startWithin finishWithin rid names else none

/-- src/SendFlow.cpp:674-698 `gotoStateClosed`, src/Session.cpp:802-807 `unbindFlow`; `m_flow_id` is only used of a bound flow, and kept -/
def gotoClosed (s : SS) (i : Nat) : SS :=
  let f := s.flow i
  if f.state.rank < SFState.closed.rank then
    { s.setFlow i { f with state := .closed, bound := false, assoc := false } with
      sendFlows := if f.bound then s.sendFlows.filter (fun j => j ≠ i) else s.sendFlows }
  else s

/-- src/SendFlow.cpp:181-184: the condition for the additional empty fragment that carries the final mark -/
def needsFin (f : SF) : Bool :=
  match f.queue.getLast? with
  | none => true
  | some l => l.everSent || decide (l.sn ≠ f.nextSn - 1)

/-- src/SendFlow.cpp:187: `m_send_queue.lastValue()->m_sequence_number` -/
def lastSn (f : SF) : Nat := match f.queue.getLast? with | none => 0 | some l => l.sn

/-- src/SendFlow.cpp:181-185: the additional empty fragment -/
def addFin (s : SS) (i : Nat) (now : Int) (rid : Nat) (names : Nat → Nat) : SS :=
  if needsFin (s.flow i) then (s.basicWrite i [] now (-1) (-1) rid names).getD s else s

/-- src/SendFlow.cpp:177-193: the state change of `close()` -/
def closeState (s : SS) (i : Nat) (now : Int) (rid : Nat) (names : Nat → Nat) : SS :=
  if (s.flow i).state = .opened then
    if (s.flow i).bound = true ∧ s.isOpen = true ∧ (s.flow i).nextSn > 1 then
      let s := s.addFin i now rid names
      s.setFlow i { s.flow i with finalSn := lastSn (s.flow i), state := .closing }
    else s.gotoClosed i
  else s

/-- src/SendFlow.cpp:167-199 `close()`; the additional fragment, if any, has the receipt `rid`, which nobody else knows. -/
def close (s : SS) (i : Nat) (now : Int) (rid : Nat) (names : Nat → Nat) : SS :=
  let s := s.setFlow i { s.flow i with onException := false, baseOpen := false }
  let s := s.closeState i now rid names
  if (s.flow i).bound = true ∧ s.isOpen = false then s.gotoClosed i else s

/-- src/SendFlow.cpp:627: `valuesDo` abandoning every message of the queue -/
def abandonAll : RStore → List SFrag → RStore × List (Nat × Bool)
  | r, [] => (r, [])
  | r, a :: q =>
    let x := r.abandonNow a.receipt
    let y := abandonAll x.1 q
    (y.1, x.2 ++ y.2)

/-- src/SendFlow.cpp:615-630 `onExceptionReport`: also whether the user's exception callback is called. -/
def onExceptionReport (s : SS) (i : Nat) (now : Int) (rid : Nat) (names : Nat → Nat) : SS × Bool × List (Nat × Bool) :=
  let had := (s.flow i).onException
  let s := s.setFlow i { s.flow i with exception := true }
  let s := s.close i now rid names
  let x := abandonAll s.receipts (s.flow i).queue
  ({ s with receipts := x.1 }, had, x.2)

/-! ## transmission -/

/-- src/SendFlow.cpp:345-358: the loop of `trimSendQueue` -/
def trimLoop (now : Int) : RStore → List SFrag → RStore × List SFrag × List (Nat × Bool)
  | r, a :: b :: q =>
    if a.inFlight then (r, a :: b :: q, [])
    else
      let x := r.abandonDue a.receipt now
      if (x.1.r a.receipt).isAbandoned = false then (x.1, a :: b :: q, x.2)
      else
        let y := x.1.countDown a.receipt
        let z := trimLoop now y.1 (b :: q)
        (z.1, z.2.1, x.2 ++ y.2 ++ z.2.2)
  | r, q => (r, q, [])

/-- src/SendFlow.cpp:342-362 `trimSendQueue` -/
def trim (s : SS) (i : Nat) (now : Int) : SS × List (Nat × Bool) :=
  let x := trimLoop now s.receipts (s.flow i).queue
  ({ s.setFlow i { s.flow i with queue := x.2.1 } with receipts := x.1 }, x.2.2)

/-- src/SendFlow.cpp:377-389 `findForwardSequenceNumber`; on an empty queue `firstValue()` would throw (not reached: see
`isMaybeReady`). -/
def findForward (r : RStore) (now : Int) : List SFrag → RStore × Nat × List (Nat × Bool)
  | [] => (r, 0, [])
  | first :: _ =>
    let x := if first.inFlight then (r, []) else r.abandonDue first.receipt now
    (x.1, if (x.1.r first.receipt).isAbandoned = false then first.sn - 1
          else if first.inFlight = true ∧ first.sentAbandoned = false then first.sn - 1
          else first.sn, x.2)

/-- src/SendFlow.cpp:334-340 `isMaybeReadyForTransmission` -/
def isMaybeReady (f : SF) : Bool := !f.queue.isEmpty && (f.exception || decide (f.rxBuffer > f.outstanding))

/-- What a data chunk says: type, flags, the header fields (absent from a `NEXT` chunk), options and contents. -/
structure Put where
  next : Bool
  flags : UInt8
  flowId : Nat
  sn : Nat
  off : Nat
  options : Bytes
  data : Bytes
deriving DecidableEq, Repr

/-- src/SendFlow.cpp:462-469: the header fields -/
def putHeader (p : PA) (c : Put) : PA × Bool :=
  if c.next then (p, true)
  else
    let a := p.pushVLU c.flowId
    if a.2 = false then a
    else
      let b := a.1.pushVLU c.sn
      if b.2 = false then b else b.1.pushVLU c.off

/-- src/SendFlow.cpp:459-475: the contents of a started chunk, before it is committed; `options` and `data` are empty when the code
does not push them. -/
def putBody (p : PA) (c : Put) : PA × Bool :=
  let a := p.push [c.flags]
  if a.2 = false then a
  else
    let b := putHeader a.1 c
    if b.2 = false then b
    else
      let d := b.1.push c.options
      if d.2 = false then d else d.1.push c.data

/-- src/SendFlow.cpp:453-477, 496-498: one chunk, committed (`true`) or rolled back. A chunk was started, so there is one to commit. -/
def putChunk (p : PA) (c : Put) : PA × Bool :=
  let a := p.startChunk (if c.next then CHUNK_NEXT_USERDATA else CHUNK_USERDATA)
  if a.2 = false then a
  else
    let b := putBody a.1 c
    if b.2 = false then (b.1.rollbackChunk, false)
    else match b.1.commitChunk with
      | some q => (q, true)
      | none => (b.1, false)

/-- What doesn't change during the loop of `assembleData`: flow and its id, time, forward number, startup options, receive buffer,
final number and transmission number. -/
structure Ctx where
  flow : Nat
  flowId : Nat
  now : Int
  fsn : Nat
  options : Bytes
  rxBuffer : Nat
  finalSn : Nat
  tsn : Nat

/-- The variables of the loop of `assembleData`: the packet, the receipts, the outstanding bytes of the flow, the session's list with its
sum, `firstChunk`, `previousSN`, `m_last_send_queue_name`; the callbacks run and the chunks placed in the packet. -/
structure Fill where
  packet : PA
  receipts : RStore
  outstanding : Nat
  outs : List OutRef
  outSum : Nat
  first : Bool
  prevSn : Nat
  lastName : Nat
  events : List (Nat × Bool)
  chunks : List Put

/-- src/SendFlow.cpp:437-439: abandoning an unreliable message that would be retransmitted, or one that is too late -/
def beforeSend (r : RStore) (frag : SFrag) (now : Int) : RStore × List (Nat × Bool) :=
  let x := if frag.everSent = true ∧ (r.r frag.receipt).retransmit = false then r.abandonNow frag.receipt else (r, [])
  let y := x.1.abandonDue frag.receipt now
  (y.1, x.2 ++ y.2)

/-- src/SendFlow.cpp:435, 440, 456-457: the flags of a chunk -/
def chunkFlags (opt : Bool) (fra : Fra) (abn fin : Bool) : UInt8 :=
  (if opt then USERDATA_FLAG_OPT else 0) ||| fra.bits ||| (if abn then USERDATA_FLAG_ABN else 0) ||| (if fin then USERDATA_FLAG_FIN else 0)

/-- src/SendFlow.cpp:435-475: the chunk for a fragment (`abn`: abandoned) -/
def chunkFor (c : Ctx) (first : Bool) (prevSn : Nat) (frag : SFrag) (abn : Bool) : Put :=
  let opt : Bool := first && !c.options.isEmpty
  { next := !first && decide (frag.sn = prevSn + 1)
    flags := chunkFlags opt frag.fra abn (decide (frag.sn = c.finalSn))
    flowId := c.flowId
    sn := frag.sn
    off := sub64 frag.sn c.fsn
    options := if opt then c.options else []
    data := if abn then [] else frag.data }

/-- src/SendFlow.cpp:482-489: the fragment after it was sent -/
def sentFrag (c : Ctx) (frag : SFrag) (abn : Bool) (size : Nat) : SFrag :=
  { frag with sentAbandoned := abn, size, tsn := c.tsn, inFlight := true, everSent := true, nak := 0 }

/-- src/SendFlow.cpp:426-499: the loop of `assembleData` from a position in the queue; the queue from there after it. -/
def fill (c : Ctx) : Fill → List SFrag → Fill × List SFrag
  | s, [] => (s, [])
  | s, frag :: rest =>
    if s.outstanding ≥ c.rxBuffer then (s, frag :: rest)
    else if frag.inFlight then
      let x := fill c s rest
      (x.1, frag :: x.2)
    else
      let r := beforeSend s.receipts frag c.now
      let abn := (r.1.r frag.receipt).isAbandoned
      let put := chunkFor c s.first s.prevSn frag abn
      let p := putChunk s.packet put
      if p.2 = false then ({ s with packet := p.1, receipts := r.1, events := s.events ++ r.2 }, frag :: rest)
      else
        let size := sub64 s.packet.remaining p.1.remaining
        let x := fill c
          { packet := p.1
            receipts := r.1.upd frag.receipt { r.1.r frag.receipt with started := true }
            outstanding := add64 s.outstanding size
            outs := s.outs ++ [⟨c.flow, frag.sn, size, c.tsn⟩]
            outSum := add64 s.outSum size
            first := false
            prevSn := frag.sn
            lastName := frag.name
            events := s.events ++ r.2
            chunks := s.chunks ++ [put] } rest
        (x.1, sentFrag c frag abn size :: x.2)

/-- src/SendFlow.cpp:407-409: the position to start from: the last fragment sent if it is still there and in flight, otherwise the first. -/
def startAt (lastName : Nat) (queue : List SFrag) : List SFrag × List SFrag :=
  if queue.any (fun f => decide (f.name = lastName) && f.inFlight) then
    (queue.takeWhile (fun f => f.name ≠ lastName), queue.dropWhile (fun f => f.name ≠ lastName))
  else ([], queue)

/-- src/SendFlow.cpp:414-423: startup options that name a flow the other end has forgotten (`gone`) are dropped -/
def dropOptions (f : SF) (gone : Bool) : SF :=
  if f.options ≠ [] ∧ f.assoc = true ∧ gone = true then { f with options := [], assoc := false } else f

/-- src/SendFlow.cpp:501-511: the answer, and the time critical flag -/
def timeCritical (p : PA) (sent : Bool) (priority : Nat) : PA := if sent && decide (priority > PRI_ROUTINE) then (p.setTimeCriticalFlag).getD p else p

/-- Result of `assembleData`: session, packet, answer, callbacks run, forward number and chunks -/
structure Assembled where
  s : SS
  packet : PA
  sent : Bool
  events : List (Nat × Bool)
  fsn : Nat
  chunks : List Put

/-- src/SendFlow.cpp:391-512 `assembleData`; `gone`: the associated receive flow has completed. -/
def assembleData (s : SS) (i : Nat) (packet : PA) (pri : Nat) (now : Int) (gone : Bool) : Assembled :=
  if pri ≠ (s.flow i).priority then ⟨s, packet, false, [], 0, []⟩
  else if isMaybeReady (s.flow i) = false then ⟨s, packet, false, [], 0, []⟩
  else
    let t := s.trim i now
    let s := t.1
    let w := findForward s.receipts now (s.flow i).queue
    let f := dropOptions (s.flow i) gone
    let st := startAt f.lastName f.queue
    let c : Ctx := ⟨i, f.flowId, now, w.2.1, f.options, f.rxBuffer, f.finalSn, s.nextTsn⟩
    let x := fill c ⟨packet, w.1, f.outstanding, s.outs, s.outSum, true, 0, f.lastName, [], []⟩ st.2
    let s : SS := { s.setFlow i { f with outstanding := x.1.outstanding, lastName := x.1.lastName, queue := st.1 ++ x.2 } with
      receipts := x.1.receipts, outs := x.1.outs, outSum := x.1.outSum }
    ⟨s, timeCritical x.1.packet (!x.1.first) f.priority, !x.1.first, t.2 ++ w.2.2 ++ x.1.events, w.2.1, x.1.chunks⟩

/-- src/Session.cpp:1510-1521 of `onInterfaceWritable`: the transmission number is used up when data was sent -/
def afterSend (s : SS) (sent : Bool) : SS := if sent then { s with nextTsn := s.nextTsn + 1 } else s

/-! ## acknowledgement -/

/-- What `ackRange` changes besides the queue: receipts, outstanding bytes of the flow, the session's list with its sum, and
`m_max_tsn_ack`; and the callbacks run. -/
structure AckAcc where
  receipts : RStore
  outstanding : Nat
  outs : List OutRef
  outSum : Nat
  maxTsnAck : Nat
  events : List (Nat × Bool)

/-- src/SendFlow.cpp:531-541: one fragment is acknowledged -/
def ackOne (i : Nat) (a : AckAcc) (frag : SFrag) : AckAcc :=
  let a := if frag.inFlight then
      { a with
        maxTsnAck := if frag.tsn > a.maxTsnAck then frag.tsn else a.maxTsnAck
        outs := a.outs.filter (fun o => !(decide (o.flow = i) && decide (o.sn = frag.sn)))
        outSum := sub64 a.outSum frag.size
        outstanding := sub64 a.outstanding frag.size }
    else a
  let x := a.receipts.countDown frag.receipt
  { a with receipts := x.1, events := a.events ++ x.2 }

/-- src/SendFlow.cpp:514-545 `ackRange` from a position in the queue: what is passed over (and stays), and what is from the new
position on. -/
def ackRange (i : Nat) (ackFrom ackTo : Nat) : AckAcc → List SFrag → AckAcc × List SFrag × List SFrag
  | a, [] => (a, [], [])
  | a, frag :: rest =>
    if frag.sn < ackFrom then
      let x := ackRange i ackFrom ackTo a rest
      (x.1, frag :: x.2.1, x.2.2)
    else if frag.sn > ackTo then (a, [], frag :: rest)
    else ackRange i ackFrom ackTo (ackOne i a frag) rest

/-- src/SendFlow.cpp:568-596: all ranges; the queue after them -/
def ackRanges (i : Nat) : List (Nat × Nat) → AckAcc → List SFrag → AckAcc × List SFrag
  | [], a, q => (a, q)
  | (lo, hi) :: rs, a, q =>
    let x := ackRange i lo hi a q
    let y := ackRanges i rs x.1 x.2.2
    (y.1, x.2.1 ++ y.2)

/-- src/SendFlow.cpp:602-607: everything was acknowledged after closing -/
def lingerIf (f : SF) : SF := if f.state = .closing ∧ f.queue = [] then { f with state := .completeLinger } else f

/-- src/SendFlow.cpp:547-613 `onAck`; `ranges` are the arguments of its calls of `ackRange`, the first of which is (0, cumulative). -/
def onAck (s : SS) (i : Nat) (bufferBytes : Nat) (ranges : List (Nat × Nat)) : SS × List (Nat × Bool) :=
  let f := s.flow i
  if f.state.rank ≥ SFState.completeLinger.rank then (s, [])
  else
    let x := ackRanges i ranges ⟨s.receipts, f.outstanding, s.outs, s.outSum, s.maxTsnAck, []⟩ f.queue
    let f := lingerIf { f with options := [], assoc := if f.options = [] then f.assoc else false, rxBuffer := bufferBytes, outstanding := x.1.outstanding,
                               queue := x.2 }
    ({ s.setFlow i f with receipts := x.1.receipts, outs := x.1.outs, outSum := x.1.outSum, maxTsnAck := x.1.maxTsnAck }, x.1.events)

/-! ## loss -/

/-- assignment to the members of the fragment with number `sn` -/
def modFrag (q : List SFrag) (sn : Nat) (g : SFrag → SFrag) : List SFrag := q.map (fun f => if f.sn = sn then g f else f)

/-- the fragment with number `sn` -/
def fragOf (q : List SFrag) (sn : Nat) : Option SFrag := q.find? (fun f => f.sn == sn)

/-- src/SendFlow.cpp:667-672 `onLoss`, with the assignments before the calls of it (src/Session.cpp:1761-1766, 1049-1051) -/
def lose (s : SS) (o : OutRef) : SS :=
  let f := s.flow o.flow
  s.setFlow o.flow { f with outstanding := sub64 f.outstanding o.size, lastName := 0,
                            queue := modFrag f.queue o.sn (fun x => { x with inFlight := false }) }

/-- src/Session.cpp:1734, 1744-1745: the variables of the loop besides the session -/
structure Nak where
  anyLoss : Bool
  anyNaks : Bool
  lostBytes : Nat
deriving DecidableEq, Repr

/-- src/Session.cpp:1755: the count of a fragment -/
def nakFrag (s : SS) (o : OutRef) : SS :=
  let f := s.flow o.flow
  s.setFlow o.flow { f with queue := modFrag f.queue o.sn (fun x => { x with nak := x.nak + 1 }) }

/-- src/Session.cpp:1747-1773: the loop over the outstanding fragments (`l`, the rest of them); a fragment of the list is in its
flow's queue (`C21`: otherwise it is passed over here). -/
def nakLoop : SS → Nak → List OutRef → SS × Nak
  | s, k, [] => (s, k)
  | s, k, o :: l =>
    if o.tsn > s.maxTsnAck then (s, k)
    else
      let s := nakFrag s o
      match fragOf (s.flow o.flow).queue o.sn with
      | none => nakLoop s k l
      | some frag =>
        let k := if frag.sentAbandoned then k else { k with anyNaks := true }
        if frag.nak ≥ 3 then
          let k := if frag.sentAbandoned then k else { k with anyLoss := true }
          let s := lose s o
          nakLoop { s with outs := s.outs.filter (fun p => !(decide (p.flow = o.flow) && decide (p.sn = o.sn))), outSum := sub64 s.outSum o.size }
            { k with lostBytes := add64 k.lostBytes o.size } l
        else nakLoop s k l

/-- src/Session.cpp:1744-1773 after the chunks of a packet with acknowledgements -/
def afterAcks (s : SS) (congestion : Bool) : SS × Nak := nakLoop s ⟨congestion, false, 0⟩ s.outs

/-- src/Session.cpp:1048-1054 of `onTimeoutAlarm`: everything outstanding is lost -/
def timeout (s : SS) : SS :=
  let s := s.outs.foldl lose s
  { s with outs := [], outSum := 0 }

/-! ## the session -/

/-- src/RTMFP.cpp:82-110 `openFlow`, src/Flow.cpp:201-212 `basicOpenFlow`, src/RecvFlow.cpp `openReturnFlow`: a new flow, `i` not used before;
`assoc` is the id of the associated receive flow. Whether the session is already open (and the flow bound at once) is left to `bind`. -/
def openFlow (s : SS) (i : Nat) (metadata : Bytes) (assoc : Option Nat) (priority : Nat) : SS :=
  if metadata.length > MAX_METADATA_LENGTH then s else s.setFlow i (SF.init (startupOptions metadata assoc) assoc.isSome priority)

/-- src/SendFlow.cpp:261-283 `onSessionDidOpen` with src/Session.cpp:796-800 `bindFlow`: the flow is bound to the session, which chooses an id.
It is called for opening flows only, which `close()` ends. -/
def bind (s : SS) (i : Nat) (flowId : Nat) : SS :=
  if (s.flow i).bound = true then s
  else { s.setFlow i { s.flow i with bound := true, flowId } with sendFlows := s.sendFlows ++ [i] }

/-- src/SendFlow.cpp:302-309 `onSessionDidClose` for a flow of the session -/
def onSessionDidClose (s : SS) (i : Nat) (now : Int) (rid : Nat) (names : Nat → Nat) : SS × Bool × List (Nat × Bool) :=
  let x := s.onExceptionReport i now rid names
  (x.1.setFlow i { x.1.flow i with queue := [] }, x.2)

/-- the flow whose exception callback is called -/
def excOf (i : Nat) (b : Bool) : List Nat := if b then [i] else []

/-- src/Session.cpp:512-517: the loop over the bound flows, each of which unbinds itself -/
def closeFlows (now : Int) : SS → List Nat → SS × List Nat × List (Nat × Bool)
  | s, [] => (s, [], [])
  | s, i :: l =>
    let x := s.onSessionDidClose i now 0 id
    let y := closeFlows now x.1 l
    (y.1, excOf i x.2.1 ++ y.2.1, x.2.2 ++ y.2.2)

/-- src/Session.cpp:485-531 `abortFlowsAndTimers` after the state was changed from open (451-483, 533-541, 558-585): what concerns sending. Also the
flows whose exception callback is called. -/
def closeSession (s : SS) (now : Int) : SS × List Nat × List (Nat × Bool) :=
  let x := closeFlows now { s with isOpen := false } s.sendFlows
  ({ x.1 with outs := [], outSum := 0 }, x.2)

/-- src/SendFlow.cpp:606: the linger alarm fires -/
def lingerAlarm (s : SS) (i : Nat) : SS := s.gotoClosed i

/-- src/SendFlow.cpp:328-332 `scheduleForTransmission`: whether it doesn't use a null pointer -/
def scheduleOk (f : SF) : Bool := !isMaybeReady f || f.bound

/-- src/SendFlow.cpp:206-213 `setPriority`; `none`: a null pointer is used -/
def setPriority (s : SS) (i : Nat) (pri : Nat) : Option SS :=
  let f := { s.flow i with priority := pri }
  if pri ≠ (s.flow i).priority ∧ scheduleOk f = false then none else some (s.setFlow i f)

/-! ## everything that happens to the sending side of a session -/

/-- What happens: calls of the user (on flows and receipts), timers, packets. -/
inductive Op where
  | openFlow (i : Nat) (metadata : Bytes) (assoc : Option Nat) (priority : Nat)
  /-- the session opens -/
  | sessionOpen
  | bind (i flowId : Nat)
  | write (i : Nat) (msg : Bytes) (now startWithin finishWithin : Int) (rid : Nat) (names : Nat → Nat)
  | close (i : Nat) (now : Int) (rid : Nat) (names : Nat → Nat)
  | setOnException (i : Nat)
  | setPriority (i pri : Nat)
  /-- a call on a receipt: src/WriteReceipt.cpp -/
  | receipt (op : RStore.Op)
  /-- the task of `scheduleTrimSendQueue` -/
  | trim (i : Nat) (now : Int)
  /-- a flow is given the opportunity to put data in a packet -/
  | transmit (i : Nat) (packet : PA) (pri : Nat) (now : Int) (gone : Bool)
  /-- an acknowledgement chunk for a flow -/
  | ack (i bufferBytes : Nat) (ranges : List (Nat × Nat))
  /-- the end of a packet with acknowledgements -/
  | afterAcks (congestion : Bool)
  | exceptionReport (i : Nat) (now : Int) (rid : Nat) (names : Nat → Nat)
  | timeout
  | lingerAlarm (i : Nat)
  | closeSession (now : Int)
  /-- the session an unbound flow waits for fails to open -/
  | openingFailed (i : Nat) (now : Int)

/-- What can be observed. -/
inductive Ev where
  /-- a receipt's callback: abandoned or not -/
  | finished (rid : Nat) (abandoned : Bool)
  /-- a flow's exception callback -/
  | exception (i : Nat)
  /-- `write` answers a null receipt, or `openFlow` no flow -/
  | refused
  /-- the message was accepted: its flow, its receipt, the number of its first fragment, how many there are, and the message -/
  | accepted (i rid first count : Nat) (msg : Bytes)
  /-- data chunks of a flow in a packet, with the forward sequence number -/
  | sent (i fsn : Nat) (chunks : List Put) (packet : PA)

/-- completion callbacks as events -/
def fins (l : List (Nat × Bool)) : List Ev := l.map fun x => .finished x.1 x.2

/-- src/SendFlow.cpp:154-160: the answer of `write` -/
def writeRes (s : SS) (i rid : Nat) (msg : Bytes) : Option SS → SS × List Ev
  | none => (s, [.refused])
  | some t => (t, [.accepted i rid (s.flow i).nextSn ((t.flow i).nextSn - (s.flow i).nextSn) msg])

/-- src/Session.cpp:1510-1515: data sent -/
def sentRes (i : Nat) (a : Assembled) : SS × List Ev :=
  (a.s.afterSend a.sent, fins a.events ++ if a.sent then [.sent i a.fsn a.chunks a.packet] else [])

/-- src/SendFlow.cpp:206-213: the end of `setPriority` -/
def priRes : Option SS → Option (SS × List Ev)
  | none => none
  | some t => some (t, [])

/-- One thing happens (the functions above); `none`: a null pointer is used. -/
def step (s : SS) : Op → Option (SS × List Ev)
  | .openFlow i m a p => some (s.openFlow i m a p, if m.length > MAX_METADATA_LENGTH then [.refused] else [])
  | .sessionOpen => some ({ s with isOpen := true }, [])
  | .bind i fid => some (s.bind i fid, [])
  | .write i msg now a b rid names => some (writeRes s i rid msg (s.write i msg now a b rid names))
  | .close i now rid names => some (s.close i now rid names, [])
  | .setOnException i => some (s.setFlow i { s.flow i with onException := true }, [])
  | .setPriority i pri => priRes (s.setPriority i pri)
  | .receipt op => some ({ s with receipts := (settled (s.receipts.step op)).1 }, fins (settled (s.receipts.step op)).2)
  | .trim i now => some ((s.trim i now).1, fins (s.trim i now).2)
  | .transmit i p pri now gone => some (sentRes i (s.assembleData i p pri now gone))
  | .ack i b rs => some ((s.onAck i b rs).1, fins (s.onAck i b rs).2)
  | .afterAcks c => some ((s.afterAcks c).1, [])
  | .exceptionReport i now rid names =>
    let x := s.onExceptionReport i now rid names
    some (x.1, (excOf i x.2.1).map .exception ++ fins x.2.2)
  | .timeout => some (s.timeout, [])
  | .lingerAlarm i => some (s.lingerAlarm i, [])
  | .closeSession now =>
    let x := s.closeSession now
    some (x.1, x.2.1.map .exception ++ fins x.2.2)
  | .openingFailed i now =>
    let x := s.onSessionDidClose i now 0 id
    some (x.1, (excOf i x.2.1).map .exception ++ fins x.2.2)

end SS
end Rtmfp
