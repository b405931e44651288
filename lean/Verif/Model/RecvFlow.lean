import Verif.Model.IndexSet
import Verif.Model.Packet

/-!
# Model of `src/RecvFlow.cpp`

The receive buffer `m_recv_buffer` (a `SumList` of fragments, C09) is the sequence of its elements with
their names, oldest position first. The name given to a new element by `List::addAfter` is an argument of the
operation (`nm`): the theorems hold for every choice of a name that is not in use, which is what C09
proves about `List`; names of removed elements may be used again. `at(name)` with a name not in use throws
`std::out_of_range`, which nothing in the library catches: the outcome `.error .threw`.

The user's callbacks are outputs. What the user does to the flow inside the message callback is an argument
(`React`, as a function of the sequence number of the message), because the delivery loop continues after it.
`scheduleAck(now)` is an output; the alarm started on completion and `onCumulativeAckDidMerge` are outputs too.
-/

namespace Rtmfp

/-- include/rtmfp/packet.hpp:76-85 fragment control (`USERDATA_FLAG_FRA_*`). -/
inductive Fra where | whole | begin | middle | end
deriving DecidableEq, Repr

/-- include/rtmfp/packet.hpp:76 -/
def USERDATA_FLAG_OPT : UInt8 := 0x80
/-- include/rtmfp/packet.hpp:77 -/
def USERDATA_FLAG_FRA_MASK : UInt8 := 0x30
/-- include/rtmfp/packet.hpp:78 -/
def USERDATA_FLAG_ABN : UInt8 := 0x02
/-- include/rtmfp/packet.hpp:79 -/
def USERDATA_FLAG_FIN : UInt8 := 0x01

namespace Fra

/-- include/rtmfp/packet.hpp:81-84 the bits of the fragment control. -/
def bits : Fra → UInt8 | .whole => 0x00 | .begin => 0x10 | .end => 0x20 | .middle => 0x30

/-- src/RecvFlow.cpp:278 `flags & USERDATA_FLAG_FRA_MASK`. -/
def ofFlags (flags : UInt8) : Fra :=
  let fra := flags &&& USERDATA_FLAG_FRA_MASK
  if fra = 0x00 then .whole else if fra = 0x10 then .begin else if fra = 0x20 then .end else .middle

end Fra

/-- src/RecvFlow.cpp:14-38 `RecvFrag`. -/
structure RFrag where
  sn : Nat
  segStart : Nat
  segEnd : Nat
  fra : Fra
  data : Bytes
deriving DecidableEq, Repr

/-- include/rtmfp/rtmfp.hpp `ReceiveOrder`. -/
inductive Order where | sequence | network | hold
deriving DecidableEq, Repr

/-- include/rtmfp/rtmfp.hpp:385 `RecvFlow::State`. -/
inductive RFState where | opened | rejected | completeLinger | closed
deriving DecidableEq, Repr

/-- The order of the enumeration. -/
def RFState.rank : RFState → Nat | .opened => 0 | .rejected => 1 | .completeLinger => 2 | .closed => 3

/-- What the user does to the flow inside the message callback: nothing, `close()`, `setReceiveOrder(o)`, or close the
session, which calls `abort()` on its flows. -/
inductive React where | none | close | order (o : Order) | abort
deriving DecidableEq, Repr

/-- Observable effects. -/
inductive REv where
  | msg (data : Bytes) (sn count : Nat)
  | complete (error : Bool)
  | merged
  | scheduleAck (now : Bool)
deriving DecidableEq, Repr

/-- Abnormal ends: an exception, or a loop that did not end within its fuel (never happens: `tryDelivery_no_fuel`). -/
inductive RErr where | threw | fuel
deriving DecidableEq, Repr

/-- include/rtmfp/rtmfp.hpp:387-403 `RecvFlow`. `baseOpen` is `Flow::m_base_isOpen`; the callbacks are flags. -/
structure RFlow where
  baseOpen : Bool
  accepted : Bool
  order : Order
  seqs : IndexSet
  forwardSn : Nat
  finalSn : Nat
  finalSeen : Bool
  buf : List (Nat × RFrag)
  capacity : Nat
  windowLimit : Nat
  prevRwnd : Nat
  shouldAck : Bool
  exceptionCode : Nat
  state : RFState
  onMessage : Bool
  onComplete : Bool
  onMerge : Bool
deriving DecidableEq, Repr

namespace RFlow

/-- src/RecvFlow.cpp:41-61; src/Flow.cpp:12-14. `INITIAL_RECV_BUFFER` is 65536. -/
def init : RFlow :=
  { baseOpen := true, accepted := false, order := .sequence, seqs := [], forwardSn := 0, finalSn := 0, finalSeen := false,
    buf := [], capacity := 65536, windowLimit := U64MAX, prevRwnd := 0, shouldAck := false, exceptionCode := 0,
    state := .opened, onMessage := false, onComplete := false, onMerge := false }

/-- src/RecvFlow.cpp:67-70 `isOpen`. -/
def isOpen (f : RFlow) : Bool := f.baseOpen && f.accepted

/-- src/RecvFlow.cpp:150-153 `getCumulativeAckSequenceNumber`; src/IndexSet.cpp:127-130 `firstRange` (a default
`Range` has end 0). -/
def csn (f : RFlow) : Nat := match f.seqs.head? with | none => 0 | some r => r.stop

/-- src/RecvFlow.cpp:414-425 `scheduleAck`. -/
def scheduleAck (f : RFlow) (now : Bool) : RFlow × List REv := ({ f with shouldAck := true }, [.scheduleAck now])

/-- src/RecvFlow.cpp:72-91 `close()`, src/Flow.cpp:32-36. -/
def close (f : RFlow) : RFlow × List REv :=
  let r := if f.state = .opened then ({ f with state := .rejected }).scheduleAck true else (f, [])
  ({ r.1 with buf := [], onMessage := false, onComplete := false, onMerge := false, baseOpen := false }, r.2)

/-- src/RecvFlow.cpp:188-196 `closeAndNotify`. -/
def closeAndNotify (f : RFlow) (error : Bool) : RFlow × List REv :=
  let wasOpen := f.isOpen
  let c := f.onComplete
  let r := ({ f with onComplete := false }).close
  (r.1, r.2 ++ if wasOpen && c then [.complete error] else [])

/-- src/RecvFlow.cpp:179-186 `abort` (the alarm is not part of the state). -/
def abort (f : RFlow) : RFlow × List REv :=
  let r := f.closeAndNotify true
  ({ r.1 with state := .closed }, r.2)

/-- src/RecvFlow.cpp:104-113 `setReceiveOrder`; the delivery attempt it queues is the operation `deferredTry`. -/
def setOrder (f : RFlow) (o : Order) : RFlow := { f with order := o }

/-- The user's reaction inside a message callback. -/
def react (f : RFlow) : React → RFlow × List REv
  | .none => (f, [])
  | .close => f.close
  | .order o => (f.setOrder o, [])
  | .abort => f.abort

/-- include/rtmfp/List.hpp:172-194 `at(name)` on the buffer. -/
def at? (buf : List (Nat × RFrag)) (name : Nat) : Option RFrag := (buf.find? (fun x => x.1 == name)).map (·.2)

/-- Assignment to a member of the fragment called `name`. -/
def modify (buf : List (Nat × RFrag)) (name : Nat) (g : RFrag → RFrag) : List (Nat × RFrag) :=
  buf.map (fun x => if x.1 = name then (x.1, g x.2) else x)

/-- include/rtmfp/List.hpp:298-310 `remove(name)` on the buffer. -/
def erase (buf : List (Nat × RFrag)) (name : Nat) : List (Nat × RFrag) := buf.filter (fun x => x.1 ≠ name)

/-- src/RecvFlow.cpp:280-285: the loop from the last element backwards; what stays before the new fragment. -/
def insPre (buf : List (Nat × RFrag)) (sn : Nat) : List (Nat × RFrag) :=
  (buf.reverse.dropWhile (fun x => !decide (x.2.sn < sn))).reverse
/-- src/RecvFlow.cpp:280-285: what comes after the new fragment. -/
def insSuf (buf : List (Nat × RFrag)) (sn : Nat) : List (Nat × RFrag) :=
  (buf.reverse.takeWhile (fun x => !decide (x.2.sn < sn))).reverse

/-- src/RecvFlow.cpp:299-304, the first fragment of the segment the new one joins: that of its predecessor. -/
def joinPrev (pre : List (Nat × RFrag)) (nm sn : Nat) (fra : Fra) : Nat :=
  match pre.getLast? with
  | some (_, p) => if fra ≠ .begin ∧ p.sn + 1 = sn then p.segStart else nm
  | none => nm

/-- src/RecvFlow.cpp:306-311, the last fragment of the segment the new one joins: that of its successor. -/
def joinNext (suf : List (Nat × RFrag)) (nm sn : Nat) (fra : Fra) : Nat :=
  match suf.head? with
  | some (_, n) => if fra ≠ .end ∧ n.sn = (sn + 1) % W64 then n.segEnd else nm
  | none => nm

/-- src/RecvFlow.cpp:313-318 (and 296): the first fragment of the joined segment learns its end; is it the beginning of a message? -/
def fixStart (buf : List (Nat × RFrag)) (nm segStart segEnd : Nat) (fra : Fra) : Except RErr (List (Nat × RFrag) × Bool) :=
  if segStart ≠ nm then
    match at? buf segStart with
    | none => .error .threw
    | some s => .ok (modify buf segStart (fun x => { x with segEnd := segEnd }), decide (s.fra = .begin))
  else .ok (buf, decide (fra = .begin))

/-- src/RecvFlow.cpp:320-325 (and 297): the last fragment of the joined segment learns its start; is it the end of a message? -/
def fixEnd (buf : List (Nat × RFrag)) (nm segStart segEnd : Nat) (fra : Fra) : Except RErr (List (Nat × RFrag) × Bool) :=
  if segEnd ≠ nm then
    match at? buf segEnd with
    | none => .error .threw
    | some e => .ok (modify buf segEnd (fun x => { x with segStart := segStart }), decide (e.fra = .end))
  else .ok (buf, decide (fra = .end))

/-- src/RecvFlow.cpp:276-328 `insertFragment`: the buffer and the delivery hint. -/
def insertFragment (buf : List (Nat × RFrag)) (nm sn : Nat) (flags : UInt8) (data : Bytes) :
    Except RErr (List (Nat × RFrag) × Option Nat) :=
  let fra := Fra.ofFlags flags
  let pre := insPre buf sn
  let suf := insSuf buf sn
  if fra = .whole then .ok (pre ++ (nm, ⟨sn, nm, nm, fra, data⟩) :: suf, some nm)
  else
    let segStart := joinPrev pre nm sn fra
    let segEnd := joinNext suf nm sn fra
    match fixStart (pre ++ (nm, ⟨sn, segStart, segEnd, fra, data⟩) :: suf) nm segStart segEnd fra with
    | .error e => .error e
    | .ok (buf, hasBegin) =>
      match fixEnd buf nm segStart segEnd fra with
      | .error e => .error e
      | .ok (buf, hasEnd) => .ok (buf, if hasBegin && hasEnd then some segStart else none)

/-- src/RecvFlow.cpp:347-357: the fragments from the given position through the first one marked as the end;
`none`: the loop reached the end of the buffer, where `at(SENTINEL)` throws. -/
def upToEnd : List (Nat × RFrag) → Option (List (Nat × RFrag))
  | [] => none
  | x :: l => if x.2.fra = .end then some [x] else (upToEnd l).map (x :: ·)

/-- src/RecvFlow.cpp:330-377 `deliverMessage(start)`. -/
def deliverMessage (f : RFlow) (start : Nat) (rc : Nat → React) : Except RErr (RFlow × List REv) :=
  let r0 := if f.prevRwnd < 2 then f.scheduleAck true else (f, [])
  let f := r0.1
  match at? f.buf start with
  | none => .error .threw
  | some frag =>
    if frag.fra = .whole then
      let r := if f.onMessage then
          let x := f.react (rc frag.sn)
          (x.1, REv.msg frag.data frag.sn 1 :: x.2)
        else (f, [])
      .ok ({ r.1 with buf := erase r.1.buf start }, r0.2 ++ r.2)
    else
      match upToEnd (f.buf.dropWhile (fun x => x.1 ≠ start)) with
      | none => .error .threw
      | some (part : List (Nat × RFrag)) =>
        let f := { f with buf := f.buf.filter (fun x => x.1 ∉ part.map (fun y : Nat × RFrag => y.1)) }
        let r := if f.onMessage then
            let x := f.react (rc frag.sn)
            (x.1, REv.msg (part.flatMap (fun y : Nat × RFrag => y.2.data)) frag.sn part.length :: x.2)
          else (f, [])
        .ok (r.1, r0.2 ++ r.2)

/-- src/RecvFlow.cpp:386-408: the delivery loop; `csn` was read before it. -/
def deliverLoop (csn : Nat) (rc : Nat → React) : Nat → RFlow → Except RErr (RFlow × List REv)
  | 0, _ => .error .fuel
  | fuel + 1, f =>
    if f.order ≠ .hold ∧ f.isOpen = true then
      match f.buf with
      | [] => .ok (f, [])
      | (name, frag) :: rest =>
        let drop : Except RErr (RFlow × List REv) := deliverLoop csn rc fuel { f with buf := rest }
        let deliver : Except RErr (RFlow × List REv) :=
          match f.deliverMessage name rc with
          | .error e => .error e
          | .ok (f, ev) => match deliverLoop csn rc fuel f with
            | .error e => .error e
            | .ok (f, ev') => .ok (f, ev ++ ev')
        if frag.sn > csn then .ok (f, [])
        else if frag.fra = .whole then deliver
        else if frag.fra ≠ .begin then drop
        else match at? f.buf frag.segEnd with
          | none => .error .threw
          | some endFrag =>
            if endFrag.fra = .end then deliver
            else if endFrag.sn < csn then drop
            else .ok (f, [])
    else .ok (f, [])

/-- src/RecvFlow.cpp:381-382: in network order the completed message goes out at once. -/
def tryHint (f : RFlow) (hint : Option Nat) (rc : Nat → React) : Except RErr (RFlow × List REv) :=
  match hint with
  | some h => if f.order = .network ∧ f.isOpen = true then f.deliverMessage h rc else .ok (f, [])
  | none => .ok (f, [])

/-- src/RecvFlow.cpp:379-412 `tryDelivery(hint)`. -/
def tryDelivery (f : RFlow) (hint : Option Nat) (rc : Nat → React) : Except RErr (RFlow × List REv) :=
  match f.tryHint hint rc with
  | .error e => .error e
  | .ok (f, ev1) =>
    let csn := f.csn
    match deliverLoop csn rc (f.buf.length + 1) f with
    | .error e => .error e
    | .ok (f, ev2) =>
      let r := if f.finalSeen = true ∧ f.finalSn ≤ csn ∧ f.buf = [] then f.closeAndNotify false else (f, [])
      .ok (r.1, ev1 ++ ev2 ++ r.2)

/-- src/RecvFlow.cpp:216-233: the final number, the forward sequence number and the set of received numbers. -/
def arrival (f : RFlow) (flags : UInt8) (sn fsn : Nat) : RFlow :=
  let fin : Bool := !f.seqs.contains sn && decide (flags &&& USERDATA_FLAG_FIN ≠ 0) && !f.finalSeen
  { f with
    finalSn := if fin then sn else f.finalSn
    finalSeen := f.finalSeen || fin
    forwardSn := if fsn > f.forwardSn then fsn else f.forwardSn
    seqs := IndexSet.add (IndexSet.add f.seqs 0 fsn) sn sn }

/-- src/RecvFlow.cpp:238-239: `state` and `fresh` are those before. -/
def insertIf (buf : List (Nat × RFrag)) (b : Bool) (nm sn : Nat) (flags : UInt8) (data : Bytes) :
    Except RErr (List (Nat × RFrag) × Option Nat) :=
  if b then insertFragment buf nm sn flags data else .ok (buf, none)

/-- src/RecvFlow.cpp:241: everything up to the final number has arrived. -/
def completes (f : RFlow) : Bool :=
  f.finalSeen && decide (f.state.rank < RFState.completeLinger.rank) && decide (f.seqs.length = 1)

/-- src/RecvFlow.cpp:241-243 (the alarm is the operation `lingerAlarm`). -/
def enterLinger (f : RFlow) : RFlow := { f with state := if f.completes then .completeLinger else f.state }

/-- src/RecvFlow.cpp:198-274 `onData`. -/
def onData (f : RFlow) (flags : UInt8) (sn fsn : Nat) (data : Bytes) (nm : Nat) (rc : Nat → React) :
    Except RErr (RFlow × List REv) :=
  let fresh := !f.seqs.contains sn
  let abandoned := decide (flags &&& USERDATA_FLAG_ABN ≠ 0)
  let a := f.arrival flags sn fsn
  match insertIf a.buf (fresh && !abandoned && decide (a.state = .opened)) nm sn flags data with
  | .error e => .error e
  | .ok (buf, hint) =>
    let g := ({ a with buf := buf }).enterLinger
    match g.tryDelivery hint rc with
    | .error e => .error e
    | .ok (h, ev) =>
      let pre := f.seqs.length
      let post := a.seqs.length
      let evMerge := if post < pre ∧ h.order = .network ∧ h.state = .opened ∧ f.csn < h.csn ∧ h.onMerge = true then [REv.merged] else []
      let ackNow : Bool := decide (f.prevRwnd < 2) || abandoned || decide (pre ≠ 1) || !fresh ||
        (fresh && decide (flags &&& USERDATA_FLAG_FIN ≠ 0) && !f.finalSeen) || ({ a with buf := buf } : RFlow).completes ||
        decide (pre ≠ post) || decide (h.state ≠ .opened)
      let r := h.scheduleAck ackNow
      .ok (r.1, ev ++ evMerge ++ r.2)

/-- src/RecvFlow.cpp:247-254: the linger alarm fires. -/
def lingerAlarm (f : RFlow) : RFlow := if f.state.rank < RFState.closed.rank then { f with state := .closed } else f

/-- src/RecvFlow.cpp:434-443: the advertised receive window in 1024-byte blocks. -/
def advertiseBlocks (f : RFlow) : Nat :=
  let buffered := (f.buf.map (fun x => x.2.data.length + 64)).sum
  let bytes := if buffered ≥ f.capacity then 0 else min (f.capacity - buffered) f.windowLimit
  let blocks := ((bytes + 1023) % W64) / 1024
  if blocks = 0 ∧ f.capacity > 0 ∧ f.windowLimit > 0 ∧ f.order ≠ .hold then 1 else blocks

/-- src/RecvFlow.cpp:477-480: what assembling an acknowledgement changes in the flow (the packet contents are modelled in
`Verif/Model/Ack.lean`). -/
def ackSent (f : RFlow) : RFlow := { f with shouldAck := false, prevRwnd := f.advertiseBlocks }

/-- The calls on a receive flow, by the user (`accept` … `setOnMerge`) and by the session. -/
inductive Op where
  | accept
  | setOrder (o : Order)
  | setCapacity (n : Nat)
  | setWindowLimit (n : Nat)
  | close (reason : Nat)
  | setOnMessage (b : Bool)
  | setOnComplete (b : Bool)
  | setOnMerge (b : Bool)
  | data (flags : UInt8) (sn fsn : Nat) (payload : Bytes) (nm : Nat) (rc : Nat → React)
  | deferredTry (rc : Nat → React)
  | probe
  | ackSent
  | reject
  | abort
  | lingerAlarm

/-- One call: src/RecvFlow.cpp:72-131, 179-274; `probe` is src/Session.cpp:1434-1439, `reject` src/Session.cpp:1427-1428. -/
def step (f : RFlow) : Op → Except RErr (RFlow × List REv)
  | .accept => .ok ({ f with accepted := true }, [])
  | .setOrder o => .ok (f.setOrder o, [])
  | .setCapacity n => .ok (({ f with capacity := n }).scheduleAck true)
  | .setWindowLimit n => .ok (({ f with windowLimit := n }).scheduleAck true)
  | .close reason => .ok (({ f with exceptionCode := reason }).close)
  | .setOnMessage b => .ok ({ f with onMessage := b }, [])
  | .setOnComplete b => .ok ({ f with onComplete := b }, [])
  | .setOnMerge b => .ok ({ f with onMerge := b }, [])
  | .data flags sn fsn payload nm rc => f.onData flags sn fsn payload nm rc
  | .deferredTry rc => f.tryDelivery none rc
  | .probe => .ok (f.scheduleAck true)
  | .ackSent => .ok (f.ackSent, [])
  | .reject => .ok (f.closeAndNotify true)
  | .abort => .ok f.abort
  | .lingerAlarm => .ok (f.lingerAlarm, [])

/-- Executions from a state `f0`: calls `op` allowed by `ok` in the state they are made in, none of which ended
abnormally; with the events so far. -/
inductive Exec (ok : RFlow → Op → Prop) (f0 : RFlow) : List Op → RFlow → List REv → Prop
  | nil : Exec ok f0 [] f0 []
  | snoc {ops f ev op f' ev'} : Exec ok f0 ops f ev → ok f op → f.step op = .ok (f', ev') →
      Exec ok f0 (ops ++ [op]) f' (ev ++ ev')

end RFlow
end Rtmfp
