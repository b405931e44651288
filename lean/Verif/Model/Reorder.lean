import Verif.Model.VLU
/-! # The reorder buffer: src/ReorderBuffer.cpp, include/rtmfp/ReorderBuffer.hpp

Times are integers (ticks) instead of doubles, an infinite period is `none`. `onMessage` is assumed not to call the buffer again
(doing so while a queued message is delivered invalidates the iterator used at src/ReorderBuffer.cpp:133-134). -/
namespace Rtmfp
namespace Reorder

/-- include/rtmfp/ReorderBuffer.hpp:31-38 `Message`, src/ReorderBuffer.cpp:15-20 -/
structure Msg where
  payload : Bytes
  sn : Nat
  count : Nat
  rx : Int
deriving DecidableEq, Repr

/-- src/ReorderBuffer.cpp:10-13 `_lastSN` -/
def lastSN (sn count : Nat) : Nat := (sn + count - (if count ≠ 0 then 1 else 0)) % W64

/-- include/rtmfp/ReorderBuffer.hpp:49-55; `bySeq` is the map's values in the order of its keys, `timer` is when the delivery timer is due,
`open_` says that `onMessage` is set. -/
structure RB where
  period : Option Int
  csn : Nat
  delivered : Nat
  highest : Nat
  timer : Option Int
  bySeq : List Msg
  byTime : List Msg
  open_ : Bool
deriving DecidableEq, Repr

/-- a call of `onMessage` -/
structure Ev where
  payload : Bytes
  sn : Nat
  count : Nat
  late : Bool
deriving DecidableEq, Repr

/-- src/ReorderBuffer.cpp:26 and 49-50: a negative period is none at all -/
def clampPeriod (p : Option Int) : Option Int := p.map (fun x => if x < 0 then 0 else x)

/-- src/ReorderBuffer.cpp:22-27: the constructor. `m_highestSeen` is not initialized: `garbage` is what is there. -/
def init (p : Option Int) (garbage : Nat) : RB := ⟨clampPeriod p, 0, 0, garbage, none, [], [], true⟩

/-- src/ReorderBuffer.cpp:101-104 -/
def RB.shouldDeliverNow (b : RB) (sn : Nat) : Bool := decide (sn ≤ (b.csn + 1) % W64)

/-- src/ReorderBuffer.cpp:106-109 -/
def RB.isLate (b : RB) (sn : Nat) : Bool := decide (sn < b.delivered)

/-- src/ReorderBuffer.cpp:111-120 -/
def RB.deliverMessage (b : RB) (payload : Bytes) (sn count : Nat) : RB × List Ev :=
  let last := lastSN sn count
  ({ b with csn := max b.csn last, delivered := max b.delivered last },
   if b.open_ then [⟨payload, sn, count, b.isLate last⟩] else [])

/-- src/ReorderBuffer.cpp:155-165. A timer the buffer no longer refers to has been cancelled. -/
def RB.scheduleDelivery (b : RB) : RB :=
  match b.byTime, b.period, b.timer with
  | m :: _, some p, none => { b with timer := some (m.rx + p) }
  | _, _, _ => b

/-- src/ReorderBuffer.cpp:170 and 175 -/
def expired (period : Option Int) (now rx : Int) : Bool :=
  match period with
  | none => false
  | some p => decide (rx ≤ now - p)

/-- src/ReorderBuffer.cpp:172-182: the loop of `findCSN`, over `csn` and the messages by time -/
def findLoop (period : Option Int) (now : Int) : (csn : Nat) → (byTime : List Msg) → Nat × List Msg
  | csn, [] => (csn, [])
  | csn, m :: ms =>
    if decide (m.sn ≤ (csn + 1) % W64) || expired period now m.rx then findLoop period now (max csn (lastSN m.sn m.count)) ms
    else (csn, m :: ms)

/-- src/ReorderBuffer.cpp:168-183 `findCSN` -/
def RB.findCSN (b : RB) (now : Int) : RB :=
  let r := findLoop b.period now b.csn b.byTime
  { b with csn := r.1, byTime := r.2 }

/-- src/ReorderBuffer.cpp:127-138: the loop of `tryDeliver` over the messages by sequence number -/
def deliverLoop : (todo : List Msg) → RB → RB × List Ev
  | [], b => ({ b with bySeq := [] }, [])
  | m :: ms, b =>
    if b.shouldDeliverNow m.sn then
      let d := b.deliverMessage m.payload m.sn m.count
      let r := deliverLoop ms { d.1 with bySeq := ms }
      (r.1, d.2 ++ r.2)
    else ({ b with bySeq := m :: ms }, [])

/-- src/ReorderBuffer.cpp:122-145 `tryDeliver`; `none` if the assertion on line 144 fails -/
def RB.tryDeliver (b : RB) (now : Int) : Option (RB × List Ev) :=
  let b := b.findCSN now
  let r := deliverLoop b.bySeq b
  let b := (r.1.findCSN now).scheduleDelivery
  if b.bySeq.isEmpty = b.byTime.isEmpty then some (b, r.2) else none

/-- `m_messagesBySequence[sequenceNumber] = message` (src/ReorderBuffer.cpp:150) -/
def mapPut : List Msg → Msg → List Msg
  | [], m => [m]
  | x :: xs, m => if m.sn < x.sn then m :: x :: xs else if m.sn = x.sn then m :: xs else x :: mapPut xs m

/-- src/ReorderBuffer.cpp:147-153 `queueMessage` -/
def RB.queueMessage (b : RB) (now : Int) (payload : Bytes) (sn count : Nat) : RB :=
  let m : Msg := ⟨payload, sn, count, now⟩
  { b with bySeq := mapPut b.bySeq m, byTime := b.byTime ++ [m] }.scheduleDelivery

/-- src/ReorderBuffer.cpp:65-76 `insert` -/
def RB.insert (b : RB) (now : Int) (payload : Bytes) (sn count : Nat) : Option (RB × List Ev) :=
  let b := { b with highest := max b.highest (lastSN sn count) }
  if b.shouldDeliverNow sn then
    let d := b.deliverMessage payload sn count
    (d.1.tryDeliver now).map (fun r => (r.1, d.2 ++ r.2))
  else some (b.queueMessage now payload sn count, [])

/-- src/ReorderBuffer.cpp:78-85 `deliverThrough` -/
def RB.deliverThrough (b : RB) (now : Int) (sn : Nat) : Option (RB × List Ev) :=
  if sn > b.csn then { b with csn := sn }.tryDeliver now else some (b, [])

/-- src/ReorderBuffer.cpp:87-90 `flush` -/
def RB.flush (b : RB) (now : Int) : Option (RB × List Ev) := b.deliverThrough now b.highest

/-- src/ReorderBuffer.cpp:47-58 `setReorderWindowPeriod` -/
def RB.setPeriod (b : RB) (p : Option Int) : RB :=
  let p := clampPeriod p
  if b.period ≠ p then { b with period := p, timer := none }.scheduleDelivery else b

/-- src/ReorderBuffer.cpp:34-45 `close` -/
def RB.close (b : RB) : RB := { b with timer := none, open_ := false, bySeq := [], byTime := [] }

/-- src/ReorderBuffer.cpp:160-163: the timer's action -/
def RB.fire (b : RB) (now : Int) : Option (RB × List Ev) := { b with timer := none }.tryDeliver now

/-- what can happen to a buffer -/
inductive Op where
  | insert (payload : Bytes) (sn count : Nat)
  | deliverThrough (sn : Nat)
  | flush
  | fire
  | setPeriod (p : Option Int)
  | close

/-- each member function at the given time; the timer's action only runs when the timer is due, at the earliest. -/
def RB.step (b : RB) (now : Int) : Op → Option (RB × List Ev)
  | .insert payload sn count => b.insert now payload sn count
  | .deliverThrough sn => b.deliverThrough now sn
  | .flush => b.flush now
  | .fire =>
    match b.timer with
    | some w => if w ≤ now then b.fire now else some (b, [])
    | none => some (b, [])
  | .setPeriod p => some (b.setPeriod p, [])
  | .close => some (b.close, [])

end Reorder
end Rtmfp
