import Verif.Model.List

/-!
# Model of `src/WriteReceipt.cpp`

Receipts live in a store addressed by a number (the identity of the `shared_ptr` target). `Time` is an
integer. A completion callback is a flag; its invocation is an output and pushes the receipt on a stack of
callbacks being executed. Other calls may be made while it is executing; `callbackReturned` is the
assignment `onFinished = nullptr` after it (so reentrant use is part of the model).
-/

namespace Rtmfp

/-- include/rtmfp/WriteReceipt.hpp:11-58 `WriteReceipt`. -/
structure Receipt where
  origin : Int
  startBy : Int
  finishBy : Int
  retransmit : Bool
  parent : Option Nat
  started : Bool
  abandoned : Bool
  useCount : Nat
  onFinished : Bool
deriving DecidableEq, Repr

namespace Receipt

/-- src/WriteReceipt.cpp:10-19. -/
def create (origin startWithin finishWithin : Int) : Receipt :=
  { origin := origin, startBy := origin + startWithin, finishBy := origin + finishWithin, retransmit := true,
    parent := none, started := false, abandoned := false, useCount := 0, onFinished := false }

/-- src/WriteReceipt.cpp:60-63. -/
def isAbandoned (r : Receipt) : Bool := r.abandoned
/-- src/WriteReceipt.cpp:75-78. -/
def isFinished (r : Receipt) : Bool := decide (r.useCount = 0) || r.isAbandoned
/-- src/WriteReceipt.cpp:70-73. -/
def isDelivered (r : Receipt) : Bool := r.isFinished && !r.isAbandoned

end Receipt

/-- The receipts, the callbacks being executed (innermost first) and the chain
(include/rtmfp/WriteReceipt.hpp:69-86 `WriteReceiptChain`, one chain). -/
structure RStore where
  r : Nat → Receipt
  stack : List Nat
  chain : List Nat

namespace RStore

/-- Store a receipt's fields (assignment to members, src/WriteReceipt.cpp throughout). -/
def upd (s : RStore) (i : Nat) (x : Receipt) : RStore := { s with r := fun j => if j = i then x else s.r j }

/-- No receipt yet. -/
def init : RStore := { r := fun _ => Receipt.create 0 0 0, stack := [], chain := [] }

/-- src/WriteReceipt.cpp:21-31 `abandon()` up to and including the call of `onFinished(true)`. -/
def abandon (s : RStore) (i : Nat) : RStore × List (Nat × Bool) :=
  let x := s.r i
  if x.useCount ≠ 0 ∧ x.abandoned = false then
    let s := s.upd i { x with abandoned := true, parent := none }
    if x.onFinished then ({ s with stack := i :: s.stack }, [(i, true)]) else (s, [])
  else (s, [])

/-- src/WriteReceipt.cpp:33-43 `abandonIfNeeded(now)`. -/
def abandonIfNeeded (s : RStore) (i : Nat) (now : Int) : RStore × List (Nat × Bool) :=
  let x := s.r i
  if x.abandoned then (s, [])
  else if now > x.finishBy ∨ (x.started = false ∧ now > x.startBy) ∨
      (∃ p, x.parent = some p ∧ (s.r p).isAbandoned = true) then s.abandon i
  else (s, [])

/-- src/WriteReceipt.cpp:82-85 `useCountUp()`. -/
def useCountUp (s : RStore) (i : Nat) : RStore :=
  s.upd i { s.r i with useCount := ((s.r i).useCount + 1) % W64 }

/-- src/WriteReceipt.cpp:87-96 `useCountDown()` up to and including the call of `onFinished(false)`; the
`size_t` wraps below 0. -/
def useCountDown (s : RStore) (i : Nat) : RStore × List (Nat × Bool) :=
  let x := s.r i
  let n := if x.useCount = 0 then U64MAX else x.useCount - 1
  if n = 0 then
    let s := s.upd i { x with useCount := n, parent := none }
    if x.onFinished then ({ s with stack := i :: s.stack }, [(i, false)]) else (s, [])
  else (s.upd i { x with useCount := n }, [])

/-- src/WriteReceipt.cpp:29, 94: `onFinished = nullptr` after the innermost callback returned. -/
def callbackReturned (s : RStore) : RStore :=
  match s.stack with
  | [] => s
  | i :: rest => { s.upd i { s.r i with onFinished := false } with stack := rest }

/-- src/WriteReceipt.cpp:105-112: the first part of `WriteReceiptChain::append`. -/
def chainLink (s : RStore) (i : Nat) : RStore :=
  let s := match s.chain.getLast? with
    | none => s
    | some l => s.upd i { s.r i with parent := some l }
  { s with chain := s.chain ++ [i] }

/-- src/WriteReceipt.cpp:114-120: the loop of `WriteReceiptChain::append`. -/
def chainTrim (r : Nat → Receipt) : List Nat → List Nat
  | a :: b :: l => if (r a).isFinished then chainTrim r (b :: l) else a :: b :: l
  | l => l

/-- src/WriteReceipt.cpp:105-121 `WriteReceiptChain::append`. -/
def chainAppend (s : RStore) (i : Nat) : RStore :=
  let s := s.chainLink i
  { s with chain := chainTrim s.r s.chain }

/-- src/WriteReceipt.cpp:128-136 `WriteReceiptChain::expire`. -/
def chainExpire (s : RStore) (startDeadline finishDeadline : Int) : RStore :=
  { s with
    r := fun j => if j ∈ s.chain then
      { s.r j with startBy := min (s.r j).startBy startDeadline, finishBy := min (s.r j).finishBy finishDeadline }
      else s.r j
    chain := [] }

/-- The calls on receipts (user and issuer). -/
inductive Op where
  /-- src/SendFlow.cpp:220-246: a new receipt with one use per fragment -/
  | issue (i : Nat) (origin startWithin finishWithin : Int) (frags : Nat)
  | setCallback (i : Nat)
  | abandon (i : Nat)
  | abandonIfNeeded (i : Nat) (now : Int)
  | fragmentDone (i : Nat)
  | start (i : Nat)
  | setStartBy (i : Nat) (t : Int)
  | setFinishBy (i : Nat) (t : Int)
  | setStartWithin (i : Nat) (d : Int)
  | setFinishWithin (i : Nat) (d : Int)
  | setRetransmit (i : Nat) (b : Bool)
  | setParent (i : Nat) (p : Option Nat)
  | chainAppend (i : Nat)
  | chainExpire (startDeadline finishDeadline : Int)
  | callbackReturned
deriving Repr, DecidableEq

/-- One call: src/WriteReceipt.cpp:10-136; `issue` is src/SendFlow.cpp:220-251 seen from the receipt. -/
def step (s : RStore) : Op → RStore × List (Nat × Bool)
  | .issue i o a b n => ((List.range n).foldl (fun s _ => s.useCountUp i) (s.upd i (Receipt.create o a b)), [])
  | .setCallback i => (s.upd i { s.r i with onFinished := true }, [])
  | .abandon i => s.abandon i
  | .abandonIfNeeded i now => s.abandonIfNeeded i now
  | .fragmentDone i => s.useCountDown i
  | .start i => (s.upd i { s.r i with started := true }, [])
  | .setStartBy i t => (s.upd i { s.r i with startBy := t }, [])
  | .setFinishBy i t => (s.upd i { s.r i with finishBy := t }, [])
  | .setStartWithin i d => (s.upd i { s.r i with startBy := (s.r i).origin + d }, [])
  | .setFinishWithin i d => (s.upd i { s.r i with finishBy := (s.r i).origin + d }, [])
  | .setRetransmit i b => (s.upd i { s.r i with retransmit := b }, [])
  | .setParent i p => (s.upd i { s.r i with parent := p }, [])
  | .chainAppend i => (s.chainAppend i, [])
  | .chainExpire a b => (s.chainExpire a b, [])
  | .callbackReturned => (s.callbackReturned, [])

end RStore
end Rtmfp
