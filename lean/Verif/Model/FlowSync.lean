import Verif.Model.TCMessage

/-! # Model of the barriers of `src/FlowSyncManager.cpp`

Flows are identified by numbers; `none` is a null pointer. A barrier that isn't in `m_barriers` and one with no flows behave
alike (`m_barriers[syncID]` creates an empty one), so the map is a total function here. `setReceiveOrder` of a flow
(src/RecvFlow.cpp:103-112) only records the order and defers the delivery attempt, so nothing re-enters the manager. -/

namespace Rtmfp
namespace FlowSync
open TC (RO)

/-- include/rtmfp/FlowSyncManager.hpp `m_barriers`, and the receive order of each flow -/
structure State where
  barriers : Nat → List (Option Nat)
  order : Nat → RO

/-- `setReceiveOrder` on flow `f` -/
def setOrder (order : Nat → RO) (f : Nat) (o : RO) : Nat → RO := fun g => if g = f then o else order g

/-- src/FlowSyncManager.cpp:15-16: what `~Barrier` does with one flow -/
def release1 (order : Nat → RO) : Option Nat → (Nat → RO)
  | none => order
  | some f => if order f = .hold then setOrder order f .sequence else order

/-- src/FlowSyncManager.cpp:10-19 `~Barrier`: from the back of the vector to its front. -/
def releaseAll (order : Nat → RO) (flows : List (Option Nat)) : Nat → RO := flows.reverse.foldl release1 order

/-- src/FlowSyncManager.cpp:43-46 `reset`: erasing the barrier runs its destructor. -/
def reset (s : State) (syncID : Nat) : State :=
  { barriers := fun i => if i = syncID then [] else s.barriers i
    order := releaseAll s.order (s.barriers syncID) }

/-- src/FlowSyncManager.cpp:37-38 -/
def hold (order : Nat → RO) : Option Nat → (Nat → RO)
  | none => order
  | some f => if order f = .sequence then setOrder order f .hold else order

/-- src/FlowSyncManager.cpp:25-41 `sync` -/
def sync (s : State) (syncID count : Nat) (flow : Option Nat) : State × Bool :=
  if count ≤ (s.barriers syncID).length + 1 then (reset s syncID, true)
  else ({ barriers := fun i => if i = syncID then s.barriers syncID ++ [flow] else s.barriers i
          order := hold s.order flow }, false)

/-- src/FlowSyncManager.cpp:21-23, with flows of any orders -/
def init (order : Nat → RO) : State := { barriers := fun _ => [], order }

/-- calls: of the manager, and of a flow's own `setReceiveOrder` by its user -/
inductive Op where
  | sync (syncID count : Nat) (flow : Option Nat)
  | reset (syncID : Nat)
  | user (f : Nat) (o : RO)

/-- one call and its answer (`false` for the calls without one) -/
def step (s : State) : Op → State × Bool
  | .sync i c f => sync s i c f
  | .reset i => (reset s i, false)
  | .user f o => ({ s with order := setOrder s.order f o }, false)

/-- the calls made so far and their answers, with the state they lead to -/
inductive Exec (order0 : Nat → RO) : List (Op × Bool) → State → Prop
  | nil : Exec order0 [] (init order0)
  | snoc {tr s op s' r} : Exec order0 tr s → step s op = (s', r) → Exec order0 (tr ++ [(op, r)]) s'

end FlowSync
end Rtmfp
