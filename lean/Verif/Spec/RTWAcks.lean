import Verif.Spec.RTWebSocket

/-!
# Acknowledged bytes: specification for C101

What has to be acknowledged and what is, told from the messages alone.
-/

namespace Rtmfp.Spec.Flows

open Rtmfp.RTWS (Msg Ev Op)

/-- What has arrived, in order. -/
def came (os : List Op) : List Bytes := os.filterMap fun | .recv b => .some b | _ => .none

/-- What the arrived messages say. -/
def saying (bs : List Bytes) : List Msg :=
  bs.filterMap fun b => match Msg.decode b with | .some (.some m) => .some m | _ => .none

/-- Whether a message is a piece of a flow. -/
def isData : Msg → Bool
  | .data _ _ _ => true
  | _ => false

/-- How many bytes of messages are to be acknowledged: pieces of flows count with their whole length,
other messages not at all. -/
def weight (bs : List Bytes) : Nat :=
  (bs.map fun b => match Msg.decode b with | .some (.some m) => if isData m then b.length else 0 | _ => 0).sum

/-- How many bytes messages acknowledge. -/
def acknowledged (ms : List Msg) : Nat := (ms.map fun | .ack _ d _ => d | _ => 0).sum

/-- How many more bytes the acknowledgements of a flow allow, in order. -/
def adverts (id : Nat) (ms : List Msg) : List Nat :=
  ms.filterMap fun | .ack i _ a => if i = id then .some a else .none | _ => .none

end Rtmfp.Spec.Flows
