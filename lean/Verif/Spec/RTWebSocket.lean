import Verif.Model.RTWebSocket

/-!
# What flows of messages are: specification for C98 and C99

Independent of how either end keeps its books: the messages of one flow, in the order in which they
are sent or arrive, say which messages it carries (`hear`).  Only the vocabulary (`Msg`, `Ev`) is the
model's.
-/

namespace Rtmfp.Spec.Flows

open Rtmfp.RTWS (Msg Ev Who)

/-- What somebody knows who has listened to a flow: the number of the next message, the beginning of an
unfinished one, the whole messages with their numbers, and whether it is over. -/
structure Ear where
  next : Nat := 1
  part : Option (Nat × Bytes) := .none
  out : List (Nat × Bytes) := []
  over : Bool := false
  deriving DecidableEq, Repr

/-- A piece, the last one of its message unless `more`. -/
def Ear.piece (e : Ear) (more : Bool) (b : Bytes) : Ear :=
  match e.part with
  | .none => if more then { e with next := e.next + 1, part := .some (e.next, b) }
      else { e with next := e.next + 1, out := e.out ++ [(e.next, b)] }
  | .some (k, a) => if more then { e with part := .some (k, a ++ b) }
      else { e with part := .none, out := e.out ++ [(k, a ++ b)] }

/-- `n` messages won't be sent (any more): an unfinished one is the first of them. -/
def Ear.skip (e : Ear) (n : Nat) : Ear :=
  match e.part with
  | .none => { e with next := e.next + n }
  | .some _ => { e with part := .none, next := e.next + (n - 1) }

/-- What a message says about its flow. -/
def hear (e : Ear) : Msg → Ear
  | .data _ more b => e.piece more b
  | .abandon _ extra => e.skip (extra + 1)
  | .closes _ => { e with over := true, part := .none }
  | _ => e

/-- What the messages of a flow say. -/
def listen (ms : List Msg) : Ear := ms.foldl hear {}

/-- What sending flow `s` gave the transport. -/
def sentBy (s : Nat) (l : List Ev) : List Msg :=
  l.filterMap fun | .tx (.s i) m => if i = s then .some m else .none | _ => .none

/-- The messages written to sending flow `s`, in order. -/
def written (s : Nat) (l : List Ev) : List Bytes :=
  l.filterMap fun | .wrote i b => if i = s then .some b else .none | _ => .none

/-- What the writer was told about the messages of sending flow `s`, in order: the number of the message
and whether it was sent (`true`) or abandoned. -/
def settled (s : Nat) (l : List Ev) : List (Nat × Bool) :=
  l.filterMap fun
    | .done i k => if i = s then .some (k, true) else .none
    | .dropped i k => if i = s then .some (k, false) else .none
    | _ => .none

/-- The messages of sending flow `s` that were sent, with their numbers in the order of writing. -/
def carried (s : Nat) (l : List Ev) : List (Nat × Bytes) :=
  (settled s l).filterMap fun p => if p.2 then .some (p.1, ((written s l)[p.1 - 1]?).getD []) else .none

/-- What arrived for receiving flow `r`. -/
def heardBy (r : Nat) (l : List Ev) : List Msg :=
  l.filterMap fun | .heard i m => if i = r then .some m else .none | _ => .none

/-- The messages the reader of receiving flow `r` was given, with their numbers. -/
def given (r : Nat) (l : List Ev) : List (Nat × Bytes) :=
  l.filterMap fun | .message i k b => if i = r then .some (k, b) else .none | _ => .none

/-- How often the reader of receiving flow `r` was told that it is complete. -/
def endings (r : Nat) (l : List Ev) : Nat := l.countP fun | .complete i => i == r | _ => false

/-- What has gone to the transport, in order. -/
def wire (l : List Ev) : List Msg := l.filterMap fun | .tx _ m => .some m | _ => .none

end Rtmfp.Spec.Flows
