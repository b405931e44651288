import Verif.Model.SendFlow

/-!
# Model of the writable notification of `src/SendFlow.cpp`

`isWritable`, `notifyWhenWritable`, `setBufferCapacity`, `queueWritableNotify` and `doWritable`, on top of the model of the sending side of a session
(`Verif.Model.SendFlow`), whose operations are the operation `lib` here.

* `Platform::perform` runs a task later, never at once (include/rtmfp/rtmfp.hpp, `IPlatformAdapter::perform`); the tasks of a flow that were given to it and not yet run are counted in `tasks`,
  and the operation `run` is one of them being run.
* The callback `onWritable` is called in the operation that outputs `told`, and returns in the operation `ret`; the user's calls between them are operations too.
* The size of the queue is not reduced modulo 2^64.
-/

namespace Rtmfp
namespace Writable

/-- include/rtmfp/params.hpp:49 `FRAGMENT_SIZE_BIAS` -/
def FRAGMENT_SIZE_BIAS : Nat := 64
/-- include/rtmfp/params.hpp:28 `INITIAL_SEND_BUFFER` -/
def INITIAL_SEND_BUFFER : Nat := 65536

/-- src/SendFlow.cpp:30-33 `size_queue` -/
def queueSize (f : SFrag) : Nat := f.data.length + FRAGMENT_SIZE_BIAS

/-- src/SendFlow.cpp:114-117 `getBufferedSize` -/
def buffered (q : List SFrag) : Nat := (q.map queueSize).sum

/-- include/rtmfp/rtmfp.hpp:268, 310-313: `m_shouldNotifyWhenWritable`, `m_writablePending`, whether `onWritable` is set, and `m_buffer_capacity`; `tasks`: how many tasks for the flow the platform
was given and has not run yet -/
structure Flag where
  should : Bool
  pending : Bool
  handler : Bool
  capacity : Nat
  tasks : Nat
deriving DecidableEq, Repr

/-- The sending side of a session with the members of its flows for notification. `running` is the flow whose callback was called and has not returned. -/
structure WS where
  ss : SS
  flag : Nat → Flag
  running : Option Nat

/-- src/SendFlow.cpp:42-57: before anything happened; a flow that is opened has these members -/
def init : WS := ⟨SS.init, fun _ => ⟨false, false, false, INITIAL_SEND_BUFFER, 0⟩, none⟩

/-- assignment to the members of a flow -/
def WS.setFlag (w : WS) (i : Nat) (f : Flag) : WS := { w with flag := fun j => if j = i then f else w.flag j }

/-- src/SendFlow.cpp:84-96 -/
def isWritable (w : WS) (i : Nat) : Bool :=
  (w.ss.flow i).bound && w.ss.isOpen && (w.ss.flow i).baseOpen && decide (buffered (w.ss.flow i).queue < (w.flag i).capacity)

/-- src/SendFlow.cpp:311-319 -/
def queueNotify (w : WS) (i : Nat) : WS :=
  if (w.flag i).should = true ∧ (w.flag i).pending = false then w.setFlag i { w.flag i with pending := true, tasks := (w.flag i).tasks + 1 } else w

/-- src/SendFlow.cpp:344, 357, 360: `anyTrimmed` -/
def anyTrimmed (s : SS) (i : Nat) (now : Int) : Bool := decide ((SS.trimLoop now s.receipts (s.flow i).queue).2.1.length < (s.flow i).queue.length)

/-- The calls of `queueWritableNotify` by the library: src/SendFlow.cpp:281 (the flow is bound), 361 (something was trimmed, by the trimming task or before data is assembled) and 611 (an
acknowledgement that doesn't complete the flow). The flow concerned. -/
def notifies (s : SS) : SS.Op → Option Nat
  | .bind i _ => if (s.flow i).bound then none else some i
  | .trim i now => if anyTrimmed s i now then some i else none
  | .transmit i _ pri now _ => if pri = (s.flow i).priority ∧ SS.isMaybeReady (s.flow i) = true ∧ anyTrimmed s i now = true then some i else none
  | .ack i b rs =>
    if (s.flow i).state.rank ≥ SFState.completeLinger.rank then none
    else if ((s.onAck i b rs).1.flow i).state = .completeLinger then none
    else some i
  | _ => none

/-- src/SendFlow.cpp:171: `close()` takes the callback away. Simplified: `close()` of a flow that is already closed does not, and such a flow is never writable. -/
def clearHandlers (s t : SS) (flag : Nat → Flag) : Nat → Flag := fun j =>
  if (s.flow j).baseOpen = true ∧ (t.flow j).baseOpen = false then { flag j with handler := false } else flag j

/-- the call of `queueWritableNotify`, if any -/
def queueIf (w : WS) : Option Nat → WS
  | none => w
  | some i => queueNotify w i

/-- What happens: something of `SS.Op`, the user's calls concerning notification, the task, and the return of the callback with an answer. -/
inductive Op where
  | lib (op : SS.Op)
  | notify (i : Nat)
  | setCapacity (i n : Nat)
  | setHandler (i : Nat)
  | run (i : Nat)
  | ret (i : Nat) (again : Bool)

/-- What can be observed. `told`: `onWritable` of the flow is called. -/
inductive Ev where
  | lib (e : SS.Ev)
  | told (i : Nat)

/-- src/SendFlow.cpp:324-325: the loop of `doWritable`, to where the callback is called or the loop ends -/
def loop (w : WS) (i : Nat) : WS × List Ev :=
  if (w.flag i).should = true ∧ isWritable w i = true then
    if (w.flag i).handler then ({ w with running := some i }, [.told i])
    else ({ w.setFlag i { w.flag i with should := false } with running := none }, [])
  else ({ w with running := none }, [])

/-- src/SendFlow.cpp:311-326 and the functions of `SS`: the state and events after something of `SS` happened -/
def libRes (w : WS) (op : SS.Op) : Option (SS × List SS.Ev) → Option (WS × List Ev)
  | none => none
  | some (t, es) => some (queueIf { w with ss := t, flag := clearHandlers w.ss t w.flag } (notifies w.ss op), es.map .lib)

/-- One thing happens. `none`: a null pointer is used (`SS.step`). src/SendFlow.cpp:98-102 `notifyWhenWritable`, 104-107 `setBufferCapacity`, 321-326 `doWritable`. -/
def step (w : WS) : Op → Option (WS × List Ev)
  | .lib op => libRes w op (w.ss.step op)
  | .notify i => some (queueNotify (w.setFlag i { w.flag i with should := true }) i, [])
  | .setCapacity i n => some (w.setFlag i { w.flag i with capacity := n }, [])
  | .setHandler i => some (w.setFlag i { w.flag i with handler := true }, [])
  | .run i => some (loop (w.setFlag i { w.flag i with pending := false, tasks := (w.flag i).tasks - 1 }) i)
  | .ret i b => some (loop (w.setFlag i { w.flag i with should := b }) i)

end Writable
end Rtmfp
