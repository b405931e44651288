import Verif.Base
/-! # The adapter between a stream protocol and a TCP socket: test/PosixStreamPlatformAdapter.cpp

Its members, its registrations with the run loop, what the kernel answers, and the client's code (RTMP, SimpleWebSocket) that runs in the callbacks. The socket is given by
`setSocketFd` before anything else happens, once (lines 77-108 are `init`). `onShutdownCompleteCallback` is set at the beginning and not again. The run loop calls an action only
while it is registered (C69). Not modelled: the options set on the socket, `perror`, the references that keep the adapter alive (it is not destroyed before the history
ends), and that a callback's closure is destroyed while it runs when the client replaces or drops it from inside. -/
namespace Rtmfp
namespace PosixStream

/-- what the client and the owner can call: `notifyWhenWritable`, `setOnReceiveBytesCallback`, `setOnStreamDidCloseCallback` (each with a callback, by its number), `doLater`,
`writeBytes`, `onClientClosed`, `close`, `attachToRunLoop`, `detachFromRunLoop` (PosixStreamPlatformAdapter.hpp:16-31) -/
inductive Call where
  | notify (f : Nat)
  | receive (f : Nat)
  | whenLost (f : Nat)
  | later (t : Nat)
  | write (b : Bytes)
  | leave
  | close
  | attach
  | detach
deriving DecidableEq, Repr

/-- what happens, in order: a call of the client; a callback called (`writable`, `data` with the bytes, `lost`, `task`, `ended` for `onShutdownCompleteCallback`); what the
kernel gave (`recv`) and took (`sent`); `shutdown(SHUT_WR)`; `::close` -/
inductive Ev where
  | did (c : Call)
  | writable (f : Nat)
  | data (f : Nat) (b : Bytes)
  | lost (f : Nat)
  | task (t : Nat)
  | ended
  | recv (b : Bytes)
  | sent (b : Bytes)
  | shutWr
  | closed
deriving DecidableEq, Repr

/-- the client: what it calls when something was called back, and what it answers, by what has happened until then. Not in the code. -/
structure App where
  react : List Ev → List Call
  answer : List Ev → Bool

/-- PosixStreamPlatformAdapter.hpp:41-53, with what is registered (`regR`, `regW`), the deferred tasks in the run loop, whether `onShutdownCompleteCallback` is still set (`fin`).
`up`: `m_fd >= 0`; `runs`: `m_runloop` is not null. `stuck`: the loop of line 214 was still going round after `turns` rounds; `wild`: an assertion failed or a null pointer was
followed (lines 46, 140). The log is not in the code. -/
structure St where
  client : Bool
  shut : Bool
  runs : Bool
  up : Bool
  size : Nat
  turns : Nat
  out : Bytes
  onW : Option Nat
  onR : Option Nat
  onL : Option Nat
  allowed : Bool
  regR : Bool
  regW : Bool
  tasks : List Nat
  fin : Bool
  stuck : Bool
  wild : Bool
  log : List Ev
deriving DecidableEq, Repr

/-- PosixStreamPlatformAdapter.cpp:24-34, 77-108: made with or without a run loop, with that `writeSizePerSelect`, and given its socket -/
def init (runs : Bool) (size turns : Nat) : St :=
  ⟨true, false, runs, true, size, turns, [], none, none, none, true, false, false, [], true, false, false, []⟩

/-- what happens is written down; not in the code -/
def note (st : St) (e : Ev) : St := { st with log := st.log ++ [e] }

/-- PosixStreamPlatformAdapter.cpp:265-272 -/
def tryR (st : St) : St := if st.runs && st.up && st.onR.isSome then { st with regR := true } else st

/-- PosixStreamPlatformAdapter.cpp:274-281 -/
def tryW (st : St) : St := if st.runs && st.up && st.onW.isSome then { st with regW := true } else st

/-- PosixStreamPlatformAdapter.cpp:256-263 -/
def closeIfDone (st : St) : St :=
  if st.out = [] ∧ st.client = false ∧ st.shut = false ∧ st.up = true then note { st with shut := true } .shutWr else st

/-- PosixStreamPlatformAdapter.cpp:59-69: `close` without the callback -/
def drop (st : St) : St :=
  if st.up then note { st with allowed := false, regR := if st.runs then false else st.regR, regW := if st.runs then false else st.regW, up := false } .closed
  else { st with allowed := false }

/-- one call, noted beforehand, but `close` without its callback; PosixStreamPlatformAdapter.cpp:44-57 and 121-167 -/
def body (st : St) : Call → St
  | .notify f => tryW { st with onW := some f }
  | .receive f => tryR { st with onR := some f }
  | .whenLost f => { st with onL := some f }
  | .later t => if st.runs then { st with tasks := st.tasks ++ [t] } else { st with wild := true }
  | .write b => if st.up then { st with out := st.out ++ b } else st
  | .leave => closeIfDone { st with allowed := false, client := false, onW := none, onR := none, onL := none }
  | .close => drop st
  | .attach => if st.runs then { st with wild := true } else tryW (tryR { st with runs := true })
  | .detach => if st.runs then { st with regR := false, regW := false, runs := false } else st

/-- a call made where `onShutdownCompleteCallback` is empty -/
def callOver (st : St) (c : Call) : St := body (note st (.did c)) c

/-- PosixStreamPlatformAdapter.cpp:71-74: the callback is taken out before it is called, so a `close` inside of it does not call it again -/
def finish (app : App) (st : St) : St :=
  if st.fin then (app.react (st.log ++ [.ended])).foldl callOver (note { st with fin := false } .ended) else st

/-- PosixStreamPlatformAdapter.cpp:59-75 -/
def close (app : App) (st : St) : St := finish app (drop st)

/-- one call of the client or the owner -/
def call (app : App) (st : St) (c : Call) : St :=
  let st := callOver st c
  if c = .close then finish app st else st

/-- a callback: it is called, and makes its calls -/
def back (app : App) (st : St) (e : Ev) : St := (app.react (st.log ++ [e])).foldl (call app) (note st e)

/-- PosixStreamPlatformAdapter.cpp:205-207 and 236-238 -/
def fail (app : App) (st : St) : St :=
  let st := close app st
  match st.onL with
  | some f => back app st (.lost f)
  | none => st

/-- what `recvfrom` answers: some bytes, the end, later, an error -/
inductive Got where
  | some (b : Bytes)
  | eof
  | again
  | bad
deriving DecidableEq, Repr

/-- PosixStreamPlatformAdapter.cpp:171-208 -/
def onReadable (app : App) (st : St) (g : Got) : St :=
  if st.client && st.onR.isNone then { st with regR := false }
  else
    match g with
    | .again => st
    | .eof => fail app st
    | .bad => fail app st
    | .some b =>
      let st := note st (.recv b)
      if st.shut then st
      else if st.client = false then fail app st
      else
        match st.onR with
        | none => st
        | some f =>
          let st' := back app st (.data f b)
          if app.answer (st.log ++ [.data f b]) then st' else { st' with onR := none }

/-- what `sendto` answers: how many bytes it took (never more than it was given), later, an error -/
inductive Put where
  | some (n : Nat)
  | again
  | bad
deriving DecidableEq, Repr

/-- PosixStreamPlatformAdapter.cpp:214-218; `stuck` if it is still going round after so many rounds -/
def fill (app : App) : Nat → St → St
  | 0, st => if st.onW.isSome && decide (st.out.length < st.size) then { st with stuck := true } else st
  | n + 1, st =>
    if st.out.length < st.size then
      match st.onW with
      | none => st
      | some f =>
        let st' := back app st (.writable f)
        fill app n (if app.answer (st.log ++ [.writable f]) then st' else { st' with onW := none })
    else st

/-- PosixStreamPlatformAdapter.cpp:250-253 -/
def settle (st : St) : St :=
  closeIfDone (if st.out = [] ∧ st.runs = true ∧ st.onW = none then { st with regW := false } else st)

/-- PosixStreamPlatformAdapter.cpp:220-253; on a closed descriptor `sendto` fails whatever -/
def push (app : App) (st : St) (p : Put) : St :=
  if st.out = [] then settle st
  else if st.up = false then fail app st
  else
    match p with
    | .again => st
    | .bad => fail app st
    | .some n => settle (note { st with out := st.out.drop n } (.sent (st.out.take n)))

/-- PosixStreamPlatformAdapter.cpp:210-254 -/
def onWritable (app : App) (st : St) (p : Put) : St :=
  let st := fill app st.turns st
  if st.stuck then st else push app st p

/-- PosixStreamPlatformAdapter.cpp:142-145: the run loop gets to a deferred task -/
def onTask (app : App) (st : St) : St :=
  match st.tasks with
  | [] => st
  | t :: ts =>
    let st := { st with tasks := ts }
    if st.allowed then back app st (.task t) else st

/-- what can happen next: the client or the owner calls; the run loop finds the socket readable or writable, or gets to a deferred task -/
inductive Op where
  | call (c : Call)
  | readable (g : Got)
  | writable (p : Put)
  | task
deriving DecidableEq, Repr

/-- one step. An action runs only while it is registered. -/
def step (app : App) (st : St) : Op → St
  | .call c => if st.stuck || st.wild then st else call app st c
  | .readable g => if st.stuck || st.wild || !st.regR then st else onReadable app st g
  | .writable p => if st.stuck || st.wild || !st.regW then st else onWritable app st p
  | .task => if st.stuck || st.wild then st else onTask app st

/-- a history -/
def run (app : App) (st : St) (ops : List Op) : St := ops.foldl (step app) st

end PosixStream
end Rtmfp
