import Verif.Base
/-! # The platform adapter over sockets: src/PosixPlatformAdapter.cpp

Its sockets, its registrations with the run loop, and the kernel's table of descriptors. Files are numbered as they are opened, so that a number that is given out
again leads to another file. The run loop calls an action only if it is registered at that moment and its own code is not being called already (C69, C87; `run` is
not nested). The application's code runs outside of `run` and inside of the callbacks; it can call the adapter there and open and close descriptors of its own.
`setRtmfp` was called at the beginning (without, lines 37, 105 and 138 follow null pointers). Not modelled: the options set on the sockets, the address that a
socket is bound to, the alarm (lines 31-36, 129-131, 134-139), reading the time. Deferred tasks are in `Verif.Model.RunLoop` and `Verif.Model.Performer`; the flags that guard
them are at the end of this file. -/
namespace Rtmfp
namespace Posix

/-- PosixPlatformAdapter.hpp:42-45 `UdpInterface` with its name in `m_interfaces`; `file` is not in the code: the socket that the kernel made -/
structure If where
  name : Nat
  fd : Nat
  file : Nat
  family : Nat
deriving DecidableEq, Repr

/-- where the thread is in the adapter's actions: at `recvmsg` (PosixPlatformAdapter.cpp:230, 262); in `onReceivePacket` of RTMFP (289); at the loop condition of
line 148 after that many calls; in the callback (150) -/
inductive Frame where
  | receiving (fd name : Nat)
  | delivering (fd name : Nat)
  | writing (fd cb times : Nat)
  | asking (fd cb times : Nat)
deriving DecidableEq, Repr

/-- the members; which actions of the adapter are registered with the run loop, by descriptor (`READABLE` with the interface that the action is for, `WRITABLE` with
the callback it is to call); `maxWritesPerInterfaceWritable`; the kernel's table: the file behind each number -/
structure St where
  ifs : List If
  readers : List (Nat × Nat)
  writers : List (Nat × Nat)
  stack : List Frame
  max : Nat
  nextCb : Nat
  table : List (Nat × Nat)
  nextFile : Nat
deriving DecidableEq, Repr

/-- PosixPlatformAdapter.cpp:15-20; PosixPlatformAdapter.hpp:39 -/
def init : St := ⟨[], [], [], [], 4, 0, [], 0⟩

/-- what `sendmsg` answers -/
inductive Sent where
  | ok | einval | other
deriving DecidableEq, Repr

/-- what the application does, where its code runs; what the run loop and the kernel do -/
inductive Op where
  | add (family name : Nat) (sock : Option Nat) (bound : Bool)           -- addUdpInterface; what `socket` gives and whether `bind` and `getsockname` succeed
  | close                                                               -- PosixPlatformAdapter::close
  | notify (name : Nat)                                                 -- notifyWhenInterfaceWritable with a new callback
  | write (bytes : Bytes) (name family tos : Nat) (first second : Sent)   -- writePacket to an address of the family, and what the kernel says
  | setMax (n : Nat)                                                    -- maxWritesPerInterfaceWritable is assigned
  | opened (fd : Nat)                                                   -- the application opens something, and the kernel gives out this number
  | shut (fd : Nat)                                                     -- the application closes a descriptor of its own
  | readable (fd : Nat)                                                 -- the run loop calls the action for reading
  | writable (fd : Nat)                                                 -- the run loop calls the action for writing
  | recv (bytes : Option Bytes)                                         -- recvmsg gives a datagram, or fails (nothing there)
  | delivered                                                           -- RTMFP returns
  | ask                                                                 -- the loop condition of line 148, and the callback if it holds
  | answer (again : Bool)                                               -- the callback returns
deriving DecidableEq, Repr

/-- what can be observed: an interface was added; the adapter was closed; a callback was asked for, called, or answered no; a packet was given to RTMFP for an
interface, read from this file; a datagram was sent from this file; `writePacket` returned; the application opened a descriptor or closed it; the kernel closed a file for the adapter -/
inductive Ev where
  | added (name fd file family : Nat)
  | closed
  | wants (name cb : Nat)
  | asked (cb : Nat)
  | declined (cb : Nat)
  | given (name : Nat) (file : Option Nat) (bytes : Bytes)
  | sent (file : Option Nat) (bytes : Bytes) (tos : Nat)
  | wrote (ok : Bool)
  | opened (fd file : Nat)
  | shut (fd : Nat)
deriving DecidableEq, Repr

/-- the kernel: what is behind a number -/
def fileAt (table : List (Nat × Nat)) (fd : Nat) : Option Nat := (table.find? (fun p => p.1 = fd)).map (·.2)

/-- the kernel: ::close -/
def closeFd (table : List (Nat × Nat)) (fd : Nat) : List (Nat × Nat) := table.filter (fun p => p.1 ≠ fd)

/-- the application's code runs: outside of the actions, or in what they call -/
def free : List Frame → Bool
  | [] => true
  | .delivering _ _ :: _ => true
  | .asking _ _ _ :: _ => true
  | _ => false

/-- RunLoop::registerDescriptor for one condition: in place of what was registered -/
def register (l : List (Nat × Nat)) (fd v : Nat) : List (Nat × Nat) := l.filter (fun p => p.1 ≠ fd) ++ [(fd, v)]

/-- RunLoop::unregisterDescriptor for one condition -/
def unregister (l : List (Nat × Nat)) (fd : Nat) : List (Nat × Nat) := l.filter (fun p => p.1 ≠ fd)

/-- PosixPlatformAdapter.cpp:141, 165 `m_interfaces.has`, `m_interfaces.at` -/
def find (st : St) (name : Nat) : Option If := st.ifs.find? (fun i => i.name = name)

/-- PosixPlatformAdapter.cpp:117-124: the loop of `close`, for the interfaces that are left -/
def closeAll : List If → St → St
  | [], st => { st with ifs := [] }
  | i :: l, st => closeAll l { st with readers := unregister st.readers i.fd, writers := unregister st.writers i.fd, table := closeFd st.table i.fd, ifs := l }

/-- PosixPlatformAdapter.cpp:163-216 `writePacket`; the address has a family that is none of IP as well if it is no IP address -/
def writePacket (st : St) (bytes : Bytes) (name family tos : Nat) (first second : Sent) : List Ev :=
  match find st name with
  | none => [.wrote false]
  | some i =>
    if family ≠ i.family then [.wrote false]
    else
      match first with
      | .ok => [.sent (fileAt st.table i.fd) bytes tos, .wrote true]
      | .other => [.wrote false]
      | .einval =>
        if tos ≠ 0 then
          match second with
          | .ok => [.sent (fileAt st.table i.fd) bytes 0, .wrote true]
          | _ => [.wrote false]
        else [.wrote false]

/-- PosixPlatformAdapter.cpp:60-108 `addUdpInterface`: the names that `List` gives are any that are not in use (C09) -/
def add (st : St) (family name : Nat) (sock : Option Nat) (bound : Bool) : Option (St × List Ev) :=
  if family ≠ 2 ∧ family ≠ 10 then some (st, [])
  else
    match sock with
    | none => some (st, [])
    | some fd =>
      if (fileAt st.table fd).isSome ∨ (find st name).isSome then none
      else if bound = false then some ({ st with nextFile := st.nextFile + 1 }, [])
      else some (⟨st.ifs ++ [⟨name, fd, st.nextFile, family⟩], register st.readers fd name, st.writers, st.stack, st.max, st.nextCb, st.table ++ [(fd, st.nextFile)],
        st.nextFile + 1⟩, [.added name fd st.nextFile family])

/-- PosixPlatformAdapter.cpp:139-161 `notifyWhenInterfaceWritable` -/
def notify (st : St) (name : Nat) : St × List Ev :=
  match find st name with
  | none => (st, [])
  | some i => ({ st with writers := register st.writers i.fd st.nextCb, nextCb := st.nextCb + 1 }, [.wants name st.nextCb])

/-- one step; `none` if the thread is not at that place, or the kernel doesn't do that -/
def step (st : St) : Op → Option (St × List Ev)
  | .add family name sock bound => if free st.stack then add st family name sock bound else none
  | .close => if free st.stack then some (closeAll st.ifs st, [.closed]) else none
  | .notify name => if free st.stack then some (notify st name) else none
  | .write bytes name family tos first second => if free st.stack then some (st, writePacket st bytes name family tos first second) else none
  | .setMax n => if free st.stack then some ({ st with max := n }, []) else none
  | .opened fd =>
    if free st.stack ∧ fileAt st.table fd = none then some ({ st with table := st.table ++ [(fd, st.nextFile)], nextFile := st.nextFile + 1 }, [.opened fd st.nextFile]) else none
  | .shut fd =>
    if free st.stack ∧ (fileAt st.table fd).isSome ∧ ∀ i ∈ st.ifs, i.fd ≠ fd then some ({ st with table := closeFd st.table fd }, [.shut fd]) else none
  | .readable fd =>
    if st.stack = [] then (st.readers.find? (fun p => p.1 = fd)).map (fun p => ({ st with stack := [.receiving fd p.2] }, [])) else none
  | .writable fd =>
    if st.stack = [] then (st.writers.find? (fun p => p.1 = fd)).map (fun p => ({ st with stack := [.writing fd p.2 0] }, [])) else none
  | .recv bytes =>
    match st.stack with
    | .receiving fd name :: s =>
      match bytes with
      | none => some ({ st with stack := s }, [])
      | some b => if (fileAt st.table fd).isSome then some ({ st with stack := .delivering fd name :: s }, [.given name (fileAt st.table fd) b]) else none
    | _ => none
  | .delivered =>
    match st.stack with
    | .delivering fd name :: s => some ({ st with stack := .receiving fd name :: s }, [])
    | _ => none
  | .ask =>
    match st.stack with
    | .writing fd cb times :: s => if times < st.max then some ({ st with stack := .asking fd cb times :: s }, [.asked cb]) else some ({ st with stack := s }, [])
    | _ => none
  | .answer again =>
    match st.stack with
    | .asking fd cb times :: s =>
      if again then some ({ st with stack := .writing fd cb (times + 1) :: s }, [])
      else some ({ st with stack := s, writers := unregister st.writers fd }, [.declined cb])
    | _ => none

/-- a history -/
def run : St → List Op → Option (St × List Ev)
  | st, [] => some (st, [])
  | st, o :: os => (step st o).bind (fun r => (run r.1 os).map (fun q => (q.1, r.2 ++ q.2)))

/-! ## The flags that guard the tasks -/

/-- PosixPlatformAdapter.hpp:53 `m_isOpen` and PerformerPosixPlatformAdapter.hpp:22 `m_isOpen_performer` (they live as long as a task that refers to them); the tasks
handed over and not yet run, in order; whether the adapter is of the second class; whether it still is -/
structure Guard where
  performer : Bool
  isOpen : Bool
  isOpenPerformer : Bool
  alive : Bool
  queue : List Nat
deriving DecidableEq, Repr

/-- a new adapter -/
def Guard.init (performer : Bool) : Guard := ⟨performer, true, true, true, []⟩

/-- a task is handed over; the adapter is closed; it is destroyed; the run loop or the performer runs the next one -/
inductive GOp where
  | perform (t : Nat)
  | close
  | destroy
  | next
deriving DecidableEq, Repr

/-- PosixPlatformAdapter.cpp:218-223 and PerformerPosixPlatformAdapter.cpp:18-24 `perform`; 110-113 and 26-30 `close` (virtual); PosixPlatformAdapter.cpp:22-25 the
destructor, in which `close` is the one of the base class. The second value is the task that is run. -/
def Guard.step (g : Guard) : GOp → Option (Guard × Option Nat)
  | .perform t => if g.alive then some ({ g with queue := g.queue ++ [t] }, none) else none
  | .close =>
    if g.alive then some ({ g with isOpen := false, isOpenPerformer := if g.performer then false else g.isOpenPerformer }, none) else none
  | .destroy => if g.alive then some ({ g with isOpen := false, alive := false }, none) else none
  | .next =>
    match g.queue with
    | [] => none
    | t :: q => some ({ g with queue := q }, if (if g.performer then g.isOpenPerformer else g.isOpen) then some t else none)

/-- a history; the tasks that are run, in order -/
def Guard.run : Guard → List GOp → Option (Guard × List Nat)
  | g, [] => some (g, [])
  | g, o :: os => (g.step o).bind (fun r => (Guard.run r.1 os).map (fun q => (q.1, r.2.toList ++ q.2)))

end Posix
end Rtmfp
