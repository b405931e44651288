import Verif.Base
/-! # Tasks handed over between threads: src/Performer.cpp

The threads' accesses to what they share (`m_closed`, `m_items` under its mutex, `m_signaled`, the pipe) are single steps, in any order. `t` ranges over the
threads that call `perform`; the thread of the run loop wakes when the pipe can be read, and its calls nest (`stack`, innermost first). `close` is called by the
loop's thread. Calls of `perform` by the loop's thread without waiting are treated like those of another thread (this only allows more). Tasks are numbered as they
are made; writes to the pipe don't block. -/
namespace Rtmfp
namespace Perf

/-- where a thread is in Performer.cpp:84-117 `perform`: not in it; past the test of `m_closed` (86); past the push (99-102), with the number of its item; past
having found `m_signaled` false (104); past setting it (107); in the loop at 115, waiting for its item -/
inductive Pc where
  | idle
  | entered (wait : Bool)
  | pushed (id : Nat) (wait : Bool)
  | unsignaled (id : Nat) (wait : Bool)
  | writing (id : Nat) (wait : Bool)
  | waiting (id : Nat)
deriving DecidableEq, Repr

/-- what the loop's thread is doing: in `onSignaled` before the read (122); at the head of the loop of `fireItems` (129-143); running the task of an item (37-38);
in `perform` with `wait`, before and while running the task (91-93) -/
inductive Frame where
  | reading
  | firing
  | running (id : Nat)
  | before (id : Nat)
  | direct (id : Nat)
deriving DecidableEq, Repr

/-- Performer.hpp:29-34 and the items' `m_complete` -/
structure St where
  pcs : Nat → Pc
  stack : List Frame
  items : List Nat
  signaled : Bool
  bytes : Nat
  closed : Bool
  complete : List Nat
  next : Nat

/-- Performer.cpp:48-61 -/
def init : St := ⟨fun _ => .idle, [], [], false, 0, false, [], 0⟩

/-- a thread gets to another place -/
def St.goto (st : St) (t : Nat) (pc : Pc) : St := { st with pcs := fun t' => if t' = t then pc else st.pcs t' }

/-- the steps: of a thread `t` in `perform` (in order of the code), of the loop's thread (woken by the pipe, reading from it, one turn of `fireItems`, the end of
a task, `perform` with `wait` called by a task or action, the start of its task, `close`) -/
inductive Op where
  | call (t : Nat) (wait : Bool)
  | push (t : Nat)
  | look (t : Nat)
  | signal (t : Nat)
  | write (t : Nat)
  | resume (t : Nat)
  | wake
  | read
  | fire
  | done
  | performWait
  | start
  | close
deriving DecidableEq, Repr

/-- a task was queued, started, finished, thrown away (`fireItems` when closed, or `perform` when closed); a thread that waited for a task goes on;
the loop's thread called `perform` to wait for a task; the performer was closed -/
inductive Ev where
  | queued (id : Nat)
  | started (id : Nat)
  | finished (id : Nat)
  | dropped (id : Nat)
  | resumed (t id : Nat)
  | asked (id : Nat)
  | closed
deriving DecidableEq, Repr

/-- the loop's thread runs code of the application, or is about to (it can call `perform` and `close`) -/
def free : List Frame → Bool
  | [] => true
  | .running _ :: _ => true
  | .direct _ :: _ => true
  | _ => false

/-- past line 109: the thread returns or waits -/
def afterSignal (id : Nat) (wait : Bool) : Pc := if wait then .waiting id else .idle

/-- one step; `none` if the thread is not at that place or blocks -/
def step (st : St) : Op → Option (St × List Ev)
  | .call t wait =>
    match st.pcs t with
    | .idle => some (if st.closed then st else st.goto t (.entered wait), [])
    | _ => none
  | .push t =>
    match st.pcs t with
    | .entered wait => some ({ st.goto t (.pushed st.next wait) with items := st.items ++ [st.next], next := st.next + 1 }, [.queued st.next])
    | _ => none
  | .look t =>
    match st.pcs t with
    | .pushed id wait => some (st.goto t (if st.signaled then afterSignal id wait else .unsignaled id wait), [])
    | _ => none
  | .signal t =>
    match st.pcs t with
    | .unsignaled id wait => some ({ st.goto t (.writing id wait) with signaled := true }, [])
    | _ => none
  | .write t =>
    match st.pcs t with
    | .writing id wait => some ({ st.goto t (afterSignal id wait) with bytes := st.bytes + 1 }, [])
    | _ => none
  | .resume t =>
    match st.pcs t with
    | .waiting id => if st.complete.contains id then some (st.goto t .idle, [.resumed t id]) else none
    | _ => none
  | .wake =>
    if st.stack = [] ∧ 0 < st.bytes ∧ st.closed = false then some ({ st with signaled := false, stack := [.reading] }, []) else none
  | .read =>
    match st.stack with
    | .reading :: s => if 0 < st.bytes then some ({ st with bytes := st.bytes - 1, stack := .firing :: s }, []) else none
    | _ => none
  | .fire =>
    match st.stack with
    | .firing :: s =>
      match st.items with
      | [] => some ({ st with stack := s }, [])
      | id :: l =>
        if st.closed then some ({ st with items := l }, [.dropped id])
        else some ({ st with items := l, stack := .running id :: .firing :: s }, [.started id])
    | _ => none
  | .done =>
    match st.stack with
    | .running id :: s => some ({ st with stack := s, complete := id :: st.complete }, [.finished id])
    | .direct id :: s => some ({ st with stack := s }, [.finished id])
    | _ => none
  | .performWait =>
    if free st.stack then
      if st.closed then some (st, [])
      else some ({ st with stack := .firing :: .before st.next :: st.stack, next := st.next + 1 }, [.asked st.next])
    else none
  | .start =>
    match st.stack with
    | .before id :: s => some ({ st with stack := .direct id :: s }, [.started id])
    | _ => none
  | .close =>
    if free st.stack then
      if st.closed then some (st, [])
      else some ({ st with closed := true, stack := .firing :: st.stack }, [.closed])
    else none

/-- a history from a state -/
inductive Run (st0 : St) : List Op → St → List Ev → Prop
  | nil : Run st0 [] st0 []
  | step {ops st evs op st' evs'} : Run st0 ops st evs → step st op = some (st', evs') → Run st0 (ops ++ [op]) st' (evs ++ evs')

end Perf
end Rtmfp
