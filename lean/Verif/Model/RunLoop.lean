import Verif.Base
/-! # Run loops: src/RunLoop.cpp, src/SelectRunLoop.cpp, and deferred tasks of src/PosixPlatformAdapter.cpp

A run loop is modelled as a machine whose steps are the iterations of the loops of `run`. Code of the application (actions, tasks, timers) runs between those
steps; what it does to the run loop are steps too, so that all ways in which it calls back into the loop are covered. `run` is not called from within `run`
(it would end the outer one early), and everything happens in the loop's thread (other threads go through `Performer`, see `Verif.Model.Performer`).
Tasks and registrations are numbered as they are made. Which descriptors `select` finds ready is given from outside. -/
namespace Rtmfp
namespace RL

/-- include/rtmfp/RunLoop.hpp:19 -/
inductive Cond where
  | readable | writable | exception
deriving DecidableEq, Repr

/-- RunLoop.cpp:48-51, PosixPlatformAdapter.cpp:218-223: a task of `m_doLaters`; `guarded` if it was wrapped by the platform adapter's `perform` -/
structure Task where
  id : Nat
  guarded : Bool
deriving DecidableEq, Repr

/-- SelectRunLoop.cpp:13-25: an `Item`; its action is identified by the number of the registration -/
structure Item where
  cond : Cond
  fd : Nat
  id : Nat
deriving DecidableEq, Repr

/-- where the thread is in SelectRunLoop.cpp:70-131 `run`: not in it; before `select` (79-97); in the loop over the activated items (105-111);
in `processDoLaters` (119); in the timers' actions and `onEveryCycle` (121-125) -/
inductive Pc where
  | outside | top | acting | tasks | late
deriving DecidableEq, Repr

/-- RunLoop.hpp:74-77 `m_stopping`, `m_doLaters`; SelectRunLoop's `m_items` (ordered maps; here the list of what is registered, in order of descriptors
within a condition) and the `m_canceled` of the items; `activatedItems` (72); the adapter's `m_isOpen`; the next number for a task or a registration. -/
structure St where
  pc : Pc
  stopping : Bool
  doLaters : List Task
  items : List Item
  canceled : List Nat
  activated : List Item
  isOpen : Bool
  nextTask : Nat
  nextItem : Nat
deriving DecidableEq, Repr

/-- RunLoop.cpp:8-14; no adapter has been closed -/
def init : St := ⟨.outside, false, [], [], [], [], true, 0, 0⟩

/-- what the application does, at any time, and the steps of `run` -/
inductive Op where
  | doLater                                    -- RunLoop::doLater
  | perform                                    -- PosixPlatformAdapter::perform
  | closeAdapter                               -- PosixPlatformAdapter::close
  | stop                                       -- RunLoop::stop
  | clear                                      -- SelectRunLoop::clear
  | register (c : Cond) (fd : Nat)             -- SelectRunLoop::registerDescriptor with an action
  | unregister (c : Cond) (fd : Nat)           -- SelectRunLoop::unregisterDescriptor
  | run                                        -- SelectRunLoop::run is called
  | select (ready : Cond → Nat → Bool)         -- `select` returned these descriptors
  | act                                        -- one evaluation of the loop condition at line 105 and its body
  | task                                       -- one evaluation of the loop condition of processDoLaters and its body
  | rest                                       -- the loop condition of `run`

/-- what can be observed: a task was made (`adapter`: by the platform adapter's `perform`), run, skipped by the adapter's wrapper, or thrown away by `clear`;
an action was registered, unregistered or called; `run` began and ended, `stop` was called, the adapter was closed; `select` was called (`dontSleep`: with no
timeout but `minSleep`) and these registrations' descriptors were found ready; the timers got their turn -/
inductive Ev where
  | queued (t : Nat) (adapter : Bool)
  | ran (t : Nat)
  | skipped (t : Nat)
  | dropped (t : Nat)
  | registered (i : Item)
  | unregistered (i : Item)
  | acted (i : Item)
  | began
  | stopped
  | closed
  | polled (dontSleep : Bool) (ready : List Item)
  | timers
  | ended
deriving DecidableEq, Repr

/-- SelectRunLoop.cpp:38-45 `unregisterDescriptor` -/
def unregister (st : St) (c : Cond) (fd : Nat) : St :=
  { st with
    canceled := st.canceled ++ (st.items.filter (fun i => i.cond = c ∧ i.fd = fd)).map (·.id)
    items := st.items.filter (fun i => !decide (i.cond = c ∧ i.fd = fd)) }

/-- `std::map` keeps the items of a condition in order of their descriptors; the position of a new item -/
def insertItem (i : Item) : List Item → List Item
  | [] => [i]
  | j :: l => if i.fd ≤ j.fd then i :: j :: l else j :: insertItem i l

/-- SelectRunLoop.cpp:27-36 `registerDescriptor`, with an action and a descriptor that is not negative -/
def register (st : St) (c : Cond) (fd : Nat) : St :=
  let st := unregister st c fd
  { st with items := insertItem ⟨c, fd, st.nextItem⟩ st.items, nextItem := st.nextItem + 1 }

/-- SelectRunLoop.cpp:38-45: what `unregisterDescriptor` finds -/
def registeredAt (st : St) (c : Cond) (fd : Nat) : List Item := st.items.filter (fun i => i.cond = c ∧ i.fd = fd)

/-- SelectRunLoop.cpp:63-68 `getActivatedItemsToQueue` for one condition -/
def activatedOf (ready : Cond → Nat → Bool) (items : List Item) (c : Cond) : List Item :=
  items.filter (fun i => i.cond = c ∧ ready c i.fd)

/-- SelectRunLoop.cpp:100-102: exceptions first -/
def allActivated (ready : Cond → Nat → Bool) (items : List Item) : List Item :=
  activatedOf ready items .exception ++ activatedOf ready items .readable ++ activatedOf ready items .writable

/-- RunLoop.cpp:87-96 the body of the loop of `processDoLaters`; PosixPlatformAdapter.cpp:221: the wrapper -/
def runTask (st : St) (t : Task) : Ev := if t.guarded && !st.isOpen then .skipped t.id else .ran t.id

/-- RunLoop.cpp:48-51 `doLater` -/
def doLater (st : St) (guarded : Bool) : St :=
  { st with doLaters := st.doLaters ++ [⟨st.nextTask, guarded⟩], nextTask := st.nextTask + 1 }

/-- one step; `none` if `run` is not at that place -/
def step (st : St) : Op → Option (St × List Ev)
  | .doLater => some (doLater st false, [.queued st.nextTask false])
  | .perform => some (doLater st true, [.queued st.nextTask true])
  | .closeAdapter => some ({ st with isOpen := false }, [.closed])
  | .stop => some ({ st with stopping := true }, [.stopped])
  | .clear => some ({ st with doLaters := [], canceled := st.canceled ++ st.items.map (·.id), items := [] },
      st.doLaters.map (fun t => .dropped t.id) ++ st.items.map .unregistered)
  | .register c fd => some (register st c fd, (registeredAt st c fd).map .unregistered ++ [.registered ⟨c, fd, st.nextItem⟩])
  | .unregister c fd => some (unregister st c fd, (registeredAt st c fd).map .unregistered)
  | .run => if st.pc = .outside then some ({ st with pc := .top, stopping := false, activated := [] }, [.began]) else none
  | .select ready =>
    if st.pc = .top then
      some ({ st with pc := .acting, activated := st.activated ++ allActivated ready st.items }, [.polled (!st.doLaters.isEmpty) (allActivated ready st.items)])
    else none
  | .act =>
    if st.pc = .acting then
      if st.stopping then some ({ st with pc := .tasks }, [])
      else
        match st.activated with
        | [] => some ({ st with pc := .tasks }, [])
        | i :: l => some ({ st with activated := l }, if st.canceled.contains i.id then [] else [.acted i])
    else none
  | .task =>
    if st.pc = .tasks then
      if st.stopping then some ({ st with pc := .late }, [])
      else
        match st.doLaters with
        | [] => some ({ st with pc := .late }, [.timers])
        | t :: l => some ({ st with doLaters := l }, [runTask st t])
    else none
  | .rest =>
    if st.pc = .late then
      if st.stopping then some ({ st with pc := .outside }, [.ended])
      else some ({ st with pc := .top }, [])
    else none

/-- a history from a state and what was observed -/
inductive Run (st0 : St) : List Op → St → List Ev → Prop
  | nil : Run st0 [] st0 []
  | step {ops st evs op st' evs'} : Run st0 ops st evs → step st op = some (st', evs') → Run st0 (ops ++ [op]) st' (evs ++ evs')

end RL
end Rtmfp
