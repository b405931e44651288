import Verif.Base
/-! # Timers: src/Timer.cpp, include/rtmfp/Timer.hpp

One timer list. Times are integers (in some unit of which `minRecur` is 1 µs) instead of `long double`. Timers are named by numbers in the
order they are made; `addr` is where they are in memory, which decides between timers due at the same time. What an action does is a list of
commands that depends on everything that happened before. Actions that call `fireDueTimers`, and timers shared by two lists are not modelled. -/
namespace Rtmfp
namespace Timers

/-- where timers are in memory (different for different timers), and `MIN_RECUR_INTERVAL` -/
structure Env where
  addr : Nat → Nat
  minRecur : Int

/-- include/rtmfp/Timer.hpp:58-64; `listed` says that `m_timerList` is set -/
structure Timer where
  when_ : Int
  recur : Int
  listed : Bool
  canceled : Bool
  rescheduled : Bool
  catchup : Bool
  firing : Bool
deriving Repr, DecidableEq

/-- include/rtmfp/Timer.hpp:67-91 `TimerList`, with all timers ever made; `set` is `m_timers` in its order -/
structure TL where
  next : Nat
  tm : Nat → Timer
  set : List Nat
  running : Bool

/-- a timer list without timers (src/Timer.cpp:156-157) -/
def init : TL := ⟨0, fun _ => ⟨0, 0, false, false, false, false, false⟩, [], false⟩

/-- assignment to members of a timer -/
def TL.upd (s : TL) (x : Nat) (f : Timer → Timer) : TL := { s with tm := fun y => if y = x then f (s.tm y) else s.tm y }

/-- src/Timer.cpp:92-97 `operator<` -/
def before (E : Env) (tm : Nat → Timer) (x y : Nat) : Bool :=
  if (tm x).when_ = (tm y).when_ then decide (E.addr x < E.addr y) else decide ((tm x).when_ < (tm y).when_)

/-- `std::set::insert` (src/Timer.cpp:230) -/
def setInsert (E : Env) (tm : Nat → Timer) : List Nat → Nat → List Nat
  | [], x => [x]
  | y :: ys, x => if before E tm x y then x :: y :: ys else if before E tm y x then y :: setInsert E tm ys x else y :: ys

/-- `std::set::erase` of a key (src/Timer.cpp:242) -/
def setErase (E : Env) (tm : Nat → Timer) (l : List Nat) (x : Nat) : List Nat := l.filter (fun y => before E tm x y || before E tm y x)

/-- what can be done with timers (their numbers) and the list -/
inductive Cmd where
  | schedule (when_ recur : Int) (catchup : Bool)
  | setNext (x : Nat) (when_ : Int)
  | setRecur (x : Nat) (recur : Int)
  | cancel (x : Nat)
  | add (x : Nat)
  | remove (x : Nat)
  | clear
deriving DecidableEq, Repr

/-- what happens: commands, runs of a timer's action (with when it was due), calls of `onHowLongToSleepDidChange` -/
inductive Ev where
  | cmd (c : Cmd)
  | fire (x : Nat) (due now : Int)
  | wake
deriving DecidableEq, Repr

/-- src/Timer.cpp:59-64 `setRecurInterval` -/
def clampRecur (E : Env) (r : Int) : Int := if r > 0 ∧ r < E.minRecur then E.minRecur else r

/-- src/Timer.cpp:227 `willFireEarlier` -/
def earlier (s : TL) (x : Nat) : Bool :=
  match s.set with
  | [] => true
  | y :: _ => decide ((s.tm x).when_ < (s.tm y).when_)

/-- src/Timer.cpp:222-234 `addTimer` -/
def addTimer (E : Env) (s : TL) (x : Nat) : TL × List Ev :=
  let s' := s.upd x (fun t => { t with listed := true })
  ({ s' with set := setInsert E s'.tm s'.set x }, if earlier s x && !s.running then [.wake] else [])

/-- src/Timer.cpp:236-243 `removeTimer` -/
def removeTimer (E : Env) (s : TL) (x : Nat) : TL :=
  let s := s.upd x (fun t => { t with listed := false })
  { s with set := setErase E s.tm s.set x }

/-- src/Timer.cpp:71-80 `cancel`. (The action is gone afterwards, or it is running: it isn't looked at again, :121-128.) -/
def cancel (E : Env) (s : TL) (x : Nat) : TL :=
  let s := s.upd x (fun t => { t with canceled := true })
  let s := if (s.tm x).listed then removeTimer E s x else s
  s.upd x (fun t => { t with listed := false })

/-- src/Timer.cpp:35-52 `setNextFireTime` -/
def setNext (E : Env) (s : TL) (x : Nat) (w : Int) : TL × List Ev :=
  if (s.tm x).canceled then (s, [])
  else
    let r :=
      if (s.tm x).listed then addTimer E ((removeTimer E s x).upd x (fun t => { t with when_ := w })) x
      else (s.upd x (fun t => { t with when_ := w }), [])
    (r.1.upd x (fun t => { t with rescheduled := true }), r.2)

/-- src/Timer.cpp:14-23, 172-184 `schedule` -/
def schedule (E : Env) (s : TL) (w r : Int) (catchup : Bool) : TL × List Ev :=
  addTimer E { s with next := s.next + 1, tm := fun y => if y = s.next then ⟨w, clampRecur E r, false, false, false, catchup, false⟩ else s.tm y } s.next

/-- a command; nothing happens if there is no such timer. `addTimer` called by a timer's own action is left out: the timer would then be moved
while it is in the set (src/Timer.cpp:135-143). `clear` is src/Timer.cpp:245-248. -/
def exec (E : Env) (s : TL) : Cmd → TL × List Ev
  | .schedule w r c => let q := schedule E s w r c; (q.1, .cmd (.schedule w r c) :: q.2)
  | .setNext x w => if x < s.next then (let q := setNext E s x w; (q.1, .cmd (.setNext x w) :: q.2)) else (s, [])
  | .setRecur x r => if x < s.next then (s.upd x (fun t => { t with recur := clampRecur E r }), [.cmd (.setRecur x r)]) else (s, [])
  | .cancel x => if x < s.next then (cancel E s x, [.cmd (.cancel x)]) else (s, [])
  | .add x => if x < s.next ∧ (s.tm x).firing = false then (let q := addTimer E s x; (q.1, .cmd (.add x) :: q.2)) else (s, [])
  | .remove x => if x < s.next then (removeTimer E s x, [.cmd (.remove x)]) else (s, [])
  | .clear => ({ s with set := [] }, [.cmd .clear])

/-- several commands -/
def execs (E : Env) : TL → List Cmd → TL × List Ev
  | s, [] => (s, [])
  | s, c :: cs =>
    let q := exec E s c
    let r := execs E q.1 cs
    (r.1, q.2 ++ r.2)

/-- src/Timer.cpp:137-140: when a timer is due again, `ceill` in integers -/
def nextDue (t : Timer) (now : Int) : Int :=
  if now > t.when_ ∧ t.catchup then t.when_ + ((now - t.when_ + t.recur - 1) / t.recur) * t.recur
  else t.when_ + t.recur

/-- src/Timer.cpp:129-151: what `basicFire` does after the action -/
def afterAction (E : Env) (s : TL) (x : Nat) (now : Int) : TL × List Ev :=
  let s := s.upd x (fun t => { t with firing := false })
  let t := s.tm x
  if (decide (t.recur > 0) && !t.canceled) || t.rescheduled then
    if !t.rescheduled then
      let s := s.upd x (fun t => { t with when_ := nextDue t now })
      if (s.tm x).listed then addTimer E s x else (s, [])
    else (s, [])
  else (cancel E (s.upd x (fun t => { t with listed := false })) x, [])

/-- src/Timer.cpp:119-152 `basicFire`; `act` says what the actions do, from all that happened so far -/
def basicFire (E : Env) (act : List Ev → List Cmd) (s : TL) (tr : List Ev) (x : Nat) (now : Int) : TL × List Ev :=
  if (s.tm x).canceled then (s, tr)
  else
    let tr := tr ++ [.fire x (s.tm x).when_ now]
    let q := execs E (s.upd x (fun t => { t with rescheduled := false, firing := true })) (act tr)
    let r := afterAction E q.1 x now
    (r.1, tr ++ q.2 ++ r.2)

/-- src/Timer.cpp:198-216: one round of the loop of `fireDueTimers`; `none` if it ends -/
def fireOne (E : Env) (act : List Ev → List Cmd) (s : TL) (tr : List Ev) (now : Int) : Option (TL × List Ev) :=
  match s.set with
  | [] => none
  | x :: xs => if (s.tm x).when_ ≤ now then some (basicFire E act { s with set := xs } tr x now) else none

/-- the loop, at most `fuel` rounds: `none` if it isn't over then -/
def fireLoop (E : Env) (act : List Ev → List Cmd) (now : Int) : (fuel : Nat) → TL → List Ev → Option (TL × List Ev)
  | 0, _, _ => none
  | fuel + 1, s, tr =>
    match fireOne E act s tr now with
    | none => some (s, tr)
    | some (s, tr) => fireLoop E act now fuel s tr

/-- src/Timer.cpp:194-220 `fireDueTimers` -/
def fireDueTimers (E : Env) (act : List Ev → List Cmd) (now : Int) (fuel : Nat) (s : TL) (tr : List Ev) : Option (TL × List Ev) :=
  (fireLoop E act now fuel { s with running := true } tr).map (fun r => ({ r.1 with running := false }, r.2))

/-- src/Timer.cpp:186-192 `howLongToNextFire` -/
def howLong (s : TL) (now maxInterval : Int) : Int :=
  match s.set with
  | [] => maxInterval
  | x :: _ => min maxInterval ((s.tm x).when_ - now)

end Timers
end Rtmfp
