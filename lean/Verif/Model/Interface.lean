import Verif.Base
/-! # Write scheduling: src/Interface.cpp

Sessions are numbers. The queue of each priority is the sequence of its values (C09 relates `List` to such sequences). The sessions' answers when they are asked
to write are given from outside, one after the other; while a session is asked, any writes can be scheduled (by code that its callbacks run). -/
namespace Rtmfp
namespace Iface

/-- include/rtmfp/Priority.hpp: `NUM_PRIORITIES`; `PRI_HIGHEST` is one less, `PRI_LOWEST` is 0 -/
abbrev NUM_PRIORITIES : Nat := 8

/-- src/Interface.hpp:22-25: the members. `armed` is whether the platform is going to call `onWritable` (src/PosixPlatformAdapter.cpp:141-162: registered until
it answers no). -/
structure St where
  q : Nat → List Nat
  writeScheduled : Bool
  armed : Bool

/-- Interface.cpp:9-14 -/
def init : St := ⟨fun _ => [], false, false⟩

/-- the queue of a priority is replaced -/
def St.setQ (st : St) (p : Nat) (l : List Nat) : St := { st with q := fun p' => if p' = p then l else st.q p' }

/-- Interface.cpp:39-53 `scheduleWrite` -/
def scheduleWrite (st : St) (s p : Nat) : St :=
  if s ∈ st.q p then st
  else
    let st := st.setQ p (st.q p ++ [s])
    if !st.writeScheduled then { st with writeScheduled := true, armed := true } else st

/-- what a session does when it is asked: what is scheduled meanwhile (session and priority), and whether it sent something -/
structure Ans where
  calls : List (Nat × Nat)
  ok : Bool

/-- a session being asked at a priority, and its answer -/
structure Asked where
  s : Nat
  p : Nat
  ans : Ans

/-- the writes scheduled while a session is asked -/
def during (st : St) (calls : List (Nat × Nat)) : St := calls.foldl (fun st c => scheduleWrite st c.1 c.2) st

/-- Interface.cpp:20-32: the queue of a priority; the answers that are left, the sessions asked, and whether one sent something. `none` if there are not enough
answers. -/
def serve : List Ans → St → Nat → Option (List Ans × St × List Asked × Bool)
  | as, st, p =>
    match st.q p with
    | [] => some (as, st, [], false)
    | s :: _ =>
      match as with
      | [] => none
      | a :: as =>
        let st := during st a.calls
        if a.ok then some (as, st.setQ p ((st.q p).erase s ++ [s]), [⟨s, p, a⟩], true)
        else (serve as (st.setQ p ((st.q p).erase s)) p).map (fun r => (r.1, r.2.1, ⟨s, p, a⟩ :: r.2.2.1, r.2.2.2))

/-- Interface.cpp:18-36: priorities below `n`, from the highest; `armed` follows the answer -/
def scan : (n : Nat) → List Ans → St → Option (List Ans × St × List Asked × Bool)
  | 0, as, st => some (as, { st with writeScheduled := false, armed := false }, [], false)
  | n + 1, as, st => (serve as st n).bind (fun r =>
      if r.2.2.2 then some r
      else (scan n r.1 r.2.1).map (fun r' => (r'.1, r'.2.1, r.2.2.1 ++ r'.2.2.1, r'.2.2.2)))

/-- Interface.cpp:16-37 `onWritable` -/
def onWritable (as : List Ans) (st : St) : Option (List Ans × St × List Asked × Bool) := scan NUM_PRIORITIES as st

/-- what happens to an interface: a write is scheduled, or the platform finds it writable -/
inductive Op where
  | schedule (s p : Nat)
  | writable (as : List Ans)

/-- one event: the state and the sessions asked. The platform only calls if it was told to. -/
def step (st : St) : Op → Option (St × List Asked)
  | .schedule s p => some (scheduleWrite st s p, [])
  | .writable as =>
    if st.armed then
      match onWritable as st with
      | some ([], st', tr, _) => some (st', tr)
      | _ => none
    else none

/-- a history from a state: the state and who was asked -/
inductive Run (st0 : St) : List Op → St → List Asked → Prop
  | nil : Run st0 [] st0 []
  | step {ops st tr op st' tr'} : Run st0 ops st tr → step st op = some (st', tr') → Run st0 (ops ++ [op]) st' (tr ++ tr')

end Iface
end Rtmfp
