import Mathlib.Data.Rat.Defs
import Mathlib.Algebra.Order.Ring.Rat
import Mathlib.Algebra.Field.Rat

/-! # Model of `src/RateTracker.cpp`

Times, periods and rates are exact rationals instead of `long double` and `double`; rounding is not modelled. The initial
`-INFINITY` of `m_windowBegin` is `none`. `m_count` is a natural number: overflow of the `size_t` is not modelled. -/

namespace Rtmfp

/-- include/rtmfp/RateTracker.hpp, the members -/
structure RateTracker where
  windowPeriod : Rat
  windowBegin : Option Rat
  count : Nat
  previousRate : Rat

namespace RateTracker

/-- src/RateTracker.cpp:11-16 the constructor -/
def init (windowPeriod : Rat) : RateTracker := ⟨windowPeriod, none, 0, 0⟩

/-- src/RateTracker.cpp:38-58: `getRate` once `delta` is known to be finite -/
def rateAt (r : RateTracker) (delta : Rat) : Rat :=
  let delta := if delta < 0 then 0 else delta
  let twoWindows := r.windowPeriod * 2
  if delta ≥ twoWindows then 0
  else if delta ≥ r.windowPeriod then
    let decay := (twoWindows - delta) / r.windowPeriod
    r.count * decay / r.windowPeriod
  else if r.previousRate > 0 then
    let previousPortion := 1 - delta / r.windowPeriod
    (r.count / r.windowPeriod) + (r.previousRate * previousPortion)
  else r.count / r.windowPeriod

/-- src/RateTracker.cpp:34-59 `getRate`: an infinite `delta` is at least two windows -/
def getRate (r : RateTracker) (now : Rat) : Rat :=
  match r.windowBegin with
  | none => 0
  | some b => rateAt r (now - b)

/-- src/RateTracker.cpp:24-29: a new window -/
def roll (r : RateTracker) (now : Rat) : RateTracker :=
  { r with previousRate := r.getRate now, windowBegin := some now, count := 0 }

/-- src/RateTracker.cpp:31 -/
def add (r : RateTracker) (count : Nat) : RateTracker := { r with count := r.count + count }

/-- src/RateTracker.cpp:18-32 `update` -/
def update (r : RateTracker) (count : Nat) (now : Rat) : RateTracker :=
  match r.windowBegin with
  | none => (r.roll now).add count
  | some b =>
    let delta := now - b
    if delta < 0 then r
    else if delta ≥ r.windowPeriod then (r.roll now).add count
    else r.add count

/-- src/RateTracker.cpp:61-64 `setWindowPeriod`; the minimum is 1 µs -/
def setWindowPeriod (r : RateTracker) (w : Rat) : RateTracker := { r with windowPeriod := max w (1 / 1000000) }

/-- src/RateTracker.cpp:71-76 `reset` -/
def reset (r : RateTracker) : RateTracker := { r with windowBegin := none, count := 0, previousRate := 0 }

/-- the calls -/
inductive Op where
  | update (count : Nat) (now : Rat)
  | period (w : Rat)
  | reset

def step (r : RateTracker) : Op → RateTracker
  | .update n t => r.update n t
  | .period w => r.setWindowPeriod w
  | .reset => r.reset

/-- a history of calls -/
def run (r : RateTracker) (ops : List Op) : RateTracker := ops.foldl step r

end RateTracker
end Rtmfp
