import Verif.Base
import Mathlib.Data.Rat.Floor
import Mathlib.Algebra.Order.Ring.Rat
import Mathlib.Algebra.Field.Rat

/-!
# Model of the reporting of time-critical reception (`src/RTMFP.cpp`)

Sessions are named by positive numbers (their addresses; 0 is the null pointer). Times are rational numbers of seconds; `none` is `-INFINITY`.
-/

namespace Rtmfp
namespace TimeCritical

/-- include/rtmfp/rtmfp.hpp:154-156 -/
structure State where
  reporting : Nat
  tcTime : Option Rat
  previous : Option Rat

/-- src/RTMFP.cpp:23-25 -/
def init : State := { reporting := 0, tcTime := none, previous := none }

/-- include/rtmfp/params.hpp:55 `TIMECRITICAL_TIMEOUT` -/
def timeout : Rat := 8 / 10

/-- src/RTMFP.cpp:479-490 `onSessionReceivedTC` -/
def receivedTC (s : State) (session : Nat) (now : Rat) : State :=
  let s := if session ≠ s.reporting then { s with previous := s.tcTime, reporting := session } else s
  { s with tcTime := some now }

/-- src/RTMFP.cpp:492-499 `shouldSessionReportTCR` -/
def shouldReport (s : State) (session : Nat) (now : Rat) : Bool :=
  let tcr := if session = s.reporting then s.previous else s.tcTime
  match tcr with
  | none => false
  | some t => decide (now - t < timeout)

end TimeCritical
end Rtmfp
