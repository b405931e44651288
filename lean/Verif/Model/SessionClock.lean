import Mathlib.Data.Rat.Floor
import Mathlib.Algebra.Order.Ring.Rat

/-! # Model of packet timestamps and round-trip time measurement (`src/Session.cpp`, `src/RTMFP.cpp`)

Times are exact rationals (seconds) instead of `long double`; conversions to integer types are floors (all of the values
converted are non-negative). `-1` for "no timestamp" is kept. The session is open throughout (timestamps are ignored in other
states, except that the responder's first timestamp may be recorded while keying, which changes nothing below). -/

namespace Rtmfp
namespace SessionClock

/-- `HEADER_TIMESTAMP_SCALE`, ticks per second (include/rtmfp/packet.hpp:65) -/
def scale : Rat := 250

/-- src/RTMFP.cpp:263-267 `getCurrentTimestamp`: `age` is `getInstanceAge()` -/
def currentTimestamp (age : Rat) : Int := ⌊age * scale⌋ % 65536

/-- the members of `Session` used for timestamps (src/Session.cpp:346-356); `none` is `-INFINITY` -/
structure State where
  tsRx : Int := -1
  tsRxTime : Option Rat := none
  tsEchoTx : Int := -1
  tsTx : Int := -1
  tsEchoRx : Int := -1

/-- src/Session.cpp:867-871 `getTimestampIfNew` -/
def timestampIfNew (s : State) (age : Rat) : Int :=
  if currentTimestamp age ≠ s.tsTx then currentTimestamp age else -1

/-- src/Session.cpp:876-881: the echo is dropped -/
def dropEcho (s : State) : State × Int := ({ s with tsRx := -1, tsEchoTx := -1 }, -1)

/-- src/Session.cpp:873-889 `getTimestampEcho`; 128 is `MAX_TS_ECHO_ELAPSED` -/
def timestampEcho (s : State) (now : Rat) : State × Int :=
  match s.tsRxTime with
  | none => dropEcho s
  | some t =>
    let elapsed := now - t
    if elapsed > 128 then dropEcho s
    else
      let tsEcho := (s.tsRx + ⌊elapsed * scale⌋) % 65536
      (s, if tsEcho ≠ s.tsEchoTx then tsEcho else -1)

/-- src/Session.cpp:1490-1491 and 1537-1540 of `onInterfaceWritable`: the timestamp and echo of a packet that is sent. -/
def send (s : State) (age now : Rat) : State × Int × Int :=
  let timestamp := timestampIfNew s age
  let (s, timestampEcho) := timestampEcho s now
  let s := if timestamp ≥ 0 then { s with tsTx := timestamp } else s
  let s := if timestampEcho ≥ 0 then { s with tsEchoTx := timestampEcho } else s
  (s, timestamp, timestampEcho)

/-- src/Session.cpp:1582-1589 of `onPacketHeader`: the peer's timestamp -/
def recvTimestamp (s : State) (now : Rat) (timestamp : Int) : State :=
  if timestamp ≥ 0 ∧ timestamp ≠ s.tsRx then { s with tsRx := timestamp, tsRxTime := some now } else s

/-- src/Session.cpp:1591-1598 of `onPacketHeader`: the peer's echo of ours, and the sample in ticks if one is taken -/
def recvEcho (s : State) (age : Rat) (timestampEcho : Int) : State × Option Int :=
  if timestampEcho ≥ 0 ∧ timestampEcho ≠ s.tsEchoRx then
    let rttTicks := (currentTimestamp age - timestampEcho) % 65536
    ({ s with tsEchoRx := timestampEcho }, if rttTicks < 32768 then some rttTicks else none)
  else (s, none)

/-- src/Session.cpp:1582-1624 of `onPacketHeader` -/
def recv (s : State) (age now : Rat) (timestamp timestampEcho : Int) : State × Option Int :=
  recvEcho (recvTimestamp s now timestamp) age timestampEcho

/-! ## smoothing (src/Session.cpp:1599-1617) and timing out (1057) -/

/-- `m_srtt` (`none` is the initial -1), `m_rttvar`, `m_mrto`, `m_erto` -/
structure Rto where
  srtt : Option Rat := none
  rttvar : Rat := 0
  mrto : Rat := 1 / 4
  erto : Rat := 3

/-- src/Session.cpp:1601-1613 -/
def smooth (r : Rto) (rtt : Rat) : Rat × Rat :=
  match r.srtt with
  | some srtt =>
    let d := srtt - rtt
    let d := if d < 0 then -d else d
    ((7 * srtt + rtt) / 8, (3 * r.rttvar + d) / 4)
  | none => (rtt, rtt / 2)

/-- src/Session.cpp:1599-1616: a sample. 1/5 is `DELACK_ALARM_PERIOD`, 1/4 is `MINIMUM_ERTO`. -/
def onSample (r : Rto) (rtt : Rat) : Rto :=
  let (srtt, rttvar) := smooth r rtt
  let mrto := srtt + 4 * rttvar + 1 / 5
  { srtt := some srtt, rttvar, mrto, erto := max mrto (1 / 4) }

/-- src/Session.cpp:1057 in `onTimeoutAlarm`; the factor is `ERTO_BACKOFF_FACTOR`, 10 is `MAX_ERTO` -/
def onTimeout (r : Rto) : Rto := { r with erto := max (min (r.erto * (1414214 / 1000000)) 10) r.mrto }

/-! ## base round-trip time -/

/-- src/Session.hpp `m_rttMeasurements` (front first, entries of minimum and origin) and `m_base_rtt` (`none` is `INFINITY`) -/
structure Base where
  hist : List (Rat × Rat) := []
  base : Option Rat := none

/-- `std::min` where `none` is infinite -/
def minInf : Option Rat → Rat → Rat
  | none, x => x
  | some a, x => min a x

/-- src/Session.cpp:2127-2134: the entries at the back more than 180 s old are removed -/
def popOld (now : Rat) (l : List (Rat × Rat)) : List (Rat × Rat) :=
  (l.reverse.dropWhile fun e => decide (now - e.2 > 30 * 6)).reverse

/-- src/Session.cpp:2136-2138: the minimum over the entries -/
def minOver (l : List (Rat × Rat)) : Option Rat := l.foldl (fun b e => some (minInf b e.1)) none

/-- src/Session.cpp:2119-2147 `checkBaseRTT`; 30 is `RTT_HISTORY_THRESH`, 6 `RTT_HISTORY_CAPACITY`. `m_last_minrtt_probe` is
left out. -/
def checkBase (b : Base) (rtt now : Rat) : Base :=
  match b.hist with
  | [] =>
    let hist := popOld now [(rtt, now)]
    { hist, base := some (minInf (minOver hist) rtt) }
  | (m, o) :: rest =>
    if now - o > 30 then
      let hist := popOld now ((rtt, now) :: (m, o) :: rest)
      { hist, base := some (minInf (minOver hist) rtt) }
    else { hist := (min m rtt, o) :: rest, base := some (minInf b.base rtt) }

/-- src/Session.cpp:2149-2152 `resetBaseRTT` -/
def resetBase (b : Base) : Base := { b with hist := [] }

end SessionClock
end Rtmfp
