import Verif.Base

/-!
# Model of the congestion window (`src/Session.cpp`)

All quantities are `size_t`; every addition, subtraction and multiplication is checked, and `none` is one that wraps around (except the one at
line 1116, which wraps as in the code). Comparisons of
times are given by booleans that may have any values (so every history of times is covered, and more).
-/

namespace Rtmfp
namespace Cwnd

/-- include/rtmfp/params.hpp:36 `SENDER_MSS` -/
abbrev mss : Nat := 1161
/-- include/rtmfp/params.hpp:37 `CWND_INIT` -/
abbrev cwndInit : Nat := 3 * 1161
/-- include/rtmfp/params.hpp:38 `CWND_TIMEDOUT` -/
abbrev cwndTimedout : Nat := 2 * 1161
/-- include/rtmfp/params.hpp:40 `CWND_DECAY_MARGIN` -/
abbrev decayMargin : Nat := 6 * 1161
/-- include/rtmfp/params.hpp:41 `CWND_DECAY_SIZE` -/
abbrev decaySize : Nat := 1

/-- a `size_t` addition -/
def add (a b : Nat) : Option Nat := if a + b ≤ U64MAX then some (a + b) else none
/-- a `size_t` subtraction -/
def sub (a b : Nat) : Option Nat := if b ≤ a then some (a - b) else none
/-- a `size_t` multiplication -/
def mul (a b : Nat) : Option Nat := if a * b ≤ U64MAX then some (a * b) else none

/-- src/Session.cpp:360-364 -/
structure State where
  cwnd : Nat
  ssthresh : Nat
  acc : Nat
  recovery : Nat
  allowance : Nat
deriving DecidableEq, Repr

/-- src/Session.cpp:360-364 -/
def init : State := { cwnd := cwndInit, ssthresh := U64MAX, acc := 0, recovery := 0, allowance := 0 }

/-- What `updateCWND` is given and reads: the bytes outstanding before the packet's acknowledgements, what remained after them and after the
losses (`m_outstandingFrags.sum()`), and the outcome of the tests of times.
`delay` is `(m_srtt >= DELAYCC_RTT_THRESH) and (m_last_delaycc_action < m_last_rtt_time)`, `high` is
`m_srtt > m_base_rtt + m_delaycc_congestion_delay`, `probe` is the rest of the condition of lines 1135-1136 and 1140. -/
structure Env where
  preAck : Nat
  acked : Nat
  lost : Nat
  sum : Nat
  anyLoss : Bool
  anyNaks : Bool
  fastgrow : Bool
  tcSent : Bool
  delay : Bool
  high : Bool
  probe : Bool

/-- src/Session.cpp:1185-1189, 1204-1208: `while(acc >= aithresh) { acc -= aithresh; increase += by; }`; `none` also if not done in `fuel` rounds. -/
def aiLoop (aithresh by_ : Nat) : (fuel acc increase : Nat) → Option (Nat × Nat)
  | 0, _, _ => none
  | fuel + 1, acc, increase =>
    if acc ≥ aithresh then do
      let acc ← sub acc aithresh
      let increase ← add increase by_
      aiLoop aithresh by_ fuel acc increase
    else some (acc, increase)

/-- src/Session.cpp:1091 `adjusted_loss_cost` -/
def lossCost (lost : Nat) : Option Nat :=
  if lost ≠ 0 then do
    let l1 ← add lost 1
    add lost (l1 / 2)
  else some 0

/-- src/Session.cpp:1094-1121: during recovery -/
def inRecovery (s : State) (drained cost : Nat) : Option State := do
  let recovery ← sub s.recovery drained
  let s := { s with recovery := recovery }
  if cost ≠ 0 then
    if cost ≤ s.allowance then do
      let allowance ← sub s.allowance cost
      some { s with allowance := allowance }
    else do
      let cost ← sub cost s.allowance
      let cost := min s.ssthresh cost
      let cut ← sub s.ssthresh cost
      let ssthresh := max cut cwndInit
      some { s with allowance := 0, ssthresh := ssthresh, cwnd := ssthresh, recovery := (s.recovery + cost) % W64 }
  else some s

/-- src/Session.cpp:1154-1168: loss -/
def onLoss (s : State) (e : Env) (cost : Nat) : Option State := do
  let preCut := min s.cwnd e.preAck
  let allowance := if e.tcSent || (decide (e.preAck > 67200) && e.fastgrow) then preCut / 8 else preCut / 2
  let allowance := min preCut (max allowance cost)
  let left ← sub preCut allowance
  let ssthresh := max left cwndInit
  some { cwnd := ssthresh, ssthresh := ssthresh, acc := 0, recovery := e.sum, allowance := allowance }

/-- src/Session.cpp:1169-1213: growth -/
def grow (s : State) (e : Env) : Option State := do
  let (acc, increase) ←
    if e.fastgrow then
      if s.cwnd < s.ssthresh then some (0, e.acked)
      else do
        let acc ← add s.acc e.acked
        aiLoop (min (max (s.cwnd / 16) 64) 9600) 96 (acc + 1) acc 0
    else
      if e.tcSent && decide (s.cwnd < s.ssthresh) then do
        let a3 ← add e.acked 3
        some (0, a3 / 4)
      else do
        let acc ← add s.acc e.acked
        aiLoop (min (max (s.cwnd / 16) 64) 4800) (if e.tcSent then 48 else 24) (acc + 1) acc 0
  let grown ← add s.cwnd (min increase mss)
  some { s with acc := acc, cwnd := max grown cwndInit }

/-- src/Session.cpp:1154-1216: after recovery and the delay tests -/
def react (s : State) (e : Env) (anyLoss : Bool) (cost : Nat) : Option State :=
  if anyLoss then onLoss s e cost
  else do
    let used ← mul s.cwnd 63
    if !e.anyNaks && decide (e.preAck > used / 64) then grow s e
    else do
      let margin ← add e.preAck decayMargin
      if !e.anyNaks && decide (s.cwnd > margin) then do
        let cwnd ← sub s.cwnd decaySize
        some { s with cwnd := cwnd }
      else some s

/-- src/Session.cpp:1086-1219 `updateCWND` (`resetBaseRTT` at its end doesn't concern the window). -/
def update (s : State) (e : Env) : Option State := do
  let cost ← lossCost e.lost
  let drained ← add e.acked e.lost
  if s.recovery > drained then inRecovery s drained cost
  else
    let s := { s with recovery := 0 }
    if e.delay then
      if e.high then react s e true cost
      else if !e.anyLoss && !e.anyNaks && e.probe && decide (s.cwnd > 4 * mss) && decide (s.cwnd > s.ssthresh) && decide (e.preAck > s.cwnd / 2) then do
        let p ← mul e.preAck 21
        some { s with ssthresh := s.cwnd, cwnd := max (p / 32) cwndInit }
      else react s e e.anyLoss cost
    else react s e e.anyLoss cost

/-- src/Session.cpp:1010-1064 `onTimeoutAlarm`, past the deadline, as far as the window goes: `isOpen` is the test of the state, `idle` is
`m_outstandingFrags.empty() and not m_keepalive_outstanding`, `giveUp` closes the session. -/
def timeout (s : State) (isOpen idle giveUp : Bool) : Option State := do
  let c3 ← mul s.cwnd 3
  let s := { s with ssthresh := max s.ssthresh (c3 / 4), acc := 0, recovery := 0 }
  if !isOpen then some s
  else if idle then some { s with cwnd := cwndInit }
  else if giveUp then some s
  else some { s with cwnd := cwndTimedout }

/-- What happens to the window. -/
inductive Op
  | acks (e : Env)
  | timeout (isOpen idle giveUp : Bool)

/-- one of them; src/Session.cpp:1731-1778 calls `updateCWND` after the chunks of a packet with acknowledgements -/
def step (s : State) : Op → Option State
  | .acks e => update s e
  | .timeout a b c => timeout s a b c

/-- a history of them -/
def run (s : State) : List Op → Option State
  | [] => some s
  | o :: ops => do
    let s ← step s o
    run s ops

end Cwnd
end Rtmfp
