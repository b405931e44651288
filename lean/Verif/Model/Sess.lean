import Verif.Model.SendFlow

/-! # A session that is open: what waits for what (`src/Session.cpp`, `src/SendFlow.cpp`)

The sending side (`SS`) together with everything that decides when it goes on: the lists of flows that want to send, the session's places with interfaces, the congestion window
and the burst limit, acknowledgements that are due, and all timers of an open session.

Simplifications. Times are whole microseconds (`Int`) instead of `long double`, with products and quotients rounded down, and finite (`none` is `INFINITY` for the
beginning of retransmission). The new values of the round-trip estimates and of the congestion window are given by the environment (C60, C23 are about them). Receive flows
are only names: what arrives for them is that they want to acknowledge. How many acknowledgements fit a packet is given. Interfaces are not removed. The packets kept while
the session was opening are processed as others after it.
Callbacks of the user run between the other things that happen (also between the chunks of a packet), not inside of them. Establishing a session is in `Model/Instance.lean`. -/

namespace Rtmfp

/-- include/rtmfp/Priority.hpp:21 -/
abbrev PRI_IMMEDIATE : Nat := 5
/-- include/rtmfp/params.hpp: `MAX_DATA_BYTES_BURST` -/
abbrev MAX_BURST : Int := 6 * 1161
/-- include/rtmfp/params.hpp: `SENDER_MSS` -/
abbrev MSS : Nat := 1161
/-- include/rtmfp/params.hpp: `BURST_RTT_THRESH` -/
abbrev BURST_RTT : Int := 4500
/-- include/rtmfp/params.hpp: `DELACK_ALARM_PERIOD` -/
abbrev DELACK : Int := 200000
/-- include/rtmfp/params.hpp: `MAX_ERTO` -/
abbrev MAX_ERTO : Int := 10000000
/-- include/rtmfp/params.hpp: `MINIMUM_ERTO` -/
abbrev MIN_ERTO : Int := 250000
/-- include/rtmfp/params.hpp: `MIN_KEEPALIVE_PERIOD`, `MIN_RTX_PERIOD`, `MIN_IDLE_PERIOD` -/
abbrev MIN_PERIOD : Int := 1000000

/-- include/rtmfp/params.hpp: `ERTO_BACKOFF_FACTOR`, `F_PERSIST_BACKOFF_FACTOR` -/
def backedOff (d : Int) : Int := d * 1414214 / 1000000

/-- src/Session.hpp: the members of `Session` used here. `ready` is `m_readyFlows`; `listed x p`: the session is in the list of interface `x` for priority `p`
(src/Interface.hpp `m_sessions`); `mid`: the chunks of a packet are being processed; `persist`: `SendFlow::m_persistTimer`, when it fires and how often; the other timers: when they
fire. `ackFlows` is `m_ackFlows`, whose members are the receive flows with `m_should_ack`. -/
structure Sess where
  ss : SS
  now : Int
  dest : Nat
  ready : Nat → List Nat
  listed : Nat → Nat → Bool
  mid : Bool
  anyAcks : Bool
  seenData : Bool
  cwnd : Nat
  burst : Int
  srtt : Int
  mrto : Int
  erto : Int
  burstAlarm : Option Int
  alarm : Option Int
  deadline : Int
  epoch : Option Int
  limit : Int
  responder : Bool
  kaTimer : Option Int
  kaOut : Bool
  lastTx : Int
  period : Int
  idleTimer : Option Int
  idleLimit : Int
  lastIdle : Int
  recvFlows : List Nat
  persist : Nat → Option (Int × Int)
  ackFlows : List Nat
  ackNow : Bool
  delack : Option Int
  rxData : Nat

/-- What can be observed. -/
inductive SOut where
  /-- what the sending side shows -/
  | ss (e : SS.Ev)
  /-- a packet with data of a flow, or with acknowledgements of flows -/
  | data (i : Nat)
  | acks (rs : List Nat)
  | ping
  | pong
  | probe (i : Nat)
  /-- the session closes itself: retransmission took too long; nothing was going on -/
  | timedOut
  | idled

namespace Sess

/-- src/Session.cpp:335-389: the constructor (`m_keepalive_period` and the limits are set when the session opens) -/
def init (responder : Bool) (dest : Nat) : Sess :=
  { ss := SS.init, now := 0, dest, ready := fun _ => [], listed := fun _ _ => false, mid := false, anyAcks := false, seenData := false, cwnd := 3 * MSS, burst := MAX_BURST,
    srtt := -1, mrto := 250000, erto := 3000000, burstAlarm := none, alarm := none, deadline := 0, epoch := none, limit := 0, responder, kaTimer := none, kaOut := false, lastTx := 0,
    period := 0, idleTimer := none, idleLimit := 0, lastIdle := 0, recvFlows := [], persist := fun _ => none, ackFlows := [], ackNow := false, delack := none, rxData := 0 }

/-! ## scheduling -/

/-- src/RTMFP.cpp:240-249 `scheduleWrite` for the session's interface, src/Interface.cpp `scheduleWrite` -/
def scheduleWrite (s : Sess) (p : Nat) : Sess := { s with listed := fun x q => if x = s.dest ∧ q = p then true else s.listed x q }

/-- src/Session.cpp:974-981 `scheduleFlowForTransmission` -/
def scheduleFlow (s : Sess) (i p : Nat) : Sess :=
  if i ∈ s.ready p then s
  else scheduleWrite { s with ready := fun q => if q = p then s.ready p ++ [i] else s.ready q } p

/-- src/SendFlow.cpp:328-340 `scheduleForTransmission` of a bound flow -/
def schedule (s : Sess) (i : Nat) : Sess := if SS.isMaybeReady (s.ss.flow i) = true then scheduleFlow s i (s.ss.flow i).priority else s

/-- src/Session.cpp:1066-1073 `rescheduleTransmission`; there are eight priorities -/
def rescheduleTransmission (s : Sess) : Sess :=
  { s with listed := fun x q => if x = s.dest ∧ q < 8 ∧ s.ready q ≠ [] then true else s.listed x q }

/-- the earlier of a time and one that may be infinite -/
def minInf (a : Option Int) (b : Int) : Int := match a with | none => b | some a => min a b

/-- src/Session.cpp:983-1008 `rescheduleTimeoutAlarm` -/
def rescheduleTimeout (s : Sess) : Sess :=
  match s.alarm with
  | some f => { s with alarm := some (if s.now + s.erto < s.deadline then s.now + s.erto else f), deadline := s.now + s.erto, epoch := some (minInf s.epoch s.now) }
  | none => { s with alarm := some (s.now + s.erto), deadline := s.now + s.erto, epoch := some (minInf s.epoch s.now) }

/-- src/Session.cpp:592-601 `setKeepaliveAlarm` -/
def setKeepaliveAlarm (s : Sess) : Sess := if s.ss.isOpen = true then { s with kaTimer := some s.now } else s

/-- src/Session.cpp:726-732 `sendKeepalivePing` -/
def sendKeepalivePing (s : Sess) : Sess := rescheduleTimeout { s with kaOut := true, lastTx := s.now }

/-! ## closing -/

/-- src/Session.cpp:485-531 `abortFlowsAndTimers` after the state was changed from open -/
def closeSession (s : Sess) : Sess × List SOut :=
  let x := s.ss.closeSession s.now
  ({ s with ss := x.1, ready := fun _ => [], burstAlarm := none, alarm := none, kaTimer := none, idleTimer := none, delack := none, persist := fun _ => none,
            recvFlows := [], ackFlows := [], lastIdle := s.now }, (x.2.1.map SS.Ev.exception ++ SS.fins x.2.2).map .ss)

/-! ## acknowledgements that are due -/

/-- src/Session.cpp:906-921 `ackNow` -/
def ackAtOnce (s : Sess) : Sess :=
  if s.ss.isOpen = true then
    let s := { s with delack := none }
    if s.ackNow then s else scheduleWrite { s with ackNow := true } PRI_IMMEDIATE
  else s

/-- src/Session.cpp:891-904 `scheduleAck` -/
def scheduleAck (s : Sess) (r : Nat) : Sess :=
  if s.ss.isOpen = true then
    let s := { s with ackFlows := s.ackFlows ++ [r] }
    if s.ackNow = false ∧ s.delack = none then { s with delack := some (s.now + DELACK) } else s
  else s

/-- src/RecvFlow.cpp:414-425 `scheduleAck` -/
def recvAck (s : Sess) (r : Nat) (urgent : Bool) : Sess :=
  let s := if urgent then ackAtOnce s else s
  if r ∈ s.ackFlows then s else scheduleAck s r

/-- src/Session.cpp:942-964: `k` of the flows fit -/
def putAcks (s : Sess) (k : Nat) : Sess :=
  let s := { s with ackFlows := s.ackFlows.drop k }
  if s.ackFlows = [] then { s with ackNow := false, rxData := 0, delack := none } else s

/-! ## the interface is writable -/

/-- src/Session.cpp:1507-1525: flows are asked in turn until one puts data in the packet. The sending side, the flows that remain ready, which one sent, and what is seen. -/
def offer (pri : Nat) (now : Int) (gone : Nat → Bool) : List Nat → SS → PA → List SS.Ev → SS × List Nat × Option Nat × List SS.Ev
  | [], s, _, es => (s, [], none, es)
  | i :: l, s, p, es =>
    let a := s.assembleData i p pri now (gone i)
    let r := SS.sentRes i a
    if a.sent then (r.1, l ++ [i], some i, es ++ r.2) else offer pri now gone l r.1 a.packet (es ++ r.2)

/-- src/Session.cpp:1221-1239 `scheduleBurstAlarm` -/
def scheduleBurst (s : Sess) : Sess :=
  { s with burstAlarm := some (s.now + s.srtt * (MSS + (if s.burst < 0 then -s.burst else 0)) / s.cwnd) }

/-- src/Session.cpp:1503-1532: data, if the congestion window and the burst limit permit -/
def sendData (s : Sess) (pri : Nat) (packet : PA) (gone : Nat → Bool) : Sess × Option Nat × List SS.Ev :=
  if s.cwnd > s.ss.outSum then
    if s.burst > 0 ∨ s.srtt < BURST_RTT then
      let x := offer pri s.now gone (s.ready pri) s.ss packet []
      let t := { s with ss := x.1, ready := fun q => if q = pri then x.2.1 else s.ready q }
      match x.2.2.1 with
      | some i => (rescheduleTimeout { t with burst := s.burst - (sub64 x.1.outSum s.ss.outSum : Int) }, some i, x.2.2.2)
      | none => (t, none, x.2.2.2)
    else if s.burstAlarm = none then (scheduleBurst s, none, []) else (s, none, [])
  else (s, none, [])

/-- src/Interface.cpp: the session is taken from the list of the interface -/
def unlist (s : Sess) (x p : Nat) : Sess := { s with listed := fun y q => if y = x ∧ q = p then false else s.listed y q }

/-- src/Session.cpp:1478-1555 `onInterfaceWritable`, with what src/Interface.cpp:17-39 does with the answer. `packet` has its header; `k` and `k'` are how many flows'
acknowledgements fit. There is something in the packet if acknowledgements or data were put there; then the session's place moves to the end of the line. -/
def writable (s : Sess) (x pri : Nat) (packet : PA) (gone : Nat → Bool) (k k' : Nat) : Sess × List SOut :=
  if x ≠ s.dest then (unlist (scheduleWrite s pri) x pri, [])
  else if s.ss.isOpen = false then (unlist s x pri, [])
  else
    let first := if s.ackNow then s.ackFlows.take k else []
    let s := if s.ackNow then putAcks s k else s
    let d := if first ≠ [] then (s, none, []) else sendData s pri packet gone
    let out := d.2.2.map SOut.ss
    if first = [] ∧ d.2.1 = none then (unlist d.1 x pri, out)
    else
      let more := d.1.ackFlows.take k'
      let s := putAcks d.1 k'
      ({ s with lastTx := s.now }, out ++ (match d.2.1 with | some i => [.data i] | none => []) ++ [.acks (first ++ more)])

/-! ## packets -/

/-- the parts of a packet -/
inductive Chunk where
  /-- an acknowledgement for a flow of the session, as in `SS.Op.ack` -/
  | ack (i bufferBytes : Nat) (ranges : List (Nat × Nat))
  | exception (i rid : Nat) (names : Nat → Nat)
  | ping
  | pingReply
  /-- data for a receive flow, which is to be acknowledged, perhaps at once -/
  | data (r : Nat) (urgent : Bool)
  | probe (r : Nat)

/-- src/SendFlow.cpp:632-642 `setPersistTimer` -/
def setPersist (s : Sess) (i : Nat) : Sess :=
  match s.persist i with
  | some _ => s
  | none => { s with persist := fun j => if j = i then some (s.now + max MIN_PERIOD s.erto, max MIN_PERIOD s.erto) else s.persist j }

/-- assignment to `m_persistTimer` -/
def clearPersist (s : Sess) (i : Nat) : Sess := { s with persist := fun j => if j = i then none else s.persist j }

/-- src/Session.cpp:802-807: `m_last_idle_time` when a flow was taken from the session -/
def noteIdle (s : Sess) (before : SS) : Sess := if s.ss.sendFlows.length < before.sendFlows.length then { s with lastIdle := s.now } else s

/-- src/SendFlow.cpp:547-613 `onAck` for a bound flow with src/Session.cpp:2062-2064 -/
def onAck (s : Sess) (i bufferBytes : Nat) (ranges : List (Nat × Nat)) : Sess × List SOut :=
  let x := s.ss.onAck i bufferBytes ranges
  let done := decide ((s.ss.flow i).state.rank ≥ SFState.completeLinger.rank)
  let t := { s with ss := x.1, anyAcks := true, kaOut := false, epoch := none }
  let t := if done then t else if bufferBytes = 0 then setPersist t i else clearPersist t i
  let t := if done ∨ (x.1.flow i).state = .completeLinger then t else schedule t i
  (t, (SS.fins x.2).map .ss)

/-- src/SendFlow.cpp:251-252, and 674-698 for the timer: scheduling by something that may have added fragments to a flow or closed it -/
def afterChange (s : Sess) (i : Nat) (before : SS) : Sess :=
  let s := noteIdle s before
  let s := if (s.ss.flow i).state = .closed then clearPersist s i else s
  if (s.ss.flow i).nextSn ≠ (before.flow i).nextSn ∧ (s.ss.flow i).bound = true ∧ s.ss.isOpen = true then schedule s i else s

/-- src/Session.cpp:1978-1994 with src/SendFlow.cpp:615-630 -/
def onException (s : Sess) (i rid : Nat) (names : Nat → Nat) : Sess × List SOut :=
  let x := s.ss.onExceptionReport i s.now rid names
  (afterChange { s with ss := x.1 } i s.ss, ((SS.excOf i x.2.1).map SS.Ev.exception ++ SS.fins x.2.2).map .ss)

/-- src/Session.cpp:1644-1721 `onChunk` of an open session -/
def onChunk (s : Sess) : Chunk → Sess × List SOut
  | .ack i b rs => onAck s i b rs
  | .exception i rid names => onException s i rid names
  | .ping => ({ s with lastTx := s.now }, [.pong])
  | .pingReply => ({ s with kaOut := false, epoch := none }, [])
  | .data r urgent => (recvAck { s with seenData := true } r urgent, [])
  | .probe r => (recvAck s r true, [])

/-- src/Session.cpp:1571-1642 `onPacketHeader`; perhaps there is a sample of the round-trip time, with the new estimate and timeout -/
def header (s : Sess) (sample : Option (Int × Int)) : Sess :=
  let s := { s with mid := true, anyAcks := false, seenData := false }
  match sample with
  | none => s
  | some (srtt, mrto) => { s with srtt, mrto, erto := max mrto MIN_ERTO }

/-- src/Session.cpp:1749-1773, as `SS.nakLoop`, with src/SendFlow.cpp:667-672 -/
def nakLoop : Sess → SS.Nak → List OutRef → Sess × SS.Nak
  | s, k, [] => (s, k)
  | s, k, o :: l =>
    if o.tsn > s.ss.maxTsnAck then (s, k)
    else
      let s := { s with ss := SS.nakFrag s.ss o }
      match SS.fragOf (s.ss.flow o.flow).queue o.sn with
      | none => nakLoop s k l
      | some frag =>
        let k := if frag.sentAbandoned then k else { k with anyNaks := true }
        if frag.nak ≥ 3 then
          let k := if frag.sentAbandoned then k else { k with anyLoss := true }
          let s := schedule { s with ss := SS.lose s.ss o } o.flow
          nakLoop { s with ss := { s.ss with outs := s.ss.outs.filter (fun p => !(decide (p.flow = o.flow) && decide (p.sn = o.sn))), outSum := sub64 s.ss.outSum o.size } }
            { k with lostBytes := add64 k.lostBytes o.size } l
        else nakLoop s k l

/-- src/Session.cpp:1723-1729 -/
def afterData (s : Sess) : Sess :=
  let s := if s.seenData then { s with rxData := s.rxData + 1 } else s
  if s.rxData ≥ 2 then ackAtOnce s else s

/-- src/Session.cpp:1731-1777; `cwnd` is what `updateCWND` makes of the congestion window -/
def afterAcks (s : Sess) (congestion : Bool) (cwnd : Nat) : Sess :=
  if s.anyAcks then
    let s := { s with burst := if s.burst < MAX_BURST then MAX_BURST else s.burst, burstAlarm := none }
    let s := (nakLoop s ⟨congestion, false, 0⟩ s.ss.outs).1
    rescheduleTimeout (rescheduleTransmission { s with cwnd })
  else s

/-- src/Session.cpp:1723-1791 `onPacketAfterChunks` -/
def after (s : Sess) (congestion : Bool) (cwnd : Nat) : Sess := { afterAcks (afterData s) congestion cwnd with mid := false }

/-- src/Session.cpp:1441-1460 of `onMobilityCheckReply`: the other end was found at another interface (or address) -/
def moved (s : Sess) (x : Nat) : Sess := rescheduleTransmission { s with dest := x }

/-! ## timers -/

/-- src/Session.cpp:1048-1054 with src/SendFlow.cpp:667-672, as `SS.timeout` -/
def loseAll (s : Sess) : Sess :=
  let s := s.ss.outs.foldl (fun s o => schedule { s with ss := SS.lose s.ss o } o.flow) s
  { s with ss := { s.ss with outs := [], outSum := 0 } }

/-- src/Session.cpp:1010-1064 `onTimeoutAlarm` -/
def onTimeout (s : Sess) : Sess × List SOut :=
  if s.now < s.deadline then ({ s with alarm := some s.deadline }, [])
  else
    let s := { s with alarm := none, burst := MAX_BURST }
    if s.ss.isOpen = false then (s, [])
    else if s.ss.outs = [] ∧ s.kaOut = false then (setKeepaliveAlarm { s with cwnd := 3 * MSS, epoch := none }, [])
    else if (match s.epoch with | none => false | some e => decide (s.now ≥ e + s.limit)) = true then
      let x := closeSession s
      (x.1, .timedOut :: x.2)
    else
      let s := loseAll s
      let s := rescheduleTransmission { s with cwnd := 2 * MSS, erto := max (min (backedOff s.erto) MAX_ERTO) s.mrto }
      if s.kaOut then (sendKeepalivePing s, [.ping]) else (s, [])

/-- src/Session.cpp:649-669 `onKeepaliveAlarm` -/
def onKeepalive (s : Sess) : Sess × List SOut :=
  if s.ss.isOpen = false then (s, [])
  else
    let due := s.lastTx + s.period + (if s.responder then s.mrto else 0)
    if s.now < due then ({ s with kaTimer := some due }, []) else (sendKeepalivePing { s with kaTimer := none }, [.ping])

/-- src/Session.cpp:671-686 `onIdleAlarm` -/
def onIdle (s : Sess) : Sess × List SOut :=
  if s.ss.isOpen = false then (s, [])
  else if s.now < s.lastIdle + s.idleLimit then ({ s with idleTimer := some (s.lastIdle + s.idleLimit) }, [])
  else if s.ss.sendFlows = [] ∧ s.recvFlows = [] then
    let x := closeSession s
    (x.1, .idled :: x.2)
  else ({ s with idleTimer := some (s.now + s.idleLimit) }, [])

/-- src/Session.cpp:1225-1238: the action of the burst alarm, which was to fire at `f` -/
def onBurst (s : Sess) (f : Int) : Sess :=
  rescheduleTransmission { s with burstAlarm := none, burst := MSS + (if s.srtt ≥ BURST_RTT ∧ s.now - f > 0 then (s.now - f) * s.cwnd / s.srtt else 0) }

/-- src/Timer.cpp:132-141: when a recurring timer that was to fire at `f` fires again -/
def nextFire (now f every : Int) : Int := if now > f then f + (now - f + every - 1) / every * every else f + every

/-- src/SendFlow.cpp:644-665 `onPersistTimer`, which was to fire at `f` -/
def onPersist (s : Sess) (i : Nat) (f every : Int) : Sess × List SOut :=
  if (s.ss.flow i).state.rank > SFState.closing.rank then (clearPersist s i, [])
  else
    let every := max (min (backedOff every) 60000000) s.erto
    ({ s with persist := fun j => if j = i then some (nextFire s.now f every, every) else s.persist j }, [.probe i])

/-! ## everything that happens to a session -/

/-- What happens. -/
inductive Op where
  /-- time passes -/
  | advance (t : Int)
  /-- the session opens, with the default keepalive period, retransmission limit and idle limit (src/Session.cpp:542-556 `setOpen`) -/
  | opened (period limit idle : Int)
  /-- the user opens, writes to, closes ... a flow or uses a receipt, a flow is bound, a task trims its queue, its linger alarm fires -/
  | flow (op : SS.Op)
  /-- an interface is ready to send a packet of the session with some priority -/
  | writable (x pri : Nat) (packet : PA) (gone : Nat → Bool) (k k' : Nat)
  | header (sample : Option (Int × Int))
  | chunk (c : Chunk)
  | after (congestion : Bool) (cwnd : Nat)
  | moved (x : Nat)
  /-- a receive flow wants to acknowledge (src/RecvFlow.cpp:78, 127, 143, 333) -/
  | recvAck (r : Nat) (urgent : Bool)
  /-- a receive flow is made, or taken from the session -/
  | recvOpen (r : Nat)
  | recvClose (r : Nat)
  | setPeriod (d : Int)
  | setLimit (d : Int)
  | setIdle (d : Int)
  /-- timers fire -/
  | alarm
  | keepalive
  | idle
  | burst
  | delack
  | persist (i : Nat)
  /-- the user or the other end closes the session -/
  | close

/-- src/Session.cpp:587-591, 624-637: the limits, which have a minimum -/
def setIdle (s : Sess) (d : Int) : Sess :=
  let s := { s with idleLimit := max d MIN_PERIOD }
  if s.ss.isOpen = true then { s with idleTimer := some s.now } else s

/-- src/Session.cpp:542-556 `setOpen` -/
def setOpen (s : Sess) (period limit idle : Int) : Sess :=
  let s := { s with ss := { s.ss with isOpen := true }, lastTx := s.now, lastIdle := s.now, epoch := none }
  setIdle { setKeepaliveAlarm { s with period := max period MIN_PERIOD } with limit := max limit MIN_PERIOD } idle

/-- the effects of something done to the sending side (which is `t` now) -/
def flowEffects (s : Sess) (t : SS) : SS.Op → Sess
  | .write i _ _ _ _ _ _ | .close i _ _ _ | .lingerAlarm i => afterChange { s with ss := t } i s.ss
  | .bind i _ => if (s.ss.flow i).bound = true then { s with ss := t } else schedule { s with ss := t } i
  | .setPriority i pri => if pri ≠ (s.ss.flow i).priority then schedule { s with ss := t } i else { s with ss := t }
  | _ => { s with ss := t }

/-- One thing happens; `none`: it can't (a timer isn't set), or a null pointer is used. -/
def step (s : Sess) : Op → Option (Sess × List SOut)
  | .advance t => some ({ s with now := t }, [])
  | .opened period limit idle => some (setOpen s period limit idle, [])
  | .flow op => (SS.step s.ss op).map fun x => (flowEffects s x.1 op, x.2.map .ss)
  | .writable x pri packet gone k k' => some (writable s x pri packet gone k k')
  | .header sample => some (header s sample, [])
  | .chunk c => some (onChunk s c)
  | .after c w => some (after s c w, [])
  | .moved x => some (moved s x, [])
  | .recvAck r u => some (recvAck s r u, [])
  | .recvOpen r => some ({ s with recvFlows := r :: s.recvFlows }, [])
  | .recvClose r => some ({ s with recvFlows := s.recvFlows.filter (· ≠ r), lastIdle := s.now }, [])
  | .setPeriod d => some (setKeepaliveAlarm { s with period := max d MIN_PERIOD }, [])
  | .setLimit d => some ({ s with limit := max d MIN_PERIOD }, [])
  | .setIdle d => some (setIdle s d, [])
  | .alarm => s.alarm.map fun _ => onTimeout s
  | .keepalive => s.kaTimer.map fun _ => onKeepalive s
  | .idle => s.idleTimer.map fun _ => onIdle s
  | .burst => s.burstAlarm.map fun f => (onBurst s f, [])
  | .delack => s.delack.map fun _ => (ackAtOnce s, [])
  | .persist i => (s.persist i).map fun x => onPersist s i x.1 x.2
  | .close => some (closeSession s)

end Sess
end Rtmfp
