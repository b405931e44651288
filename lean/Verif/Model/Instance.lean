import Verif.Base
/-! # The sessions and flows of one instance: how they open, find each other and end (src/RTMFP.cpp, src/Session.cpp, src/SendFlow.cpp, src/RecvFlow.cpp)

The code calls application callbacks from the middle of its own loops (a flow's `onException`, `onComplete`, `onRecvFlow`), and the application may call back
into the library from there. So what is still to be done by the functions that are running is data here: a stack of `Frame`s. A step either runs the frame on
top, or — while no library code runs, or while application code runs inside a callback — is a call by the application, or — only while no code runs — a timer,
a deferred task or something received. Every way the callbacks can behave, to any depth, is thereby among the histories.

Sessions and flows are numbered as they are made; `m_sessions`' names (the session ids) are in `Model/SessionId.lean` and stand here for the session itself.
Endpoint discriminators, certificates, addresses, nonces are numbers; what the crypto adapter says of them is given by a `Crypto`. Data transfer, congestion
control, keepalives and the contents of packets are elsewhere; of the alarms only what can end a session is kept. -/
namespace Rtmfp
namespace Inst

/-- src/Session.hpp:69-70 -/
inductive SState where
  | unknown | ihello | keying | opened | nearclose | farclose | closed
deriving DecidableEq, Repr

/-- src/Session.hpp:69-70: the values of the enumeration, which the code compares -/
def SState.rank : SState → Nat
  | .unknown => 0
  | .ihello => 1
  | .keying => 2
  | .opened => 3
  | .nearclose => 4
  | .farclose => 5
  | .closed => 6

/-- include/rtmfp/params.hpp:19 -/
abbrev MAX_WAITING_PERFORM_COUNT : Nat := 16
/-- include/rtmfp/params.hpp:20 -/
abbrev REDIRECT_THRESHOLD : Nat := 24
/-- include/rtmfp/params.hpp:53 -/
abbrev MAX_EARLY_PACKETS : Nat := 18

/-- include/rtmfp/rtmfp.hpp, `CryptoCert` and `CryptoAdapter`: `isSelectedByEPD`, `getCanonicalEPD`, `doesCertOverrideSession`, `checkNearWinsGlare` -/
structure Crypto where
  sel : Nat → Nat → Bool
  canon : Nat → Nat
  overrides : Nat → Nat → Bool
  nearWins : Nat → Bool

/-- src/Session.hpp:140-180: the members that matter to the session's life. `cert` is `m_cryptoCert`, `sendFlows` and `recvFlows` are `m_sendFlows` (in order of
names, which are in order of binding until names are reused: only the order depends on it) and `m_recvFlows`. -/
structure Sess where
  state : SState
  initiator : Bool
  epd : Nat
  cert : Option Nat
  addr : Nat
  ifc : Nat
  tx : Nat
  skic : Nat
  addrs : List Nat
  interest : Nat
  cookie : Nat
  cookieChanged : Bool
  early : List Nat
  sendFlows : List Nat
  recvFlows : List Nat
deriving DecidableEq, Repr

/-- Session.cpp:335-388 -/
def Sess.new : Sess := ⟨.unknown, false, 0, none, 0, 0, 0, 0, [], 0, 0, false, [], [], []⟩

/-- src/SendFlow.hpp, F_OPEN < F_CLOSING < F_COMPLETE_LINGER < F_CLOSED -/
inductive FState where
  | opened | closing | linger | closed
deriving DecidableEq, Repr

/-- SendFlow.cpp:42-67: `m_epd`, `m_session`, `m_openingSession`, `m_state`, `m_base_isOpen`, whether `onException` is set, whether anything was written
(`m_next_sn > 1`) -/
structure SFlow where
  epd : Nat
  sess : Option Nat
  opening : Option Nat
  state : FState
  isOpen : Bool
  handler : Bool
  wrote : Bool
deriving DecidableEq, Repr

/-- SendFlow.cpp:42-67 -/
def SFlow.new (epd : Nat) : SFlow := ⟨epd, none, none, .opened, true, false, false⟩

/-- RecvFlow.cpp:33-62: `m_session`, whether the flow is open to its user, whether `onComplete` is set -/
structure RFlow where
  sess : Nat
  isOpen : Bool
  handler : Bool
deriving DecidableEq, Repr

/-- RTMFP.cpp:577-600 `IIKeyingState`: initiator's session id, certificate, address, interface, SKIC -/
structure Req where
  tx : Nat
  cert : Nat
  addr : Nat
  ifc : Nat
  skic : Nat
deriving DecidableEq, Repr

/-- work handed to `m_platform->perform`: on a crypto thread (`W`) or on the main thread -/
inductive Task where
  | shutdown (immediately : Bool)                         -- RTMFP.cpp:116-129
  | rhelloW (s cert addr ifc cookie : Nat)                -- Session.cpp:1272-1273 isAuthentic
  | rhello (s cert addr ifc cookie : Nat)                 -- Session.cpp:1273-1298
  | keygenW (s : Nat)                                     -- Session.cpp:1300-1313
  | abort (s : Nat)                                       -- Session.cpp:1305, 1336
  | cookieW (s : Nat)                                     -- Session.cpp:1332-1340
  | rikeyingW (s tx : Nat)                                -- Session.cpp:1374-1379 checkSignature and initiatorCombine…
  | rikeying (s tx : Nat)                                 -- Session.cpp:1380-1385
  | iikeyingW (r : Req)                                   -- RTMFP.cpp:638-641: the first task, which lets the next request in
  | iikeyingW2 (r : Req)                                  -- RTMFP.cpp:641-648: authentic, signed, key generated
  | iikeying (r : Req)                                    -- RTMFP.cpp:650-701
deriving DecidableEq, Repr

/-- timers that end something -/
inductive Tm where
  | ultimate (s : Nat)                                    -- Session.cpp:424-427
  | near (s : Nat)                                        -- Session.cpp:565-573
  | far (s : Nat)                                         -- Session.cpp:583
  | linger (f : Nat)                                      -- SendFlow.cpp:606
deriving DecidableEq, Repr

/-- what functions that are running still have to do -/
inductive Frame where
  | user                                                  -- application code, in a callback
  | sessClose (s : Nat) (orderly : Bool)                  -- a call of Session::close
  | abort (s : Nat)                                       -- a call of Session::abort
  | sendLoop (s : Nat)                                    -- Session.cpp:512-517
  | sendCheck (s f : Nat)                                 -- Session.cpp:516
  | recvLoop (s : Nat)                                    -- Session.cpp:523-528
  | recvErase (s r : Nat)                                 -- Session.cpp:527
  | nearTail (s : Nat)                                    -- Session.cpp:563-574
  | farTail (s : Nat)                                     -- Session.cpp:582-584
  | ackClose (s : Nat)                                    -- Session.cpp:2093: sendClose(true) after setFarcloseLinger
  | didClose (s : Nat) (release : Bool)                   -- a call of RTMFP::onSessionDidClose
  | tellOpening (s : Nat) (fs : List Nat)                 -- RTMFP.cpp:467, for the flows that remain
  | flowDidClose (f s : Nat)                              -- a call of SendFlow::onSessionDidClose
  | flowClose (f : Nat)                                   -- SendFlow.cpp:194-198, the end of close
  | notOpening (f : Nat)                                  -- SendFlow.cpp:198
  | callback (f : Nat)                                    -- SendFlow.cpp:624-625: exception_f, which was set
  | tellOpened (s : Nat) (fs : List Nat)                  -- RTMFP.cpp:448, for the flows that remain
  | tellWillOpen (s : Nat) (fs : List Nat)                -- RTMFP.cpp:453, for the flows that remain
  | respond (r : Req)                                     -- RTMFP.cpp:664-701, after the session it overrides is gone
  | closeAll (ss : List Nat) (orderly : Bool)             -- RTMFP.cpp:117-120
  | abortOpening                                          -- RTMFP.cpp:122
  | abortAll (ss : List Nat)                              -- RTMFP.cpp:122-125
  | check                                                 -- RTMFP::checkShutdownComplete
deriving DecidableEq, Repr

/-- include/rtmfp/rtmfp.hpp:130-175. `table` is `m_sessions`; `startup` counts the packets of `StartupSession::m_sendItems` and `scheduled` tells whether an
interface still has the startup session in its queue (see `Model/Interface.lean`); `crashed` if an assertion failed. -/
structure St where
  nS : Nat
  sess : Nat → Sess
  nF : Nat
  flow : Nat → SFlow
  nR : Nat
  rflow : Nat → RFlow
  table : List Nat
  openingS : List Nat
  openingF : List Nat
  byAddr : Nat → Option Nat
  byEpd : Nat → Option Nat
  shutdown : Bool
  done : Bool
  waiting : Nat
  startup : Nat
  scheduled : Bool
  tasks : List Task
  timers : List Tm
  stack : List Frame
  crashed : Bool

/-- RTMFP.cpp:19-46 -/
def init : St where
  nS := 0
  sess := fun _ => Sess.new
  nF := 0
  flow := fun _ => SFlow.new 0
  nR := 0
  rflow := fun _ => ⟨0, false, false⟩
  table := []
  openingS := []
  openingF := []
  byAddr := fun _ => none
  byEpd := fun _ => none
  shutdown := false
  done := false
  waiting := 0
  startup := 0
  scheduled := false
  tasks := []
  timers := []
  stack := []
  crashed := false

/-- what can be observed: a flow gets bound to a session (`live` if the session is open then); a flow is moved to wait for another session; callbacks, and the application setting them or closing flows; packets
`CLOSE`/`CLOSE_ACK`; session ids given back; the end of the shutdown; a failed assertion -/
inductive Ev where
  | flowOpened (f epd : Nat)
  | bound (f s : Nat) (live : Bool)
  | moved (f o s : Nat)
  | exception (f : Nat)
  | handlerSet (f : Nat)
  | closeCalled (f : Nat)
  | recvFlow (r s : Nat)
  | complete (r : Nat) (error : Bool)
  | completeSet (r : Nat)
  | closeSent (s : Nat) (ack : Bool)
  | opened (s : Nat)
  | released (s : Nat)
  | shutdownDone
  | assertFailed (s f : Nat)
  | cookieChangeSent
  | cookieFollowed (s : Nat)
  | keyingAccepted
  | replayed (s : Nat) (ps : List Nat)
deriving DecidableEq, Repr

/-- changing one entry of a table; no code of its own -/
def upd {α : Type} (g : Nat → α) (i : Nat) (v : α) : Nat → α := fun j => if j = i then v else g j

/-- one session changed; no code of its own -/
def setS (st : St) (s : Nat) (g : Sess → Sess) : St := { st with sess := upd st.sess s (g (st.sess s)) }
/-- one sending flow changed; no code of its own -/
def setF (st : St) (f : Nat) (g : SFlow → SFlow) : St := { st with flow := upd st.flow f (g (st.flow f)) }
/-- one receiving flow changed; no code of its own -/
def setR (st : St) (r : Nat) (g : RFlow → RFlow) : St := { st with rflow := upd st.rflow r (g (st.rflow r)) }
/-- what a function calls next, before what its caller still has to do; no code of its own -/
def push (st : St) (fs : List Frame) : St := { st with stack := fs ++ st.stack }
/-- assignments to `m_state` of a session -/
def setState (st : St) (s : Nat) (x : SState) : St := setS st s (fun e => { e with state := x })

/-- StartupSession::sendPacket, Session.cpp:133-146; the destination's interface exists -/
def queueStartup (st : St) : St := { st with startup := st.startup + 1, scheduled := true }

/-- RTMFP.cpp:501-506 `sendFlowIsNotOpening` -/
def notOpening (st : St) (f : Nat) : St := { st with openingF := st.openingF.filter (· ≠ f) }

/-- Session.cpp:752-754: the count of `interestDown`, of the session that a flow waits for, if any -/
def interestDown (st : St) : Option Nat → St
  | some o => setS st o (fun e => { e with interest := e.interest - 1 })
  | none => st

/-- Session.cpp:754-755: the call of `abort` that `interestDown` makes, if any -/
def abandoned (st : St) : Option Nat → List Frame
  | some o => if (st.sess o).interest - 1 = 0 ∧ (st.sess o).state = .ihello then [.abort o] else []
  | none => []

/-- Session.cpp:802-807 `unbindFlow`, of the session that a flow is bound to, if any -/
def unbind (st : St) (f : Nat) : Option Nat → St
  | some s => setS st s (fun e => { e with sendFlows := e.sendFlows.filter (· ≠ f) })
  | none => st

/-- SendFlow.cpp:674-698 `gotoStateClosed`. Simplified: `m_openingSession` is reset (690) before `abort` runs (689 → Session.cpp:755) instead of after; the only code
that looks at it in between is this flow's own `onSessionDidClose`, which would find the flow closed and without `onException`. -/
def gotoClosed (st : St) (f : Nat) : St :=
  if (st.flow f).state = .closed then st else
  push (interestDown (setF (unbind st f (st.flow f).sess) f (fun e => { e with state := .closed, sess := none, opening := none })) (st.flow f).opening)
    (abandoned st (st.flow f).opening)

/-- is the session that the flow is bound to open -/
def sessOpen (st : St) (f : Nat) : Bool :=
  match (st.flow f).sess with
  | some s => (st.sess s).state = .opened
  | none => false

/-- SendFlow.cpp:167-199 `close`, up to and including 192; `Frame.flowClose` is the rest -/
def closeFlow (st : St) (f : Nat) : St :=
  let st := setF st f (fun e => { e with isOpen := false, handler := false })
  if (st.flow f).state = .opened then
    if sessOpen st f ∧ (st.flow f).wrote then push (setF st f (fun e => { e with state := .closing })) [.flowClose f]
    else gotoClosed (push st [.flowClose f]) f
  else push st [.flowClose f]

/-- SendFlow.cpp:615-630 `onExceptionReport` -/
def excReport (st : St) (f : Nat) : St :=
  closeFlow (push st (if (st.flow f).handler then [.callback f] else [])) f

/-- Session.cpp:796-800 `bindFlow` and SendFlow.cpp:271-279; `m_openingSession` as in `gotoClosed` -/
def bind (st : St) (f s : Nat) : St × List Ev :=
  let st1 := setS st s (fun e => { e with sendFlows := e.sendFlows ++ [f] })
  let st2 := notOpening (setF st1 f (fun e => { e with sess := some s, opening := none })) f
  (push (interestDown st2 (st.flow f).opening) (abandoned st (st.flow f).opening), [.bound f s ((st.sess s).state = .opened)])

/-- SendFlow.cpp:261-283 `onSessionDidOpen` -/
def flowDidOpen (C : Crypto) (st : St) (f s : Nat) : St × List Ev :=
  if (st.flow f).sess.isSome then (st, []) else
  if (st.flow f).opening = none ∨ (st.flow f).opening = some s ∨ ((st.sess s).cert.any (fun c => C.sel c (st.flow f).epd)) = true then bind st f s
  else (st, [])

/-- SendFlow.cpp:285-300 `onSessionWillOpen` -/
def flowWillOpen (st : St) (f s : Nat) : St × List Ev :=
  if (st.flow f).sess.isSome then (st, []) else
  match (st.flow f).opening with
  | some o =>
    if o ≠ s ∧ (st.sess o).state = .ihello then
      let st1 := setF st f (fun e => { e with opening := some s })
      let st2 := setS st1 s (fun e => { e with interest := e.interest + 1 })
      (push (interestDown st2 (some o)) (abandoned st (some o)), [.moved f o s])
    else (st, [])
  | none => (st, [])

/-- RTMFP.cpp:443-449 `onSessionDidOpen` -/
def didOpen (st : St) (s : Nat) : St :=
  push { st with openingS := st.openingS.filter (· ≠ s)
                 byAddr := upd st.byAddr (st.sess s).addr (some s)
                 byEpd := upd st.byEpd (st.sess s).epd (some s) }
    [.tellOpened s st.openingF]

/-- Session.cpp:543-556 `setOpen`. The early packets that it replays are received right after (they belong to sessions that this end initiated, whose
`setOpen` is the last thing their task does): here they are taken out and reported, and what they bring are the following steps. -/
def setOpen (C : Crypto) (st : St) (s tx : Nat) : St × List Ev :=
  let st1 := setS st s (fun e => { e with state := .opened, epd := (e.cert.map C.canon).getD 0, tx := tx, early := [] })
  (didOpen st1 s, [.opened s, .replayed s (st.sess s).early])

/-- Session.cpp:558-575 `setNearclose` -/
def setNearclose (st : St) (s : Nat) : St := push (setState st s .nearclose) [.sendLoop s, .nearTail s]

/-- Session.cpp:577-585 `setFarcloseLinger`, and 2092-2093 -/
def setFarclose (st : St) (s : Nat) : St := push (setState st s .farclose) [.sendLoop s, .farTail s, .ackClose s]

/-- Session.cpp:451-483 `close` -/
def sessClose (st : St) (s : Nat) (orderly : Bool) : St × List Ev :=
  match (st.sess s).state with
  | .unknown | .ihello | .keying => (push st [.abort s], [])
  | .opened => if orderly then (setNearclose st s, []) else (push (queueStartup st) [.abort s], [.closeSent s true])
  | .nearclose | .farclose => if orderly then (st, []) else (push (queueStartup st) [.abort s], [.closeSent s true])
  | .closed => (st, [])

/-- RTMFP.cpp:456-470 `onSessionDidClose` -/
def didClose (st : St) (s : Nat) (release : Bool) : St × List Ev :=
  let e := st.sess s
  let st1 := { st with openingS := st.openingS.filter (· ≠ s)
                       byAddr := if st.byAddr e.addr = some s then upd st.byAddr e.addr none else st.byAddr
                       byEpd := if st.byEpd e.epd = some s then upd st.byEpd e.epd none else st.byEpd }
  if release ∧ s ∈ st.table then
    (push { st1 with table := st.table.filter (· ≠ s) } [.tellOpening s st.openingF, .check], [.released s])
  else (push st1 [.tellOpening s st.openingF, .check], [])

/-- RTMFP.cpp:508-515 `checkShutdownComplete`; `onShutdownComplete`, which it has the platform perform, is taken to be called at once -/
def check (st : St) : St × List Ev :=
  if st.shutdown ∧ st.table = [] ∧ st.startup = 0 ∧ st.done = false then ({ st with done := true }, [.shutdownDone]) else (st, [])

/-- RTMFP.cpp:344-350 `makeSession` -/
def makeSession (st : St) (e : Sess) : St :=
  { st with nS := st.nS + 1, sess := upd st.sess st.nS e, table := st.table ++ [st.nS] }

/-- Session.cpp:430-442 `isOpeningToAddress` -/
def openingTo (e : Sess) (a : Nat) : Bool :=
  match e.state with
  | .ihello => e.addrs.contains a
  | .keying => a = e.addr
  | _ => false

/-- RTMFP.cpp:424-441 `tryRIKeyingRetransmit`: is it a retransmission of what opened a session -/
def isRetransmit (st : St) (r : Req) : Bool :=
  match st.byAddr r.addr with
  | some s =>
    let e := st.sess s
    !e.initiator && r.ifc = e.ifc && r.tx = e.tx && r.skic = e.skic
  | none => false

/-- RTMFP.cpp:664-690: the rest of a keying request's last task -/
def respond (C : Crypto) (st : St) (r : Req) : St × List Ev :=
  let glare := st.openingS.find? (fun g => openingTo (st.sess g) r.addr)
  if glare.isSome ∧ C.nearWins r.cert then (st, []) else
  let ab := match glare with
    | some g => if (st.sess g).state = .keying ∧ ((st.sess g).cert.any (fun c => C.overrides r.cert c)) = true then [Frame.abort g] else []
    | none => []
  let s := st.nS
  let st1 := makeSession st { Sess.new with cert := some r.cert, addr := r.addr, ifc := r.ifc, skic := r.skic }
  setOpen C (push st1 ab) s r.tx

/-- RTMFP.cpp:650-662: the beginning of that task -/
def iikeying (C : Crypto) (st : St) (r : Req) : St × List Ev :=
  if st.shutdown then (st, []) else
  if isRetransmit st r then (st, []) else
  match st.byAddr r.addr with
  | some o => if ((st.sess o).cert.any (fun c => C.overrides r.cert c)) = true then (push st [.abort o, .respond r], []) else (st, [])
  | none => (push st [.respond r], [])

/-- RTMFP.cpp:362-377 `findOpeningSessionByEPD` -/
def findOpening (C : Crypto) (st : St) (epd : Nat) (exclude : Option Nat) : Option Nat :=
  st.openingS.find? (fun g =>
    (match exclude with | some x => (st.sess g).state = .keying && g ≠ x | none => true)
    && ((st.sess g).epd = epd || (st.sess g).cert.any (fun c => C.sel c epd)))

/-- Session.cpp:1273-1300: the first task on the main thread after a responder hello -/
def rhello (C : Crypto) (st : St) (s cert addr ifc cookie : Nat) : St × List Ev :=
  if (st.sess s).state ≠ .ihello then (st, []) else
  let merge := match st.byEpd (C.canon cert) with
    | some x => if ((st.sess x).cert.any (fun c => C.sel c (st.sess s).epd)) = true then some x else none
    | none => none
  match merge with
  | some x => (didOpen (push st [.abort s]) x, [])
  | none =>
    match findOpening C st (C.canon cert) (some s) with
    | some x => (push st [.tellWillOpen x st.openingF, .abort s], [])
    | none => ({ setS st s (fun e => { e with state := .keying, ifc := ifc, addr := addr, cookie := cookie, cert := some cert }) with
                   tasks := st.tasks ++ [.keygenW s] }, [])

/-- one frame, already taken off the stack -/
def exec (C : Crypto) (st : St) : Frame → St × List Ev
  | .user => (st, [])
  | .sessClose s orderly => sessClose st s orderly
  -- Session.cpp:533-541
  | .abort s => if (st.sess s).state = .closed then (st, []) else (push (setState st s .closed) [.sendLoop s, .didClose s true], [])
  -- Session.cpp:512-517
  | .sendLoop s =>
    match (st.sess s).sendFlows with
    | [] => (push st [.recvLoop s], [])
    | f :: _ => (push st [.flowDidClose f s, .sendCheck s f, .sendLoop s], [])
  | .sendCheck s f =>
    if f ∈ (st.sess s).sendFlows then ({ st with stack := [], crashed := true }, [.assertFailed s f]) else (st, [])
  -- Session.cpp:523-528, RecvFlow.cpp:179-196
  | .recvLoop s =>
    match (st.sess s).recvFlows with
    | [] => (st, [])
    | r :: _ =>
      let st1 := setR st r (fun e => { e with isOpen := false, handler := false })
      if (st.rflow r).isOpen ∧ (st.rflow r).handler then (push st1 [.user, .recvErase s r, .recvLoop s], [.complete r true])
      else (push st1 [.recvErase s r, .recvLoop s], [])
  | .recvErase s r => (setS st s (fun e => { e with recvFlows := e.recvFlows.filter (· ≠ r) }), [])
  -- Session.cpp:563-574
  | .nearTail s => (push { st with timers := st.timers ++ [.near s] } [.didClose s false], [])
  -- Session.cpp:582-584
  | .farTail s => (push { st with timers := st.timers ++ [.far s] } [.didClose s false], [])
  | .ackClose s => (queueStartup st, [.closeSent s true])
  | .didClose s release => didClose st s release
  -- RTMFP.cpp:467
  | .tellOpening _ [] => (st, [])
  | .tellOpening s (f :: fs) => (push st [.flowDidClose f s, .tellOpening s fs], [])
  -- SendFlow.cpp:302-309
  | .flowDidClose f s =>
    if (st.flow f).sess = some s ∨ ((st.flow f).sess = none ∧ (st.flow f).opening = some s) then (excReport st f, []) else (st, [])
  -- SendFlow.cpp:194-198
  | .flowClose f =>
    if (st.flow f).sess.isSome ∧ sessOpen st f = false then (gotoClosed (push st [.notOpening f]) f, [])
    else (push st [.notOpening f], [])
  | .notOpening f => (notOpening st f, [])
  | .callback f => (push st [.user], [.exception f])
  -- RTMFP.cpp:448
  | .tellOpened _ [] => (st, [])
  | .tellOpened s (f :: fs) => flowDidOpen C (push st [.tellOpened s fs]) f s
  -- RTMFP.cpp:453. Simplified: the flows are those of the list when the loop began; the loop's own calls do not change the list
  | .tellWillOpen _ [] => (st, [])
  | .tellWillOpen s (f :: fs) => flowWillOpen (push st [.tellWillOpen s fs]) f s
  | .respond r => respond C st r
  -- RTMFP.cpp:117-120
  | .closeAll [] _ => (st, [])
  | .closeAll (s :: ss) orderly => (push st [.sessClose s orderly, .closeAll ss orderly], [])
  | .abortOpening => (push st [.abortAll st.openingS], [])
  -- RTMFP.cpp:122-125
  | .abortAll [] => (st, [])
  | .abortAll (s :: ss) => (push st [.abort s, .abortAll ss], [])
  | .check => check st

/-- a task's own work, already taken off the list; `ok`: what the crypto adapter makes of it (never calling back is `false` too) -/
def runTask (C : Crypto) (st : St) (t : Task) (ok : Bool) : St × List Ev :=
  match t with
  | .shutdown imm => (push st [.closeAll st.table (!imm), .abortOpening, .check], [])
  | .rhelloW s cert addr ifc cookie => (if ok then { st with tasks := st.tasks ++ [.rhello s cert addr ifc cookie] } else st, [])
  | .rhello s cert addr ifc cookie => rhello C st s cert addr ifc cookie
  -- Session.cpp:1300-1313; `startIIKeying`, which follows success, only sends packets
  | .keygenW s => (if ok then st else { st with tasks := st.tasks ++ [.abort s] }, [])
  | .abort s => (push st [.abort s], [])
  | .cookieW s => (if ok then st else { st with tasks := st.tasks ++ [.abort s] }, [])
  | .rikeyingW s tx => (if ok then { st with tasks := st.tasks ++ [.rikeying s tx] } else st, [])
  -- Session.cpp:1380-1385
  | .rikeying s tx => if (st.sess s).state = .keying then setOpen C st s tx else (st, [])
  -- RTMFP.cpp:639
  | .iikeyingW r => (let st1 := { st with waiting := st.waiting - 1 }
                     if ok then { st1 with tasks := st.tasks ++ [.iikeyingW2 r] } else st1, [])
  | .iikeyingW2 r => (if ok then { st with tasks := st.tasks ++ [.iikeying r] } else st, [])
  | .iikeying r => iikeying C st r

/-- on which kind of thread a task runs: those of the crypto threads only touch the list of tasks and `m_waitingPerformCount`, so they may run at any time -/
def Task.onWorker : Task → Bool
  | .rhelloW .. | .keygenW _ | .cookieW _ | .rikeyingW .. | .iikeyingW _ | .iikeyingW2 _ => true
  | _ => false

/-- what comes of a keying request's cookie (RTMFP.cpp:295-326 `checkCookie`) -/
inductive Cookie where
  | good | mismatch | bad
deriving DecidableEq, Repr

/-- the steps -/
inductive Op where
  -- the library's own
  | tick                                              -- run the frame on top
  | ret                                               -- a callback returns
  -- calls by the application
  | openFlow (epd : Nat)                              -- RTMFP::openFlow
  | openFlowVia (f : Nat)                             -- Flow::openFlow of a sending flow
  | openFlowViaR (r : Nat)                            -- Flow::openFlow, RecvFlow::openReturnFlow of a receiving flow
  | setHandler (f : Nat)                              -- onException = …
  | write (f : Nat)                                   -- SendFlow::write
  | close (f : Nat)                                   -- SendFlow::close
  | closeSession (f : Nat)                            -- Flow::closeSession of a sending flow
  | closeSessionR (r : Nat)                           -- Flow::closeSession of a receiving flow
  | setComplete (r : Nat)                             -- onComplete = …
  | closeR (r : Nat)                                  -- RecvFlow::close
  | addAddress (f a : Nat)                            -- SendFlow::addCandidateAddress
  | shutdown (immediately : Bool)                     -- RTMFP::shutdown
  -- timers, tasks, packets
  | timer (i : Nat) (late : Bool)                     -- a timer fires; `late` if a near-close's limit has passed
  | task (i : Nat) (ok : Bool)                        -- a task runs
  | startupWritable                                   -- StartupSession::onInterfaceWritable
  | startupPacket                                     -- any other packet of the startup session is queued (IHello, RHello, RIKeying, …)
  | drained (f : Nat)                                 -- a closing flow's last fragment is acknowledged
  | excChunk (s f : Nat)                              -- Session::onExceptionChunk
  | idle (s : Nat)                                    -- Session::onIdleAlarm when due
  | unanswered (s : Nat)                              -- Session::onTimeoutAlarm when the retransmit limit has passed
  | redirect (s a : Nat)                              -- an address from a redirect
  | rhello (s cert addr ifc cookie : Nat)             -- a responder hello for the session
  | cookieChange (s old new : Nat)                    -- Session::onCookieChangeChunk
  | rikeying (s tx : Nat)                             -- Session::onRIKeying
  | iikeying (r : Req) (c : Cookie) (decodes : Bool)  -- RTMFP::onIIKeying
  | garbage (s p : Nat)                               -- a packet for the session that can't be decrypted
  | closeChunk (s : Nat)                              -- Session::onCloseChunk
  | closeAckChunk (s : Nat)                           -- Session::onCloseAckChunk
  | userData (s : Nat) (offer : Bool)                 -- Session::onUserData for a flow not known yet; `offer`: it is presented to the application
  | recvDone (r : Nat)                                -- a receiving flow completes
  | recvLinger (r : Nat)                              -- RecvFlow.cpp:245-252: its linger ends
  | moveTo (s a ifc : Nat)                            -- Session::onMobilityCheckReply: a valid reply from another address
deriving DecidableEq, Repr

/-- the application can call: no library code is running, or it runs in a callback -/
def appTurn (st : St) : Bool :=
  match st.stack with
  | [] => true
  | .user :: _ => true
  | _ => false

/-- RTMFP.cpp:101-103, Session.cpp:412-428 `initiateToEPD` -/
def initiate (st : St) (epd : Nat) : St :=
  let st1 := makeSession st { Sess.new with state := .ihello, initiator := true, epd := epd }
  { st1 with openingS := st1.openingS ++ [st.nS], timers := st1.timers ++ [.ultimate st.nS] }

/-- RTMFP.cpp:106-108 -/
def waitFor (st : St) (f s : Nat) : St :=
  setS { setF st f (fun e => { e with opening := some s }) with openingF := st.openingF ++ [f] } s (fun e => { e with interest := e.interest + 1 })

/-- RTMFP.cpp:89, Flow.cpp:208: a flow is made -/
def newFlow (st : St) (epd : Nat) : St := { st with nF := st.nF + 1, flow := upd st.flow st.nF (SFlow.new epd) }

/-- calls by the application -/
def appCall (C : Crypto) (st : St) : Op → St × List Ev
  -- RTMFP.cpp:82-110 (metadata not too long)
  | .openFlow epd =>
    if st.shutdown then (st, []) else
    let f := st.nF
    let st := newFlow st epd
    match st.byEpd epd with
    | some s => ((flowDidOpen C st f s).1, .flowOpened f epd :: (flowDidOpen C st f s).2)
    | none =>
      match findOpening C st epd none with
      | some s => (waitFor st f s, [.flowOpened f epd])
      | none => (waitFor (initiate st epd) f st.nS, [.flowOpened f epd])
  -- Flow.cpp:201-212
  | .openFlowVia g =>
    match (st.flow g).sess with
    | some s =>
      if (st.sess s).state = .opened then
        let res := flowDidOpen C (newFlow st (st.sess s).epd) st.nF s
        (res.1, .flowOpened st.nF (st.sess s).epd :: res.2)
      else (st, [])
    | none => (st, [])
  | .openFlowViaR r =>
    if r < st.nR ∧ (st.sess (st.rflow r).sess).state = .opened then
      let s := (st.rflow r).sess
      let res := flowDidOpen C (newFlow st (st.sess s).epd) st.nF s
      (res.1, .flowOpened st.nF (st.sess s).epd :: res.2)
    else (st, [])
  | .setHandler f => if f < st.nF then (setF st f (fun e => { e with handler := true }), [.handlerSet f]) else (st, [])
  -- SendFlow.cpp:146-152
  | .write f => if f < st.nF ∧ (st.flow f).isOpen then (setF st f (fun e => { e with wrote := true }), []) else (st, [])
  | .close f => if f < st.nF then (closeFlow st f, [.closeCalled f]) else (st, [])
  -- Flow.cpp:38-42
  | .closeSession f =>
    match (st.flow f).sess with
    | some s => sessClose st s true
    | none => (st, [])
  | .closeSessionR r => if r < st.nR then sessClose st (st.rflow r).sess true else (st, [])
  | .setComplete r => if r < st.nR then (setR st r (fun e => { e with handler := true }), [.completeSet r]) else (st, [])
  -- RecvFlow.cpp:71-90
  | .closeR r => if r < st.nR then (setR st r (fun e => { e with isOpen := false, handler := false }), []) else (st, [])
  -- SendFlow.cpp:69-73, Session.cpp:758-766
  | .addAddress f a =>
    match (st.flow f).opening with
    | some o =>
      if (st.sess o).state = .ihello ∧ a ∉ (st.sess o).addrs then (setS st o (fun e => { e with addrs := e.addrs ++ [a] }), []) else (st, [])
    | none => (st, [])
  -- RTMFP.cpp:112-130
  | .shutdown imm => ({ st with shutdown := true, tasks := st.tasks ++ [.shutdown imm] }, [])
  | _ => (st, [])

/-- timers, tasks, packets -/
def outside (C : Crypto) (st : St) : Op → Option (St × List Ev)
  | .timer i late =>
    match st.timers[i]? with
    | some (.ultimate s) => -- Session.cpp:424-427
      let st := { st with timers := st.timers.eraseIdx i }
      some (if (st.sess s).state.rank < SState.opened.rank then (push st [.abort s], []) else (st, []))
    | some (.near s) => -- Session.cpp:565-573
      if (st.sess s).state ≠ .nearclose ∨ late then some (push { st with timers := st.timers.eraseIdx i } [.abort s], [])
      else some (queueStartup st, [.closeSent s false])
    | some (.far s) => some (push { st with timers := st.timers.eraseIdx i } [.abort s], []) -- Session.cpp:583
    | some (.linger f) => -- SendFlow.cpp:606
      some (gotoClosed { st with timers := st.timers.eraseIdx i } f, [])
    | none => none
  -- Session.cpp:161-170
  | .startupWritable =>
    if st.scheduled = false then none else
    if st.startup = 0 then some (push { st with scheduled := false } [.check], []) else some ({ st with startup := st.startup - 1 }, [])
  | .startupPacket => some (queueStartup st, [])
  -- SendFlow.cpp:602-607
  | .drained f =>
    if (st.flow f).state = .closing ∧ sessOpen st f then
      some ({ setF st f (fun e => { e with state := .linger }) with timers := st.timers ++ [.linger f] }, [])
    else none
  -- Session.cpp:1978-1994, from onChunk, which requires the session open
  | .excChunk s f => if (st.sess s).state = .opened ∧ f ∈ (st.sess s).sendFlows then some (excReport st f, []) else none
  -- Session.cpp:670-685
  | .idle s => if (st.sess s).state = .opened ∧ (st.sess s).sendFlows = [] ∧ (st.sess s).recvFlows = [] then some (sessClose st s true) else none
  -- Session.cpp:1029-1045
  | .unanswered s => if (st.sess s).state = .opened then some (sessClose st s true) else none
  -- RTMFP.cpp:705-713, Session.cpp:758-766
  | .redirect s a =>
    if (st.sess s).state = .ihello ∧ (st.sess s).addrs.length < REDIRECT_THRESHOLD ∧ a ∉ (st.sess s).addrs then
      some (setS st s (fun e => { e with addrs := e.addrs ++ [a] }), [])
    else some (st, [])
  -- Session.cpp:1264-1272
  | .rhello s cert addr ifc cookie =>
    if (st.sess s).state = .ihello ∧ C.sel cert (st.sess s).epd then some ({ st with tasks := st.tasks ++ [.rhelloW s cert addr ifc cookie] }, [])
    else some (st, [])
  -- Session.cpp:1318-1341
  | .cookieChange s old new =>
    if (st.sess s).state = .keying ∧ (st.sess s).cookieChanged = false ∧ old = (st.sess s).cookie then
      some ({ setS st s (fun e => { e with cookieChanged := true, cookie := new }) with tasks := st.tasks ++ [.cookieW s] }, [.cookieFollowed s])
    else some (st, [])
  -- Session.cpp:1364-1374
  | .rikeying s tx => if (st.sess s).state = .keying then some ({ st with tasks := st.tasks ++ [.rikeyingW s tx] }, []) else some (st, [])
  -- RTMFP.cpp:604-638
  | .iikeying r c decodes =>
    if st.shutdown then some (st, []) else
    match c with
    | .bad => some (st, [])
    | .mismatch => some (queueStartup st, [.cookieChangeSent])
    | .good =>
      if decodes = false ∨ isRetransmit st r then some (st, []) else
      if st.waiting ≥ MAX_WAITING_PERFORM_COUNT then some (st, []) else
      some ({ st with waiting := st.waiting + 1, tasks := st.tasks ++ [.iikeyingW r] }, [.keyingAccepted])
  -- Session.cpp:1557-1569
  | .garbage s p =>
    if (st.sess s).state = .keying then
      some (setS st s (fun e => { e with early := (e.early ++ [p]).drop ((e.early ++ [p]).length - MAX_EARLY_PACKETS) }), [])
    else some (st, [])
  -- Session.cpp:2085-2098
  | .closeChunk s =>
    match (st.sess s).state with
    | .opened => some (setFarclose st s, [])
    | .nearclose | .farclose => some (queueStartup st, [.closeSent s true])
    | _ => some (st, [])
  -- Session.cpp:2100-2117
  | .closeAckChunk s =>
    match (st.sess s).state with
    | .opened => some (push (queueStartup st) [.abort s], [.closeSent s true])
    | .nearclose | .farclose => some (push st [.abort s], [])
    | _ => some (st, [])
  -- Session.cpp:1390-1433
  | .userData s offer =>
    if (st.sess s).state = .opened then
      let r := st.nR
      let st := setS { st with nR := r + 1, rflow := upd st.rflow r ⟨s, offer, false⟩ } s (fun e => { e with recvFlows := e.recvFlows ++ [r] })
      some (if offer then (push st [.user], [.recvFlow r s]) else (st, []))
    else none
  -- RecvFlow.cpp:188-196 with error = false, from tryDelivery while the session is open
  | .recvDone r =>
    if r < st.nR ∧ (st.sess (st.rflow r).sess).state = .opened ∧ (st.rflow r).isOpen then
      let st1 := setR st r (fun e => { e with isOpen := false, handler := false })
      some (if (st.rflow r).handler then (push st1 [.user], [.complete r false]) else (st1, []))
    else none
  -- RecvFlow.cpp:245-252
  | .recvLinger r =>
    if r < st.nR then some (setS st (st.rflow r).sess (fun e => { e with recvFlows := e.recvFlows.filter (· ≠ r) }), []) else none
  -- Session.cpp:1443-1476, RTMFP.cpp:472-477, from onChunk, which requires the session open. The callbacks `onFarAddressDidChange` that follow are the application's steps
  | .moveTo s a ifc =>
    if (st.sess s).state = .opened then
      let old := (st.sess s).addr
      let st1 := setS st s (fun e => { e with addr := a, ifc := ifc })
      let m := if st.byAddr old = some s then upd st.byAddr old none else st.byAddr
      some (push { st1 with byAddr := upd m a (some s) } [.user], [])
    else none
  | _ => none

/-- one step while no assertion has failed; `none` if it can't happen now -/
def stepOk (C : Crypto) (st : St) (op : Op) : Option (St × List Ev) :=
  match op with
  | .tick =>
    match st.stack with
    | [] => none
    | .user :: _ => none
    | fr :: rest => some (exec C { st with stack := rest } fr)
  | .ret =>
    match st.stack with
    | .user :: rest => some ({ st with stack := rest }, [])
    | _ => none
  | .openFlow _ | .openFlowVia _ | .openFlowViaR _ | .setHandler _ | .write _ | .close _ | .closeSession _ | .closeSessionR _ | .setComplete _ | .closeR _
  | .addAddress _ _ | .shutdown _ => if appTurn st then some (appCall C st op) else none
  | .task i ok =>
    match st.tasks[i]? with
    | some t => if t.onWorker then some (runTask C { st with tasks := st.tasks.eraseIdx i } t ok)
                else if st.stack = [] then some (runTask C { st with tasks := st.tasks.eraseIdx i } t ok) else none
    | none => none
  | _ => if st.stack = [] then outside C st op else none

/-- one step -/
def step (C : Crypto) (st : St) (op : Op) : Option (St × List Ev) := if st.crashed then none else stepOk C st op

/-- histories from a state -/
inductive Run (C : Crypto) (st0 : St) : List Op → St → List Ev → Prop
  | nil : Run C st0 [] st0 []
  | step {ops : List Op} {st st' : St} {evs ev : List Ev} {op : Op} : Run C st0 ops st evs → step C st op = some (st', ev) → Run C st0 (ops ++ [op]) st' (evs ++ ev)

end Inst
end Rtmfp
