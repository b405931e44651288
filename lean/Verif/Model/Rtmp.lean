import Verif.Base

/-!
# Model of `test/RTMP.cpp`: the handshake, the chunk stream, the send queues

The application sets its callbacks before `init` and may call the public functions from inside of them, and from inside of the `onFinished`
of the receipts: what it does is `App.react`, a function of everything that has happened so far. Everything that can be observed, and some
things that are only there to be talked about, is appended to `St.log`.

Reading of memory that is no longer there and following of null pointers is `St.wild`; nothing happens after it.
-/

namespace Rtmfp.Rtmp

/-- test/RTMP.hpp:35 `State` -/
inductive Phase
  | unknown
  | uninit
  | versionSent
  | ackSent
  | opn
  | closing
  | error
deriving DecidableEq, Repr

/-- the order of `State`, test/RTMP.hpp:35 -/
def Phase.rank : Phase → Nat
  | .unknown => 0
  | .uninit => 1
  | .versionSent => 2
  | .ackSent => 3
  | .opn => 4
  | .closing => 5
  | .error => 6

/-- The public functions (test/RTMP.hpp:40-66): `init`, `setChunkSize`, `write`, `close`, `setSimpleMode`, `setPaused`. -/
inductive Call
  | init (server : Bool)
  | chunkSize (n : Nat)
  | write (pri : Nat) (sid : UInt32) (type : UInt8) (ts : UInt32) (payload : Bytes)
  | close
  | simple (b : Bool)
  | pause (b : Bool)
deriving DecidableEq, Repr

/-- What happens: the callbacks of the application (`onopen`, `onmessage`, `onerror`, `onFinished(true)` and `onFinished(false)` of a receipt),
what the platform adapter is asked for (`writeBytes`, `notifyWhenWritable`, `onClientClosed`, `doLater`), the application's calls, and for
talking: a message was taken by `write`, it was removed from its queue by `trimSendQueues`, or all of it was put into the output buffer. -/
inductive Ev
  | opened
  | message (sid : UInt32) (type : UInt8) (ts : UInt32) (payload : Bytes)
  | failed
  | gone (id : Nat)
  | done (id : Nat)
  | put (b : Bytes)
  | ask
  | released
  | later
  | did (c : Call)
  | queued (pri id : Nat) (sid : UInt32) (type : UInt8) (ts : UInt32) (payload : Bytes)
  | dropped (pri id : Nat) (sid : UInt32) (type : UInt8) (ts : UInt32) (payload : Bytes)
  | finished (pri id : Nat) (sid : UInt32) (type : UInt8) (ts : UInt32) (payload : Bytes)
deriving DecidableEq, Repr

/-- What is known of a receipt when `trimSendQueues` asks it (src/WriteReceipt.cpp:22-45): it stays, it is abandoned by this very call
(and its `onFinished` called), it was before. -/
inductive Fate
  | stays
  | now
  | before
deriving DecidableEq, Repr

/-- The application and its surroundings, given the log: what it calls in a callback; what its receipts say; `getCurrentTime`;
`timeAsTimestamp(getInstanceAge())`; the values of the public members `outstandingThresh` and `minOutstandingThresh` (which `measureRTT`
changes as well, by a computation with doubles that isn't modelled); how many more messages than there are in a queue are looked at by
`trimSendQueues` before the loop is said to be without end. -/
structure App where
  react : List Ev → List Call
  fate : List Ev → Nat → Fate
  now : List Ev → Int
  stamp : List Ev → UInt32
  thresh : List Ev → UInt64
  minThresh : List Ev → UInt64
  patience : Nat

/-- test/RTMP.hpp:75-83 `ChunkStreamState` -/
structure Cs where
  sid : UInt32
  ts : UInt32
  delta : UInt32
  len : Nat
  type : UInt8
  initted : Bool
  deltaValid : Bool
deriving DecidableEq, Repr

/-- test/RTMP.hpp:76-82: the initial values -/
def Cs.blank : Cs := ⟨0, 0, 0, 0, 0, false, false⟩

/-- test/RTMP.hpp:85-87 -/
structure RecvCs where
  h : Cs
  payload : Bytes
deriving DecidableEq, Repr

/-- test/RTMP.hpp:89-92. `lastUsed` is only looked at if `initted`. -/
structure SendCs where
  h : Cs
  lastUsed : Int
  busy : Bool
deriving DecidableEq, Repr

/-- test/RTMP.cpp:91-110 `Message`; `id` is the number of the write, for its receipt; `cs` is `none` for −1 -/
structure Msg where
  id : Nat
  sid : UInt32
  type : UInt8
  ts : UInt32
  payload : Bytes
  offset : Nat
  cs : Option Nat
deriving DecidableEq, Repr

/-- The members for sending (test/RTMP.hpp:136-171). `cap` is the number of nodes of each queue's list (include/rtmfp/List.hpp:350-388: 14,
and 16 more when there is no free one). `anchor`: `m_rttAnchor` is not negative (for a platform whose time isn't). -/
structure Tx where
  size : Nat
  simple : Bool
  streams : Nat → SendCs
  queues : Nat → List Msg
  cap : Nat → Nat
  nextId : Nat
  out : Bytes
  sent : UInt64
  acked : UInt64
  lastAckRecv : UInt32
  peerBw : UInt64
  bwType : UInt8
  bwAck : UInt64
  lastWin : UInt32
  rttAck : UInt64
  rttPos : UInt64
  anchor : Bool

/-- The members for receiving (test/RTMP.hpp:135-162). A chunk stream that isn't in the map is one that isn't initialized. -/
structure Rx where
  streams : Nat → RecvCs
  size : Nat
  input : Bytes
  received : UInt64
  window : UInt64
  lastAckSent : UInt64

/-- All of it. `cbs`: the callbacks are set; `resumes`: how many tasks of `setPaused` the platform adapter has not done yet. -/
structure St where
  phase : Phase
  server : Bool
  scheduled : Bool
  trimPending : Bool
  paused : Bool
  resumes : Nat
  cbs : Bool
  wild : Bool
  tx : Tx
  rx : Rx
  log : List Ev

/-- test/RTMP.cpp:12-18, 113-136; test/RTMP.hpp:148-172 -/
def init : St :=
  { phase := .unknown, server := false, scheduled := false, trimPending := false, paused := false, resumes := 0, cbs := true, wild := false
    tx := { size := 1024, simple := false, streams := fun _ => ⟨Cs.blank, 0, false⟩, queues := fun _ => [], cap := fun _ => 14, nextId := 0, out := [],
            sent := 0, acked := 0, lastAckRecv := 0, peerBw := UInt64.ofNat (2 ^ 64 - 1), bwType := 1, bwAck := 11200, lastWin := 0, rttAck := 2800,
            rttPos := 0, anchor := false }
    rx := { streams := fun _ => ⟨Cs.blank, []⟩, size := 128, input := [], received := 0, window := 11200, lastAckSent := 0 }
    log := [] }

/-- appends to the record -/
def emit (st : St) (e : Ev) : St := { st with log := st.log ++ [e] }

/-- a table with one entry changed -/
def put (f : Nat → α) (i : Nat) (a : α) : Nat → α := fun j => if j = i then a else f j

/-! ## Putting chunks into the output buffer -/

/-- test/RTMP.cpp:39-44 `_pushu24` -/
def u24 (v : UInt32) : Bytes := [((v >>> 16) &&& 0xff).toUInt8, ((v >>> 8) &&& 0xff).toUInt8, (v &&& 0xff).toUInt8]

/-- test/RTMP.cpp:46-52 `_pushu32`, 62-68 `_setu32` -/
def u32 (v : UInt32) : Bytes := [((v >>> 24) &&& 0xff).toUInt8, ((v >>> 16) &&& 0xff).toUInt8, ((v >>> 8) &&& 0xff).toUInt8, (v &&& 0xff).toUInt8]

/-- test/RTMP.cpp:54-60 `_pushu32le` -/
def u32le (v : UInt32) : Bytes := [(v &&& 0xff).toUInt8, ((v >>> 8) &&& 0xff).toUInt8, ((v >>> 16) &&& 0xff).toUInt8, ((v >>> 24) &&& 0xff).toUInt8]

/-- test/RTMP.cpp:70-89 `_pushChunkBasicHeader` -/
def basic (ct : UInt8) (cs : Nat) : Bytes :=
  if cs > 319 then [ct ||| 1, UInt8.ofNat ((cs - 64) &&& 0xff), UInt8.ofNat (((cs - 64) >>> 8) &&& 0xff)]
  else if cs > 63 then [ct ||| 0, UInt8.ofNat ((cs - 64) &&& 0xff)]
  else [ct ||| UInt8.ofNat (cs &&& 0x3f)]

/-- test/RTMP.cpp:361-377: the type of the first chunk of a message, as its bits (test/RTMP.hpp:23-28) -/
def chunkType (simple : Bool) (h : Cs) (sid : UInt32) (type : UInt8) (ts : UInt32) (len : Nat) : UInt8 :=
  if h.initted ∧ ts - h.ts ≤ 0x7fffffff ∧ simple = false then
    if sid = h.sid then
      if type = h.type ∧ len = h.len then
        if h.deltaValid ∧ ts = h.ts + h.delta then 0xc0 else 0x80
      else 0x40
    else 0
  else 0

/-- test/RTMP.cpp:393-413: what follows the basic header, by the type of the chunk -/
def header (ct : UInt8) (field : UInt32) (len : Nat) (type : UInt8) (sid : UInt32) : Bytes :=
  if ct = 0 then u24 field ++ u24 (UInt32.ofNat len) ++ [type] ++ u32le sid
  else if ct = 0x40 then u24 field ++ u24 (UInt32.ofNat len) ++ [type]
  else if ct = 0x80 then u24 field
  else []

/-- test/RTMP.cpp:356-425 `queueStartChunk` -/
def startChunk (t : Tx) (now : Int) (cs : Nat) (sid : UInt32) (type : UInt8) (ts : UInt32) (payload : Bytes) : Tx × Nat :=
  let h := (t.streams cs).h
  let ct := chunkType t.simple h sid type ts payload.length
  let eff := if ct = 0 then ts else ts - h.ts
  let ext := if eff ≥ 0xffffff then eff else 0
  let field := if ext ≠ 0 then 0xffffff else eff
  let amount := min payload.length t.size
  ({ t with
      streams := put t.streams cs ⟨⟨sid, ts, eff, payload.length, type, true, decide (ct ≠ 0)⟩, now, decide (amount < payload.length)⟩
      out := t.out ++ (basic ct cs ++ header ct field payload.length type sid ++ (if ext ≠ 0 then u32 ext else []) ++ payload.take amount) }, amount)

/-- test/RTMP.cpp:427-447 `queueNextChunk` -/
def nextChunk (t : Tx) (cs : Nat) (payload : Bytes) (cursor : Nat) : Tx × Nat :=
  let s := t.streams cs
  let amount := min (s.h.len - cursor) t.size
  ({ t with
      streams := put t.streams cs { s with busy := decide (cursor + amount < s.h.len) }
      out := t.out ++ (basic 0xc0 cs ++ (if s.h.delta ≥ 0xffffff then u32 s.h.delta else []) ++ (payload.drop cursor).take amount) }, amount)

/-- test/RTMP.cpp:449-452 `queueControlMessage` -/
def control (t : Tx) (now : Int) (type : UInt8) (payload : Bytes) : Tx := (startChunk t now 2 0 type 0 payload).1

/-- test/RTMP.cpp:454-459 `queueSetChunkSize` -/
def setChunk (t : Tx) (now : Int) : Tx := control t now 1 (u32 (UInt32.ofNat (t.size &&& 0x7fffffff)))

/-- test/RTMP.cpp:461-466 `queueAbortMessage` -/
def abortChunk (t : Tx) (now : Int) (cs : Nat) : Tx := control t now 2 (u32 (UInt32.ofNat (cs &&& 0xffffff)))

/-- test/RTMP.cpp:491-506 `queueWindowAckSize`, `refreshWindowAckSize` -/
def refreshWindow (t : Tx) (now : Int) : Tx :=
  let n := (min t.rttAck t.bwAck).toUInt32
  if n ≠ t.lastWin then { control t now 5 (u32 n) with lastWin := n } else t

/-! ## Callbacks and the end -/

/-- test/RTMP.cpp:553-560 `scheduleWrite` -/
def scheduleWrite (st : St) : St :=
  if st.scheduled = false ∧ st.phase.rank < 6 then { emit st .ask with scheduled := true } else st

/-- test/RTMP.cpp:1043-1048 `clearCallbacks` -/
def clear (st : St) : St := { st with cbs := false }

/-- test/RTMP.cpp:270-276 `setPaused` -/
def setPaused (st : St) (b : Bool) : St :=
  let st := if st.paused ∧ b = false then { emit st .later with resumes := st.resumes + 1 } else st
  { st with paused := b }

/-- The public functions when all is over: test/RTMP.cpp:144-147, 162-165, 185-188, 250-276. None calls the application back. -/
def callOver (st : St) (c : Call) : St :=
  let st := emit st (.did c)
  match c with
  | .init _ | .chunkSize _ | .write .. => st
  | .close => clear st
  | .simple b => { st with tx := { st.tx with simple := b } }
  | .pause b => setPaused st b

/-- a callback when all is over, with everything the application does in it -/
def callbackOver (app : App) (st : St) (e : Ev) : St := (app.react (emit st e).log).foldl callOver (emit st e)

/-- test/RTMP.cpp:526-533: the first of a queue is removed, after an abort if part of it was sent -/
def dropFirst (app : App) (st : St) (pri : Nat) (m : Msg) : St × Bool :=
  let part := match m.cs with
    | some cs => decide (m.offset ≠ 0) && (st.tx.streams cs).busy
    | none => false
  let t := match m.cs with
    | some cs => if part then
        let t := abortChunk st.tx (app.now st.log) cs
        { t with streams := put t.streams cs { t.streams cs with busy := false } }
      else st.tx
    | none => st.tx
  (emit { st with tx := { t with queues := put t.queues pri ((t.queues pri).drop 1) } } (.dropped pri m.id m.sid m.type m.ts m.payload), part)

/-- test/RTMP.cpp:517-534: the loop over one queue when everything is abandoned, all being over -/
def trimAllOne (app : App) (pri : Nat) : (fuel : Nat) → St → St
  | 0, st => st
  | fuel + 1, st =>
    match st.tx.queues pri with
    | [] => st
    | m :: _ =>
      let st := if app.fate st.log m.id = .before then st else callbackOver app st (.gone m.id)
      trimAllOne app pri fuel (dropFirst app st pri m).1

/-- test/RTMP.cpp:508-538 `trimSendQueues(true)`, all being over -/
def trimAll (app : App) (st : St) : St :=
  [7, 6, 5, 4, 3, 2, 1, 0].foldl (fun st pri => trimAllOne app pri (st.tx.queues pri).length st) st

/-- test/RTMP.cpp:1050-1065 `setClosedState`. (`onerror` is called after the callbacks have been cleared.) -/
def setClosed (app : App) (st : St) : St :=
  if st.phase ≠ .error then
    let st1 := emit (trimAll app { st with phase := .error }) .released
    if st1.cbs then callbackOver app (clear st1) .failed else clear st1
  else clear st

/-! ## The public functions -/

/-- test/RTMP.cpp:788-798 `queueHandshake01` -/
def handshake01 (app : App) (st : St) : St :=
  scheduleWrite { st with tx := { st.tx with
    out := st.tx.out ++ ([3] ++ u32 (app.stamp st.log) ++ u32 0 ++ List.replicate 1528 (if st.server then 0x53 else 0x43)) } }

/-- test/RTMP.cpp:144-160 `init` -/
def start (app : App) (st : St) (server : Bool) : St :=
  if st.phase.rank > 0 then st
  else
    let st := { st with server := server, phase := .uninit }
    if server then st else handshake01 app st

/-- test/RTMP.cpp:167-170: what is allowed -/
def clamp (n : Nat) : Nat := if (if n < 128 then 128 else n) > 0x7fffffff then 0x7fffffff else if n < 128 then 128 else n

/-- test/RTMP.cpp:162-178 `setChunkSize` -/
def setSize (app : App) (st : St) (n : Nat) : St :=
  if st.phase.rank > 4 ∨ clamp n = st.tx.size then st
  else if st.phase = .opn then { st with tx := setChunk { st.tx with size := clamp n } (app.now st.log) }
  else { st with tx := { st.tx with size := clamp n } }

/-- test/RTMP.cpp:540-551 `scheduleTrimSendQueues` -/
def scheduleTrim (st : St) : St := if st.trimPending then st else emit { st with trimPending := true } .later

/-- test/RTMP.cpp:201-205: a message is put at the end of its queue -/
def enqueue (st : St) (pri : Nat) (sid : UInt32) (type : UInt8) (ts : UInt32) (payload : Bytes) : St :=
  emit { st with tx := { st.tx with
      queues := put st.tx.queues pri (st.tx.queues pri ++ [⟨st.tx.nextId, sid, type, ts, payload, 0, none⟩])
      cap := if (st.tx.queues pri).length = st.tx.cap pri then put st.tx.cap pri (st.tx.cap pri + 16) else st.tx.cap
      nextId := st.tx.nextId + 1 } } (.queued pri st.tx.nextId sid type ts payload)

/-- test/RTMP.cpp:207-208 -/
def wake (st : St) : St := if st.phase = .opn then scheduleWrite st else st

/-- test/RTMP.cpp:185-213 `write`; a priority is one of the eight -/
def write (st : St) (pri : Nat) (sid : UInt32) (type : UInt8) (ts : UInt32) (payload : Bytes) : St :=
  if st.phase.rank ≥ 5 ∨ payload.length > 2 ^ 24 - 1 ∨ type ∈ [1, 2, 3, 5, 6] ∨ pri ≥ 8 then st
  else scheduleTrim (wake (enqueue st pri sid type ts payload))

/-- test/RTMP.cpp:250-263 `close` -/
def close (app : App) (st : St) : St :=
  let st := clear st
  if st.phase = .opn then scheduleWrite { st with phase := .closing }
  else if st.phase = .closing then st
  else setClosed app st

/-- The public functions. -/
def call (app : App) (st : St) (c : Call) : St :=
  let st := emit st (.did c)
  match c with
  | .init server => start app st server
  | .chunkSize n => setSize app st n
  | .write pri sid type ts payload => write st pri sid type ts payload
  | .close => close app st
  | .simple b => { st with tx := { st.tx with simple := b } }
  | .pause b => setPaused st b

/-- a callback, with everything the application does in it -/
def callback (app : App) (st : St) (e : Ev) : St := (app.react (emit st e).log).foldl (call app) (emit st e)

/-! ## Writing -/

/-- test/RTMP.cpp:1067-1077 `startRTT` -/
def startRTT (app : App) (st : St) : St :=
  let t := st.tx
  if t.anchor = false ∧ t.sent > t.rttPos then
    let t := { t with anchor := true, rttPos := t.sent, rttAck := min (min 11200 (app.minThresh st.log)) (max 2800 ((t.sent - t.acked) / 4)) }
    { st with tx := refreshWindow t (app.now st.log) }
  else st

/-- test/RTMP.cpp:340-354 `writeRawOutputBuffer` -/
def writeRaw (app : App) (st : St) : St × Bool :=
  if st.tx.out ≠ [] ∧ st.phase.rank < 6 then
    let st := emit { st with tx := { st.tx with out := [], sent := st.tx.sent + UInt64.ofNat st.tx.out.length } } (.put st.tx.out)
    (if st.phase = .opn then startRTT app st else st, true)
  else (st, false)

/-- test/RTMP.cpp:517-534: the loop over one queue, before the end. `first` is a reference to the value in a node of the list: it is stray if
the application has had the list grow, and null if it has had the list emptied (include/rtmfp/List.hpp:86-95). The application's `onFinished`
is not called by `useCountDown`: it is cleared. -/
def trimOne (app : App) (pri : Nat) : (fuel : Nat) → St → (part : Bool) → St × Bool
  | 0, st, part => (if st.tx.queues pri = [] then st else { st with wild := true }, part)
  | fuel + 1, st, part =>
    match st.tx.queues pri with
    | [] => (st, part)
    | m :: _ =>
      if app.fate st.log m.id = .stays then (st, part)
      else
        let st1 := if app.fate st.log m.id = .before then st else callback app st (.gone m.id)
        if st1.tx.cap pri ≠ st.tx.cap pri ∨ st1.tx.queues pri = [] then ({ st1 with wild := true }, part)
        else trimOne app pri fuel (dropFirst app st1 pri m).1 (part || (dropFirst app st1 pri m).2)

/-- test/RTMP.cpp:508-538 `trimSendQueues(false)` -/
def trim (app : App) (st : St) : St × Bool :=
  [7, 6, 5, 4, 3, 2, 1, 0].foldl
    (fun r pri => if r.1.wild then r else trimOne app pri ((r.1.tx.queues pri).length + app.patience) r.1 r.2) (st, false)

/-- test/RTMP.cpp:642-646 `checkFlowControlWritable`; `outstanding` is a `uint32_t` -/
def flowOpen (app : App) (st : St) : Bool :=
  let n := (st.tx.sent - st.tx.acked).toUInt32.toUInt64
  decide (n < st.tx.peerBw) && decide (n < app.thresh st.log) && (decide (st.phase = .opn) || decide (st.phase = .closing))

/-- test/RTMP.cpp:618-635: one turn of the loop; the answer, or the best so far -/
def findTurn (t : Tx) (sid : UInt32) (type : UInt8) (i : Nat) (best : Option Nat) : Nat ⊕ Option Nat :=
  let c := t.streams i
  if c.h.initted = false then .inl i
  else if c.busy then .inr best
  else
    let b := best.getD i
    if sid = c.h.sid ∧ type = c.h.type then .inl i
    else if c.h.sid = sid then
      let b := if (t.streams b).h.sid ≠ sid then i else b
      .inr (some (if c.lastUsed < (t.streams b).lastUsed then i else b))
    else if (t.streams b).h.sid ≠ sid ∧ c.lastUsed < (t.streams b).lastUsed then .inr (some i)
    else .inr (some b)

/-- test/RTMP.cpp:615-639: the loop; `none` if there is no chunk stream to use (the `assert` of line 638) -/
def findLoop (t : Tx) (sid : UInt32) (type : UInt8) : List Nat → (best : Option Nat) → Option Nat
  | [], best => best
  | i :: l, best =>
    match findTurn t sid type i best with
    | .inl i => some i
    | .inr best => findLoop t sid type l best

/-- test/RTMP.cpp:607-640 `findChunkStream` -/
def findChunkStream (t : Tx) (sid : UInt32) (type : UInt8) (len : Nat) : Option Nat :=
  if sid = 0 ∧ type = 4 ∧ len ≤ t.size ∧ (t.streams 2).busy = false then some 2
  else findLoop t sid type (List.range' 3 21) none

/-- test/RTMP.cpp:577-585: a chunk of the first message `m` of a queue is put into the output buffer -/
def chunkOf (app : App) (st : St) (m : Msg) : Option (Tx × Msg) :=
  match m.cs with
  | none =>
    (findChunkStream st.tx m.sid m.type m.payload.length).map fun cs =>
      let r := startChunk st.tx (app.now st.log) cs m.sid m.type m.ts m.payload
      (r.1, { m with cs := some cs, offset := r.2 })
  | some cs =>
    let r := nextChunk st.tx cs m.payload m.offset
    some (r.1, { m with offset := m.offset + r.2 })

/-- test/RTMP.cpp:575-595: a chunk of the first message of this queue is written. `onFinished` may write more (to the end of the queue). -/
def sendOne (app : App) (st : St) (pri : Nat) (m : Msg) : St :=
  match chunkOf app st m with
  | none => { st with wild := true }
  | some (t, m1) =>
    let st := { st with tx := { t with queues := put t.queues pri (m1 :: (t.queues pri).drop 1) } }
    let st :=
      if ((m1.cs.map fun cs => (st.tx.streams cs).busy).getD false) = false then
        let st := callback app (emit st (.finished pri m1.id m1.sid m1.type m1.ts m1.payload)) (.done m1.id)
        { st with tx := { st.tx with queues := put st.tx.queues pri ((st.tx.queues pri).drop 1) } }
      else st
    (writeRaw app st).1

/-- test/RTMP.cpp:572-575: the first queue that isn't empty, from the highest priority -/
def firstOf (t : Tx) : List Nat → Option (Nat × Msg)
  | [] => none
  | pri :: l =>
    match t.queues pri with
    | m :: _ => some (pri, m)
    | [] => firstOf t l

/-- test/RTMP.cpp:562-605 `onWritable` -/
def onWritable (app : App) (st : St) : St :=
  if (writeRaw app st).2 then (writeRaw app st).1
  else if flowOpen app st then
    let r := trim app st
    if r.1.wild then r.1
    else if r.2 ∧ (writeRaw app r.1).2 then (writeRaw app r.1).1
    else
      match firstOf r.1.tx [7, 6, 5, 4, 3, 2, 1, 0] with
      | some (pri, m) => sendOne app r.1 pri m
      | none =>
        let st := if r.1.phase = .closing then setClosed app r.1 else r.1
        { st with scheduled := false }
  else { st with scheduled := false }

/-! ## Reading -/

/-- test/RTMP.cpp:20-27, 29-37 `_readu24`, `_readu32` -/
def readBe (b : Bytes) : UInt32 := b.foldl (fun a c => (a <<< 8) + c.toUInt32) 0

/-- test/RTMP.cpp:898-902: least significant byte first -/
def readLe (b : Bytes) : UInt32 := b.reverse.foldl (fun a c => (a <<< 8) + c.toUInt32) 0

/-- test/RTMP.cpp:468-483 `queueAck`, `sendAck` -/
def sendAck (app : App) (st : St) : St :=
  if st.phase.rank ≥ 4 then
    scheduleWrite { st with tx := control st.tx (app.now st.log) 3 (u32 st.rx.received.toUInt32), rx := { st.rx with lastAckSent := st.rx.received } }
  else st

/-- test/RTMP.cpp:648-660 `onSetChunkSizeControlMessage` -/
def onSetChunkSize (st : St) (p : Bytes) : St × Bool :=
  if p.length < 4 then (st, false)
  else
    let n := readBe (p.take 4)
    if n = 0 ∨ n > 0x7fffffff then (st, false) else ({ st with rx := { st.rx with size := n.toNat } }, true)

/-- test/RTMP.cpp:662-678 `onAbortMessageControlMessage` -/
def onAbort (st : St) (p : Bytes) : St × Bool :=
  if p.length < 4 then (st, false)
  else
    let i := readBe (p.take 4)
    if i < 2 ∨ i > 65599 then (st, false)
    else if (st.rx.streams i.toNat).h.initted = false then (st, false)
    else ({ st with rx := { st.rx with streams := put st.rx.streams i.toNat { st.rx.streams i.toNat with payload := [] } } }, true)

/-- test/RTMP.cpp:680-693, 1079-1104: the acknowledgement and what `measureRTT` does that isn't about time -/
def onAck (st : St) (p : Bytes) : St × Bool :=
  if p.length < 4 then (st, false)
  else
    let ack := readBe (p.take 4)
    let acked := st.tx.acked + (ack - st.tx.lastAckRecv).toUInt64
    (scheduleWrite { st with tx := { st.tx with acked := acked, lastAckRecv := ack, anchor := st.tx.anchor && !decide (acked > st.tx.rttPos) } }, true)

/-- test/RTMP.cpp:695-704 `onWindowAckSizeControlMessage` -/
def onWindowAckSize (app : App) (st : St) (p : Bytes) : St × Bool :=
  if p.length < 4 then (st, false)
  else (sendAck app { st with rx := { st.rx with window := (max (readBe (p.take 4)) 1).toUInt64 } }, true)

/-- test/RTMP.cpp:706-730 `onSetPeerBandwidthControlMessage` -/
def onSetPeerBandwidth (app : App) (st : St) (p : Bytes) : St × Bool :=
  if p.length < 5 then (st, false)
  else
    let n := readBe (p.take 4)
    let type := p.getD 4 0
    if type = 2 ∧ st.tx.bwType ≠ 0 then (st, true)
    else
      let type := if type = 2 then 0 else type
      let t := refreshWindow { st.tx with bwType := type, bwAck := (max (n / 2) 2).toUInt64 } (app.now st.log)
      ({ st with tx := { t with peerBw := if type = 0 ∨ n.toUInt64 < t.peerBw then n.toUInt64 else t.peerBw } }, true)

/-- test/RTMP.cpp:732-786 `onControlMessage`, `onUserMessage`, `onMessageCompleted` -/
def onMessageCompleted (app : App) (st : St) (sid : UInt32) (type : UInt8) (ts : UInt32) (p : Bytes) : St × Bool :=
  if type ∈ [1, 2, 3, 5, 6] then
    if sid ≠ 0 then (st, false)
    else if type = 1 then onSetChunkSize st p
    else if type = 2 then onAbort st p
    else if type = 3 then onAck st p
    else if type = 5 then onWindowAckSize app st p
    else onSetPeerBandwidth app st p
  else (if st.cbs ∧ st.phase.rank < 5 then callback app st (.message sid type ts p) else st, true)

/-- What is found at the beginning of the input: not all of a chunk (0), −1, or a chunk: its chunk stream with what it is to become, and its
number of bytes -/
inductive Parsed
  | more
  | bad
  | chunk (cs : Nat) (c : RecvCs) (n : Nat)
deriving DecidableEq, Repr

/-- test/RTMP.cpp:886-955: from where the length of the message is known. `cur` is behind that; `needed` counts the headers. -/
def parseRest (rx : Rx) (cs : Nat) (ct : UInt8) (remaining needed : Nat) (ts : UInt32) (len : Nat) (type : UInt8) (cur : Bytes) : Parsed :=
  let c := rx.streams cs
  let left := if ct = 0xc0 then len - c.payload.length else len
  let amount := min rx.size left
  if remaining < needed + amount then .more
  else
    let sid := if ct = 0 then readLe (cur.take 4) else c.h.sid
    let cur := if ct = 0 then cur.drop 4 else cur
    if ts ≥ 0xffffff ∧ remaining < needed + amount + 4 then .more
    else
      let n := if ts ≥ 0xffffff then needed + amount + 4 else needed + amount
      let ts' := if ts ≥ 0xffffff then readBe (cur.take 4) else ts
      let cur := if ts ≥ 0xffffff then cur.drop 4 else cur
      let c' :=
        if ct = 0 then { c with h := { c.h with sid := sid, ts := ts', delta := ts', len := len, type := type, initted := true }, payload := [] }
        else if ct = 0x40 then { c with h := { c.h with delta := ts', ts := c.h.ts + ts', len := len, type := type }, payload := [] }
        else if ct = 0x80 then { c with h := { c.h with delta := ts', ts := c.h.ts + ts' }, payload := [] }
        else { c with h := { c.h with delta := ts', ts := if c.payload = [] then c.h.ts + ts' else c.h.ts } }
      .chunk cs { c' with payload := c'.payload ++ cur.take amount } n

/-- test/RTMP.cpp:822-955 `onOpenInput`, up to the chunk -/
def parse (rx : Rx) (bs : Bytes) : Parsed :=
  match bs with
  | [] => .more
  | b0 :: tl =>
    let ct := b0 &&& 0xc0
    let mid := b0 &&& 0x3f
    let needed := 1 + (if mid < 2 then 1 else 0) + (if mid = 1 then 1 else 0) + (if ct = 0 then 11 else if ct = 0x40 then 7 else if ct = 0x80 then 3 else 0)
    if bs.length < needed then .more
    else
      let cs := if mid = 0 then (tl.getD 0 0).toNat + 64 else if mid = 1 then (tl.getD 0 0).toNat + ((tl.getD 1 0).toNat <<< 8) + 64 else mid.toNat
      let cur := if mid = 0 then tl.drop 1 else if mid = 1 then tl.drop 2 else tl
      let h := (rx.streams cs).h
      if h.initted = false ∧ ct ≠ 0 then .bad
      else if ct = 0xc0 then parseRest rx cs ct bs.length needed h.delta h.len h.type cur
      else if ct = 0x80 then parseRest rx cs ct bs.length needed (readBe (cur.take 3)) h.len h.type (cur.drop 3)
      else parseRest rx cs ct bs.length needed (readBe (cur.take 3)) (readBe ((cur.drop 3).take 3)).toNat (cur.getD 6 0) (cur.drop 7)

/-- test/RTMP.cpp:822-965 `onOpenInput`: the bytes consumed, or `none` for −1 -/
def openInput (app : App) (st : St) (bs : Bytes) : St × Option Nat :=
  match parse st.rx bs with
  | .more => (st, some 0)
  | .bad => (st, none)
  | .chunk cs c n =>
    let st := { st with rx := { st.rx with streams := put st.rx.streams cs c } }
    if c.payload.length = c.h.len then
      let r := onMessageCompleted app st c.h.sid c.h.type c.h.ts c.payload
      if r.2 then ({ r.1 with rx := { r.1.rx with streams := put r.1.rx.streams cs { r.1.rx.streams cs with payload := [] } } }, some n)
      else (r.1, none)
    else (st, some n)

/-- test/RTMP.cpp:967-980 `onUninitializedInput` -/
def uninitInput (app : App) (st : St) (bs : Bytes) : St × Option Nat :=
  let v := bs.getD 0 0
  if v < 3 ∨ v ≥ 32 then (st, none)
  else ({ (if st.server then handshake01 app st else st) with phase := .versionSent }, some 1)

/-- test/RTMP.cpp:800-807, 982-991 `queueHandshake2`, `onVersionSentInput` -/
def versionInput (app : App) (st : St) (bs : Bytes) : St × Option Nat :=
  if bs.length < 1536 then (st, some 0)
  else
    ({ scheduleWrite { st with tx := { st.tx with out := st.tx.out ++ (bs.take 4 ++ u32 (app.stamp st.log) ++ (bs.take 1536).drop 8) } } with
        phase := .ackSent }, some 1536)

/-- test/RTMP.cpp:993-1014 `onAckSentInput` -/
def ackInput (app : App) (st : St) (bs : Bytes) : St × Option Nat :=
  if bs.length < 1536 then (st, some 0)
  else
    let t := if st.tx.size ≠ 128 then setChunk st.tx (app.now st.log) else st.tx
    let st := scheduleWrite { st with phase := .opn, tx := refreshWindow t (app.now st.log) }
    (if st.cbs then callback app st .opened else st, some 1536)

/-- test/RTMP.cpp:1016-1041 `onInput` -/
def onInput (app : App) (st : St) (bs : Bytes) : St × Option Nat :=
  match st.phase with
  | .opn | .closing => openInput app st bs
  | .uninit => uninitInput app st bs
  | .versionSent => versionInput app st bs
  | .ackSent => ackInput app st bs
  | .unknown | .error => (st, none)

/-- test/RTMP.cpp:310-325: the loop of `onReceiveBytes` over `buf`; what is left of it, or `none` after an error. Every turn takes at least one
byte: `fuel` is the number of bytes. -/
def loop (app : App) : (fuel : Nat) → St → (buf : Bytes) → St × Option Bytes
  | 0, st, buf => (st, some buf)
  | fuel + 1, st, buf =>
    if buf = [] ∨ st.paused then (st, some buf)
    else
      match onInput app st buf with
      | (st', none) => (setClosed app st', none)
      | (st', some n) => if n = 0 then (st', some buf) else loop app fuel st' (buf.drop n)

/-- test/RTMP.cpp:293-331 `onReceiveBytes`, with `sendAckIfNeeded` (485-489) and `shiftInputBuffer` (809-820) -/
def onReceive (app : App) (st : St) (bytes : Bytes) : St :=
  if st.phase = .unknown ∨ st.phase = .error then setClosed app st
  else
    let st := { st with rx := { st.rx with received := st.rx.received + UInt64.ofNat bytes.length, input := st.rx.input ++ bytes } }
    match loop app st.rx.input.length st st.rx.input with
    | (st, none) => st
    | (st, some rest) =>
      let st := if st.rx.lastAckSent + st.rx.window ≤ st.rx.received then sendAck app st else st
      { st with rx := { st.rx with input := rest } }

/-- What happens to an RTMP: bytes arrive, the stream can be written to, the stream is lost, a task given to `doLater` is done
(`scheduleTrimSendQueues`, `setPaused`), the application calls from outside of callbacks -/
inductive Op
  | read (b : Bytes)
  | writable
  | lost
  | trim
  | resume
  | call (c : Call)
deriving DecidableEq, Repr

/-- test/RTMP.cpp:156-157, 540-560: what was given to the platform adapter is called; after `onClientClosed` it calls nothing, before `init` it
knows of nothing. -/
def step (app : App) (st : St) (o : Op) : St :=
  if st.wild then st
  else
    match o with
    | .read b => if st.phase ≠ .unknown ∧ st.phase ≠ .error then onReceive app st b else st
    | .writable => if st.phase ≠ .error ∧ st.scheduled then onWritable app st else st
    | .lost => if st.phase ≠ .unknown ∧ st.phase ≠ .error then setClosed app st else st
    | .trim => if st.phase ≠ .error ∧ st.trimPending then (trim app { st with trimPending := false }).1 else st
    | .resume => if st.phase ≠ .error ∧ st.resumes > 0 then onReceive app { st with resumes := st.resumes - 1 } [] else st
    | .call c => call app st c

/-- a history -/
def run (app : App) (st : St) (ops : List Op) : St := ops.foldl (step app) st

end Rtmfp.Rtmp
