import Verif.Model.AMF
/-! # Tin-Can connections: the transactions and streams of src/TCConnection.cpp

What happens to a connection is a list of calls and messages. Code of the user that runs inside of the connection's code (response handlers, `onOpen`, `onStatus`,
`onClose`) can call the connection again; nothing in the connection depends on whether a call is made inside such a function or after it returned, except while
`basicClose` goes through the transactions. That is why `basicClose` is taken apart into its beginning, one step for each transaction, and its end, between which
calls of the user can happen. Messages are not received while the connection's own code runs. After a failed connect, the call of `basicClose` comes after the
user's handler returned, so it is a step of its own. -/
namespace Rtmfp
namespace TCConn
open AMF (Val)

/-! ## doubles -/

/-- the three fields of a `double`, and its value times 2^1075 if it is finite and not negative -/
abbrev dSign (b : UInt64) : Nat := b.toNat / 9223372036854775808
abbrev dExp (b : UInt64) : Nat := b.toNat / 4503599627370496 % 2048
abbrev dMan (b : UInt64) : Nat := b.toNat % 4503599627370496
/-- not a number -/
def isNaN (b : UInt64) : Bool := dExp b == 2047 && dMan b != 0
/-- finite and not negative (negative zero is left out: it is equal to zero, which is never an id) -/
def isPos (b : UInt64) : Bool := dSign b == 0 && dExp b != 2047
/-- the value times 2^1075 -/
def scaled (b : UInt64) : Nat := if dExp b = 0 then dMan b * 2 else (4503599627370496 + dMan b) * 2 ^ dExp b
/-- `==` of a `double` and a positive whole number -/
def isNat (b : UInt64) (n : Nat) : Bool := isPos b && scaled b == n * 2 ^ 1075

/-- `++` of a `double` that has a positive whole number up to 2^53 as its value: 2^53 + 1 is rounded to 2^53 -/
def incr (n : Nat) : Nat := if n < 2 ^ 53 then n + 1 else n

/-! ## state -/

/-- whose handler: that given to `transact`, that of `connect` (TCConnection.cpp:67-69), that of `createStream` (93-111) for a stream -/
inductive Kind where
  | user
  | connect
  | stream (i : Nat)
deriving DecidableEq, Repr

/-- an entry of `m_transactions`; `h` names the handler given by the user -/
structure Tx where
  tid : Nat
  h : Nat
  kind : Kind
deriving DecidableEq, Repr

/-- a `TCStream` (TCConnection.hpp:164-168) -/
structure Strm where
  userOpen : Bool
  streamID : Nat
deriving DecidableEq, Repr

/-- TCConnection.hpp:97-104. `streams` are all streams ever created. `closing` is what is left of the loop of `basicClose`; `connectFailed` is that the last lines of
`onConnectResponse` are still to come; `aborted` that an assertion failed. -/
structure St where
  userOpen : Bool := true
  tcOpen : Bool := false
  nextTID : Nat := 1
  txs : List Tx := []
  streams : List Strm := []
  net : List (Nat × Nat) := []
  closing : Option (List Tx) := none
  connectFailed : Bool := false
  aborted : Bool := false
deriving DecidableEq, Repr

/-- observable: a request is queued, a handler is invoked, a stream's `onOpen` is invoked, the connection's final status is reported (`failed` or not), `onClose` is
invoked -/
inductive Ev where
  | sent (tid h : Nat) (kind : Kind)
  | invoked (tid h : Nat) (kind : Kind) (success : Bool) (result : Option Val)
  | opened (i id : Nat)
  | status (failed : Bool)
  | closed

/-- `m_transactions[tid] = handler` (TCConnection.cpp:294); the map is in the order of the ids -/
def putTx : List Tx → Tx → List Tx
  | [], t => [t]
  | a :: l, t => if t.tid < a.tid then t :: a :: l else if t.tid = a.tid then t :: l else a :: putTx l t

/-- `m_transactions.find(transactionID)` (TCConnection.cpp:302): a number that is not a number is neither less nor greater than the keys, so the first entry is found -/
def findTx (l : List Tx) (b : UInt64) : Option Tx :=
  if isNaN b then l.head? else l.find? (fun t => isNat b t.tid)

/-- TCConnection.cpp:289-298 `basicTransact`; `w` is whether `write` gave a receipt -/
def basicTransact (st : St) (h : Nat) (kind : Kind) (w : Bool) : St × List Ev :=
  let tid := st.nextTID
  let st := { st with nextTID := incr st.nextTID }
  if w then ({ st with txs := putTx st.txs ⟨tid, h, kind⟩ }, [.sent tid h kind]) else (st, [])

/-- TCConnection.cpp:42-70 `connect` (the argument object is left out) -/
def connect (st : St) (h : Nat) (w : Bool) : St × List Ev :=
  if !st.userOpen || 1 != st.nextTID then (st, []) else basicTransact st h .connect w

/-- TCConnection.cpp:336-345 `validateCommandName` -/
def validateCommandName (st : St) (name : String) : Bool :=
  if name = "createStream" ∨ name = "deleteStream" ∨ name = "connect" then false else st.userOpen

/-- TCConnection.cpp:79-84 `transact` -/
def transact (st : St) (h : Nat) (name : String) (w : Bool) : St × List Ev :=
  if !validateCommandName st name || 1 == st.nextTID then (st, []) else basicTransact st h .user w

/-- TCConnection.cpp:86-114 `createStream` -/
def createStream (st : St) (w : Bool) : St × List Ev :=
  if !st.userOpen then (st, [])
  else basicTransact { st with streams := st.streams ++ [⟨true, 0⟩] } 0 (.stream st.streams.length) w

/-- TCConnection.cpp:325-332 `deleteStream` of the connection (the command to the server is left out) -/
def netErase (st : St) (id : Nat) : St := { st with net := st.net.filter (fun e => e.1 != id) }

/-- TCConnection.cpp:372-389 `deleteStream` of a stream (the receipts' chain and the handlers are left out: `userOpen` says whether `onOpen` can still be invoked) -/
def strmDelete (st : St) (i : Nat) : St :=
  match st.streams[i]? with
  | none => st
  | some s =>
    let st := if s.streamID ≠ 0 then netErase st s.streamID else st
    { st with streams := st.streams.set i ⟨false, 0⟩ }

/-- TCConnection.cpp:237-265 `basicClose` up to its loops -/
def beginClose (st : St) (isError : Bool) : St × List Ev :=
  if !st.userOpen then (st, [])
  else ({ st with userOpen := false, closing := some st.txs }, [.status (isError && !st.tcOpen)])

/-- `uint32_t(result->doubleValue())` if the value is greater than 0 and at most `UINT32_MAX` (TCConnection.cpp:94-98) -/
def streamIdOf : Val → Option Nat
  | .num b => if isPos b && decide (0 < scaled b) && decide (scaled b ≤ 4294967295 * 2 ^ 1075) then some (scaled b / 2 ^ 1075) else none
  | _ => none

/-- TCConnection.cpp:93-111: the handler of `createStream`. `setStreamID` (478-492) with the invocation of `onOpen` is included; if the user deletes the stream
inside `onOpen`, the stream is no longer in the map when `setStreamID` answers, so the last `deleteStream` does nothing. -/
def streamResponse (st : St) (i : Nat) (success : Bool) (result : Option Val) : St × List Ev :=
  match (if success then result.bind streamIdOf else none) with
  | some id =>
    if (st.net.any (fun e => e.1 == id)) then beginClose (strmDelete st i) true
    else match st.streams[i]? with
      | none => (st, [])
      | some s =>
        if s.userOpen then ({ st with net := st.net ++ [(id, i)], streams := st.streams.set i ⟨true, id⟩ }, [.opened i id])
        else (netErase { st with net := st.net ++ [(id, i)] } id, [])
  | none => beginClose (strmDelete st i) true

/-- what a handler does; for `connect` TCConnection.cpp:313-323 `onConnectResponse` without its last two lines -/
def handler (st : St) (t : Tx) (success : Bool) (result : Option Val) : St × List Ev :=
  match t.kind with
  | .user => (st, [])
  | .connect => ({ st with tcOpen := success, connectFailed := !success }, [])
  | .stream i => streamResponse st i success result

/-- TCConnection.cpp:300-311 `onTransactionResponse` -/
def onTransactionResponse (st : St) (success : Bool) (b : UInt64) (args : List Val) : St × List Ev :=
  match findTx st.txs b with
  | none => (st, [])
  | some t =>
    let st := { st with txs := st.txs.filter (fun x => x.tid != t.tid) }
    let result := args.head?.getD .undef
    let r := handler st t success (some result)
    (r.1, .invoked t.tid t.h t.kind success (some result) :: r.2)

/-- TCConnection.cpp:261-263: one round of the loop of `basicClose` -/
def closeNext (st : St) (t : Tx) (rest : List Tx) : St × List Ev :=
  let r := handler { st with closing := some rest } t false none
  (r.1, .invoked t.tid t.h t.kind false none :: r.2)

/-- TCConnection.cpp:264-273: the end of `basicClose` -/
def closeEnd (st : St) : St × List Ev :=
  let st := { st with txs := [], closing := none }
  let st := st.net.foldl (fun st e => strmDelete st e.2) st
  if st.net.isEmpty then (st, [.closed]) else ({ st with aborted := true }, [])

/-- what happens to a connection -/
inductive Op where
  | connect (h : Nat) (w : Bool)
  | transact (h : Nat) (name : String) (w : Bool)
  | createStream (w : Bool)
  | deleteStream (i : Nat)
  | close (isError : Bool)
  | response (success : Bool) (tid : UInt64) (args : List Val)
  | connectEnd
  | closeNext
  | closeEnd

/-- one step; `none` if it can't happen -/
def step (st : St) : Op → Option (St × List Ev)
  | .connect h w => if st.aborted then none else some (connect st h w)
  | .transact h name w => if st.aborted then none else some (transact st h name w)
  | .createStream w => if st.aborted then none else some (createStream st w)
  | .deleteStream i => if st.aborted then none else some (strmDelete st i, [])
  | .close e => if st.aborted then none else some (beginClose st e)
  | .response s b args =>
    if st.aborted || st.closing.isSome || st.connectFailed then none else some (onTransactionResponse st s b args)
  | .connectEnd => if st.aborted || !st.connectFailed then none else some (beginClose { st with connectFailed := false } true)
  | .closeNext =>
    match st.closing with
    | some (t :: rest) => if st.aborted then none else some (closeNext st t rest)
    | _ => none
  | .closeEnd =>
    match st.closing with
    | some [] => if st.aborted then none else some (closeEnd st)
    | _ => none

/-- a history from the beginning: the state and what was observed -/
inductive Run : List Op → St → List Ev → Prop
  | nil : Run [] {} []
  | step {ops st evs op st' evs'} : Run ops st evs → step st op = some (st', evs') → Run (ops ++ [op]) st' (evs ++ evs')

end TCConn
end Rtmfp
