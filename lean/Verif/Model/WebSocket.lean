import Verif.Model.Uri

/-!
# Model of `test/SimpleWebSocket.cpp`: the stream, the HTTP header, the frames

The application sets its callbacks before the first byte arrives and may do anything the public functions allow from inside of them: what
it does is `App.react`, a function of everything that has happened so far. Everything that can be observed, and some things that are
only there to be talked about (`Ev.did`, `Ev.ping`, `Ev.pong`, `Ev.peerClose`), is appended to `St.log`.
-/

namespace Rtmfp.WS

/-- test/SimpleWebSocket.hpp:42 `State` -/
inductive Phase
  | opn
  | closing
  | error
deriving DecidableEq, Repr

/-- The public functions (test/SimpleWebSocket.hpp:24-36, 94-102): `sendBinaryMessage`, `sendTextMessage`, `cleanClose`, `close`,
`shutdown`, `writeBytes`, `notifyWhenWritable`. -/
inductive Call
  | binary (b : Bytes)
  | text (b : Bytes)
  | cleanClose
  | close
  | shutdown
  | raw (b : Bytes)
  | notify
deriving DecidableEq, Repr

/-- What happens. First the callbacks of the application (`onHttpHeadersReceived`, `onOpen`, `onTextMessage`, `onBinaryMessage`, `onError`,
the `onwritable` it gave to `notifyWhenWritable`), then what the platform adapter is asked for (`writeBytes`, `notifyWhenWritable`,
`onClientClosed`), then the application's calls and the control frames that arrive (no code: kept to state theorems). -/
inductive Ev
  | headers
  | opened
  | text (b : Bytes)
  | binary (b : Bytes)
  | failed
  | writable
  | put (b : Bytes)
  | ask
  | released
  | did (c : Call)
  | ping (b : Bytes)
  | pong (b : Bytes)
  | peerClose
deriving DecidableEq, Repr

/-- The application: what it calls in a callback and what its `onwritable` answers, given the log (the last event is the callback). `sha1` is
the virtual function of test/SimpleWebSocket.hpp:104. -/
structure App where
  react : List Ev → List Call
  again : List Ev → Bool
  sha1 : Bytes → Bytes

/-- Members of the three classes, test/SimpleWebSocket.hpp:53-58, 85-88, 120-126. `headers` is `m_headers` as the list of fields in order of
arrival. `cbs`: the callbacks are set (they are until `clearCallbacks`); `onw`: `m_client_onwritable` is set. `m_tmpFrame` and
`m_handshakeComplete` are never read. `log` is the record. -/
structure St where
  phase : Phase
  headerComplete : Bool
  scheduled : Bool
  cbs : Bool
  onw : Bool
  out : Bytes
  gotNewline : Bool
  block : Bytes
  headers : List (Bytes × Bytes)
  startLine : Bytes
  closing : Bool
  input : Bytes
  frag : Bytes
  fragOp : Int
  log : List Ev
deriving DecidableEq, Repr

/-- test/SimpleWebSocket.hpp:53-58, 85-88, 120-126: the initial values, callbacks set, after `init` (test/SimpleWebSocket.cpp:140-146) -/
def init : St := ⟨.opn, false, false, true, false, [], false, [], [], [], false, [], [], -1, []⟩

/-- appends to the record -/
def emit (st : St) (e : Ev) : St := { st with log := st.log ++ [e] }

/-- test/SimpleWebSocket.cpp:229-237 -/
def scheduleWrite (st : St) : St :=
  if st.phase ≠ .error ∧ st.scheduled = false then { emit st .ask with scheduled := true } else st

/-- test/SimpleWebSocket.cpp:165-181 -/
def writeBytes (st : St) (b : Bytes) : St := scheduleWrite { st with out := st.out ++ b }

/-- test/SimpleWebSocket.cpp:684-708: the header of a frame. `len` is a `size_t`. -/
def frameHeader (op : Nat) (len : Nat) : Bytes :=
  let basic := if len > 65535 then 127 else if len > 125 then 126 else len
  [UInt8.ofNat (0x80 ||| (op &&& 0x0f)), UInt8.ofNat (0 ||| basic)] ++
    (if basic = 127 then
      [UInt8.ofNat ((len >>> 56) &&& 0xff), UInt8.ofNat ((len >>> 48) &&& 0xff), UInt8.ofNat ((len >>> 40) &&& 0xff),
       UInt8.ofNat ((len >>> 32) &&& 0xff), UInt8.ofNat ((len >>> 24) &&& 0xff), UInt8.ofNat ((len >>> 16) &&& 0xff),
       UInt8.ofNat ((len >>> 8) &&& 0xff), UInt8.ofNat (len &&& 0xff)]
    else if basic = 126 then [UInt8.ofNat ((len >>> 8) &&& 0xff), UInt8.ofNat (len &&& 0xff)]
    else [])

/-- test/SimpleWebSocket.cpp:681-714; `bytes` is null only for an empty payload -/
def writeFrame (st : St) (op : Nat) (b : Bytes) : St := writeBytes st (frameHeader op b.length ++ b)

/-- test/SimpleWebSocket.cpp:409-413 -/
def cleanClose (st : St) : St := { writeFrame st 8 [] with closing := true }

/-- test/SimpleWebSocket.cpp:207-211, 378-382, 632-638 `clearCallbacks` -/
def clear (st : St) : St := { st with cbs := false, onw := false }

/-- test/SimpleWebSocket.cpp:148-154 with 213-227: `onError` is already cleared, so it is not called -/
def close (st : St) : St :=
  let st := clear st
  if st.phase ≠ .error then clear (emit { st with phase := .error } .released) else clear st

/-- test/SimpleWebSocket.cpp:156-163 -/
def shutdown (st : St) : St := if st.phase = .opn then scheduleWrite { st with phase := .closing } else st

/-- The public functions: test/SimpleWebSocket.cpp:394-407, 409-413, 148-163, 165-181, 201-205. None calls the application back. -/
def call (st : St) (c : Call) : St :=
  let st := emit st (.did c)
  match c with
  | .binary b => writeFrame st 2 b
  | .text b => writeFrame st 1 b
  | .cleanClose => cleanClose st
  | .close => close st
  | .shutdown => shutdown st
  | .raw b => writeBytes st b
  | .notify => scheduleWrite { st with onw := true }

/-- a callback, with everything the application does in it -/
def callback (app : App) (st : St) (e : Ev) : St := (app.react (emit st e).log).foldl call (emit st e)

/-- test/SimpleWebSocket.cpp:213-227 -/
def setClosed (app : App) (st : St) : St :=
  if st.phase ≠ .error then
    let st1 := clear (emit { st with phase := .error } .released)
    if st.cbs then callback app st1 .failed else st1
  else clear st

/-- test/SimpleWebSocket.cpp:485-502: an integer read most significant byte first -/
def shiftIn (b : Bytes) : Nat := b.foldl (fun a c => (a <<< 8) + c.toNat) 0

/-- test/SimpleWebSocket.cpp:510-516: `mask` -/
def maskOf (b : Bytes) : UInt32 := b.foldl (fun a c => (a <<< 8) + UInt32.ofNat c.toNat) 0

/-- test/SimpleWebSocket.cpp:523-532: the loop that takes the mask off -/
def unmask (mask : UInt32) : Nat → Bytes → Bytes
  | _, [] => []
  | shift, c :: b => (c ^^^ UInt8.ofNat ((mask >>> UInt32.ofNat shift) &&& 0xff).toNat) :: unmask mask (if shift < 8 then 24 else shift - 8) b

/-- What `onInput` finds: 0 (not all of a frame is there), −1, or a frame and how many bytes it was -/
inductive Parsed
  | more
  | bad
  | frame (fin : Bool) (op : Nat) (payload : Bytes) (consumed : Nat)
deriving DecidableEq, Repr

/-- test/SimpleWebSocket.cpp:506-535: from where the length is known; `cur` is at the mask, `needed` counts the header -/
def parseRest (fin : Bool) (op : Nat) (hasMask : Bool) (remaining needed len : Nat) (cur : Bytes) : Parsed :=
  if len > 1 <<< 24 then .bad
  else if remaining < needed + len then .more
  else if hasMask then .frame fin op (unmask (maskOf (cur.take 4)) 24 ((cur.drop 4).take len)) (needed + len)
  else .frame fin op (cur.take len) (needed + len)

/-- test/SimpleWebSocket.cpp:456-536 `onInput`, without the call of `onFrame`. The length is a `size_t` that 8 shifts fill exactly. -/
def parse (bs : Bytes) : Parsed :=
  match bs with
  | b0 :: b1 :: tl =>
    let fin := decide (b0 &&& 0x80 ≠ 0)
    let op := (b0 &&& 0x0f).toNat
    let hasMask := decide (b1 &&& 0x80 ≠ 0)
    let pl := (b1 &&& 0x7f).toNat
    let needed := 2 + (if hasMask then 4 else 0) + (if pl = 126 then 2 else if pl = 127 then 8 else 0)
    if bs.length < needed then .more
    else if pl = 126 then parseRest fin op hasMask bs.length needed (shiftIn (tl.take 2)) (tl.drop 2)
    else if pl = 127 then parseRest fin op hasMask bs.length needed (shiftIn (tl.take 8)) (tl.drop 8)
    else parseRest fin op hasMask bs.length needed pl tl
  | _ => .more

/-- test/SimpleWebSocket.cpp:599-630 -/
def onMessageFrame (app : App) (st : St) (op : Int) (fin : Bool) (b : Bytes) : St :=
  if st.fragOp > 0 then setClosed app st
  else if fin = false then { st with fragOp := op, frag := st.frag ++ b }
  else if op = 1 then (if st.cbs then callback app st (.text b) else st)
  else if op = 2 then (if st.cbs then callback app st (.binary b) else st)
  else st

/-- test/SimpleWebSocket.cpp:564-580 -/
def onContinuation (app : App) (st : St) (fin : Bool) (b : Bytes) : St :=
  if st.fragOp < 0 then setClosed app st
  else
    let st := { st with frag := st.frag ++ b }
    if fin then { onMessageFrame app { st with fragOp := -1 } st.fragOp true st.frag with frag := [] } else st

/-- test/SimpleWebSocket.cpp:582-597, 538-562. The arrival of a control frame is recorded unless all is over. -/
def onFrame (app : App) (st : St) (fin : Bool) (op : Nat) (b : Bytes) : St :=
  let note := fun e => if st.phase ≠ .error then emit st e else st
  if op = 0 then onContinuation app st fin b
  else if op = 9 then writeFrame (note (.ping b)) 10 b
  else if op = 10 then note (.pong b)
  else if op = 8 then (if st.closing then setClosed app (note .peerClose) else cleanClose (note .peerClose))
  else onMessageFrame app st op fin b

/-- test/SimpleWebSocket.cpp:424-435: the loop of `onBodyBytes` over `buf`; what is left of it, or `none` after an error. Every frame takes
at least two bytes: `fuel` is the number of bytes. -/
def loop (app : App) : (fuel : Nat) → St → (buf : Bytes) → St × Option Bytes
  | 0, st, buf => (st, some buf)
  | fuel + 1, st, buf =>
    if buf = [] then (st, some buf)
    else
      match parse buf with
      | .more => (st, some buf)
      | .bad => (setClosed app st, none)
      | .frame fin op b n => loop app fuel (onFrame app st fin op b) (buf.drop n)

/-- test/SimpleWebSocket.cpp:415-454 `onBodyBytes`, `shiftInputBuffer` -/
def onBody (app : App) (st : St) (bytes : Bytes) : St :=
  let st := { st with input := st.input ++ bytes }
  match loop app st.input.length st st.input with
  | (st', some rest) => { st' with input := rest }
  | (st', none) => st'

/-- test/SimpleWebSocket.cpp:306-312, 50-74 `isToken`; `isdigit` and `isalpha` as in the C locale (for negative characters the code's
behaviour is undefined; here, as in glibc, they are neither) -/
def isTchar (c : UInt8) : Bool :=
  decide (c ∈ [0x21, 0x23, 0x24, 0x25, 0x26, 0x27, 0x2a, 0x2b, 0x2d, 0x2e, 0x5e, 0x5f, 0x60, 0x7c, 0x7e]) ||
    (decide (0x30 ≤ c) && decide (c ≤ 0x39)) || (decide (0x41 ≤ c) && decide (c ≤ 0x5a)) || (decide (0x61 ≤ c) && decide (c ≤ 0x7a))

/-- test/SimpleWebSocket.cpp:306-312 -/
def isToken (s : Bytes) : Bool := s.all isTchar && decide (s ≠ [])

/-- `std::isspace` in the C locale -/
def isSpace (c : UInt8) : Bool := decide (c = 0x20) || (decide (0x09 ≤ c) && decide (c ≤ 0x0d))

/-- test/SimpleWebSocket.cpp:38-48 -/
def trim (s : Bytes) : Bytes := ((s.dropWhile isSpace).reverse.dropWhile isSpace).reverse

/-- src/URIParse.cpp:240-246 `lowercase` in the C locale -/
def lower (s : Bytes) : Bytes := s.map (fun c => if 0x41 ≤ c ∧ c ≤ 0x5a then c + 0x20 else c)

/-- test/SimpleWebSocket.cpp:349: every "\r\n" replaced by "\n" -/
def crlfToLf : Bytes → Bytes
  | [] => []
  | [c] => [c]
  | c :: d :: s => if c = 0x0d ∧ d = 0x0a then 0x0a :: crlfToLf s else c :: crlfToLf (d :: s)

/-- test/SimpleWebSocket.cpp:350: every "\r" replaced by " " -/
def crToSpace (s : Bytes) : Bytes := s.map (fun c => if c = 0x0d then 0x20 else c)

/-- test/SimpleWebSocket.cpp:351: every newline followed by a space or tab replaced, together with that, by a space -/
def unfold : Bytes → Bytes
  | [] => []
  | [c] => [c]
  | c :: d :: s => if c = 0x0a ∧ (d = 0x20 ∨ d = 0x09) then 0x20 :: unfold s else c :: unfold (d :: s)

/-- test/SimpleWebSocket.cpp:357-372: the lines after the first; `none` if one that isn't empty isn't a field -/
def parseFields : List Bytes → Option (List (Bytes × Bytes))
  | [] => some []
  | l :: ls =>
    if l = [] then parseFields ls
    else
      match (Uri.split l [0x3a] 2).getD [] with
      | [name, value] => if isToken name then (parseFields ls).map (fun r => (lower name, trim value) :: r) else none
      | _ => none

/-- test/SimpleWebSocket.cpp:349-373: start line and fields -/
def parseBlock (block : Bytes) : Bytes × Option (List (Bytes × Bytes)) :=
  match (Uri.split (unfold (crToSpace (crlfToLf block))) [0x0a] 0).getD [] with
  | [] => ([], some [])
  | l :: ls => (l, parseFields ls)

/-- test/SimpleWebSocket.cpp:283-304 `getHeader`, with `getHeaderValues`: the values of all the fields of that name, commas between them -/
def getHeader (fields : List (Bytes × Bytes)) (name : Bytes) : Bytes :=
  ((fields.filter (fun f => f.1 = lower name)).map (·.2)).intersperse [0x2c] |>.flatten

/-- `std::string::find(sub) != npos` -/
def contains (sub : Bytes) : Bytes → Bool
  | [] => sub.isEmpty
  | c :: s => sub.isPrefixOf (c :: s) || contains sub s

/-- the bytes of a text -/
def ascii (s : String) : Bytes := s.toList.map (fun c => UInt8.ofNat c.toNat)

/-- test/SimpleWebSocket.cpp:78: the alphabet -/
def alphabet : Bytes := ascii "ABCDEFGHIJKLMNOPQRSTUVWXYZabcdefghijklmnopqrstuvwxyz0123456789+/"

/-- `alphabet[b]` -/
def letter (b : UInt8) : UInt8 := alphabet.getD b.toNat 0

/-- test/SimpleWebSocket.cpp:76-121 `_base64enc`, padded -/
def base64 : Bytes → Bytes
  | [] => []
  | [a] => [letter (a >>> 2), letter ((a &&& 0x03) <<< 4), 0x3d, 0x3d]
  | [a, b] => [letter (a >>> 2), letter (((a &&& 0x03) <<< 4) + (b >>> 4)), letter ((b &&& 0x0f) <<< 2), 0x3d]
  | a :: b :: c :: s =>
    [letter (a >>> 2), letter (((a &&& 0x03) <<< 4) + (b >>> 4)), letter (((b &&& 0x0f) <<< 2) + (c >>> 6)), letter (c &&& 0x3f)] ++ base64 s

/-- test/SimpleWebSocket.cpp:644-660: whether the request is for a WebSocket -/
def wanted (startLine : Bytes) (fields : List (Bytes × Bytes)) : Bool :=
  (match (Uri.split startLine [0x20] 0).getD [] with
   | [a, _, _] => decide (a = ascii "GET")
   | _ => false) &&
  decide (lower (getHeader fields (ascii "upgrade")) = ascii "websocket") &&
  contains (ascii "upgrade") (lower (getHeader fields (ascii "connection"))) &&
  decide (getHeader fields (ascii "sec-websocket-version") = ascii "13") &&
  decide (getHeader fields (ascii "sec-websocket-key") ≠ [])

/-- test/SimpleWebSocket.cpp:665-675: the answer -/
def response (app : App) (fields : List (Bytes × Bytes)) : Bytes :=
  ascii "HTTP/1.1 101 Switching Protocols\r\nUpgrade: websocket\r\nConnection: Upgrade\r\nSec-WebSocket-Accept: " ++
    base64 (app.sha1 (getHeader fields (ascii "sec-websocket-key") ++ ascii "258EAFA5-E914-47DA-95CA-C5AB0DC85B11")) ++ ascii "\r\n\r\n"

/-- test/SimpleWebSocket.cpp:640-679 with 339-343 -/
def onHeadersComplete (app : App) (st : St) : St :=
  let st := if st.cbs then callback app st .headers else st
  if wanted st.startLine st.headers then
    let st := writeBytes st (response app st.headers)
    if st.cbs then callback app st .opened else st
  else setClosed app st

/-- test/SimpleWebSocket.cpp:345-376. (If a field is bad those before it are kept, which nothing looks at.) -/
def parseHeaderBlock (app : App) (st : St) : St :=
  let st := { st with headerComplete := true, startLine := (parseBlock st.block).1 }
  match (parseBlock st.block).2 with
  | none => setClosed app st
  | some fields => onHeadersComplete app { st with headers := fields }

/-- test/SimpleWebSocket.cpp:314-337: the loop of `onHeaderBytes`; `m_gotNewline`, `m_headerBlock` and, if the end of the header was found,
the bytes after it -/
def scan (gotNewline : Bool) (block : Bytes) : Bytes → Bool × Bytes × Option Bytes
  | [] => (gotNewline, block, none)
  | c :: s =>
    if c = 0x0a then
      if gotNewline then (gotNewline, block ++ [c], some s)
      else scan true (block ++ [c]) s
    else scan (if c ≠ 0x0d then false else gotNewline) (block ++ [c]) s

/-- test/SimpleWebSocket.cpp:314-337 -/
def onHeader (app : App) (st : St) (bytes : Bytes) : St × Bytes :=
  match scan st.gotNewline st.block bytes with
  | (g, b, none) => ({ st with gotNewline := g, block := b }, [])
  | (g, b, some rest) => (parseHeaderBlock app { st with gotNewline := g, block := b }, rest)

/-- test/SimpleWebSocket.cpp:183-199. The loop is written out: `onBodyBytes` takes everything, and after `onHeaderBytes` either nothing is
left or the header is complete. -/
def onReceive (app : App) (st : St) (bytes : Bytes) : St :=
  if st.phase = .opn ∧ bytes ≠ [] then
    if st.headerComplete then onBody app st bytes
    else
      let r := onHeader app st bytes
      if r.1.phase = .opn ∧ r.2 ≠ [] then onBody app r.1 r.2 else r.1
  else st

/-- test/SimpleWebSocket.cpp:260-269 -/
def writeRaw (st : St) : St × Bool :=
  if st.phase ≠ .error ∧ st.out ≠ [] then ({ emit st (.put st.out) with out := [] }, true) else (st, false)

/-- test/SimpleWebSocket.cpp:239-258 -/
def onWritable (app : App) (st : St) : St :=
  if (writeRaw st).2 then (writeRaw st).1
  else if st.phase = .opn ∧ st.onw then
    let st1 := callback app st .writable
    let st2 := if app.again (emit st .writable).log then st1 else { st1 with onw := false }
    (writeRaw st2).1
  else
    let st1 := if st.phase = .closing then setClosed app st else st
    { st1 with scheduled := false }

/-- What happens to a socket: bytes arrive, the stream can be written to, the stream is lost, the application calls from outside of callbacks -/
inductive Op
  | read (b : Bytes)
  | writable
  | lost
  | call (c : Call)
deriving DecidableEq, Repr

/-- test/SimpleWebSocket.cpp:140-146: what `init` gave to the platform adapter is called. After `onClientClosed` the adapter calls nothing;
it says that the stream is writable from when it was asked to until it is answered false. -/
def step (app : App) (st : St) : Op → St
  | .read b => onReceive app st b
  | .writable => if st.phase ≠ .error ∧ st.scheduled then onWritable app st else st
  | .lost => if st.phase ≠ .error then setClosed app st else st
  | .call c => call st c

/-- a history -/
def run (app : App) (st : St) (ops : List Op) : St := ops.foldl (step app) st

end Rtmfp.WS
