import Verif.Base

/-!
# Specification: requests to upgrade to WebSocket (RFC 7230, RFC 6455 section 4) and base64 (RFC 4648)

No reference to the model.
-/

namespace Rtmfp.Spec.Web

/-- the bytes of a text -/
def str (s : String) : Bytes := s.toList.map (fun c => UInt8.ofNat c.toNat)

/-- a header field: its name, white space, its value, white space -/
structure Field where
  name : Bytes
  pre : Bytes
  value : Bytes
  post : Bytes
deriving DecidableEq, Repr

/-- a request without body -/
structure Request where
  method : Bytes
  target : Bytes
  version : Bytes
  fields : List Field
deriving DecidableEq, Repr

/-- the line of a field, without its end -/
def Field.line (f : Field) : Bytes := f.name ++ [58] ++ f.pre ++ f.value ++ f.post

/-- the start line, without its end -/
def Request.line (r : Request) : Bytes := r.method ++ [32] ++ r.target ++ [32] ++ r.version

/-- a request on the wire -/
def Request.wire (r : Request) : Bytes :=
  r.line ++ [13, 10] ++ r.fields.flatMap (fun f => f.line ++ [13, 10]) ++ [13, 10]

/-- RFC 7230 section 3.2.6 -/
def tchar (c : UInt8) : Prop :=
  c ∈ str "!#$%&'*+-.^_`|~" ∨ (48 ≤ c ∧ c ≤ 57) ∨ (65 ≤ c ∧ c ≤ 90) ∨ (97 ≤ c ∧ c ≤ 122)

/-- white space, of all kinds -/
def blank (c : UInt8) : Prop := c = 32 ∨ (9 ≤ c ∧ c ≤ 13)

/-- The name is a token; around the value are spaces and tabs; it is of one line and has no white space at its ends. -/
structure Field.Valid (f : Field) : Prop where
  nameEmpty : f.name ≠ []
  nameChars : ∀ c ∈ f.name, tchar c
  spaces : ∀ c ∈ f.pre ++ f.post, c = 32 ∨ c = 9
  oneLine : ∀ c ∈ f.value, c ≠ 10 ∧ c ≠ 13
  first : ∀ c, f.value.head? = some c → ¬ blank c
  last : ∀ c, f.value.getLast? = some c → ¬ blank c

/-- The parts of the start line have no spaces and no line ends; the fields are valid. -/
structure Request.Valid (r : Request) : Prop where
  start : ∀ c ∈ r.method ++ r.target ++ r.version, c ≠ 32 ∧ c ≠ 10 ∧ c ≠ 13
  valid : ∀ f ∈ r.fields, f.Valid

/-- with small letters -/
def lowered (s : Bytes) : Bytes := s.map (fun c => if 65 ≤ c ∧ c ≤ 90 then c + 32 else c)

/-- the value of a field: of all those with that name, in order, with commas between them (RFC 7230 section 3.2.2) -/
def Request.value (r : Request) (name : String) : Bytes :=
  [(44 : UInt8)].intercalate ((r.fields.filter (fun f => lowered f.name = str name)).map (·.value))

/-- the request is for a WebSocket (RFC 6455 section 4.2.1, as far as it is looked at) -/
structure Request.Upgrade (r : Request) : Prop where
  get : r.method = str "GET"
  upgrade : lowered (r.value "upgrade") = str "websocket"
  connection : str "upgrade" <:+: lowered (r.value "connection")
  version13 : r.value "sec-websocket-version" = str "13"
  key : r.value "sec-websocket-key" ≠ []

/-- the digit for 6 bits (RFC 4648 section 4) -/
def digit (n : Nat) : UInt8 :=
  UInt8.ofNat (if n < 26 then 65 + n else if n < 52 then 97 + (n - 26) else if n < 62 then 48 + (n - 52) else if n = 62 then 43 else 47)

/-- base64 (RFC 4648 section 4): 24 bits to four digits -/
def base64 : Bytes → Bytes
  | [] => []
  | [a] => let n := a.toNat * 16; [digit (n / 64), digit (n % 64), 61, 61]
  | [a, b] => let n := (a.toNat * 256 + b.toNat) * 4; [digit (n / 4096), digit (n / 64 % 64), digit (n % 64), 61]
  | a :: b :: c :: s => let n := (a.toNat * 256 + b.toNat) * 256 + c.toNat; [digit (n / 262144), digit (n / 4096 % 64), digit (n / 64 % 64), digit (n % 64)] ++ base64 s

/-- the answer that accepts a request (RFC 6455 section 4.2.2) -/
def accept (sha1 : Bytes → Bytes) (key : Bytes) : Bytes :=
  str "HTTP/1.1 101 Switching Protocols" ++ [13, 10] ++ str "Upgrade: websocket" ++ [13, 10] ++ str "Connection: Upgrade" ++ [13, 10] ++
    str "Sec-WebSocket-Accept: " ++ base64 (sha1 (key ++ str "258EAFA5-E914-47DA-95CA-C5AB0DC85B11")) ++ [13, 10] ++ [13, 10]

end Rtmfp.Spec.Web
