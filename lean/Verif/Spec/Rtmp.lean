import Verif.Spec.WebSocket

/-!
# Specification: the chunk stream of RTMP (Adobe's RTMP 1.0, section 5.3 and 5.4) and what a sequence of chunks says

No reference to the model. Where the document and all implementations differ (the order of the two bytes of large chunk stream ids), this is
as it is done.
-/

namespace Rtmfp.Spec.Chunks

open Web (be)

/-- a message -/
structure Message where
  sid : UInt32
  type : UInt8
  ts : UInt32
  payload : Bytes
deriving DecidableEq, Repr

/-- the header of a chunk, types 0 to 3 (section 5.3.1.2) -/
inductive Form
  | full (ts : UInt32) (len : Nat) (type : UInt8) (sid : UInt32)
  | sameStream (delta : UInt32) (len : Nat) (type : UInt8)
  | sameKind (delta : UInt32)
  | same
deriving DecidableEq, Repr

/-- A chunk; `long`: the id of its chunk stream is in three bytes (those of 64 to 319 may be in two as well) -/
structure Chunk where
  cs : Nat
  long : Bool
  form : Form
  data : Bytes
deriving DecidableEq, Repr

/-- What is remembered of a chunk stream: the header of the last message, the last difference of timestamps, what there is of a message begun -/
structure Stream where
  sid : UInt32
  ts : UInt32
  delta : UInt32
  len : Nat
  type : UInt8
  part : Bytes
deriving DecidableEq, Repr

/-- What is remembered: the chunk size and the chunk streams -/
structure Dec where
  size : Nat
  streams : Nat → Option Stream

/-- at the beginning (section 5.4.1: the chunk size is 128) -/
def Dec.init : Dec := ⟨128, fun _ => none⟩

/-- a chunk stream changes -/
def Dec.set (d : Dec) (i : Nat) (s : Stream) : Dec := { d with streams := fun j => if j = i then some s else d.streams j }

/-- the number of the type -/
def Form.num : Form → Nat
  | .full .. => 0
  | .sameStream .. => 1
  | .sameKind .. => 2
  | .same => 3

/-- the basic header (section 5.3.1.1) -/
def Chunk.id (c : Chunk) : Bytes :=
  if c.long ∨ c.cs ≥ 320 then [UInt8.ofNat (64 * c.form.num + 1), UInt8.ofNat ((c.cs - 64) % 256), UInt8.ofNat ((c.cs - 64) / 256)]
  else if c.cs ≥ 64 then [UInt8.ofNat (64 * c.form.num), UInt8.ofNat (c.cs - 64)]
  else [UInt8.ofNat (64 * c.form.num + c.cs)]

/-- a timestamp or difference in three bytes, or the sign that it comes later -/
def stamp (v : UInt32) : Bytes := be 3 (min v.toNat 0xffffff)

/-- the extended timestamp (section 5.3.1.3) -/
def extended (v : UInt32) : Bytes := if v.toNat ≥ 0xffffff then be 4 v.toNat else []

/-- the message header (section 5.3.1.2) -/
def Form.bytes : Form → Bytes
  | .full ts len type sid => stamp ts ++ be 3 len ++ [type] ++ (be 4 sid.toNat).reverse
  | .sameStream delta len type => stamp delta ++ be 3 len ++ [type]
  | .sameKind delta => stamp delta
  | .same => []

/-- the timestamp or difference that a chunk has -/
def Dec.time (d : Dec) (c : Chunk) : UInt32 :=
  match c.form with
  | .full ts .. => ts
  | .sameStream delta .. => delta
  | .sameKind delta => delta
  | .same => ((d.streams c.cs).map (·.delta)).getD 0

/-- a chunk on the wire -/
def Dec.wire (d : Dec) (c : Chunk) : Bytes := c.id ++ c.form.bytes ++ extended (d.time c) ++ c.data

/-- the chunk stream when the header of a chunk is known: headers that say something begin a message; type 3 goes on with one if there is one,
else it begins one like the last (section 5.3.1.2.4) -/
def Dec.begin (d : Dec) (c : Chunk) : Option Stream :=
  match c.form, d.streams c.cs with
  | .full ts len type sid, _ => some ⟨sid, ts, ts, len, type, []⟩
  | .sameStream delta len type, some s => some ⟨s.sid, s.ts + delta, delta, len, type, []⟩
  | .sameKind delta, some s => some ⟨s.sid, s.ts + delta, delta, s.len, s.type, []⟩
  | .same, some s => some (if s.part = [] then { s with ts := s.ts + s.delta } else s)
  | _, none => none

/-- a number, most significant byte first -/
def num (b : Bytes) : Nat := b.foldl (fun a c => a * 256 + c.toNat) 0

/-- protocol control messages (section 5.4) -/
def isControl (type : UInt8) : Bool := type = 1 || type = 2 || type = 3 || type = 5 || type = 6

/-- what protocol control messages do to the chunk streams: 1 sets the chunk size, 2 has a message begun forgotten. They are of stream 0. -/
def Dec.obey (d : Dec) (m : Message) : Option Dec :=
  if isControl m.type = false then some d
  else if m.sid ≠ 0 ∨ m.payload.length < 4 then none
  else
    let n := num (m.payload.take 4)
    if m.type = 1 then (if 0 < n ∧ n < 2 ^ 31 then some { d with size := n } else none)
    else if m.type = 2 then
      if 2 ≤ n ∧ n ≤ 65599 then (d.streams n).map fun s => d.set n { s with part := [] } else none
    else if m.type = 6 ∧ m.payload.length < 5 then none
    else some d

/-- A chunk is received: its data is as much of the message as there is, up to the chunk size; when the message is whole it is heard. -/
def Dec.take (d : Dec) (c : Chunk) : Option (Dec × List Message) :=
  (d.begin c).bind fun s =>
    if c.data.length ≠ min d.size (s.len - s.part.length) then none
    else
      let p := s.part ++ c.data
      if p.length = s.len then ((d.set c.cs { s with part := [] }).obey ⟨s.sid, s.type, s.ts, p⟩).map fun d => (d, [⟨s.sid, s.type, s.ts, p⟩])
      else some (d.set c.cs { s with part := p }, [])

/-- the fields fit in their bits -/
def Chunk.Fits (c : Chunk) : Prop :=
  2 ≤ c.cs ∧ c.cs ≤ 65599 ∧ (c.long = true → 64 ≤ c.cs) ∧
    match c.form with
    | .full _ len _ _ => len < 2 ^ 24
    | .sameStream _ len _ => len < 2 ^ 24
    | _ => True

/-- A sequence of chunks is received: its bytes, what is remembered in the end, the messages heard; `none` if it isn't allowed. -/
def Dec.hear (d : Dec) : List Chunk → Option (Bytes × Dec × List Message)
  | [] => some ([], d, [])
  | c :: l =>
    (d.take c).bind fun (d', m) => (d'.hear l).map fun (b, e, n) => (d.wire c ++ b, e, m ++ n)

/-- the messages that aren't for the protocol itself -/
def users (l : List Message) : List Message := l.filter fun m => !isControl m.type

end Rtmfp.Spec.Chunks
