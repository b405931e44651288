import Verif.Model.VLU

/-!
# Model of `src/PacketAssembler.cpp` and of the packet parser `ISession::onReceivePacket`

The memory block the assembler writes to is a list `buf` starting at `m_buf`; pointers are offsets
from `m_buf`.  `buf` may be longer than `m_limit`: the theorems show that nothing at or after the limit
is ever modified.
-/

namespace Rtmfp

/-- include/rtmfp/packet.hpp:8-13 header flags. -/
def HEADER_FLAG_TC : UInt8 := 0x80
/-- include/rtmfp/packet.hpp:9 -/
def HEADER_FLAG_TCR : UInt8 := 0x40
/-- include/rtmfp/packet.hpp:10 -/
def HEADER_FLAG_TS : UInt8 := 0x08
/-- include/rtmfp/packet.hpp:11 -/
def HEADER_FLAG_TSE : UInt8 := 0x04
/-- include/rtmfp/packet.hpp:13 -/
def HEADER_FLAG_MOD_MASK : UInt8 := 0x03

/-- `memmove(buf + pos, bytes, len)` / `*p++ = …`.  If the write does not fit inside `buf` the list
gets longer, which the theorems exclude (`C04_assembler_in_bounds`: the length never changes). -/
def poke (buf : Bytes) (pos : Nat) (bytes : Bytes) : Bytes :=
  buf.take pos ++ bytes ++ buf.drop (pos + bytes.length)

/-- include/rtmfp/PacketAssembler.hpp:25-30, pointers as offsets from `m_buf`. -/
structure PA where
  buf : Bytes
  frontMargin : Nat
  limit : Nat
  cursor : Nat
  chunkStart : Option Nat
  flags : Option Nat
deriving Repr

namespace PA

/-- src/PacketAssembler.cpp:13-21 `init(buf, frontMargin, maxLen)`. -/
def init (buf : Bytes) (frontMargin maxLen : Nat) : PA :=
  { buf, frontMargin, limit := maxLen, cursor := frontMargin, chunkStart := none, flags := none }

/-- The unchecked `*m_cursor++ = …` of `init`. -/
def put (p : PA) (bs : Bytes) : PA :=
  { p with buf := poke p.buf p.cursor bs, cursor := p.cursor + bs.length }

/-- `{ (v >> 8) & 0xff, v & 0xff }` -/
def be16 (v : Nat) : Bytes := [UInt8.ofNat ((v >>> 8) &&& 0xff), UInt8.ofNat (v &&& 0xff)]

/-- src/PacketAssembler.cpp:27-31: the flags byte of the header. -/
def headerFlags (flags_ : UInt8) (ts tse : Option Nat) : UInt8 :=
  let flags := flags_ &&& ~~~(HEADER_FLAG_TS ||| HEADER_FLAG_TSE)
  let flags := if ts.isSome then flags ||| HEADER_FLAG_TS else flags
  if tse.isSome then flags ||| HEADER_FLAG_TSE else flags

/-- src/PacketAssembler.cpp:33-34: `m_flags = m_cursor++; *m_flags = flags`. -/
def putFlags (p : PA) (flags : UInt8) : PA := { p.put [flags] with flags := some p.cursor }

/-- src/PacketAssembler.cpp:36-40 and 41-45: a timestamp if not negative. -/
def putTimestamp (p : PA) : Option Nat → PA
  | some t => p.put (be16 t)
  | none => p

/-- src/PacketAssembler.cpp:23-46 `init` with a packet header; `ts`, `tse` are `none` when negative. -/
def initHeader (buf : Bytes) (frontMargin maxLen : Nat) (flags_ : UInt8) (ts tse : Option Nat) : PA :=
  (((init buf frontMargin maxLen).putFlags (headerFlags flags_ ts tse)).putTimestamp ts).putTimestamp tse

/-- src/PacketAssembler.cpp:135-138 `remaining()`: the pointer difference becomes a `size_t`, so it wraps if the
cursor has run past the limit. -/
def remaining (p : PA) : Nat :=
  if p.cursor ≤ p.limit then p.limit - p.cursor else W64 - (p.cursor - p.limit)

/-- src/PacketAssembler.cpp:140-143 `toVector()`. -/
def toVector (p : PA) : Bytes := p.buf.take p.cursor

/-- src/PacketAssembler.cpp:48-59 `startChunk`. -/
def startChunk (p : PA) (type : UInt8) : PA × Bool :=
  if p.remaining < 3 then (p, false)
  else
    let p := p.put [type, 0, 0]
    ({ p with chunkStart := some p.cursor }, true)

/-- src/PacketAssembler.cpp:69-78 `push(bytes, len)`; also 61-67 `push(byte)` (with one byte) and
80-83 `push(vector)`. -/
def push (p : PA) (bytes : Bytes) : PA × Bool :=
  if p.remaining < bytes.length then (p, false) else (p.put bytes, true)

/-- src/PacketAssembler.cpp:101-106 `pushVLU`. -/
def pushVLU (p : PA) (val : Nat) : PA × Bool := p.push (VLU.encode val)

/-- src/PacketAssembler.cpp:85-94 `pushField`: restores the cursor (not the bytes) on failure. -/
def pushField (p : PA) (bytes : Bytes) : PA × Bool :=
  let r1 := p.pushVLU bytes.length
  if r1.2 then
    let r2 := r1.1.push bytes
    if r2.2 then (r2.1, true) else ({ r2.1 with cursor := p.cursor }, false)
  else ({ r1.1 with cursor := p.cursor }, false)

/-- src/PacketAssembler.cpp:108-111 `setTimeCriticalFlag`; `none` is the null-pointer write when the
packet was initialized without a header. -/
def setTimeCriticalFlag (p : PA) : Option PA :=
  match p.flags with
  | none => none
  | some i => some { p with buf := p.buf.set i (p.buf.getD i 0 ||| HEADER_FLAG_TC) }

/-- src/PacketAssembler.cpp:118-124 `commitChunk`; `none` is the null-pointer arithmetic when no chunk
was started.  The length field is 16 bits. -/
def commitChunk (p : PA) : Option PA :=
  match p.chunkStart with
  | none => none
  | some s =>
    let chunkLength := p.cursor - s
    some { p with buf := poke p.buf (s - 2) (be16 chunkLength), chunkStart := none }

/-- src/PacketAssembler.cpp:126-133 `rollbackChunk`. -/
def rollbackChunk (p : PA) : PA :=
  match p.chunkStart with
  | none => p
  | some s => { p with cursor := s - 3, chunkStart := none }

/-- The calls a user of the assembler can make after `init`. -/
inductive Op where
  | startChunk (type : UInt8)
  | push (bytes : Bytes)
  | pushField (bytes : Bytes)
  | pushVLU (val : Nat)
  | setTC
  | commit
  | rollback
deriving Repr

/-- One call: new state and returned value (`true` for `void`); `none` if the call dereferences a null
pointer. -/
def step (p : PA) : Op → Option (PA × Bool)
  | .startChunk t => some (p.startChunk t)
  | .push bs => some (p.push bs)
  | .pushField bs => some (p.pushField bs)
  | .pushVLU v => some (p.pushVLU v)
  | .setTC => p.setTimeCriticalFlag.map (·, true)
  | .commit => p.commitChunk.map (·, true)
  | .rollback => some (p.rollbackChunk, true)

/-- A sequence of calls, with the returned values. -/
def run (p : PA) : List Op → Option (PA × List Bool)
  | [] => some (p, [])
  | op :: ops =>
    match p.step op with
    | none => none
    | some (p', r) => (run p' ops).map (fun x => (x.1, r :: x.2))

end PA

/-- The packet header as seen by `onPacketHeader`. -/
structure PacketHeader where
  flags : UInt8
  ts : Option Nat
  tse : Option Nat
deriving DecidableEq, Repr

/-- Reads a big-endian 16-bit field if there are two bytes (src/Session.cpp:57-60). -/
def rd16 : Bytes → Option (Nat × Bytes)
  | a :: b :: r => some ((a.toNat <<< 8) + b.toNat, r)
  | _ => none

/-- src/Session.cpp:48-68: header of a decrypted packet (front margin removed); the empty packet is
refused at 44. -/
def parseHeader : Bytes → Option (PacketHeader × Bytes)
  | [] => none
  | flags :: r0 =>
    let tsr : Option (Option Nat × Bytes) :=
      if flags &&& HEADER_FLAG_TS ≠ 0 then (rd16 r0).map (fun x => (some x.1, x.2)) else some (none, r0)
    match tsr with
    | none => none
    | some (ts, r1) =>
      let tser : Option (Option Nat × Bytes) :=
        if flags &&& HEADER_FLAG_TSE ≠ 0 then (rd16 r1).map (fun x => (some x.1, x.2)) else some (none, r1)
      match tser with
      | none => none
      | some (tse, r2) => some (⟨flags, ts, tse⟩, r2)

/-- A dispatched chunk: type, offset of its first payload byte, payload. -/
structure Chunk where
  type : UInt8
  offset : Nat
  payload : Bytes
deriving DecidableEq, Repr

/-- src/Session.cpp:74-85: the chunk loop; `pos` is the offset of the cursor.  The result is the
sequence of `onChunk` calls. -/
def parseChunks (pos : Nat) : Bytes → List Chunk
  | t :: a :: b :: rest =>
    let chunkLength := (a.toNat <<< 8) + b.toNat
    if chunkLength > rest.length then []
    else ⟨t, pos + 3, rest.take chunkLength⟩ ::
      parseChunks (pos + 3 + chunkLength) (rest.drop chunkLength)
  | _ => []
termination_by bs => bs.length
decreasing_by simp; omega

/-- src/Session.cpp:39-90: header then the dispatched chunks (with `onPacketHeader` accepting). -/
def parsePacket (bytes : Bytes) : Option (PacketHeader × List Chunk) :=
  match parseHeader bytes with
  | none => none
  | some (h, rest) => some (h, parseChunks (bytes.length - rest.length) rest)

end Rtmfp
