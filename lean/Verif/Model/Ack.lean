import Verif.Model.Packet
import Verif.Model.RecvFlow

/-!
# Model of acknowledgement assembly and decoding

The receiver writes an acknowledgement with `RecvFlow::assembleAck`, the sender reads it with `Session::onAckChunk` and the loop
of `SendFlow::onAck`.
-/

namespace Rtmfp

/-- include/rtmfp/packet.hpp:35 -/
def CHUNK_ACK_RANGES : UInt8 := 0x51
/-- include/rtmfp/packet.hpp:37 -/
def CHUNK_EXCEPTION : UInt8 := 0x5e
/-- include/rtmfp/packet.hpp:43 -/
def CHUNK_ECN_REPORT : UInt8 := 0xec

namespace Ack

/-- src/RecvFlow.cpp:461-473: the callback of `extentsDo`, over all ranges; `true`: truncated.  `uintmax_t` subtraction wraps. -/
def ranges (p : PA) (ackCursor : Nat) : List Range → PA × Bool
  | [] => (p, false)
  | r :: rest =>
    if r.start = 0 then ranges p ackCursor rest
    else
      let holesMinusOne := (r.start + (36893488147419103232 - ackCursor - 2)) % W64
      let receivedMinusOne := (r.stop + (W64 - r.start)) % W64
      let a := p.pushVLU holesMinusOne
      if a.2 = false then (a.1, true)
      else
        let b := a.1.pushVLU receivedMinusOne
        if b.2 = false then (b.1, true) else ranges b.1 r.stop rest

/-- src/Session.cpp:923-932 `assembleEcnReport`; the answer is `none` for the null pointer arithmetic of a commit without start. -/
def ecnReport (p : PA) (count : UInt8) : Option (PA × Bool) :=
  let a := p.startChunk CHUNK_ECN_REPORT
  if a.2 = false then some (a.1, false)
  else
    let b := a.1.push [count]
    if b.2 = false then some (b.1, false) else (b.1.commitChunk).map (·, true)

/-- src/RecvFlow.cpp:445-446. `ecn`: the count to report, if any. -/
def ecnPart (p : PA) : Option UInt8 → Option (PA × Bool)
  | none => some (p, true)
  | some c => ecnReport p c

/-- src/RecvFlow.cpp:448-454: an exception report for a rejected flow. -/
def exceptionPart (p : PA) (f : RFlow) (flowId : Nat) : Option (PA × Bool) :=
  if f.state = .rejected then
    let a := p.startChunk CHUNK_EXCEPTION
    if a.2 = false then some (a.1, false)
    else
      let b := a.1.pushVLU flowId
      if b.2 = false then some (b.1, false)
      else
        let c := b.1.pushVLU f.exceptionCode
        if c.2 = false then some (c.1, false) else (c.1.commitChunk).map (·, true)
  else some (p, true)

/-- src/RecvFlow.cpp:456-478: the acknowledgement chunk. -/
def ackPart (p : PA) (f : RFlow) (flowId : Nat) (truncateAllowed : Bool) : Option (PA × Bool) :=
  let a := p.startChunk CHUNK_ACK_RANGES
  if a.2 = false then some (a.1, false)
  else
    let b := a.1.pushVLU flowId
    if b.2 = false then some (b.1, false)
    else
      let c := b.1.pushVLU f.advertiseBlocks
      if c.2 = false then some (c.1, false)
      else
        let d := c.1.pushVLU f.csn
        if d.2 = false then some (d.1, false)
        else
          let e := ranges d.1 f.csn f.seqs
          if e.2 = true ∧ truncateAllowed = false then some (e.1, false)
          else (e.1.commitChunk).map (·, true)

/-- src/RecvFlow.cpp:483-485: `fail:` sets the cursor back (the start of an uncommitted chunk is not forgotten). -/
def orFail (checkpoint : Nat) (r : Option (PA × Bool)) (k : PA → Option (PA × Bool)) : Option (PA × Bool) :=
  match r with
  | none => none
  | some (q, true) => k q
  | some (q, false) => some ({ q with cursor := checkpoint }, false)

/-- src/RecvFlow.cpp:427-486 `assembleAck`: the packet and the answer; what changes in the flow is `RFlow.ackSent`. -/
def assemble (p : PA) (f : RFlow) (flowId : Nat) (ecn : Option UInt8) (truncateAllowed : Bool) : Option (PA × Bool) :=
  orFail p.cursor (ecnPart p ecn) fun p1 =>
    orFail p.cursor (exceptionPart p1 f flowId) fun p2 =>
      orFail p.cursor (ackPart p2 f flowId truncateAllowed) fun p3 => some (p3, true)

/-- src/SendFlow.cpp:574-595: the loop over the disjoint ranges, as the list of `ackRange` arguments. `uintmax_t` addition wraps.
`none`: not ended after `fuel` rounds. -/
def decodeRanges : Nat → Nat → Bytes → Option (List (Nat × Nat))
  | 0, _, _ => none
  | fuel + 1, ackCursor, bs =>
    match VLU.parse bs with
    | none => some []
    | some (holesMinusOne, n1) =>
      match VLU.parse (bs.drop n1) with
      | none => some []
      | some (receivedMinusOne, n2) =>
        let rangeFrom := (ackCursor + 1 + holesMinusOne + 1) % W64
        let rangeTo := (rangeFrom + receivedMinusOne) % W64
        (decodeRanges fuel rangeTo ((bs.drop n1).drop n2)).map ((rangeFrom, rangeTo) :: ·)

/-- What the sender reads from an acknowledgement chunk: flow, free buffer space of the receiver in bytes, and the arguments of the
calls of `ackRange` in order. -/
structure Decoded where
  flowId : Nat
  bufferBytes : Nat
  ranges : List (Nat × Nat)
deriving DecidableEq, Repr

/-- src/Session.cpp:2054-2058. -/
def blocksToBytes (blocks : Nat) : Nat := if blocks > U64MAX / 1024 then U64MAX else blocks * 1024

/-- src/Session.cpp:2034-2065 `onAckChunk` with src/SendFlow.cpp:571-595; `none`: the chunk is ignored. -/
def decode (bs : Bytes) : Option Decoded :=
  match VLU.parse bs with
  | none => none
  | some (flowId, n1) =>
    if flowId > 9223372036854775807 then none
    else match VLU.parse (bs.drop n1) with
      | none => none
      | some (blocks, n2) => match VLU.parse ((bs.drop n1).drop n2) with
        | none => none
        | some (cum, n3) =>
          (decodeRanges (bs.length + 1) cum (((bs.drop n1).drop n2).drop n3)).map
            (fun rs => ⟨flowId, blocksToBytes blocks, (0, cum) :: rs⟩)

end Ack
end Rtmfp
