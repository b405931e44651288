import Verif.Lemmas.SendExec
import Verif.Model.UserData
import Verif.Model.Ack

/-!
# One flow from end to end

The sending side of a session (any number of flows), the receiving flow that belongs to flow `i`, and what is between them: a network that loses, repeats,
delays and reorders, but doesn't invent or change anything (packets are authenticated).

Simplifications: a packet is read as soon as it is made, into the collection `wire` of data chunks that may arrive, each any number of times and in any order (so also parts
of a packet may arrive); what the receiver has read in the same packet before the data of flow `i` (`pos`, `st`) is arbitrary; acknowledgements are decoded as soon as they are assembled, into the collection `acks`
of those that may arrive.
-/

namespace Rtmfp

/-- The state of the system with its history. -/
structure Two where
  /-- what happened at the sender, its state, and what was observed there -/
  ops : List SS.Op
  s : SS
  evs : List SS.Ev
  /-- what happened at the receiving flow, its state, and what was observed there -/
  rops : List RFlow.Op
  f : RFlow
  revs : List REv
  /-- data of the flow that may arrive at the receiver -/
  wire : List UserData
  /-- acknowledgements that may arrive at the sender -/
  acks : List Ack.Decoded

/-- the chunks of the bytes added to a packet: src/Session.cpp:39-90 -/
def chunksIn (pos : Nat) (bytes : Bytes) : List (UInt8 × Bytes) := (parseChunks pos bytes).map fun c => (c.type, c.payload)

/-- The system for flow `i` and a receiving flow that is `f0` in the beginning; `user` says which calls the receiver makes by itself (the user's, timers) or with arriving data. -/
inductive Sys (i : Nat) (f0 : RFlow) (user : RFlow → RFlow.Op → Prop) : Two → Prop
  | start : Sys i f0 user ⟨[], SS.init, [], [], f0, [], [], []⟩
  /-- anything at the sender except that flow `i` adds data to a packet or receives an acknowledgement -/
  | send {w op t es} : Sys i f0 user w → SS.Allowed w.ops w.s op → SS.step w.s op = some (t, es) → (∀ b rs, op ≠ .ack i b rs) → (∀ p pri now gone, op ≠ .transmit i p pri now gone) →
      Sys i f0 user { w with ops := w.ops ++ [op], s := t, evs := w.evs ++ es }
  /-- src/Session.cpp:1478-1555, 1866-1966: flow `i` adds data to a packet with less than 64 kB (1200 bytes in fact), whose flags are in its header; it is read -/
  | transmit {w p pri now gone t es us} (pos : Nat) (st : Parsing) : Sys i f0 user w → SS.Allowed w.ops w.s (.transmit i p pri now gone) → SS.step w.s (.transmit i p pri now gone) = some (t, es) →
      p.limit < 65536 → (∀ j, p.flags = some j → j < p.cursor) → (w.s.flow i).nextSn ≤ 2 ^ 64 →
      (∀ u ∈ us, ∃ fsn cs pk, SS.Ev.sent i fsn cs pk ∈ es ∧ u ∈ userDatas st (chunksIn pos (pk.toVector.drop p.cursor))) →
      Sys i f0 user { w with ops := w.ops ++ [.transmit i p pri now gone], s := t, evs := w.evs ++ es, wire := w.wire ++ us }
  /-- src/Session.cpp:1390-1434: data arrives; `nm` is the name the receive buffer gives to it -/
  | arrive {w u nm rc f' ev'} : Sys i f0 user w → u ∈ w.wire → nm ∉ w.f.buf.map (·.1) → user w.f (.data u.flags u.sn u.fsn u.data nm rc) → w.f.step (.data u.flags u.sn u.fsn u.data nm rc) = .ok (f', ev') →
      Sys i f0 user { w with rops := w.rops ++ [.data u.flags u.sn u.fsn u.data nm rc], f := f', revs := w.revs ++ ev' }
  /-- anything else at the receiver -/
  | local {w rop f' ev'} : Sys i f0 user w → (∀ flags sn fsn data nm rc, rop ≠ .data flags sn fsn data nm rc) → user w.f rop → w.f.step rop = .ok (f', ev') →
      Sys i f0 user { w with rops := w.rops ++ [rop], f := f', revs := w.revs ++ ev' }
  /-- src/RecvFlow.cpp:427-486, src/Session.cpp:2034-2067: the receiver adds an acknowledgement to a packet, where it is found and decoded; a packet without
  acknowledgement chunks is not affected -/
  | acknowledge {w p flowId ecn tr q pos pad pl d} : Sys i f0 user w → p.Inv → p.limit < 65536 → flowId < 2 ^ 63 → Ack.assemble p w.f flowId ecn tr = some (q, true) → isPadding pad →
      (CHUNK_ACK_RANGES, pl) ∈ chunksIn pos (q.toVector.drop p.cursor ++ pad) → Ack.decode pl = some d →
      Sys i f0 user { w with acks := w.acks ++ [d] }
  /-- an acknowledgement arrives at the sender -/
  | ack {w d t es} : Sys i f0 user w → d ∈ w.acks → SS.Allowed w.ops w.s (.ack i d.bufferBytes d.ranges) → SS.step w.s (.ack i d.bufferBytes d.ranges) = some (t, es) →
      Sys i f0 user { w with ops := w.ops ++ [.ack i d.bufferBytes d.ranges], s := t, evs := w.evs ++ es }

end Rtmfp
