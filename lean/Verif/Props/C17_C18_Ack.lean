import Verif.Lemmas.Ack
import Verif.Props.C04_C06_Packet

/-!
# C17, C18: acknowledgements

`packet` is any packet under construction, `f` any receive flow reached by calls (any chunks at all). What an acknowledgement
means is said with the list of ranges the sender hands to its queue.
-/

namespace Rtmfp
open RFlow (Exec Op64 chunksOf)
open Spec (Covered)
open IndexSet (Mem)

/-- the sender takes number `i` as acknowledged -/
def Acked (d : Ack.Decoded) (i : Nat) : Prop := ∃ r ∈ d.ranges, r.1 ≤ i ∧ i ≤ r.2

/-- the chunks a receiver finds in the bytes `bs` at the end of a packet, whatever encryption padding follows -/
def ChunksAre (bs : Bytes) (cs : List (UInt8 × Bytes)) : Prop :=
  ∀ pos pad, isPadding pad → (parseChunks pos (bs ++ pad)).map (fun c => (c.type, c.payload)) = cs

theorem chunks_wire (cs : List (UInt8 × Bytes)) (hl : ∀ c ∈ cs, c.2.length < 65536) : ChunksAre (cs.flatMap (fun c => PA.wire c.1 c.2)) cs := by
  intro pos pad hp
  induction cs generalizing pos with
  | nil => simp [parseChunks_padding pos pad hp]
  | cons c cs ih =>
    have hv := be16_value _ (hl c (by simp))
    simp only [List.flatMap_cons, PA.wire, PA.be16, List.cons_append, List.append_assoc, List.nil_append]
    rw [parseChunks, hv, if_neg (by simp)]
    simp only [List.map_cons, List.take_left, List.drop_left]
    congr 1
    exact ih (fun c' hc' => hl c' (by simp [hc'])) _

/-- The chunks sent before the acknowledgement: an ECN report if asked for, an exception report if the flow was rejected. -/
def preamble (f : RFlow) (flowId : Nat) (ecn : Option UInt8) : List (UInt8 × Bytes) :=
  (match ecn with | none => [] | some c => [((0xec : UInt8), ([c] : Bytes))]) ++
  (if f.state = .rejected then [((0x5e : UInt8), VLU.encode flowId ++ VLU.encode f.exceptionCode)] else [])

theorem mem_flatMap_length (cs : List (UInt8 × Bytes)) (c : UInt8 × Bytes) (h : c ∈ cs) :
    c.2.length ≤ (cs.flatMap (fun c => PA.wire c.1 c.2)).length := by
  induction cs with
  | nil => cases h
  | cons d cs ih =>
    rw [List.flatMap_cons, List.length_append, PA.wire_length]
    rcases List.mem_cons.mp h with rfl | h
    · omega
    · have := ih h; omega

theorem ack_sound {p : PA} (hp : p.Inv) (hl : p.limit < 65536) {ops : List RFlow.Op} {f : RFlow} {ev : List REv} (h : Exec Op64 RFlow.init ops f ev)
    (flowId : Nat) (hid : flowId < 2 ^ 63) (ecn : Option UInt8) (tr : Bool) (q : PA) (hs : Ack.assemble p f flowId ecn tr = some (q, true)) :
    ∃ bs pl d, q.toVector = p.toVector ++ bs ∧ ChunksAre bs (preamble f flowId ecn ++ [(0x51, pl)]) ∧ Ack.decode pl = some d ∧
      d.flowId = flowId ∧ d.bufferBytes = Ack.blocksToBytes f.advertiseBlocks ∧
      (∀ i, i ≤ f.csn → Acked d i) ∧ (∀ i, 1 ≤ i → Acked d i → Mem f.seqs i) ∧
      (tr = false → ∀ i, 1 ≤ i → Mem f.seqs i → Acked d i) := by
  obtain ⟨h1, h2, h3, _⟩ := RFlow.exec_seqs h
  obtain ⟨q', b, pl, t, a1, a2, _, a4⟩ := Ack.assemble_run hp h1 h2 flowId ecn tr
  rw [hs] at a1
  simp only [Option.some.injEq, Prod.mk.injEq] at a1
  obtain ⟨rfl, rfl⟩ := a1
  obtain ⟨b1, b2, ⟨k, extra, b3, b4, b5⟩, b6⟩ := a4 rfl
  obtain ⟨o1, o2, o3, _, o5⟩ := Ack.above_ok h1 h2
  have hk : IndexSet.Canon ((Ack.above f).take k) ∧ Ack.Gap f.csn ((Ack.above f).take k) := by
    have hcan : ∀ (l : List Range) (k : Nat), IndexSet.Canon l → IndexSet.Canon (l.take k) := by
      intro l
      induction l with
      | nil => intro k _; rw [List.take_nil]; exact trivial
      | cons r l ih =>
        intro k hc
        cases k with
        | zero => exact trivial
        | succ k => exact ⟨hc.1, hc.2.1, fun q hq => hc.2.2.1 q (List.mem_of_mem_take hq), ih k hc.2.2.2⟩
    exact ⟨hcan _ _ o1, fun q hq => o2 q (List.mem_of_mem_take hq)⟩
  have hd := Ack.decode_payload (f := f) hid o3 _ hk.1 hk.2 extra b5
  rw [← b3] at hd
  refine ⟨_, pl, _, b2, ?_, hd, rfl, rfl, ?_, ?_, ?_⟩
  · show ChunksAre _ (Ack.before f flowId ecn ++ [(CHUNK_ACK_RANGES, pl)])
    refine chunks_wire _ fun c hc => ?_
    have e1 := mem_flatMap_length _ c hc
    have e2 : q.toVector.length = q.cursor := by
      have := b1.cur; have := b1.lim; simp [PA.toVector]; omega
    have e3 := congrArg List.length b2
    rw [List.length_append] at e3
    have := b1.cur
    have := a2.2.1
    omega
  · intro i hi
    exact ⟨(0, f.csn), by simp, Nat.zero_le _, hi⟩
  · rintro i hi ⟨r, hr, hr1, hr2⟩
    rw [o5 i hi]
    rcases List.mem_cons.mp hr with rfl | hr
    · exact .inl hr2
    · obtain ⟨x, hx, rfl⟩ := List.mem_map.mp hr
      exact .inr ⟨x, List.mem_of_mem_take hx, hr1, hr2⟩
  · intro htr i hi hm
    have ht : t = false := by
      cases ht : t with
      | false => rfl
      | true => rw [b6 ht] at htr; cases htr
    obtain ⟨c1, _⟩ := b4 ht
    rcases (o5 i hi).1 hm with hh | ⟨x, hx, h5, h6⟩
    · exact ⟨(0, f.csn), by simp, Nat.zero_le _, hh⟩
    · refine ⟨(x.start, x.stop), ?_, h5, h6⟩
      rw [c1]
      exact List.mem_cons_of_mem _ (List.mem_map.mpr ⟨x, hx, rfl⟩)

/-- C17. For any calls and chunks, an acknowledgement assembled without permission to truncate (in any packet, with or without the
other reports) appends chunks that parse, under any padding, to the reports and one acknowledgement chunk, which the sender decodes to
the same flow, and exactly the numbers that arrived or were skipped. -/
theorem C17_ack_exact (p : PA) (hp : p.Reachable) (hl : p.limit < 65536) (ops : List RFlow.Op) (f : RFlow) (ev : List REv)
    (h : Exec Op64 RFlow.init ops f ev) (flowId : Nat) (hid : flowId < 2 ^ 63) (ecn : Option UInt8) (q : PA)
    (hs : Ack.assemble p f flowId ecn false = some (q, true)) :
    ∃ bs pl d, q.toVector = p.toVector ++ bs ∧ ChunksAre bs (preamble f flowId ecn ++ [(0x51, pl)]) ∧ Ack.decode pl = some d ∧
      d.flowId = flowId ∧ d.bufferBytes = Ack.blocksToBytes f.advertiseBlocks ∧
      ∀ i, 1 ≤ i → (Acked d i ↔ Covered (chunksOf ops) i) := by
  obtain ⟨bs, pl, d, a1, a2, a3, a4, a5, a6, a7, a8⟩ := ack_sound hp.inv hl h flowId hid ecn false q hs
  obtain ⟨_, _, h3, _⟩ := RFlow.exec_seqs h
  exact ⟨bs, pl, d, a1, a2, a3, a4, a5, fun i hi => ⟨fun hh => (h3 i).1 (a7 i hi hh), fun hh => a8 rfl i hi ((h3 i).2 hh)⟩⟩

/-- C18. With permission to truncate, whatever room is left in the packet, the sender decodes only numbers that arrived or were skipped, and
at least all numbers up to the cumulative one. -/
theorem C18_truncated_subset (p : PA) (hp : p.Reachable) (hl : p.limit < 65536) (ops : List RFlow.Op) (f : RFlow) (ev : List REv)
    (h : Exec Op64 RFlow.init ops f ev) (flowId : Nat) (hid : flowId < 2 ^ 63) (ecn : Option UInt8) (tr : Bool) (q : PA)
    (hs : Ack.assemble p f flowId ecn tr = some (q, true)) :
    ∃ bs pl d, q.toVector = p.toVector ++ bs ∧ ChunksAre bs (preamble f flowId ecn ++ [(0x51, pl)]) ∧ Ack.decode pl = some d ∧
      d.flowId = flowId ∧ (∀ i, 1 ≤ i → Acked d i → Covered (chunksOf ops) i) ∧
      ∀ n, (∀ i, 1 ≤ i → i ≤ n → Covered (chunksOf ops) i) → ∀ i, i ≤ n → Acked d i := by
  obtain ⟨bs, pl, d, a1, a2, a3, a4, a5, a6, a7, a8⟩ := ack_sound hp.inv hl h flowId hid ecn tr q hs
  obtain ⟨h1, h2, h3, _⟩ := RFlow.exec_seqs h
  refine ⟨bs, pl, d, a1, a2, a3, a4, fun i hi hh => (h3 i).1 (a7 i hi hh), fun n hn i hi => a6 i ?_⟩
  exact Nat.le_trans hi ((RFlow.csn_iff h1 h2 n).2 fun j j1 j2 => (h3 j).2 (hn j j1 j2))

/-- C18. An acknowledgement that is refused leaves the packet as it was; assembling never uses a chunk that was not started. -/
theorem C18_refused_leaves_packet (p : PA) (hp : p.Reachable) (ops : List RFlow.Op) (f : RFlow) (ev : List REv)
    (h : Exec Op64 RFlow.init ops f ev) (flowId : Nat) (ecn : Option UInt8) (tr : Bool) :
    ∃ q b, Ack.assemble p f flowId ecn tr = some (q, b) ∧ q.buf.length = p.buf.length ∧ q.buf.drop p.limit = p.buf.drop p.limit ∧
      (b = false → q.toVector = p.toVector ∧ q.remaining = p.remaining) := by
  obtain ⟨h1, h2, h3, _⟩ := RFlow.exec_seqs h
  obtain ⟨q, b, pl, t, a1, a2, a3, _⟩ := Ack.assemble_run hp.inv h1 h2 flowId ecn tr
  refine ⟨q, b, a1, a2.1, a2.2.2.2.1, fun hb => ⟨(a3 hb).2, ?_⟩⟩
  rw [PA.remaining, PA.remaining, (a3 hb).1, a2.2.1]

/-- C18. An acknowledgement that may be truncated is always sent if 60 bytes are left in the packet. -/
theorem C18_fits_in_60_bytes (p : PA) (hp : p.Reachable) (ops : List RFlow.Op) (f : RFlow) (ev : List REv)
    (h : Exec Op64 RFlow.init ops f ev) (flowId : Nat) (hid : flowId < 2 ^ 63) (he : f.exceptionCode < 2 ^ 64) (ecn : Option UInt8)
    (hr : 60 ≤ p.remaining) : ∃ q, Ack.assemble p f flowId ecn true = some (q, true) := by
  obtain ⟨h1, h2, h3, _⟩ := RFlow.exec_seqs h
  have hi := hp.inv
  have := hi.cur
  rw [hi.remaining] at hr
  exact Ack.assemble_room hi f (Ack.above_ok h1 h2).2.2.1 flowId (by omega) he ecn (by omega)

/-- a flow that has received 1, 2, 5, 6, 7 and 300 -/
def exampleOps : List RFlow.Op :=
  [.accept, .data 0 1 0 [1] 2 RFlow.quiet, .data 0 2 0 [2] 3 RFlow.quiet, .data 0 5 0 [5] 4 RFlow.quiet, .data 0 6 0 [6] 5 RFlow.quiet, .data 0 7 0 [7] 6 RFlow.quiet,
   .data 0 300 0 [9] 7 RFlow.quiet]

theorem exampleExec : ∃ f ev, Exec Op64 RFlow.init exampleOps f ev ∧ f.seqs = [⟨0, 2⟩, ⟨5, 7⟩, ⟨300, 300⟩] ∧ f.advertiseBlocks = 64 ∧
    f.state = .opened ∧ f.exceptionCode = 0 := by
  refine ⟨_, _, .snoc (.snoc (.snoc (.snoc (.snoc (.snoc (.snoc .nil trivial rfl) ?_ rfl) ?_ rfl) ?_ rfl) ?_ rfl) ?_ rfl) ?_ rfl, ?_⟩ <;>
    first | exact ⟨by decide, by decide⟩ | decide

/-- a packet with room for `n` bytes after the header -/
def examplePacket (n : Nat) : PA := PA.initHeader (List.replicate (n + 24) 0) 2 (n + 7) 0 none none

/-- assembling and decoding, for the example -/
def exampleDecode (n : Nat) (f : RFlow) (tr : Bool) : Option Ack.Decoded :=
  match Ack.assemble (examplePacket n) f 9 none tr with
  | some (q, true) => Ack.decode (q.toVector.drop 6)
  | _ => none

/-- the hypotheses hold for a flow with gaps: with room for 40 bytes the acknowledgement is exact, with room for 8 it is refused or truncated -/
example : ∃ f ev, Exec Op64 RFlow.init exampleOps f ev ∧
    exampleDecode 40 f false = some ⟨9, 65536, [(0, 2), (5, 7), (300, 300)]⟩ ∧
    exampleDecode 4 f true = some ⟨9, 65536, [(0, 2), (5, 7)]⟩ ∧
    exampleDecode 4 f false = none ∧ exampleDecode 2 f true = some ⟨9, 65536, [(0, 2)]⟩ ∧ exampleDecode 0 f true = none := by
  refine ⟨_, _, .snoc (.snoc (.snoc (.snoc (.snoc (.snoc (.snoc .nil trivial rfl) ?_ rfl) ?_ rfl) ?_ rfl) ?_ rfl) ?_ rfl) ?_ rfl, ?_⟩ <;>
    first | exact ⟨by decide, by decide⟩ | decide +kernel

example (n : Nat) (h : n < 60000) : (examplePacket n).Reachable ∧ (examplePacket n).limit < 65536 := by
  refine ⟨.inr ⟨_, _, _, _, _, _, [], [], ?_, ?_, ?_, rfl⟩, ?_⟩
  · omega
  · rw [List.length_replicate]; omega
  · omega
  · show n + 7 < 65536
    omega

end Rtmfp
