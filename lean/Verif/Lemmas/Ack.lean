import Verif.Model.Ack
import Verif.Lemmas.Packet
import Verif.Lemmas.IndexSet
import Verif.Lemmas.RecvAll

/-! # Acknowledgements: what assembling writes and what decoding reads -/

namespace Rtmfp

namespace PA

/-- `q` is `p` with `bs` appended, inside the same chunk -/
structure Pushed (p q : PA) (bs : Bytes) : Prop where
  inv : q.Inv
  same : Same p q
  cs : q.chunkStart = p.chunkStart
  vec : q.toVector = p.toVector ++ bs
  cur : q.cursor = p.cursor + bs.length

theorem Pushed.nil {p : PA} (h : p.Inv) : Pushed p p [] := ⟨h, Same.refl _, rfl, by simp, by simp⟩

theorem Pushed.trans {p q r : PA} {a b : Bytes} (x : Pushed p q a) (y : Pushed q r b) : Pushed p r (a ++ b) :=
  ⟨y.inv, x.same.trans y.same, y.cs.trans x.cs, by rw [y.vec, x.vec, List.append_assoc], by rw [y.cur, x.cur, List.length_append]; omega⟩

theorem push_true {p : PA} (h : p.Inv) {bs : Bytes} (ht : (p.push bs).2 = true) : Pushed p (p.push bs).1 bs := by
  obtain ⟨a, b, c, d, _⟩ := push_inv h bs
  exact ⟨a, b, c, (d ht).1, (d ht).2⟩

theorem push_false {p : PA} (h : p.Inv) {bs : Bytes} (hf : (p.push bs).2 = false) : (p.push bs).1 = p :=
  (push_inv h bs).2.2.2.2 hf

theorem push_ok {p : PA} (h : p.Inv) (bs : Bytes) (hr : p.cursor + bs.length ≤ p.limit) : (p.push bs).2 = true := by
  rw [push, h.remaining, if_neg (by omega)]

theorem startChunk_ok {p : PA} (h : p.Inv) (t : UInt8) (hr : p.cursor + 3 ≤ p.limit) : (p.startChunk t).2 = true := by
  rw [startChunk, h.remaining, if_neg (by omega)]

/-- wire format of one chunk -/
def wire (t : UInt8) (pl : Bytes) : Bytes := t :: be16 pl.length ++ pl

theorem wire_length (t : UInt8) (pl : Bytes) : (wire t pl).length = pl.length + 3 := by
  simp [wire, be16]

/-- a chunk started, filled and committed -/
theorem chunk_done {p q : PA} {t : UInt8} {pl : Bytes} (h : p.Inv) (hs : (p.startChunk t).2 = true)
    (hp : Pushed (p.startChunk t).1 q pl) :
    ∃ r, q.commitChunk = some r ∧ r.Inv ∧ Same p r ∧ r.toVector = p.toVector ++ wire t pl ∧
      r.cursor = p.cursor + (wire t pl).length := by
  obtain ⟨a1, a2, a3, _⟩ := startChunk_inv h t
  obtain ⟨b1, b2, b3⟩ := a3 hs
  have hcs : q.chunkStart = some (p.cursor + 3) := by rw [hp.cs, b3]
  have hcm : ∃ r, q.commitChunk = some r := by rw [commitChunk, hcs]; exact ⟨_, rfl⟩
  obtain ⟨r, hr⟩ := hcm
  obtain ⟨c1, c2, _, c4, s, c5, c6⟩ := commit_inv hp.inv hr
  refine ⟨r, hr, c1, (a2.trans hp.same).trans c2, ?_, ?_⟩
  · rw [hcs] at c5
    injection c5 with c5
    have hlen : p.toVector.length = p.cursor := by
      have := h.cur; have := h.lim; simp [toVector]; omega
    rw [c6, hp.vec, b1, hp.cur, b2, ← c5]
    have e2 : p.cursor + 3 + pl.length - (p.cursor + 3) = pl.length := by omega
    rw [e2]
    simp only [poke, be16_length, wire]
    have e1 : p.cursor + 3 - 2 = p.toVector.length + 1 := by omega
    rw [e1]
    have e3 : List.take (p.toVector.length + 1) (p.toVector ++ [t, 0, 0] ++ pl) = p.toVector ++ [t] := by
      rw [List.append_assoc, List.take_length_add_append]; simp
    have e4 : List.drop (p.toVector.length + 1 + 2) (p.toVector ++ [t, 0, 0] ++ pl) = pl := by
      rw [List.append_assoc, Nat.add_assoc, List.drop_length_add_append]; simp
    rw [e3, e4]
    simp
  · rw [c4, hp.cur, b2, wire_length]; omega

end PA

namespace Ack
open PA
open IndexSet (Mem Canon Canon_stop)

/-- bytes of the ranges above `cur` -/
def rangesBytes (cur : Nat) : List Range → Bytes
  | [] => []
  | r :: rest => VLU.encode (r.start - cur - 2) ++ VLU.encode (r.stop - r.start) ++ rangesBytes r.stop rest

/-- all ranges lie above `cur` with a gap -/
def Gap (cur : Nat) (rs : List Range) : Prop := ∀ q ∈ rs, cur + 1 < q.start

theorem ranges_run (rs : List Range) : ∀ (cur : Nat) (p : PA), p.Inv → Canon rs → Gap cur rs →
    ∃ k extra, Pushed p (ranges p cur rs).1 (rangesBytes cur (rs.take k) ++ extra) ∧
      ((ranges p cur rs).2 = false → rs.take k = rs ∧ extra = []) ∧ (extra = [] ∨ ∃ v, v < W64 ∧ extra = VLU.encode v) ∧
      ((ranges p cur rs).2 = true → p.limit < p.cursor + (rangesBytes cur rs).length) := by
  induction rs with
  | nil =>
    intro cur p hp _ _
    exact ⟨0, [], by simpa [ranges, rangesBytes] using Pushed.nil hp, fun _ => ⟨rfl, rfl⟩, .inl rfl, fun h => by simp [ranges] at h⟩
  | cons r rest ih =>
    intro cur p hp hc hg
    have hr := Canon_stop _ hc r (by simp)
    have hgr := hg r (by simp)
    have e1 : (r.start + (36893488147419103232 - cur - 2)) % W64 = r.start - cur - 2 := by
      have : r.start + (36893488147419103232 - cur - 2) = (r.start - cur - 2) + W64 + W64 := by omega
      rw [this, Nat.add_mod_right, Nat.add_mod_right, Nat.mod_eq_of_lt (by omega)]
    have e2 : (r.stop + (W64 - r.start)) % W64 = r.stop - r.start := by
      have : r.stop + (W64 - r.start) = (r.stop - r.start) + W64 := by omega
      rw [this, Nat.add_mod_right, Nat.mod_eq_of_lt (by omega)]
    rw [ranges, if_neg (by omega), e1, e2]
    dsimp only
    rw [pushVLU]
    by_cases ha : (p.push (VLU.encode (r.start - cur - 2))).2 = true
    · have hpa := push_true hp ha
      rw [if_neg (by simp [ha]), pushVLU]
      by_cases hb : ((p.push (VLU.encode (r.start - cur - 2))).1.push (VLU.encode (r.stop - r.start))).2 = true
      · have hpb := push_true hpa.inv hb
        rw [if_neg (by simp [hb])]
        obtain ⟨k, extra, i1, i2, i3, i4⟩ := ih r.stop _ hpb.inv hc.2.2.2 hc.2.2.1
        refine ⟨k + 1, extra, ?_, ?_, i3, ?_⟩
        · have := (hpa.trans hpb).trans i1
          simpa [rangesBytes] using this
        · intro h
          obtain ⟨j1, j2⟩ := i2 h
          exact ⟨by rw [List.take_succ_cons, j1], j2⟩
        · intro h
          have h1 := i4 h
          have h2 := (hpa.trans hpb).cur
          have h3 := (hpa.trans hpb).same.2.1
          simp only [rangesBytes, List.length_append] at h1 h2 ⊢
          omega
      · rw [if_pos (by simpa using hb)]
        refine ⟨0, VLU.encode (r.start - cur - 2), ?_, by simp, .inr ⟨_, by omega, rfl⟩, ?_⟩
        · rw [push_false hpa.inv (by simpa using hb)]
          simpa [rangesBytes] using hpa
        · intro _
          refine Classical.byContradiction fun hn => hb (push_ok hpa.inv _ ?_)
          have h2 := hpa.cur
          have h3 := hpa.same.2.1
          simp only [rangesBytes, List.length_append] at hn
          omega
    · rw [if_pos (by simpa using ha)]
      refine ⟨0, [], ?_, by simp, .inl rfl, ?_⟩
      · rw [push_false hp (by simpa using ha)]
        simpa [rangesBytes] using Pushed.nil hp
      · intro _
        refine Classical.byContradiction fun hn => ha (push_ok hp _ ?_)
        simp only [rangesBytes, List.length_append] at hn
        omega

theorem parse_nil : VLU.parse [] true = none := rfl

theorem decode_ranges (rs : List Range) (extra : Bytes) (hx : extra = [] ∨ ∃ v, v < W64 ∧ extra = VLU.encode v) :
    ∀ (fuel cur : Nat), rs.length < fuel → Canon rs → Gap cur rs →
      decodeRanges fuel cur (rangesBytes cur rs ++ extra) = some (rs.map (fun r => (r.start, r.stop))) := by
  induction rs with
  | nil =>
    intro fuel cur hf _ _
    cases fuel with
    | zero => omega
    | succ fuel =>
      rcases hx with rfl | ⟨v, hv, rfl⟩
      · simp [rangesBytes, decodeRanges, parse_nil]
      · have h := parse_encode v [] true hv
        rw [List.append_nil] at h
        simp [rangesBytes, decodeRanges, h, parse_nil]
  | cons r rest ih =>
    intro fuel cur hf hc hg
    cases fuel with
    | zero => omega
    | succ fuel =>
      have hr := Canon_stop _ hc r (by simp)
      have hgr := hg r (by simp)
      have h1 := parse_encode (r.start - cur - 2) (VLU.encode (r.stop - r.start) ++ (rangesBytes r.stop rest ++ extra)) true (by omega)
      have h2 := parse_encode (r.stop - r.start) (rangesBytes r.stop rest ++ extra) true (by omega)
      simp only [rangesBytes, List.append_assoc, decodeRanges]
      rw [h1]
      dsimp only
      rw [List.drop_left, h2]
      dsimp only
      rw [List.drop_left]
      have e1 : (cur + 1 + (r.start - cur - 2) + 1) % W64 = r.start := by
        rw [Nat.mod_eq_of_lt (by omega)]; omega
      have e2 : (r.start + (r.stop - r.start)) % W64 = r.stop := by
        rw [Nat.mod_eq_of_lt (by omega)]; omega
      rw [e1, e2, ih fuel r.stop (by simp at hf; omega) hc.2.2.2 hc.2.2.1]
      rfl

/-- the ranges above the cumulative number -/
def above (f : RFlow) : List Range := f.seqs.tail

theorem above_ok {f : RFlow} (hc : Canon f.seqs) (h0 : f.seqs = [] ∨ Mem f.seqs 0) :
    Canon (above f) ∧ Gap f.csn (above f) ∧ f.csn < W64 ∧ (∀ p : PA, ranges p f.csn f.seqs = ranges p f.csn (above f)) ∧
    ∀ i, 1 ≤ i → (Mem f.seqs i ↔ i ≤ f.csn ∨ Mem (above f) i) := by
  rw [above, RFlow.csn]
  cases hs : f.seqs with
  | nil => exact ⟨trivial, fun q hq => by simp at hq, by simp, fun _ => rfl, fun i hi => by simp [Mem]; omega⟩
  | cons r rest =>
    rw [hs] at hc h0
    have hm : Mem (r :: rest) 0 := by rcases h0 with h | h; cases h; exact h
    have hr := Canon_stop _ hc r (by simp)
    have hz : r.start = 0 := by
      rcases hm with ⟨x, hx, h1, h2⟩
      rcases List.mem_cons.mp hx with rfl | hx
      · omega
      · have := hc.2.2.1 x hx; omega
    refine ⟨hc.2.2.2, hc.2.2.1, hr.1, fun p => ?_, fun i hi => ?_⟩
    · simp only [List.head?_cons, List.tail_cons]
      rw [ranges, if_pos hz]
    · simp only [List.head?_cons, List.tail_cons, IndexSet.Mem_cons]
      constructor
      · rintro (h | h)
        · exact .inl h.2
        · exact .inr h
      · rintro (h | h)
        · exact .inl ⟨by omega, h⟩
        · exact .inr h

/-- payload of an acknowledgement -/
def payload (f : RFlow) (flowId : Nat) (rs : List Range) (extra : Bytes) : Bytes :=
  VLU.encode flowId ++ (VLU.encode f.advertiseBlocks ++ (VLU.encode f.csn ++ (rangesBytes f.csn rs ++ extra)))

theorem rangesBytes_length (rs : List Range) : ∀ cur, rs.length ≤ (rangesBytes cur rs).length := by
  induction rs with
  | nil => intro; simp
  | cons r rest ih =>
    intro cur
    have := ih r.stop
    have := encode_length_pos (r.start - cur - 2)
    simp only [rangesBytes, List.length_append, List.length_cons]
    omega

theorem blocks_lt (f : RFlow) : f.advertiseBlocks < W64 := by
  rw [RFlow.advertiseBlocks]
  generalize (if (f.buf.map (fun x => x.2.data.length + 64)).sum ≥ f.capacity then 0
    else min (f.capacity - (f.buf.map (fun x => x.2.data.length + 64)).sum) f.windowLimit) = n
  have := Nat.mod_lt (n + 1023) (show 0 < W64 by omega)
  have h2 := Nat.lt_of_le_of_lt (Nat.div_le_self _ 1024) this
  generalize (n + 1023) % W64 / 1024 = m at h2
  show (if m = 0 ∧ f.capacity > 0 ∧ f.windowLimit > 0 ∧ f.order ≠ .hold then 1 else m) < W64
  by_cases hh : m = 0 ∧ f.capacity > 0 ∧ f.windowLimit > 0 ∧ f.order ≠ .hold
  · rw [if_pos hh]; omega
  · rw [if_neg hh]; exact h2

theorem decode_payload {f : RFlow} {flowId : Nat} (hid : flowId < 9223372036854775808) (hcw : f.csn < W64) (rs : List Range) (hc : Canon rs)
    (hg : Gap f.csn rs) (extra : Bytes) (hx : extra = [] ∨ ∃ v, v < W64 ∧ extra = VLU.encode v) :
    decode (payload f flowId rs extra) =
      some ⟨flowId, blocksToBytes f.advertiseBlocks, (0, f.csn) :: rs.map (fun r => (r.start, r.stop))⟩ := by
  have hl : rs.length < (payload f flowId rs extra).length + 1 := by
    have := rangesBytes_length rs f.csn
    simp only [payload, List.length_append]; omega
  rw [decode]
  generalize (payload f flowId rs extra).length = n at hl
  rw [payload, parse_encode flowId _ true (by omega)]
  simp only []
  rw [if_neg (by omega), List.drop_left, parse_encode _ _ true (blocks_lt f)]
  dsimp only
  rw [List.drop_left, parse_encode _ _ true hcw]
  dsimp only
  rw [List.drop_left, decode_ranges rs extra hx _ _ hl hc hg]
  rfl

/-! ### The parts -/

/-- outcome of writing part of an acknowledgement packet: the chunks in `cs` were added, or the packet has to be set back -/
def Part (p : PA) (cs : List (UInt8 × Bytes)) (r : Option (PA × Bool)) : Prop :=
  ∃ q b, r = some (q, b) ∧ Same p q ∧ p.cursor ≤ q.cursor ∧ (p.buf.take p.cursor = q.buf.take p.cursor) ∧
    (b = true → q.Inv ∧ q.toVector = p.toVector ++ cs.flatMap (fun c => wire c.1 c.2) ∧
      q.cursor = p.cursor + (cs.flatMap (fun c => wire c.1 c.2)).length)

theorem prefix_kept {p q : PA} {bs : Bytes} (hp : p.Inv) (hv : q.toVector = p.toVector ++ bs) (hc : q.cursor = p.cursor + bs.length) :
    p.buf.take p.cursor = q.buf.take p.cursor := by
  have h1 : q.buf.take p.cursor = (q.toVector).take p.cursor := by
    rw [toVector, List.take_take, Nat.min_eq_left (by omega)]
  have hlen : p.toVector.length = p.cursor := by
    have := hp.cur; have := hp.lim; simp [toVector]; omega
  rw [h1, hv]
  conv => rhs; rw [← hlen, List.take_left]
  rfl

theorem Part.nothing {p : PA} (h : p.Inv) : Part p [] (some (p, true)) :=
  ⟨p, true, rfl, Same.refl _, Nat.le_refl _, rfl, fun _ => ⟨h, by simp, by simp⟩⟩

/-- a failed push in a started chunk -/
theorem Part.fail_pushed {p q : PA} {t : UInt8} {bs : Bytes} {cs : List (UInt8 × Bytes)} (h : p.Inv) (hs : (p.startChunk t).2 = true)
    (hp : Pushed (p.startChunk t).1 q bs) : Part p cs (some (q, false)) := by
  obtain ⟨_, a2, a3, _⟩ := startChunk_inv h t
  obtain ⟨b1, b2, _⟩ := a3 hs
  have hv : q.toVector = p.toVector ++ ([t, 0, 0] ++ bs) := by rw [hp.vec, b1, List.append_assoc]
  have hc : q.cursor = p.cursor + ([t, 0, 0] ++ bs).length := by rw [hp.cur, b2]; simp; omega
  exact ⟨q, false, rfl, a2.trans hp.same, by omega, prefix_kept h hv hc, fun h => by cases h⟩

theorem Part.fail_start {p : PA} {t : UInt8} {cs : List (UInt8 × Bytes)} (h : p.Inv) (hs : (p.startChunk t).2 = false) :
    Part p cs (some ((p.startChunk t).1, false)) := by
  rw [(startChunk_inv h t).2.2.2 hs]
  exact ⟨p, false, rfl, Same.refl _, Nat.le_refl _, rfl, fun h => by cases h⟩

theorem Part.done {p q : PA} {t : UInt8} {pl : Bytes} (h : p.Inv) (hs : (p.startChunk t).2 = true)
    (hp : Pushed (p.startChunk t).1 q pl) : Part p [(t, pl)] ((q.commitChunk).map (·, true)) := by
  obtain ⟨r, h1, h2, h3, h4, h5⟩ := chunk_done h hs hp
  rw [h1]
  exact ⟨r, true, rfl, h3, by omega, prefix_kept h h4 h5, fun _ => ⟨h2, by simpa using h4, by simpa using h5⟩⟩

theorem ecn_part {p : PA} (h : p.Inv) (ecn : Option UInt8) :
    Part p (match ecn with | none => [] | some c => [(CHUNK_ECN_REPORT, [c])]) (ecnPart p ecn) := by
  cases ecn with
  | none => exact Part.nothing h
  | some c =>
    rw [ecnPart, ecnReport]
    dsimp only
    by_cases ha : (p.startChunk CHUNK_ECN_REPORT).2 = true
    · rw [if_neg (by simp [ha])]
      have hi := (startChunk_inv h CHUNK_ECN_REPORT).1
      by_cases hb : ((p.startChunk CHUNK_ECN_REPORT).1.push [c]).2 = true
      · rw [if_neg (by simp [hb])]
        exact Part.done h ha (push_true hi hb)
      · rw [if_pos (by simpa using hb), push_false hi (by simpa using hb)]
        exact Part.fail_pushed h ha (Pushed.nil hi)
    · rw [if_pos (by simpa using ha)]
      exact Part.fail_start h (by simpa using ha)

theorem exception_part {p : PA} (h : p.Inv) (f : RFlow) (flowId : Nat) :
    Part p (if f.state = .rejected then [(CHUNK_EXCEPTION, VLU.encode flowId ++ VLU.encode f.exceptionCode)] else []) (exceptionPart p f flowId) := by
  rw [exceptionPart]
  by_cases hst : f.state = .rejected
  · rw [if_pos hst, if_pos hst]
    dsimp only
    by_cases ha : (p.startChunk CHUNK_EXCEPTION).2 = true
    · rw [if_neg (by simp [ha])]
      have hi := (startChunk_inv h CHUNK_EXCEPTION).1
      rw [pushVLU]
      by_cases hb : ((p.startChunk CHUNK_EXCEPTION).1.push (VLU.encode flowId)).2 = true
      · rw [if_neg (by simp [hb])]
        have hpb := push_true hi hb
        rw [pushVLU]
        by_cases hc : (((p.startChunk CHUNK_EXCEPTION).1.push (VLU.encode flowId)).1.push (VLU.encode f.exceptionCode)).2 = true
        · rw [if_neg (by simp [hc])]
          exact Part.done h ha (hpb.trans (push_true hpb.inv hc))
        · rw [if_pos (by simpa using hc), push_false hpb.inv (by simpa using hc)]
          exact Part.fail_pushed h ha hpb
      · rw [if_pos (by simpa using hb), push_false hi (by simpa using hb)]
        exact Part.fail_pushed h ha (Pushed.nil hi)
    · rw [if_pos (by simpa using ha)]
      exact Part.fail_start h (by simpa using ha)
  · rw [if_neg hst, if_neg hst]
    exact Part.nothing h

/-- what an assembled acknowledgement may be -/
def AckOf (f : RFlow) (flowId : Nat) (pl : Bytes) (truncated : Bool) : Prop :=
  ∃ k extra, pl = payload f flowId ((above f).take k) extra ∧ (truncated = false → (above f).take k = above f ∧ extra = []) ∧
    (extra = [] ∨ ∃ v, v < W64 ∧ extra = VLU.encode v)

theorem ack_part {p : PA} (h : p.Inv) {f : RFlow} (hc : Canon f.seqs) (h0 : f.seqs = [] ∨ Mem f.seqs 0) (flowId : Nat) (tr : Bool) :
    ∃ pl t, Part p [(CHUNK_ACK_RANGES, pl)] (ackPart p f flowId tr) ∧ AckOf f flowId pl t ∧
      (t = true → tr = true) ∧ (t = true → p.limit < p.cursor + (wire CHUNK_ACK_RANGES (payload f flowId (above f) [])).length) := by
  obtain ⟨o1, o2, _, o4, _⟩ := above_ok hc h0
  have triv : ∃ pl t, AckOf f flowId pl t ∧ t = false := ⟨_, false, ⟨(above f).length, [], rfl, fun _ => ⟨by simp, rfl⟩, .inl rfl⟩, rfl⟩
  have give : ∀ {r}, (∀ pl, Part p [(CHUNK_ACK_RANGES, pl)] r) → ∃ pl t, Part p [(CHUNK_ACK_RANGES, pl)] r ∧ AckOf f flowId pl t ∧
      (t = true → tr = true) ∧ (t = true → p.limit < p.cursor + (wire CHUNK_ACK_RANGES (payload f flowId (above f) [])).length) := by
    intro r hr
    obtain ⟨pl, t, h1, rfl⟩ := triv
    exact ⟨pl, false, hr pl, h1, (fun h => by cases h), (fun h => by cases h)⟩
  rw [ackPart]
  dsimp only
  by_cases ha : (p.startChunk CHUNK_ACK_RANGES).2 = true
  · rw [if_neg (by simp [ha])]
    have hi := (startChunk_inv h CHUNK_ACK_RANGES).1
    have hst := (startChunk_inv h CHUNK_ACK_RANGES).2
    rw [pushVLU]
    by_cases hb : ((p.startChunk CHUNK_ACK_RANGES).1.push (VLU.encode flowId)).2 = true
    · rw [if_neg (by simp [hb])]
      have hpb := push_true hi hb
      generalize ((p.startChunk CHUNK_ACK_RANGES).1.push (VLU.encode flowId)).1 = q1 at hpb ⊢
      rw [pushVLU]
      by_cases hcc : (q1.push (VLU.encode f.advertiseBlocks)).2 = true
      · rw [if_neg (by simp [hcc])]
        have hpc := hpb.trans (push_true hpb.inv hcc)
        generalize (q1.push (VLU.encode f.advertiseBlocks)).1 = q2 at hpc ⊢
        rw [pushVLU]
        by_cases hd : (q2.push (VLU.encode f.csn)).2 = true
        · rw [if_neg (by simp [hd])]
          have hpd := hpc.trans (push_true hpc.inv hd)
          generalize (q2.push (VLU.encode f.csn)).1 = q3 at hpd ⊢
          rw [o4]
          obtain ⟨k, extra, r1, r2, r3, r4⟩ := ranges_run (above f) f.csn q3 hpd.inv o1 o2
          have hpe := hpd.trans r1
          by_cases he : (ranges q3 f.csn (above f)).2 = true ∧ tr = false
          · rw [if_pos he]
            exact give (fun pl => Part.fail_pushed h ha hpe)
          · rw [if_neg he]
            refine ⟨_, (ranges q3 f.csn (above f)).2, Part.done h ha hpe, ⟨k, extra, ?_, r2, r3⟩, ?_, ?_⟩
            · simp [payload]
            · intro ht
              cases htr : tr with
              | true => rfl
              | false => exact absurd ⟨ht, htr⟩ he
            · intro ht
              have h1 := r4 ht
              have h2 := hpd.cur
              have h3 := hpd.same.2.1
              have h4 := (hst.2.1 ha).2.1
              have h5 := hst.1.2.1
              rw [wire_length]
              simp only [payload, List.length_append, List.append_nil] at h1 h2 ⊢
              omega
        · rw [if_pos (by simpa using hd), push_false hpc.inv (by simpa using hd)]
          exact give (fun pl => Part.fail_pushed h ha hpc)
      · rw [if_pos (by simpa using hcc), push_false hpb.inv (by simpa using hcc)]
        exact give (fun pl => Part.fail_pushed h ha hpb)
    · rw [if_pos (by simpa using hb), push_false hi (by simpa using hb)]
      exact give (fun pl => Part.fail_pushed h ha (Pushed.nil hi))
  · rw [if_pos (by simpa using ha)]
    exact give (fun pl => Part.fail_start h (by simpa using ha))

/-- the packet so far, relative to the packet `p0` at the beginning -/
structure SoFar (p0 p : PA) (cs : List (UInt8 × Bytes)) : Prop where
  inv : p.Inv
  same : Same p0 p
  le : p0.cursor ≤ p.cursor
  pre : p0.buf.take p0.cursor = p.buf.take p0.cursor
  vec : p.toVector = p0.toVector ++ cs.flatMap (fun c => wire c.1 c.2)

theorem SoFar.orFail {p0 p : PA} {c0 cs : List (UInt8 × Bytes)} {r : Option (PA × Bool)} (k : PA → Option (PA × Bool))
    (h : SoFar p0 p c0) (hr : Part p cs r) :
    (∃ q, orFail p0.cursor r k = k q ∧ SoFar p0 q (c0 ++ cs)) ∨
    ∃ q, Ack.orFail p0.cursor r k = some (q, false) ∧ Same p0 q ∧ q.cursor = p0.cursor ∧ q.toVector = p0.toVector := by
  obtain ⟨q, b, rfl, h2, h3, h4, h5⟩ := hr
  have hpre' : p0.buf.take p0.cursor = q.buf.take p0.cursor := by
    have := congrArg (List.take p0.cursor) h4
    rw [List.take_take, List.take_take, Nat.min_eq_left h.le] at this
    exact h.pre.trans this
  cases b with
  | true =>
    obtain ⟨i1, i2, i3⟩ := h5 rfl
    exact .inl ⟨q, rfl, i1, h.same.trans h2, Nat.le_trans h.le h3, hpre', by rw [i2, h.vec, List.append_assoc, List.flatMap_append]⟩
  | false =>
    refine .inr ⟨{ q with cursor := p0.cursor }, rfl, h.same.trans h2, rfl, ?_⟩
    rw [toVector, toVector]
    exact hpre'.symm

/-- the chunks before the acknowledgement -/
def before (f : RFlow) (flowId : Nat) (ecn : Option UInt8) : List (UInt8 × Bytes) :=
  (match ecn with | none => [] | some c => [(CHUNK_ECN_REPORT, [c])]) ++
  (if f.state = .rejected then [(CHUNK_EXCEPTION, VLU.encode flowId ++ VLU.encode f.exceptionCode)] else [])

theorem assemble_run {p : PA} (h : p.Inv) {f : RFlow} (hc : Canon f.seqs) (h0 : f.seqs = [] ∨ Mem f.seqs 0) (flowId : Nat) (ecn : Option UInt8) (tr : Bool) :
    ∃ q b pl t, assemble p f flowId ecn tr = some (q, b) ∧ Same p q ∧ (b = false → q.cursor = p.cursor ∧ q.toVector = p.toVector) ∧
      (b = true → q.Inv ∧ q.toVector = p.toVector ++ (before f flowId ecn ++ [(CHUNK_ACK_RANGES, pl)]).flatMap (fun c => wire c.1 c.2) ∧
        AckOf f flowId pl t ∧ (t = true → tr = true)) := by
  have s0 : SoFar p p [] := ⟨h, Same.refl _, Nat.le_refl _, rfl, by simp⟩
  rw [assemble]
  have bad : ∀ {r}, (∃ q, r = some (q, false) ∧ Same p q ∧ q.cursor = p.cursor ∧ q.toVector = p.toVector) → 
      ∃ q b pl t, r = some (q, b) ∧ Same p q ∧ (b = false → q.cursor = p.cursor ∧ q.toVector = p.toVector) ∧
      (b = true → q.Inv ∧ q.toVector = p.toVector ++ (before f flowId ecn ++ [(CHUNK_ACK_RANGES, pl)]).flatMap (fun c => wire c.1 c.2) ∧
        AckOf f flowId pl t ∧ (t = true → tr = true)) := by
    rintro r ⟨q, a, b, c, d⟩
    exact ⟨q, false, [], false, a, b, fun _ => ⟨c, d⟩, fun h => by cases h⟩
  rcases s0.orFail _ (ecn_part h ecn) with ⟨q1, e1, s1⟩ | hb
  · rw [e1]
    rcases s1.orFail _ (exception_part s1.inv f flowId) with ⟨q2, e2, s2⟩ | hb
    · rw [e2]
      obtain ⟨pl, t, a1, a2, a3, _⟩ := ack_part s2.inv hc h0 flowId tr
      rcases s2.orFail _ a1 with ⟨q3, e3, s3⟩ | hb
      · rw [e3]
        exact ⟨q3, true, pl, t, rfl, s3.same, (fun h => by cases h), fun _ => ⟨s3.inv, by simpa [before] using s3.vec, a2, a3⟩⟩
      · exact bad hb
    · exact bad hb
  · exact bad hb

/-! ### When there is room -/

theorem commit_some {q : PA} {n : Nat} (h : q.chunkStart = some n) : ∃ r, q.commitChunk = some r := by
  rw [commitChunk, h]; exact ⟨_, rfl⟩

theorem started {p : PA} (h : p.Inv) (t : UInt8) (hr : p.cursor + 3 ≤ p.limit) :
    (p.startChunk t).2 = true ∧ (p.startChunk t).1.Inv ∧ (p.startChunk t).1.cursor = p.cursor + 3 ∧ (p.startChunk t).1.limit = p.limit ∧
      ∃ n, (p.startChunk t).1.chunkStart = some n := by
  have h1 := startChunk_ok h t hr
  obtain ⟨a1, a2, a3, _⟩ := startChunk_inv h t
  obtain ⟨b1, b2, b3⟩ := a3 h1
  exact ⟨h1, a1, b2, a2.2.1, _, b3⟩

/-- the answer is success -/
def Yes (r : Option (PA × Bool)) : Prop := ∃ q, r = some (q, true)

theorem ecn_room {p : PA} (h : p.Inv) (ecn : Option UInt8) (hr : p.cursor + 4 ≤ p.limit) : Yes (ecnPart p ecn) := by
  cases ecn with
  | none => exact ⟨p, rfl⟩
  | some c =>
    obtain ⟨a1, a2, a3, a4, n, a5⟩ := started h CHUNK_ECN_REPORT (by omega)
    have hb := push_ok a2 [c] (by simp; omega)
    rw [ecnPart, ecnReport]
    dsimp only
    rw [if_neg (by simp [a1]), if_neg (by simp [hb])]
    obtain ⟨r, hr⟩ := commit_some (q := ((p.startChunk CHUNK_ECN_REPORT).1.push [c]).1) ((push_true a2 hb).cs.trans a5)
    rw [hr]; exact ⟨r, rfl⟩

theorem exception_room {p : PA} (h : p.Inv) (f : RFlow) (flowId : Nat) (hid : flowId < W64) (he : f.exceptionCode < W64)
    (hr : p.cursor + 23 ≤ p.limit) : Yes (exceptionPart p f flowId) := by
  rw [exceptionPart]
  by_cases hst : f.state = .rejected
  · rw [if_pos hst]
    obtain ⟨a1, a2, a3, a4, n, a5⟩ := started h CHUNK_EXCEPTION (by omega)
    have l1 := encode_length_le flowId hid
    have l2 := encode_length_le f.exceptionCode he
    have hb := push_ok a2 (VLU.encode flowId) (by omega)
    have pb := push_true a2 hb
    have p1 := pb.cur
    have p2 := pb.same.2.1
    have hc := push_ok pb.inv (VLU.encode f.exceptionCode) (by omega)
    have pc := push_true pb.inv hc
    dsimp only [pushVLU]
    rw [if_neg (by simp [a1]), if_neg (by simp [hb]), if_neg (by simp [hc])]
    obtain ⟨r, hr⟩ := commit_some (pc.cs.trans (pb.cs.trans a5))
    rw [hr]; exact ⟨r, rfl⟩
  · rw [if_neg hst]; exact ⟨p, rfl⟩

theorem ranges_cs (rs : List Range) : ∀ (cur : Nat) (p : PA), p.Inv → (ranges p cur rs).1.chunkStart = p.chunkStart := by
  induction rs with
  | nil => intro cur p _; rfl
  | cons r rest ih =>
    intro cur p hp
    rw [ranges]
    split
    · exact ih cur p hp
    · dsimp only [pushVLU]
      have a := push_inv hp (VLU.encode ((r.start + (36893488147419103232 - cur - 2)) % W64))
      split
      · exact a.2.2.1
      · have b := push_inv a.1 (VLU.encode ((r.stop + (W64 - r.start)) % W64))
        split
        · exact b.2.2.1.trans a.2.2.1
        · exact (ih _ _ b.1).trans (b.2.2.1.trans a.2.2.1)

theorem ack_room {p : PA} (h : p.Inv) (f : RFlow) (flowId : Nat) (hid : flowId < W64) (hcs : f.csn < W64)
    (hr : p.cursor + 33 ≤ p.limit) : Yes (ackPart p f flowId true) := by
  rw [ackPart]
  obtain ⟨a1, a2, a3, a4, n, a5⟩ := started h CHUNK_ACK_RANGES (by omega)
  have l1 := encode_length_le flowId hid
  have l2 := encode_length_le f.advertiseBlocks (blocks_lt f)
  have l3 := encode_length_le f.csn hcs
  have hb := push_ok a2 (VLU.encode flowId) (by omega)
  have pb := push_true a2 hb
  have p1 := pb.cur
  have p2 := pb.same.2.1
  have hc := push_ok pb.inv (VLU.encode f.advertiseBlocks) (by omega)
  have pc := push_true pb.inv hc
  have p3 := pc.cur
  have p4 := pc.same.2.1
  have hd := push_ok pc.inv (VLU.encode f.csn) (by omega)
  have pd := push_true pc.inv hd
  dsimp only [pushVLU]
  rw [if_neg (by simp [a1]), if_neg (by simp [hb]), if_neg (by simp [hc]), if_neg (by simp [hd]), if_neg (by simp)]
  obtain ⟨r, hr⟩ := commit_some ((ranges_cs f.seqs f.csn _ pd.inv).trans (pd.cs.trans (pc.cs.trans (pb.cs.trans a5))))
  rw [hr]; exact ⟨r, rfl⟩

theorem Yes.cursor {p q : PA} {cs : List (UInt8 × Bytes)} {r : Option (PA × Bool)} (hp : Part p cs r) (h : r = some (q, true)) :
    q.Inv ∧ q.limit = p.limit ∧ q.cursor = p.cursor + (cs.flatMap (fun c => wire c.1 c.2)).length := by
  obtain ⟨q', b, e, a1, _, _, a4⟩ := hp
  rw [h] at e
  simp only [Option.some.injEq, Prod.mk.injEq] at e
  obtain ⟨rfl, rfl⟩ := e
  exact ⟨(a4 rfl).1, a1.2.1, (a4 rfl).2.2⟩

/-- 60 bytes are enough for an acknowledgement, if it may be truncated -/
theorem assemble_room {p : PA} (h : p.Inv) (f : RFlow) (hcs : f.csn < W64) (flowId : Nat) (hid : flowId < W64) (he : f.exceptionCode < W64) (ecn : Option UInt8)
    (hr : p.cursor + 60 ≤ p.limit) : Yes (assemble p f flowId ecn true) := by
  obtain ⟨q1, e1⟩ := ecn_room h ecn (by omega)
  obtain ⟨i1, j1, k1⟩ := Yes.cursor (ecn_part h ecn) e1
  have m1 : q1.cursor ≤ p.cursor + 4 := by
    rw [k1]
    cases ecn <;> simp [wire_length]
  obtain ⟨q2, e2⟩ := exception_room i1 f flowId hid he (by omega)
  obtain ⟨i2, j2, k2⟩ := Yes.cursor (exception_part i1 f flowId) e2
  have l1 := encode_length_le flowId hid
  have l2 := encode_length_le f.exceptionCode he
  have m2 : q2.cursor ≤ q1.cursor + 23 := by
    rw [k2]
    split
    · simp [wire_length]; omega
    · simp
  obtain ⟨q3, e3⟩ := ack_room i2 f flowId hid hcs (by omega)
  refine ⟨q3, ?_⟩
  rw [assemble, e1]
  simp only [orFail]
  rw [e2]
  simp only []
  rw [e3]

end Ack
end Rtmfp
