import Verif.Lemmas.Packet

/-!
# C04, C05, C06: packet assembly and parsing
-/

namespace Rtmfp

/-! ## C04 -/

/-- C04: after `init` without a header, any sequence of calls (that does not dereference a null pointer,
i.e. commits only started chunks) keeps the packet within the limit and does not touch memory outside
`[frontMargin, maxLen)`. -/
theorem C04_assembler_in_bounds (buf : Bytes) (fm n : Nat) (h1 : fm ≤ n) (h2 : n ≤ buf.length)
    (h3 : n < 2 ^ 64) (ops : List PA.Op) (p : PA) (rs : List Bool)
    (hr : (PA.init buf fm n).run ops = some (p, rs)) :
    p.toVector.length ≤ n ∧ p.buf.length = buf.length ∧
      p.buf.drop n = buf.drop n ∧ p.buf.take fm = buf.take fm := by
  obtain ⟨a, b1, b2, b3, b4, b5, b6⟩ := PA.run_inv (PA.init_inv buf fm n h1 h2 h3) ops hr
  have h4 := a.cur
  rw [b2] at h4
  change p.cursor ≤ n at h4
  refine ⟨?_, b1, b4, b5⟩
  simp [PA.toVector]; omega

/-- C04: the same after `init` with a packet header (which needs at most 5 bytes). -/
theorem C04_assembler_in_bounds_header (buf : Bytes) (fm n : Nat) (f : UInt8) (ts tse : Option Nat)
    (h1 : fm + 5 ≤ n) (h2 : n ≤ buf.length) (h3 : n < 2 ^ 64) (ops : List PA.Op) (p : PA)
    (rs : List Bool) (hr : (PA.initHeader buf fm n f ts tse).run ops = some (p, rs)) :
    p.toVector.length ≤ n ∧ p.buf.length = buf.length ∧
      p.buf.drop n = buf.drop n ∧ p.buf.take fm = buf.take fm := by
  obtain ⟨i1, i2, i3, i4, i5, i6, _⟩ := PA.initHeader_inv buf fm n f ts tse h1 h2 h3
  obtain ⟨a, b1, b2, b3, b4, b5, b6⟩ := PA.run_inv i1 ops hr
  have h4 := a.cur
  rw [i3] at b2 b4
  rw [i4] at b5
  refine ⟨?_, by omega, by rw [b4, i5], by rw [b5, i6]⟩
  simp [PA.toVector]; omega

/-- The push-like calls. -/
def PA.Op.isPush : PA.Op → Bool
  | .push _ => true
  | .pushField _ => true
  | .pushVLU _ => true
  | _ => false

/-- The bytes a successful push-like call adds. -/
def PA.Op.pushed : PA.Op → Bytes
  | .push bs => bs
  | .pushField bs => VLU.encode bs.length ++ bs
  | .pushVLU v => VLU.encode v
  | _ => []

/-- States reachable from a valid initialization with or without header. -/
def PA.Reachable (p : PA) : Prop :=
  (∃ buf fm n ops rs, fm ≤ n ∧ n ≤ buf.length ∧ n < 2 ^ 64 ∧
      (PA.init buf fm n).run ops = some (p, rs)) ∨
  (∃ buf fm n f ts tse ops rs, fm + 5 ≤ n ∧ n ≤ buf.length ∧ n < 2 ^ 64 ∧
      (PA.initHeader buf fm n f ts tse).run ops = some (p, rs))

theorem PA.Reachable.inv {p : PA} (h : p.Reachable) : p.Inv := by
  rcases h with ⟨buf, fm, n, ops, rs, h1, h2, h3, hr⟩ | ⟨buf, fm, n, f, ts, tse, ops, rs, h1, h2, h3, hr⟩
  · exact (PA.run_inv (PA.init_inv buf fm n h1 h2 h3) ops hr).1
  · exact (PA.run_inv (PA.initHeader_inv buf fm n f ts tse h1 h2 h3).1 ops hr).1

theorem PA.push_step {p p' : PA} (h : p.Inv) (op : PA.Op) (hop : op.isPush) (r : Bool)
    (hs : p.step op = some (p', r)) :
    p'.toVector = p.toVector ++ (if r then op.pushed else []) ∧
    p'.cursor = p.cursor + (if r then op.pushed else []).length ∧ p'.chunkStart = p.chunkStart := by
  cases op with
  | push bs =>
    simp [PA.step] at hs
    have := PA.push_inv h bs
    rw [hs] at this
    obtain ⟨_, _, c, d, e⟩ := this
    cases r with
    | true => exact ⟨(d rfl).1, (d rfl).2, c⟩
    | false => have := e rfl; simp only at this; subst this; simp
  | pushVLU v =>
    simp [PA.step, PA.pushVLU] at hs
    have := PA.push_inv h (VLU.encode v)
    rw [hs] at this
    obtain ⟨_, _, c, d, e⟩ := this
    cases r with
    | true => exact ⟨(d rfl).1, (d rfl).2, c⟩
    | false => have := e rfl; simp only at this; subst this; simp
  | pushField bs =>
    simp [PA.step] at hs
    have := PA.pushField_inv h bs
    rw [hs] at this
    obtain ⟨_, _, c, d, e⟩ := this
    cases r with
    | true => exact ⟨(d rfl).1, (d rfl).2, c⟩
    | false => exact ⟨by simpa using (e rfl).1, by simpa using (e rfl).2, c⟩
  | startChunk t => simp [PA.Op.isPush] at hop
  | setTC => simp [PA.Op.isPush] at hop
  | commit => simp [PA.Op.isPush] at hop
  | rollback => simp [PA.Op.isPush] at hop

/-- C04: a push that succeeds appends exactly the bytes pushed, one that fails leaves the assembled
packet as it was. -/
theorem C04_push_all_or_nothing (p p' : PA) (h : p.Reachable) (op : PA.Op) (hop : op.isPush)
    (r : Bool) (hs : p.step op = some (p', r)) :
    p'.toVector = p.toVector ++ (if r then op.pushed else []) :=
  (PA.push_step h.inv op hop r hs).1

/-- C04: a push fails only if the bytes would not fit below the limit. -/
theorem C04_push_fails_iff_full (p : PA) (h : p.Reachable) (bs : Bytes) :
    (p.push bs).2 = false ↔ p.limit < p.toVector.length + bs.length := by
  have hi := h.inv
  have h1 := hi.cur
  have h2 := hi.lim
  simp only [PA.push, hi.remaining, PA.toVector]
  split <;> simp <;> omega

theorem PA.pushes_run {p p' : PA} (h : p.Inv) (ops : List PA.Op) (hops : ∀ op ∈ ops, op.isPush)
    (rs : List Bool) (hr : p.run ops = some (p', rs)) :
    p'.Inv ∧ p'.chunkStart = p.chunkStart ∧ ∃ bs, p'.toVector = p.toVector ++ bs ∧ p'.cursor = p.cursor + bs.length ∧
      ((∀ r ∈ rs, r = true) → bs = ops.flatMap PA.Op.pushed) := by
  induction ops generalizing p rs with
  | nil => simp [PA.run] at hr; obtain ⟨rfl, rfl⟩ := hr; exact ⟨h, rfl, [], by simp⟩
  | cons op ops ih =>
    simp only [PA.run] at hr
    split at hr
    · simp at hr
    · next p1 r hs =>
      rw [Option.map_eq_some_iff] at hr
      obtain ⟨⟨q, qs⟩, hr1, hr2⟩ := hr
      simp at hr2
      obtain ⟨rfl, rfl⟩ := hr2
      obtain ⟨a, b⟩ := PA.step_inv h op hs
      obtain ⟨c1, c2, c3⟩ := PA.push_step h op (hops op (by simp)) r hs
      obtain ⟨d1, d2, bs, d3, d4, d5⟩ := ih a (fun o ho => hops o (by simp [ho])) qs hr1
      refine ⟨d1, by rw [d2, c3], (if r then op.pushed else []) ++ bs, ?_, ?_, ?_⟩
      · rw [d3, c1, List.append_assoc]
      · rw [d4, c2, List.length_append]; omega
      · intro hall
        have : r = true := hall r (by simp)
        rw [d5 (fun x hx => hall x (by simp [hx]))]
        simp [this]

/-- C04: rolling back a chunk (after any pushes, successful or not) restores the packet as it was
before the chunk was started. -/
theorem C04_rollback_restores (p p1 p2 : PA) (h : p.Reachable) (t : UInt8)
    (hs : p.startChunk t = (p1, true)) (ops : List PA.Op) (hops : ∀ op ∈ ops, op.isPush)
    (rs : List Bool) (hr : p1.run ops = some (p2, rs)) :
    p2.rollbackChunk.toVector = p.toVector := by
  have hi := h.inv
  obtain ⟨a1, _, a3, _⟩ := PA.startChunk_inv hi t
  rw [hs] at a1 a3
  obtain ⟨b1, b2, b3⟩ := a3 rfl
  simp only at a1 b1 b2 b3
  obtain ⟨c1, c2, bs, c3, c4, _⟩ := PA.pushes_run a1 ops hops rs hr
  simp only [PA.rollbackChunk, c2, b3]
  have h1 := hi.cur
  have h2 := hi.lim
  have h3 := c1.cur
  have h4 := c1.lim
  simp only [PA.toVector] at c3 b1 ⊢
  have := congrArg (List.take p.cursor) c3
  rw [b1, List.take_take, Nat.min_eq_left (by omega), List.append_assoc,
    List.take_append_of_le_length (by simp; omega), List.take_take, Nat.min_self] at this
  simpa using this

/-- a packet of 20 bytes in a 24-byte buffer: two chunks, the second rolled back after a failed push -/
example : ∃ p rs, (PA.initHeader (List.replicate 24 0) 2 20 0x03 (some 0x1234) none).run
    [.startChunk 0x10, .push [1, 2, 3], .commit, .startChunk 0x11, .push (List.replicate 9 7), .rollback]
      = some (p, rs) ∧ rs = [true, true, true, true, false, true] ∧
    p.toVector = [0, 0, 0x0b, 0x12, 0x34, 0x10, 0, 3, 1, 2, 3] := by
  refine ⟨_, _, rfl, ?_, ?_⟩ <;> decide

/-! ## C05 -/

/-- The calls that put one chunk in a packet: start, any pushes, commit. -/
def chunkOps (c : UInt8 × List PA.Op) : List PA.Op := .startChunk c.1 :: c.2 ++ [.commit]

/-- The payload those calls ask for. -/
def chunkPayload (c : UInt8 × List PA.Op) : Bytes := c.2.flatMap PA.Op.pushed

/-- wire format of a chunk -/
def chunkWire (c : UInt8 × List PA.Op) : Bytes :=
  c.1 :: PA.be16 (chunkPayload c).length ++ chunkPayload c

theorem PA.run_append {p p' : PA} (ops1 ops2 : List PA.Op) (rs : List Bool)
    (h : p.run (ops1 ++ ops2) = some (p', rs)) :
    ∃ q rs1 rs2, p.run ops1 = some (q, rs1) ∧ q.run ops2 = some (p', rs2) ∧ rs = rs1 ++ rs2 := by
  induction ops1 generalizing p rs with
  | nil => exact ⟨p, [], rs, by simp [PA.run], by simpa using h, by simp⟩
  | cons op ops ih =>
    simp only [List.cons_append, PA.run] at h
    split at h
    · simp at h
    · next p1 r hs =>
      rw [Option.map_eq_some_iff] at h
      obtain ⟨⟨q, qs⟩, hr1, hr2⟩ := h
      simp at hr2
      obtain ⟨rfl, rfl⟩ := hr2
      obtain ⟨q', rs1, rs2, e1, e2, e3⟩ := ih qs hr1
      exact ⟨q', r :: rs1, rs2, by simp [PA.run, hs, e1], e2, by simp [e3]⟩

theorem PA.run_cons {p p' : PA} (op : PA.Op) (ops : List PA.Op) (rs : List Bool)
    (h : p.run (op :: ops) = some (p', rs)) :
    ∃ q r rs2, p.step op = some (q, r) ∧ q.run ops = some (p', rs2) ∧ rs = r :: rs2 := by
  simp only [PA.run] at h
  split at h
  · simp at h
  · next p1 r hs =>
    rw [Option.map_eq_some_iff] at h
    obtain ⟨⟨q, qs⟩, hr1, hr2⟩ := h
    simp at hr2
    obtain ⟨rfl, rfl⟩ := hr2
    exact ⟨p1, r, qs, hs, hr1, rfl⟩

theorem chunk_run {p p' : PA} (h : p.Inv) (c : UInt8 × List PA.Op) (hc : ∀ op ∈ c.2, op.isPush)
    (rs : List Bool) (hrs : ∀ r ∈ rs, r = true) (hr : p.run (chunkOps c) = some (p', rs)) :
    p'.Inv ∧ p'.toVector = p.toVector ++ chunkWire c := by
  obtain ⟨t, ops⟩ := c
  obtain ⟨q, r, rs1, hs, hr1, rfl⟩ := PA.run_cons _ _ _ hr
  have : r = true := hrs r (by simp)
  subst this
  simp only [PA.step, Option.some.injEq] at hs
  obtain ⟨a1, _, a3, _⟩ := PA.startChunk_inv h t
  rw [hs] at a1 a3
  obtain ⟨b1, b2, b3⟩ := a3 rfl
  simp only at a1 b1 b2 b3
  obtain ⟨q2, rs2, rs3, hr2, hr3, rfl⟩ := PA.run_append _ _ _ hr1
  obtain ⟨c1, c2, bs, c3, c4, c5⟩ := PA.pushes_run a1 ops hc rs2 hr2
  have hbs := c5 (fun x hx => hrs x (by simp [hx]))
  obtain ⟨q3, r3, rs4, hs3, hr4, _⟩ := PA.run_cons _ _ _ hr3
  simp [PA.run] at hr4
  obtain ⟨rfl, _⟩ := hr4
  simp only [PA.step] at hs3
  rw [Option.map_eq_some_iff] at hs3
  obtain ⟨q4, hcm, hq4⟩ := hs3
  simp at hq4
  obtain ⟨rfl, _⟩ := hq4
  obtain ⟨d1, _, _, _, s, d5, d6⟩ := PA.commit_inv c1 hcm
  refine ⟨d1, ?_⟩
  rw [c2, b3] at d5
  simp at d5
  have hlen : p.toVector.length = p.cursor := by
    have := h.cur; have := h.lim; simp [PA.toVector]; omega
  rw [d6, c3, b1, c4, b2, ← d5, hbs]
  simp only [poke, chunkWire, chunkPayload, PA.be16_length]
  have e1 : p.cursor + 3 - 2 = p.toVector.length + 1 := by omega
  have e2 : p.cursor + 3 + (List.flatMap PA.Op.pushed ops).length - (p.cursor + 3) =
      (List.flatMap PA.Op.pushed ops).length := by omega
  rw [e1, e2]
  have e3 : List.take (p.toVector.length + 1) (p.toVector ++ [t, 0, 0] ++ List.flatMap PA.Op.pushed ops)
      = p.toVector ++ [t] := by
    rw [List.append_assoc, List.take_length_add_append]; simp
  have e4 : List.drop (p.toVector.length + 1 + 2) (p.toVector ++ [t, 0, 0] ++ List.flatMap PA.Op.pushed ops)
      = List.flatMap PA.Op.pushed ops := by
    rw [List.append_assoc, Nat.add_assoc, List.drop_length_add_append]; simp
  rw [e3, e4]
  simp

theorem chunks_run {p p' : PA} (h : p.Inv) (cs : List (UInt8 × List PA.Op))
    (hc : ∀ c ∈ cs, ∀ op ∈ c.2, op.isPush)
    (rs : List Bool) (hrs : ∀ r ∈ rs, r = true) (hr : p.run (cs.flatMap chunkOps) = some (p', rs)) :
    p'.toVector = p.toVector ++ cs.flatMap chunkWire := by
  induction cs generalizing p rs with
  | nil => simp [PA.run] at hr; simp [hr.1]
  | cons c cs ih =>
    rw [List.flatMap_cons] at hr
    obtain ⟨q, rs1, rs2, h1, h2, rfl⟩ := PA.run_append _ _ _ hr
    obtain ⟨a, b⟩ := chunk_run h c (hc c (by simp)) rs1 (fun r hr => hrs r (by simp [hr])) h1
    have := ih a (fun c' hc' => hc c' (by simp [hc'])) rs2 (fun r hr => hrs r (by simp [hr])) h2
    rw [this, b]
    simp

theorem be16_value (n : Nat) (h : n < 65536) :
    ((UInt8.ofNat ((n >>> 8) &&& 0xff)).toNat <<< 8) + (UInt8.ofNat (n &&& 0xff)).toNat = n := by
  have h1 : (n >>> 8) &&& 0xff = n / 256 := by
    rw [Nat.shiftRight_eq_div_pow]
    have := Nat.and_two_pow_sub_one_eq_mod (n / 2 ^ 8) 8
    simp at this ⊢
    omega
  have h2 : n &&& 0xff = n % 256 := Nat.and_two_pow_sub_one_eq_mod n 8
  rw [h1, h2, Nat.shiftLeft_eq]
  simp
  omega

/-- padding added by the encryption: `0xff` bytes, fewer than a chunk could hold -/
def isPadding (pad : Bytes) : Prop := (∀ b ∈ pad, b = 0xff) ∧ pad.length < 65535

theorem parseChunks_padding (pos : Nat) (pad : Bytes) (h : isPadding pad) : parseChunks pos pad = [] := by
  obtain ⟨h1, h2⟩ := h
  match pad, h1, h2 with
  | [], _, _ => simp [parseChunks]
  | [a], _, _ => simp [parseChunks]
  | [a, b], _, _ => simp [parseChunks]
  | a :: b :: c :: rest, h1, h2 =>
    rw [parseChunks]
    have hb := h1 b (by simp)
    have hc := h1 c (by simp)
    subst hb hc
    simp at h2 ⊢
    omega

/-- the chunks a receiver must see -/
def Matches (cs : List (UInt8 × List PA.Op)) (got : List Chunk) : Prop :=
  got.map (fun c => (c.type, c.payload)) = cs.map (fun c => (c.1, chunkPayload c))

theorem parseChunks_wire (cs : List (UInt8 × List PA.Op)) (hlen : ∀ c ∈ cs, (chunkPayload c).length < 65536)
    (pos : Nat) (pad : Bytes) (hp : isPadding pad) :
    Matches cs (parseChunks pos (cs.flatMap chunkWire ++ pad)) := by
  induction cs generalizing pos with
  | nil => simp [Matches, parseChunks_padding pos pad hp]
  | cons c cs ih =>
    have hl := hlen c (by simp)
    have hv := be16_value _ hl
    simp only [List.flatMap_cons, chunkWire, PA.be16, List.cons_append, List.append_assoc, List.nil_append]
    rw [parseChunks, hv, if_neg (by simp)]
    unfold Matches
    simp only [List.map_cons, List.take_left, List.drop_left]
    congr 1
    exact ih (fun c' hc' => hlen c' (by simp [hc'])) _

theorem header_parse (f : UInt8) (ts tse : Option Nat) (hts : ∀ t, ts = some t → t < 65536)
    (htse : ∀ t, tse = some t → t < 65536) (rest : Bytes) :
    parseHeader (PA.headerFlags f ts tse :: (PA.tsBytes ts ++ PA.tsBytes tse) ++ rest) =
      some (⟨PA.headerFlags f ts tse, ts, tse⟩, rest) := by
  have hfts : (PA.headerFlags f ts tse &&& HEADER_FLAG_TS ≠ 0) = (ts.isSome = true) := by
    have hall : ∀ (f : UInt8) (a b : Bool),
        ((if b = true then (if a = true then f &&& ~~~(HEADER_FLAG_TS ||| HEADER_FLAG_TSE) ||| HEADER_FLAG_TS
            else f &&& ~~~(HEADER_FLAG_TS ||| HEADER_FLAG_TSE)) ||| HEADER_FLAG_TSE
          else (if a = true then f &&& ~~~(HEADER_FLAG_TS ||| HEADER_FLAG_TSE) ||| HEADER_FLAG_TS
            else f &&& ~~~(HEADER_FLAG_TS ||| HEADER_FLAG_TSE))) &&& HEADER_FLAG_TS ≠ 0) ↔ a = true := by
      intro f; cases f with | _ f => cases f with | _ f => revert f; decide +kernel
    have := hall f ts.isSome tse.isSome
    exact propext this
  have hftse : (PA.headerFlags f ts tse &&& HEADER_FLAG_TSE ≠ 0) = (tse.isSome = true) := by
    have hall : ∀ (f : UInt8) (a b : Bool),
        ((if b = true then (if a = true then f &&& ~~~(HEADER_FLAG_TS ||| HEADER_FLAG_TSE) ||| HEADER_FLAG_TS
            else f &&& ~~~(HEADER_FLAG_TS ||| HEADER_FLAG_TSE)) ||| HEADER_FLAG_TSE
          else (if a = true then f &&& ~~~(HEADER_FLAG_TS ||| HEADER_FLAG_TSE) ||| HEADER_FLAG_TS
            else f &&& ~~~(HEADER_FLAG_TS ||| HEADER_FLAG_TSE))) &&& HEADER_FLAG_TSE ≠ 0) ↔ b = true := by
      intro f; cases f with | _ f => cases f with | _ f => revert f; decide +kernel
    have := hall f ts.isSome tse.isSome
    exact propext this
  simp only [List.cons_append, parseHeader, hfts, hftse]
  rcases ts with _ | ts <;> rcases tse with _ | tse
  · simp [PA.tsBytes]
  · simp only [PA.tsBytes, PA.be16, List.nil_append, List.cons_append, rd16]
    simp only [Option.isSome_some, Option.isSome_none, Bool.false_eq_true, if_false, if_true, Option.map_some,
      be16_value _ (htse _ rfl)]
  · simp only [PA.tsBytes, PA.be16, List.nil_append, List.cons_append, rd16]
    simp only [Option.isSome_some, Option.isSome_none, Bool.false_eq_true, if_false, if_true, Option.map_some,
      be16_value _ (hts _ rfl)]
  · simp only [PA.tsBytes, PA.be16, List.nil_append, List.cons_append, rd16]
    simp only [Option.isSome_some, if_true, Option.map_some, be16_value _ (hts _ rfl),
      be16_value _ (htse _ rfl)]

/-- C05: a packet assembled from a header and any chunks (every call having answered success), followed by
any encryption padding, is parsed into the same flags, timestamps and chunks. -/
theorem C05_assemble_parse (buf : Bytes) (fm n : Nat) (f : UInt8) (ts tse : Option Nat)
    (h1 : fm + 5 ≤ n) (h2 : n ≤ buf.length) (h3 : n < 2 ^ 64)
    (hts : ∀ t, ts = some t → t < 65536) (htse : ∀ t, tse = some t → t < 65536)
    (cs : List (UInt8 × List PA.Op)) (hc : ∀ c ∈ cs, ∀ op ∈ c.2, op.isPush)
    (hlen : ∀ c ∈ cs, (chunkPayload c).length < 65536)
    (p : PA) (rs : List Bool) (hrs : ∀ r ∈ rs, r = true)
    (hr : (PA.initHeader buf fm n f ts tse).run (cs.flatMap chunkOps) = some (p, rs))
    (pad : Bytes) (hp : isPadding pad) :
    ∃ hd got, parsePacket (p.toVector.drop fm ++ pad) = some (hd, got) ∧
      hd.ts = ts ∧ hd.tse = tse ∧
      hd.flags &&& 0xf3 = f &&& 0xf3 ∧
      Matches cs got := by
  obtain ⟨i1, _, _, i4, _, _, _, _, i9⟩ := PA.initHeader_inv buf fm n f ts tse h1 h2 h3
  have hv := chunks_run i1 cs hc rs hrs hr
  rw [i9] at hv
  have hd : p.toVector.drop fm ++ pad =
      PA.headerFlags f ts tse :: (PA.tsBytes ts ++ PA.tsBytes tse) ++ (cs.flatMap chunkWire ++ pad) := by
    rw [hv, List.append_assoc (buf.take fm)]
    have hl : (buf.take fm).length = fm := by simp; omega
    conv => lhs; arg 1; arg 1; rw [← hl]
    rw [List.drop_left]
    simp
  refine ⟨⟨PA.headerFlags f ts tse, ts, tse⟩,
    parseChunks ((p.toVector.drop fm ++ pad).length - (cs.flatMap chunkWire ++ pad).length)
      (cs.flatMap chunkWire ++ pad), ?_, rfl, rfl, ?_, ?_⟩
  · simp only [parsePacket]
    rw [hd, header_parse f ts tse hts htse]
  · have hall : ∀ (f : UInt8) (a b : Bool),
        (if b = true then (if a = true then f &&& ~~~(HEADER_FLAG_TS ||| HEADER_FLAG_TSE) ||| HEADER_FLAG_TS
            else f &&& ~~~(HEADER_FLAG_TS ||| HEADER_FLAG_TSE)) ||| HEADER_FLAG_TSE
          else (if a = true then f &&& ~~~(HEADER_FLAG_TS ||| HEADER_FLAG_TSE) ||| HEADER_FLAG_TS
            else f &&& ~~~(HEADER_FLAG_TS ||| HEADER_FLAG_TSE))) &&& 0xf3 = f &&& 0xf3 := by
      intro f; cases f with | _ f => cases f with | _ f => revert f; decide +kernel
    exact hall f ts.isSome tse.isSome
  · exact parseChunks_wire cs hlen _ pad hp

/-- the hypotheses of C05 are met by a packet with both timestamps and two chunks of three pushes -/
example : ((PA.initHeader (List.replicate 64 0) 4 60 0x82 (some 7) (some 65535)).run
    ([((0x10 : UInt8), [PA.Op.push [1, 2, 3], .pushVLU 300, .pushField [9]]), (0x18, [])].flatMap chunkOps)).map (·.2)
      = some (List.replicate 7 true) ∧ isPadding [0xff, 0xff, 0xff, 0xff] := by
  refine ⟨by decide +kernel, ?_, by decide⟩
  decide

/-! ## C06 -/

/-- Each chunk lies in the packet at its offset, after the end of the previous one. -/
def InBounds (bytes : Bytes) : Nat → List Chunk → Prop
  | _, [] => True
  | pos, c :: cs => pos + 3 ≤ c.offset ∧ c.offset + c.payload.length ≤ bytes.length ∧
      c.payload = (bytes.drop c.offset).take c.payload.length ∧
      bytes[c.offset - 3]? = some c.type ∧
      InBounds bytes (c.offset + c.payload.length) cs

theorem parseChunks_inBounds (bytes : Bytes) (pos : Nat) (hpos : pos ≤ bytes.length) :
    InBounds bytes pos (parseChunks pos (bytes.drop pos)) := by
  generalize hr : bytes.drop pos = r
  induction pos, r using parseChunks.induct with
  | case1 pos t a b rest len hgt => rw [parseChunks]; simp only [len] at hgt; simp [hgt, InBounds]
  | case2 pos t a b rest len hle ih =>
    simp only [len] at hle ih
    rw [parseChunks, if_neg hle]
    have hl := congrArg List.length hr
    simp at hl hle
    have hr3 : bytes.drop (pos + 3) = rest := by
      rw [← List.drop_drop, hr]; rfl
    have hsub : bytes.drop (pos + 3 + (a.toNat <<< 8 + b.toNat)) = rest.drop (a.toNat <<< 8 + b.toNat) := by
      rw [← List.drop_drop, hr3]
    refine ⟨Nat.le_refl _, ?_, ?_, ?_, ?_⟩
    · simp; omega
    · simp only [hr3, List.length_take]; rw [Nat.min_eq_left hle]
    · have h0 : (bytes.drop pos)[0]? = some t := by rw [hr]; rfl
      rw [List.getElem?_drop] at h0
      simpa using h0
    · simp only [List.length_take]
      rw [Nat.min_eq_left hle]
      exact ih (by omega) hsub
  | case3 pos r h =>
    rw [parseChunks]
    · simp [InBounds]
    · exact h

/-- C06: for any decrypted packet the dispatched chunks lie inside the packet, in order, without
overlap, each preceded by its own type byte. -/
theorem C06_chunks_in_bounds (bytes : Bytes) (hd : PacketHeader) (got : List Chunk)
    (h : parsePacket bytes = some (hd, got)) : InBounds bytes 1 got := by
  have hsuf : ∀ rest, parseHeader bytes = some (hd, rest) → ∃ k, 1 ≤ k ∧ k ≤ bytes.length ∧ bytes.drop k = rest := by
    intro rest hh
    cases bytes with
    | nil => simp [parseHeader] at hh
    | cons flags r0 =>
      have hrd : ∀ (r r' : Bytes) (v : Nat), rd16 r = some (v, r') → r' = r.drop 2 ∧ 2 ≤ r.length := by
        intro r r' v
        match r with
        | [] => simp [rd16]
        | [a] => simp [rd16]
        | a :: b :: c => simp [rd16]; intro _ h; exact h.symm
      simp only [parseHeader] at hh
      split at hh
      · simp at hh
      · next ts r1 h1 =>
        have hk1 : ∃ k, k ≤ r0.length ∧ r1 = r0.drop k := by
          split at h1
          · rw [Option.map_eq_some_iff] at h1
            obtain ⟨⟨v, r'⟩, e1, e2⟩ := h1
            simp at e2
            obtain ⟨e3, e4⟩ := hrd _ _ _ e1
            exact ⟨2, e4, by rw [← e2.2, e3]⟩
          · simp at h1; exact ⟨0, by omega, by simp [h1.2]⟩
        obtain ⟨k1, hk1, rfl⟩ := hk1
        split at hh
        · simp at hh
        · next tse r2 h2 =>
          have hk2 : ∃ k, k ≤ (r0.drop k1).length ∧ r2 = (r0.drop k1).drop k := by
            split at h2
            · rw [Option.map_eq_some_iff] at h2
              obtain ⟨⟨v, r'⟩, e1, e2⟩ := h2
              simp only [Prod.mk.injEq] at e2
              obtain ⟨e3, e4⟩ := hrd _ _ _ e1
              exact ⟨2, e4, by rw [← e2.2, e3]⟩
            · simp at h2; exact ⟨0, by omega, by simp [h2.2]⟩
          obtain ⟨k2, hk2, rfl⟩ := hk2
          simp only [Option.some.injEq, Prod.mk.injEq] at hh
          rw [List.drop_drop] at hh
          simp at hk2
          refine ⟨k1 + k2 + 1, by omega, by simp; omega, ?_⟩
          rw [List.drop_succ_cons]; exact hh.2
  simp only [parsePacket] at h
  split at h
  · simp at h
  · next hd' rest hh =>
    simp only [Option.some.injEq, Prod.mk.injEq] at h
    obtain ⟨rfl, rfl⟩ := h
    obtain ⟨k, hk1, hk2, hk3⟩ := hsuf rest hh
    have : bytes.length - rest.length = k := by rw [← hk3]; simp; omega
    rw [this, ← hk3]
    have hb := parseChunks_inBounds bytes k hk2
    cases hpc : parseChunks k (bytes.drop k) with
    | nil => simp [InBounds]
    | cons c cs =>
      rw [hpc] at hb
      obtain ⟨b1, b2⟩ := hb
      exact ⟨by omega, b2⟩

/-- a hostile packet: the last chunk claims more bytes than there are and is not dispatched -/
example : ∃ hd, parsePacket [0x08, 0, 1, 0x10, 0, 2, 5, 6, 0x11, 0, 9, 1] = some (hd, [⟨0x10, 6, [5, 6]⟩]) :=
  ⟨⟨0x08, some 1, none⟩, by decide +kernel⟩

/-- a chunk as it is in a packet: type, length in two bytes, payload -/
def wireOf (t : UInt8) (payload : Bytes) : Bytes := t :: UInt8.ofNat (payload.length / 256) :: UInt8.ofNat (payload.length % 256) :: payload

theorem parseChunks_complete (pos : Nat) (r : Bytes) : ∃ left, r = (parseChunks pos r).flatMap (fun c => wireOf c.type c.payload) ++ left ∧
    ∀ t payload rest, payload.length < 65536 → left ≠ wireOf t payload ++ rest := by
  induction pos, r using parseChunks.induct with
  | case1 pos t a b rest len hgt =>
    rw [parseChunks]; simp only [len] at hgt
    simp only [hgt, if_true]
    refine ⟨t :: a :: b :: rest, rfl, ?_⟩
    intro t' p rest' hp he
    simp only [wireOf, List.cons_append, List.cons.injEq] at he
    obtain ⟨_, ha, hb, hr⟩ := he
    subst ha hb hr
    rw [Nat.shiftLeft_eq] at hgt
    simp at hgt
    omega
  | case2 pos t a b rest len hle ih =>
    simp only [len] at hle ih
    rw [parseChunks, if_neg hle]
    obtain ⟨left, h1, h2⟩ := ih
    refine ⟨left, ?_, h2⟩
    rw [List.flatMap_cons, List.append_assoc, ← h1]
    have hl : (rest.take (a.toNat <<< 8 + b.toNat)).length = a.toNat * 256 + b.toNat := by
      rw [List.length_take, Nat.min_eq_left (by omega), Nat.shiftLeft_eq]
    have ha := a.toNat_lt
    have hb := b.toNat_lt
    simp only [wireOf, hl, List.cons_append, List.take_append_drop]
    have e1 : (a.toNat * 256 + b.toNat) / 256 = a.toNat := by omega
    have e2 : (a.toNat * 256 + b.toNat) % 256 = b.toNat := by omega
    rw [e1, e2]
    simp
  | case3 pos r h =>
    rw [parseChunks]
    · refine ⟨r, rfl, ?_⟩
      intro t p rest hp he
      exact h _ _ _ _ he
    · exact h

/-- the bytes of a time stamp -/
def stampBytes : Option Nat → Bytes
  | none => []
  | some t => [UInt8.ofNat (t / 256), UInt8.ofNat (t % 256)]

/-- C06: nothing is left out. What is dispatched are all the chunks that follow the header one after another, up to the first place where no
complete chunk follows; the time stamps are those in the header, if its flags say they are there. A packet is refused only if it is too
short for the header that its flags announce. -/
theorem C06_all_chunks (bytes : Bytes) :
    (∀ hd got, parsePacket bytes = some (hd, got) →
      ∃ left, bytes = hd.flags :: (stampBytes hd.ts ++ stampBytes hd.tse) ++ got.flatMap (fun c => wireOf c.type c.payload) ++ left ∧
        (∀ t payload rest, payload.length < 65536 → left ≠ wireOf t payload ++ rest) ∧
        (hd.ts.isSome = hd.flags.toNat.testBit 3) ∧ (hd.tse.isSome = hd.flags.toNat.testBit 2)) ∧
    (parsePacket bytes = none → bytes = [] ∨ ∃ flags rest, bytes = flags :: rest ∧
      rest.length < 2 * ((flags.toNat.testBit 3).toNat + (flags.toNat.testBit 2).toNat)) := by
  have hflag : ∀ f : UInt8, (f &&& HEADER_FLAG_TS ≠ 0 ↔ f.toNat.testBit 3 = true) ∧ (f &&& HEADER_FLAG_TSE ≠ 0 ↔ f.toNat.testBit 2 = true) := by
    intro f; cases f with | _ f => cases f with | _ f => revert f; decide +kernel
  have hst : ∀ (a b : UInt8), stampBytes (some ((a.toNat <<< 8) + b.toNat)) = [a, b] := by
    intro a b
    have ha := a.toNat_lt
    have hb := b.toNat_lt
    simp only [stampBytes, Nat.shiftLeft_eq]
    have e1 : (a.toNat * 2 ^ 8 + b.toNat) / 256 = a.toNat := by omega
    have e2 : (a.toNat * 2 ^ 8 + b.toNat) % 256 = b.toNat := by omega
    rw [e1, e2]
    simp
  match bytes with
  | [] => exact ⟨by simp [parsePacket, parseHeader], fun _ => .inl rfl⟩
  | flags :: r0 =>
    obtain ⟨h3, h2⟩ := hflag flags
    by_cases b3 : flags.toNat.testBit 3 = true <;> by_cases b2 : flags.toNat.testBit 2 = true
    · have h3 := h3.mpr b3
      have h2 := h2.mpr b2
      match r0 with
      | [] | [_] | [_, _] | [_, _, _] =>
        refine ⟨by simp [parsePacket, parseHeader, h3, h2, rd16], fun _ => .inr ⟨flags, _, rfl, by simp [b3, b2]⟩⟩
      | a :: b :: c :: d :: r =>
        simp only [parsePacket, parseHeader, h3, h2, rd16, ne_eq, not_false_eq_true, if_true, Option.map_some, Option.some.injEq, Prod.mk.injEq]
        refine ⟨?_, by simp⟩
        rintro hd got ⟨rfl, rfl⟩
        obtain ⟨left, e1, e2⟩ := parseChunks_complete ((flags :: a :: b :: c :: d :: r).length - r.length) r
        refine ⟨left, ?_, e2, by simp [b3], by simp [b2]⟩
        simp only [hst]
        simpa using e1
    · have h3 := h3.mpr b3
      have h2 := mt h2.mp b2
      match r0 with
      | [] | [_] =>
        refine ⟨by simp [parsePacket, parseHeader, h3, rd16], fun _ => .inr ⟨flags, _, rfl, by simp [b3]; try omega⟩⟩
      | a :: b :: r =>
        simp only [parsePacket, parseHeader, h3, h2, rd16, ne_eq, not_false_eq_true, if_true, if_false, Option.map_some, Option.some.injEq, Prod.mk.injEq]
        refine ⟨?_, by simp⟩
        rintro hd got ⟨rfl, rfl⟩
        obtain ⟨left, e1, e2⟩ := parseChunks_complete ((flags :: a :: b :: r).length - r.length) r
        refine ⟨left, ?_, e2, by simp [b3], by simp [b2]⟩
        simp only [hst]
        simpa [stampBytes] using e1
    · have h3 := mt h3.mp b3
      have h2 := h2.mpr b2
      match r0 with
      | [] | [_] =>
        refine ⟨by simp [parsePacket, parseHeader, h2, rd16, h3], fun _ => .inr ⟨flags, _, rfl, by simp [b2]; try omega⟩⟩
      | a :: b :: r =>
        simp only [parsePacket, parseHeader, h3, h2, rd16, ne_eq, not_false_eq_true, if_true, if_false, Option.map_some, Option.some.injEq, Prod.mk.injEq]
        refine ⟨?_, by simp⟩
        rintro hd got ⟨rfl, rfl⟩
        obtain ⟨left, e1, e2⟩ := parseChunks_complete ((flags :: a :: b :: r).length - r.length) r
        refine ⟨left, ?_, e2, by simp [b3], by simp [b2]⟩
        simp only [hst]
        simpa [stampBytes] using e1
    · have h3 := mt h3.mp b3
      have h2 := mt h2.mp b2
      simp only [parsePacket, parseHeader, h3, h2, if_false, Option.some.injEq, Prod.mk.injEq]
      refine ⟨?_, by simp⟩
      rintro hd got ⟨rfl, rfl⟩
      obtain ⟨left, e1, e2⟩ := parseChunks_complete ((flags :: r0).length - r0.length) r0
      refine ⟨left, ?_, e2, by simp [b3], by simp [b2]⟩
      simpa [stampBytes] using e1

/-- one chunk and three bytes that announce more than there is -/
example : (parsePacket [0x0c, 0, 1, 2, 3, 0x10, 0, 1, 9, 0x11, 1, 0]).map (fun r => (r.1.ts, r.1.tse, r.2.map (fun c => wireOf c.type c.payload))) =
    some (some 1, some 515, [[0x10, 0, 1, 9]]) := by decide +kernel

end Rtmfp
