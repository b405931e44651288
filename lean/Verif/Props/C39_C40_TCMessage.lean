import Verif.Model.TCMessage
import Verif.Lemmas.VLU
import Verif.Spec.VLU
import Verif.Props.C01_C03_VLU

/-! # C39, C40, C54 and the message part of C43 -/

namespace Rtmfp
open TC

/-- the value of four bytes, most significant first -/
def be32 (a b c d : UInt8) : Nat := 16777216 * a.toNat + 65536 * b.toNat + 256 * c.toNat + d.toNat

theorem be32_lt (a b c d : UInt8) : be32 a b c d < 4294967296 := by
  have := a.toNat_lt; have := b.toNat_lt; have := c.toNat_lt; have := d.toNat_lt
  rw [be32]; omega

theorem put32_spec (v : Nat) (h : v < 4294967296) : ∃ a b c d, put32 v = [a, b, c, d] ∧ be32 a b c d = v := by
  refine ⟨_, _, _, _, rfl, ?_⟩
  have e : ∀ n : Nat, n &&& 0xff = n % 256 := fun n => Nat.and_two_pow_sub_one_eq_mod n 8
  simp only [be32, e, Nat.shiftRight_eq_div_pow, UInt8.toNat_ofNat']
  omega

/-- `count` is truncated to its low 32 bits on the wire -/
theorem put32_spec' (v : Nat) : ∃ a b c d, put32 v = [a, b, c, d] ∧ be32 a b c d = v % 4294967296 := by
  refine ⟨_, _, _, _, rfl, ?_⟩
  have e : ∀ n : Nat, n &&& 0xff = n % 256 := fun n => Nat.and_two_pow_sub_one_eq_mod n 8
  simp only [be32, e, Nat.shiftRight_eq_div_pow, UInt8.toNat_ofNat']
  omega

/-! ## C39 -/

/-- **C39** the header of a message is exactly recovered, and what follows it is the payload. -/
theorem C39_header_round_trip (t : UInt8) (ts : Nat) (h : ts < 2 ^ 32) (msg : Bytes) :
    parseHeader (message t ts msg) = some (t, ts, 5) ∧ (message t ts msg).drop 5 = msg := by
  obtain ⟨a, b, c, d, e, hv⟩ := put32_spec ts h
  have := a.toNat_lt; have := b.toNat_lt; have := c.toNat_lt; have := d.toNat_lt
  rw [message, e]
  refine ⟨?_, rfl⟩
  show some (t, _, 5) = _
  rw [be32] at hv
  simp only [Nat.shiftLeft_eq, Option.some.injEq, Prod.mk.injEq, true_and, and_true]
  omega

example : parseHeader (message 8 0x01020304 [0xaf]) = some (8, 0x01020304, 5) := by decide

/-- **C39** parsing arbitrary bytes: too short is refused, otherwise the type and the big-endian timestamp are answered;
only the first five bytes are looked at. -/
theorem C39_header_parse (m : Bytes) :
    (m.length < 5 ∧ parseHeader m = none) ∨
    ∃ t a b c d rest, m = t :: a :: b :: c :: d :: rest ∧ parseHeader m = some (t, be32 a b c d, 5) := by
  match m with
  | [] | [_] | [_, _] | [_, _, _] | [_, _, _, _] => exact .inl ⟨by simp, rfl⟩
  | t :: a :: b :: c :: d :: rest =>
    refine .inr ⟨t, a, b, c, d, rest, rfl, ?_⟩
    have := a.toNat_lt; have := b.toNat_lt; have := c.toNat_lt; have := d.toNat_lt
    show some (t, _, 5) = _
    simp only [Nat.shiftLeft_eq, Option.some.injEq, Prod.mk.injEq, true_and, and_true, be32]
    omega

/-- **C39** the metadata of a flow is exactly recovered, whatever follows it. A flow on hold announces sequence order. -/
theorem C39_metadata_round_trip (sid : Nat) (h : sid < 2 ^ 32) (ro : RO) (rest : Bytes) :
    parseMetadata (encodeMetadata sid ro ++ rest) =
      some (sid, if ro = .network then .network else .sequence, (encodeMetadata sid ro).length) := by
  have hp := C01_vlu_round_trip sid (by omega) rest true
  have hl := (C01_vlu_encode_size sid (by omega)).1
  cases e : VLU.encode sid with
  | nil => rw [e] at hl; simp at hl
  | cons x xs =>
    rw [e] at hp
    simp only [encodeMetadata, VLU.append, e, List.cons_append, List.nil_append, parseMetadata] at hp ⊢
    rw [hp]
    have h1 : ¬ sid > 4294967295 := by omega
    cases ro <;> simp [h1]
    · exact ⟨by decide, by omega⟩
    · exact ⟨by decide, by decide, by omega⟩
    · exact ⟨by decide, by omega⟩

example : parseMetadata (encodeMetadata 300 .network ++ [1, 2, 3]) = some (300, .network, 5) := by
  rw [C39_metadata_round_trip 300 (by decide)]
  have : (encodeMetadata 300 .network).length = 5 := by
    simp [encodeMetadata, VLU.append, VLU.encode, VLU.encodeLoop]
  rw [this]; rfl

/-- **C39** parsing arbitrary metadata: what is accepted starts with the signature and a flags byte with the stream-id flag
followed by a complete VLU of at most 2^32-1, all within the bytes given; anything else is refused. -/
theorem C39_metadata_parse (m : Bytes) (sid n : Nat) (ro : RO) :
    parseMetadata m = some (sid, ro, n) ↔
      ∃ flags vlu rest, m = [0x54, 0x43, flags] ++ vlu ++ rest ∧ flags.toNat.testBit 2 = true ∧ Spec.IsVLU vlu ∧
        Spec.base128 vlu = sid ∧ sid < 2 ^ 32 ∧ n = 3 + vlu.length ∧
        ro = (if flags.toNat.testBit 0 then .network else .sequence) := by
  have b2 : ∀ x : UInt8, x &&& 0x04 = 0 ↔ x.toNat.testBit 2 = false := by
    intro d; cases d with | _ d => cases d with | _ d => revert d; decide +kernel
  have b0 : ∀ x : UInt8, x &&& 0x01 = 1 ↔ x.toNat.testBit 0 = true := by
    intro d; cases d with | _ d => cases d with | _ d => revert d; decide +kernel
  constructor
  · intro h
    match m, h with
    | m0 :: m1 :: m2 :: m3 :: rest, h =>
      rw [parseMetadata] at h
      split at h
      · cases h
      · next hc =>
        simp only [not_or, ne_eq, Decidable.not_not] at hc
        obtain ⟨rfl, rfl, h2⟩ := hc
        cases hp : VLU.parse (m3 :: rest) with
        | none => rw [hp] at h; cases h
        | some p =>
          obtain ⟨v, rv⟩ := p
          rw [hp] at h
          simp only at h
          obtain ⟨g1, g2, g3, g4⟩ := C02_vlu_parse_value _ _ _ _ hp
          split at h
          · cases h
          · next hv =>
            simp only [Option.some.injEq, Prod.mk.injEq] at h
            obtain ⟨rfl, h', rfl⟩ := h
            rw [if_pos rfl] at g4
            refine ⟨m2, (m3 :: rest).take rv, (m3 :: rest).drop rv, ?_, ?_, g3, by omega, by omega, ?_, ?_⟩
            · rw [List.append_assoc, List.take_append_drop]; rfl
            · rw [b2] at h2; simpa using h2
            · rw [List.length_take]; omega
            · rw [← h']
              by_cases hb : m2 &&& 0x01 = 1
              · rw [if_pos hb, if_pos ((b0 _).mp hb)]
              · rw [if_neg hb, if_neg (fun x => hb ((b0 _).mpr x))]
  · rintro ⟨flags, vlu, rest, rfl, hf, hv, hs, hlt, rfl, rfl⟩
    obtain ⟨init, last, he, hi, hl⟩ := hv
    have hp : VLU.parse (vlu ++ rest) true = some (sid, vlu.length) := by
      cases hq : VLU.parse (vlu ++ rest) true with
      | none =>
        have := (C02_vlu_parse_fails_iff _ _).mp hq last (by rw [he]; simp)
        exact absurd this hl
      | some p =>
        obtain ⟨v, k⟩ := p
        obtain ⟨k1, k2, k3, k4⟩ := C02_vlu_parse_value _ _ _ _ hq
        obtain ⟨init', last', he', hi', hl'⟩ := k3
        -- two complete VLUs that are prefixes of the same bytes are equal
        have hk : k = vlu.length := by
          rcases Nat.lt_trichotomy k vlu.length with hk | hk | hk
          · exfalso
            have hg : ((vlu ++ rest).take k)[k - 1]? = some last' := by
              rw [he']
              have hl2 := congrArg List.length he'
              simp only [List.length_take, List.length_append, List.length_cons, List.length_nil] at hl2 k2
              rw [List.getElem?_append_right (by omega), show k - 1 - init'.length = 0 by omega]; rfl
            rw [List.getElem?_take_of_lt (by omega), List.getElem?_append_left (by omega), he,
              List.getElem?_append_left (by have := congrArg List.length he; simp at this; omega)] at hg
            exact hl' (hi _ (List.mem_of_getElem? hg))
          · exact hk
          · exfalso
            have hg : (vlu ++ rest)[vlu.length - 1]? = some last := by
              rw [List.getElem?_append_left (by rw [he]; simp), he]
              simp
            have hg' : ((vlu ++ rest).take k)[vlu.length - 1]? = some last := by
              rw [List.getElem?_take_of_lt (by omega)]; exact hg
            have hpos : 0 < vlu.length := by rw [he]; simp
            have hl2 := congrArg List.length he'
            simp only [List.length_take, List.length_append, List.length_cons, List.length_nil] at hl2 k2
            rw [he', List.getElem?_append_left (by omega)] at hg'
            exact hl (hi' _ (List.mem_of_getElem? hg'))
        subst hk
        rw [if_pos rfl, List.take_left, hs] at k4
        rw [k4]
        congr 2; omega
    cases hv : vlu with
    | nil => rw [hv] at he; cases init <;> simp at he
    | cons x xs =>
      rw [hv] at hp
      simp only [List.cons_append, List.nil_append] at hp ⊢
      rw [parseMetadata, if_neg (by simp [b2, hf]), hp]
      simp only
      rw [if_neg (by omega)]
      simp only [Option.some.injEq, Prod.mk.injEq, true_and]
      refine ⟨?_, trivial⟩
      by_cases hb : flags &&& 0x01 = 1
      · rw [if_pos hb, if_pos ((b0 _).mp hb)]
      · rw [if_neg hb, if_neg (fun x => hb ((b0 _).mpr x))]

example : parseMetadata [0x54, 0x43, 0x05, 0x90, 0x80, 0x80, 0x80, 0x00] = none ∧
    parseMetadata [0x54, 0x43, 0x05, 0x8f, 0xff, 0xff, 0xff, 0x7f, 9] = some (4294967295, .network, 8) := by decide +kernel

/-! ## C40 -/

/-- **C40** with timestamps taken from clocks that never wrap (`x`, `y` any integers, of which only the low 32 bits are
carried), less than 2^31 apart: after, before and the signed difference are those of the clocks. -/
theorem C40_timestamp_order (x y : Int) (h : -2 ^ 31 < x - y ∧ x - y < 2 ^ 31) :
    (timestamp_gt (x % 2 ^ 32).toNat (y % 2 ^ 32).toNat = true ↔ x > y) ∧
    (timestamp_lt (x % 2 ^ 32).toNat (y % 2 ^ 32).toNat = true ↔ x < y) ∧
    timestamp_diff (x % 2 ^ 32).toNat (y % 2 ^ 32).toNat = x - y := by
  simp only [timestamp_lt, timestamp_gt, decide_eq_true_eq, timestamp_diff, toInt32]
  refine ⟨by omega, by omega, ?_⟩
  split <;> split <;> omega

/-- around the wrap: 3 ms after the wrap against 2 ms before it -/
example : (-2 ^ 31 < (4294967299 : Int) - 4294967294 ∧ (4294967299 : Int) - 4294967294 < 2 ^ 31) ∧ timestamp_diff 3 4294967294 = 5 ∧ timestamp_gt 3 4294967294 = true := by decide

/-- **C40** exactly one of before, equal and after holds. -/
theorem C40_trichotomy (l r : Nat) (hl : l < 2 ^ 32) (hr : r < 2 ^ 32) (h : (l + 2 ^ 32 - r) % 2 ^ 32 ≠ 2 ^ 31) :
    (timestamp_lt l r = true ∧ timestamp_gt l r = false ∧ l ≠ r) ∨ (timestamp_lt l r = false ∧ timestamp_gt l r = false ∧ l = r) ∨
    (timestamp_lt l r = false ∧ timestamp_gt l r = true ∧ l ≠ r) := by
  simp only [timestamp_lt, timestamp_gt, decide_eq_true_eq, decide_eq_false_iff_not] at *
  omega

/-- at a distance of exactly 2^31 (outside of what the API promises) each is both before and after the other -/
theorem C40_half_way_ambiguous : timestamp_lt 0 2147483648 = true ∧ timestamp_gt 0 2147483648 = true := by decide

/-- **C40** the difference is `l - r` modulo 2^32 and fits an `int32_t`, for all pairs. -/
theorem C40_diff_congruent (l r : Nat) (hl : l < 2 ^ 32) (hr : r < 2 ^ 32) :
    (timestamp_diff l r - ((l : Int) - r)) % 2 ^ 32 = 0 ∧ -2 ^ 31 ≤ timestamp_diff l r ∧ timestamp_diff l r < 2 ^ 31 := by
  simp only [timestamp_diff, timestamp_gt, toInt32, decide_eq_true_eq]
  split <;> split <;> omega

/-! ## the messages of C43 -/

theorem int32At_unsigned (a b c d : UInt8) : toUnsigned 4294967296 (int32At a b c d) = be32 a b c d := by
  have := be32_lt a b c d
  simp only [toUnsigned, int32At, toInt32, be32] at *
  split <;> omega

theorem int32At_size (a b c d : UInt8) :
    toUnsigned W64 (int32At a b c d) = if be32 a b c d < 2147483648 then be32 a b c d else be32 a b c d + (2 ^ 64 - 2 ^ 32) := by
  have := be32_lt a b c d
  have e : a.toNat * 16777216 + b.toNat * 65536 + c.toNat * 256 + d.toNat = be32 a b c d := by rw [be32]; omega
  simp only [toUnsigned, int32At, toInt32, e]
  generalize be32 a b c d = v at *
  by_cases hb : v < 2147483648
  · rw [if_pos hb, if_pos hb]; omega
  · rw [if_neg hb, if_neg hb]; omega

/-- what `parse` answers for the message made for `(id, count)`, for every 64-bit count -/
theorem parse_make_sync (id count : Nat) (hid : id < 2 ^ 32) (rest : Bytes) :
    parseSync (makeSyncMessage id count ++ rest) =
      some (id, if count % 2 ^ 32 < 2 ^ 31 then count % 2 ^ 32 else count % 2 ^ 32 + (2 ^ 64 - 2 ^ 32), 15) := by
  obtain ⟨a, b, c, d, e1, h1⟩ := put32_spec id hid
  obtain ⟨e, f, g, h, e2, h2⟩ := put32_spec' count
  obtain ⟨z0, z1, z2, z3, e3, _⟩ := put32_spec 0 (by omega)
  simp only [makeSyncMessage, message, e1, e2, e3, List.cons_append, List.nil_append, List.append_nil, List.append_assoc]
  rw [parseSync, if_neg]
  · simp only [List.drop_succ_cons, List.drop_zero, parseSyncPayload]
    rw [int32At_unsigned, int32At_size, h1, h2]
  · simp

/-- **C43** a synchronization message is parsed back to its id and count, for every id and every count below 2^31 (see the
next theorem for what is missing). -/
theorem C43_message_round_trip_partial (id count : Nat) (hid : id < 2 ^ 32) (hc : count < 2 ^ 31) (rest : Bytes) :
    parseSync (makeSyncMessage id count ++ rest) = some (id, count, 15) := by
  rw [parse_make_sync id count hid, Nat.mod_eq_of_lt (by omega), if_pos hc]

example : parseSync (makeSyncMessage 0xfffffffe 3) = some (0xfffffffe, 3, 15) := by decide

/-- The rest of the claim is false for the code: a count of 2^31 or more that fits the 32-bit field is sign extended, so the
receiver waits for a different (astronomical) number of flows. -/
theorem C43_message_large_count_wrong :
    ¬ ∀ id count, id < 2 ^ 32 → count < 2 ^ 32 → parseSync (makeSyncMessage id count) = some (id, count, 15) := by
  intro h
  have := h 1 2147483648 (by decide) (by decide)
  revert this
  decide +kernel

/-- **C43** arbitrary bytes: what is accepted is a user control message of that type with eight bytes of payload, and the id
is the 32-bit field after the type, and the count (below 2^31) the one after that; everything of that form is accepted. -/
theorem C43_parse_sound (m : Bytes) :
    (∀ id count n, parseSync m = some (id, count, n) →
      n = 15 ∧ ∃ t0 t1 t2 t3 a b c d e f g i rest, m = [4, t0, t1, t2, t3, 0, 34, a, b, c, d, e, f, g, i] ++ rest ∧
        id = be32 a b c d ∧ id < 2 ^ 32 ∧ (e < 128 → count = be32 e f g i)) ∧
    ∀ t0 t1 t2 t3 a b c d e f g i rest, m = [4, t0, t1, t2, t3, 0, 34, a, b, c, d, e, f, g, i] ++ rest → parseSync m ≠ none := by
  refine ⟨fun id count n h => ?_, by rintro _ _ _ _ _ _ _ _ _ _ _ _ _ rfl; simp [parseSync, parseSyncPayload]⟩
  match m with
  | [] | [_] | [_, _] | [_, _, _] | [_, _, _, _] | [_, _, _, _, _] | [_, _, _, _, _, _] | [_, _, _, _, _, _, _] | [_, _, _, _, _, _, _, _]
  | [_, _, _, _, _, _, _, _, _] | [_, _, _, _, _, _, _, _, _, _] | [_, _, _, _, _, _, _, _, _, _, _] | [_, _, _, _, _, _, _, _, _, _, _, _]
  | [_, _, _, _, _, _, _, _, _, _, _, _, _] | [_, _, _, _, _, _, _, _, _, _, _, _, _, _] => simp [parseSync] at h
  | x :: t0 :: t1 :: t2 :: t3 :: y :: z :: a :: b :: c :: d :: e :: f :: g :: i :: rest =>
    rw [parseSync] at h
    split at h
    · cases h
    · next hc =>
      simp only [not_or, ne_eq, Decidable.not_not] at hc
      obtain ⟨_, h0, h5, h6⟩ := hc
      simp only [List.getElem?_cons_zero, List.getElem?_cons_succ, Option.some.injEq] at h0 h5 h6
      subst h0 h5 h6
      simp only [List.drop_succ_cons, List.drop_zero, parseSyncPayload, Option.some.injEq, Prod.mk.injEq] at h
      obtain ⟨rfl, rfl, rfl⟩ := h
      refine ⟨rfl, t0, t1, t2, t3, a, b, c, d, e, f, g, i, rest, rfl, int32At_unsigned a b c d, ?_, ?_⟩
      · rw [int32At_unsigned]; exact be32_lt a b c d
      · intro he
        have he : e.toNat < 128 := he
        rw [int32At_size, if_pos]
        have hf := f.toNat_lt
        have hg := g.toNat_lt
        have hi := i.toNat_lt
        rw [be32]; omega

/-! ## C54 -/

theorem onUserControl_eq (a b c d e f g h : UInt8) (rest : Bytes) :
    onUserControl false ([0, 41, a, b, c, d, e, f, g, h] ++ rest) = some ⟨max (be32 a b c d) 5000, max (be32 a b c d) 5000⟩ := by
  rw [onUserControl, if_pos (by simp)]
  simp only [List.cons_append, List.nil_append, onSetKeepalive, Bool.false_eq_true, if_false, int32At_unsigned]
  congr 2; omega

/-- **C54** (server part) a set-keepalive message sets the server session's period to its first field, raised to at least
5 seconds, and the peer default to at least 5 seconds; shorter messages and other types do nothing. Missing: the peer default
is not taken from the second field. -/
theorem C54_server_period_partial (a b c d e f g h : UInt8) (rest : Bytes) :
    ∃ k, onUserControl false ([0, 41, a, b, c, d, e, f, g, h] ++ rest) = some k ∧ k.server = max (be32 a b c d) 5000 ∧ 5000 ≤ k.peer := by
  exact ⟨_, onUserControl_eq .., rfl, by simp only []; omega⟩

/-- The rest of the claim is false for the code: the second field is ignored, the peer default becomes the server's period. -/
theorem C54_peer_period_wrong :
    ¬ ∀ (a b c d e f g h : UInt8), onUserControl false [0, 41, a, b, c, d, e, f, g, h] = some ⟨max (be32 a b c d) 5000, max (be32 e f g h) 5000⟩ := by
  intro hh
  have := hh 0 0 0x75 0x30 0 0x0d 0xbb 0xa0
  revert this
  decide +kernel

/-- **C54** messages that are too short, or that the user asked to ignore, change nothing. -/
theorem C54_ignored (ignore : Bool) (payload : Bytes) (h : payload.length < 10 ∨ ignore = true) : onUserControl ignore payload = none := by
  rw [onUserControl]
  split
  · match payload with
    | [] | [_] | [_, _] | [_, _, _] | [_, _, _, _] | [_, _, _, _, _] | [_, _, _, _, _, _] | [_, _, _, _, _, _, _] | [_, _, _, _, _, _, _, _]
    | [_, _, _, _, _, _, _, _, _] => rfl
    | _ :: _ :: _ :: _ :: _ :: _ :: _ :: _ :: _ :: _ :: _ =>
      rcases h with h | h
      · simp at h; omega
      · subst h; rfl
  · rfl

example : onUserControl false [0, 41, 0, 0, 0x75, 0x30, 0, 0, 0, 1] = some ⟨30000, 30000⟩ := by decide +kernel

end Rtmfp
