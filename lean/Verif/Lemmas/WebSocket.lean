import Verif.Model.WebSocket
import Verif.Spec.WebSocket

/-! # Frames: reading what the specification writes -/

namespace Rtmfp.WS

open Spec.Web

theorem first_byte : ∀ (fin : Bool) (rsv : Fin 8) (op : Fin 16),
    (decide (UInt8.ofNat ((if fin then 128 else 0) + 16 * rsv.val + op.val) &&& 0x80 ≠ 0) = fin) ∧
    (UInt8.ofNat ((if fin then 128 else 0) + 16 * rsv.val + op.val) &&& 0x0f).toNat = op.val := by decide +kernel

theorem second_byte : ∀ (m : Bool) (n : Fin 128),
    (decide (UInt8.ofNat ((if m then 128 else 0) + n.val) &&& 0x80 ≠ 0) = m) ∧
    (UInt8.ofNat ((if m then 128 else 0) + n.val) &&& 0x7f).toNat = n.val := by decide +kernel

theorem be_length (n v : Nat) : (be n v).length = n := by
  induction n with
  | zero => rfl
  | succ n ih => simp [be, ih]

theorem shiftIn_go (n v a : Nat) : (be n v).foldl (fun a c => (a <<< 8) + c.toNat) a = a * 256 ^ n + v % 256 ^ n := by
  induction n generalizing a with
  | zero => simp [be, Nat.mod_one]
  | succ n ih =>
    rw [be, List.foldl_cons, ih, Nat.shiftLeft_eq]
    have h : (UInt8.ofNat (v / 256 ^ n)).toNat = v / 256 ^ n % 256 := by simp [UInt8.toNat_ofNat']
    rw [h, Nat.pow_succ 256 n, Nat.mod_mul]
    generalize 256 ^ n = q
    rw [Nat.add_mul, show a * 2 ^ 8 * q = a * (q * 256) by rw [show (2:Nat) ^ 8 = 256 from rfl, Nat.mul_assoc, Nat.mul_comm 256]]
    rw [Nat.mul_comm (v / q % 256) q]; omega

theorem shiftIn_be (n v : Nat) (h : v < 256 ^ n) : shiftIn (be n v) = v := by
  rw [shiftIn, shiftIn_go, Nat.mod_eq_of_lt h]; omega

theorem xor_cancel (c k : UInt8) : (c ^^^ k) ^^^ k = c := by
  rw [UInt8.xor_assoc, UInt8.xor_self, UInt8.xor_zero]

/-- byte `i` of the mask -/
def keyByte (mask : UInt32) (shift : Nat) : UInt8 := UInt8.ofNat ((mask >>> UInt32.ofNat shift) &&& 0xff).toNat

theorem keyBytes (a b c d : UInt8) : keyByte (maskOf [a, b, c, d]) 24 = a ∧ keyByte (maskOf [a, b, c, d]) 16 = b ∧
    keyByte (maskOf [a, b, c, d]) 8 = c ∧ keyByte (maskOf [a, b, c, d]) 0 = d := by
  have ha := a.toNat_lt; have hb := b.toNat_lt; have hc := c.toNat_lt; have hd := d.toNat_lt
  have hm : (maskOf [a, b, c, d]).toNat = a.toNat * 2 ^ 24 + b.toNat * 2 ^ 16 + c.toNat * 2 ^ 8 + d.toNat := by
    simp [maskOf, UInt32.toNat_add, UInt32.toNat_shiftLeft, Nat.shiftLeft_eq]
    omega
  have key : ∀ s, s < 32 → (keyByte (maskOf [a, b, c, d]) s).toNat = (maskOf [a, b, c, d]).toNat / 2 ^ s % 256 := by
    intro s hs
    have h1 : (UInt32.ofNat s).toNat = s := by simp [UInt32.toNat_ofNat']; omega
    have h2 : ((maskOf [a, b, c, d] >>> UInt32.ofNat s) &&& 0xff).toNat = (maskOf [a, b, c, d]).toNat / 2 ^ s % 256 := by
      rw [UInt32.toNat_and, UInt32.toNat_shiftRight, h1, Nat.mod_eq_of_lt hs, Nat.shiftRight_eq_div_pow]
      exact Nat.and_two_pow_sub_one_eq_mod _ 8
    rw [keyByte, h2]; simp [UInt8.toNat_ofNat']
  refine ⟨?_, ?_, ?_, ?_⟩ <;> apply UInt8.toNat_inj.mp
  · rw [key 24 (by omega), hm]; omega
  · rw [key 16 (by omega), hm]; omega
  · rw [key 8 (by omega), hm]; omega
  · rw [key 0 (by omega), hm]; omega

theorem unmask_apply (a b c d : UInt8) (s : Bytes) :
    unmask (maskOf [a, b, c, d]) 24 (applyKey ⟨a, b, c, d⟩ s) = s ∧ unmask (maskOf [a, b, c, d]) 16 (applyKey ⟨b, c, d, a⟩ s) = s ∧
    unmask (maskOf [a, b, c, d]) 8 (applyKey ⟨c, d, a, b⟩ s) = s ∧ unmask (maskOf [a, b, c, d]) 0 (applyKey ⟨d, a, b, c⟩ s) = s := by
  obtain ⟨h0, h1, h2, h3⟩ := keyBytes a b c d
  unfold keyByte at h0 h1 h2 h3
  induction s with
  | nil => simp [applyKey, unmask]
  | cons x s ih =>
    obtain ⟨i0, i1, i2, i3⟩ := ih
    refine ⟨?_, ?_, ?_, ?_⟩ <;> rw [applyKey, unmask]
    · rw [h0, xor_cancel]; exact congrArg _ i1
    · rw [h1, xor_cancel]; exact congrArg _ i2
    · rw [h2, xor_cancel]; exact congrArg _ i3
    · rw [h3, xor_cancel]; exact congrArg _ i0

theorem applyKey_length (k : Key) (s : Bytes) : (applyKey k s).length = s.length := by
  induction s generalizing k with
  | nil => rfl
  | cons c s ih => simp [applyKey, ih]

/-- what is in the second byte about the length -/
def len7 (f : Frame) : Nat := match f.form with | .short => f.payload.length | .mid => 126 | .long => 127
/-- the further bytes of the length -/
def ext (f : Frame) : Bytes := match f.form with | .short => [] | .mid => be 2 f.payload.length | .long => be 8 f.payload.length
/-- key and payload -/
def body (f : Frame) : Bytes := match f.key with | none => f.payload | some k => [k.k0, k.k1, k.k2, k.k3] ++ applyKey k f.payload

theorem wire_eq (f : Frame) : f.wire = UInt8.ofNat ((if f.fin then 128 else 0) + 16 * f.rsv + f.op) ::
    UInt8.ofNat ((if f.key.isSome then 128 else 0) + len7 f) :: (ext f ++ body f) := by
  obtain ⟨fin, rsv, op, key, form, payload⟩ := f
  cases form <;> cases key <;> simp [Frame.wire, len7, ext, body]

theorem body_length (f : Frame) : (body f).length = (if f.key.isSome then 4 else 0) + f.payload.length := by
  unfold body
  cases f.key with
  | none => simp
  | some k => simp [applyKey_length]; omega

theorem len7_lt (f : Frame) (h : f.Fits) : len7 f < 128 := by
  unfold len7; obtain ⟨_, _, h⟩ := h; revert h; cases f.form <;> simp <;> omega

theorem parseRest_body (f : Frame) (rest : Bytes) (needed remaining : Nat) (hlen : f.payload.length ≤ 2 ^ 24)
    (hr : needed + f.payload.length ≤ remaining) :
    parseRest f.fin f.op f.key.isSome remaining needed f.payload.length (body f ++ rest) = .frame f.fin f.op f.payload (needed + f.payload.length) := by
  have e : (1 : Nat) <<< 24 = 2 ^ 24 := by decide
  unfold parseRest
  rw [e, if_neg (by omega), if_neg (by omega)]
  unfold body
  cases hk : f.key with
  | none => simp
  | some k =>
    obtain ⟨a, b, c, d⟩ := k
    have hl := applyKey_length ⟨a, b, c, d⟩ f.payload
    simp only [Option.isSome_some, if_pos]
    have h1 : ([a, b, c, d] ++ applyKey ⟨a, b, c, d⟩ f.payload ++ rest).take 4 = [a, b, c, d] := by simp
    have h2 : (([a, b, c, d] ++ applyKey ⟨a, b, c, d⟩ f.payload ++ rest).drop 4).take f.payload.length = applyKey ⟨a, b, c, d⟩ f.payload := by
      simp [← hl]
    rw [h1, h2, (unmask_apply a b c d f.payload).1]

theorem parse_wire (f : Frame) (rest : Bytes) (h : f.Fits) (hlen : f.payload.length ≤ 2 ^ 24) :
    parse (f.wire ++ rest) = .frame f.fin f.op f.payload f.wire.length := by
  have hb0 := first_byte f.fin ⟨f.rsv, h.1⟩ ⟨f.op, h.2.1⟩
  have hb1 := second_byte f.key.isSome ⟨len7 f, len7_lt f h⟩
  simp only at hb0 hb1
  have hbl := body_length f
  rw [wire_eq]
  simp only [List.cons_append, parse, hb0.1, hb0.2, hb1.1, hb1.2, List.length_cons, List.length_append]
  obtain ⟨_, _, hf⟩ := h
  unfold len7 ext
  cases hform : f.form with
  | short =>
    rw [hform] at hf; simp only at hf ⊢
    simp only [List.nil_append, List.length_nil]
    rw [if_neg (show ¬ f.payload.length = 126 by omega), if_neg (show ¬ f.payload.length = 127 by omega), if_neg (by rw [hbl]; omega),
      if_neg (show ¬ f.payload.length = 126 by omega), if_neg (show ¬ f.payload.length = 127 by omega),
      parseRest_body f rest _ _ hlen (by rw [hbl]; omega)]
    congr 1; rw [hbl]; omega
  | mid =>
    rw [hform] at hf; simp only at hf ⊢
    have hl := be_length 2 f.payload.length
    have h1 : (be 2 f.payload.length ++ body f ++ rest).take 2 = be 2 f.payload.length := by
      rw [List.append_assoc]; exact List.take_left' hl
    have h2 : (be 2 f.payload.length ++ body f ++ rest).drop 2 = body f ++ rest := by
      rw [List.append_assoc]; exact List.drop_left' hl
    rw [if_pos trivial, if_neg (by rw [hbl, hl]; omega), if_pos trivial, h1, h2, shiftIn_be _ _ (by omega), 
      parseRest_body f rest _ _ hlen (by rw [hbl, hl]; omega)]
    congr 1; rw [hbl, hl]; omega
  | long =>
    rw [hform] at hf; simp only at hf ⊢
    have hl := be_length 8 f.payload.length
    have h1 : (be 8 f.payload.length ++ body f ++ rest).take 8 = be 8 f.payload.length := by
      rw [List.append_assoc]; exact List.take_left' hl
    have h2 : (be 8 f.payload.length ++ body f ++ rest).drop 8 = body f ++ rest := by
      rw [List.append_assoc]; exact List.drop_left' hl
    simp only [show ¬ (127 : Nat) = 126 by omega, if_false, if_true]
    rw [if_neg (by rw [hbl, hl]; omega), h1, h2, shiftIn_be _ _ (by omega), 
      parseRest_body f rest _ _ hlen (by rw [hbl, hl]; omega)]
    congr 1; rw [hbl, hl]; omega

/-- the beginning of a frame that is too long -/
theorem parse_long_part (f : Frame) (k : Nat) (rest : Bytes) (h : f.Fits) (hlen : 2 ^ 24 < f.payload.length) (hk : 14 ≤ k) : parse (f.wire.take k ++ rest) = .bad := by
  have hb0 := first_byte f.fin ⟨f.rsv, h.1⟩ ⟨f.op, h.2.1⟩
  have hb1 := second_byte f.key.isSome ⟨len7 f, len7_lt f h⟩
  simp only at hb0 hb1
  have hbl := body_length f
  obtain ⟨_, _, hf⟩ := h
  have hform : f.form = .long := by
    cases hfm : f.form <;> rw [hfm] at hf <;> simp only at hf <;> first | rfl | omega
  have hl := be_length 8 f.payload.length
  have hx : ext f = be 8 f.payload.length := by unfold ext; rw [hform]
  have hw : f.wire.take k = UInt8.ofNat ((if f.fin then 128 else 0) + 16 * f.rsv + f.op) ::
      UInt8.ofNat ((if f.key.isSome then 128 else 0) + len7 f) :: (be 8 f.payload.length ++ (body f).take (k - 10)) := by
    obtain ⟨j, rfl⟩ : ∃ j, k = j + 14 := ⟨k - 14, by omega⟩
    rw [wire_eq, hx, show j + 14 = (j + 12) + 1 + 1 by omega, List.take_succ_cons, List.take_succ_cons, List.take_append, hl,
      List.take_of_length_le (by rw [hl]; omega)]
    simp only [List.cons.injEq, true_and]
    congr 2
  have h4 : 4 ≤ ((body f).take (k - 10)).length := by rw [List.length_take, hbl]; omega
  rw [hw]
  generalize (body f).take (k - 10) = t at h4 ⊢
  simp only [List.cons_append, parse, hb0.1, hb0.2, hb1.1, hb1.2, List.length_cons, List.length_append]
  unfold len7
  rw [hform] at hf; simp only [hform] at hf ⊢
  have h1 : (be 8 f.payload.length ++ t ++ rest).take 8 = be 8 f.payload.length := by
    rw [List.append_assoc]; exact List.take_left' hl
  simp only [show ¬ (127 : Nat) = 126 by omega, if_false, if_true]
  rw [if_neg (by rw [hl]; split <;> omega), h1, shiftIn_be _ _ (by omega)]
  unfold parseRest
  rw [if_pos (by have e : (1 : Nat) <<< 24 = 2 ^ 24 := by decide
                 omega)]

/-! ## More bytes don't change what was found -/

theorem parseRest_append (fin : Bool) (op : Nat) (m : Bool) (remaining needed len : Nat) (cur y : Bytes) (k : Nat)
    (hneed : needed + len ≤ remaining → (if m then 4 else 0) + len ≤ cur.length)
    (h : parseRest fin op m remaining needed len cur ≠ .more) :
    parseRest fin op m (remaining + k) needed len (cur ++ y) = parseRest fin op m remaining needed len cur := by
  unfold parseRest at h ⊢
  by_cases h1 : len > 1 <<< 24
  · rw [if_pos h1, if_pos h1]
  · rw [if_neg h1] at h ⊢
    by_cases h2 : remaining < needed + len
    · rw [if_pos h2] at h; exact absurd rfl h
    · have h3 := hneed (by omega)
      rw [if_neg h2, if_neg (by omega)]
      cases m with
      | false =>
        simp only [Bool.false_eq_true, if_false] at h3 ⊢
        rw [if_neg h1, List.take_append_of_le_length (by omega)]
      | true =>
        simp only [if_true] at h3 ⊢
        rw [if_neg h1, List.take_append_of_le_length (by omega), List.drop_append_of_le_length (by omega), List.take_append_of_le_length (by simp; omega)]

theorem parse_append (x y : Bytes) (h : parse x ≠ .more) : parse (x ++ y) = parse x := by
  match x with
  | [] => exact absurd rfl h
  | [b] => exact absurd rfl h
  | b0 :: b1 :: tl =>
    simp only [List.cons_append, parse, List.length_cons, List.length_append] at h ⊢
    generalize decide (b1 &&& 0x80 ≠ 0) = m at h ⊢
    generalize (b1 &&& 0x7f).toNat = pl at h ⊢
    by_cases hn : tl.length + 1 + 1 < 2 + (if m = true then 4 else 0) + (if pl = 126 then 2 else if pl = 127 then 8 else 0)
    · rw [if_pos hn] at h; exact absurd rfl h
    · rw [if_neg hn] at h ⊢
      rw [if_neg (by omega)]
      by_cases h1 : pl = 126
      · simp only [if_pos h1] at h hn ⊢
        have e : tl.length + y.length + 1 + 1 = (tl.length + 1 + 1) + y.length := by omega
        rw [List.take_append_of_le_length (by omega), List.drop_append_of_le_length (by omega), e]
        exact parseRest_append _ _ _ _ _ _ _ _ _ (by intro _; simp; omega) h
      · by_cases h2 : pl = 127
        · simp only [if_neg h1, if_pos h2] at h hn ⊢
          have e : tl.length + y.length + 1 + 1 = (tl.length + 1 + 1) + y.length := by omega
          rw [List.take_append_of_le_length (by omega), List.drop_append_of_le_length (by omega), e]
          exact parseRest_append _ _ _ _ _ _ _ _ _ (by intro _; simp; omega) h
        · simp only [if_neg h1, if_neg h2] at h hn ⊢
          have e : tl.length + y.length + 1 + 1 = (tl.length + 1 + 1) + y.length := by omega
          rw [e]
          exact parseRest_append _ _ _ _ _ _ _ _ _ (by intro _; omega) h

theorem parseRest_inv {fin fin' : Bool} {op op' : Nat} {m : Bool} {remaining needed len n : Nat} {cur b : Bytes}
    (h : parseRest fin op m remaining needed len cur = .frame fin' op' b n) : op' = op ∧ n = needed + len ∧ n ≤ remaining := by
  unfold parseRest at h
  split at h
  · cases h
  · split at h
    · cases h
    · split at h <;> · cases h; refine ⟨rfl, ?_, ?_⟩ <;> omega

theorem parse_inv {x : Bytes} {fin : Bool} {op : Nat} {b : Bytes} {n : Nat} (h : parse x = .frame fin op b n) :
    2 ≤ n ∧ n ≤ x.length ∧ op < 16 := by
  have mask : ∀ c : UInt8, (c &&& 0x0f).toNat < 16 := by
    intro c
    rw [UInt8.toNat_and]
    have h1 : c.toNat &&& (0x0f : UInt8).toNat ≤ (0x0f : UInt8).toNat := Nat.and_le_right
    have h2 : (0x0f : UInt8).toNat = 15 := rfl
    omega
  match x with
  | [] => cases h
  | [b] => cases h
  | b0 :: b1 :: tl =>
    have hm := mask b0
    simp only [parse] at h
    generalize decide (b1 &&& 0x80 ≠ 0) = m at h
    generalize (b1 &&& 0x7f).toNat = pl at h
    by_cases hn : (b0 :: b1 :: tl).length < 2 + (if m = true then 4 else 0) + (if pl = 126 then 2 else if pl = 127 then 8 else 0)
    · rw [if_pos hn] at h; cases h
    · rw [if_neg hn] at h
      by_cases h1 : pl = 126
      · simp only [if_pos h1] at h
        have := parseRest_inv h; omega
      · by_cases h2 : pl = 127
        · simp only [if_neg h1, if_pos h2] at h
          have := parseRest_inv h; omega
        · simp only [if_neg h1, if_neg h2] at h
          have := parseRest_inv h; omega

/-- a part of a frame isn't anything yet -/
theorem parse_part (f : Frame) (x y : Bytes) (h : f.Fits) (hlen : f.payload.length ≤ 2 ^ 24) (e : x ++ y = f.wire) (hy : y ≠ []) : parse x = .more := by
  by_cases hm : parse x = .more
  · exact hm
  · have h1 := parse_append x y hm
    have h2 := parse_wire f [] h hlen
    rw [List.append_nil, ← e, h1] at h2
    have h3 := (parse_inv h2).2.1
    have h4 : 0 < y.length := List.length_pos_iff.mpr hy
    rw [List.length_append] at h3
    omega

/-! ## What a call changes -/

/-- what has arrived, of an event -/
def arrive : Ev → Option Sig
  | .text b => some (.text b)
  | .binary b => some (.binary b)
  | .ping b => some (.ping b)
  | .pong b => some (.pong b)
  | .peerClose => some .close
  | _ => none

/-- what has arrived, of a log -/
def arrivals (l : List Ev) : List Sig := l.filterMap arrive

theorem arrivals_append (l m : List Ev) : arrivals (l ++ m) = arrivals l ++ arrivals m := List.filterMap_append

/-- callbacks are set unless all is over -/
def Inv (st : St) : Prop := st.cbs = decide (st.phase ≠ .error)

/-- what calls leave alone -/
structure Calm (st st' : St) : Prop where
  frag : st'.frag = st.frag
  fragOp : st'.fragOp = st.fragOp
  input : st'.input = st.input
  hc : st'.headerComplete = st.headerComplete
  gn : st'.gotNewline = st.gotNewline
  bl : st'.block = st.block
  hd : st'.headers = st.headers
  sl : st'.startLine = st.startLine
  log : ∃ l, st'.log = st.log ++ l ∧ arrivals l = [] ∧ Ev.opened ∉ l ∧ (Ev.failed ∈ l → st'.phase = .error)
  inv : Inv st → Inv st'
  err : st.phase = .error → st'.phase = .error
  opn : st'.phase = .opn → st.phase = .opn

theorem Calm.refl (st : St) : Calm st st :=
  ⟨rfl, rfl, rfl, rfl, rfl, rfl, rfl, rfl, ⟨[], by simp, rfl, by simp, by simp⟩, id, id, id⟩

theorem Calm.trans {a b c : St} (h : Calm a b) (g : Calm b c) : Calm a c := by
  obtain ⟨l, hl, hq, ho, hx⟩ := h.log
  obtain ⟨m, hm, hr, hp, hy⟩ := g.log
  refine ⟨g.frag.trans h.frag, g.fragOp.trans h.fragOp, g.input.trans h.input, g.hc.trans h.hc, g.gn.trans h.gn, g.bl.trans h.bl,
    g.hd.trans h.hd, g.sl.trans h.sl, ⟨l ++ m, by rw [hm, hl, List.append_assoc], by rw [arrivals_append, hq, hr]; rfl, ?_, ?_⟩,
    fun i => g.inv (h.inv i), fun e => g.err (h.err e), fun o => h.opn (g.opn o)⟩
  · simp [ho, hp]
  · intro hf
    rcases List.mem_append.mp hf with hf | hf
    · exact g.err (hx hf)
    · exact hy hf

theorem Calm.arrivals {a b : St} (h : Calm a b) : arrivals b.log = arrivals a.log := by
  obtain ⟨l, hl, hq, _⟩ := h.log
  rw [hl, arrivals_append, hq, List.append_nil]

theorem emit_calm (st : St) (e : Ev) (h : arrive e = none) (ho : e ≠ .opened) (hf : e = .failed → st.phase = .error) : Calm st (emit st e) :=
  ⟨rfl, rfl, rfl, rfl, rfl, rfl, rfl, rfl, ⟨[e], rfl, by simp [WS.arrivals, h], by simpa using Ne.symm ho,
    fun m => hf (List.mem_singleton.mp m).symm⟩, id, id, id⟩

theorem scheduleWrite_calm (st : St) : Calm st (scheduleWrite st) := by
  unfold scheduleWrite
  split
  · exact ⟨rfl, rfl, rfl, rfl, rfl, rfl, rfl, rfl, ⟨[.ask], rfl, rfl, by simp, by simp⟩, id, id, id⟩
  · exact Calm.refl st

theorem scheduleWrite_phase (st : St) : (scheduleWrite st).phase = st.phase := by
  unfold scheduleWrite; split <;> rfl

theorem scheduleWrite_log (st : St) (h : st.phase = .error) : scheduleWrite st = st := by
  unfold scheduleWrite; rw [if_neg (by simp [h])]

theorem writeBytes_calm (st : St) (b : Bytes) : Calm st (writeBytes st b) := by
  have h := scheduleWrite_calm { st with out := st.out ++ b }
  exact ⟨h.frag, h.fragOp, h.input, h.hc, h.gn, h.bl, h.hd, h.sl, h.log, h.inv, h.err, h.opn⟩

theorem writeFrame_calm (st : St) (op : Nat) (b : Bytes) : Calm st (writeFrame st op b) := writeBytes_calm _ _

theorem writeFrame_phase (st : St) (op : Nat) (b : Bytes) : (writeFrame st op b).phase = st.phase := scheduleWrite_phase _

theorem cleanClose_calm (st : St) : Calm st (cleanClose st) := by
  have h := writeFrame_calm st 8 []
  exact ⟨h.frag, h.fragOp, h.input, h.hc, h.gn, h.bl, h.hd, h.sl, h.log, h.inv, h.err, h.opn⟩

theorem cleanClose_phase (st : St) : (cleanClose st).phase = st.phase := writeFrame_phase st 8 []

theorem close_eq (st : St) : close st = if st.phase = .error then clear st else clear (emit { st with phase := .error } .released) := by
  unfold close
  by_cases h : st.phase = .error
  · rw [if_pos h, if_neg (by simp [clear, h])]; rfl
  · rw [if_neg h, if_pos (by simp [clear, h])]; rfl

theorem close_phase (st : St) : (close st).phase = .error := by
  rw [close_eq]
  by_cases h : st.phase = .error
  · rw [if_pos h]; exact h
  · rw [if_neg h]; rfl

theorem close_calm (st : St) : Calm st (close st) := by
  rw [close_eq]
  by_cases h : st.phase = .error
  · rw [if_pos h]
    exact ⟨rfl, rfl, rfl, rfl, rfl, rfl, rfl, rfl, ⟨[], by simp [clear], rfl, by simp, by simp⟩, fun _ => by simp [Inv, clear, h], fun _ => h, id⟩
  · rw [if_neg h]
    exact ⟨rfl, rfl, rfl, rfl, rfl, rfl, rfl, rfl, ⟨[.released], rfl, rfl, by simp, by simp⟩, fun _ => by simp [Inv, clear, emit], fun _ => rfl, fun h => by cases h⟩

theorem shutdown_calm (st : St) : Calm st (shutdown st) := by
  unfold shutdown
  split
  · rename_i h
    have g := scheduleWrite_calm { st with phase := .closing }
    refine ⟨g.frag, g.fragOp, g.input, g.hc, g.gn, g.bl, g.hd, g.sl, g.log, ?_, ?_, fun _ => h⟩
    · intro hi; apply g.inv; simp [Inv, h] at hi ⊢; exact hi
    · intro e; rw [h] at e; cases e
  · exact Calm.refl st

theorem call_calm (st : St) (c : Call) : Calm st (call st c) := by
  have h0 := emit_calm st (.did c) rfl (by simp) (by simp)
  unfold call
  cases c with
  | binary b => exact h0.trans (writeFrame_calm _ _ _)
  | text b => exact h0.trans (writeFrame_calm _ _ _)
  | cleanClose => exact h0.trans (cleanClose_calm _)
  | close => exact h0.trans (close_calm _)
  | shutdown => exact h0.trans (shutdown_calm _)
  | raw b => exact h0.trans (writeBytes_calm _ _)
  | notify =>
    have h := scheduleWrite_calm { emit st (.did .notify) with onw := true }
    exact h0.trans ⟨h.frag, h.fragOp, h.input, h.hc, h.gn, h.bl, h.hd, h.sl, h.log, h.inv, h.err, h.opn⟩

theorem calls_calm (cs : List Call) (st : St) : Calm st (cs.foldl call st) := by
  induction cs generalizing st with
  | nil => exact Calm.refl st
  | cons c cs ih => exact (call_calm st c).trans (ih _)

theorem callback_calm (app : App) (st : St) (e : Ev) : Calm (emit st e) (callback app st e) := calls_calm _ _

/-- the application neither closes nor shuts down in its callbacks -/
def Stays (app : App) : Prop := ∀ l, Call.close ∉ app.react l ∧ Call.shutdown ∉ app.react l

theorem call_phase (st : St) (c : Call) (h1 : c ≠ .close) (h2 : c ≠ .shutdown) : (call st c).phase = st.phase := by
  unfold call
  cases c with
  | close => exact absurd rfl h1
  | shutdown => exact absurd rfl h2
  | cleanClose => exact cleanClose_phase _
  | binary b => exact writeFrame_phase _ _ _
  | text b => exact writeFrame_phase _ _ _
  | raw b => exact scheduleWrite_phase _
  | notify => exact scheduleWrite_phase _

theorem calls_phase (cs : List Call) (st : St) (h1 : Call.close ∉ cs) (h2 : Call.shutdown ∉ cs) : (cs.foldl call st).phase = st.phase := by
  induction cs generalizing st with
  | nil => rfl
  | cons c cs ih =>
    simp only [List.mem_cons, not_or] at h1 h2
    rw [List.foldl_cons, ih _ h1.2 h2.2, call_phase st c (Ne.symm h1.1) (Ne.symm h2.1)]

theorem callback_phase (app : App) (hs : Stays app) (st : St) (e : Ev) : (callback app st e).phase = st.phase :=
  calls_phase _ _ (hs _).1 (hs _).2

theorem callback_mem (app : App) (st : St) (e : Ev) : e ∈ (callback app st e).log := by
  obtain ⟨l, hl, _⟩ := (callback_calm app st e).log
  rw [hl]; simp [emit]

/-- ending -/
theorem setClosed_spec (app : App) (st : St) : Calm st (setClosed app st) ∧ (Inv st → (setClosed app st).phase = .error) ∧
    (Inv st → st.phase ≠ .error → Ev.failed ∈ (setClosed app st).log ∧ Ev.released ∈ (setClosed app st).log) := by
  unfold setClosed
  by_cases h : st.phase = .error
  · rw [if_neg (by simp [h])]
    refine ⟨⟨rfl, rfl, rfl, rfl, rfl, rfl, rfl, rfl, ⟨[], by simp [clear], rfl, by simp, by simp⟩, fun _ => by simp [Inv, clear, h], id, id⟩, fun _ => h, fun _ h2 => absurd h h2⟩
  · rw [if_pos h]
    have h1 : Calm st (clear (emit { st with phase := .error } .released)) :=
      ⟨rfl, rfl, rfl, rfl, rfl, rfl, rfl, rfl, ⟨[.released], rfl, rfl, by simp, by simp⟩, fun _ => by simp [Inv, clear, emit], fun _ => rfl, fun h => by cases h⟩
    by_cases hc : st.cbs = true
    · rw [if_pos hc]
      have h2 := emit_calm (clear (emit { st with phase := .error } .released)) .failed rfl (by simp) (fun _ => rfl)
      have h3 := callback_calm app (clear (emit { st with phase := .error } .released)) .failed
      refine ⟨h1.trans (h2.trans h3), fun _ => h3.err rfl, fun _ _ => ⟨callback_mem _ _ _, ?_⟩⟩
      obtain ⟨l, hl, _⟩ := h3.log
      rw [hl]; simp [emit, clear]
    · rw [if_neg hc]
      refine ⟨h1, fun _ => rfl, fun hi => ?_⟩
      exact absurd (by rw [hi]; simp [h]) hc

/-! ## A frame -/

/-- what a frame says, and what is begun after it (`none`: the rules are broken) -/
def stepSig (p : Option (Nat × Bytes)) (fin : Bool) (op : Nat) (b : Bytes) : List Sig × Option (Option (Nat × Bytes)) :=
  if op = 8 then ([.close], some p)
  else if op = 9 then ([.ping b], some p)
  else if op = 10 then ([.pong b], some p)
  else if op = 0 then
    match p with
    | none => ([], none)
    | some (o, c) => if fin then (deliver o (c ++ b), some none) else ([], some (some (o, c ++ b)))
  else
    match p with
    | some _ => ([], none)
    | none => if fin then (deliver op b, some none) else ([], some (some (op, b)))

/-- the members that hold the message begun -/
def Pending (st : St) : Option (Nat × Bytes) → Prop
  | none => st.fragOp = -1 ∧ st.frag = []
  | some (o, c) => st.fragOp = o ∧ 0 < o ∧ st.frag = c

theorem Calm.pending {a b : St} (h : Calm a b) {p} (hp : Pending a p) : Pending b p := by
  cases p with
  | none => exact ⟨h.fragOp.trans hp.1, h.frag.trans hp.2⟩
  | some x => exact ⟨h.fragOp.trans hp.1, hp.2.1, h.frag.trans hp.2.2⟩

/-- a whole message -/
theorem message_spec (app : App) (st : St) (op : Nat) (b : Bytes) (hi : Inv st) (hf : st.fragOp = -1) (he : st.phase ≠ .error) :
    ∃ st', onMessageFrame app st op true b = st' ∧ Inv st' ∧ st'.fragOp = -1 ∧ st'.frag = st.frag ∧ st'.input = st.input ∧
      st'.headerComplete = st.headerComplete ∧
      arrivals st'.log = arrivals st.log ++ deliver op b ∧ (Stays app → st'.phase = st.phase) ∧ (∃ l, st'.log = st.log ++ l ∧ Ev.opened ∉ l ∧ (Ev.failed ∈ l → st'.phase = .error)) := by
  refine ⟨_, rfl, ?_⟩
  have hc : st.cbs = true := by rw [hi]; simp [he]
  unfold onMessageFrame deliver
  rw [if_neg (by omega), if_neg (by decide)]
  simp only [hc, if_true]
  have cb : ∀ e s, arrive e = some s → Inv (callback app st e) ∧ (callback app st e).fragOp = -1 ∧ (callback app st e).frag = st.frag ∧
      (callback app st e).input = st.input ∧ (callback app st e).headerComplete = st.headerComplete ∧
      arrivals (callback app st e).log = arrivals st.log ++ [s] ∧ (Stays app → (callback app st e).phase = st.phase) ∧
      (∃ l, (callback app st e).log = st.log ++ l ∧ Ev.opened ∉ l ∧ (Ev.failed ∈ l → (callback app st e).phase = .error)) := by
    intro e s hs
    have h := callback_calm app st e
    obtain ⟨l, hl, _, hl2, hl3⟩ := h.log
    exact ⟨h.inv hi, h.fragOp.trans hf, h.frag, h.input, h.hc, by rw [h.arrivals]; simp [emit, arrivals, List.filterMap_append, hs],
      fun hst => callback_phase app hst st e, ⟨[e] ++ l, by rw [hl]; simp [emit], by cases e <;> simp_all [arrive], by cases e <;> simp_all [arrive]⟩⟩
  by_cases h1 : op = 1
  · rw [if_pos (by omega), if_pos h1]; exact cb _ _ rfl
  · rw [if_neg (by omega), if_neg h1]
    by_cases h2 : op = 2
    · rw [if_pos (by omega), if_pos h2]; exact cb _ _ rfl
    · rw [if_neg (by omega), if_neg h2]
      exact ⟨hi, hf, rfl, rfl, rfl, by simp, fun _ => rfl, ⟨[], by simp, by simp, by simp⟩⟩

theorem frame_spec (app : App) (st : St) (fin : Bool) (op : Nat) (b : Bytes) (p : Option (Nat × Bytes)) (hi : Inv st) (hp : Pending st p)
    (he : st.phase ≠ .error) :
    Inv (onFrame app st fin op b) ∧ (onFrame app st fin op b).input = st.input ∧
    (onFrame app st fin op b).headerComplete = st.headerComplete ∧
    (∃ l, (onFrame app st fin op b).log = st.log ++ l ∧ Ev.opened ∉ l ∧ (Ev.failed ∈ l → (onFrame app st fin op b).phase = .error)) ∧
    arrivals (onFrame app st fin op b).log = arrivals st.log ++ (stepSig p fin op b).1 ∧
    (match (stepSig p fin op b).2 with
     | some p' => Pending (onFrame app st fin op b) p' ∧ (Stays app → (onFrame app st fin op b).phase = st.phase ∨
        (op = 8 ∧ (onFrame app st fin op b).phase = .error))
     | none => (onFrame app st fin op b).phase = .error ∧ Ev.failed ∈ (onFrame app st fin op b).log ∧ Ev.released ∈ (onFrame app st fin op b).log) := by
  have note : ∀ e s, arrive e = some s → arrivals (emit st e).log = arrivals st.log ++ [s] := by
    intro e s hs; simp [emit, arrivals, List.filterMap_append, hs]
  have hne : ∀ e, (if st.phase ≠ .error then emit st e else st) = emit st e := fun e => by rw [if_pos he]
  have ext : ∀ {e st'}, Calm (emit st e) st' → e ≠ .opened → e ≠ .failed → ∃ l, st'.log = st.log ++ l ∧ Ev.opened ∉ l ∧ (Ev.failed ∈ l → st'.phase = .error) := by
    intro e st' h h1 h2
    obtain ⟨l, hl, _, hl2, hl3⟩ := h.log
    exact ⟨[e] ++ l, by rw [hl]; simp [emit], by simp [hl2, Ne.symm h1], by simpa [Ne.symm h2] using hl3⟩
  have ext0 : ∀ {st'}, Calm st st' → ∃ l, st'.log = st.log ++ l ∧ Ev.opened ∉ l ∧ (Ev.failed ∈ l → st'.phase = .error) := by
    intro st' h
    obtain ⟨l, hl, _, hl2, hl3⟩ := h.log
    exact ⟨l, hl, hl2, hl3⟩
  have pe : ∀ e, Pending (emit st e) p := by
    intro e; cases p with
    | none => exact hp
    | some x => exact hp
  have ie : ∀ e, Inv (emit st e) := fun e => hi
  unfold onFrame stepSig
  simp only [hne]
  by_cases h8 : op = 8
  · subst h8
    rw [if_neg (by decide), if_neg (by decide), if_neg (by decide), if_pos rfl, if_pos rfl]
    by_cases hc : st.closing
    · rw [if_pos hc]
      obtain ⟨g, g2, _⟩ := setClosed_spec app (emit st .peerClose)
      exact ⟨g.inv (ie _), g.input, g.hc, ext g (by simp) (by simp), by rw [g.arrivals]; exact note _ _ rfl, g.pending (pe _), fun _ => .inr ⟨rfl, g2 (ie _)⟩⟩
    · rw [if_neg hc]
      have g := cleanClose_calm (emit st .peerClose)
      exact ⟨g.inv (ie _), g.input, g.hc, ext g (by simp) (by simp), by rw [g.arrivals]; exact note _ _ rfl, g.pending (pe _), fun _ => .inl (cleanClose_phase _)⟩
  · rw [if_neg h8, if_neg h8]
    by_cases h9 : op = 9
    · subst h9
      rw [if_neg (by decide), if_pos rfl, if_pos rfl]
      have g := writeFrame_calm (emit st (.ping b)) 10 b
      exact ⟨g.inv (ie _), g.input, g.hc, ext g (by simp) (by simp), by rw [g.arrivals]; exact note _ _ rfl, g.pending (pe _), fun _ => .inl (writeFrame_phase _ _ _)⟩
    · rw [if_neg h9, if_neg h9]
      by_cases h10 : op = 10
      · subst h10
        rw [if_neg (by decide), if_pos rfl, if_pos rfl]
        exact ⟨ie _, rfl, rfl, ⟨[.pong b], rfl, by simp, by simp⟩, note _ _ rfl, pe _, fun _ => .inl rfl⟩
      · rw [if_neg h10, if_neg h10]
        have bad : ∀ st1, st1 = setClosed app st → Inv st1 ∧ st1.input = st.input ∧ st1.headerComplete = st.headerComplete ∧
            (∃ l, st1.log = st.log ++ l ∧ Ev.opened ∉ l ∧ (Ev.failed ∈ l → st1.phase = .error)) ∧ arrivals st1.log = arrivals st.log ++ [] ∧
            (st1.phase = .error ∧ Ev.failed ∈ st1.log ∧ Ev.released ∈ st1.log) := by
          intro st1 h1
          subst h1
          obtain ⟨g, g2, g3⟩ := setClosed_spec app st
          exact ⟨g.inv hi, g.input, g.hc, ext0 g, by rw [g.arrivals, List.append_nil], g2 hi, g3 hi he⟩
        by_cases h0 : op = 0
        · subst h0
          rw [if_pos rfl, if_pos rfl]
          unfold onContinuation
          cases p with
          | none =>
            rw [if_pos (by have := hp.1; omega)]
            exact bad _ rfl
          | some x =>
            obtain ⟨o, c⟩ := x
            obtain ⟨p1, p2, p3⟩ := hp
            rw [if_neg (by omega)]
            cases fin with
            | false => exact ⟨hi, rfl, rfl, ⟨[], by simp, by simp, by simp⟩, by simp, ⟨p1, p2, by show st.frag ++ b = c ++ b; rw [p3]⟩, fun _ => .inl rfl⟩
            | true =>
              simp only [if_true]
              obtain ⟨st', m0, m1, m2, m3, m4, m5, m6, m7, m8⟩ := message_spec app { st with frag := st.frag ++ b, fragOp := -1 } o (st.frag ++ b) hi rfl he
              rw [p1, m0]
              exact ⟨m1, m4, m5, m8, by rw [← p3]; exact m6, ⟨m2, rfl⟩, fun hs => .inl (m7 hs)⟩
        · rw [if_neg h0, if_neg h0]
          cases p with
          | some x =>
            obtain ⟨o, c⟩ := x
            refine bad _ ?_
            unfold onMessageFrame
            rw [if_pos (by have := hp.1; have := hp.2.1; omega)]
          | none =>
            cases fin with
            | false =>
              simp only [onMessageFrame, Bool.false_eq_true, if_false, if_true]
              rw [if_neg (by have := hp.1; omega)]
              exact ⟨hi, rfl, rfl, ⟨[], by simp, by simp, by simp⟩, by simp, ⟨rfl, by omega, by rw [hp.2]; rfl⟩, fun _ => .inl rfl⟩
            | true =>
              simp only [if_true]
              obtain ⟨st', m0, m1, m2, m3, m4, m5, m6, m7, m8⟩ := message_spec app st op b hi hp.1 he
              rw [m0]
              exact ⟨m1, m4, m5, m8, m6, ⟨m2, by rw [m3]; exact hp.2⟩, fun hs => .inl (m7 hs)⟩

/-- after the end frames say nothing -/
theorem frame_over (app : App) (st : St) (fin : Bool) (op : Nat) (b : Bytes) (hi : Inv st) (he : st.phase = .error) :
    (onFrame app st fin op b).phase = .error ∧ (onFrame app st fin op b).log = st.log ∧ Inv (onFrame app st fin op b) ∧
    (onFrame app st fin op b).headerComplete = st.headerComplete := by
  have hc : st.cbs = false := by rw [hi]; simp [he]
  have sc : ∀ s : St, s.phase = .error → s.log = st.log → s.headerComplete = st.headerComplete → (setClosed app s).phase = .error ∧ (setClosed app s).log = st.log ∧ Inv (setClosed app s) ∧
      (setClosed app s).headerComplete = st.headerComplete := by
    intro s h1 h2 h3
    unfold setClosed
    rw [if_neg (by simp [h1])]
    exact ⟨h1, h2, by simp [Inv, clear, h1], h3⟩
  have mf : ∀ (s : St) (op : Int) (fin : Bool) (b : Bytes), s.phase = .error → s.log = st.log → Inv s → s.cbs = false → s.headerComplete = st.headerComplete →
      (onMessageFrame app s op fin b).phase = .error ∧ (onMessageFrame app s op fin b).log = st.log ∧ Inv (onMessageFrame app s op fin b) ∧
      (onMessageFrame app s op fin b).headerComplete = st.headerComplete := by
    intro s op fin b h1 h2 h3 h4 h5
    unfold onMessageFrame
    have h4' : ∀ a c : St, (if s.cbs = true then a else c) = c := fun a c => by rw [h4]; rfl
    simp only [h4']
    split
    · exact sc s h1 h2 h5
    · split
      · exact ⟨h1, h2, h3, h5⟩
      · split
        · exact ⟨h1, h2, h3, h5⟩
        · split <;> exact ⟨h1, h2, h3, h5⟩
  have wf : ∀ op b, (writeFrame st op b).phase = .error ∧ (writeFrame st op b).log = st.log ∧ Inv (writeFrame st op b) ∧
      (writeFrame st op b).headerComplete = st.headerComplete := by
    intro op b
    unfold writeFrame writeBytes
    rw [scheduleWrite_log { st with out := st.out ++ (frameHeader op b.length ++ b) } he]
    exact ⟨he, rfl, hi, rfl⟩
  have hne : ∀ e, (if st.phase ≠ .error then emit st e else st) = st := fun e => by rw [if_neg (by simp [he])]
  unfold onFrame
  simp only [hne]
  split
  · unfold onContinuation
    split
    · exact sc st he rfl rfl
    · simp only
      split
      · exact mf { st with frag := st.frag ++ b, fragOp := -1 } _ _ _ he rfl hi hc rfl
      · exact ⟨he, rfl, hi, rfl⟩
  · split
    · exact wf _ _
    · split
      · exact ⟨he, rfl, hi, rfl⟩
      · split
        · split
          · exact sc st he rfl rfl
          · exact wf 8 []
        · exact mf st _ _ _ he rfl hi hc rfl

/-! ## The loop -/

/-- What bytes say (also after a Close); `none` is where they break the rules or are too many for a frame. -/
def says : (fuel : Nat) → (p : Option (Nat × Bytes)) → Bytes → List (Option Sig)
  | 0, _, _ => []
  | fuel + 1, p, buf =>
    match parse buf with
    | .frame fin op b n =>
      (stepSig p fin op b).1.map some ++
        (match (stepSig p fin op b).2 with
         | none => [none]
         | some p' => says fuel p' (buf.drop n))
    | .bad => [none]
    | .more => []

theorem says_fuel (f g : Nat) (p : Option (Nat × Bytes)) (buf : Bytes) (hf : buf.length ≤ f) (hg : buf.length ≤ g) : says f p buf = says g p buf := by
  induction f generalizing g p buf with
  | zero =>
    have : buf = [] := List.length_eq_zero_iff.mp (by omega)
    subst this
    cases g with
    | zero => rfl
    | succ g => simp [says, parse]
  | succ f ih =>
    cases g with
    | zero =>
      have : buf = [] := List.length_eq_zero_iff.mp (by omega)
      subst this
      simp [says, parse]
    | succ g =>
      simp only [says]
      split
      · rename_i fin op b n h
        have := parse_inv h
        congr 1
        split
        · rfl
        · exact ih g _ _ (by simp; omega) (by simp; omega)
      · rfl
      · rfl

/-- what bytes say -/
def say (p : Option (Nat × Bytes)) (buf : Bytes) : List (Option Sig) := says buf.length p buf

theorem say_frame {p : Option (Nat × Bytes)} {buf : Bytes} {fin : Bool} {op : Nat} {b : Bytes} {n : Nat} (h : parse buf = .frame fin op b n) :
    say p buf = (stepSig p fin op b).1.map some ++ (match (stepSig p fin op b).2 with | none => [none] | some p' => say p' (buf.drop n)) := by
  have hb := parse_inv h
  rw [say, says_fuel buf.length (buf.length + 1) p buf (by omega) (by omega)]
  simp only [says, h]
  congr 1
  split
  · rfl
  · exact says_fuel _ _ _ _ (by simp) (by simp)

theorem say_more {p : Option (Nat × Bytes)} {buf : Bytes} (h : parse buf = .more) : say p buf = [] := by
  rw [say, says_fuel buf.length (buf.length + 1) p buf (by omega) (by omega)]
  simp only [says, h]

theorem say_bad {p : Option (Nat × Bytes)} {buf : Bytes} (h : parse buf = .bad) : say p buf = [none] := by
  rw [say, says_fuel buf.length (buf.length + 1) p buf (by omega) (by omega)]
  simp only [says, h]

/-- what has arrived, to compare with what bytes say -/
def seen (st : St) : List (Option Sig) := (arrivals st.log).map some

theorem loop_over (app : App) (fuel : Nat) (st : St) (buf : Bytes) (hi : Inv st) (he : st.phase = .error) :
    (loop app fuel st buf).1.phase = .error ∧ (loop app fuel st buf).1.log = st.log ∧ Inv (loop app fuel st buf).1 ∧
    (loop app fuel st buf).1.headerComplete = st.headerComplete := by
  induction fuel generalizing st buf with
  | zero => exact ⟨he, rfl, hi, rfl⟩
  | succ fuel ih =>
    unfold loop
    split
    · exact ⟨he, rfl, hi, rfl⟩
    · split
      · exact ⟨he, rfl, hi, rfl⟩
      · unfold setClosed
        rw [if_neg (by simp [he])]
        exact ⟨he, rfl, by simp [Inv, clear, he], rfl⟩
      · rename_i fin op b n _
        obtain ⟨h1, h2, h3, h4⟩ := frame_over app st fin op b hi he
        obtain ⟨i1, i2, i3, i4⟩ := ih _ (buf.drop n) h3 h1
        exact ⟨i1, i2.trans h2, i3, i4.trans h4⟩

/-- The result `r` of the loop over `buf`, whatever comes after (`z`): what has arrived is the beginning of what the bytes say; if the socket
is still open the rest is what the bytes left say. If it isn't though the application stays, the rules were broken or a Close has arrived. -/
structure LoopOk (app : App) (st : St) (p : Option (Nat × Bytes)) (buf : Bytes) (r : St × Option Bytes) : Prop where
  inv : Inv r.1
  hc : r.1.headerComplete = st.headerComplete
  log : ∃ l, r.1.log = st.log ++ l ∧ Ev.opened ∉ l ∧ (Ev.failed ∈ l → r.1.phase = .error)
  pre : ∀ z, ∃ y, seen st ++ say p (buf ++ z) = seen r.1 ++ y
  opn : r.1.phase ≠ .error → ∃ rest p', r.2 = some rest ∧ parse rest = .more ∧ Pending r.1 p' ∧ ∀ z, seen st ++ say p (buf ++ z) = seen r.1 ++ say p' (rest ++ z)
  stay : Stays app → r.1.phase = st.phase ∨ (r.1.phase = .error ∧ (
    (Ev.failed ∈ r.1.log ∧ Ev.released ∈ r.1.log ∧ ∀ z, seen st ++ say p (buf ++ z) = seen r.1 ++ [none]) ∨ (∃ l, arrivals r.1.log = l ++ [.close])))

theorem loop_done (app : App) (st : St) (p : Option (Nat × Bytes)) (buf : Bytes) (hi : Inv st) (hp : Pending st p) (hm : parse buf = .more) :
    LoopOk app st p buf (st, some buf) :=
  ⟨hi, rfl, ⟨[], by simp, by simp, by simp⟩, fun z => ⟨_, rfl⟩, fun _ => ⟨buf, p, rfl, hm, hp, fun z => rfl⟩, fun _ => .inl rfl⟩

theorem loop_spec (app : App) (fuel : Nat) (st : St) (buf : Bytes) (p : Option (Nat × Bytes)) (hi : Inv st) (hp : Pending st p) (he : st.phase ≠ .error)
    (hf : buf.length ≤ fuel) : LoopOk app st p buf (loop app fuel st buf) := by
  induction fuel generalizing st buf p with
  | zero =>
    have : buf = [] := List.length_eq_zero_iff.mp (by omega)
    subst this
    exact loop_done app st p [] hi hp rfl
  | succ fuel ih =>
    by_cases hb : buf = []
    · subst hb; rw [show loop app (fuel + 1) st [] = (st, some []) by simp [loop]]; exact loop_done app st p [] hi hp rfl
    · cases hpar : parse buf with
      | more => rw [show loop app (fuel + 1) st buf = (st, some buf) by simp [loop, hpar]]; exact loop_done app st p buf hi hp hpar
      | bad =>
        rw [show loop app (fuel + 1) st buf = (setClosed app st, none) by simp [loop, hb, hpar]]
        obtain ⟨g, g2, g3⟩ := setClosed_spec app st
        have hs : ∀ z, say p (buf ++ z) = [none] := fun z => say_bad ((parse_append buf z (by rw [hpar]; intro h; cases h)).trans hpar)
        have he2 : (setClosed app st).phase = .error := g2 hi
        have ha : ∀ z, seen st ++ say p (buf ++ z) = seen (setClosed app st) ++ [none] := by
          intro z; rw [hs z, seen, seen, g.arrivals]
        obtain ⟨l, hl, _, hl2, hl3⟩ := g.log
        exact ⟨g.inv hi, g.hc, ⟨l, hl, hl2, hl3⟩, fun z => ⟨_, ha z⟩, fun h => absurd he2 h, fun _ => .inr ⟨he2, .inl ⟨(g3 hi he).1, (g3 hi he).2, ha⟩⟩⟩
      | frame fin op b n =>
        rw [show loop app (fuel + 1) st buf = loop app fuel (onFrame app st fin op b) (buf.drop n) by simp [loop, hb, hpar]]
        have hbd := parse_inv hpar
        have hz : ∀ z, say p (buf ++ z) = (stepSig p fin op b).1.map some ++ (match (stepSig p fin op b).2 with | none => [none] | some p' => say p' (buf.drop n ++ z)) := by
          intro z
          rw [say_frame ((parse_append buf z (by rw [hpar]; intro h; cases h)).trans hpar), List.drop_append_of_le_length hbd.2.1]
        obtain ⟨f1, f2, f3, ⟨l0, hl0, hl1, hl2⟩, f4, f5⟩ := frame_spec app st fin op b p hi hp he
        have f4' : seen (onFrame app st fin op b) = seen st ++ (stepSig p fin op b).1.map some := by
          rw [seen, seen, f4, List.map_append]
        cases hcont : (stepSig p fin op b).2 with
        | none =>
          rw [hcont] at f5
          obtain ⟨o1, o2, o3, o4⟩ := loop_over app fuel (onFrame app st fin op b) (buf.drop n) f1 f5.1
          have ha : ∀ z, seen st ++ say p (buf ++ z) = seen (loop app fuel (onFrame app st fin op b) (buf.drop n)).1 ++ [none] := by
            intro z; rw [hz z, hcont, show seen (loop app fuel (onFrame app st fin op b) (buf.drop n)).1 = seen (onFrame app st fin op b) by rw [seen, o2, seen], f4']; simp
          exact ⟨o3, o4.trans f3, ⟨l0, o2.trans hl0, hl1, fun _ => o1⟩, fun z => ⟨_, ha z⟩, fun h => absurd o1 h,
            fun _ => .inr ⟨o1, .inl ⟨by rw [o2]; exact f5.2.1, by rw [o2]; exact f5.2.2, ha⟩⟩⟩
        | some p' =>
          rw [hcont] at f5
          obtain ⟨f5, f6⟩ := f5
          have ha : ∀ z, seen st ++ say p (buf ++ z) = seen (onFrame app st fin op b) ++ say p' (buf.drop n ++ z) := by
            intro z; rw [hz z, hcont, f4']; simp
          by_cases hE : (onFrame app st fin op b).phase = .error
          · obtain ⟨o1, o2, o3, o4⟩ := loop_over app fuel (onFrame app st fin op b) (buf.drop n) f1 hE
            refine ⟨o3, o4.trans f3, ⟨l0, o2.trans hl0, hl1, fun _ => o1⟩, fun z => ⟨_, by rw [ha z, seen, seen, o2]⟩, fun h => absurd o1 h, fun hs => .inr ⟨o1, .inr ?_⟩⟩
            rcases f6 hs with h | h
            · exact absurd (h.symm.trans hE) he
            · rw [o2, f4]
              exact ⟨arrivals st.log, by simp only [stepSig, if_pos h.1]⟩
          · obtain ⟨i1, i2, ⟨l1, hm0, hm1, hm2⟩, i3, i4, i5⟩ := ih (onFrame app st fin op b) (buf.drop n) p' f1 f5 hE (by simp; omega)
            refine ⟨i1, i2.trans f3, ⟨l0 ++ l1, by rw [hm0, hl0, List.append_assoc], by simp [hl1, hm1], ?_⟩, fun z => by rw [ha z]; exact i3 z, fun h => ?_, fun hs => ?_⟩
            · intro hmem
              rcases List.mem_append.mp hmem with h | h
              · exact absurd (hl2 h) hE
              · exact hm2 h
            · obtain ⟨rest, q, j1, j2, j3, j4⟩ := i4 h
              exact ⟨rest, q, j1, j2, j3, fun z => by rw [ha z]; exact j4 z⟩
            · have hph : (onFrame app st fin op b).phase = st.phase := by
                rcases f6 hs with h | h
                · exact h
                · exact absurd h.2 hE
              rcases i5 hs with h | ⟨h1, h2⟩
              · exact .inl (h.trans hph)
              · refine .inr ⟨h1, ?_⟩
                rcases h2 with ⟨ha1, ha2, h⟩ | h
                · exact .inl ⟨ha1, ha2, fun z => by rw [ha z]; exact h z⟩
                · exact .inr h

/-! ## Frames -/

/-- what frames say, with `none` if they break the rules -/
def told (p : Option (Nat × Bytes)) (fs : List Frame) : List (Option Sig) := (meaning p fs).map some ++ (if broken p fs then [none] else [])

/-- frames, then something that isn't the beginning of another frame within the limits -/
theorem say_wire (fs : List Frame) (hf : ∀ f ∈ fs, f.Fits ∧ f.payload.length ≤ 2 ^ 24) (part : Bytes) (t : List (Option Sig)) (ht : ∀ p, say p part = t)
    (hc : closeLast fs) (hpc : (∃ f ∈ fs, f.op = 8) → t = []) (p : Option (Nat × Bytes)) :
    say p (fs.flatMap Frame.wire ++ part) = told p fs ++ (if broken p fs then [] else t) := by
  induction fs generalizing p with
  | nil => simp [told, meaning, broken, ht]
  | cons f fs ih =>
    have h1 := hf f (by simp)
    have hpar := parse_wire f (fs.flatMap Frame.wire ++ part) h1.1 h1.2
    have e : (f :: fs).flatMap Frame.wire ++ part = f.wire ++ (fs.flatMap Frame.wire ++ part) := by simp
    rw [e, say_frame hpar, List.drop_left' rfl]
    have ih' := ih (fun g hg => hf g (by simp [hg])) hc.2 (fun ⟨g, hg, h8⟩ => hpc ⟨g, by simp [hg], h8⟩)
    unfold told at ih' ⊢
    unfold stepSig meaning broken
    by_cases h8 : f.op = 8
    · simp only [if_pos h8]
      have e2 := hc.1 h8
      have e3 := hpc ⟨f, by simp, h8⟩
      subst e2
      simp [ht, e3]
    · simp only [if_neg h8]
      by_cases h9 : f.op = 9
      · simp only [if_pos h9]; simp [ih']
      · simp only [if_neg h9]
        by_cases h10 : f.op = 10
        · simp only [if_pos h10]; simp [ih']
        · simp only [if_neg h10]
          by_cases h0 : f.op = 0
          · simp only [if_pos h0]
            cases p with
            | none => rfl
            | some x =>
              obtain ⟨o, c⟩ := x
              cases f.fin <;> simp [ih']
          · simp only [if_neg h0]
            cases p with
            | some x => rfl
            | none => cases f.fin <;> simp [ih']

theorem meaning_close (p : Option (Nat × Bytes)) (fs : List Frame) (l y : List Sig) (h : meaning p fs = l ++ [.close] ++ y) : y = [] := by
  induction fs generalizing p l with
  | nil => simp [meaning] at h
  | cons f fs ih =>
    have tail : ∀ (s : List Sig) q, Sig.close ∉ s → s ++ meaning q fs = l ++ [.close] ++ y → y = [] := by
      intro s q hs hq
      rw [List.append_assoc] at hq
      rcases List.append_eq_append_iff.mp hq with ⟨a, h1, h2⟩ | ⟨a, h1, h2⟩
      · exact ih q a (by rw [h2, List.append_assoc])
      · cases a with
        | nil => exact ih q [] (by simpa using h2.symm)
        | cons x a =>
          simp only [List.cons_append, List.singleton_append, List.cons.injEq] at h2
          rw [h1, ← h2.1] at hs
          simp at hs
    have hd : ∀ o c, Sig.close ∉ deliver o c := by
      intro o c; unfold deliver; split
      · simp
      · split <;> simp
    unfold meaning at h
    split at h
    · cases l with
      | nil => simpa using h.symm
      | cons x l => simp at h
    · split at h
      · exact tail [_] p (by simp) h
      · split at h
        · exact tail [_] p (by simp) h
        · split at h
          · cases p with
            | none => simp at h
            | some x =>
              obtain ⟨o, c⟩ := x
              simp only at h
              split at h
              · exact tail _ none (hd _ _) h
              · exact ih _ l h
          · cases p with
            | some x => simp at h
            | none =>
              simp only at h
              split at h
              · exact tail _ none (hd _ _) h
              · exact ih _ l h

end Rtmfp.WS
