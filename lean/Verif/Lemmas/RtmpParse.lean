import Verif.Lemmas.RtmpBytes

/-! # RTMP: reading a chunk -/

namespace Rtmfp.Rtmp

open Spec.Chunks
open Spec.Web (be)

/-- the bits of a chunk's type -/
def bitsOf (f : Form) : UInt8 := UInt8.ofNat (64 * f.num)

/-- the length of the message header -/
def headLen (ct : UInt8) : Nat := if ct = 0 then 11 else if ct = 0x40 then 7 else if ct = 0x80 then 3 else 0

/-- `parse` from behind the basic header -/
def parseHead (rx : Rx) (cs : Nat) (ct : UInt8) (remaining needed : Nat) (cur : Bytes) : Parsed :=
  let h := (rx.streams cs).h
  if h.initted = false ∧ ct ≠ 0 then .bad
  else if ct = 0xc0 then parseRest rx cs ct remaining needed h.delta h.len h.type cur
  else if ct = 0x80 then parseRest rx cs ct remaining needed (readBe (cur.take 3)) h.len h.type (cur.drop 3)
  else parseRest rx cs ct remaining needed (readBe (cur.take 3)) (readBe ((cur.drop 3).take 3)).toNat (cur.getD 6 0) (cur.drop 7)

theorem first_bits : ∀ k < 4, ∀ x < 64, (UInt8.ofNat (64 * k + x) &&& 0xc0 = UInt8.ofNat (64 * k)) ∧ (UInt8.ofNat (64 * k + x) &&& 0x3f).toNat = x := by
  decide +kernel

theorem num_lt (f : Form) : f.num < 4 := by cases f <;> simp [Form.num]

theorem parse_id (rx : Rx) (c : Chunk) (hf : c.Fits) (z : Bytes) :
    parse rx (c.id ++ z) =
      if (c.id ++ z).length < c.id.length + headLen (bitsOf c.form) then .more
      else parseHead rx c.cs (bitsOf c.form) (c.id ++ z).length (c.id.length + headLen (bitsOf c.form)) z := by
  obtain ⟨h1, h2, h3, _⟩ := hf
  have hn := num_lt c.form
  unfold Chunk.id
  by_cases hl : c.long = true ∨ c.cs ≥ 320
  · rw [if_pos hl]
    have hc : 64 ≤ c.cs := by
      rcases hl with hl | hl
      · exact h3 hl
      · omega
    obtain ⟨e1, e2⟩ := first_bits c.form.num hn 1 (by omega)
    have e3 : (UInt8.ofNat (64 * c.form.num + 1) &&& 0x3f) = 1 := by apply UInt8.toNat_inj.mp; rw [e2]; rfl
    simp only [List.cons_append, List.nil_append, parse, e1, e3]
    simp only [show ((1 : UInt8) < 2) = True from eq_true (by decide), if_true, show ((1 : UInt8) = 0) = False from eq_false (by decide), if_false,
      List.getD_cons_zero, List.getD_cons_succ, List.drop_succ_cons, List.drop_zero]
    have hcs : (UInt8.ofNat ((c.cs - 64) % 256)).toNat + ((UInt8.ofNat ((c.cs - 64) / 256)).toNat <<< 8) + 64 = c.cs := by
      simp only [UInt8.toNat_ofNat', Nat.shiftLeft_eq]
      omega
    rw [hcs]
    rfl
  · rw [if_neg hl]
    by_cases hm : c.cs ≥ 64
    · rw [if_pos hm]
      obtain ⟨e1, e2⟩ := first_bits c.form.num hn 0 (by omega)
      rw [Nat.add_zero] at e1 e2
      have e3 : (UInt8.ofNat (64 * c.form.num) &&& 0x3f) = 0 := by apply UInt8.toNat_inj.mp; rw [e2]; rfl
      simp only [List.cons_append, List.nil_append, parse, e1, e3]
      simp only [show ((0 : UInt8) < 2) = True from eq_true (by decide), if_true, show ((0 : UInt8) = 1) = False from eq_false (by decide), if_false,
        List.getD_cons_zero, List.drop_succ_cons, List.drop_zero]
      have hcs : (UInt8.ofNat (c.cs - 64)).toNat + 64 = c.cs := by
        simp only [UInt8.toNat_ofNat']
        omega
      rw [hcs]
      rfl
    · rw [if_neg hm]
      obtain ⟨e1, e2⟩ := first_bits c.form.num hn c.cs (by omega)
      simp only [List.cons_append, List.nil_append, parse, e1]
      generalize (UInt8.ofNat (64 * c.form.num + c.cs) &&& 0x3f) = mid at e2 ⊢
      have n0 : mid ≠ 0 := fun h => by rw [h] at e2; simp at e2; omega
      have n1 : mid ≠ 1 := fun h => by rw [h] at e2; simp at e2; omega
      have n2 : ¬ mid < 2 := fun h => by have h : mid.toNat < 2 := h; omega
      simp only [n0, n1, n2, if_false, e2]
      rfl

theorem id_short (rx : Rx) (c : Chunk) (hf : c.Fits) (p : Bytes) (h : p <+: c.id) (hl : p.length < c.id.length) : parse rx p = .more := by
  obtain ⟨_, h2, h3, _⟩ := hf
  have hn := num_lt c.form
  unfold Chunk.id at h hl
  by_cases hlg : c.long = true ∨ c.cs ≥ 320
  · rw [if_pos hlg] at h hl
    obtain ⟨e1, e2⟩ := first_bits c.form.num hn 1 (by omega)
    have e3 : (UInt8.ofNat (64 * c.form.num + 1) &&& 0x3f) = 1 := by apply UInt8.toNat_inj.mp; rw [e2]; rfl
    match p, h, hl with
    | [], _, _ => rfl
    | b0 :: tl, h, hl =>
      obtain ⟨rfl, _⟩ := List.cons_prefix_cons.mp h
      simp only [parse, e3]
      rw [if_pos]
      simp only [List.length_cons, List.length_nil] at hl ⊢
      rw [if_pos (by decide), if_pos trivial]
      omega
  · rw [if_neg hlg] at h hl
    by_cases hm : c.cs ≥ 64
    · rw [if_pos hm] at h hl
      obtain ⟨e1, e2⟩ := first_bits c.form.num hn 0 (by omega)
      rw [Nat.add_zero] at e1 e2
      have e3 : (UInt8.ofNat (64 * c.form.num) &&& 0x3f) = 0 := by apply UInt8.toNat_inj.mp; rw [e2]; rfl
      match p, h, hl with
      | [], _, _ => rfl
      | b0 :: tl, h, hl =>
        obtain ⟨rfl, _⟩ := List.cons_prefix_cons.mp h
        simp only [parse, e3]
        rw [if_pos]
        simp only [List.length_cons, List.length_nil] at hl ⊢
        rw [if_pos (by decide)]
        omega
    · rw [if_neg hm] at h hl
      match p, h, hl with
      | [], _, _ => rfl
      | b0 :: tl, h, hl => simp at hl

theorem bytes_length (f : Form) : f.bytes.length = headLen (bitsOf f) := by
  cases f <;> simp [Form.bytes, stamp, be_length, bitsOf, Form.num, headLen]

/-- too little of the headers -/
theorem parse_short (rx : Rx) (c : Chunk) (hf : c.Fits) (p : Bytes) (h : p <+: c.id ++ c.form.bytes) (hl : p.length < (c.id ++ c.form.bytes).length) :
    parse rx p = .more := by
  by_cases hp : p.length < c.id.length
  · refine id_short rx c hf p ?_ hp
    exact List.prefix_of_prefix_length_le h (List.prefix_append _ _) (by omega)
  · have hq : c.id <+: p := List.prefix_of_prefix_length_le (List.prefix_append _ _) h (by omega)
    obtain ⟨z, rfl⟩ := hq
    rw [parse_id rx c hf, if_pos]
    rw [List.length_append (as := c.id) (bs := c.form.bytes), bytes_length] at hl
    exact hl

/-- the entry of the table says what is remembered -/
structure Same (c : RecvCs) (s : Stream) : Prop where
  init : c.h.initted = true
  sid : c.h.sid = s.sid
  ts : c.h.ts = s.ts
  delta : c.h.delta = s.delta
  len : c.h.len = s.len
  type : c.h.type = s.type
  payload : c.payload = s.part

/-- the tables say what is remembered -/
structure Link (rx : Rx) (d : Dec) : Prop where
  size : rx.size = d.size
  streams : ∀ i, match d.streams i with
    | none => (rx.streams i).h.initted = false
    | some s => Same (rx.streams i) s

theorem Link.some {rx : Rx} {d : Dec} (L : Link rx d) {i : Nat} {s : Stream} (h : d.streams i = some s) : Same (rx.streams i) s := by
  have := L.streams i; rw [h] at this; exact this

theorem Link.none {rx : Rx} {d : Dec} (L : Link rx d) {i : Nat} (h : d.streams i = none) : (rx.streams i).h.initted = false := by
  have := L.streams i; rw [h] at this; exact this

theorem stamp_big (v : UInt32) : readBe (stamp v) ≥ 0xffffff ↔ v.toNat ≥ 0xffffff := by
  rw [stamp_read, ge_iff_le, UInt32.le_iff_toNat_le, UInt32.toNat_ofNat']
  simp only [show (0xffffff : UInt32).toNat = 0xffffff from rfl]
  omega

theorem stamp_small (v : UInt32) (h : ¬ v.toNat ≥ 0xffffff) : readBe (stamp v) = v := by
  rw [stamp_read, Nat.min_eq_left (by omega)]; simp

/-- what comes before the data is there: it depends on what comes after -/
theorem rest_spec (rx : Rx) (cs : Nat) (ct : UInt8) (remaining needed : Nat) (field ts : UInt32) (len : Nat) (type : UInt8) (sid : UInt32) (mid y : Bytes) (left : Nat)
    (hleft : (if ct = 0xc0 then len - (rx.streams cs).payload.length else len) = left)
    (hbig : field ≥ 0xffffff ↔ ts.toNat ≥ 0xffffff) (hsmall : ¬ ts.toNat ≥ 0xffffff → field = ts)
    (hmid : if ct = 0 then mid = (be 4 sid.toNat).reverse else mid = [] ∧ (rx.streams cs).h.sid = sid)
    (hr : remaining = needed + y.length) :
    (y.length < (extended ts).length + min rx.size left → parseRest rx cs ct remaining needed field len type (mid ++ y) = .more) ∧
    (∀ data rest, data.length = min rx.size left → y = extended ts ++ data ++ rest → ∃ c', parseRest rx cs ct remaining needed field len type (mid ++ y) =
        .chunk cs c' (needed + ((extended ts).length + data.length)) ∧
      c'.h = (if ct = 0 then { (rx.streams cs).h with sid := sid, ts := ts, delta := ts, len := len, type := type, initted := true }
        else if ct = 0x40 then { (rx.streams cs).h with delta := ts, ts := (rx.streams cs).h.ts + ts, len := len, type := type }
        else if ct = 0x80 then { (rx.streams cs).h with delta := ts, ts := (rx.streams cs).h.ts + ts }
        else { (rx.streams cs).h with delta := ts, ts := if (rx.streams cs).payload = [] then (rx.streams cs).h.ts + ts else (rx.streams cs).h.ts }) ∧
      c'.payload = (if ct = 0 ∨ ct = 0x40 ∨ ct = 0x80 then [] else (rx.streams cs).payload) ++ data) := by
  have hext : (extended ts).length = if ts.toNat ≥ 0xffffff then 4 else 0 := by
    unfold extended; split <;> simp [be_length]
  have hcur : (if ct = 0 then (mid ++ y).drop 4 else mid ++ y) = y ∧ (if ct = 0 then readLe ((mid ++ y).take 4) else (rx.streams cs).h.sid) = sid := by
    by_cases h0 : ct = 0
    · rw [if_pos h0, if_pos h0]
      rw [if_pos h0] at hmid
      have hl : mid.length = 4 := by rw [hmid]; simp [be_length]
      rw [← hl, List.drop_left, List.take_left, hmid]
      exact ⟨rfl, readLe_be4 sid⟩
    · rw [if_neg h0, if_neg h0]
      rw [if_neg h0] at hmid
      exact ⟨by rw [hmid.1]; rfl, hmid.2⟩
  unfold parseRest
  simp only [hleft, hcur.1, hcur.2]
  constructor
  · intro h
    by_cases h1 : remaining < needed + min rx.size left
    · rw [if_pos h1]
    · rw [if_neg h1]
      have hb : ts.toNat ≥ 0xffffff := by
        by_cases hb : ts.toNat ≥ 0xffffff
        · exact hb
        · rw [if_neg hb] at hext; omega
      rw [if_pos hb] at hext
      rw [if_pos ⟨hbig.mpr hb, by omega⟩]
  · intro data rest hd hy
    have hyl : y.length = (extended ts).length + data.length + rest.length := by rw [hy]; simp; omega
    rw [if_neg (by omega)]
    by_cases hb : ts.toNat ≥ 0xffffff
    · have hf := hbig.mpr hb
      rw [if_pos hb] at hext
      have he : extended ts = be 4 ts.toNat := by unfold extended; rw [if_pos hb]
      have ht : y.take 4 = be 4 ts.toNat := by
        rw [hy, he, List.append_assoc]
        have := List.take_left (l₁ := be 4 ts.toNat) (l₂ := data ++ rest)
        rwa [be_length] at this
      have hdr : y.drop 4 = data ++ rest := by
        rw [hy, he, List.append_assoc]
        have := List.drop_left (l₁ := be 4 ts.toNat) (l₂ := data ++ rest)
        rwa [be_length] at this
      rw [if_neg (by omega)]
      simp only [hf, if_true, ht, hdr, readBe_be4]
      refine ⟨_, by rw [← hd, show needed + data.length + 4 = needed + ((extended ts).length + data.length) by omega], ?_, ?_⟩
      · simp only
        by_cases c0 : ct = 0
        · simp only [if_pos c0]
        · by_cases c1 : ct = 0x40
          · simp only [if_neg c0, if_pos c1]
          · by_cases c2 : ct = 0x80
            · simp only [if_neg c0, if_neg c1, if_pos c2]
            · simp only [if_neg c0, if_neg c1, if_neg c2]
      · simp only [List.take_left]
        by_cases c0 : ct = 0
        · simp [c0]
        · by_cases c1 : ct = 0x40
          · simp [c1]
          · by_cases c2 : ct = 0x80
            · simp [c2]
            · simp [c0, c1, c2]
    · have hf : ¬ field ≥ 0xffffff := fun h => hb (hbig.mp h)
      rw [if_neg hb] at hext
      have he : extended ts = [] := by unfold extended; rw [if_neg hb]
      rw [if_neg (fun h => hf h.1)]
      have hy' : y = data ++ rest := by rw [hy, he]; rfl
      have hfe : ts = field := (hsmall hb).symm
      subst hfe
      simp only [hf, if_false, hy']
      refine ⟨_, by rw [← hd, show needed + data.length = needed + ((extended ts).length + data.length) by omega], ?_, ?_⟩
      · simp only
        by_cases c0 : ct = 0
        · simp only [if_pos c0]
        · by_cases c1 : ct = 0x40
          · simp only [if_neg c0, if_pos c1]
          · by_cases c2 : ct = 0x80
            · simp only [if_neg c0, if_neg c1, if_pos c2]
            · simp only [if_neg c0, if_neg c1, if_neg c2]
      · simp only [List.take_left]
        by_cases c0 : ct = 0
        · simp [c0]
        · by_cases c1 : ct = 0x40
          · simp [c1]
          · by_cases c2 : ct = 0x80
            · simp [c2]
            · simp [c0, c1, c2]

theorem getD_at (a b : Bytes) (x : UInt8) (n : Nat) (h : a.length = n) : (a ++ x :: b).getD n 0 = x := by
  subst h; simp [List.getD_eq_getElem?_getD]

theorem drop_at (a b : Bytes) (x : UInt8) (n : Nat) (h : a.length = n) : (a ++ x :: b).drop (n + 1) = b := by
  subst h
  rw [show a ++ x :: b = (a ++ [x]) ++ b by simp, show a.length + 1 = (a ++ [x]).length by simp, List.drop_left]

theorem len_read (n : Nat) (h : n < 2 ^ 24) : (readBe (be 3 n)).toNat = n := by
  rw [readBe_be 3 n (by omega) (by simpa using h), UInt32.toNat_ofNat']; omega

/-- **A chunk is read.** Behind its headers: too little, or all of it. -/
theorem parse_chunk (rx : Rx) (d : Dec) (L : Link rx d) (c : Chunk) (hf : c.Fits) (s : Stream) (hb : d.begin c = some s) (y : Bytes) :
    (y.length < (extended (d.time c)).length + min d.size (s.len - s.part.length) → parse rx (c.id ++ c.form.bytes ++ y) = .more) ∧
    (∀ rest, c.data.length = min d.size (s.len - s.part.length) → y = extended (d.time c) ++ c.data ++ rest →
      ∃ c', parse rx (c.id ++ c.form.bytes ++ y) = .chunk c.cs c' (d.wire c).length ∧ Same c' { s with part := s.part ++ c.data }) := by
  rw [List.append_assoc, parse_id rx c hf]
  have hl : (c.id ++ (c.form.bytes ++ y)).length = c.id.length + headLen (bitsOf c.form) + y.length := by
    rw [List.length_append, List.length_append, bytes_length]; omega
  rw [if_neg (by omega), hl]
  have hw : (d.wire c).length = c.id.length + headLen (bitsOf c.form) + ((extended (d.time c)).length + c.data.length) := by
    unfold Dec.wire
    rw [List.length_append, List.length_append, List.length_append, bytes_length]; omega
  rw [hw, ← L.size]
  generalize c.id.length + headLen (bitsOf c.form) = needed
  obtain ⟨cs, long, form, data⟩ := c
  cases form with
  | full ts len type sid =>
    have e : s = ⟨sid, ts, ts, len, type, []⟩ := by simp [Dec.begin] at hb; exact hb.symm
    subst e
    have hlen : len < 2 ^ 24 := hf.2.2.2
    have hp : parseHead rx cs (bitsOf (.full ts len type sid)) (needed + y.length) needed ((Form.full ts len type sid).bytes ++ y) =
        parseRest rx cs 0 (needed + y.length) needed (readBe (stamp ts)) len type ((be 4 sid.toNat).reverse ++ y) := by
      have e1 : (Form.full ts len type sid).bytes ++ y = stamp ts ++ (be 3 len ++ type :: ((be 4 sid.toNat).reverse ++ y)) := by simp [Form.bytes]
      have hst : (stamp ts).length = 3 := be_length _ _
      have e2 : (stamp ts ++ (be 3 len ++ type :: ((be 4 sid.toNat).reverse ++ y))).take 3 = stamp ts := by rw [← hst, List.take_left]
      have e3 : (stamp ts ++ (be 3 len ++ type :: ((be 4 sid.toNat).reverse ++ y))).drop 3 = be 3 len ++ type :: ((be 4 sid.toNat).reverse ++ y) := by rw [← hst, List.drop_left]
      have e4 : (be 3 len ++ type :: ((be 4 sid.toNat).reverse ++ y)).take 3 = be 3 len := by
        have := List.take_left (l₁ := be 3 len) (l₂ := type :: ((be 4 sid.toNat).reverse ++ y)); rwa [be_length] at this
      have e5 : (stamp ts ++ (be 3 len ++ type :: ((be 4 sid.toNat).reverse ++ y))).getD 6 0 = type := by
        rw [← List.append_assoc]; exact getD_at _ _ _ _ (by simp [hst, be_length])
      have e6 : (stamp ts ++ (be 3 len ++ type :: ((be 4 sid.toNat).reverse ++ y))).drop 7 = (be 4 sid.toNat).reverse ++ y := by
        rw [← List.append_assoc]; exact drop_at _ _ _ 6 (by simp [hst, be_length])
      rw [e1]
      simp only [parseHead, bitsOf, Form.num, e2, e3, e4, e5, e6, len_read len hlen]
      rw [if_neg (by simp), if_neg (by decide), if_neg (by decide)]; rfl
    rw [hp]
    obtain ⟨r1, r2⟩ := rest_spec rx cs 0 (needed + y.length) needed (readBe (stamp ts)) ts len type sid (be 4 sid.toNat).reverse y len rfl (stamp_big ts)
      (stamp_small ts) (by rw [if_pos rfl]) rfl
    refine ⟨fun h => r1 h, fun rest hd hy => ?_⟩
    obtain ⟨c', q1, q2, q3⟩ := r2 data rest hd hy
    refine ⟨c', q1, ?_⟩
    rw [if_pos rfl] at q2
    rw [if_pos (.inl rfl)] at q3
    exact ⟨by rw [q2], by rw [q2], by rw [q2], by rw [q2], by rw [q2], by rw [q2], q3⟩
  | sameStream ts len type =>
    cases hst : d.streams cs with
    | none => simp [Dec.begin, hst] at hb
    | some s0 =>
      have e : s = ⟨s0.sid, s0.ts + ts, ts, len, type, []⟩ := by simp [Dec.begin, hst] at hb; exact hb.symm
      subst e
      have S := L.some hst
      have hlen : len < 2 ^ 24 := hf.2.2.2
      have hp : parseHead rx cs (bitsOf (.sameStream ts len type)) (needed + y.length) needed ((Form.sameStream ts len type).bytes ++ y) =
          parseRest rx cs 0x40 (needed + y.length) needed (readBe (stamp ts)) len type y := by
        have e1 : (Form.sameStream ts len type).bytes ++ y = stamp ts ++ (be 3 len ++ type :: y) := by simp [Form.bytes]
        have hsl : (stamp ts).length = 3 := be_length _ _
        have e2 : (stamp ts ++ (be 3 len ++ type :: y)).take 3 = stamp ts := by rw [← hsl, List.take_left]
        have e3 : (stamp ts ++ (be 3 len ++ type :: y)).drop 3 = be 3 len ++ type :: y := by rw [← hsl, List.drop_left]
        have e4 : (be 3 len ++ type :: y).take 3 = be 3 len := by
          have := List.take_left (l₁ := be 3 len) (l₂ := type :: y); rwa [be_length] at this
        have e5 : (stamp ts ++ (be 3 len ++ type :: y)).getD 6 0 = type := by
          rw [← List.append_assoc]; exact getD_at _ _ _ _ (by simp [hsl, be_length])
        have e6 : (stamp ts ++ (be 3 len ++ type :: y)).drop 7 = y := by
          rw [← List.append_assoc]; exact drop_at _ _ _ 6 (by simp [hsl, be_length])
        rw [e1]
        simp only [parseHead, bitsOf, Form.num, e2, e3, e4, e5, e6, len_read len hlen, S.init]
        rw [if_neg (by simp), if_neg (by decide), if_neg (by decide)]; rfl
      rw [hp]
      obtain ⟨r1, r2⟩ := rest_spec rx cs 0x40 (needed + y.length) needed (readBe (stamp ts)) ts len type s0.sid [] y len rfl (stamp_big ts)
        (stamp_small ts) (by rw [if_neg (by decide)]; exact ⟨rfl, S.sid⟩) rfl
      refine ⟨fun h => r1 h, fun rest hd hy => ?_⟩
      obtain ⟨c', q1, q2, q3⟩ := r2 data rest hd hy
      refine ⟨c', q1, ?_⟩
      rw [if_neg (by decide), if_pos rfl] at q2
      rw [if_pos (.inr (.inl rfl))] at q3
      exact ⟨by rw [q2]; exact S.init, by rw [q2]; exact S.sid, by rw [q2, S.ts], by rw [q2], by rw [q2], by rw [q2], q3⟩
  | sameKind ts =>
    cases hst : d.streams cs with
    | none => simp [Dec.begin, hst] at hb
    | some s0 =>
      have e : s = ⟨s0.sid, s0.ts + ts, ts, s0.len, s0.type, []⟩ := by simp [Dec.begin, hst] at hb; exact hb.symm
      subst e
      have S := L.some hst
      have hp : parseHead rx cs (bitsOf (.sameKind ts)) (needed + y.length) needed ((Form.sameKind ts).bytes ++ y) =
          parseRest rx cs 0x80 (needed + y.length) needed (readBe (stamp ts)) s0.len s0.type y := by
        have e1 : (Form.sameKind ts).bytes ++ y = stamp ts ++ y := by simp [Form.bytes]
        have hsl : (stamp ts).length = 3 := be_length _ _
        have e2 : (stamp ts ++ y).take 3 = stamp ts := by rw [← hsl, List.take_left]
        have e3 : (stamp ts ++ y).drop 3 = y := by rw [← hsl, List.drop_left]
        rw [e1]
        simp only [parseHead, bitsOf, Form.num, e2, e3, S.init, S.len, S.type]
        rw [if_neg (by simp), if_neg (by decide), if_pos (by decide)]; rfl
      rw [hp]
      obtain ⟨r1, r2⟩ := rest_spec rx cs 0x80 (needed + y.length) needed (readBe (stamp ts)) ts s0.len s0.type s0.sid [] y s0.len rfl (stamp_big ts)
        (stamp_small ts) (by rw [if_neg (by decide)]; exact ⟨rfl, S.sid⟩) rfl
      refine ⟨fun h => r1 h, fun rest hd hy => ?_⟩
      obtain ⟨c', q1, q2, q3⟩ := r2 data rest hd hy
      refine ⟨c', q1, ?_⟩
      rw [if_neg (by decide), if_neg (by decide), if_pos rfl] at q2
      rw [if_pos (.inr (.inr rfl))] at q3
      exact ⟨by rw [q2]; exact S.init, by rw [q2]; exact S.sid, by rw [q2, S.ts], by rw [q2], by rw [q2]; exact S.len, by rw [q2]; exact S.type, q3⟩
  | same =>
    cases hst : d.streams cs with
    | none => simp [Dec.begin, hst] at hb
    | some s0 =>
      have e : s = if s0.part = [] then { s0 with ts := s0.ts + s0.delta } else s0 := by simp [Dec.begin, hst] at hb; exact hb.symm
      have S := L.some hst
      have htime : d.time ⟨cs, long, .same, data⟩ = s0.delta := by simp [Dec.time, hst]
      have hlen : s.len = s0.len ∧ s.part = s0.part ∧ s.sid = s0.sid ∧ s.delta = s0.delta ∧ s.type = s0.type := by
        rw [e]; split <;> simp
      have hp : parseHead rx cs (bitsOf .same) (needed + y.length) needed (Form.same.bytes ++ y) =
          parseRest rx cs 0xc0 (needed + y.length) needed s0.delta s0.len s0.type y := by
        simp only [parseHead, bitsOf, Form.num, Form.bytes, List.nil_append, S.init, S.len, S.type, S.delta]
        rw [if_neg (by simp), if_pos (by decide)]; rfl
      rw [hp]
      rw [htime, hlen.1, hlen.2.1]
      obtain ⟨r1, r2⟩ := rest_spec rx cs 0xc0 (needed + y.length) needed s0.delta s0.delta s0.len s0.type s0.sid [] y (s0.len - s0.part.length)
        (by rw [if_pos rfl, S.payload]) (by rw [ge_iff_le, UInt32.le_iff_toNat_le]; rfl) (fun _ => rfl) (by rw [if_neg (by decide)]; exact ⟨rfl, S.sid⟩) rfl
      refine ⟨fun h => r1 h, fun rest hd hy => ?_⟩
      obtain ⟨c', q1, q2, q3⟩ := r2 data rest hd hy
      refine ⟨c', q1, ?_⟩
      rw [if_neg (by decide), if_neg (by decide), if_neg (by decide)] at q2
      rw [if_neg (by decide)] at q3
      refine ⟨by rw [q2]; exact S.init, by rw [q2]; exact S.sid.trans hlen.2.2.1.symm, ?_, by rw [q2]; exact hlen.2.2.2.1.symm, by rw [q2]; exact S.len,
        by rw [q2]; exact S.type.trans hlen.2.2.2.2.symm, ?_⟩
      · rw [q2, e, S.payload, S.ts]
        split <;> rfl
      · rw [q3, S.payload]

end Rtmfp.Rtmp
