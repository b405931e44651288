import Verif.Model.Startup
import Verif.Spec.Startup
import Verif.Props.C04_C06_Packet
import Verif.Props.C01_C03_VLU
import Verif.Props.C35_Address
import Verif.Props.C50_SessionId

/-! # Lemmas about the startup messages (C88) -/

namespace Rtmfp
namespace Startup
open Spec.Startup

/-! ## Fields -/

theorem parseField_complete {f v : Bytes} (h : Field f v) (rest : Bytes) (hl : (f ++ rest).length < 2 ^ 64 - 1) :
    VLU.parseField (f ++ rest) = some (v, f.length) := by
  obtain ⟨l, hv, hb, rfl⟩ := h
  have hs : vluScan 0 (l ++ (v ++ rest)) = some (v.length, l.length) :=
    (vluScan_some 0 _ _ _).mpr ⟨l, v ++ rest, rfl, rfl, hv, hb.symm⟩
  have hlen : v.length < 2 ^ 64 - 1 := by simp only [List.length_append] at hl; omega
  have hp : VLU.parse (l ++ v ++ rest) = some (v.length, l.length) := by
    rw [List.append_assoc, parse_eq_scan, hs]
    simp only [Option.map_some, if_true, Option.some.injEq, Prod.mk.injEq, and_true]
    simp; omega
  rw [VLU.parseField, hp]
  simp only [List.append_assoc, List.drop_left, List.length_append, List.take_left]
  rw [if_neg (by omega)]

theorem parseField_sound {src v : Bytes} {n : Nat} (h : VLU.parseField src = some (v, n)) (hl : src.length < 2 ^ 64 - 1) :
    ∃ f rest, Field f v ∧ src = f ++ rest ∧ n = f.length ∧ src.drop n = rest ∧ src.take n = f := by
  rw [VLU.parseField] at h
  split at h
  · cases h
  · rename_i fl rv hp
    obtain ⟨h1, h2, h3, h4⟩ := C02_vlu_parse_value _ _ _ _ hp
    dsimp only at h
    split at h
    · cases h
    · rename_i hle
      injection h with h
      injection h with ha hb
      simp only [List.length_drop] at hle
      rw [if_pos rfl] at h4
      have hvl : v.length = fl := by rw [← ha, List.length_take, List.length_drop]; omega
      have hsplit : src = src.take rv ++ (v ++ (src.drop rv).drop fl) := by
        rw [← ha, List.take_append_drop, List.take_append_drop]
      have hf : src.take n = src.take rv ++ v := by
        rw [← hb, List.take_add, ha]
      have hfl : (src.take rv ++ v).length = n := by
        rw [List.length_append, List.length_take, hvl, ← hb]; omega
      refine ⟨src.take rv ++ v, src.drop n, ⟨src.take rv, h3, ?_, rfl⟩, ?_, hfl.symm, rfl, hf⟩
      · rw [hvl]; omega
      · rw [← hf, List.take_append_drop]

theorem field_vlu (v : Bytes) : Field (VLU.encode v.length ++ v) v :=
  ⟨_, (C01_vlu_encode_wellformed v.length).1, (C01_vlu_encode_wellformed v.length).2, rfl⟩

theorem field_pos {f v : Bytes} (h : Field f v) : 1 ≤ f.length := by
  obtain ⟨l, ⟨i, x, rfl, _, _⟩, _, rfl⟩ := h
  simp; omega

/-! ## Addresses -/

theorem u8_top (d : UInt8) : (d &&& 0x80 ≠ 0) ↔ ¬ d.toNat < 128 := by
  have h : ∀ d : UInt8, (d &&& 0x80 ≠ 0) ↔ ¬ d.toNat < 128 := by
    intro d; cases d with | _ d => cases d with | _ d => revert d; decide +kernel
  exact h d

theorem u8_low2 (d : UInt8) : (d &&& 0x03).toNat = d.toNat % 4 := by
  have h : ∀ d : UInt8, (d &&& 0x03).toNat = d.toNat % 4 := by
    intro d; cases d with | _ d => cases d with | _ d => revert d; decide +kernel
  exact h d

theorem addr_complete {w : Bytes} {a : Address} (h : Addr w a) (b : Address) (rest : Bytes) :
    Address.setFromEncoding b (w ++ rest) = (a, w.length) := by
  obtain ⟨flags, ip, hi, lo, rfl, hl, rfl⟩ := h
  have hhi := hi.toNat_lt
  have hlo := lo.toNat_lt
  have hp : (hi.toNat * 256 + lo.toNat) % 65536 = hi.toNat * 256 + lo.toNat := by omega
  rw [List.cons_append, Address.setFromEncoding]
  by_cases hc : flags.toNat < 128
  · have hz : decide (flags &&& 0x80 ≠ 0) = false := decide_eq_false (fun h => (u8_top flags).mp h hc)
    rw [if_pos hc] at hl
    simp only [hz, Bool.false_eq_true, if_false, u8_low2, if_pos hc]
    have e1 : (ip ++ [hi, lo] ++ rest).take 4 = ip := by rw [List.append_assoc, ← hl, List.take_left]
    have e2 : (ip ++ [hi, lo] ++ rest).drop 4 = [hi, lo] ++ rest := by rw [List.append_assoc, ← hl, List.drop_left]
    rw [if_neg (by simp [hl]; omega), e1, e2]
    obtain ⟨p, o, e⟩ := Address.setIP_4 b ip hl
    rw [e]
    simp only [Address.setPort, Address.AF_INET, true_or, if_true]
    refine Prod.ext ?_ (by simp [hl])
    simp only [List.cons_append, List.getD_cons_zero, List.getD_cons_succ, hp]
  · have hz : decide (flags &&& 0x80 ≠ 0) = true := decide_eq_true ((u8_top flags).mpr hc)
    rw [if_neg hc] at hl
    simp only [hz, if_true, u8_low2, if_neg hc]
    have e1 : (ip ++ [hi, lo] ++ rest).take 16 = ip := by rw [List.append_assoc, ← hl, List.take_left]
    have e2 : (ip ++ [hi, lo] ++ rest).drop 16 = [hi, lo] ++ rest := by rw [List.append_assoc, ← hl, List.drop_left]
    rw [if_neg (by simp [hl]; omega), e1, e2]
    obtain ⟨p, o, e⟩ := Address.setIP_6 b ip hl
    rw [e]
    simp only [Address.setPort, Address.AF_INET, Address.AF_INET6, or_true, if_true]
    refine Prod.ext ?_ (by simp [hl])
    simp only [List.cons_append, List.getD_cons_zero, List.getD_cons_succ, hp]

theorem addr_sound {b a : Address} {src : Bytes} {n : Nat} (h : Address.setFromEncoding b src = (a, n)) (hn : n ≠ 0) :
    ∃ w rest, Addr w a ∧ src = w ++ rest ∧ n = w.length ∧ src.drop n = rest := by
  have key : ∀ k, (k = 4 ∨ k = 16) → ∀ f t, src = f :: t → k = (if f.toNat < 128 then 4 else 16) → 1 + k + 2 ≤ src.length →
      ∃ w rest a', Addr w a' ∧ src = w ++ rest := by
    intro k _ f t hs hk hl
    subst hs
    simp only [List.length_cons] at hl
    have hd : (t.drop k).length ≥ 2 := by rw [List.length_drop]; omega
    obtain ⟨hi, lo, r, hr⟩ : ∃ hi lo r, t.drop k = hi :: lo :: r := by
      match ht : t.drop k with
      | [] => rw [ht] at hd; simp at hd
      | [_] => rw [ht] at hd; simp at hd
      | hi :: lo :: r => exact ⟨hi, lo, r, rfl⟩
    refine ⟨f :: (t.take k ++ [hi, lo]), r, _, ⟨f, t.take k, hi, lo, rfl, ?_, rfl⟩, ?_⟩
    · rw [List.length_take, ← hk]; omega
    · simp only [List.cons_append, List.append_assoc, List.nil_append]
      rw [← hr, List.take_append_drop]
  have hs := C35_decode_safe b src
  rw [h] at hs
  obtain ⟨s1, s2, s3⟩ := hs
  match src, h, s2, s3, key with
  | [], h, _, s3, _ => exact absurd (s3.mpr (.inl rfl)) hn
  | f :: t, h, s2, s3, key =>
    have hlt : ¬ t.length < (if f < 0x80 then 6 else 18) := fun hh => hn (s3.mpr (.inr ⟨f, t, rfl, hh⟩))
    have hff : (f < 0x80) ↔ f.toNat < 128 := Iff.rfl
    simp only [hff] at hlt
    obtain ⟨w, rest, a', ha, hw⟩ : ∃ w rest a', Addr w a' ∧ f :: t = w ++ rest := by
      refine key (if f.toNat < 128 then 4 else 16) (by split <;> simp) f t rfl rfl ?_
      simp only [List.length_cons]
      by_cases h8 : f.toNat < 128
      · rw [if_pos h8] at hlt ⊢; omega
      · rw [if_neg h8] at hlt ⊢; omega
    have hc := addr_complete ha b rest
    rw [← hw, h] at hc
    injection hc with h1 h2
    subst h1 h2
    exact ⟨w, rest, ha, hw, rfl, by rw [hw, List.drop_left]⟩

theorem addr_pos {w : Bytes} {a : Address} (h : Addr w a) : 1 ≤ w.length := by
  obtain ⟨f, ip, hi, lo, rfl, _⟩ := h
  simp

/-- an address that a program makes is encoded as it should be -/
theorem addr_encode {a : Address} (h : Address.Sound a) (hi : Address.IsIP a) : Addr (Address.encode a) a := by
  rw [Address.encode_eq h hi]
  have ho := h.origin
  have hp := h.port
  have hport : (UInt8.ofNat (a.port >>> 8)).toNat * 256 + (UInt8.ofNat (a.port &&& 0xff)).toNat = a.port := by
    have h1 : a.port &&& 0xff = a.port % 256 := Nat.and_two_pow_sub_one_eq_mod a.port 8
    have h2 : a.port >>> 8 = a.port / 256 := Nat.shiftRight_eq_div_pow a.port 8
    rw [h1, h2]
    simp only [UInt8.toNat_ofNat']
    omega
  have hfl : ∀ o : Fin 4, ((0x80 : UInt8) ||| UInt8.ofNat o.val).toNat ≥ 128 ∧ ((0x80 : UInt8) ||| UInt8.ofNat o.val).toNat % 4 = o.val ∧
      ((0 : UInt8) ||| UInt8.ofNat o.val).toNat < 128 ∧ ((0 : UInt8) ||| UInt8.ofNat o.val).toNat % 4 = o.val := by decide +kernel
  obtain ⟨f1, f2, f3, f4⟩ := hfl ⟨a.origin, ho⟩
  dsimp only at f1 f2 f3 f4
  cases a with
  | mk family ip port origin =>
  rcases h.kind with ⟨k1, k2⟩ | ⟨k1, k2⟩ | k
  · simp only at k1 k2; subst k1
    refine ⟨_, ip, _, _, rfl, ?_, ?_⟩
    · simp only [if_neg (by decide : ¬ (2 : Nat) = 10), if_pos f3, k2]
    · simp only [if_neg (by decide : ¬ (2 : Nat) = 10), if_pos f3, f4, hport]
  · simp only at k1 k2; subst k1
    have g : ¬ ((0x80 : UInt8) ||| UInt8.ofNat origin).toNat < 128 := Nat.not_lt.mpr f1
    refine ⟨_, ip, _, _, rfl, ?_, ?_⟩
    · simp only [if_true, if_neg g, k2]
    · simp only [if_true, if_neg g, f2, hport]
  · rcases hi with hi | hi <;> (have := k.1; rw [hi] at this; cases this)

theorem redirectLoop_complete : ∀ (as : List Address) (w : Bytes) (tmp : Address) (fuel : Nat), Addrs w as → w.length ≤ fuel → redirectLoop fuel tmp w = some as
  | [], w, tmp, fuel, h, _ => by
    cases h
    cases fuel <;> rfl
  | a :: as, w, tmp, fuel, h, hf => by
    obtain ⟨u, v, ha, hv, rfl⟩ := h
    have hp := addr_pos ha
    rw [List.length_append] at hf
    obtain ⟨fuel, rfl⟩ : ∃ k, fuel = k + 1 := ⟨fuel - 1, by omega⟩
    have hne : u ++ v ≠ [] := by intro h0; have := congrArg List.length h0; simp at this; simp [this.1] at hp
    have hs := addr_complete ha tmp v
    rw [redirectLoop]
    · simp only [hs, List.drop_left]
      rw [if_neg (by omega), redirectLoop_complete as v a fuel hv (by omega)]
      rfl
    · exact hne

theorem redirectLoop_sound : ∀ (fuel : Nat) (as : List Address) (w : Bytes) (tmp : Address), redirectLoop fuel tmp w = some as → Addrs w as
  | fuel, as, [], tmp, h => by
    have : as = [] := by cases fuel <;> simp [redirectLoop] at h <;> exact h
    subst this; rfl
  | 0, as, b :: w, tmp, h => by simp [redirectLoop] at h
  | fuel + 1, as, b :: w, tmp, h => by
    rw [redirectLoop] at h
    · split at h
      · cases h
      · rename_i hn
        rw [Option.map_eq_some_iff] at h
        obtain ⟨as', h1, rfl⟩ := h
        obtain ⟨u, rest, ha, hw, hl, hd⟩ := addr_sound (b := tmp) (src := b :: w) (a := (Address.setFromEncoding tmp (b :: w)).1) (n := (Address.setFromEncoding tmp (b :: w)).2) rfl hn
        rw [hd] at h1
        exact ⟨u, rest, ha, redirectLoop_sound fuel as' rest _ h1, hw⟩
    · simp

theorem addrs_encode : ∀ (as : List Address), (∀ a ∈ as, Address.Sound a ∧ Address.IsIP a) → Addrs (as.flatMap Address.encode) as
  | [], _ => rfl
  | a :: as, h => ⟨_, _, addr_encode (h a (by simp)).1 (h a (by simp)).2, addrs_encode as (fun x hx => h x (by simp [hx])), rfl⟩

/-! ## Session ids -/

theorem sid_take (e : SessionId.Endian) (chunk : Bytes) (h : ¬ chunk.length < 4) : Sid e (chunk.take 4) (SessionId.word e (chunk.take 4)) := by
  match chunk, h with
  | a :: b :: c :: d :: r, _ => exact ⟨a, b, c, d, rfl, rfl⟩
  | [], h => simp at h
  | [_], h => simp at h
  | [_, _], h => simp at h
  | [_, _, _], h => simp at h

theorem Sid.word {e : SessionId.Endian} {w : Bytes} {n : Nat} (h : Sid e w n) : w.length = 4 ∧ SessionId.word e w = n := by
  obtain ⟨a, b, c, d, rfl, rfl⟩ := h
  exact ⟨rfl, rfl⟩

theorem sid_store (e : SessionId.Endian) (n : Nat) (h : n < 2 ^ 32) : Sid e (SessionId.store e n) n := by
  obtain ⟨a, b, c, d, h1, h2⟩ := SessionId.load_store e n h
  exact ⟨a, b, c, d, h1, h2.symm⟩

theorem store_length (e : SessionId.Endian) (n : Nat) : (SessionId.store e n).length = 4 := by cases e <;> rfl

/-! ## Assembling -/

/-- the bytes that a call appends -/
def Put.bytes : Put → Bytes
  | .raw bs => bs
  | .field bs => VLU.encode bs.length ++ bs

theorem pushField_ok (p : PA) (bs : Bytes) :
    (p.pushField bs).2 = ((p.push (VLU.encode bs.length)).2 && ((p.push (VLU.encode bs.length)).1.push bs).2) := by
  show (p.pushField bs).2 = ((p.pushVLU bs.length).2 && ((p.pushVLU bs.length).1.push bs).2)
  rw [PA.pushField]
  generalize p.pushVLU bs.length = r1
  cases h1 : r1.2 <;> cases h2 : (r1.1.push bs).2 <;> simp [h2]

theorem push_fits {p : PA} (h : p.Inv) (bs : Bytes) : (p.push bs).2 = true ↔ p.cursor + bs.length ≤ p.limit := by
  have hc := h.cur
  rw [PA.push, h.remaining]
  split <;> simp <;> omega

theorem pushField_fits {p : PA} (h : p.Inv) (bs : Bytes) : (p.pushField bs).2 = true ↔ p.cursor + (VLU.encode bs.length ++ bs).length ≤ p.limit := by
  have hc := h.cur
  obtain ⟨a1, a2, _, a4, _⟩ := PA.push_inv h (VLU.encode bs.length)
  rw [pushField_ok, Bool.and_eq_true, push_fits h, push_fits a1, a2.2.1, List.length_append]
  constructor
  · rintro ⟨h1, h2⟩
    rw [(a4 ((push_fits h _).mpr h1)).2] at h2
    omega
  · intro h1
    have h2 : p.cursor + (VLU.encode bs.length).length ≤ p.limit := by omega
    refine ⟨h2, ?_⟩
    rw [(a4 ((push_fits h _).mpr h2)).2]
    omega

theorem pushAll_spec : ∀ (l : List Put) (p : PA), p.Inv →
    (p.cursor + (l.flatMap Put.bytes).length ≤ p.limit → ∃ q, pushAll p l = some q ∧ q.Inv ∧ PA.Same p q ∧ q.chunkStart = p.chunkStart ∧
      q.toVector = p.toVector ++ l.flatMap Put.bytes ∧ q.cursor = p.cursor + (l.flatMap Put.bytes).length) ∧
    (¬ p.cursor + (l.flatMap Put.bytes).length ≤ p.limit → pushAll p l = none)
  | [], p, h => by
    refine ⟨fun _ => ⟨p, rfl, h, PA.Same.refl p, rfl, by simp, by simp⟩, fun hn => absurd h.cur ?_⟩
    simpa using hn
  | x :: l, p, h => by
    have hc := h.cur
    have common : ∀ (r : PA × Bool), r.1.Inv → PA.Same p r.1 → r.1.chunkStart = p.chunkStart → (r.2 = true ↔ p.cursor + x.bytes.length ≤ p.limit) →
        (r.2 = true → r.1.toVector = p.toVector ++ x.bytes ∧ r.1.cursor = p.cursor + x.bytes.length) →
        (p.cursor + ((x :: l).flatMap Put.bytes).length ≤ p.limit → ∃ q, (if r.2 then pushAll r.1 l else none) = some q ∧ q.Inv ∧ PA.Same p q ∧
          q.chunkStart = p.chunkStart ∧ q.toVector = p.toVector ++ (x :: l).flatMap Put.bytes ∧ q.cursor = p.cursor + ((x :: l).flatMap Put.bytes).length) ∧
        (¬ p.cursor + ((x :: l).flatMap Put.bytes).length ≤ p.limit → (if r.2 then pushAll r.1 l else none) = none) := by
      intro r r1 r2 r3 r4 r5
      have ih := pushAll_spec l r.1 r1
      have hlim : r.1.limit = p.limit := r2.2.1
      rw [List.flatMap_cons, List.length_append]
      by_cases hr : r.2 = true
      · obtain ⟨r6, r7⟩ := r5 hr
        rw [r7, hlim] at ih
        simp only [hr, if_true]
        refine ⟨fun hh => ?_, fun hh => ih.2 (by omega)⟩
        obtain ⟨q, q1, q2, q3, q4, q5, q6⟩ := ih.1 (by omega)
        exact ⟨q, q1, q2, r2.trans q3, q4.trans r3, by rw [q5, r6, List.append_assoc], by rw [q6]; omega⟩
      · have hr' : r.2 = false := by simpa using hr
        simp only [hr', Bool.false_eq_true, if_false]
        refine ⟨fun hh => ?_, by simp⟩
        exact absurd (r4.mpr (by omega)) hr
    cases x with
    | raw bs =>
      obtain ⟨a1, a2, a3, a4, _⟩ := PA.push_inv h bs
      exact common (p.push bs) a1 a2 a3 (push_fits h bs) a4
    | field bs =>
      obtain ⟨a1, a2, a3, a4, _⟩ := PA.pushField_inv h bs
      exact common (p.pushField bs) a1 a2 a3 (pushField_fits h bs) a4

theorem be16_eq (n : Nat) : PA.be16 n = [UInt8.ofNat (n / 256 % 256), UInt8.ofNat (n % 256)] := by
  have h1 : n &&& 0xff = n % 256 := Nat.and_two_pow_sub_one_eq_mod n 8
  have h2 : n >>> 8 = n / 256 := Nat.shiftRight_eq_div_pow n 8
  have h3 : (n / 256) &&& 0xff = n / 256 % 256 := Nat.and_two_pow_sub_one_eq_mod _ 8
  rw [PA.be16, h1, h2, h3]

/-- what is assembled, and when -/
theorem assemble_eq (stack : Nat → UInt8) (room : Nat) (t : UInt8) (l : List Put) (h3 : 3 ≤ room) (hr : room < 65536) :
    assemble stack room t l = if 3 + (l.flatMap Put.bytes).length ≤ room then some (wireOf t (l.flatMap Put.bytes)) else none := by
  have hlen : ((List.range room).map stack).length = room := by simp
  have hi := PA.init_inv ((List.range room).map stack) 0 room (by omega) (by omega) (by omega)
  obtain ⟨s1, s2, s3, _⟩ := PA.startChunk_inv hi t
  have hst : ((PA.init ((List.range room).map stack) 0 room).startChunk t).2 = true := by
    rw [PA.startChunk, hi.remaining]
    have : (PA.init ((List.range room).map stack) 0 room).limit - (PA.init ((List.range room).map stack) 0 room).cursor = room := by simp [PA.init]
    rw [this, if_neg (by omega)]
  obtain ⟨s4, s5, s6⟩ := s3 hst
  have hlim : ((PA.init ((List.range room).map stack) 0 room).startChunk t).1.limit = room := s2.2.1
  have hv0 : (PA.init ((List.range room).map stack) 0 room).toVector = [] := by simp [PA.toVector, PA.init]
  have hc0 : (PA.init ((List.range room).map stack) 0 room).cursor = 0 := rfl
  rw [assemble]
  rw [if_pos hst]
  generalize (PA.init ((List.range room).map stack) 0 room).startChunk t = r at *
  obtain ⟨p1, p2⟩ := pushAll_spec l r.1 s1
  rw [hv0] at s4
  rw [hc0] at s5 s6
  rw [s5, hlim] at p1 p2
  by_cases hf : 3 + (l.flatMap Put.bytes).length ≤ room
  · obtain ⟨q, q1, q2, q3, q4, q5, q6⟩ := p1 (by omega)
    rw [if_pos hf, q1]
    dsimp only
    have hcs : q.chunkStart = some 3 := by rw [q4, s6]
    obtain ⟨q', hq'⟩ : ∃ q', q.commitChunk = some q' := by rw [PA.commitChunk, hcs]; exact ⟨_, rfl⟩
    obtain ⟨c1, c2, c3, c4, s, c5, c6⟩ := PA.commit_inv q2 hq'
    rw [hcs] at c5
    injection c5 with c5
    subst c5
    rw [hq', Option.map_some, c6, q5, s4, q6]
    congr 1
    have e : 0 + 3 + (l.flatMap Put.bytes).length - 3 = (l.flatMap Put.bytes).length := by omega
    have e2 : (l.flatMap Put.bytes).length / 256 % 256 = (l.flatMap Put.bytes).length / 256 := by omega
    rw [e, poke, be16_eq, wireOf, e2]
    simp
  · rw [if_neg hf, p2 (by omega)]

/-- the packet that carries chunks, and when -/
theorem packetOf_eq (buf : Bytes) (margin : Nat) (mode : UInt8) (ts tse : Option Nat) (chunks : Bytes) (hm : margin + 5 ≤ maxStartup) (hb : maxStartup ≤ buf.length) :
    packetOf buf margin mode ts tse chunks =
      if margin + 1 + (PA.tsBytes ts).length + (PA.tsBytes tse).length + chunks.length ≤ maxStartup then
        some (PA.headerFlags mode ts tse :: (PA.tsBytes ts ++ PA.tsBytes tse) ++ chunks)
      else none := by
  obtain ⟨i1, i2, i3, i4, _, _, _, _, i9⟩ := PA.initHeader_inv buf margin maxStartup mode ts tse hm hb (by simp only [maxStartup]; omega)
  have hcur : (PA.initHeader buf margin maxStartup mode ts tse).cursor = margin + 1 + (PA.tsBytes ts).length + (PA.tsBytes tse).length := by
    have h1 := congrArg List.length i9
    have hc := i1.cur
    have hl := i1.lim
    rw [PA.toVector, List.length_take, Nat.min_eq_left (by omega)] at h1
    rw [h1]
    simp; omega
  have hfit := push_fits i1 chunks
  rw [i3, hcur] at hfit
  rw [packetOf]
  by_cases h : margin + 1 + (PA.tsBytes ts).length + (PA.tsBytes tse).length + chunks.length ≤ maxStartup
  · rw [if_pos (hfit.mpr h), if_pos h]
    obtain ⟨_, _, _, p4, _⟩ := PA.push_inv i1 chunks
    obtain ⟨p5, _⟩ := p4 (hfit.mpr h)
    rw [p5, i9]
    congr 1
    have hl : (buf.take margin).length = margin := by rw [List.length_take]; simp only [maxStartup] at *; omega
    rw [List.append_assoc]
    conv => lhs; arg 1; rw [← hl]
    rw [List.drop_left]
  · rw [if_neg h, if_neg (fun hh => h (hfit.mp hh))]

theorem wireOf_chunkWire (t : UInt8) (payload : Bytes) (h : payload.length < 65536) : wireOf t payload = chunkWire (t, [PA.Op.push payload]) := by
  have e2 : payload.length / 256 % 256 = payload.length / 256 := by omega
  simp [wireOf, chunkWire, chunkPayload, PA.Op.pushed, be16_eq, e2]

/-- a packet with one chunk arrives as it was sent -/
theorem parse_one (mode : UInt8) (ts tse : Option Nat) (hts : ∀ t, ts = some t → t < 65536) (htse : ∀ t, tse = some t → t < 65536) (t : UInt8) (payload pad : Bytes)
    (hl : payload.length < 65536) (hp : isPadding pad) :
    ∃ off, parsePacket (PA.headerFlags mode ts tse :: (PA.tsBytes ts ++ PA.tsBytes tse) ++ wireOf t payload ++ pad) =
      some (⟨PA.headerFlags mode ts tse, ts, tse⟩, [⟨t, off, payload⟩]) := by
  rw [List.append_assoc, parsePacket, header_parse mode ts tse hts htse]
  dsimp only
  generalize (PA.headerFlags mode ts tse :: (PA.tsBytes ts ++ PA.tsBytes tse) ++ (wireOf t payload ++ pad)).length - (wireOf t payload ++ pad).length = pos
  have hm := parseChunks_wire [(t, [PA.Op.push payload])] (by simp [chunkPayload, PA.Op.pushed, hl]) pos pad hp
  rw [List.flatMap_cons, List.flatMap_nil, List.append_nil, ← wireOf_chunkWire t payload hl] at hm
  simp only [Matches, List.map_cons, List.map_nil, chunkPayload, List.flatMap_cons, List.flatMap_nil, PA.Op.pushed, List.append_nil] at hm
  match hg : parseChunks pos (wireOf t payload ++ pad) with
  | [] => rw [hg] at hm; simp at hm
  | [c] =>
    rw [hg] at hm
    simp only [List.map_cons, List.map_nil, List.cons.injEq, Prod.mk.injEq, and_true] at hm
    obtain ⟨c1, c2, c3⟩ := c
    simp only at hm
    exact ⟨c2, by rw [hm.1, hm.2]⟩
  | _ :: _ :: _ => rw [hg] at hm; simp at hm

theorem flags_mode (mode : UInt8) (ts tse : Option Nat) : PA.headerFlags mode ts tse &&& HEADER_FLAG_MOD_MASK = mode &&& HEADER_FLAG_MOD_MASK := by
  have hall : ∀ (f : UInt8) (a b : Bool),
      (if b = true then (if a = true then f &&& ~~~(HEADER_FLAG_TS ||| HEADER_FLAG_TSE) ||| HEADER_FLAG_TS
          else f &&& ~~~(HEADER_FLAG_TS ||| HEADER_FLAG_TSE)) ||| HEADER_FLAG_TSE
        else (if a = true then f &&& ~~~(HEADER_FLAG_TS ||| HEADER_FLAG_TSE) ||| HEADER_FLAG_TS
          else f &&& ~~~(HEADER_FLAG_TS ||| HEADER_FLAG_TSE))) &&& HEADER_FLAG_MOD_MASK = f &&& HEADER_FLAG_MOD_MASK := by
    intro f; cases f with | _ f => cases f with | _ f => revert f; decide +kernel
  exact hall mode ts.isSome tse.isSome

end Startup
end Rtmfp
