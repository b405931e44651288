import Verif.Model.Address

/-! # C35: addresses -/

namespace Rtmfp
namespace Address

/-- what a caller may pass as a `sockaddr` -/
def OkSockaddr (s : Sockaddr) : Prop :=
  s.port < 2 ^ 16 ∧ (s.family = 2 → s.ip.length = 4) ∧ (s.family = 10 → s.ip.length = 16)

def OkOp : Op → Prop
  | .setSockaddr (some s) => OkSockaddr s
  | _ => True

/-- the address after some calls on a new one -/
def made (ops : List Op) : Address := ops.foldl step init

/-- what holds of every address a program can make -/
structure Sound (a : Address) : Prop where
  kind : (a.family = 2 ∧ a.ip.length = 4) ∨ (a.family = 10 ∧ a.ip.length = 16) ∨ (a.family = 0 ∧ a.ip = [] ∧ a.port = 0)
  port : a.port < 2 ^ 16
  origin : a.origin < 4

theorem setPort_sound {a : Address} (h : Sound a) (p : Nat) : Sound (setPort a p) := by
  rw [setPort]
  split
  · rename_i hf
    refine ⟨?_, Nat.mod_lt _ (by decide), h.origin⟩
    rcases h.kind with k | k | k
    · exact .inl k
    · exact .inr (.inl k)
    · rcases hf with hf | hf <;> rw [k.1] at hf <;> cases hf
  · exact h

theorem getIP_eq {a : Address} (h : Sound a) : getIP a = a.ip := by
  rw [getIP, ipLength]
  rcases h.kind with k | k | k
  · rw [if_pos k.1, ← k.2, List.take_length]
  · rw [if_neg (by rw [k.1]; decide), if_pos k.1, ← k.2, List.take_length]
  · rw [k.2.1]; simp

theorem getPort_eq {a : Address} (h : Sound a) : getPort a = a.port := by
  rw [getPort]
  rcases h.kind with k | k | k
  · rw [if_pos (.inl k.1)]
  · rw [if_pos (.inr k.1)]
  · rw [if_neg (by rw [k.1]; decide), k.2.2]

theorem setFamily_family (a : Address) (f : Nat) (hf : f = AF_INET ∨ f = AF_INET6) : (setFamily a f).1.family = f := by
  simp only [setFamily]
  rw [if_neg (by rcases hf with h | h <;> rw [h] <;> decide)]
  split
  · assumption
  · split <;> (simp only [setPort]; split <;> rfl)

theorem setFamily_sound {a : Address} (h : Sound a) (f : Nat) : Sound (setFamily a f).1 := by
  by_cases hf : f ≠ AF_INET ∧ f ≠ AF_INET6
  · simp only [setFamily]; rw [if_pos hf]; exact h
  · by_cases he : a.family = f
    · simp only [setFamily]; rw [if_neg hf, if_pos he]; exact h
    · have hp : getPort a % 65536 = getPort a := by rw [getPort_eq h]; exact Nat.mod_eq_of_lt h.port
      have hp' : getPort a < 2 ^ 16 := by rw [getPort_eq h]; exact h.port
      have hf' : f = AF_INET ∨ f = AF_INET6 := by
        by_cases f = AF_INET
        · exact .inl ‹_›
        · exact .inr (Classical.byContradiction fun h2 => hf ⟨‹_›, h2⟩)
      simp only [setFamily]
      rw [if_neg hf, if_neg he]
      simp only [setPort, if_pos hf', hp]
      split
      · rename_i hc
        rcases hf' with hf' | hf'
        · subst hf'
          refine ⟨.inl ⟨rfl, ?_⟩, hp', h.origin⟩
          simp only [if_pos hc.1]
          rcases h.kind with k | k | k
          · exact absurd k.1 he
          · simp [getIP_eq h, k.2, AF_INET, AF_INET6]
          · exact absurd (by rw [getIP_eq h, k.2.1]) hc.2
        · subst hf'
          refine ⟨.inr (.inl ⟨rfl, ?_⟩), hp', h.origin⟩
          simp only [if_pos hc.1]
          rcases h.kind with k | k | k
          · simp [getIP_eq h, k.2, AF_INET, AF_INET6, mapPrefix]
          · exact absurd k.1 he
          · exact absurd (by rw [getIP_eq h, k.2.1]) hc.2
      · rcases hf' with hf' | hf'
        · subst hf'
          exact ⟨.inl ⟨rfl, by simp⟩, hp', h.origin⟩
        · subst hf'
          exact ⟨.inr (.inl ⟨rfl, by simp [AF_INET, AF_INET6]⟩), hp', h.origin⟩

theorem setIP_sound {a : Address} (h : Sound a) (src : Bytes) : Sound (setIP a src).1 := by
  simp only [setIP]
  split
  · have g := setFamily_sound h AF_INET
    exact ⟨.inl ⟨setFamily_family a _ (.inl rfl), by assumption⟩, g.port, g.origin⟩
  · split
    · have g := setFamily_sound h AF_INET6
      exact ⟨.inr (.inl ⟨setFamily_family a _ (.inr rfl), by assumption⟩), g.port, g.origin⟩
    · exact h

theorem and3_lt (d : UInt8) : (d &&& 0x03).toNat < 4 := by
  have h : ∀ d : UInt8, (d &&& 0x03).toNat < 4 := by
    intro d; cases d with | _ d => cases d with | _ d => revert d; decide +kernel
  exact h d

theorem step_sound {a : Address} (h : Sound a) {o : Op} (ho : OkOp o) : Sound (step a o) := by
  cases o with
  | setOrigin o => exact ⟨h.kind, h.port, o.isLt⟩
  | setFamily f => exact setFamily_sound h f
  | setPort p => exact setPort_sound h p
  | setIP src => exact setIP_sound h src
  | setFromEncoding src =>
    cases src with
    | nil => exact h
    | cons flags rest =>
      simp only [step, setFromEncoding]
      generalize (if decide (flags &&& 0x80 ≠ 0) = true then 16 else 4) = n
      split
      · exact h
      · have g := setPort_sound (setIP_sound h (rest.take n)) (((rest.drop n).getD 0 0).toNat * 256 + ((rest.drop n).getD 1 0).toNat)
        exact ⟨g.kind, g.port, and3_lt flags⟩
  | setSockaddr s =>
    cases s with
    | none => exact h
    | some s =>
      simp only [step, setSockaddr]
      split
      · rename_i hf
        have ho : OkSockaddr s := ho
        refine ⟨?_, ho.1, h.origin⟩
        rcases hf with hf | hf
        · exact .inl ⟨hf, ho.2.1 hf⟩
        · exact .inr (.inl ⟨hf, ho.2.2 hf⟩)
      · exact h
  | erase => exact ⟨.inr (.inr ⟨rfl, rfl, rfl⟩), (by decide : 0 < 2 ^ 16), h.origin⟩

theorem fold_sound {a : Address} (h : Sound a) (ops : List Op) (ho : ∀ o ∈ ops, OkOp o) : Sound (ops.foldl step a) := by
  induction ops generalizing a with
  | nil => exact h
  | cons o ops ih =>
    exact ih (step_sound h (ho o (by simp))) (fun p hp => ho p (by simp [hp]))

theorem made_sound (ops : List Op) (ho : ∀ o ∈ ops, OkOp o) : Sound (made ops) :=
  fold_sound ⟨.inr (.inr ⟨rfl, rfl, rfl⟩), by decide, by decide⟩ ops ho

/-- An address that has a family. -/
def IsIP (a : Address) : Prop := a.family = 2 ∨ a.family = 10

theorem flags4 (o : Nat) (h : o < 4) : ((0 : UInt8) ||| UInt8.ofNat o) &&& 0x80 = 0 ∧ (((0 : UInt8) ||| UInt8.ofNat o) &&& 0x03).toNat = o := by
  have h' : ∀ o : Fin 4, ((0 : UInt8) ||| UInt8.ofNat o.val) &&& 0x80 = 0 ∧ (((0 : UInt8) ||| UInt8.ofNat o.val) &&& 0x03).toNat = o.val := by decide +kernel
  exact h' ⟨o, h⟩

theorem flags6 (o : Nat) (h : o < 4) : ((0x80 : UInt8) ||| UInt8.ofNat o) &&& 0x80 ≠ 0 ∧ (((0x80 : UInt8) ||| UInt8.ofNat o) &&& 0x03).toNat = o := by
  have h' : ∀ o : Fin 4, ((0x80 : UInt8) ||| UInt8.ofNat o.val) &&& 0x80 ≠ 0 ∧ (((0x80 : UInt8) ||| UInt8.ofNat o.val) &&& 0x03).toNat = o.val := by decide +kernel
  exact h' ⟨o, h⟩

theorem port_bytes (p : Nat) (h : p < 65536) : ((UInt8.ofNat (p >>> 8)).toNat * 256 + (UInt8.ofNat (p &&& 0xff)).toNat) % 65536 = p := by
  have h1 : p &&& 0xff = p % 256 := Nat.and_two_pow_sub_one_eq_mod p 8
  have h2 : p >>> 8 = p / 256 := Nat.shiftRight_eq_div_pow p 8
  rw [h1, h2]
  simp only [UInt8.toNat_ofNat']
  omega

theorem encode_eq {a : Address} (h : Sound a) (hi : IsIP a) :
    encode a = ((if a.family = 10 then 0x80 else 0) ||| UInt8.ofNat a.origin) :: (a.ip ++ [UInt8.ofNat (a.port >>> 8), UInt8.ofNat (a.port &&& 0xff)]) := by
  rw [encode, if_neg, getIP_eq h, getPort_eq h]
  · rfl
  · rw [ipLength]
    rcases hi with hi | hi
    · rw [if_pos hi]; decide
    · rw [if_neg (by rw [hi]; decide), if_pos hi]; decide

theorem setIP_4 (b : Address) (src : Bytes) (h : src.length = 4) : ∃ p o, (setIP b src).1 = { family := 2, ip := src, port := p, origin := o } := by
  refine ⟨(setFamily b AF_INET).1.port, (setFamily b AF_INET).1.origin, ?_⟩
  simp only [setIP, if_pos h]
  have := setFamily_family b AF_INET (.inl rfl)
  generalize (setFamily b AF_INET).1 = c at *
  cases c; simp only at this; subst this; rfl

theorem setIP_6 (b : Address) (src : Bytes) (h : src.length = 16) : ∃ p o, (setIP b src).1 = { family := 10, ip := src, port := p, origin := o } := by
  refine ⟨(setFamily b AF_INET6).1.port, (setFamily b AF_INET6).1.origin, ?_⟩
  have h4 : src.length ≠ 4 := by omega
  simp only [setIP, if_neg h4, if_pos h]
  have := setFamily_family b AF_INET6 (.inr rfl)
  generalize (setFamily b AF_INET6).1 = c at *
  cases c; simp only at this; subst this; rfl

theorem round_trip {a : Address} (h : Sound a) (hi : IsIP a) (b : Address) (rest : Bytes) :
    setFromEncoding b (encode a ++ rest) = (a, (encode a).length) := by
  rw [encode_eq h hi]
  have hp : a.port < 65536 := h.port
  cases a with
  | mk family ip port origin =>
  rcases h.kind with k | k | k
  · obtain ⟨k1, k2⟩ := k
    simp only at k1 k2 hp
    have ho : origin < 4 := h.origin
    subst k1
    simp only [if_neg (by decide : ¬ (2 = 10))]
    rw [List.cons_append, setFromEncoding]
    obtain ⟨f1, f2⟩ := flags4 origin ho
    simp only [f1, ne_eq, not_true_eq_false, decide_false, Bool.false_eq_true, if_false, f2]
    rw [if_neg (by simp [k2]; omega)]
    have ht : (ip ++ [UInt8.ofNat (port >>> 8), UInt8.ofNat (port &&& 0xff)] ++ rest).take 4 = ip := by
      rw [List.append_assoc, ← k2, List.take_left]
    have hd : (ip ++ [UInt8.ofNat (port >>> 8), UInt8.ofNat (port &&& 0xff)] ++ rest).drop 4 = [UInt8.ofNat (port >>> 8), UInt8.ofNat (port &&& 0xff)] ++ rest := by
      rw [List.append_assoc, ← k2, List.drop_left]
    rw [ht, hd]
    obtain ⟨p, o, e⟩ := setIP_4 b ip k2
    rw [e]
    simp only [setPort, AF_INET, true_or, if_true]
    refine Prod.ext ?_ (by simp [k2])
    simp only [List.cons_append, List.getD_cons_zero, List.getD_cons_succ, port_bytes port hp]
  · obtain ⟨k1, k2⟩ := k
    simp only at k1 k2 hp
    have ho : origin < 4 := h.origin
    subst k1
    simp only [if_true]
    rw [List.cons_append, setFromEncoding]
    obtain ⟨f1, f2⟩ := flags6 origin ho
    simp only [f1, ne_eq, not_false_eq_true, decide_true, if_true, f2]
    rw [if_neg (by simp [k2]; omega)]
    have ht : (ip ++ [UInt8.ofNat (port >>> 8), UInt8.ofNat (port &&& 0xff)] ++ rest).take 16 = ip := by
      rw [List.append_assoc, ← k2, List.take_left]
    have hd : (ip ++ [UInt8.ofNat (port >>> 8), UInt8.ofNat (port &&& 0xff)] ++ rest).drop 16 = [UInt8.ofNat (port >>> 8), UInt8.ofNat (port &&& 0xff)] ++ rest := by
      rw [List.append_assoc, ← k2, List.drop_left]
    rw [ht, hd]
    obtain ⟨p, o, e⟩ := setIP_6 b ip k2
    rw [e]
    simp only [setPort, AF_INET, AF_INET6, or_true, if_true]
    refine Prod.ext ?_ (by simp [k2])
    simp only [List.cons_append, List.getD_cons_zero, List.getD_cons_succ, port_bytes port hp]
  · rcases hi with hi | hi <;> (have := k.1; rw [hi] at this; cases this)

end Address

open Address

/-- an address someone might make: set from an IPv4 `sockaddr`, mapped to IPv6, port and origin changed -/
def demoOps : List Address.Op := [.setSockaddr (some { family := 2, ip := [192, 0, 2, 7], port := 1935 }), .setFamily 10, .setPort 50000, .setOrigin 2]

theorem demoOps_ok : ∀ o ∈ demoOps, OkOp o := by
  intro o ho
  simp only [demoOps, List.mem_cons, List.not_mem_nil, or_false] at ho
  rcases ho with rfl | rfl | rfl | rfl
  · exact ⟨by decide, fun _ => rfl, fun h => by cases h⟩
  all_goals trivial

/-- Encoding any address a program can make and decoding it, into whatever address and with whatever bytes following, gives the same family,
IP address, port and origin, and uses exactly the bytes of the encoding, of which there are as many as announced. -/
theorem C35_encode_round_trip (ops : List Address.Op) (hok : ∀ o ∈ ops, OkOp o) (hip : IsIP (made ops)) (b : Address) (rest : Bytes) :
    setFromEncoding b (encode (made ops) ++ rest) = (made ops, encodedLength (made ops)) := by
  have h := made_sound ops hok
  rw [round_trip h hip b rest]
  congr 1
  rw [encode_eq h hip]
  simp only [encodedLength, AF_INET, AF_INET6]
  rcases h.kind with k | k | k
  · simp [k.1, k.2]
  · simp [k.1, k.2]
  · rcases hip with hi | hi <;> (have := k.1; rw [hi] at this; cases this)

example : (∀ o ∈ demoOps, OkOp o) ∧ IsIP (made demoOps) ∧
    encode (made demoOps) = [0x82, 0, 0, 0, 0, 0, 0, 0, 0, 0, 0, 0xff, 0xff, 192, 0, 2, 7, 0xc3, 0x50] := ⟨demoOps_ok, .inr (by decide), by decide⟩

/-- Decoding any bytes uses none and changes nothing, or uses 7 or 19 of those there are, by the top bit of the first. -/
theorem C35_decode_safe (a : Address) (src : Bytes) :
    ((setFromEncoding a src) = (a, 0) ∨ (setFromEncoding a src).2 = 7 ∨ (setFromEncoding a src).2 = 19) ∧
    (setFromEncoding a src).2 ≤ src.length ∧
    ((setFromEncoding a src).2 = 0 ↔ src = [] ∨ ∃ f t, src = f :: t ∧ t.length < (if f < 0x80 then 6 else 18)) := by
  cases src with
  | nil => exact ⟨.inl rfl, Nat.le_refl _, by simp [setFromEncoding]⟩
  | cons f t =>
    have hf : (f &&& 0x80 ≠ 0) ↔ ¬ f < 0x80 := by
      have h : ∀ d : UInt8, (d &&& 0x80 ≠ 0) ↔ ¬ d < 0x80 := by
        intro d; cases d with | _ d => cases d with | _ d => revert d; decide +kernel
      exact h f
    by_cases hc : f < 0x80
    · have hz : f &&& 0x80 = 0 := Classical.byContradiction fun h => (hf.mp h) hc
      simp only [setFromEncoding, hz, ne_eq, not_true_eq_false, decide_false, Bool.false_eq_true, if_false]
      by_cases hl : (f :: t).length < 1 + 4 + 2
      · rw [if_pos hl]
        refine ⟨.inl rfl, Nat.zero_le _, ⟨fun _ => .inr ⟨f, t, rfl, ?_⟩, fun _ => rfl⟩⟩
        rw [if_pos hc]; simp only [List.length_cons] at hl; omega
      · rw [if_neg hl]
        refine ⟨.inr (.inl rfl), by dsimp only; omega, ⟨(fun h => by cases h), ?_⟩⟩
        rintro (h | ⟨g, u, h, hh⟩)
        · cases h
        · injection h with h1 h2; subst h1; subst h2
          rw [if_pos hc] at hh; simp only [List.length_cons] at hl; omega
    · have hz := hf.mpr hc
      simp only [setFromEncoding, hz, not_false_eq_true, decide_true, if_true, ne_eq]
      by_cases hl : (f :: t).length < 1 + 16 + 2
      · rw [if_pos hl]
        refine ⟨.inl rfl, Nat.zero_le _, ⟨fun _ => .inr ⟨f, t, rfl, ?_⟩, fun _ => rfl⟩⟩
        rw [if_neg hc]; simp only [List.length_cons] at hl; omega
      · rw [if_neg hl]
        refine ⟨.inr (.inr rfl), by dsimp only; omega, ⟨(fun h => by cases h), ?_⟩⟩
        rintro (h | ⟨g, u, h, hh⟩)
        · cases h
        · injection h with h1 h2; subst h1; subst h2
          rw [if_neg hc] at hh; simp only [List.length_cons] at hl; omega

example : (setFromEncoding Address.init [0x01, 10, 0, 0, 1, 0x07, 0x8f, 99]).2 = 7 := by decide

/-- An IPv4 address mapped to IPv6 is `::ffff:a.b.c.d` with the same port and origin, and mapping it back gives the address again; an IPv6
address that can be mapped to IPv4 and back is unchanged too. -/
theorem C35_mapping (ops : List Address.Op) (hok : ∀ o ∈ ops, OkOp o) (hip : IsIP (made ops)) :
    ((made ops).family = 2 → (setFamily (made ops) 10) = ({ made ops with family := 10, ip := [0, 0, 0, 0, 0, 0, 0, 0, 0, 0, 255, 255] ++ (made ops).ip }, true) ∧
      setFamily (setFamily (made ops) 10).1 2 = (made ops, true)) ∧
    ((made ops).family = 10 → (canMap (made ops) 2 = true ↔ ∃ v4, (made ops).ip = [0, 0, 0, 0, 0, 0, 0, 0, 0, 0, 255, 255] ++ v4) ∧
      (canMap (made ops) 2 = true → setFamily (setFamily (made ops) 2).1 10 = (made ops, true))) := by
  have h := made_sound ops hok
  revert hip h
  generalize made ops = a
  intro hip h
  have hp : a.port < 65536 := h.port
  cases a with
  | mk family ip port origin =>
  simp only at hp
  constructor
  · intro hf
    simp only at hf
    subst hf
    have hl : ip.length = 4 := by
      rcases h.kind with k | k | k
      · exact k.2
      · cases k.1
      · cases k.1
    match ip, hl with
    | [w, x, y, z], _ =>
      constructor
      · simp [setFamily, getIP, ipLength, canMap, AF_INET, AF_INET6, setPort, getPort, mapPrefix, Nat.mod_eq_of_lt hp]
      · simp [setFamily, getIP, ipLength, canMap, AF_INET, AF_INET6, setPort, getPort, mapPrefix, Nat.mod_eq_of_lt hp]
  · intro hf
    simp only at hf
    subst hf
    have hl : ip.length = 16 := by
      rcases h.kind with k | k | k
      · cases k.1
      · exact k.2
      · cases k.1
    have hm : canMap { family := 10, ip := ip, port := port, origin := origin } 2 = true ↔ ∃ v4, ip = [0, 0, 0, 0, 0, 0, 0, 0, 0, 0, 255, 255] ++ v4 := by
      simp only [canMap, AF_INET, AF_INET6, mapPrefix]
      constructor
      · intro hc
        simp at hc
        have hc := of_decide_eq_true hc
        exact ⟨ip.drop 12, by rw [← hc]; exact (List.take_append_drop 12 ip).symm⟩
      · rintro ⟨v4, rfl⟩
        simp
    refine ⟨hm, fun hc => ?_⟩
    obtain ⟨v4, rfl⟩ := hm.mp hc
    have hl' : v4.length = 4 := by simpa using hl
    match v4, hl' with
    | [w, x, y, z], _ =>
      simp [setFamily, getIP, ipLength, canMap, AF_INET, AF_INET6, setPort, getPort, mapPrefix, Nat.mod_eq_of_lt hp]

example : (made demoOps).family = 10 ∧ canMap (made demoOps) 2 = true ∧ (setFamily (made demoOps) 2).1.ip = [192, 0, 2, 7] := by decide

namespace Address

/-- the bytes as one number, the first the most significant -/
def value : Bytes → Nat
  | [] => 0
  | b :: bs => b.toNat * 256 ^ bs.length + value bs

theorem value_lt (bs : Bytes) : value bs < 256 ^ bs.length := by
  induction bs with
  | nil => decide
  | cons b bs ih =>
    have hb : b.toNat < 256 := b.toNat_lt
    simp only [value, List.length_cons, Nat.pow_succ]
    have : b.toNat * 256 ^ bs.length ≤ 255 * 256 ^ bs.length := Nat.mul_le_mul_right _ (by omega)
    omega

theorem memcmp_value (a b : Bytes) (h : a.length = b.length) :
    (memcmp a b < 0 ↔ value a < value b) ∧ (memcmp a b > 0 ↔ value b < value a) ∧ (memcmp a b = 0 ↔ a = b) := by
  induction a generalizing b with
  | nil =>
    cases b with
    | nil => simp [memcmp]
    | cons _ _ => cases h
  | cons x a ih =>
    cases b with
    | nil => cases h
    | cons y b =>
      have h' : a.length = b.length := by simpa using h
      obtain ⟨i1, i2, i3⟩ := ih b h'
      have va := value_lt a
      have vb := value_lt b
      rw [h'] at va
      simp only [memcmp, value, h']
      by_cases hxy : x < y
      · rw [if_pos hxy]
        have hn : x.toNat < y.toNat := UInt8.lt_iff_toNat_lt.mp hxy
        have hm : (x.toNat + 1) * 256 ^ b.length ≤ y.toNat * 256 ^ b.length := Nat.mul_le_mul_right _ hn
        rw [Nat.add_mul] at hm
        refine ⟨⟨fun _ => by omega, fun _ => by decide⟩, ⟨fun h => by omega, fun h => by omega⟩, ⟨fun h => by omega, fun h => ?_⟩⟩
        injection h with h1 _
        subst h1; omega
      · rw [if_neg hxy]
        by_cases hyx : y < x
        · rw [if_pos hyx]
          have hn : y.toNat < x.toNat := UInt8.lt_iff_toNat_lt.mp hyx
          have hm : (y.toNat + 1) * 256 ^ b.length ≤ x.toNat * 256 ^ b.length := Nat.mul_le_mul_right _ hn
          rw [Nat.add_mul] at hm
          refine ⟨⟨fun h => by omega, fun h => by omega⟩, ⟨fun _ => by omega, fun _ => by decide⟩, ⟨fun h => by omega, fun h => ?_⟩⟩
          injection h with h1 _
          subst h1; omega
        · rw [if_neg hyx]
          have he : x = y := by
            rw [UInt8.lt_iff_toNat_lt] at hxy hyx
            exact UInt8.toNat_inj.mp (by omega)
          subst he
          refine ⟨by rw [i1]; omega, by rw [i2]; omega, by rw [i3]; simp⟩

theorem lengths {a b : Address} (ha : Sound a) (hb : Sound b) (h : a.family = b.family) : a.ip.length = b.ip.length := by
  rcases ha.kind with k | k | k <;> rcases hb.kind with l | l | l <;> first
    | (have e := h; rw [k.1, l.1] at e; cases e; done)
    | (rw [k.2, l.2])
    | (rw [k.2.1, l.2.1])

theorem lt_iff {a b : Address} (ha : Sound a) (hb : Sound b) :
    lt a b = true ↔ a.family < b.family ∨ (a.family = b.family ∧ (value a.ip < value b.ip ∨ (a.ip = b.ip ∧ a.port < b.port))) := by
  simp only [lt, getIP_eq ha, getIP_eq hb, getPort_eq ha, getPort_eq hb]
  by_cases h1 : a.family < b.family
  · rw [if_pos h1]; simp [h1]
  · rw [if_neg h1]
    by_cases h2 : b.family < a.family
    · rw [if_pos h2]
      constructor
      · intro h; cases h
      · intro h; omega
    · rw [if_neg h2]
      have he : a.family = b.family := by omega
      obtain ⟨i1, i2, i3⟩ := memcmp_value a.ip b.ip (lengths ha hb he)
      by_cases h3 : memcmp a.ip b.ip < 0
      · rw [if_pos h3]
        exact ⟨fun _ => .inr ⟨he, .inl (i1.mp h3)⟩, fun _ => rfl⟩
      · rw [if_neg h3]
        by_cases h4 : memcmp a.ip b.ip > 0
        · rw [if_pos h4]
          have := i2.mp h4
          constructor
          · intro h; cases h
          · rintro (h | ⟨_, h | ⟨h, _⟩⟩)
            · exact absurd h h1
            · omega
            · rw [h] at this; omega
        · rw [if_neg h4]
          have hz := i3.mp (by omega)
          simp only [decide_eq_true_eq]
          constructor
          · intro h; exact .inr ⟨he, .inr ⟨hz, h⟩⟩
          · rintro (h | ⟨_, h | ⟨_, h⟩⟩)
            · exact absurd h h1
            · rw [hz] at h; omega
            · exact h

theorem eq_iff {a b : Address} (ha : Sound a) (hb : Sound b) : eq a b = true ↔ a.family = b.family ∧ a.ip = b.ip ∧ a.port = b.port := by
  simp only [eq, getIP_eq ha, getIP_eq hb, getPort_eq ha, getPort_eq hb, Bool.and_eq_true, decide_eq_true_eq]
  constructor
  · rintro ⟨⟨h1, h2⟩, h3⟩
    exact ⟨h1, ((memcmp_value _ _ (lengths ha hb h1)).2.2).mp h2, h3⟩
  · rintro ⟨h1, h2, h3⟩
    exact ⟨⟨h1, ((memcmp_value _ _ (lengths ha hb h1)).2.2).mpr h2⟩, h3⟩

end Address

/-- The order of addresses: of any two exactly one is less or they are equal; equal means the same family, IP address and port (not
origin); and it is transitive. -/
theorem C35_strict_total_order (xs ys zs : List Address.Op) (hx : ∀ o ∈ xs, OkOp o) (hy : ∀ o ∈ ys, OkOp o) (hz : ∀ o ∈ zs, OkOp o) :
    lt (made xs) (made xs) = false ∧
    (lt (made xs) (made ys) = true → lt (made ys) (made zs) = true → lt (made xs) (made zs) = true) ∧
    (lt (made xs) (made ys) = true → lt (made ys) (made xs) = false) ∧
    (eq (made xs) (made ys) = true ↔ lt (made xs) (made ys) = false ∧ lt (made ys) (made xs) = false) ∧
    (eq (made xs) (made ys) = true ↔ (made xs).family = (made ys).family ∧ getIP (made xs) = getIP (made ys) ∧ getPort (made xs) = getPort (made ys)) := by
  have ha := made_sound xs hx
  have hb := made_sound ys hy
  have hc := made_sound zs hz
  revert ha hb hc
  generalize made xs = a
  generalize made ys = b
  generalize made zs = c
  intro ha hb hc
  have vinj : ∀ {a b : Address}, Sound a → Sound b → a.family = b.family → value a.ip = value b.ip → a.ip = b.ip := by
    intro a b ha hb h hv
    obtain ⟨i1, i2, i3⟩ := memcmp_value a.ip b.ip (lengths ha hb h)
    apply i3.mp
    have h1 : ¬ memcmp a.ip b.ip < 0 := fun h => by have := i1.mp h; omega
    have h2 : ¬ memcmp a.ip b.ip > 0 := fun h => by have := i2.mp h; omega
    omega
  refine ⟨?_, ?_, ?_, ?_, ?_⟩
  · rw [← Bool.not_eq_true, lt_iff ha ha]; omega
  · rw [lt_iff ha hb, lt_iff hb hc, lt_iff ha hc]
    rintro (h | ⟨h, h'⟩) (k | ⟨k, k'⟩)
    · exact .inl (by omega)
    · exact .inl (by omega)
    · exact .inl (by omega)
    · refine .inr ⟨by omega, ?_⟩
      rcases h' with h' | ⟨h', h''⟩ <;> rcases k' with k' | ⟨k', k''⟩
      · exact .inl (by omega)
      · exact .inl (by rw [← k']; exact h')
      · exact .inl (by rw [h']; exact k')
      · exact .inr ⟨h'.trans k', by omega⟩
  · rw [← Bool.not_eq_true, lt_iff ha hb, lt_iff hb ha]
    rintro (h | ⟨h, h' | ⟨h', h''⟩⟩) (k | ⟨k, k' | ⟨k', k''⟩⟩) <;> first
      | omega
      | (rw [h'] at k'; omega)
      | (rw [k'] at h'; omega)
  · rw [← Bool.not_eq_true, ← Bool.not_eq_true, lt_iff ha hb, lt_iff hb ha, eq_iff ha hb]
    constructor
    · rintro ⟨h1, h2, h3⟩
      refine ⟨?_, ?_⟩
      · rintro (h | ⟨_, h | ⟨_, h⟩⟩)
        · omega
        · rw [h2] at h; omega
        · omega
      · rintro (h | ⟨_, h | ⟨_, h⟩⟩)
        · omega
        · rw [h2] at h; omega
        · omega
    · rintro ⟨h1, h2⟩
      have hf : a.family = b.family := by omega
      have hv : value a.ip = value b.ip := by omega
      have hi := vinj ha hb hf hv
      refine ⟨hf, hi, ?_⟩
      have p1 : ¬ a.port < b.port := fun h => h1 (.inr ⟨hf, .inr ⟨hi, h⟩⟩)
      have p2 : ¬ b.port < a.port := fun h => h2 (.inr ⟨hf.symm, .inr ⟨hi.symm, h⟩⟩)
      omega
  · rw [eq_iff ha hb, getIP_eq ha, getIP_eq hb, getPort_eq ha, getPort_eq hb]

example : lt (made demoOps) (made (demoOps ++ [.setPort 50001])) = true ∧ lt (made (demoOps ++ [.setFamily 2])) (made demoOps) = true ∧
    eq (made demoOps) (made (demoOps ++ [.setOrigin 3])) = true := by decide

/-- Equal addresses differ at most in the origin byte of their encodings; addresses with the same encoding are the same. -/
theorem C35_encode_injective (xs ys : List Address.Op) (hx : ∀ o ∈ xs, OkOp o) (hy : ∀ o ∈ ys, OkOp o) (ix : IsIP (made xs)) (iy : IsIP (made ys))
    (h : encode (made xs) = encode (made ys)) : made xs = made ys := by
  have h1 := round_trip (made_sound xs hx) ix Address.init []
  have h2 := round_trip (made_sound ys hy) iy Address.init []
  rw [h] at h1
  exact (congrArg Prod.fst (h1.symm.trans h2))

example : IsIP (made demoOps) ∧ made (demoOps ++ [.setFamily 2, .setFamily 10]) = made demoOps := ⟨.inr (by decide), by decide⟩

end Rtmfp
