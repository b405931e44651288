import Verif.Model.Cookie
import Verif.Props.C01_C03_VLU
import Verif.Props.C35_Address
import Mathlib.Tactic.Linarith

/-! # C29: startup cookies -/

namespace Rtmfp
namespace Cookie

open Address

/-- an IP address and port -/
def IsAddr (s : Sockaddr) : Prop := OkSockaddr s ∧ (s.family = 2 ∨ s.family = 10)

theorem ofSockaddr_eq {s : Sockaddr} (h : IsAddr s) : ofSockaddr (some s) 0 = made [.setSockaddr (some s)] ∧
    ofSockaddr (some s) 0 = { family := s.family, ip := s.ip, port := s.port, origin := 0 } := by
  constructor
  · rfl
  · simp only [ofSockaddr, setSockaddr]
    rw [if_pos h.2]

theorem addr_sound {s : Sockaddr} (h : IsAddr s) : Sound (ofSockaddr (some s) 0) := by
  rw [(ofSockaddr_eq h).1]
  apply made_sound
  intro o ho
  rw [List.mem_singleton.mp ho]
  exact h.1

theorem addr_isIP {s : Sockaddr} (h : IsAddr s) : IsIP (ofSockaddr (some s) 0) := by
  rw [(ofSockaddr_eq h).2]; exact h.2

theorem encodedAddr_ne {s : Sockaddr} (h : IsAddr s) : encodedAddr (some s) ≠ [] := by
  rw [encodedAddr, Address.encode_eq (addr_sound h) (addr_isIP h)]
  simp

theorem encodedAddr_inj {s t : Sockaddr} (hs : IsAddr s) (ht : IsAddr t) (h : encodedAddr (some s) = encodedAddr (some t)) : s = t := by
  have h1 := round_trip (addr_sound hs) (addr_isIP hs) Address.init []
  have h2 := round_trip (addr_sound ht) (addr_isIP ht) Address.init []
  rw [encodedAddr, encodedAddr] at h
  rw [h] at h1
  have h3 := congrArg Prod.fst (h1.symm.trans h2)
  simp only [(ofSockaddr_eq hs).2, (ofSockaddr_eq ht).2] at h3
  injection h3 with a b c
  cases s; cases t; simp_all

/-- no complete VLU is the beginning of another -/
theorem vlu_prefix {u v : Bytes} (hu : Spec.IsVLU u) (hv : Spec.IsVLU v) {x y : Bytes} (h : u ++ x = v ++ y) : u = v ∧ x = y := by
  obtain ⟨i, l, rfl, hi, hl⟩ := hu
  obtain ⟨j, m, rfl, hj, hm⟩ := hv
  induction i generalizing j with
  | nil =>
    cases j with
    | nil => simpa using h
    | cons b j =>
      simp only [List.nil_append, List.cons_append, List.cons.injEq] at h
      exact absurd (h.1 ▸ hj b (by simp)) hl
  | cons a i ih =>
    cases j with
    | nil =>
      simp only [List.nil_append, List.cons_append, List.cons.injEq] at h
      exact absurd (h.1 ▸ hi a (by simp)) hm
    | cons b j =>
      simp only [List.cons_append, List.cons.injEq] at h
      obtain ⟨h1, h2⟩ := ih (fun c hc => hi c (by simp [hc])) j h.2 (fun c hc => hj c (by simp [hc]))
      exact ⟨by rw [List.cons_append, List.cons_append, h.1, h1], h2⟩

theorem check_ok_iff (hash : Bytes → Bytes) (hlen : ∀ x, (hash x).length = 32) (secret : Bytes) (age : Rat) (cookie : Bytes) (addr : Option Sockaddr) :
    check hash secret age cookie addr = .ok ↔
      ∃ v secs, Spec.IsVLU v ∧ secs = min (Spec.base128 v) (2 ^ 64 - 1) ∧ secs ≤ seconds age ∧ seconds age ≤ secs + 95 ∧
        cookie = v ++ hash (secret ++ v) ++ hash (secret ++ v ++ encodedAddr addr) := by
  constructor
  · intro h
    rw [check] at h
    split at h
    · cases h
    · rename_i secs rv hp
      obtain ⟨h1, h2, h3, h4⟩ := C02_vlu_parse_value _ _ _ _ hp
      split at h
      · cases h
      · rename_i hl
        dsimp only at h
        split at h
        · cases h
        · rename_i ht
          split at h
          · cases h
          · rename_i he1
            split at h
            · cases h
            · rename_i he2
              refine ⟨cookie.take rv, secs, h3, by simpa using h4, by omega, by simp only [maxLifetime] at ht; omega, ?_⟩
              have he1 := Classical.not_not.mp he1
              have he2 := Classical.not_not.mp he2
              rw [← he1, ← he2, List.append_assoc]
              conv_lhs => rw [← List.take_append_drop rv cookie]
              congr 1
              conv_lhs => rw [← List.take_append_drop 32 (cookie.drop rv)]
              congr 1
              rw [List.drop_drop]
              exact (List.take_of_length_le (by rw [List.length_drop]; omega)).symm
  · rintro ⟨v, secs, hv, hs, h1, h2, hc⟩
    have hp : VLU.parse cookie = some (secs, v.length) := by
      have hn : VLU.parse cookie ≠ none := by
        intro h
        have := (C02_vlu_parse_fails_iff _ _).mp h
        obtain ⟨i, l, rfl, _, hl⟩ := hv
        exact hl (this l (by rw [hc]; simp))
      cases hq : VLU.parse cookie with
      | none => exact absurd hq hn
      | some r =>
        obtain ⟨s2, n⟩ := r
        obtain ⟨g1, g2, g3, g4⟩ := C02_vlu_parse_value _ _ _ _ hq
        have := vlu_prefix g3 hv (x := cookie.drop n) (y := hash (secret ++ v) ++ hash (secret ++ v ++ encodedAddr addr))
          (by rw [List.take_append_drop, hc, List.append_assoc])
        have hl := congrArg List.length this.1
        rw [List.length_take] at hl
        have hn : n = v.length := by omega
        rw [this.1] at g4
        simp only [if_true] at g4
        rw [g4, hs, hn]
    have e1 : cookie.take v.length = v := by rw [hc, List.append_assoc, List.take_left]
    have e2 : (cookie.drop v.length).take 32 = hash (secret ++ v) := by
      rw [hc, List.append_assoc, List.drop_left]
      exact List.take_left' (hlen _)
    have e3 : (cookie.drop (v.length + 32)).take 32 = hash (secret ++ v ++ encodedAddr addr) := by
      rw [← List.drop_drop, hc, List.append_assoc, List.drop_left, List.drop_left' (hlen _)]
      exact List.take_of_length_le (by rw [hlen])
    rw [check, hp]
    dsimp only
    rw [if_neg (by rw [hc]; simp [hlen])]
    rw [if_neg (by simp only [maxLifetime]; omega), e1, e2, if_neg (fun h => h rfl), e3, if_neg (fun h => h rfl)]

theorem make_eq (hash : Bytes → Bytes) (secret : Bytes) (age : Rat) (addr : Option Sockaddr) :
    make hash secret age addr = VLU.encode (seconds age) ++ hash (secret ++ VLU.encode (seconds age)) ++
      hash (secret ++ VLU.encode (seconds age) ++ encodedAddr addr) := by
  simp [make, VLU.append]

theorem seconds_mono {a b : Rat} (h : a ≤ b) : seconds a ≤ seconds b := by
  have := Int.floor_le_floor h
  simp only [seconds]; omega

theorem seconds_add {a b : Rat} (h0 : 0 ≤ a) (h : b ≤ a + 95) : seconds b ≤ seconds a + 95 := by
  have h1 : ⌊b⌋ ≤ ⌊a + 95⌋ := Int.floor_le_floor h
  have h2 : ⌊a + (95 : Rat)⌋ = ⌊a⌋ + 95 := by
    have := Int.floor_add_intCast a 95
    simpa using this
  have h3 : 0 ≤ ⌊a⌋ := Int.floor_nonneg.mpr h0
  simp only [seconds]; omega

theorem seconds_late {a b : Rat} (h0 : 0 ≤ a) (h : a + 96 ≤ b) : seconds a + 96 ≤ seconds b := by
  have h1 : ⌊a + 96⌋ ≤ ⌊b⌋ := Int.floor_le_floor h
  have h2 : ⌊a + (96 : Rat)⌋ = ⌊a⌋ + 96 := by
    have := Int.floor_add_intCast a 96
    simpa using this
  have h3 : 0 ≤ ⌊a⌋ := Int.floor_nonneg.mpr h0
  simp only [seconds]; omega

theorem encode_base128 (s : Nat) : Spec.IsVLU (VLU.encode s) ∧ Spec.base128 (VLU.encode s) = s := C01_vlu_encode_wellformed s

/-- The strings the instance hashes in order to issue the cookies: for each time and address of issue the two of them. -/
def hashed (secret : Bytes) (issued : List (Rat × Sockaddr)) : List Bytes :=
  issued.flatMap fun p => [secret ++ VLU.encode (seconds p.1), secret ++ VLU.encode (seconds p.1) ++ encodedAddr (some p.2)]

end Cookie

open Cookie Address

/-- A hash to make examples with (not a good one): the string's length, sum and so on, 32 bytes. -/
def demoHash (x : Bytes) : Bytes := UInt8.ofNat x.length :: x.foldl (· + ·) 0 :: List.replicate 30 7

def demoAddr : Sockaddr := { family := 2, ip := [192, 0, 2, 7], port := 1935 }

/-- A cookie issued to an address is accepted from the address at any time in the 95 seconds after, whatever the hash function, the secret
and the age of the instance (in the first 2^63 seconds). -/
theorem C29_accepted (hash : Bytes → Bytes) (hlen : ∀ x, (hash x).length = 32) (secret : Bytes) (issue now : Rat) (addr : Sockaddr)
    (h0 : 0 ≤ issue) (h63 : issue < 2 ^ 63) (h1 : issue ≤ now) (h2 : now ≤ issue + 95) :
    check hash secret now (make hash secret issue (some addr)) (some addr) = .ok := by
  rw [check_ok_iff hash hlen]
  obtain ⟨hv, hb⟩ := encode_base128 (seconds issue)
  refine ⟨VLU.encode (seconds issue), seconds issue, hv, ?_, seconds_mono h1, seconds_add h0 h2, make_eq ..⟩
  rw [hb, Nat.min_eq_left]
  have : ⌊issue⌋ < 2 ^ 63 := by
    rw [Int.floor_lt]
    exact_mod_cast h63
  simp only [seconds]; omega

example : (∀ x, (demoHash x).length = 32) ∧ (0 : Rat) ≤ 1000.5 ∧ (1000.5 : Rat) < 2 ^ 63 ∧ (1000.5 : Rat) ≤ 1090 ∧ (1090 : Rat) ≤ 1000.5 + 95 := by
  refine ⟨fun x => rfl, ?_, ?_, ?_, ?_⟩ <;> norm_num

/-- The whole of what is accepted: a VLU of a time not in the future and at most 95 (whole) seconds ago, the hash of the secret and the VLU,
and the hash of the secret, the VLU and the address. -/
theorem C29_accepted_iff (hash : Bytes → Bytes) (hlen : ∀ x, (hash x).length = 32) (secret : Bytes) (now : Rat) (cookie : Bytes) (addr : Option Sockaddr) :
    check hash secret now cookie addr = .ok ↔
      ∃ v secs, Spec.IsVLU v ∧ secs = min (Spec.base128 v) (2 ^ 64 - 1) ∧ secs ≤ ⌊now⌋.toNat ∧ ⌊now⌋.toNat ≤ secs + 95 ∧
        cookie = v ++ hash (secret ++ v) ++ hash (secret ++ v ++ encodedAddr addr) :=
  check_ok_iff hash hlen secret now cookie addr

example : check demoHash [1, 2, 3] 1090 (make demoHash [1, 2, 3] 1000 (some demoAddr)) (some demoAddr) = .ok :=
  C29_accepted demoHash (fun _ => rfl) _ _ _ _ (by norm_num) (by norm_num) (by norm_num) (by norm_num)

/-- A cookie is not accepted 96 seconds or more after it was issued, nor before it was issued if that is a second or more, by anyone. -/
theorem C29_expires (hash : Bytes → Bytes) (hlen : ∀ x, (hash x).length = 32) (secret : Bytes) (issue now : Rat) (addr : Sockaddr) (from_ : Option Sockaddr)
    (h0 : 0 ≤ issue) (h63 : issue < 2 ^ 63) (hnow : 0 ≤ now) (h : issue + 96 ≤ now ∨ now + 1 ≤ issue) :
    check hash secret now (make hash secret issue (some addr)) from_ = .bad := by
  obtain ⟨hv, hb⟩ := encode_base128 (seconds issue)
  have hlt : seconds issue < 2 ^ 64 := by
    have : ⌊issue⌋ < 2 ^ 63 := by
      rw [Int.floor_lt]
      exact_mod_cast h63
    simp only [seconds]; omega
  have hp : VLU.parse (make hash secret issue (some addr)) = some (seconds issue, (VLU.encode (seconds issue)).length) := by
    rw [make_eq, List.append_assoc]
    exact C01_vlu_round_trip _ hlt _ _
  rw [check, hp]
  dsimp only
  rw [if_neg (by rw [make_eq]; simp [hlen]), if_pos]
  simp only [maxLifetime]
  rcases h with h | h
  · have := seconds_late h0 h; omega
  · left
    have h1 : ⌊now + 1⌋ ≤ ⌊issue⌋ := Int.floor_le_floor h
    have h2 : ⌊now + (1 : Rat)⌋ = ⌊now⌋ + 1 := by
      have := Int.floor_add_intCast now 1
      simpa using this
    have h3 : 0 ≤ ⌊issue⌋ := Int.floor_nonneg.mpr h0
    simp only [seconds] at *
    have : 0 ≤ ⌊now⌋ := Int.floor_nonneg.mpr hnow
    omega

example : (0 : Rat) ≤ 1000.5 ∧ (1000.5 : Rat) < 2 ^ 63 ∧ (0 : Rat) ≤ 1100 ∧ (1000.5 : Rat) + 96 ≤ 1100 := by norm_num

/-- A cookie issued to one address and presented from another is not accepted, unless the hash function has the same value for two particular different
strings: the secret, the time of issue and the one or the other address. -/
theorem C29_other_address (hash : Bytes → Bytes) (hlen : ∀ x, (hash x).length = 32) (secret : Bytes) (issue now : Rat) (a b : Sockaddr)
    (ha : IsAddr a) (hb : IsAddr b) (hne : a ≠ b) :
    check hash secret now (make hash secret issue (some a)) (some b) ≠ .ok ∨
      (encodedAddr (some a) ≠ encodedAddr (some b) ∧
        hash (secret ++ VLU.encode (seconds issue) ++ encodedAddr (some a)) = hash (secret ++ VLU.encode (seconds issue) ++ encodedAddr (some b))) := by
  by_cases h : check hash secret now (make hash secret issue (some a)) (some b) = .ok
  · right
    obtain ⟨v, secs, hv, _, _, _, hc⟩ := (check_ok_iff hash hlen ..).mp h
    simp only [make_eq, List.append_assoc] at hc
    obtain ⟨h1, h2⟩ := vlu_prefix (encode_base128 (seconds issue)).1 hv hc
    have h3 := (List.append_inj h2 (by rw [hlen, hlen])).2
    rw [← h1] at h3
    refine ⟨fun he => hne (encodedAddr_inj ha hb he), ?_⟩
    rw [List.append_assoc, List.append_assoc]
    exact h3
  · exact .inl h

example : IsAddr demoAddr ∧ IsAddr { demoAddr with port := 1936 } ∧ demoAddr ≠ { demoAddr with port := 1936 } := by
  refine ⟨⟨⟨by decide, fun _ => rfl, fun h => by cases h⟩, .inl rfl⟩, ⟨⟨by decide, fun _ => rfl, fun h => by cases h⟩, .inl rfl⟩, ?_⟩
  intro h
  injection h with h1 h2 h3
  cases h3

/-- A cookie that the sender presents in time from another address than it was issued to is answered as such, so that it gets a new one (or the hash
function has a collision). -/
theorem C29_moved (hash : Bytes → Bytes) (hlen : ∀ x, (hash x).length = 32) (secret : Bytes) (issue now : Rat) (a b : Sockaddr)
    (ha : IsAddr a) (hb : IsAddr b) (hne : a ≠ b) (h0 : 0 ≤ issue) (h63 : issue < 2 ^ 63) (h1 : issue ≤ now) (h2 : now ≤ issue + 95) :
    check hash secret now (make hash secret issue (some a)) (some b) = .mismatch ∨
      (encodedAddr (some a) ≠ encodedAddr (some b) ∧
        hash (secret ++ VLU.encode (seconds issue) ++ encodedAddr (some a)) = hash (secret ++ VLU.encode (seconds issue) ++ encodedAddr (some b))) := by
  rcases C29_other_address hash hlen secret issue now a b ha hb hne with h | h
  · left
    have hlt : seconds issue < 2 ^ 64 := by
      have : ⌊issue⌋ < 2 ^ 63 := by
        rw [Int.floor_lt]
        exact_mod_cast h63
      simp only [seconds]; omega
    have hp : VLU.parse (make hash secret issue (some a)) = some (seconds issue, (VLU.encode (seconds issue)).length) := by
      rw [make_eq, List.append_assoc]
      exact C01_vlu_round_trip _ hlt _ _
    have hm := seconds_mono h1
    have hs := seconds_add h0 h2
    rw [check, hp] at h ⊢
    dsimp only at h ⊢
    rw [if_neg (by rw [make_eq]; simp [hlen])] at h ⊢
    rw [if_neg (by simp only [maxLifetime]; omega)] at h ⊢
    have e1 : (make hash secret issue (some a)).take (VLU.encode (seconds issue)).length = VLU.encode (seconds issue) := by
      rw [make_eq]; simp
    have e2 : ((make hash secret issue (some a)).drop (VLU.encode (seconds issue)).length).take 32 = hash (secret ++ VLU.encode (seconds issue)) := by
      rw [make_eq, List.append_assoc, List.drop_left, ← hlen (secret ++ VLU.encode (seconds issue)), List.take_left]
    rw [e1, e2, if_neg (fun h => h rfl)] at h ⊢
    split
    · rfl
    · rename_i hh
      rw [if_neg hh] at h
      exact absurd rfl h
  · exact .inr h

example : check demoHash [1, 2, 3] 1090 (make demoHash [1, 2, 3] 1000 (some demoAddr)) (some demoAddr) = .ok :=
  C29_accepted demoHash (fun _ => rfl) _ _ _ _ (by norm_num) (by norm_num) (by norm_num) (by norm_num)

/-- Whatever is accepted from an address is a cookie that was issued to that very address, or else it ends with the hash of the secret, the time at
its beginning and the address, and that string was never hashed for issuing a cookie: one can't make it from the cookies issued, however altered or combined,
without finding the value of the hash for a new string that contains the secret. -/
theorem C29_unforgeable (hash : Bytes → Bytes) (hlen : ∀ x, (hash x).length = 32) (secret : Bytes) (issued : List (Rat × Sockaddr))
    (hok : ∀ p ∈ issued, IsAddr p.2) (now : Rat) (cookie : Bytes) (b : Sockaddr) (hb : IsAddr b)
    (h : check hash secret now cookie (some b) = .ok) :
    (∃ p ∈ issued, p.2 = b ∧ cookie = make hash secret p.1 (some b)) ∨
    (∃ v, Spec.IsVLU v ∧ v <+: cookie ∧ secret ++ v ++ encodedAddr (some b) ∉ hashed secret issued ∧
      cookie.drop (cookie.length - 32) = hash (secret ++ v ++ encodedAddr (some b))) := by
  obtain ⟨v, secs, hv, _, _, _, hc⟩ := (check_ok_iff hash hlen ..).mp h
  by_cases hm : secret ++ (v ++ encodedAddr (some b)) ∈ hashed secret issued
  · left
    rw [hashed, List.mem_flatMap] at hm
    obtain ⟨p, hp, hm⟩ := hm
    have hvp := (encode_base128 (seconds p.1)).1
    simp only [List.mem_cons, List.not_mem_nil, or_false] at hm
    rcases hm with hm | hm
    · have := vlu_prefix hv hvp (x := encodedAddr (some b)) (y := []) (by rw [List.append_nil]; exact List.append_cancel_left hm)
      exact absurd this.2 (encodedAddr_ne hb)
    · rw [List.append_assoc] at hm
      obtain ⟨h1, h2⟩ := vlu_prefix hv hvp (List.append_cancel_left hm)
      have he := encodedAddr_inj hb (hok p hp) h2
      refine ⟨p, hp, he.symm, ?_⟩
      rw [make_eq, ← h1]; exact hc
  · right
    refine ⟨v, hv, ⟨_, by rw [hc, List.append_assoc]⟩, by rw [List.append_assoc]; exact hm, ?_⟩
    rw [hc]
    exact List.drop_left' (by simp [hlen])

example : (∀ p ∈ [((1000 : Rat), demoAddr)], IsAddr p.2) ∧ IsAddr demoAddr ∧
    check demoHash [1, 2, 3] 1090 (make demoHash [1, 2, 3] 1000 (some demoAddr)) (some demoAddr) = .ok := by
  have h : IsAddr demoAddr := ⟨⟨by decide, fun _ => rfl, fun h => by cases h⟩, .inl rfl⟩
  exact ⟨fun p hp => by rw [List.mem_singleton.mp hp]; exact h, h,
    C29_accepted demoHash (fun _ => rfl) _ _ _ _ (by norm_num) (by norm_num) (by norm_num) (by norm_num)⟩

/-- The answer "mismatch" (to which the responder sends a new cookie, and that only) is given only for a cookie with a valid hash of its own
time, not older than the lifetime. -/
theorem C29_mismatch (hash : Bytes → Bytes) (secret : Bytes) (now : Rat) (cookie : Bytes) (addr : Option Sockaddr)
    (h : check hash secret now cookie addr = .mismatch) :
    ∃ v secs t, Spec.IsVLU v ∧ secs = min (Spec.base128 v) (2 ^ 64 - 1) ∧ secs ≤ ⌊now⌋.toNat ∧ ⌊now⌋.toNat ≤ secs + 95 ∧
      t.length = 32 ∧ cookie = v ++ hash (secret ++ v) ++ t ∧ t ≠ hash (secret ++ v ++ encodedAddr addr) := by
  rw [check] at h
  split at h
  · cases h
  · rename_i secs rv hp
    obtain ⟨h1, h2, h3, h4⟩ := C02_vlu_parse_value _ _ _ _ hp
    split at h
    · cases h
    · rename_i hl
      dsimp only at h
      split at h
      · cases h
      · rename_i ht
        split at h
        · cases h
        · rename_i he1
          split at h
          · rename_i he2
            have ht32 : (cookie.drop (rv + 32)).take 32 = cookie.drop (rv + 32) := List.take_of_length_le (by rw [List.length_drop]; omega)
            rw [ht32] at he2
            refine ⟨cookie.take rv, secs, cookie.drop (rv + 32), h3, by simpa using h4, ?_, ?_, by rw [List.length_drop]; omega, ?_, he2⟩
            · have : seconds now = ⌊now⌋.toNat := rfl
              omega
            · have : seconds now = ⌊now⌋.toNat := rfl
              simp only [maxLifetime] at ht; omega
            · have he1 := Classical.not_not.mp he1
              rw [← he1, List.append_assoc]
              conv_lhs => rw [← List.take_append_drop rv cookie]
              congr 1
              conv_lhs => rw [← List.take_append_drop 32 (cookie.drop rv)]
              rw [List.drop_drop]
          · cases h

example : check demoHash [1, 2, 3] 5 (make demoHash [1, 2, 3] 5 (some demoAddr)) (some { demoAddr with port := 1936 }) = .mismatch := by
  have hs : seconds 5 = 5 := by
    have : ⌊(5 : Rat)⌋ = 5 := by exact_mod_cast Int.floor_intCast (R := Rat) 5
    simp only [seconds, this]; rfl
  rw [check, make]
  simp only [hs]
  decide +kernel

end Rtmfp
