import Verif.Lemmas.FlashOptions

/-! # What the two sides of a keying exchange compute -/

namespace Rtmfp
namespace Flash

/-- what is asked of the primitives -/
structure Prims.Ok (P : Prims) : Prop where
  hmacLen : ∀ k m, (P.hmac k m).length = 32
  shaLen : ∀ m, (P.sha m).length = 32
  aesLen : ∀ k m, (P.aesEnc k m).length = m.length
  aesInv : ∀ k m, m.length % 16 = 0 → P.aesDec k (P.aesEnc k m) = m
  dh : ∀ g a b, ∃ s, P.dhSecret g a (P.dhPublic g b) = some s ∧ P.dhSecret g b (P.dhPublic g a) = some s
  pubLen : ∀ g a, (P.dhPublic g a).length + 30 < 2 ^ 64

/-- a user's configuration of an adapter, and the random numbers it draws -/
structure Config where
  isServer : Bool
  isEphemeral : Bool
  hostname : Option Bytes
  priv : Nat → Nat
  randomness : Bytes
  hmacLength : Nat
  hmacSend : Bool
  hmacRecv : Bool
  sseqSend : Bool
  sseqRecv : Bool

def Config.Ok (c : Config) : Prop := (∀ h, c.hostname = some h → h.length + 10 < 2 ^ 64) ∧ c.randomness.length + 10 < 2 ^ 64

def Config.adapter (P : Prims) (c : Config) : Adapter :=
  Adapter.init P c.isServer c.isEphemeral c.hostname c.priv c.randomness c.hmacLength c.hmacSend c.hmacRecv c.sseqSend c.sseqRecv

/-- the options of its certificate -/
def Config.certOpts (P : Prims) (c : Config) : List (Nat × Bytes) :=
  (match c.hostname with | some h => [(0x00, h)] | none => []) ++ (if c.isServer then [(0x0a, [])] else []) ++
    (if c.isEphemeral then [(0x15, VLU.encode 2 ++ []), (0x0e, c.randomness)] else [(0x1d, VLU.encode 2 ++ P.dhPublic 2 (c.priv 2))])

theorem encode2 : VLU.encode 2 = [2] := by decide +kernel

theorem certOpts_ok (P : Prims) (hP : P.Ok) (c : Config) (hc : c.Ok) : ∀ o ∈ c.certOpts P, OkOpt o := by
  have hpub := hP.pubLen 2 (c.priv 2)
  obtain ⟨h1, h2⟩ := hc
  intro o ho
  simp only [Config.certOpts, List.mem_append] at ho
  rcases ho with (ho | ho) | ho
  · rcases hh : c.hostname with _ | h
    · rw [hh] at ho; cases ho
    · rw [hh] at ho
      simp only [List.mem_singleton] at ho
      subst ho
      exact ⟨(by decide : 0 < 2 ^ 64), h1 h hh⟩
  · split at ho
    · simp only [List.mem_singleton] at ho; subst ho; exact ⟨by decide, by decide⟩
    · cases ho
  · split at ho
    · simp only [List.mem_cons, List.not_mem_nil, or_false] at ho
      rcases ho with rfl | rfl
      · exact ⟨by decide, by rw [encode2]; decide⟩
      · exact ⟨(by decide : 0x0e < 2 ^ 64), h2⟩
    · simp only [List.mem_singleton] at ho
      subst ho
      refine ⟨(by decide : 0x1d < 2 ^ 64), ?_⟩
      rw [encode2, List.length_append]
      simp only [List.length_cons, List.length_nil]
      omega

theorem cert_typed (P : Prims) (c : Config) : (c.adapter P).encodedCert = typed (c.certOpts P) := by
  obtain ⟨isServer, isEphemeral, hostname, priv, rnd, hl, a1, a2, a3, a4⟩ := c
  simp only [Config.adapter, Adapter.init, Config.certOpts, supportedGroups, List.foldl_cons, List.foldl_nil, Opt.appendVLU, Opt.appendType, VLU.append, List.nil_append]
  cases hostname <;> cases isServer <;> cases isEphemeral <;> simp [typed, Opt.append]

/-- what the loop of `FlashCryptoCert::init` does with one option before a marker -/
def scanOpt (c : CertScan) (o : Nat × Bytes) : CertScan :=
  let c := { c with canonicalLength := c.canonicalLength + (Opt.append o.1 o.2 []).length }
  if o.1 = 0x00 then { c with hasHostname := true }
  else if o.1 = 0x0a then { c with acceptsAncillary := true }
  else if o.1 = 0x15 then { c with isEphemeral := true }
  else if o.1 = 0x1d then { c with isStatic := true }
  else c

theorem scanOpt_marker (c : CertScan) (o : Nat × Bytes) : (scanOpt c o).markerFound = c.markerFound := by
  simp only [scanOpt]
  split
  · rfl
  · split
    · rfl
    · split
      · rfl
      · split <;> rfl

theorem scanOpt_length (c : CertScan) (o : Nat × Bytes) : (scanOpt c o).canonicalLength = c.canonicalLength + (Opt.append o.1 o.2 []).length := by
  simp only [scanOpt]
  split
  · rfl
  · split
    · rfl
    · split
      · rfl
      · split <;> rfl

theorem certLoop_typed (os : List (Nat × Bytes)) (hos : ∀ o ∈ os, OkOpt o) (fuel : Nat) (hf : os.length ≤ fuel) (c : CertScan) (hc : c.markerFound = false) :
    certLoop fuel (typed os) c = some (os.foldl scanOpt c) := by
  induction os generalizing fuel c with
  | nil => cases fuel <;> simp [certLoop, typed_nil]
  | cons o os ih =>
    cases fuel with
    | zero => cases hf
    | succ fuel =>
      rw [typed_cons, certLoop, if_neg (typed_ne o _), parse_typed o (hos o List.mem_cons_self)]
      have hs := scanOpt_marker c o
      obtain ⟨x1, x2, x3, x4, x5, x6⟩ := c
      dsimp only at hc
      subst hc
      simp only [Bool.false_eq_true, if_false, List.drop_left, List.foldl_cons]
      exact ih (fun o' ho => hos o' (List.mem_cons_of_mem _ ho)) fuel (by simpa using hf) _ hs

theorem scan_length (os : List (Nat × Bytes)) (c : CertScan) : (os.foldl scanOpt c).canonicalLength = c.canonicalLength + (typed os).length := by
  induction os generalizing c with
  | nil => simp [typed_nil]
  | cons o os ih => rw [List.foldl_cons, ih, scanOpt_length, typed_cons, List.length_append]; omega

/-- the certificate others make of what an adapter gives out -/
theorem cert_of (P : Prims) (hP : P.Ok) (c : Config) (hc : c.Ok) :
    ∃ cert, Cert.init P (c.adapter P).encodedCert = some cert ∧ cert.raw = typed (c.certOpts P) ∧ cert.fingerprint = (c.adapter P).fingerprint ∧
      cert.hasHostname = c.hostname.isSome ∧ cert.acceptsAncillary = c.isServer ∧ cert.isStatic = !c.isEphemeral := by
  have hl : (c.adapter P).fingerprint = P.sha (c.adapter P).encodedCert := rfl
  rw [Cert.init, cert_typed, certLoop_typed _ (certOpts_ok P hP c hc) _ (typed_length _) _ rfl, hl, cert_typed]
  have hlen := scan_length (c.certOpts P) ⟨false, false, false, false, false, 0⟩
  obtain ⟨isServer, isEphemeral, hostname, priv, rnd, hl, a1, a2, a3, a4⟩ := c
  cases hostname <;> cases isServer <;> cases isEphemeral <;>
    (simp only [Config.certOpts, List.nil_append, List.append_nil, List.cons_append, List.foldl_cons, List.foldl_nil, Bool.false_eq_true, if_false, if_true] at hlen ⊢
     refine ⟨_, if_pos (by simp [scanOpt]), rfl, ?_, ?_, ?_, ?_⟩
     · dsimp only
       rw [hlen, Nat.zero_add, List.take_length]
     all_goals simp [scanOpt])

theorem flags_agree (s r s' r' : Bool) : negotiateFlags (negotiationFlags s true r) s' r' = some (s' || r, r' || s) := by
  cases s <;> cases r <;> cases s' <;> cases r' <;> decide

theorem negotiate_typed (k : Key) (os : List (Nat × Bytes)) (hos : ∀ o ∈ os, OkOpt o) (s r hs hr : Bool) (len : Nat) (x y : List (Nat × Bytes))
    (h1 : firstOf os 0x1e = some ([negotiationFlags s true r], x)) (h2 : firstOf os 0x1a = some (negotiationFlags hs true hr :: VLU.encode len, y))
    (hl : 4 ≤ len) (hl' : len ≤ 32) :
    k.negotiate (typed os) = ({ k with sseqSend := k.sseqSend || r, sseqRecv := k.sseqRecv || s, hmacSend := k.hmacSend || hr, hmacRecv := k.hmacRecv || hs
                                       rxHMACLength := if (k.hmacRecv || hs) = true then len else k.rxHMACLength }, true) := by
  have e1 : (negotiationSearch (typed os) 0x1e).1 = negotiationFlags s true r := by
    rw [negotiationSearch, optionSearch_typed os hos, h1]
    simp only [Option.map_some]
    split <;> rfl
  have e2 : negotiationSearch (typed os) 0x1a = (negotiationFlags hs true hr, len) := by
    rw [negotiationSearch, optionSearch_typed os hos, h2]
    have := C01_vlu_round_trip len (by omega) [] true
    rw [List.append_nil] at this
    simp only [Option.map_some, this]
  rw [Key.negotiate, e1, flags_agree, e2]
  simp only [flags_agree]
  by_cases hq : (k.hmacRecv || hs) = true
  · rw [if_pos hq, if_neg (by omega), if_pos hq]
  · rw [if_neg hq, if_neg hq]

theorem clamp_range (n : Nat) : 4 ≤ clampHMACLength n ∧ clampHMACLength n ≤ 32 := by
  simp only [clampHMACLength]
  split <;> split <;> omega

/-- the private key a side uses -/
def Config.effective (c : Config) (drawn : Nat) : Nat := if c.isEphemeral then drawn else c.priv 2

/-- a side's key or the choice of group, and random bytes, in its keying component -/
def Config.dhOpts (P : Prims) (c : Config) (drawn : Nat) (rnd : Bytes) : List (Nat × Bytes) :=
  if c.isEphemeral then [(0x0d, VLU.encode 2 ++ P.dhPublic 2 drawn)] else [(0x1d, VLU.encode 2 ++ []), (0x0e, rnd)]

theorem public_of_static (P : Prims) (hP : P.Ok) (c : Config) (hc : c.Ok) (he : c.isEphemeral = false) :
    groupOptionSearch (typed (c.certOpts P)) 0x1d 2 = some (P.dhPublic 2 (c.priv 2)) := by
  refine groupOptionSearch_typed 0x1d 2 (fun _ => P.dhPublic 2 (c.priv 2)) _ (certOpts_ok P hP c hc) ?_ ?_ (by decide)
  · intro o ho ht
    refine ⟨2, by decide, ?_⟩
    simp only [Config.certOpts, he, Bool.false_eq_true, if_false, List.mem_append, List.mem_singleton] at ho
    rcases ho with (ho | ho) | ho
    · rcases hh : c.hostname with _ | h
      · rw [hh] at ho; cases ho
      · rw [hh] at ho
        simp only [List.mem_singleton] at ho
        rw [ho] at ht; cases ht
    · split at ho
      · simp only [List.mem_singleton] at ho; rw [ho] at ht; cases ht
      · cases ho
    · rw [ho]
  · simp [Config.certOpts, he]

theorem groups_of_ephemeral (P : Prims) (hP : P.Ok) (c : Config) (hc : c.Ok) (he : c.isEphemeral = true) :
    groupOptionSearch (typed (c.certOpts P)) 0x15 2 = some [] := by
  refine groupOptionSearch_typed 0x15 2 (fun _ => []) _ (certOpts_ok P hP c hc) ?_ ?_ (by decide)
  · intro o ho ht
    refine ⟨2, by decide, ?_⟩
    simp only [Config.certOpts, he, if_true, List.mem_append, List.mem_cons, List.not_mem_nil, or_false] at ho
    rcases ho with (ho | ho) | ho | ho
    · rcases hh : c.hostname with _ | h
      · rw [hh] at ho; cases ho
      · rw [hh] at ho
        simp only [List.mem_singleton] at ho
        rw [ho] at ht; cases ht
    · split at ho
      · simp only [List.mem_singleton] at ho; rw [ho] at ht; cases ht
      · cases ho
    · rw [ho]
    · rw [ho] at ht; cases ht
  · simp [Config.certOpts, he]

/-- the initiator's keying component -/
def initiatorOpts (P : Prims) (a : Config) (drawn : Nat) (rnd : Bytes) : List (Nat × Bytes) :=
  a.dhOpts P drawn rnd ++ [(0x1a, negotiationFlags a.hmacSend true a.hmacRecv :: VLU.encode (clampHMACLength a.hmacLength)),
    (0x1e, [negotiationFlags a.sseqSend true a.sseqRecv])]

/-- the initiator's key after it has made its component -/
def initiatorKey (P : Prims) (a b : Config) (drawn : Nat) (rnd : Bytes) (s : Bytes) : Key :=
  { Key.init (a.adapter P) with
    group := some 2, dh := if a.isEphemeral && b.isEphemeral then some drawn else none, publicKeyNeeded := b.isEphemeral
    secret := if b.isEphemeral then [] else s, sknc := typed (initiatorOpts P a drawn rnd) }

theorem best_group (P : Prims) (hP : P.Ok) (a b : Config) (hb : b.Ok) (far : Cert) (hfar : Cert.init P (b.adapter P).encodedCert = some far) :
    (a.adapter P).bestGroup far = some 2 := by
  obtain ⟨cert, h1, h2, _, _, _, h3⟩ := cert_of P hP b hb
  rw [hfar] at h1; cases h1
  have : far.supportsGroup 2 = true := by
    rw [Cert.supportsGroup, h2, h3]
    cases he : b.isEphemeral
    · rw [Bool.not_false, if_pos rfl, public_of_static P hP b hb he]; rfl
    · rw [Bool.not_true, if_neg Bool.false_ne_true, groups_of_ephemeral P hP b hb he]; rfl
  simp [Adapter.bestGroup, Config.adapter, Adapter.init, supportedGroups, this]

theorem initiator_eq (P : Prims) (hP : P.Ok) (a b : Config) (hb : b.Ok) (far : Cert) (hfar : Cert.init P (b.adapter P).encodedCert = some far)
    (drawn : Nat) (rnd : Bytes) :
    ∃ s, P.dhSecret 2 (a.effective drawn) (P.dhPublic 2 (b.priv 2)) = some s ∧
      Key.initiator P (a.adapter P) (Key.init (a.adapter P)) far drawn rnd = (initiatorKey P a b drawn rnd s, some (typed (initiatorOpts P a drawn rnd))) := by
  obtain ⟨s, hs, _⟩ := hP.dh 2 (a.effective drawn) (b.priv 2)
  refine ⟨s, hs, ?_⟩
  obtain ⟨cert, h1, h2, _, _, _, h3⟩ := cert_of P hP b hb
  rw [Key.initiator, best_group P hP a b hb far hfar]
  rw [hfar] at h1; cases h1
  have hpk : b.isEphemeral = false → far.publicKey 2 = some (P.dhPublic 2 (b.priv 2)) := by
    intro he
    rw [Cert.publicKey, h3, he, Bool.not_false, if_pos rfl, h2, public_of_static P hP b hb he]
  cases hea : a.isEphemeral <;> cases heb : b.isEphemeral <;>
    simp [Config.adapter, Adapter.init, Adapter.isStatic, supportedGroups, hea, heb, h3, Key.init, Key.hmacOffer, Key.sseqOffer, initiatorKey, initiatorOpts,
      Config.dhOpts, hpk, Config.effective, typed, Opt.append, Opt.appendVLU, VLU.append, Adapter.computeSecret] at hs ⊢
  all_goals rw [hs]
  all_goals simp

/-- the responder's keying component: its requirements follow the initiator's -/
def responderOpts (P : Prims) (a b : Config) (drawn : Nat) (rnd : Bytes) : List (Nat × Bytes) :=
  [(0x1e, [negotiationFlags (b.sseqSend || a.sseqRecv) true (b.sseqRecv || a.sseqSend)]),
    (0x1a, negotiationFlags (b.hmacSend || a.hmacRecv) true (b.hmacRecv || a.hmacSend) :: VLU.encode (clampHMACLength b.hmacLength))] ++
    (if b.isEphemeral then [(0x0d, VLU.encode 2 ++ P.dhPublic 2 drawn)] else [(0x0e, rnd)])

theorem offer_ok (t : Nat) (ht : t < 2 ^ 64) (f : UInt8) (n : Nat) : OkOpt (t, f :: VLU.encode (clampHMACLength n)) := by
  refine ⟨ht, ?_⟩
  have := (C01_vlu_encode_size (clampHMACLength n) (by have := clamp_range n; omega)).2
  simp only [List.length_cons]; omega

theorem key_ok (P : Prims) (hP : P.Ok) (t : Nat) (ht : t < 2 ^ 64) (p : Nat) : OkOpt (t, VLU.encode 2 ++ P.dhPublic 2 p) := by
  have := hP.pubLen 2 p
  refine ⟨ht, ?_⟩
  rw [encode2]
  simp only [List.length_append, List.length_cons, List.length_nil]; omega

theorem initiatorOpts_ok (P : Prims) (hP : P.Ok) (a : Config) (drawn : Nat) (rnd : Bytes) (hr : rnd.length + 10 < 2 ^ 64) : ∀ o ∈ initiatorOpts P a drawn rnd, OkOpt o := by
  intro o ho
  simp only [initiatorOpts, Config.dhOpts, List.mem_append, List.mem_cons, List.not_mem_nil, or_false] at ho
  rcases ho with ho | rfl | rfl
  · split at ho
    · simp only [List.mem_singleton] at ho; subst ho; exact key_ok P hP _ (by decide) _
    · simp only [List.mem_cons, List.not_mem_nil, or_false] at ho
      rcases ho with rfl | rfl
      · exact ⟨by decide, by rw [encode2]; decide⟩
      · exact ⟨(by decide : 14 < 2 ^ 64), hr⟩
  · exact offer_ok _ (by decide) _ _
  · exact ⟨(by decide : 30 < 2 ^ 64), (by decide : 1 + 10 < 2 ^ 64)⟩

theorem responderOpts_ok (P : Prims) (hP : P.Ok) (a b : Config) (drawn : Nat) (rnd : Bytes) (hr : rnd.length + 10 < 2 ^ 64) : ∀ o ∈ responderOpts P a b drawn rnd, OkOpt o := by
  intro o ho
  simp only [responderOpts, List.mem_append, List.mem_cons, List.not_mem_nil, or_false] at ho
  rcases ho with (rfl | rfl) | ho
  · exact ⟨(by decide : 30 < 2 ^ 64), (by decide : 1 + 10 < 2 ^ 64)⟩
  · exact offer_ok _ (by decide) _ _
  · split at ho
    · simp only [List.mem_singleton] at ho; subst ho; exact key_ok P hP _ (by decide) _
    · simp only [List.mem_singleton] at ho; subst ho; exact ⟨(by decide : 14 < 2 ^ 64), hr⟩

/-- the key a side ends up with: what it sends and requires, its component and the other's -/
def finalKey (P : Prims) (base : Key) (s : Bytes) (near far : Bytes) : Key :=
  { ({ base with secret := s }).computeKeys P near far with secret := [], dh := none, complete := true }

/-- the responder's key after negotiation -/
def responderBase (P : Prims) (a b : Config) : Key :=
  { Key.init (b.adapter P) with
    sseqSend := b.sseqSend || a.sseqRecv, sseqRecv := b.sseqRecv || a.sseqSend, hmacSend := b.hmacSend || a.hmacRecv, hmacRecv := b.hmacRecv || a.hmacSend
    rxHMACLength := if (b.hmacRecv || a.hmacSend) = true then clampHMACLength a.hmacLength else 0, group := some 2 }

theorem responder_eq (P : Prims) (hP : P.Ok) (a b : Config) (ha : a.Ok) (far : Cert) (hfar : Cert.init P (a.adapter P).encodedCert = some far)
    (drawnA : Nat) (rndA : Bytes) (hrA : rndA.length + 10 < 2 ^ 64) (drawn : Nat) (rnd : Bytes) (s : Bytes)
    (hs : P.dhSecret 2 (b.effective drawn) (P.dhPublic 2 (a.effective drawnA)) = some s) :
    Key.responder P (b.adapter P) (Key.init (b.adapter P)) far (typed (initiatorOpts P a drawnA rndA)) drawn rnd =
      some (finalKey P (responderBase P a b) s (typed (responderOpts P a b drawn rnd)) (typed (initiatorOpts P a drawnA rndA)),
        typed (responderOpts P a b drawn rnd)) := by
  obtain ⟨cert, h1, h2, _, _, _, h3⟩ := cert_of P hP a ha
  rw [hfar] at h1; cases h1
  have hok := initiatorOpts_ok P hP a drawnA rndA hrA
  have hpk : a.isEphemeral = false → far.publicKey 2 = some (P.dhPublic 2 (a.priv 2)) := by
    intro he
    rw [Cert.publicKey, h3, he, Bool.not_false, if_pos rfl, h2, public_of_static P hP a ha he]
  have hf1 : firstOf (initiatorOpts P a drawnA rndA) 0x1e = some ([negotiationFlags a.sseqSend true a.sseqRecv], []) := by
    cases he : a.isEphemeral <;> simp [initiatorOpts, Config.dhOpts, he, firstOf]
  have hf2 : firstOf (initiatorOpts P a drawnA rndA) 0x1a = some (negotiationFlags a.hmacSend true a.hmacRecv :: VLU.encode (clampHMACLength a.hmacLength),
      [(0x1e, [negotiationFlags a.sseqSend true a.sseqRecv])]) := by
    cases he : a.isEphemeral <;> simp [initiatorOpts, Config.dhOpts, he, firstOf]
  have hsearch : (a.isEphemeral = false → ∃ r, searchGroupAndKey (typed (initiatorOpts P a drawnA rndA)) 0x1d = some (2, [], r)) ∧
      (a.isEphemeral = true → ∃ r, searchGroupAndKey (typed (initiatorOpts P a drawnA rndA)) 0x0d = some (2, P.dhPublic 2 drawnA, r)) := by
    constructor <;> intro he
    · rw [searchGroupAndKey, optionSearch_typed _ hok]
      simp only [initiatorOpts, Config.dhOpts, he, firstOf, Bool.false_eq_true, if_false, List.cons_append, if_true, Option.map_some,
        C01_vlu_round_trip 2 (by decide) [] true, List.drop_left]
      exact ⟨_, rfl⟩
    · rw [searchGroupAndKey, optionSearch_typed _ hok]
      simp only [initiatorOpts, Config.dhOpts, he, firstOf, if_true, List.cons_append, Option.map_some,
        C01_vlu_round_trip 2 (by decide) (P.dhPublic 2 drawnA) true, List.drop_left]
      exact ⟨_, rfl⟩
  have hcl := clamp_range a.hmacLength
  rw [Key.responder, negotiate_typed _ _ hok _ _ _ _ _ _ _ hf1 hf2 hcl.1 hcl.2]
  generalize hos : initiatorOpts P a drawnA rndA = os at *
  cases hea : a.isEphemeral
  · obtain ⟨r, hr⟩ := hsearch.1 hea
    cases heb : b.isEphemeral <;>
    simp [Config.adapter, Adapter.init, Adapter.isStatic, supportedGroups, hea, heb, h3, hr, hpk, Key.init, Key.hmacOffer, Key.sseqOffer,
      Config.effective, Adapter.computeSecret, Adapter.supportsGroup, finalKey, responderBase, responderOpts] at hs ⊢
    all_goals rw [hs]
    all_goals simp [typed, Opt.append, VLU.append]
  · obtain ⟨r, hr⟩ := hsearch.2 hea
    cases heb : b.isEphemeral <;>
    simp [Config.adapter, Adapter.init, Adapter.isStatic, supportedGroups, hea, heb, h3, hr, Key.init, Key.hmacOffer, Key.sseqOffer,
      Config.effective, Adapter.computeSecret, Adapter.supportsGroup, finalKey, responderBase, responderOpts] at hs ⊢
    all_goals rw [hs]
    all_goals simp [typed, Opt.append, VLU.append]

/-- the initiator's key after negotiation -/
def combinedBase (P : Prims) (a b : Config) (drawn : Nat) (rnd : Bytes) : Key :=
  { initiatorKey P a b drawn rnd [] with
    sseqSend := a.sseqSend || (b.sseqRecv || a.sseqSend), sseqRecv := a.sseqRecv || (b.sseqSend || a.sseqRecv)
    hmacSend := a.hmacSend || (b.hmacRecv || a.hmacSend), hmacRecv := a.hmacRecv || (b.hmacSend || a.hmacRecv)
    rxHMACLength := if (a.hmacRecv || (b.hmacSend || a.hmacRecv)) = true then clampHMACLength b.hmacLength else 0 }

theorem answer_key (P : Prims) (hP : P.Ok) (a b : Config) (drawn : Nat) (rnd : Bytes) (hr : rnd.length + 10 < 2 ^ 64) :
    b.isEphemeral = true → groupOptionSearch (typed (responderOpts P a b drawn rnd)) 0x0d 2 = some (P.dhPublic 2 drawn) := by
  have hok := responderOpts_ok P hP a b drawn rnd hr
  intro he
  refine groupOptionSearch_typed 0x0d 2 (fun _ => P.dhPublic 2 drawn) _ hok ?_ ?_ (by decide)
  · intro o ho ht
    refine ⟨2, by decide, ?_⟩
    simp only [responderOpts, he, if_true, List.mem_append, List.mem_cons, List.not_mem_nil, or_false] at ho
    rcases ho with (rfl | rfl) | rfl
    · cases ht
    · cases ht
    · rfl
  · simp [responderOpts, he]

theorem combine_eq (P : Prims) (hP : P.Ok) (a b : Config) (drawnA : Nat) (rndA : Bytes) (drawn : Nat) (rnd : Bytes) (hr : rnd.length + 10 < 2 ^ 64) (s0 s : Bytes)
    (h0 : b.isEphemeral = false → s0 = s)
    (hs : P.dhSecret 2 (a.effective drawnA) (P.dhPublic 2 (b.effective drawn)) = some s) :
    Key.combine P (a.adapter P) (initiatorKey P a b drawnA rndA s0) (typed (responderOpts P a b drawn rnd)) =
      (finalKey P (combinedBase P a b drawnA rndA) s (typed (initiatorOpts P a drawnA rndA)) (typed (responderOpts P a b drawn rnd)), true) := by
  have hok := responderOpts_ok P hP a b drawn rnd hr
  have hf1 : ∃ x, firstOf (responderOpts P a b drawn rnd) 0x1e = some ([negotiationFlags (b.sseqSend || a.sseqRecv) true (b.sseqRecv || a.sseqSend)], x) :=
    ⟨_, by simp [responderOpts, firstOf]; rfl⟩
  have hf2 : ∃ x, firstOf (responderOpts P a b drawn rnd) 0x1a = some (negotiationFlags (b.hmacSend || a.hmacRecv) true (b.hmacRecv || a.hmacSend) :: VLU.encode (clampHMACLength b.hmacLength), x) :=
    ⟨_, by simp [responderOpts, firstOf]; rfl⟩
  obtain ⟨x, hf1⟩ := hf1
  obtain ⟨y, hf2⟩ := hf2
  have hcl := clamp_range b.hmacLength
  have hsearch := answer_key P hP a b drawn rnd hr
  rw [Key.combine, negotiate_typed _ _ hok _ _ _ _ _ _ _ hf1 hf2 hcl.1 hcl.2]
  generalize hos : responderOpts P a b drawn rnd = os at *
  generalize hos' : initiatorOpts P a drawnA rndA = os' at *
  cases heb : b.isEphemeral
  · have h0 := h0 heb
    simp [initiatorKey, combinedBase, heb, finalKey, Key.init, Config.adapter, Adapter.init, hos', h0]
  · have hsr := hsearch heb
    cases hea : a.isEphemeral <;>
      simp [initiatorKey, combinedBase, hea, heb, finalKey, Key.init, Config.adapter, Adapter.init, hos', hsr, Config.effective, Adapter.computeSecret, supportedGroups, Key.secretWith] at hs ⊢
    all_goals rw [hs]
    all_goals simp

end Flash
end Rtmfp
