import Verif.Lemmas.FlashKeying

/-!
# C46, C47 and C64: what a keying exchange achieves

`Prims.Ok` is all that is asked of the cryptographic primitives; the rest is the code's. The exchange is between two arbitrary configurations.
-/

namespace Rtmfp
open Flash

namespace Flash

/-- A keying exchange: both sides read the other's certificate, the initiator `a` makes its component, the responder `b` makes its key and component from
it, and the initiator combines (src/Session.cpp:1318-1388, src/RTMFP.cpp:604-703 as far as keys are concerned). The answers are the initiator's
component, the responder's, and both keys. -/
def exchange (P : Prims) (a b : Config) (drawnA : Nat) (rndA : Bytes) (drawnB : Nat) (rndB : Bytes) : Option ((Bytes × Bytes) × Key × Key) :=
  match Cert.init P (b.adapter P).encodedCert, Cert.init P (a.adapter P).encodedCert with
  | some certB, some certA =>
    match Key.initiator P (a.adapter P) (Key.init (a.adapter P)) certB drawnA rndA with
    | (k, some ikc) =>
      match Key.responder P (b.adapter P) (Key.init (b.adapter P)) certA ikc drawnB rndB with
      | none => none
      | some (kR, rkc) =>
        match Key.combine P (a.adapter P) k rkc with
        | (kI, true) => some ((ikc, rkc), kI, kR)
        | (_, false) => none
    | (_, none) => none
  | _, _ => none

/-- it succeeds, and the keys are these -/
theorem exchange_eq (P : Prims) (hP : P.Ok) (a b : Config) (ha : a.Ok) (hb : b.Ok) (drawnA : Nat) (rndA : Bytes) (drawnB : Nat) (rndB : Bytes)
    (hrA : rndA.length + 10 < 2 ^ 64) (hrB : rndB.length + 10 < 2 ^ 64) :
    ∃ s, P.dhSecret 2 (a.effective drawnA) (P.dhPublic 2 (b.effective drawnB)) = some s ∧
      P.dhSecret 2 (b.effective drawnB) (P.dhPublic 2 (a.effective drawnA)) = some s ∧
      exchange P a b drawnA rndA drawnB rndB =
        some ((typed (initiatorOpts P a drawnA rndA), typed (responderOpts P a b drawnB rndB)),
          finalKey P (combinedBase P a b drawnA rndA) s (typed (initiatorOpts P a drawnA rndA)) (typed (responderOpts P a b drawnB rndB)),
          finalKey P (responderBase P a b) s (typed (responderOpts P a b drawnB rndB)) (typed (initiatorOpts P a drawnA rndA))) := by
  obtain ⟨certA, hA, -⟩ := cert_of P hP a ha
  obtain ⟨certB, hB, -⟩ := cert_of P hP b hb
  obtain ⟨s, hs, hs'⟩ := hP.dh 2 (a.effective drawnA) (b.effective drawnB)
  refine ⟨s, hs, hs', ?_⟩
  obtain ⟨s0, hs0, hi⟩ := initiator_eq P hP a b hb certB hB drawnA rndA
  have h0 : b.isEphemeral = false → s0 = s := by
    intro he
    have : b.effective drawnB = b.priv 2 := by rw [Config.effective, he]; rfl
    rw [this, hs0] at hs
    cases hs; rfl
  rw [exchange, hA, hB]
  simp only [hi, responder_eq P hP a b ha certA hA drawnA rndA hrA drawnB rndB s hs',
    combine_eq P hP a b drawnA rndA drawnB rndB hrB s0 s h0 hs]

/-- negotiating the same answer again -/
theorem negotiate_again (P : Prims) (hP : P.Ok) (a b : Config) (drawnA : Nat) (rndA : Bytes) (drawn : Nat) (rnd : Bytes) (hr : rnd.length + 10 < 2 ^ 64) (s : Bytes) :
    (finalKey P (combinedBase P a b drawnA rndA) s (typed (initiatorOpts P a drawnA rndA)) (typed (responderOpts P a b drawn rnd))).negotiate (typed (responderOpts P a b drawn rnd)) =
      (finalKey P (combinedBase P a b drawnA rndA) s (typed (initiatorOpts P a drawnA rndA)) (typed (responderOpts P a b drawn rnd)), true) := by
  have hok := responderOpts_ok P hP a b drawn rnd hr
  obtain ⟨x, hf1⟩ : ∃ x, firstOf (responderOpts P a b drawn rnd) 0x1e = some ([negotiationFlags (b.sseqSend || a.sseqRecv) true (b.sseqRecv || a.sseqSend)], x) :=
    ⟨_, by simp [responderOpts, firstOf]; rfl⟩
  obtain ⟨y, hf2⟩ : ∃ x, firstOf (responderOpts P a b drawn rnd) 0x1a = some (negotiationFlags (b.hmacSend || a.hmacRecv) true (b.hmacRecv || a.hmacSend) :: VLU.encode (clampHMACLength b.hmacLength), x) :=
    ⟨_, by simp [responderOpts, firstOf]; rfl⟩
  have hcl := clamp_range b.hmacLength
  rw [negotiate_typed _ _ hok _ _ _ _ _ _ _ hf1 hf2 hcl.1 hcl.2]
  simp only [finalKey, combinedBase, initiatorKey, Key.computeKeys, Key.init, Config.adapter, Adapter.init]
  generalize typed (responderOpts P a b drawn rnd) = Y
  generalize typed (initiatorOpts P a drawnA rndA) = X
  clear hok hf1 hf2
  obtain ⟨a1, a2, a3, a4, a5, a6, a7, a8, a9, a10⟩ := a
  obtain ⟨b1, b2, b3, b4, b5, b6, b7, b8, b9, b10⟩ := b
  dsimp only
  cases a7 <;> cases a8 <;> cases b7 <;> cases b8 <;> cases a9 <;> cases a10 <;> cases b9 <;> cases b10 <;> simp

end Flash

/-- **C46** Between any two configurations the exchange succeeds; each side requires on reception exactly what the other always sends; the lengths of
HMACs are those the sender was configured with (clamped to 4..32); and the result is what either side asked for. -/
theorem C46_negotiation (P : Prims) (hP : P.Ok) (a b : Config) (ha : a.Ok) (hb : b.Ok) (drawnA : Nat) (rndA : Bytes) (drawnB : Nat) (rndB : Bytes)
    (hrA : rndA.length + 10 < 2 ^ 64) (hrB : rndB.length + 10 < 2 ^ 64) :
    ∃ comps kI kR, exchange P a b drawnA rndA drawnB rndB = some (comps, kI, kR) ∧
      (kI.complete = true ∧ kR.complete = true) ∧
      (kR.hmacRecv = kI.hmacSend ∧ kI.hmacRecv = kR.hmacSend ∧ kR.sseqRecv = kI.sseqSend ∧ kI.sseqRecv = kR.sseqSend) ∧
      (kI.hmacSend = (a.hmacSend || b.hmacRecv) ∧ kR.hmacSend = (b.hmacSend || a.hmacRecv) ∧
        kI.sseqSend = (a.sseqSend || b.sseqRecv) ∧ kR.sseqSend = (b.sseqSend || a.sseqRecv)) ∧
      (kI.hmacSend = true → kR.rxHMACLength = kI.txHMACLength) ∧ (kR.hmacSend = true → kI.rxHMACLength = kR.txHMACLength) ∧
      kI.txHMACLength = max 4 (min 32 a.hmacLength) ∧ kR.txHMACLength = max 4 (min 32 b.hmacLength) := by
  obtain ⟨s, -, -, he⟩ := exchange_eq P hP a b ha hb drawnA rndA drawnB rndB hrA hrB
  have hcl : ∀ n, clampHMACLength n = max 4 (min 32 n) := by
    intro n; simp only [clampHMACLength]; split <;> split <;> omega
  refine ⟨_, _, _, he, ⟨rfl, rfl⟩, ?_⟩
  simp only [finalKey, combinedBase, responderBase, Key.computeKeys, initiatorKey, Key.init, Config.adapter, Adapter.init, hcl]
  cases a.hmacSend <;> cases a.hmacRecv <;> cases b.hmacSend <;> cases b.hmacRecv <;> cases a.sseqSend <;> cases a.sseqRecv <;> cases b.sseqSend <;> cases b.sseqRecv <;> simp

/-- **C47** After the exchange each side's sending keys (AES and HMAC) are the other's receiving keys, and each side's near nonce is the other's far
nonce; all of them come from the secret of the two private keys in use. -/
theorem C47_keys_agree (P : Prims) (hP : P.Ok) (a b : Config) (ha : a.Ok) (hb : b.Ok) (drawnA : Nat) (rndA : Bytes) (drawnB : Nat) (rndB : Bytes)
    (hrA : rndA.length + 10 < 2 ^ 64) (hrB : rndB.length + 10 < 2 ^ 64) :
    ∃ ikc rkc kI kR s, exchange P a b drawnA rndA drawnB rndB = some ((ikc, rkc), kI, kR) ∧
      P.dhSecret 2 (a.effective drawnA) (P.dhPublic 2 (b.effective drawnB)) = some s ∧
      (kI.txKey = kR.rxKey ∧ kI.rxKey = kR.txKey) ∧ kI.txKey = some ((P.hmac s (P.hmac rkc ikc)).take 16) ∧ kI.rxKey = some ((P.hmac s (P.hmac ikc rkc)).take 16) ∧
      (kI.nearNonce = kR.farNonce ∧ kI.farNonce = kR.nearNonce) ∧ kI.nearNonce = P.hmac s ikc ∧ kI.farNonce = P.hmac s rkc ∧
      (kI.txHMAC = kR.rxHMAC ∧ kI.rxHMAC = kR.txHMAC) ∧ (kI.hmacSend = true → kI.txHMAC = some (P.hmac s (P.hmac s (P.hmac rkc ikc)))) ∧
      (kR.hmacSend = true → kR.txHMAC = some (P.hmac s (P.hmac s (P.hmac ikc rkc)))) ∧
      (kI.secret = [] ∧ kI.dh = none ∧ kR.secret = [] ∧ kR.dh = none) := by
  obtain ⟨s, hs, -, he⟩ := exchange_eq P hP a b ha hb drawnA rndA drawnB rndB hrA hrB
  refine ⟨_, _, _, _, s, he, hs, ?_⟩
  simp only [finalKey, combinedBase, responderBase, Key.computeKeys, initiatorKey, Key.init, Config.adapter, Adapter.init]
  generalize typed (initiatorOpts P a drawnA rndA) = x
  generalize typed (responderOpts P a b drawnB rndB) = y
  clear he hs
  obtain ⟨a1, a2, a3, a4, a5, a6, a7, a8, a9, a10⟩ := a
  obtain ⟨b1, b2, b3, b4, b5, b6, b7, b8, b9, b10⟩ := b
  dsimp only
  cases a7 <;> cases a8 <;> cases b7 <;> cases b8 <;> simp

/-! ## Whatever the other side sends -/

/-- what negotiating can do to a key -/
theorem negotiate_keeps (k : Key) (component : Bytes) :
    (k.hmacRecv = true → (k.negotiate component).1.hmacRecv = true) ∧ (k.sseqRecv = true → (k.negotiate component).1.sseqRecv = true) ∧
    (k.hmacSend = true → (k.negotiate component).1.hmacSend = true) ∧ (k.sseqSend = true → (k.negotiate component).1.sseqSend = true) ∧
    ((k.negotiate component).2 = true → (k.negotiate component).1.hmacRecv = true → 4 ≤ (k.negotiate component).1.rxHMACLength ∧ (k.negotiate component).1.rxHMACLength ≤ 32) := by
  have hn : ∀ (f : UInt8) (x y : Bool) (r : Bool × Bool), negotiateFlags f x y = some r → (x = true → r.1 = true) ∧ (y = true → r.2 = true) := by
    intro f x y r h
    rw [negotiateFlags] at h
    split at h
    · cases h
    · cases h
      constructor <;> intro h' <;> simp [h']
  rw [Key.negotiate]
  rcases h1 : negotiateFlags (negotiationSearch component 30).1 k.sseqSend k.sseqRecv with _ | ⟨s1, r1⟩
  · simp
  · have g1 := hn _ _ _ _ h1
    dsimp only
    rcases h2 : negotiateFlags (negotiationSearch component 26).1 k.hmacSend k.hmacRecv with _ | ⟨s2, r2⟩
    · simpa using And.intro g1.2 g1.1
    · have g2 := hn _ _ _ _ h2
      dsimp only at g1 g2 ⊢
      by_cases hr : r2 = true
      · rw [if_pos hr]
        split
        · exact ⟨g2.2, g1.2, g2.1, g1.1, fun h => Bool.noConfusion h⟩
        · rename_i hl
          exact ⟨g2.2, g1.2, g2.1, g1.1, fun _ _ => by dsimp only; omega⟩
      · rw [if_neg hr]
        exact ⟨g2.2, g1.2, g2.1, g1.1, fun _ h => absurd h hr⟩

/-- the keys a completed key has -/
structure Flash.Key.Ready (k : Key) : Prop where
  complete : k.complete = true
  tx : k.txKey ≠ none
  rx : k.rxKey ≠ none
  txh : k.hmacSend = true → k.txHMAC ≠ none
  rxh : k.hmacRecv = true → k.rxHMAC ≠ none ∧ 4 ≤ k.rxHMACLength ∧ k.rxHMACLength ≤ 32

theorem ready_of (P : Prims) (k : Key) (near far : Bytes) (h : k.hmacRecv = true → 4 ≤ k.rxHMACLength ∧ k.rxHMACLength ≤ 32) :
    ({ k.computeKeys P near far with secret := [], dh := none, complete := true } : Key).Ready := by
  refine ⟨rfl, by simp [Key.computeKeys], by simp [Key.computeKeys], ?_, ?_⟩
  · intro h'; simp only [Key.computeKeys] at h' ⊢; rw [if_pos h']; simp
  · intro h'; simp only [Key.computeKeys] at h' ⊢; rw [if_pos h']; exact ⟨by simp, h h'⟩

/-- **C46** Whatever bytes an initiator receives as the responder's component: if it accepts them, every requirement and every promise it was configured
with is still in force, and all the keys its modes need are there. -/
theorem C46_initiator_never_drops (P : Prims) (A : Adapter) (k k' : Key) (component : Bytes) (h : Key.combine P A k component = (k', true)) :
    (k.hmacRecv = true → k'.hmacRecv = true) ∧ (k.sseqRecv = true → k'.sseqRecv = true) ∧ (k.hmacSend = true → k'.hmacSend = true) ∧
      (k.sseqSend = true → k'.sseqSend = true) ∧ k'.Ready := by
  obtain ⟨n1, n2, n3, n4, n5⟩ := negotiate_keeps k component
  rw [Key.combine] at h
  rcases hn : k.negotiate component with ⟨k1, ok⟩
  rw [hn] at h n1 n2 n3 n4 n5
  cases ok with
  | false => cases h
  | true =>
    dsimp only at h n1 n2 n3 n4 n5
    have key : ∀ s, (fun x : Key × Bool => match x with | (k, false) => (k, false) | (k, true) => ({ k.computeKeys P k.sknc component with secret := [], dh := none, complete := true }, true)) (({ k1 with secret := s } : Key), true) = (k', true) →
        (k.hmacRecv = true → k'.hmacRecv = true) ∧ (k.sseqRecv = true → k'.sseqRecv = true) ∧ (k.hmacSend = true → k'.hmacSend = true) ∧
      (k.sseqSend = true → k'.sseqSend = true) ∧ k'.Ready := by
      intro s h
      simp only [Prod.mk.injEq, and_true] at h
      subst h
      exact ⟨n1, n2, n3, n4, ready_of P _ _ _ (n5 rfl)⟩
    by_cases hp : k1.publicKeyNeeded = true
    · rw [if_pos hp] at h
      rcases hg : k1.group with _ | g
      · rw [hg] at h; cases h
      · rw [hg] at h
        dsimp only at h
        rcases hq : groupOptionSearch component 13 g with _ | pub
        · rw [hq] at h; cases h
        · rw [hq] at h
          dsimp only at h
          rcases hs : Key.secretWith P A { k1 with secret := [], group := some g } g pub with _ | s
          · simp only [hs] at h; cases h
          · simp only [hs] at h
            refine key s ?_
            simp only [hg]
            exact h
    · rw [if_neg hp] at h
      exact key k1.secret h

/-- **C46** The same for a responder and whatever the initiator sends. -/
theorem C46_responder_never_drops (P : Prims) (A : Adapter) (k k' : Key) (far : Cert) (component : Bytes) (priv : Nat) (rnd out : Bytes)
    (h : Key.responder P A k far component priv rnd = some (k', out)) :
    (k.hmacRecv = true → k'.hmacRecv = true) ∧ (k.sseqRecv = true → k'.sseqRecv = true) ∧ (k.hmacSend = true → k'.hmacSend = true) ∧
      (k.sseqSend = true → k'.sseqSend = true) ∧ k'.Ready := by
  obtain ⟨n1, n2, n3, n4, n5⟩ := negotiate_keeps k component
  rw [Key.responder] at h
  rcases hn : k.negotiate component with ⟨k1, ok⟩
  rw [hn] at h n1 n2 n3 n4 n5
  cases ok with
  | false => cases h
  | true =>
    dsimp only at h n1 n2 n3 n4 n5
    generalize (if far.isStatic = true then (match searchGroupAndKey component 29 with | none => none | some (g, _, _) => (far.publicKey g).map (fun pub => (g, pub)))
      else (searchGroupAndKey component 13).map (fun r => (r.1, r.2.1)) : Option (Nat × Bytes)) = theirs at h
    rcases theirs with _ | ⟨g, pub⟩
    · cases h
    · dsimp only at h
      by_cases hg : (!A.supportsGroup g) = true
      · rw [if_pos hg] at h; cases h
      · rw [if_neg hg] at h
        split at h
        · cases h
        · cases h
          exact ⟨n1, n2, n3, n4, ready_of P _ _ _ (n5 rfl)⟩

/-! ## An answer that comes again, and one that is rejected -/

/-- **C64 fails** with a static responder: if the answer is combined again before the session opens (it is, if it comes twice while the performer's
tasks are pending), the keys are derived anew from the secret which has been erased: from nothing but the two components. -/
theorem C64_second_answer_loses_secret (P : Prims) (hP : P.Ok) (a b : Config) (ha : a.Ok) (hb : b.Ok) (drawnA : Nat) (rndA : Bytes) (drawnB : Nat) (rndB : Bytes)
    (hrA : rndA.length + 10 < 2 ^ 64) (hrB : rndB.length + 10 < 2 ^ 64) (hst : b.isEphemeral = false) :
    ∃ ikc rkc kI kR k2, exchange P a b drawnA rndA drawnB rndB = some ((ikc, rkc), kI, kR) ∧ Key.combine P (a.adapter P) kI rkc = (k2, true) ∧
      k2.txKey = some ((P.hmac [] (P.hmac rkc ikc)).take 16) ∧ k2.rxKey = some ((P.hmac [] (P.hmac ikc rkc)).take 16) := by
  obtain ⟨s, hs, -, he⟩ := exchange_eq P hP a b ha hb drawnA rndA drawnB rndB hrA hrB
  have hc : ∀ k, k.publicKeyNeeded = false → k.negotiate (typed (responderOpts P a b drawnB rndB)) = (k, true) →
      Key.combine P (a.adapter P) k (typed (responderOpts P a b drawnB rndB)) =
        ({ k.computeKeys P k.sknc (typed (responderOpts P a b drawnB rndB)) with secret := [], dh := none, complete := true }, true) := by
    intro k hk hn
    rw [Key.combine, hn]
    simp only [hk, Bool.false_eq_true, if_false]
  exact ⟨_, _, _, _, _, he, hc _ (by simp [finalKey, combinedBase, initiatorKey, Key.computeKeys, hst]) (negotiate_again P hP a b drawnA rndA drawnB rndB hrB s), rfl, rfl⟩

/-- **C64, partial**: with an ephemeral responder the answer coming again changes nothing. -/
theorem C64_second_answer_partial (P : Prims) (hP : P.Ok) (a b : Config) (ha : a.Ok) (hb : b.Ok) (drawnA : Nat) (rndA : Bytes) (drawnB : Nat) (rndB : Bytes)
    (hrA : rndA.length + 10 < 2 ^ 64) (hrB : rndB.length + 10 < 2 ^ 64) (he : b.isEphemeral = true) :
    ∃ ikc rkc kI kR, exchange P a b drawnA rndA drawnB rndB = some ((ikc, rkc), kI, kR) ∧ Key.combine P (a.adapter P) kI rkc = (kI, !a.isEphemeral) := by
  obtain ⟨s, hs, -, hx⟩ := exchange_eq P hP a b ha hb drawnA rndA drawnB rndB hrA hrB
  refine ⟨_, _, _, _, hx, ?_⟩
  have hsr := answer_key P hP a b drawnB rndB hrB he
  rw [Key.combine, negotiate_again P hP a b drawnA rndA drawnB rndB hrB s]
  generalize hos : responderOpts P a b drawnB rndB = os at *
  cases hea : a.isEphemeral <;>
    simp [finalKey, combinedBase, initiatorKey, Key.computeKeys, Key.init, he, hea, hsr, Adapter.computeSecret, Config.adapter, Adapter.init, supportedGroups, Config.effective, Key.secretWith] at hs ⊢
  rw [hs]
  simp only []
  clear hs hsr hos hx ha hb
  cases a.hmacSend <;> cases a.hmacRecv <;> cases b.hmacSend <;> cases b.hmacRecv <;> simp

/-- **C65, partial**: an answer that is rejected drops no requirement and changes no key. -/
theorem C65_rejected_answer_partial (P : Prims) (A : Adapter) (k k' : Key) (component : Bytes) (h : Key.combine P A k component = (k', false)) :
    (k'.txKey = k.txKey ∧ k'.rxKey = k.rxKey ∧ k'.txHMAC = k.txHMAC ∧ k'.rxHMAC = k.rxHMAC ∧ k'.complete = k.complete ∧ k'.txSeq = k.txSeq ∧ k'.rxSeqs = k.rxSeqs) ∧
    (k.hmacRecv = true → k'.hmacRecv = true) ∧ (k.sseqRecv = true → k'.sseqRecv = true) ∧ (k.hmacSend = true → k'.hmacSend = true) ∧
      (k.sseqSend = true → k'.sseqSend = true) := by
  obtain ⟨n1, n2, n3, n4, -⟩ := negotiate_keeps k component
  have m : (k.negotiate component).1.txKey = k.txKey ∧ (k.negotiate component).1.rxKey = k.rxKey ∧ (k.negotiate component).1.txHMAC = k.txHMAC ∧
      (k.negotiate component).1.rxHMAC = k.rxHMAC ∧ (k.negotiate component).1.complete = k.complete ∧ (k.negotiate component).1.txSeq = k.txSeq ∧
      (k.negotiate component).1.rxSeqs = k.rxSeqs := by
    rw [Key.negotiate]
    split
    · simp
    · dsimp only
      split
      · simp
      · split
        · split <;> simp
        · simp
  rw [Key.combine] at h
  rcases hn : k.negotiate component with ⟨k1, ok⟩
  rw [hn] at h n1 n2 n3 n4 m
  cases ok with
  | false => cases h; exact ⟨m, n1, n2, n3, n4⟩
  | true =>
    dsimp only at h n1 n2 n3 n4 m
    by_cases hp : k1.publicKeyNeeded = true
    · rw [if_pos hp] at h
      rcases hg : k1.group with _ | g
      · rw [hg] at h; cases h; exact ⟨m, n1, n2, n3, n4⟩
      · rw [hg] at h
        dsimp only at h
        rcases hq : groupOptionSearch component 13 g with _ | pub
        · rw [hq] at h; cases h; exact ⟨m, n1, n2, n3, n4⟩
        · rw [hq] at h
          dsimp only at h
          rcases hs : Key.secretWith P A { k1 with secret := [], group := some g } g pub with _ | s
          · simp only [hs] at h; cases h; exact ⟨m, n1, n2, n3, n4⟩
          · simp only [hs] at h; cases h
    · rw [if_neg hp] at h; cases h

/-! ## Examples -/

namespace Flash

/-- primitives that satisfy what is asked -/
def toy : Prims where
  hmac k m := (k ++ m ++ List.replicate 32 7).take 32
  sha m := (m ++ List.replicate 32 5).take 32
  aesEnc _ m := m
  aesDec _ m := m
  dhPublic _ a := [UInt8.ofNat a]
  dhSecret _ a p := match p with | [x] => some [x + UInt8.ofNat a] | _ => none

theorem toy_ok : toy.Ok := by
  refine ⟨?_, ?_, fun _ _ => rfl, fun _ _ _ => rfl, ?_, fun _ _ => by simp [toy]⟩
  · intro k m; simp only [toy, List.length_take, List.length_append, List.length_replicate]; omega
  · intro m; simp only [toy, List.length_take, List.length_append, List.length_replicate]; omega
  · intro g a b
    refine ⟨[UInt8.ofNat b + UInt8.ofNat a], rfl, ?_⟩
    simp only [toy, UInt8.add_comm]

/-- a client that insists on HMACs, and a server that doesn't use any but wants sequence numbers -/
def client : Config := ⟨false, true, none, fun _ => 77, [1, 2, 3], 10, false, true, false, false⟩
def server (ephemeral : Bool) : Config := ⟨true, ephemeral, some [104, 105], fun _ => 5, [9], 99, false, false, false, true⟩
/-- one without any of them -/
def plain : Config := ⟨false, false, none, fun _ => 3, [4], 10, false, false, false, false⟩

theorem client_ok : client.Ok := ⟨fun h e => (by cases e), by decide⟩
theorem server_ok (e : Bool) : (server e).Ok := ⟨fun h e => (by cases e; decide), (by decide : 1 + 10 < 2 ^ 64)⟩
theorem plain_ok : plain.Ok := ⟨fun h e => (by cases e), by decide⟩

end Flash

/-- the hypotheses of C46, C47 and C64 are met: the client gets HMACs (of the 32 bytes the server's 99 was cut to), the server sequence numbers -/
example : ((exchange toy client (server false) 42 [6] 11 [8, 8]).map (fun r => [r.2.1.hmacSend, r.2.1.hmacRecv, r.2.1.sseqSend, r.2.1.sseqRecv, r.2.2.hmacSend, r.2.2.hmacRecv])) =
    some [false, true, true, false, true, false] := by decide +kernel
example : ((exchange toy client (server false) 42 [6] 11 [8, 8]).map (fun r => [r.2.1.rxHMACLength, r.2.2.txHMACLength])) = some [32, 32] := by decide +kernel

example : toy.Ok ∧ client.Ok ∧ (server false).Ok ∧ (server true).Ok ∧ plain.Ok := ⟨toy_ok, client_ok, server_ok _, server_ok _, plain_ok⟩

/-- the keys really change when the answer comes again -/
example : ((exchange toy client (server false) 42 [6] 11 [8, 8]).map (fun r => decide ((Key.combine toy (client.adapter toy) r.2.1 r.1.2).1.txKey = r.2.1.txKey))) = some false := by
  decide +kernel

namespace Flash

/-- an answer with a promise and a requirement of HMACs, of which it doesn't give the length -/
def bogus : Bytes := Opt.append 0x1a [5] []

end Flash

/-- **C65 fails**: an answer that is rejected is nevertheless obeyed. If it comes before the right one, the two sides end up disagreeing: the initiator
insists on HMACs the responder never sends. -/
theorem C65_rejected_answer_counts :
    (match Cert.init toy (plain.adapter toy).encodedCert, Cert.init toy ((server true).adapter toy).encodedCert with
    | some certA, some certB =>
      let i := Key.initiator toy (plain.adapter toy) (Key.init (plain.adapter toy)) certB 0 [1]
      match Key.responder toy ((server true).adapter toy) (Key.init ((server true).adapter toy)) certA (i.2.getD []) 12 [2] with
      | some (kR, rkc) =>
        let k1 := Key.combine toy (plain.adapter toy) i.1 bogus
        let kI := Key.combine toy (plain.adapter toy) k1.1 rkc
        some [k1.2, kI.2, kI.1.hmacRecv, kR.hmacSend]
      | none => none
    | _, _ => none) = some [false, true, true, false] := by decide +kernel

/-- **C65 fails**: if it comes after the right one (before the session opens), the next packet is encrypted with an HMAC context that doesn't exist. -/
theorem C65_rejected_answer_crashes :
    ((exchange toy plain (server true) 0 [1] 12 [2]).map (fun r =>
      let k := Key.combine toy (plain.adapter toy) r.2.1 bogus
      (k.2, (k.1.encrypt toy 8192 [0, 0, 0, 0, 0, 0, 1, 2, 3] k.1.frontMargin).2))) = some (false, .crash) := by decide +kernel

end Rtmfp
