import Verif.Props.C46_C47_Keying
import Verif.Lemmas.IndexSet

/-! # C44 and C45: replays are refused, and what one side encrypts the other decrypts -/

namespace Rtmfp
open Flash

namespace Flash

/-- the numbers counted as seen after `seq` has been accepted -/
def mark (s : IndexSet) (seq : Nat) : IndexSet :=
  if seq > maxGap then (s.add seq seq).add 0 (seq - maxGap) else s.add seq seq

theorem mark_mem (s : IndexSet) (seq : Nat) (h : seq < 2 ^ 64) (hc : IndexSet.Canon s) :
    (∀ i, IndexSet.Mem (mark s seq) i ↔ IndexSet.Mem s i ∨ i = seq ∨ i + maxGap ≤ seq ∧ maxGap < seq) ∧ IndexSet.Canon (mark s seq) := by
  obtain ⟨h1, h2⟩ := IndexSet.add_mem s seq seq h hc
  rw [mark]
  by_cases hg : seq > maxGap
  · rw [if_pos hg]
    obtain ⟨h3, h4⟩ := IndexSet.add_mem (s.add seq seq) 0 (seq - maxGap) (by omega) h2
    refine ⟨fun i => ?_, h4⟩
    rw [h3, h1]
    simp only [maxGap] at *
    by_cases hm : IndexSet.Mem s i <;> simp only [hm, true_or, false_or] <;> omega
  · rw [if_neg hg]
    refine ⟨fun i => ?_, h2⟩
    rw [h1]
    simp only [maxGap] at *
    by_cases hm : IndexSet.Mem s i <;> simp only [hm, true_or, false_or] <;> omega

/-- what decrypting does: nothing, or it answers a buffer that has a new number -/
theorem decrypt_spec (P : Prims) (k : Key) (room : Nat) (src : Bytes) :
    ((k.decrypt P room src).1 = k ∧ ∀ x, (k.decrypt P room src).2 ≠ .ok x) ∨
    (∃ dst cur seq n, (k.decrypt P room src).2 = .ok (dst, cur) ∧
      (∃ key hkey, (k.complete = true → k.rxKey = some key) ∧ (k.complete = false → key = defaultKey) ∧ (k.complete = true → k.hmacRecv = true → k.rxHMAC = some hkey ∧
        (P.hmac hkey (src.take (src.length - k.rxHMACLength))).take k.rxHMACLength = src.drop (src.length - k.rxHMACLength)) ∧
        dst = P.aesDec key (src.take (src.length - if k.complete && k.hmacRecv then k.rxHMACLength else 0))) ∧
      ((k.complete && k.sseqRecv) = true → VLU.parse dst = some (seq, n) ∧ k.rxSeqs.contains seq = false ∧ (k.decrypt P room src).1 = { k with rxSeqs := mark k.rxSeqs seq }) ∧
      ((k.complete && k.sseqRecv) = false → (k.decrypt P room src).1 = k)) := by
  generalize hr : k.decrypt P room src = r
  rw [Key.decrypt] at hr
  dsimp only at hr
  generalize hL : (if (k.complete && k.hmacRecv) = true then k.rxHMACLength else 0) = L at hr ⊢
  generalize hH : (if (k.complete && k.hmacRecv) = true then k.rxHMAC else some []) = oh at hr
  generalize hK : (if k.complete = true then k.rxKey else some defaultKey) = ok at hr
  by_cases c1 : room + L < src.length ∨ src.length < L
  · rw [if_pos c1] at hr; subst hr; exact .inl ⟨rfl, fun _ h => nomatch h⟩
  rw [if_neg c1] at hr
  by_cases c2 : (src.take (src.length - L)).length % 16 ≠ 0 ∨ (src.take (src.length - L)).length = 0
  · rw [if_pos c2] at hr; subst hr; exact .inl ⟨rfl, fun _ h => nomatch h⟩
  rw [if_neg c2] at hr
  rcases oh with _ | hkey
  · subst hr; exact .inl ⟨rfl, fun _ h => nomatch h⟩
  dsimp only at hr
  split at hr
  · subst hr; exact .inl ⟨rfl, fun _ h => nomatch h⟩
  rename_i hmac
  rcases ok with _ | key
  · subst hr; exact .inl ⟨rfl, fun _ h => nomatch h⟩
  dsimp only at hr
  generalize hN : (if (k.complete && k.sseqRecv) = true then VLU.parse (P.aesDec key (src.take (src.length - L))) else some (0, 0)) = on at hr
  rcases on with _ | ⟨seq, cursor⟩
  · subst hr; exact .inl ⟨rfl, fun _ h => nomatch h⟩
  dsimp only at hr
  split at hr
  · subst hr; exact .inl ⟨rfl, fun _ h => nomatch h⟩
  rename_i hc
  split at hr
  · subst hr; exact .inl ⟨rfl, fun _ h => nomatch h⟩
  right
  subst hr
  refine ⟨_, _, seq, cursor, rfl, ⟨key, hkey, ?_, ?_, ?_, rfl⟩, ?_, ?_⟩
  · intro h; rw [if_pos h] at hK; exact hK
  · intro h; rw [h, if_neg Bool.false_ne_true] at hK; cases hK; rfl
  · intro h h'
    rw [h, h', Bool.and_self, if_pos rfl] at hH
    rw [h, h', Bool.and_self, if_pos rfl] at hL
    subst hL
    refine ⟨hH, ?_⟩
    simpa only [h, h', Bool.and_self, true_and, ne_eq, Classical.not_not] using hmac
  · intro h
    rw [if_pos h] at hN
    refine ⟨hN, ?_, ?_⟩
    · cases hcc : k.rxSeqs.contains seq
      · rfl
      · exact absurd ⟨h, hcc⟩ hc
    · dsimp only; rw [if_pos h]; simp only [mark]
  · intro h; dsimp only; rw [h, if_neg Bool.false_ne_true]

/-- a history of received datagrams (each with the room in the buffer): what decrypting each answers -/
def receive (P : Prims) : Key → List (Nat × Bytes) → List (Res (Bytes × Nat))
  | _, [] => []
  | k, (room, d) :: ds => (k.decrypt P room d).2 :: receive P (k.decrypt P room d).1 ds

/-- the sequence number in front of an accepted packet -/
def numberOf : Res (Bytes × Nat) → Option Nat
  | .ok (b, _) => (VLU.parse b).map Prod.fst
  | _ => none

theorem parse_lt (b : Bytes) (v n : Nat) (h : VLU.parse b = some (v, n)) : v < 2 ^ 64 := by
  have := (C02_vlu_parse_value b true v n h).2.2.2
  rw [if_pos rfl] at this
  omega

theorem receive_new (P : Prims) (k : Key) (hk : (k.complete && k.sseqRecv) = true) (hc : IndexSet.Canon k.rxSeqs) (ds : List (Nat × Bytes)) :
    ((receive P k ds).filterMap numberOf).Nodup ∧ (∀ s ∈ (receive P k ds).filterMap numberOf, ¬ IndexSet.Mem k.rxSeqs s) ∧
      ∀ r ∈ receive P k ds, (∃ x, r = .ok x) → ∃ s, numberOf r = some s := by
  induction ds generalizing k with
  | nil => simp [receive]
  | cons d ds ih =>
    obtain ⟨room, d⟩ := d
    rw [receive]
    rcases decrypt_spec P k room d with ⟨h1, h2⟩ | ⟨dst, cur, seq, n, h1, -, h2, -⟩
    · have hn : numberOf (k.decrypt P room d).2 = none := by
        rcases hx : (k.decrypt P room d).2 with x | _ | _
        · exact absurd hx (h2 x)
        · rfl
        · rfl
      rw [h1]
      obtain ⟨i1, i2, i3⟩ := ih k hk hc
      rw [List.filterMap_cons_none hn]
      refine ⟨i1, i2, ?_⟩
      intro r hr
      rcases List.mem_cons.mp hr with rfl | hr
      · rintro ⟨x, hx⟩; exact absurd hx (h2 x)
      · exact i3 r hr
    · obtain ⟨h3, h4, h5⟩ := h2 hk
      have hlt := parse_lt _ _ _ h3
      obtain ⟨m1, m2⟩ := mark_mem k.rxSeqs seq hlt hc
      have hn : numberOf (k.decrypt P room d).2 = some seq := by rw [h1, numberOf, h3]; rfl
      rw [h5]
      obtain ⟨i1, i2, i3⟩ := ih { k with rxSeqs := mark k.rxSeqs seq } hk m2
      rw [List.filterMap_cons_some hn]
      have hnm : ¬ IndexSet.Mem k.rxSeqs seq := by
        rw [← IndexSet.contains_iff, h4]; exact Bool.false_ne_true
      refine ⟨List.nodup_cons.mpr ⟨fun h => i2 seq h ((m1 seq).mpr (.inr (.inl rfl))), i1⟩, ?_, ?_⟩
      · intro s hs
        rcases List.mem_cons.mp hs with rfl | hs
        · exact hnm
        · exact fun h => i2 s hs ((m1 s).mpr (.inl h))
      · intro r hr hx
        rcases List.mem_cons.mp hr with rfl | hr
        · exact ⟨seq, hn⟩
        · exact i3 r hr hx

end Flash

/-- **C44** If sequence numbers are required, then whatever datagrams arrive, every accepted packet has a sequence number and no two accepted packets
have the same. -/
theorem C44_no_number_twice (P : Prims) (k : Key) (hk : k.complete = true) (hs : k.sseqRecv = true) (h0 : k.rxSeqs = []) (ds : List (Nat × Bytes)) :
    ((receive P k ds).filterMap numberOf).Nodup ∧ ∀ r ∈ receive P k ds, (∃ x, r = .ok x) → ∃ s, numberOf r = some s := by
  have := receive_new P k (by rw [hk, hs]; rfl) (by rw [h0]; trivial) ds
  exact ⟨this.1, this.2.2⟩

/-- **C44** A datagram that has been accepted is never accepted again, whatever else has arrived in between. -/
theorem C44_no_replay (P : Prims) (k : Key) (hk : k.complete = true) (hs : k.sseqRecv = true) (h0 : k.rxSeqs = []) (before between : List (Nat × Bytes)) (room room' : Nat) (d : Bytes)
    (x : Bytes × Nat) (hx : (receive P k (before ++ [(room, d)])).getLast? = some (.ok x)) :
    ∀ y, (receive P k (before ++ [(room, d)] ++ between ++ [(room', d)])).getLast? ≠ some (.ok y) := by
  -- the state after a history
  let after : Key → List (Nat × Bytes) → Key := fun k ds => ds.foldl (fun k d => (k.decrypt P d.1 d.2).1) k
  have happ : ∀ (ds es : List (Nat × Bytes)) (k : Key), receive P k (ds ++ es) = receive P k ds ++ receive P (after k ds) es := by
    intro ds
    induction ds with
    | nil => intro es k; rfl
    | cons d ds ih => intro es k; rw [List.cons_append, receive, receive, ih]; rfl
  have hlast : ∀ (ds : List (Nat × Bytes)) (k : Key) (r : Nat) (e : Bytes), (receive P k (ds ++ [(r, e)])).getLast? = some (((after k ds).decrypt P r e).2) := by
    intro ds k r e
    rw [happ, receive, receive, List.getLast?_concat]
  -- only the numbers seen change, and none is forgotten
  have hstep : ∀ (k : Key) (r : Nat) (e : Bytes), (k.complete && k.sseqRecv) = true → IndexSet.Canon k.rxSeqs →
      ∃ s, (k.decrypt P r e).1 = { k with rxSeqs := s } ∧ IndexSet.Canon s ∧ ∀ i, IndexSet.Mem k.rxSeqs i → IndexSet.Mem s i := by
    intro k r e hk hc
    rcases decrypt_spec P k r e with ⟨h1, -⟩ | ⟨dst, cur, seq, n, -, -, h2, -⟩
    · exact ⟨k.rxSeqs, h1, hc, fun _ h => h⟩
    · obtain ⟨h3, h4, h5⟩ := h2 hk
      obtain ⟨m1, m2⟩ := mark_mem k.rxSeqs seq (parse_lt _ _ _ h3) hc
      exact ⟨_, h5, m2, fun i h => (m1 i).mpr (.inl h)⟩
  have hafter : ∀ (ds : List (Nat × Bytes)) (k : Key), (k.complete && k.sseqRecv) = true → IndexSet.Canon k.rxSeqs →
      ∃ s, after k ds = { k with rxSeqs := s } ∧ IndexSet.Canon s ∧ ∀ i, IndexSet.Mem k.rxSeqs i → IndexSet.Mem s i := by
    intro ds
    induction ds with
    | nil => intro k _ hc; exact ⟨k.rxSeqs, rfl, hc, fun _ h => h⟩
    | cons d ds ih =>
      intro k hk hc
      obtain ⟨s, e1, e2, e3⟩ := hstep k d.1 d.2 hk hc
      obtain ⟨s', f1, f2, f3⟩ := ih { k with rxSeqs := s } hk e2
      refine ⟨s', ?_, f2, fun i h => f3 i (e3 i h)⟩
      show after (k.decrypt P d.1 d.2).1 ds = _
      rw [e1, f1]
  have hkk : (k.complete && k.sseqRecv) = true := by rw [hk, hs]; rfl
  intro y hy
  obtain ⟨s1, a1, a2, -⟩ := hafter before k hkk (by rw [h0]; trivial)
  rw [hlast, a1, Option.some.injEq] at hx
  rw [hlast, Option.some.injEq] at hy
  obtain ⟨s2, b1, b2, b3⟩ := hafter between (({ k with rxSeqs := s1 } : Key).decrypt P room d).1
    (by obtain ⟨s, e, -⟩ := hstep { k with rxSeqs := s1 } room d hkk a2; rw [e]; exact hkk)
    (by obtain ⟨s, e, hc, -⟩ := hstep { k with rxSeqs := s1 } room d hkk a2; rw [e]; exact hc)
  have hstate : after k (before ++ [(room, d)] ++ between) = after ((after k before).decrypt P room d).1 between := by
    simp only [after, List.foldl_append, List.foldl_cons, List.foldl_nil]
  rw [hstate, a1, b1] at hy
  rcases decrypt_spec P { k with rxSeqs := s1 } room d with ⟨-, h1⟩ | ⟨dst, cur, seq, n, h1, ⟨key, hkey, g1, -, -, g4⟩, h2, -⟩
  · exact h1 x hx
  · obtain ⟨h3, h4, h5⟩ := h2 hkk
    rw [h5] at hy b3
    obtain ⟨m1, m2⟩ := mark_mem s1 seq (parse_lt _ _ _ h3) a2
    rcases decrypt_spec P { k with rxSeqs := s2 } room' d with ⟨-, h6⟩ | ⟨dst', cur', seq', n', h6, ⟨key', hkey', g1', -, -, g4'⟩, h7, -⟩
    · exact h6 y hy
    · obtain ⟨h8, h9, -⟩ := h7 hkk
      have hkey : key = key' := by
        have e1 := g1 hk
        have e2 := g1' hk
        dsimp only at e1 e2
        rw [e1] at e2; cases e2; rfl
      have : dst = dst' := by rw [g4, g4', hkey]
      rw [← this, h3] at h8
      cases h8
      have hm : IndexSet.Mem s2 seq := b3 seq ((m1 seq).mpr (.inr (.inl rfl)))
      rw [← IndexSet.contains_iff] at hm
      dsimp only at h9
      rw [h9] at hm
      cases hm

/-! ## Encryption and decryption -/

namespace Flash

/-- the sending key of one side and the receiving key of the other go together -/
structure Agree (tx rx : Key) : Prop where
  complete : rx.complete = tx.complete
  hmac : tx.complete = true → rx.hmacRecv = tx.hmacSend
  sseq : tx.complete = true → rx.sseqRecv = tx.sseqSend
  keys : tx.complete = true → ∃ key, tx.txKey = some key ∧ rx.rxKey = some key
  hkeys : tx.complete = true → tx.hmacSend = true → (∃ key, tx.txHMAC = some key ∧ rx.rxHMAC = some key) ∧ rx.rxHMACLength = tx.txHMACLength ∧ tx.txHMACLength ≤ 32

theorem padded_eq (src : Bytes) : ∃ n, n < 16 ∧ padded src = src ++ List.replicate n 0xff ∧ (padded src).length % 16 = 0 ∧ (src ≠ [] → (padded src).length ≠ 0) := by
  have hne : src ≠ [] → ∀ x : Bytes, (src ++ x).length ≠ 0 := by
    intro h x hx
    rw [List.length_append] at hx
    exact h (List.length_eq_zero_iff.mp (by omega))
  rw [padded]
  split
  · refine ⟨16 - src.length % 16, by omega, rfl, ?_, fun h => hne h _⟩
    rw [List.length_append, List.length_replicate]; omega
  · refine ⟨0, by omega, by simp, by omega, fun h => ?_⟩
    have := hne h []
    rwa [List.append_nil] at this

theorem cksum_lt (b : Bytes) : Checksums.in_cksum b < 65536 := by
  rw [Checksums.in_cksum, Checksums.fold]
  omega

theorem cksum_bytes (c : Nat) (h : c < 65536) : (UInt8.ofNat (c >>> 8)).toNat * 256 + (UInt8.ofNat (c &&& 0xff)).toNat = c := by
  rw [UInt8.toNat_ofNat', UInt8.toNat_ofNat', Nat.shiftRight_eq_div_pow, show (0xff : Nat) = 2 ^ 8 - 1 from rfl, Nat.and_two_pow_sub_one_eq_mod]
  omega

theorem overwrite_front (buf bytes : Bytes) : overwrite buf 0 bytes = bytes ++ buf.drop bytes.length := by simp [overwrite]

theorem overwrite_next (buf pre bytes : Bytes) : overwrite (pre ++ buf) pre.length bytes = pre ++ bytes ++ buf.drop bytes.length := by
  rw [overwrite, List.take_left, List.drop_append, List.drop_eq_nil_of_le (by omega), List.nil_append, Nat.add_sub_cancel_left]

/-- the buffer that is encrypted: number, checksum, then the contents and padding -/
def cleartext (k : Key) (src : Bytes) (margin : Nat) : Bytes :=
  (if k.complete && k.sseqSend then VLU.encode k.txSeq else []) ++
    (if k.complete && k.hmacSend then [] else
      [UInt8.ofNat (Checksums.in_cksum ((padded src).drop margin) >>> 8), UInt8.ofNat (Checksums.in_cksum ((padded src).drop margin) &&& 0xff)]) ++
    (padded src).drop margin

theorem margin_eq (k : Key) : k.frontMargin = (if k.complete && k.sseqSend then VLU.encode k.txSeq else []).length + (if k.complete && k.hmacSend then 0 else 2) := by
  rw [Key.frontMargin]
  cases k.complete <;> cases k.sseqSend <;> cases k.hmacSend <;> simp <;> omega

theorem cleartext_length (k : Key) (src : Bytes) (hm : k.frontMargin ≤ src.length) : (cleartext k src k.frontMargin).length = (padded src).length := by
  obtain ⟨n, -, h, -⟩ := padded_eq src
  have hle : k.frontMargin ≤ (padded src).length := by rw [h, List.length_append]; omega
  rw [cleartext, List.length_append, List.length_append, List.length_drop]
  have := margin_eq k
  by_cases hh : (k.complete && k.hmacSend) = true
  · rw [if_pos hh] at this ⊢
    simp only [List.length_nil]
    omega
  · rw [if_neg hh] at this ⊢
    simp only [List.length_cons, List.length_nil]
    omega

/-- the key after sending -/
def sentKey (k : Key) : Key := if k.complete && k.sseqSend then { k with txSeq := (k.txSeq + 1) % W64 } else k

/-- the HMAC that is appended -/
def tag (P : Prims) (k : Key) (dst : Bytes) : Bytes := if k.complete && k.hmacSend then (P.hmac (k.txHMAC.getD []) dst).take k.txHMACLength else []

theorem encrypt_eq (P : Prims) (k : Key) (room : Nat) (src : Bytes) (hr : (padded src).length + 32 ≤ room)
    (hk : k.complete = true → ∃ key, k.txKey = some key) (hh : k.complete = true → k.hmacSend = true → ∃ key, k.txHMAC = some key) :
    ∃ key, (k.complete = true → k.txKey = some key) ∧ (k.complete = false → key = defaultKey) ∧
      k.encrypt P room src k.frontMargin = (sentKey k, .ok (P.aesEnc key (cleartext k src k.frontMargin) ++ tag P k (P.aesEnc key (cleartext k src k.frontMargin)))) := by
  have hbuf : (if (k.complete && k.hmacSend) = true then overwrite (padded src) 0 (if (k.complete && k.sseqSend) = true then VLU.encode k.txSeq else [])
      else overwrite (overwrite (padded src) 0 (if (k.complete && k.sseqSend) = true then VLU.encode k.txSeq else []))
        (if (k.complete && k.sseqSend) = true then VLU.encode k.txSeq else []).length
        [UInt8.ofNat (Checksums.in_cksum ((overwrite (padded src) 0 (if (k.complete && k.sseqSend) = true then VLU.encode k.txSeq else [])).drop k.frontMargin) >>> 8),
          UInt8.ofNat (Checksums.in_cksum ((overwrite (padded src) 0 (if (k.complete && k.sseqSend) = true then VLU.encode k.txSeq else [])).drop k.frontMargin) &&& 0xff)]) =
      cleartext k src k.frontMargin := by
    have hme := margin_eq k
    rw [cleartext, overwrite_front]
    generalize (if (k.complete && k.sseqSend) = true then VLU.encode k.txSeq else []) = seq at *
    by_cases hh : (k.complete && k.hmacSend) = true
    · rw [if_pos hh] at hme
      rw [if_pos hh, if_pos hh, hme, List.append_nil, Nat.add_zero]
    · rw [if_neg hh] at hme
      rw [if_neg hh, if_neg hh, overwrite_next]
      have : (seq ++ (padded src).drop seq.length).drop k.frontMargin = (padded src).drop k.frontMargin := by
        rw [hme, List.drop_append, List.drop_eq_nil_of_le (by omega), List.nil_append, List.drop_drop]
        congr 1; omega
      rw [this, List.drop_drop, hme]
      rfl
  rw [Key.encrypt]
  simp only [if_neg (Nat.not_lt.mpr hr)]
  simp only [hbuf]
  rw [← sentKey]
  have hsc : (sentKey k).complete = k.complete := by rw [sentKey]; split <;> rfl
  have hst : (sentKey k).txKey = k.txKey := by rw [sentKey]; split <;> rfl
  have hsh : (sentKey k).txHMAC = k.txHMAC := by rw [sentKey]; split <;> rfl
  have hsl : (sentKey k).txHMACLength = k.txHMACLength := by rw [sentKey]; split <;> rfl
  rw [hsc, hst, hsh, hsl]
  have htag : ∀ dst : Bytes, (if (k.complete && k.hmacSend) = true then
      match k.txHMAC with
      | none => (sentKey k, Res.crash)
      | some hkey => (sentKey k, Res.ok (dst ++ (P.hmac hkey dst).take k.txHMACLength))
      else (sentKey k, Res.ok dst)) = (sentKey k, Res.ok (dst ++ tag P k dst)) := by
    intro dst
    rw [tag]
    by_cases hc : (k.complete && k.hmacSend) = true
    · rw [if_pos hc, if_pos hc]
      rw [Bool.and_eq_true] at hc
      obtain ⟨hkey, hk'⟩ := hh hc.1 hc.2
      rw [hk']; rfl
    · rw [if_neg hc, if_neg hc, List.append_nil]
  cases hc : k.complete with
  | false =>
    refine ⟨defaultKey, fun h => Bool.noConfusion h, fun _ => rfl, ?_⟩
    rw [if_neg Bool.false_ne_true]
    have := htag (P.aesEnc defaultKey (cleartext k src k.frontMargin))
    rw [hc] at this
    exact this
  | true =>
    obtain ⟨key, hk'⟩ := hk hc
    refine ⟨key, fun _ => hk', fun h => Bool.noConfusion h, ?_⟩
    rw [if_pos rfl, hk']
    have := htag (P.aesEnc key (cleartext k src k.frontMargin))
    rw [hc] at this
    exact this

/-- the key after receiving -/
def receivedKey (k : Key) (seq : Nat) : Key := if k.complete && k.sseqRecv then { k with rxSeqs := mark k.rxSeqs seq } else k

theorem decrypt_eq (P : Prims) (hP : P.Ok) (tx rx : Key) (ha : Agree tx rx) (room : Nat) (src : Bytes) (hne : src ≠ []) (hm : tx.frontMargin ≤ src.length)
    (hr : (padded src).length ≤ room) (hseq : tx.txSeq < 2 ^ 64) (hnew : tx.complete = true → tx.sseqSend = true → rx.rxSeqs.contains tx.txSeq = false)
    (key : Bytes) (hk : tx.complete = true → tx.txKey = some key) (hk' : tx.complete = false → key = defaultKey) :
    rx.decrypt P room (P.aesEnc key (cleartext tx src tx.frontMargin) ++ tag P tx (P.aesEnc key (cleartext tx src tx.frontMargin))) =
      (receivedKey rx tx.txSeq, .ok (cleartext tx src tx.frontMargin, tx.frontMargin)) := by
  obtain ⟨n, hn, hp, h16, hz⟩ := padded_eq src
  have hlen := cleartext_length tx src hm
  have hel : (P.aesEnc key (cleartext tx src tx.frontMargin)).length = (padded src).length := by rw [hP.aesLen, hlen]
  have hdec : P.aesDec key (P.aesEnc key (cleartext tx src tx.frontMargin)) = cleartext tx src tx.frontMargin := hP.aesInv _ _ (by rw [hlen, h16])
  have hrx : (if rx.complete = true then rx.rxKey else some defaultKey) = some key := by
    rw [ha.complete]
    cases hc : tx.complete with
    | false => rw [hk' hc]; rfl
    | true =>
      obtain ⟨k2, e1, e2⟩ := ha.keys hc
      rw [hk hc] at e1; cases e1
      rw [if_pos rfl, e2]
  have hh : (rx.complete && rx.hmacRecv) = (tx.complete && tx.hmacSend) := by
    rw [ha.complete]; cases hc : tx.complete with
    | false => rfl
    | true => rw [ha.hmac hc]
  have hs : (rx.complete && rx.sseqRecv) = (tx.complete && tx.sseqSend) := by
    rw [ha.complete]; cases hc : tx.complete with
    | false => rfl
    | true => rw [ha.sseq hc]
  generalize hdst : P.aesEnc key (cleartext tx src tx.frontMargin) = dst at *
  have htl : (tag P tx dst).length = if (rx.complete && rx.hmacRecv) = true then rx.rxHMACLength else 0 := by
    rw [hh, tag]
    by_cases hc : (tx.complete && tx.hmacSend) = true
    · rw [if_pos hc, if_pos hc]
      rw [Bool.and_eq_true] at hc
      obtain ⟨-, e1, e2⟩ := ha.hkeys hc.1 hc.2
      rw [List.length_take, hP.hmacLen, e1]; omega
    · rw [if_neg hc, if_neg hc]; rfl
  have hmac : ∃ hkey, (if (rx.complete && rx.hmacRecv) = true then rx.rxHMAC else some []) = some hkey ∧
      ((rx.complete && rx.hmacRecv) = true → (P.hmac hkey dst).take (tag P tx dst).length = tag P tx dst) := by
    rw [hh]
    by_cases hc : (tx.complete && tx.hmacSend) = true
    · have hc' := hc
      rw [Bool.and_eq_true] at hc'
      obtain ⟨⟨hkey, e1, e2⟩, e3, e4⟩ := ha.hkeys hc'.1 hc'.2
      refine ⟨hkey, by rw [if_pos hc, e2], fun _ => ?_⟩
      rw [tag, if_pos hc, e1, Option.getD_some, List.length_take, hP.hmacLen, Nat.min_eq_left e4]
    · exact ⟨[], by rw [if_neg hc], fun h => absurd h hc⟩
  obtain ⟨hkey, hm1, hm2⟩ := hmac
  rw [Key.decrypt]
  dsimp only
  rw [← htl, hm1, hrx, List.length_append, Nat.add_sub_cancel, List.take_left, List.drop_left, if_neg (by omega), if_neg (by have := hz hne; omega)]
  dsimp only
  rw [if_neg (fun h => h.2 (hm2 h.1)), hdec, hs, hh]
  have hme := margin_eq tx
  have hpl : tx.frontMargin ≤ (padded src).length := by rw [hp, List.length_append]; omega
  have hparse : (if (tx.complete && tx.sseqSend) = true then VLU.parse (cleartext tx src tx.frontMargin) else some (0, 0)) =
      some (if (tx.complete && tx.sseqSend) = true then tx.txSeq else 0, (if (tx.complete && tx.sseqSend) = true then VLU.encode tx.txSeq else []).length) := by
    by_cases hc : (tx.complete && tx.sseqSend) = true
    · rw [cleartext, if_pos hc, if_pos hc, if_pos hc, List.append_assoc, C01_vlu_round_trip _ hseq]
    · rw [if_neg hc, if_neg hc, if_neg hc]; rfl
  rw [hparse]
  dsimp only
  have hcn : ¬ ((tx.complete && tx.sseqSend) = true ∧ rx.rxSeqs.contains (if (tx.complete && tx.sseqSend) = true then tx.txSeq else 0) = true) := by
    rintro ⟨hc, hx⟩
    rw [if_pos hc] at hx
    rw [Bool.and_eq_true] at hc
    rw [hnew hc.1 hc.2] at hx; cases hx
  rw [if_neg hcn]
  have hdrop : (cleartext tx src tx.frontMargin).drop (if (tx.complete && tx.sseqSend) = true then VLU.encode tx.txSeq else []).length =
      (if (tx.complete && tx.hmacSend) = true then [] else
      [UInt8.ofNat (Checksums.in_cksum ((padded src).drop tx.frontMargin) >>> 8), UInt8.ofNat (Checksums.in_cksum ((padded src).drop tx.frontMargin) &&& 0xff)]) ++
      (padded src).drop tx.frontMargin := by
    rw [cleartext, List.append_assoc, List.drop_left]
  rw [hdrop]
  have hsum : ¬ ((!(tx.complete && tx.hmacSend)) = true ∧
      (((if (tx.complete && tx.hmacSend) = true then [] else
      [UInt8.ofNat (Checksums.in_cksum ((padded src).drop tx.frontMargin) >>> 8), UInt8.ofNat (Checksums.in_cksum ((padded src).drop tx.frontMargin) &&& 0xff)]) ++
      (padded src).drop tx.frontMargin).length < 2 ∨
      (((if (tx.complete && tx.hmacSend) = true then [] else
      [UInt8.ofNat (Checksums.in_cksum ((padded src).drop tx.frontMargin) >>> 8), UInt8.ofNat (Checksums.in_cksum ((padded src).drop tx.frontMargin) &&& 0xff)]) ++
      (padded src).drop tx.frontMargin).getD 0 0).toNat * 256 + (((if (tx.complete && tx.hmacSend) = true then [] else
      [UInt8.ofNat (Checksums.in_cksum ((padded src).drop tx.frontMargin) >>> 8), UInt8.ofNat (Checksums.in_cksum ((padded src).drop tx.frontMargin) &&& 0xff)]) ++
      (padded src).drop tx.frontMargin).getD 1 0).toNat ≠ Checksums.in_cksum (((if (tx.complete && tx.hmacSend) = true then [] else
      [UInt8.ofNat (Checksums.in_cksum ((padded src).drop tx.frontMargin) >>> 8), UInt8.ofNat (Checksums.in_cksum ((padded src).drop tx.frontMargin) &&& 0xff)]) ++
      (padded src).drop tx.frontMargin).drop 2))) := by
    rintro ⟨h1, h2⟩
    have hc : ¬ ((tx.complete && tx.hmacSend) = true) := by intro h; rw [h] at h1; cases h1
    rw [if_neg hc] at h2
    simp only [List.cons_append, List.nil_append, List.length_cons, List.getD_cons_zero, List.getD_cons_succ, List.drop_succ_cons, List.drop_zero,
      cksum_bytes _ (cksum_lt _)] at h2
    rcases h2 with h2 | h2
    · omega
    · exact h2 rfl
  rw [if_neg hsum, receivedKey, hs]
  have hcur : (if (tx.complete && tx.hmacSend) = true then (if (tx.complete && tx.sseqSend) = true then VLU.encode tx.txSeq else []).length
      else (if (tx.complete && tx.sseqSend) = true then VLU.encode tx.txSeq else []).length + 2) = tx.frontMargin := by
    rw [hme]; split <;> rfl
  rw [hcur]
  congr 1
  by_cases hc : (tx.complete && tx.sseqSend) = true
  · rw [if_pos hc, if_pos hc, if_pos hc]; rfl
  · rw [if_neg hc, if_neg hc]

/-- after an exchange the keys of both directions go together -/
theorem exchange_agree (P : Prims) (hP : P.Ok) (a b : Config) (ha : a.Ok) (hb : b.Ok) (drawnA : Nat) (rndA : Bytes) (drawnB : Nat) (rndB : Bytes)
    (hrA : rndA.length + 10 < 2 ^ 64) (hrB : rndB.length + 10 < 2 ^ 64) :
    ∃ comps kI kR, exchange P a b drawnA rndA drawnB rndB = some (comps, kI, kR) ∧ Agree kI kR ∧ Agree kR kI ∧
      kI.complete = true ∧ kR.complete = true ∧ kI.txSeq = 0 ∧ kR.txSeq = 0 ∧ kI.rxSeqs = [] ∧ kR.rxSeqs = [] := by
  obtain ⟨comps, kI, kR, e1, ⟨c1, c2⟩, ⟨f1, f2, f3, f4⟩, -, l1, l2, l3, l4⟩ := C46_negotiation P hP a b ha hb drawnA rndA drawnB rndB hrA hrB
  obtain ⟨ikc, rkc, kI', kR', s, e2, -, ⟨t1, t2⟩, t3, t4, -, -, -, ⟨u1, u2⟩, u3, u4, -⟩ := C47_keys_agree P hP a b ha hb drawnA rndA drawnB rndB hrA hrB
  obtain ⟨s', -, -, e3⟩ := exchange_eq P hP a b ha hb drawnA rndA drawnB rndB hrA hrB
  rw [e1] at e2; cases e2
  refine ⟨_, kI, kR, e1, ?_, ?_, c1, c2, ?_⟩
  · exact ⟨by rw [c1, c2], fun _ => f1, fun _ => f3, fun _ => ⟨_, t3, by rw [← t1, t3]⟩, fun _ h => ⟨⟨_, u3 h, by rw [← u1, u3 h]⟩, l1 h, by omega⟩⟩
  · exact ⟨by rw [c1, c2], fun _ => f2, fun _ => f4, fun _ => ⟨_, by rw [← t2, t4], t4⟩, fun _ h => ⟨⟨_, u4 h, by rw [u2, u4 h]⟩, l2 h, by omega⟩⟩
  · rw [e1] at e3; cases e3
    exact ⟨rfl, rfl, rfl, rfl⟩

end Flash

theorem Flash.round_trip (P : Prims) (hP : P.Ok) (tx rx : Key) (ha : Agree tx rx) (room room' : Nat) (margin payload : Bytes) (hne : margin ++ payload ≠ [])
    (hm : margin.length = tx.frontMargin) (hr : margin.length + payload.length + 47 ≤ room) (hr' : margin.length + payload.length + 15 ≤ room') (hseq : tx.txSeq < 2 ^ 64)
    (hnew : tx.complete = true → tx.sseqSend = true → rx.rxSeqs.contains tx.txSeq = false) :
    ∃ tx' rx' datagram buf pad, tx.encrypt P room (margin ++ payload) tx.frontMargin = (tx', .ok datagram) ∧ rx.decrypt P room' datagram = (rx', .ok (buf, tx.frontMargin)) ∧
      pad < 16 ∧ buf.drop tx.frontMargin = payload ++ List.replicate pad 0xff ∧ buf.length = tx.frontMargin + payload.length + pad ∧
      datagram.length ≤ margin.length + payload.length + 47 ∧ rx' = receivedKey rx tx.txSeq := by
  obtain ⟨n, hn, hp, -, -⟩ := padded_eq (margin ++ payload)
  have hle : tx.frontMargin ≤ (margin ++ payload).length := by rw [List.length_append]; omega
  have hpl : (padded (margin ++ payload)).length = margin.length + payload.length + n := by rw [hp]; simp only [List.length_append, List.length_replicate]
  obtain ⟨key, k1, k2, he⟩ := encrypt_eq P tx room (margin ++ payload) (by omega) (fun h => by obtain ⟨x, hx, -⟩ := ha.keys h; exact ⟨x, hx⟩)
    (fun h h' => by obtain ⟨⟨x, hx, -⟩, -⟩ := ha.hkeys h h'; exact ⟨x, hx⟩)
  have hd := decrypt_eq P hP tx rx ha room' (margin ++ payload) hne hle (by omega) hseq hnew key k1 k2
  refine ⟨_, _, _, _, n, he, hd, hn, ?_, ?_, ?_, rfl⟩
  · have hme := margin_eq tx
    have hdp : (padded (margin ++ payload)).drop tx.frontMargin = payload ++ List.replicate n 0xff := by
      rw [hp, ← hm, List.append_assoc, List.drop_left]
    rw [cleartext, hdp]
    have hfl : ((if (tx.complete && tx.sseqSend) = true then VLU.encode tx.txSeq else []) ++ (if (tx.complete && tx.hmacSend) = true then [] else
      [UInt8.ofNat (Checksums.in_cksum (payload ++ List.replicate n 0xff) >>> 8), UInt8.ofNat (Checksums.in_cksum (payload ++ List.replicate n 0xff) &&& 0xff)])).length = tx.frontMargin := by
      rw [hme, List.length_append]
      congr 1
      split <;> rfl
    exact List.drop_left' hfl
  · rw [cleartext_length tx _ hle, hpl]; omega
  · rw [List.length_append, hP.aesLen, cleartext_length tx _ hle, hpl, tag]
    split
    · rename_i h
      rw [Bool.and_eq_true] at h
      have := (ha.hkeys h.1 h.2).2.2
      rw [List.length_take]; omega
    · simp only [List.length_nil]; omega

/-- **C45** Decrypting what the peer's key encrypts exposes the original bytes after the announced margin, followed only by padding; before keying is
complete and after, with and without HMACs and sequence numbers. -/
theorem C45_round_trip (P : Prims) (hP : P.Ok) (tx rx : Key) (ha : Agree tx rx) (room room' : Nat) (margin payload : Bytes) (hne : margin ++ payload ≠ [])
    (hm : margin.length = tx.frontMargin) (hr : margin.length + payload.length + 47 ≤ room) (hr' : margin.length + payload.length + 15 ≤ room') (hseq : tx.txSeq < 2 ^ 64)
    (hnew : tx.complete = true → tx.sseqSend = true → rx.rxSeqs.contains tx.txSeq = false) :
    ∃ tx' rx' datagram buf pad, tx.encrypt P room (margin ++ payload) tx.frontMargin = (tx', .ok datagram) ∧ rx.decrypt P room' datagram = (rx', .ok (buf, tx.frontMargin)) ∧
      pad < 16 ∧ buf.drop tx.frontMargin = payload ++ List.replicate pad 0xff ∧ buf.length = tx.frontMargin + payload.length + pad ∧
      datagram.length ≤ margin.length + payload.length + 47 := by
  obtain ⟨tx', rx', dg, buf, pad, e1, e2, e3, e4, e5, e6, -⟩ := round_trip P hP tx rx ha room room' margin payload hne hm hr hr' hseq hnew
  exact ⟨tx', rx', dg, buf, pad, e1, e2, e3, e4, e5, e6⟩

namespace Flash

/-- sending payloads one after the other: the datagrams -/
def transmit (P : Prims) : Key → List Bytes → List (Res Bytes)
  | _, [] => []
  | k, p :: ps =>
    (k.encrypt P (k.frontMargin + p.length + 47) (List.replicate k.frontMargin 0 ++ p) k.frontMargin).2 ::
      transmit P (k.encrypt P (k.frontMargin + p.length + 47) (List.replicate k.frontMargin 0 ++ p) k.frontMargin).1 ps

/-- the bytes of a datagram -/
def Res.bytes : Res Bytes → Bytes
  | .ok b => b
  | _ => []

/-- a payload that came through: after the margin there are its bytes and padding -/
def Shows (payload : Bytes) : Res (Bytes × Nat) → Prop
  | .ok (buf, margin) => ∃ pad, pad < 16 ∧ buf.drop margin = payload ++ List.replicate pad 0xff
  | _ => False

/-- the sender's key when it is at number `i` -/
def atSeq (k : Key) (i : Nat) : Key := if k.complete && k.sseqSend then { k with txSeq := i } else k

theorem atSeq_agree (k rx : Key) (i : Nat) (s : IndexSet) (h : Agree k rx) : Agree (atSeq k i) { rx with rxSeqs := s } := by
  obtain ⟨h1, h2, h3, h4, h5⟩ := h
  rw [atSeq]
  split <;> exact ⟨h1, h2, h3, h4, h5⟩

theorem transmit_get (P : Prims) (k : Key) (hk : k.complete = true → ∃ key, k.txKey = some key) (hh : k.complete = true → k.hmacSend = true → ∃ key, k.txHMAC = some key)
    (ps : List Bytes) (j : Nat) (hj : j + ps.length < 2 ^ 64) (i : Nat) (p : Bytes) (hi : ps[i]? = some p) :
    (transmit P (atSeq k j) ps)[i]? = some ((atSeq k (j + i)).encrypt P ((atSeq k (j + i)).frontMargin + p.length + 47)
      (List.replicate (atSeq k (j + i)).frontMargin 0 ++ p) (atSeq k (j + i)).frontMargin).2 := by
  induction ps generalizing j i with
  | nil => simp at hi
  | cons q ps ih =>
    rw [transmit]
    cases i with
    | zero => simp only [List.getElem?_cons_zero, Option.some.injEq] at hi; subst hi; rfl
    | succ i =>
      rw [List.getElem?_cons_succ] at hi ⊢
      simp only [List.length_cons] at hj
      have hc : (atSeq k j).complete = k.complete := by rw [atSeq]; split <;> rfl
      have ht : (atSeq k j).txKey = k.txKey := by rw [atSeq]; split <;> rfl
      have hs : (atSeq k j).hmacSend = k.hmacSend := by rw [atSeq]; split <;> rfl
      have hm : (atSeq k j).txHMAC = k.txHMAC := by rw [atSeq]; split <;> rfl
      obtain ⟨n, hn, hp, -⟩ := padded_eq (List.replicate (atSeq k j).frontMargin 0 ++ q)
      obtain ⟨key, -, -, he⟩ := encrypt_eq P (atSeq k j) ((atSeq k j).frontMargin + q.length + 47) (List.replicate (atSeq k j).frontMargin 0 ++ q)
        (by rw [hp]; simp only [List.length_append, List.length_replicate]; omega) (by rw [hc, ht]; exact hk) (by rw [hc, hs, hm]; exact hh)
      have hnext : sentKey (atSeq k j) = atSeq k (j + 1) := by
        rw [sentKey, atSeq, atSeq]
        by_cases h : (k.complete && k.sseqSend) = true
        · rw [if_pos h, if_pos h]
          simp only [h, if_true]
          rw [Nat.mod_eq_of_lt (by omega)]
        · rw [if_neg h, if_neg h, if_neg h]
      rw [he, hnext, ih (j + 1) (by omega) i hi, show j + 1 + i = j + (i + 1) by omega]

end Flash

/-- **C45** Over a whole session, whatever is lost and in whatever order the rest arrives: every datagram that arrives once, and is not more than 31 newer
than one that follows it, comes through with its payload. (Older ones are refused as replays if sequence numbers are used.) -/
theorem C45_any_order (P : Prims) (hP : P.Ok) (tx rx : Key) (ha : Agree tx rx) (hseq : tx.txSeq = 0) (hrx : rx.rxSeqs = []) (payloads : List Bytes)
    (hne : ∀ p ∈ payloads, p ≠ []) (hlen : payloads.length < 2 ^ 64) (order : List Nat) (hin : ∀ i ∈ order, i < payloads.length) (hnd : order.Nodup)
    (hwin : order.Pairwise (fun earlier later => earlier ≤ 32 ∨ earlier < later + 32)) (room : Nat) (hroom : ∀ p ∈ payloads, p.length + 30 ≤ room) :
    ∃ results, receive P rx (order.map (fun i => (room, ((transmit P tx payloads).getD i .fail).bytes))) = results ∧
      results.length = order.length ∧ ∀ (n i : Nat), order[n]? = some i → ∃ r p, results[n]? = some r ∧ payloads[i]? = some p ∧ Shows p r := by
  refine ⟨_, rfl, ?_⟩
  have h0 : tx = atSeq tx 0 := by
    rw [atSeq]; split
    · obtain ⟨x1, x2, x3, x4, x5, x6, x7⟩ := tx; dsimp only at hseq; subst hseq; rfl
    · rfl
  -- one packet, in any state of the receiver
  have one : ∀ (s : IndexSet) (i : Nat) (p : Bytes), payloads[i]? = some p → (tx.complete = true → tx.sseqSend = true → IndexSet.contains s i = false) →
      ∃ r, ({ rx with rxSeqs := s } : Key).decrypt P room ((transmit P tx payloads).getD i .fail).bytes = (receivedKey { rx with rxSeqs := s } i, r) ∧ Shows p r := by
    intro s i p hi hnew
    have hil : i < payloads.length := by
      by_cases h : i < payloads.length
      · exact h
      · rw [List.getElem?_eq_none (by omega)] at hi; cases hi
    have hpm : p ∈ payloads := List.mem_of_getElem? hi
    have hg := transmit_get P tx (fun h => by obtain ⟨x, hx, -⟩ := ha.keys h; exact ⟨x, hx⟩) (fun h h' => by obtain ⟨⟨x, hx, -⟩, -⟩ := ha.hkeys h h'; exact ⟨x, hx⟩)
      payloads 0 (by omega) i p hi
    rw [← h0, Nat.zero_add] at hg
    rw [List.getD_eq_getElem?_getD, hg, Option.getD_some]
    have ha' := atSeq_agree tx rx i s ha
    have hml : (atSeq tx i).frontMargin ≤ 12 := by
      rw [margin_eq]
      have hsz : (if ((atSeq tx i).complete && (atSeq tx i).sseqSend) = true then VLU.encode (atSeq tx i).txSeq else []).length ≤ 10 := by
        split
        · refine (C01_vlu_encode_size _ ?_).2
          rw [atSeq]; split <;> (try dsimp only) <;> omega
        · simp
      have hs2 : (if ((atSeq tx i).complete && (atSeq tx i).hmacSend) = true then 0 else 2) ≤ 2 := by split <;> omega
      omega
    have hr := hroom p hpm
    have hlt : (atSeq tx i).txSeq < 2 ^ 64 := by rw [atSeq]; split <;> (try dsimp only) <;> omega
    have hnew' : (atSeq tx i).complete = true → (atSeq tx i).sseqSend = true → IndexSet.contains s (atSeq tx i).txSeq = false := by
      intro h h'
      have hc : tx.complete = true := by rw [atSeq] at h; split at h <;> exact h
      have hs : tx.sseqSend = true := by rw [atSeq] at h'; split at h' <;> exact h'
      rw [atSeq, hc, hs, Bool.and_self, if_pos rfl]
      exact hnew hc hs
    have hpne : List.replicate (atSeq tx i).frontMargin (0 : UInt8) ++ p ≠ [] := by
      intro h; exact hne p hpm (List.append_eq_nil_iff.mp h).2
    obtain ⟨tx', rx', dg, buf, pad, e1, e2, e3, e4, -, -, e5⟩ := round_trip P hP (atSeq tx i) { rx with rxSeqs := s } ha' ((atSeq tx i).frontMargin + p.length + 47) room
      (List.replicate (atSeq tx i).frontMargin 0) p hpne (by simp) (by simp only [List.length_replicate]; omega) (by simp only [List.length_replicate]; omega) hlt hnew'
    rw [e1]
    refine ⟨.ok (buf, (atSeq tx i).frontMargin), ?_, pad, e3, e4⟩
    show Key.decrypt P _ room dg = _
    rw [e2]
    rw [e5, receivedKey, receivedKey]
    by_cases h : (rx.complete && rx.sseqRecv) = true
    · have hc : tx.complete = true := by rw [← ha.complete]; exact (Bool.and_eq_true _ _ ▸ h).1
      have hs : tx.sseqSend = true := by rw [← ha.sseq hc]; exact (Bool.and_eq_true _ _ ▸ h).2
      have : (atSeq tx i).txSeq = i := by rw [atSeq, hc, hs, Bool.and_self, if_pos rfl]
      rw [this]
    · rw [if_neg h, if_neg h]
  -- all of them
  have all : ∀ (order : List Nat) (s : IndexSet) (seen : List Nat), (∀ i ∈ order, i < payloads.length) → order.Nodup →
      order.Pairwise (fun earlier later => earlier ≤ 32 ∨ earlier < later + 32) → IndexSet.Canon s →
      (∀ j, IndexSet.Mem s j → ∃ t ∈ seen, j = t ∨ j + 32 ≤ t ∧ 32 < t) → (∀ t ∈ seen, ∀ i ∈ order, t ≠ i ∧ (t ≤ 32 ∨ t < i + 32)) →
      (receive P { rx with rxSeqs := s } (order.map (fun i => (room, ((transmit P tx payloads).getD i .fail).bytes)))).length = order.length ∧
      ∀ (n i : Nat), order[n]? = some i → ∃ r p, (receive P { rx with rxSeqs := s } (order.map (fun i => (room, ((transmit P tx payloads).getD i .fail).bytes))))[n]? = some r ∧
        payloads[i]? = some p ∧ Shows p r := by
    intro order
    induction order with
    | nil => intro s seen _ _ _ _ _ _; exact ⟨rfl, fun n i h => by simp at h⟩
    | cons i order ih =>
      intro s seen hin hnd hwin hc hmem hseen
      have hil := hin i List.mem_cons_self
      have hnm : ¬ IndexSet.Mem s i := by
        intro h
        obtain ⟨t, ht, h'⟩ := hmem i h
        have := hseen t ht i List.mem_cons_self
        omega
      have hcf : IndexSet.contains s i = false := by
        cases h : IndexSet.contains s i
        · rfl
        · exact absurd ((IndexSet.contains_iff s i).mp h) hnm
      obtain ⟨r, h1, h2⟩ := one s i payloads[i] (List.getElem?_eq_getElem hil) (fun _ _ => hcf)
      obtain ⟨m1, m2⟩ := mark_mem s i (by omega) hc
      rw [List.nodup_cons] at hnd
      rw [List.pairwise_cons] at hwin
      rw [List.map_cons, receive, h1]
      have hst : ∃ s', receivedKey { rx with rxSeqs := s } i = { rx with rxSeqs := s' } ∧ IndexSet.Canon s' ∧ (∀ j, IndexSet.Mem s' j → ∃ t ∈ i :: seen, j = t ∨ j + 32 ≤ t ∧ 32 < t) := by
        rw [receivedKey]
        split
        · refine ⟨mark s i, rfl, m2, ?_⟩
          intro j hj
          rcases (m1 j).mp hj with hj | hj
          · obtain ⟨t, ht, h'⟩ := hmem j hj
            exact ⟨t, List.mem_cons_of_mem _ ht, h'⟩
          · exact ⟨i, List.mem_cons_self, hj⟩
        · refine ⟨s, rfl, hc, ?_⟩
          intro j hj
          obtain ⟨t, ht, h'⟩ := hmem j hj
          exact ⟨t, List.mem_cons_of_mem _ ht, h'⟩
      obtain ⟨s', f1, f2, f3⟩ := hst
      obtain ⟨i1, i2⟩ := ih s' (i :: seen) (fun j hj => hin j (List.mem_cons_of_mem _ hj)) hnd.2 hwin.2 f2 f3 (by
        intro t ht j hj
        rcases List.mem_cons.mp ht with rfl | ht
        · exact ⟨fun h => hnd.1 (h ▸ hj), hwin.1 j hj⟩
        · exact hseen t ht j (List.mem_cons_of_mem _ hj))
      dsimp only
      rw [f1]
      refine ⟨by rw [List.length_cons, List.length_cons, i1], ?_⟩
      intro n j hn
      cases n with
      | zero =>
        simp only [List.getElem?_cons_zero, Option.some.injEq] at hn
        subst hn
        exact ⟨r, payloads[i], rfl, List.getElem?_eq_getElem hil, h2⟩
      | succ n =>
        rw [List.getElem?_cons_succ] at hn ⊢
        exact i2 n j hn
  have hrx' : rx = { rx with rxSeqs := [] } := by rw [← hrx]
  rw [hrx']
  exact all order [] [] hin hnd hwin trivial (fun j hj => absurd hj (by simp)) (fun t ht => nomatch ht)

/-! ## Examples -/

/-- the keys of an exchange meet the hypotheses of C44 and C45, in both directions -/
example : ∃ comps kI kR, exchange toy client (server false) 42 [6] 11 [8, 8] = some (comps, kI, kR) ∧ Agree kI kR ∧ Agree kR kI ∧ kI.complete = true ∧ kR.complete = true ∧
    kI.txSeq = 0 ∧ kR.txSeq = 0 ∧ kI.rxSeqs = [] ∧ kR.rxSeqs = [] := exchange_agree toy toy_ok client (server false) client_ok (server_ok _) 42 [6] 11 [8, 8] (by decide) (by decide)

/-- the server requires sequence numbers of the client: three packets, the second twice and the first late -/
example : ((exchange toy client (server false) 42 [6] 11 [8, 8]).map (fun r => (r.2.2.sseqRecv,
      let d := (transmit toy r.2.1 [[1, 2], [3], [4, 5]]).map (fun x => (100, x.bytes))
      (receive toy r.2.2 [d.getD 1 (0, []), d.getD 1 (0, []), d.getD 0 (0, []), d.getD 2 (0, []), d.getD 0 (0, [])]).map (fun
        | .ok (b, m) => (b.drop m).take 2
        | _ => [])))) = some (true, [[3, 0xff], [], [1, 2], [4, 5], []]) := by decide +kernel

/-- before keys are complete -/
example : Agree (Key.init (client.adapter toy)) (Key.init ((server false).adapter toy)) := ⟨rfl, nofun, nofun, nofun, nofun⟩

end Rtmfp
