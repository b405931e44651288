import Verif.Lemmas.RtmpBook

/-! # What an RTMP has said: the invariant -/

namespace Rtmfp.Rtmp

open Spec.Chunks Spec.Web

/-- given to the stream, or about to be -/
def said (st : St) : Bytes := puts st.log ++ st.tx.out

/-- The chunks said so far say the messages that were sent; the queues and the chunk streams go with them. -/
def Tells (st : St) : Prop :=
  ∃ (h : Bytes) (cs : List Chunk) (b : Bytes) (d : Dec) (ms : List Message), h.length = 3072 ∧ (∀ c ∈ cs, c.Fits) ∧ Dec.init.hear cs = some (b, d, ms) ∧
    said st = 3 :: (h ++ b) ∧ users ms = fins st.log ∧ Fit st.tx d ∧ Link' st.tx.queues d st.tx.streams

theorem Tells.adds {a b : St} (h : Tells a) (g : Adds a b) : Tells b := by
  obtain ⟨hs, cs, x, d, ms, h1, h2, h3, h4, h5, h6, h7⟩ := h
  obtain ⟨⟨l, g1, g2, g3, g4, g5⟩, ⟨y, s1, s2, s3⟩, _⟩ := g
  obtain ⟨f1, f2, f3, f4, f5, f6, f7, f8⟩ := g2.facts
  obtain ⟨cs', d', ms', k1, k2, k3, k4, k5⟩ := s3 d h6
  refine ⟨hs, cs ++ cs', x ++ y, d', ms ++ ms', h1, fun c hc => ?_, ?_, ?_, ?_, k4, ?_⟩
  · rcases List.mem_append.mp hc with e | e
    · exact h2 c e
    · exact k1 c e
  · rw [hear_append, h3]
    simp [k2]
  · unfold said at *
    rw [g1, puts_append, f1, List.append_nil, s1, ← List.append_assoc, h4]
    simp
  · rw [users_append, h5, k3, g1, fins_append, f2]
  · exact h7.grow (fun p => newAt p l) g3 f7 f8 k5 s2 k4.two

theorem Tells.low {a : St} (h : Tells a) (p : Nat) (hp : a.tx.queues p ≠ []) : p < 8 := by
  obtain ⟨_, _, _, _, _, _, _, _, _, _, _, L⟩ := h
  exact L.low p hp

theorem Tells.lo {a : St} (h : Tells a) : 128 ≤ a.tx.size := by
  obtain ⟨_, _, _, _, _, _, _, _, _, _, F, _⟩ := h
  exact F.lo

theorem Tells.wired {a : St} (h : Tells a) : Wired a := by
  obtain ⟨hs, cs, x, d, ms, h1, h2, h3, h4, h5, _, _⟩ := h
  exact ⟨hs, cs, x, d, ms, h1, h2, h3, ⟨a.tx.out, h4⟩, h5⟩

/-- the first of a queue is abandoned -/
theorem Tells.drop {st : St} (h : Tells st) (app : App) (p : Nat) (m : Msg) (l : List Msg) (hq : st.tx.queues p = m :: l) : Tells (dropFirst app st p m).1 := by
  obtain ⟨hs, cs, x, d, ms, h1, h2, h3, h4, h5, F, L⟩ := h
  unfold dropFirst emit
  have hp : puts (st.log ++ [.dropped p m.id m.sid m.type m.ts m.payload]) = puts st.log := by rw [puts_append]; simp [puts]
  have hf : fins (st.log ++ [.dropped p m.id m.sid m.type m.ts m.payload]) = fins st.log := by rw [fins_append]; simp [fins]
  cases hc : m.cs with
  | none =>
    dsimp only
    refine ⟨hs, cs, x, d, ms, h1, h2, h3, ?_, ?_, F.congr rfl rfl, ?_⟩
    · unfold said; dsimp only; rw [hp]; exact h4
    · dsimp only; rw [hf]; exact h5
    · dsimp only
      rw [hq, List.drop_one, List.tail_cons]
      refine L.shift p m l hq 2 (fun q m' l' _ e hk => ?_) (.inl hc) (fun _ _ _ => rfl) (fun _ _ _ => rfl) F.two F.two
      have := (L.head q m' l' 2 e hk).1
      omega
  | some k =>
    obtain ⟨k3, k24, kb, s, s1, s2, s3, s4, s5, s6⟩ := L.head p m l k hq hc
    have hP := F.pair k
    rw [s1] at hP
    have q1 := (hP.2.2.2.2.2.2.2 kb).1
    have ho : m.offset ≠ 0 := by
      intro e
      rw [e] at s6
      exact q1 (by rw [s6]; rfl)
    have hpart : (decide (m.offset ≠ 0) && (st.tx.streams k).busy) = true := by rw [kb]; simp [ho]
    dsimp only
    rw [hpart, if_pos rfl]
    obtain ⟨y, y1, y2, y3⟩ := abort_speak st.tx (app.now st.log) k k3 k24
    obtain ⟨c, d', c1, c2, c3, c4⟩ := y3 d s F s1
    have hq' : (abortChunk st.tx (app.now st.log) k).queues = st.tx.queues := rfl
    generalize abortChunk st.tx (app.now st.log) k = t at *
    refine ⟨hs, cs ++ [c], x ++ y, d', ms ++ [⟨0, 2, 0, u32 (UInt32.ofNat (k &&& 0xffffff))⟩], h1, fun c' hc' => ?_, ?_, ?_, ?_, c3.congr rfl rfl, ?_⟩
    · rcases List.mem_append.mp hc' with e | e
      · exact h2 c' e
      · rw [List.mem_singleton] at e; rw [e]; exact c1
    · rw [hear_append, h3]
      simp [c2]
    · unfold said at *
      dsimp only
      rw [hp, y1, ← List.append_assoc, h4]
      simp
    · dsimp only
      rw [hf, users_append, h5]
      simp [users, isControl]
    · dsimp only
      rw [hq', hq, List.drop_one, List.tail_cons]
      refine L.shift p m l hq k (fun q m' l' hqp e hk => hqp (L.once q p m' l' m l k e hq hk hc)) (.inr hc) c4 (fun i i2 ik => ?_) ?_ ?_
      · rw [put_off _ ik]; exact y2 i i2
      · exact c3.two
      · rw [put_at]

/-- what was said, before there are chunks -/
def Said : Phase → Bool → Bytes → Prop
  | .unknown, _, b => b = []
  | .uninit, true, b => b = []
  | .uninit, false, b => ∃ h : Bytes, h.length = 1536 ∧ b = 3 :: h
  | .versionSent, _, b => ∃ h : Bytes, h.length = 1536 ∧ b = 3 :: h
  | .ackSent, _, b => ∃ h : Bytes, h.length = 3072 ∧ b = 3 :: h
  | _, _, _ => False

/-- before there are chunks -/
structure Quiet (st : St) : Prop where
  fins : fins st.log = []
  idle : ∀ i, (st.tx.streams i).h.initted = false ∧ (st.tx.streams i).busy = false
  lo : 128 ≤ st.tx.size
  hi : st.tx.size ≤ 0x7fffffff
  new : ∀ p, ∀ m ∈ st.tx.queues p, m.cs = none ∧ m.Good
  low : ∀ p, st.tx.queues p ≠ [] → p < 8
  said : Said st.phase st.server (said st)

theorem Said.rank {p : Phase} {s : Bool} {b : Bytes} (h : Said p s b) : p.rank < 4 := by
  cases p <;> first | decide | exact h.elim

theorem Said.first {p : Phase} {s : Bool} {b : Bytes} (h : Said p s b) : ∃ x : Bytes, x.length = 3072 ∧ b <+: 3 :: x := by
  have e0 : ∃ x : Bytes, x.length = 3072 ∧ ([] : Bytes) <+: 3 :: x := ⟨List.replicate 3072 0, by rw [List.length_replicate], List.nil_prefix⟩
  have e1 : ∀ h : Bytes, h.length = 1536 → ∃ x : Bytes, x.length = 3072 ∧ (3 :: h) <+: 3 :: x := fun h hl =>
    ⟨h ++ List.replicate 1536 0, by rw [List.length_append, List.length_replicate, hl], ⟨List.replicate 1536 0, List.cons_append⟩⟩
  cases p with
  | unknown => rw [show b = [] from h]; exact e0
  | uninit =>
    cases s with
    | true => rw [show b = [] from h]; exact e0
    | false => obtain ⟨h, hl, rfl⟩ := h; exact e1 h hl
  | versionSent => obtain ⟨h, hl, rfl⟩ := h; exact e1 h hl
  | ackSent => obtain ⟨h, hl, rfl⟩ := h; exact ⟨h, hl, List.prefix_rfl⟩
  | opn => exact h.elim
  | closing => exact h.elim
  | error => exact h.elim

theorem Quiet.wired {st : St} (h : Quiet st) : Wired st := by
  obtain ⟨x, x1, x2⟩ := h.said.first
  refine ⟨x, [], [], Dec.init, [], x1, by simp, rfl, ?_, h.fins.symm⟩
  rw [List.append_nil]
  exact (List.prefix_append _ _).trans x2

theorem Quiet.grow {a b : St} (h : Quiet a) (g : Grow a b) (hs : b.tx.streams = a.tx.streams) (lo : 128 ≤ b.tx.size) (hi : b.tx.size ≤ 0x7fffffff)
    (hd : Said b.phase b.server (Rtmp.said b)) : Quiet b := by
  obtain ⟨l, g1, g2, g3, g4, g5⟩ := g
  obtain ⟨f1, f2, f3, f4, f5, f6, f7, f8⟩ := g2.facts
  refine ⟨by rw [g1, fins_append, h.fins, f2]; rfl, by rw [hs]; exact h.idle, lo, hi, fun p m hm => ?_, fun p hp => ?_, hd⟩
  · rw [g3] at hm
    rcases List.mem_append.mp hm with e | e
    · exact h.new p m e
    · exact f7 p m e
  · rw [g3] at hp
    by_cases e : a.tx.queues p = []
    · rw [e] at hp; exact f8 p hp
    · exact h.low p e

theorem Grow.said {a b : St} (g : Grow a b) (y : Bytes) (ho : b.tx.out = a.tx.out ++ y) : Rtmp.said b = Rtmp.said a ++ y := by
  obtain ⟨l, g1, g2, _⟩ := g
  unfold Rtmp.said
  rw [g1, puts_append, g2.facts.1, List.append_nil, ho, List.append_assoc]

theorem Quiet.plain {a b : St} (h : Quiet a) (g : Grow a b) (ho : b.tx.out = a.tx.out) (hs : b.tx.streams = a.tx.streams) (hz : b.tx.size = a.tx.size)
    (hp : b.phase = a.phase) (hv : b.server = a.server) : Quiet b :=
  h.grow g hs (hz ▸ h.lo) (hz ▸ h.hi) (by rw [g.said [] (by simp [ho]), List.append_nil, hp, hv]; exact h.said)

theorem Quiet.drop {st : St} (h : Quiet st) (app : App) (p : Nat) (m : Msg) (l : List Msg) (hq : st.tx.queues p = m :: l) : Quiet (dropFirst app st p m).1 := by
  have hc := (h.new p m (by rw [hq]; simp)).1
  have hp : puts (st.log ++ [.dropped p m.id m.sid m.type m.ts m.payload]) = puts st.log := by rw [puts_append]; simp [puts]
  have hf : Rtmp.fins (st.log ++ [.dropped p m.id m.sid m.type m.ts m.payload]) = Rtmp.fins st.log := by rw [fins_append]; simp [Rtmp.fins]
  unfold dropFirst emit
  rw [hc]
  dsimp only
  rw [hq, List.drop_one, List.tail_cons]
  refine ⟨hf.trans h.fins, h.idle, h.lo, h.hi, fun q x hx => ?_, fun q hx => ?_, ?_⟩
  · by_cases e : q = p
    · subst e
      dsimp only at hx
      rw [put_at] at hx
      exact h.new q x (by rw [hq]; simp [hx])
    · dsimp only at hx
      rw [put_off _ e] at hx
      exact h.new q x hx
  · by_cases e : q = p
    · subst e; exact h.low q (by rw [hq]; simp)
    · dsimp only at hx
      rw [put_off _ e] at hx
      exact h.low q hx
  · unfold Rtmp.said
    dsimp only
    rw [hp]
    exact h.said

theorem handshake_length (a b : UInt32) (x : UInt8) : (u32 a ++ u32 b ++ List.replicate 1528 x).length = 1536 := by
  rw [List.length_append, List.length_append, u32_length, u32_length, List.length_replicate]

/-- the first part of the handshake is put into the output buffer -/
theorem handshake01_facts (app : App) (st : St) : let u := handshake01 app st
    Grow st u ∧ (∃ h : Bytes, h.length = 1536 ∧ u.tx.out = st.tx.out ++ 3 :: h) ∧ u.tx.streams = st.tx.streams ∧ u.tx.size = st.tx.size ∧
    u.phase = st.phase ∧ u.server = st.server := by
  simp only
  unfold handshake01
  generalize hs : ({ st with tx := { st.tx with
    out := st.tx.out ++ ([3] ++ u32 (app.stamp st.log) ++ u32 0 ++ List.replicate 1528 (if st.server then 0x53 else 0x43)) } } : St) = s
  have g : Grow st s := by rw [← hs]; exact .mute [] (by simp) nil_mute rfl rfl
  have e1 : ∃ h : Bytes, h.length = 1536 ∧ s.tx.out = st.tx.out ++ 3 :: h :=
    ⟨_, handshake_length (app.stamp st.log) 0 (if st.server then 0x53 else 0x43), by rw [← hs]; simp only [List.append_assoc, List.cons_append, List.nil_append]⟩
  have e2 : s.tx.streams = st.tx.streams := by rw [← hs]
  have e3 : s.tx.size = st.tx.size := by rw [← hs]
  have e4 : s.phase = st.phase := by rw [← hs]
  have e5 : s.server = st.server := by rw [← hs]
  clear hs
  obtain ⟨l, l1, l2⟩ := scheduleWrite_log s
  refine ⟨g.trans (.mute l l1 l2 (by rw [scheduleWrite_tx]) (by rw [scheduleWrite_tx])), ?_, ?_, ?_, ?_, ?_⟩
  · rw [scheduleWrite_tx]; exact e1
  · rw [scheduleWrite_tx]; exact e2
  · rw [scheduleWrite_tx]; exact e3
  · rw [scheduleWrite_phase]; exact e4
  · rw [scheduleWrite_server]; exact e5

theorem rank_zero {p : Phase} (h : ¬ p.rank > 0) : p = .unknown := by
  cases p <;> first | rfl | exact absurd (by decide) h

/-- The functions of the application, before there are chunks -/
theorem Quiet.call {st : St} (h : Quiet st) (hb : Book st) (app : App) (c : Call) :
    (Grow st (call app st c) ∧ Quiet (call app st c)) ∨ Ended (call app st c) := by
  have g0 : Grow st (emit st (.did c)) := .mute [.did c] rfl (one_mute rfl) rfl rfl
  have h0 : Quiet (emit st (.did c)) := h.plain g0 rfl rfl rfl rfl rfl
  have b0 := hb.grow g0
  unfold Rtmp.call
  simp only
  generalize emit st (.did c) = s at *
  cases c with
  | init server =>
    left
    simp only
    unfold start
    split
    · exact ⟨g0, h0⟩
    · next hr =>
      have hu := rank_zero hr
      have hsd : Rtmp.said s = [] := by have := h0.said; rw [hu] at this; exact this
      simp only
      have g1 : Grow s { s with server := server, phase := .uninit } := .mute [] (by simp) nil_mute rfl rfl
      cases server with
      | true => exact ⟨g0.trans g1, h0.grow g1 rfl h0.lo h0.hi hsd⟩
      | false =>
        rw [if_neg (by simp)]
        obtain ⟨k1, ⟨x, x1, x2⟩, k3, k4, k5, k6⟩ := handshake01_facts app { s with server := false, phase := .uninit }
        generalize handshake01 app { s with server := false, phase := .uninit } = u at *
        have g2 := g1.trans k1
        refine ⟨g0.trans g2, h0.grow g2 k3 (k4 ▸ h0.lo) (k4 ▸ h0.hi) ?_⟩
        rw [k5, k6, g2.said (3 :: x) x2, hsd]
        exact ⟨x, x1, rfl⟩
  | chunkSize n =>
    left
    simp only
    unfold setSize
    split
    · exact ⟨g0, h0⟩
    · rw [if_neg (by intro e; have := h0.said.rank; rw [e] at this; exact absurd this (by decide))]
      have g1 : Grow s { s with tx := { s.tx with size := clamp n } } := .mute [] (by simp) nil_mute rfl rfl
      exact ⟨g0.trans g1, h0.grow g1 rfl (clamp_bounds n).1 (clamp_bounds n).2 h0.said⟩
  | write pri sid type ts payload =>
    left
    simp only
    obtain ⟨w1, w2, w3, w4, w5, w6⟩ := write_facts s pri sid type ts payload
    exact ⟨g0.trans w1, h0.plain w1 w2 w3 w4 w5 w6⟩
  | close =>
    right
    simp only
    unfold close
    simp only
    have g1 : Grow s (clear s) := .mute [] (by simp [clear]) nil_mute rfl rfl
    have h1 : Quiet (clear s) := h0.plain g1 rfl rfl rfl rfl rfl
    have b1 := b0.grow g1
    generalize clear s = s1 at *
    have hr := h1.said.rank
    rw [if_neg (by intro e; rw [e] at hr; exact absurd hr (by decide)), if_neg (by intro e; rw [e] at hr; exact absurd hr (by decide))]
    exact setClosed_ended app s1 (by intro e; rw [e] at hr; exact absurd hr (by decide)) h1.wired b1 h1.low
  | simple b =>
    left
    have g1 : Grow s { s with tx := { s.tx with simple := b } } := .mute [] (by simp) nil_mute rfl rfl
    exact ⟨g0.trans g1, h0.plain g1 rfl rfl rfl rfl rfl⟩
  | pause b =>
    left
    simp only
    obtain ⟨p1, p2, p5, l, p3, p4⟩ := setPaused_tx s b
    have g1 : Grow s (setPaused s b) := .mute l p3 p4 (by rw [p1]) (by rw [p1])
    exact ⟨g0.trans g1, h0.plain g1 (by rw [p1]) (by rw [p1]) (by rw [p1]) p2 p5⟩

theorem Quiet.calls (app : App) (l : List Call) : ∀ {st : St}, Quiet st → Book st →
    (Grow st (l.foldl (Rtmp.call app) st) ∧ Quiet (l.foldl (Rtmp.call app) st)) ∨ Ended (l.foldl (Rtmp.call app) st) := by
  induction l with
  | nil => intro st h _; exact .inl ⟨.refl st, h⟩
  | cons c l ih =>
    intro st h hb
    rcases h.call hb app c with ⟨g, q⟩ | e
    · rcases ih q (hb.grow g) with ⟨g', q'⟩ | e
      · exact .inl ⟨g.trans g', q'⟩
      · exact .inr e
    · exact .inr (e.calls app l)

theorem Quiet.callback {st : St} (h : Quiet st) (hb : Book st) (app : App) (e : Ev) (he : loud e = false) :
    (Grow st (callback app st e) ∧ Quiet (callback app st e)) ∨ Ended (callback app st e) := by
  have g0 : Grow st (emit st e) := .mute [e] rfl (one_mute he) rfl rfl
  have h0 : Quiet (emit st e) := h.plain g0 rfl rfl rfl rfl rfl
  unfold Rtmp.callback
  rcases h0.calls app (app.react (emit st e).log) (hb.grow g0) with ⟨g, q⟩ | x
  · exact .inl ⟨g0.trans g, q⟩
  · exact .inr x

/-- always -/
def Inv (st : St) : Prop := (Book st ∧ Talking st ∧ Tells st) ∨ (Book st ∧ Quiet st) ∨ Ended st

theorem Inv.book {st : St} (h : Inv st) : Book st := by
  rcases h with h | h | h
  · exact h.1
  · exact h.1
  · exact h.book

theorem Inv.wired {st : St} (h : Inv st) : Wired st := by
  rcases h with h | h | h
  · exact h.2.2.wired
  · exact h.2.wired
  · exact h.wired

theorem Inv.low {st : St} (h : Inv st) (p : Nat) (hp : st.tx.queues p ≠ []) : p < 8 := by
  rcases h with h | h | h
  · exact h.2.2.low p hp
  · exact h.2.low p hp
  · exact absurd (h.queues p) hp

theorem Inv.closed {st : St} (h : Inv st) (app : App) : Inv (setClosed app st) := by
  by_cases he : st.phase = .error
  · rcases h with h | h | h
    · rcases h.2.1 with g | g <;> rw [g] at he <;> nomatch he
    · have := h.2.said.rank; rw [he] at this; exact absurd this (by decide)
    · exact .inr (.inr (h.closed app))
  · exact .inr (.inr (setClosed_ended app st he h.wired h.book h.low))

theorem Inv.adds {a b : St} (h : Book a ∧ Talking a ∧ Tells a) (g : Adds a b) : Book b ∧ Talking b ∧ Tells b :=
  ⟨h.1.grow g.1, g.2.2.1, h.2.2.adds g⟩

theorem inv_able {a : St} (h : Book a ∧ Talking a ∧ Tells a) : Able a := ⟨h.2.1, h.2.2.lo⟩

theorem Inv.call {st : St} (h : Inv st) (app : App) (c : Call) : Inv (Rtmp.call app st c) := by
  rcases h with h | h | h
  · exact .inl (Inv.adds h (call_adds app st (inv_able h) c))
  · rcases h.2.call h.1 app c with ⟨g, q⟩ | e
    · exact .inr (.inl ⟨h.1.grow g, q⟩)
    · exact .inr (.inr e)
  · exact .inr (.inr (h.call app c))

theorem inv_init : Inv init := by
  refine .inr (.inl ⟨⟨fun _ => rfl, rfl, rfl⟩, rfl, fun _ => ⟨rfl, rfl⟩, by decide, by decide, fun p m hm => ?_, fun p hp => absurd rfl hp, rfl⟩)
  simp [init] at hm

end Rtmfp.Rtmp
