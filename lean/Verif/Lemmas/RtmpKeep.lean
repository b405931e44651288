import Verif.Lemmas.RtmpInv

/-! # What an RTMP has said: every step -/

namespace Rtmfp.Rtmp

open Spec.Chunks Spec.Web

/-! ## Reading -/

/-- something that is only about receiving -/
theorem rx_adds {a b : St} (ha : Able a) (hl : b.log = a.log) (ht : b.tx = a.tx) (hp : b.phase = a.phase) : Adds a b :=
  .mute ha [] (by simp [hl]) nil_mute (by rw [ht]) (by rw [ht]) (by rw [ht]) (by rw [ht]) (by rw [ht]) (by unfold Talking; rw [hp]; exact ha.1)

theorem sendAck_adds (app : App) (st : St) (ha : Able st) : Adds st (sendAck app st) := by
  unfold sendAck
  rw [if_pos ha.1.rank]
  have h1 : Adds st { st with tx := control st.tx (app.now st.log) 3 (u32 st.rx.received.toUInt32), rx := { st.rx with lastAckSent := st.rx.received } } :=
    ⟨.mute [] (by simp) nil_mute rfl rfl, control_speak st.tx (app.now st.log) 3 _ (.inl rfl) (u32_length _) ha.2, ha.1, ha.2⟩
  exact h1.trans (scheduleWrite_adds h1.2.2)

theorem refresh_queues (t : Tx) (now : Int) : (refreshWindow t now).queues = t.queues ∧ (refreshWindow t now).nextId = t.nextId := by
  unfold refreshWindow
  dsimp only
  split <;> exact ⟨rfl, rfl⟩

theorem completed_adds (app : App) (st : St) (ha : Able st) (sid : UInt32) (type : UInt8) (ts : UInt32) (p : Bytes) :
    Adds st (onMessageCompleted app st sid type ts p).1 := by
  unfold onMessageCompleted
  split
  · split
    · exact .refl ha
    · split
      · unfold onSetChunkSize
        split
        · exact .refl ha
        · dsimp only
          split
          · exact .refl ha
          · exact rx_adds ha rfl rfl rfl
      · split
        · unfold onAbort
          split
          · exact .refl ha
          · dsimp only
            split
            · exact .refl ha
            · split
              · exact .refl ha
              · exact rx_adds ha rfl rfl rfl
        · split
          · unfold onAck
            split
            · exact .refl ha
            · dsimp only
              generalize hs : ({ st with tx := { st.tx with acked := st.tx.acked + (readBe (p.take 4) - st.tx.lastAckRecv).toUInt64, lastAckRecv := readBe (p.take 4), anchor := st.tx.anchor && !decide (st.tx.acked + (readBe (p.take 4) - st.tx.lastAckRecv).toUInt64 > st.tx.rttPos) } } : St) = s
              have h1 : Adds st s := by
                rw [← hs]
                exact .mute ha [] (by simp) nil_mute rfl rfl rfl rfl rfl ha.1
              exact h1.trans (scheduleWrite_adds h1.2.2)
          · split
            · unfold onWindowAckSize
              split
              · exact .refl ha
              · dsimp only
                have h1 : Adds st { st with rx := { st.rx with window := (max (readBe (p.take 4)) 1).toUInt64 } } := rx_adds ha rfl rfl rfl
                exact h1.trans (sendAck_adds app _ h1.2.2)
            · unfold onSetPeerBandwidth
              split
              · exact .refl ha
              · dsimp only
                split
                · exact .refl ha
                · generalize ht : ({ st.tx with bwType := (if p.getD 4 0 = 2 then 0 else p.getD 4 0), bwAck := (max (readBe (p.take 4) / 2) 2).toUInt64 } : Tx) = t
                  have q1 : t.queues = st.tx.queues := by rw [← ht]
                  have q2 : t.nextId = st.tx.nextId := by rw [← ht]
                  have q3 : t.size = st.tx.size := by rw [← ht]
                  have q4 : Speak st.tx t := by rw [← ht]; exact .of_eq rfl rfl rfl
                  clear ht
                  have r1 := refresh_queues t (app.now st.log)
                  have r2 := refresh_size t (app.now st.log)
                  have r3 := refresh_speak t (app.now st.log) (q3 ▸ ha.2)
                  generalize refreshWindow t (app.now st.log) = u at *
                  refine ⟨.mute [] (by simp) nil_mute (r1.1.trans q1) (r1.2.trans q2), (q4.trans r3).trans (.of_eq rfl rfl rfl), ha.1, ?_⟩
                  show 128 ≤ u.size
                  rw [r2, q3]; exact ha.2
  · dsimp only
    split
    · exact callback_adds app st ha _ rfl
    · exact .refl ha

theorem openInput_adds (app : App) (st : St) (ha : Able st) (bs : Bytes) : Adds st (openInput app st bs).1 := by
  unfold openInput
  split
  · exact .refl ha
  · exact .refl ha
  · next cs c n _ =>
    dsimp only
    have h1 : Adds st { st with rx := { st.rx with streams := put st.rx.streams cs c } } := rx_adds ha rfl rfl rfl
    generalize ({ st with rx := { st.rx with streams := put st.rx.streams cs c } } : St) = s at *
    split
    · have h2 := h1.trans (completed_adds app s h1.2.2 c.h.sid c.h.type c.h.ts c.payload)
      generalize onMessageCompleted app s c.h.sid c.h.type c.h.ts c.payload = r at *
      split
      · exact h2.trans (rx_adds h2.2.2 rfl rfl rfl)
      · exact h2
    · exact h1

/-- The handshake is complete. -/
theorem opens (app : App) (st : St) (h : Book st ∧ Quiet st) (hp : st.phase = .ackSent) :
    Book { st with phase := .opn, tx := refreshWindow (if st.tx.size ≠ 128 then setChunk st.tx (app.now st.log) else st.tx) (app.now st.log) } ∧
    Tells { st with phase := .opn, tx := refreshWindow (if st.tx.size ≠ 128 then setChunk st.tx (app.now st.log) else st.tx) (app.now st.log) } := by
  obtain ⟨hb, hq⟩ := h
  have hsd := hq.said
  rw [hp] at hsd
  obtain ⟨hs, hs1, hs2⟩ := hsd
  have hpair : ∀ i, Pair (st.tx.streams i) (Dec.init.streams i) := fun i => hq.idle i
  have L0 : ∀ (d : Dec) (f : Nat → SendCs), (f 2).busy = false → (∀ i, i ≠ 2 → f i = st.tx.streams i) → Link' st.tx.queues d f := by
    intro d f f2 fo
    refine ⟨fun p m hm => (hq.new p m hm).2, hq.low, fun p m l e x hx => (hq.new p x (by rw [e]; simp [hx])).1, fun p m l k e hk => ?_,
      fun p q m l m' l' k e e' hk hk' => ?_, fun k hk => ?_⟩
    · have := (hq.new p m (by rw [e]; simp)).1
      rw [hk] at this; nomatch this
    · have := (hq.new p m (by rw [e]; simp)).1
      rw [hk] at this; nomatch this
    · by_cases e : k = 2
      · rw [e, f2] at hk; nomatch hk
      · rw [fo k e, (hq.idle k).2] at hk; nomatch hk
  have t1 : ∃ (cs : List Chunk) (x : Bytes) (d : Dec) (ms : List Message), (∀ c ∈ cs, c.Fits) ∧ Dec.init.hear cs = some (x, d, ms) ∧ users ms = [] ∧
      (if st.tx.size ≠ 128 then setChunk st.tx (app.now st.log) else st.tx).out = st.tx.out ++ x ∧
      Fit (if st.tx.size ≠ 128 then setChunk st.tx (app.now st.log) else st.tx) d ∧
      (∀ i, i ≠ 2 → (if st.tx.size ≠ 128 then setChunk st.tx (app.now st.log) else st.tx).streams i = st.tx.streams i) := by
    by_cases e : st.tx.size ≠ 128
    · rw [if_pos e]
      obtain ⟨c, d', c1, c2, c3, c4, c5⟩ := size_speak st.tx Dec.init (app.now st.log) hpair (hq.idle 2).2 hq.lo hq.hi (by decide)
      refine ⟨[c], Dec.init.wire c, d', [⟨0, 1, 0, u32 (UInt32.ofNat (st.tx.size &&& 0x7fffffff))⟩], by simpa using c1, ?_, rfl, c4, c3, fun i hi => setChunk_streams _ _ i hi⟩
      simp [Dec.hear, c2]
    · rw [if_neg e]
      exact ⟨[], [], Dec.init, [], by simp, rfl, rfl, by simp, ⟨hpair, by simpa [Dec.init] using e, (hq.idle 2).2, hq.lo, hq.hi⟩, fun _ _ => rfl⟩
  have tq : (if st.tx.size ≠ 128 then setChunk st.tx (app.now st.log) else st.tx).queues = st.tx.queues ∧
      (if st.tx.size ≠ 128 then setChunk st.tx (app.now st.log) else st.tx).nextId = st.tx.nextId := by
    split <;> exact ⟨rfl, rfl⟩
  generalize (if st.tx.size ≠ 128 then setChunk st.tx (app.now st.log) else st.tx) = t at *
  obtain ⟨cs, x, d, ms, k1, k2, k3, k4, k5, k6⟩ := t1
  have T : Tells { st with phase := .opn, tx := t } := by
    refine ⟨hs, cs, x, d, ms, hs1, k1, k2, ?_, ?_, k5, ?_⟩
    · unfold said at *
      dsimp only
      rw [k4, ← List.append_assoc, hs2]
      rfl
    · rw [k3]; exact hq.fins.symm
    · dsimp only
      rw [tq.1]
      exact L0 d t.streams k5.two k6
  have A : Adds { st with phase := .opn, tx := t } { st with phase := .opn, tx := refreshWindow t (app.now st.log) } := by
    have r1 := refresh_queues t (app.now st.log)
    refine ⟨.mute [] (by simp) nil_mute r1.1 r1.2, refresh_speak t (app.now st.log) k5.lo, .inl rfl, ?_⟩
    show 128 ≤ (refreshWindow t (app.now st.log)).size
    rw [refresh_size]; exact k5.lo
  have B : Book { st with phase := .opn, tx := t } := hb.grow (.mute [] (by simp) nil_mute tq.1 tq.2)
  exact ⟨B.grow A.1, T.adds A⟩

theorem Inv.input {st : St} (h : Inv st) (app : App) (bs : Bytes) : Inv (onInput app st bs).1 := by
  unfold onInput
  have quiet : st.phase.rank < 4 → Book st ∧ Quiet st := by
    intro hr
    rcases h with g | g | g
    · have := g.2.1.rank; omega
    · exact g
    · rw [g.phase] at hr; exact absurd hr (by decide)
  have talk : Talking st → Inv (openInput app st bs).1 := by
    intro ht
    rcases h with g | g | g
    · exact .inl (Inv.adds g (openInput_adds app st (inv_able g) bs))
    · have := g.2.said.rank; have := ht.rank; omega
    · rcases ht with e | e <;> rw [g.phase] at e <;> nomatch e
  cases hp : st.phase with
  | unknown => exact h
  | error => exact h
  | opn => exact talk (.inl hp)
  | closing => exact talk (.inr hp)
  | uninit =>
    obtain ⟨hb, hq⟩ := quiet (by rw [hp]; decide)
    dsimp only
    unfold uninitInput
    dsimp only
    split
    · exact h
    · have hsd := hq.said
      rw [hp] at hsd
      cases hv : st.server with
      | true =>
        rw [if_pos rfl]
        obtain ⟨k1, ⟨x, x1, x2⟩, k3, k4, k5, k6⟩ := handshake01_facts app st
        rw [hv] at hsd
        generalize handshake01 app st = u at *
        have g2 : Grow st { u with phase := .versionSent } := k1.trans (.mute [] (by simp) nil_mute rfl rfl)
        refine .inr (.inl ⟨hb.grow g2, hq.grow g2 k3 (k4 ▸ hq.lo) (k4 ▸ hq.hi) ?_⟩)
        rw [g2.said (3 :: x) x2, show said st = [] from hsd]
        exact ⟨x, x1, rfl⟩
      | false =>
        rw [if_neg (by simp)]
        rw [hv] at hsd
        have g2 : Grow st { st with phase := .versionSent } := .mute [] (by simp) nil_mute rfl rfl
        exact .inr (.inl ⟨hb.grow g2, hq.grow g2 rfl hq.lo hq.hi hsd⟩)
  | versionSent =>
    obtain ⟨hb, hq⟩ := quiet (by rw [hp]; decide)
    dsimp only
    unfold versionInput
    split
    · exact h
    · next hl =>
      dsimp only
      have hsd := hq.said
      rw [hp] at hsd
      obtain ⟨y, y1, y2⟩ := hsd
      have hx : (bs.take 4 ++ u32 (app.stamp st.log) ++ (bs.take 1536).drop 8).length = 1536 := by
        rw [List.length_append, List.length_append, u32_length, List.length_take, List.length_drop, List.length_take]
        omega
      generalize (bs.take 4 ++ u32 (app.stamp st.log) ++ (bs.take 1536).drop 8) = x at *
      have g1 : Grow st { st with tx := { st.tx with out := st.tx.out ++ x } } := .mute [] (by simp) nil_mute rfl rfl
      generalize hs : ({ st with tx := { st.tx with out := st.tx.out ++ x } } : St) = s at *
      have e1 : s.tx.out = st.tx.out ++ x := by rw [← hs]
      have e2 : s.tx.streams = st.tx.streams := by rw [← hs]
      have e3 : s.tx.size = st.tx.size := by rw [← hs]
      clear hs
      obtain ⟨l, l1, l2⟩ := scheduleWrite_log s
      have tt := scheduleWrite_tx s
      generalize scheduleWrite s = u at *
      have g2 : Grow st { u with phase := .ackSent } := (g1.trans (b := s) (.mute l l1 l2 (by rw [tt]) (by rw [tt]))).trans (.mute [] (by simp) nil_mute rfl rfl)
      refine .inr (.inl ⟨hb.grow g2, hq.grow g2 (by rw [← e2, ← tt]) ?_ ?_ ?_⟩)
      · show 128 ≤ u.tx.size
        rw [tt, e3]; exact hq.lo
      · show u.tx.size ≤ _
        rw [tt, e3]; exact hq.hi
      · rw [g2.said x (by rw [← e1, ← tt]), y2]
        exact ⟨y ++ x, by rw [List.length_append, y1, hx], rfl⟩
  | ackSent =>
    have hq := quiet (by rw [hp]; decide)
    dsimp only
    unfold ackInput
    split
    · exact h
    · dsimp only
      obtain ⟨B, T⟩ := opens app st hq hp
      have hph : ({ st with phase := Phase.opn, tx := refreshWindow (if st.tx.size ≠ 128 then setChunk st.tx (app.now st.log) else st.tx) (app.now st.log) } : St).phase = .opn := rfl
      generalize ({ st with phase := Phase.opn, tx := refreshWindow (if st.tx.size ≠ 128 then setChunk st.tx (app.now st.log) else st.tx) (app.now st.log) } : St) = s at *
      have k0 : Book s ∧ Talking s ∧ Tells s := ⟨B, .inl hph, T⟩
      have k1 := Inv.adds k0 (scheduleWrite_adds (inv_able k0))
      generalize scheduleWrite s = u at *
      split
      · exact .inl (Inv.adds k1 (callback_adds app u (inv_able k1) _ rfl))
      · exact .inl k1

theorem Inv.loop (app : App) (fuel : Nat) : ∀ {st : St} (buf : Bytes), Inv st → Inv (Rtmp.loop app fuel st buf).1 := by
  induction fuel with
  | zero => intro st buf h; exact h
  | succ fuel ih =>
    intro st buf h
    unfold Rtmp.loop
    split
    · exact h
    · have h1 := h.input app buf
      generalize onInput app st buf = r at *
      obtain ⟨s, o⟩ := r
      cases o with
      | none => exact h1.closed app
      | some n =>
        dsimp only
        split
        · exact h1
        · exact ih _ h1

/-- nothing but receiving is changed -/
theorem Inv.rx {a b : St} (h : Inv a) (hl : b.log = a.log) (ht : b.tx = a.tx) (hp : b.phase = a.phase) (hv : b.server = a.server) : Inv b := by
  have g : Grow a b := .mute [] (by simp [hl]) nil_mute (by rw [ht]) (by rw [ht])
  rcases h with h | h | h
  · exact .inl (Inv.adds h (rx_adds (inv_able h) hl ht hp))
  · exact .inr (.inl ⟨h.1.grow g, h.2.plain g (by rw [ht]) (by rw [ht]) (by rw [ht]) hp hv⟩)
  · exact .inr (.inr (h.shed (.mute [] (by simp [hl]) nil_mute (by rw [ht]) (by rw [ht]) hp)))

theorem Inv.sendAck {st : St} (h : Inv st) (app : App) : Inv (Rtmp.sendAck app st) := by
  rcases h with h | h | h
  · exact .inl (Inv.adds h (sendAck_adds app st (inv_able h)))
  · unfold Rtmp.sendAck
    rw [if_neg (by have := h.2.said.rank; omega)]
    exact .inr (.inl h)
  · unfold Rtmp.sendAck
    split
    · have e : Ended { st with tx := control st.tx (app.now st.log) 3 (u32 st.rx.received.toUInt32), rx := { st.rx with lastAckSent := st.rx.received } } :=
        h.shed (.mute [] (by simp) nil_mute rfl rfl rfl)
      generalize ({ st with tx := control st.tx (app.now st.log) 3 (u32 st.rx.received.toUInt32), rx := { st.rx with lastAckSent := st.rx.received } } : St) = s at *
      obtain ⟨l, l1, l2⟩ := scheduleWrite_log s
      exact .inr (.inr (e.shed (.mute l l1 l2 (by rw [scheduleWrite_tx]) (by rw [scheduleWrite_tx]) (scheduleWrite_phase s))))
    · exact .inr (.inr h)

theorem Inv.receive {st : St} (h : Inv st) (app : App) (b : Bytes) : Inv (onReceive app st b) := by
  unfold onReceive
  split
  · exact h.closed app
  · dsimp only
    have h1 : Inv { st with rx := { st.rx with received := st.rx.received + UInt64.ofNat b.length, input := st.rx.input ++ b } } := h.rx rfl rfl rfl rfl
    generalize ({ st with rx := { st.rx with received := st.rx.received + UInt64.ofNat b.length, input := st.rx.input ++ b } } : St) = s at *
    have h2 := h1.loop app (st.rx.input ++ b).length (st.rx.input ++ b)
    generalize Rtmp.loop app (st.rx.input ++ b).length s (st.rx.input ++ b) = r at *
    obtain ⟨u, o⟩ := r
    cases o with
    | none => exact h2
    | some rest =>
      dsimp only
      split
      · exact (h2.sendAck app).rx rfl rfl rfl rfl
      · exact h2.rx rfl rfl rfl rfl

end Rtmfp.Rtmp
