import Verif.Lemmas.RtmpKeep

/-! # What an RTMP has said: writing -/

namespace Rtmfp.Rtmp

open Spec.Chunks Spec.Web

theorem startRTT_adds (app : App) (st : St) (ha : Able st) : Adds st (startRTT app st) := by
  unfold startRTT
  dsimp only
  split
  · generalize ht : ({ st.tx with anchor := true, rttPos := st.tx.sent, rttAck := min (min 11200 (app.minThresh st.log)) (max 2800 ((st.tx.sent - st.tx.acked) / 4)) } : Tx) = t
    have q1 : t.queues = st.tx.queues := by rw [← ht]
    have q2 : t.nextId = st.tx.nextId := by rw [← ht]
    have q3 : t.size = st.tx.size := by rw [← ht]
    have q4 : Speak st.tx t := by rw [← ht]; exact .of_eq rfl rfl rfl
    clear ht
    have r1 := refresh_queues t (app.now st.log)
    refine ⟨.mute [] (by simp) nil_mute (r1.1.trans q1) (r1.2.trans q2), q4.trans (refresh_speak t (app.now st.log) (q3 ▸ ha.2)), ha.1, ?_⟩
    show 128 ≤ (refreshWindow t (app.now st.log)).size
    rw [refresh_size, q3]; exact ha.2
  · exact .refl ha

theorem Inv.raw {st : St} (h : Inv st) (app : App) : Inv (writeRaw app st).1 ∧ (Talking st → Talking (writeRaw app st).1) := by
  unfold writeRaw
  split
  · next hc =>
    dsimp only
    generalize hs : (emit { st with tx := { st.tx with out := [], sent := st.tx.sent + UInt64.ofNat st.tx.out.length } } (.put st.tx.out) : St) = s
    have e1 : s.log = st.log ++ [.put st.tx.out] := by rw [← hs]; rfl
    have e2 : s.tx.out = [] := by rw [← hs]; rfl
    have e3 : s.tx.streams = st.tx.streams := by rw [← hs]; rfl
    have e4 : s.tx.size = st.tx.size := by rw [← hs]; rfl
    have e5 : s.tx.queues = st.tx.queues := by rw [← hs]; rfl
    have e6 : s.tx.nextId = st.tx.nextId := by rw [← hs]; rfl
    have e7 : s.phase = st.phase := by rw [← hs]; rfl
    have e8 : s.server = st.server := by rw [← hs]; rfl
    clear hs
    have hb : Book s := by
      refine ⟨fun p => ?_, ?_, ?_⟩
      · rw [e1, queuedAt_append, leftAt_append, h.book.queue, e5]; simp [queuedAt, leftAt]
      · rw [e1, qids_append, h.book.ids, e6]; simp [qids]
      · rw [e1, dones_append, finIds_append, h.book.done]; simp [dones, finIds]
    have hsaid : said s = said st := by
      unfold said
      rw [e1, puts_append, e2]; simp [puts]
    have hfin : fins s.log = fins st.log := by rw [e1, fins_append]; simp [fins]
    rcases h with h | h | h
    · have T : Tells s := by
        obtain ⟨hs, cs, x, d, ms, h1, h2, h3, h4, h5, F, L⟩ := h.2.2
        exact ⟨hs, cs, x, d, ms, h1, h2, h3, hsaid.trans h4, hfin ▸ h5, F.congr e3 e4, by rw [e5, e3]; exact L⟩
      have k : Book s ∧ Talking s ∧ Tells s := ⟨hb, by unfold Talking; rw [e7]; exact h.2.1, T⟩
      split
      · have k' := Inv.adds k (startRTT_adds app s (inv_able k))
        exact ⟨.inl k', fun _ => k'.2.1⟩
      · exact ⟨.inl k, fun _ => k.2.1⟩
    · have hr := h.2.said.rank
      rw [if_neg (by rw [e7]; intro e; rw [e] at hr; exact absurd hr (by decide))]
      refine ⟨.inr (.inl ⟨hb, hfin.trans h.2.fins, by rw [e3]; exact h.2.idle, e4 ▸ h.2.lo, e4 ▸ h.2.hi, by rw [e5]; exact h.2.new, by rw [e5]; exact h.2.low, ?_⟩), ?_⟩
      · rw [e7, e8, hsaid]; exact h.2.said
      · intro ht
        have := ht.rank
        omega
    · rw [h.phase] at hc
      exact absurd hc.2 (by decide)
  · exact ⟨h, id⟩

/-- a callback -/
theorem Inv.callback {st : St} (h : Inv st) (app : App) (e : Ev) (he : loud e = false) : Inv (Rtmp.callback app st e) ∧
    (Talking st → Talking (Rtmp.callback app st e)) ∧ ∀ p, (∃ l, (Rtmp.callback app st e).tx.queues p = st.tx.queues p ++ l) ∨ (Rtmp.callback app st e).tx.queues p = [] := by
  rcases h with h | h | h
  · have g := callback_adds app st (inv_able h) e he
    have k := Inv.adds h g
    obtain ⟨⟨l, _, _, g3, _⟩, _, _⟩ := g
    exact ⟨.inl k, fun _ => k.2.1, fun p => .inl ⟨_, g3 p⟩⟩
  · have hn : ∀ x : St, Talking st → Talking x := by
      intro x ht
      have := ht.rank
      have := h.2.said.rank
      omega
    rcases h.2.callback h.1 app e he with ⟨g, q⟩ | x
    · refine ⟨.inr (.inl ⟨h.1.grow g, q⟩), hn _, ?_⟩
      obtain ⟨l, _, _, g3, _⟩ := g
      exact fun p => .inl ⟨_, g3 p⟩
    · exact ⟨.inr (.inr x), hn _, fun p => .inr (x.queues p)⟩
  · have x : Ended (Rtmp.callback app st e) := by
      unfold Rtmp.callback
      exact Ended.calls app _ (h.shed (.mute [e] rfl (one_mute he) rfl rfl rfl))
    refine ⟨.inr (.inr x), fun ht => ?_, fun p => .inr (x.queues p)⟩
    rcases ht with e | e <;> rw [h.phase] at e <;> nomatch e

theorem Inv.drop {st : St} (h : Inv st) (app : App) (p : Nat) (m : Msg) (l : List Msg) (hq : st.tx.queues p = m :: l) : Inv (dropFirst app st p m).1 := by
  obtain ⟨d1, d2, d3, d4, _⟩ := dropFirst_log app st p m
  rw [hq, List.drop_one, List.tail_cons] at d2
  rcases h with h | h | h
  · exact .inl ⟨h.1.dropped p m l hq d1 d2 d3, by unfold Talking; rw [d4]; exact h.2.1, h.2.2.drop app p m l hq⟩
  · exact .inr (.inl ⟨h.1.dropped p m l hq d1 d2 d3, h.2.drop app p m l hq⟩)
  · rw [h.queues p] at hq; nomatch hq

theorem Inv.wild {st : St} (h : Inv st) (w : Bool) : Inv { st with wild := w } := h.rx rfl rfl rfl rfl

theorem Inv.trimOne (app : App) (p : Nat) (fuel : Nat) : ∀ {st : St} (part : Bool), Inv st →
    Inv (Rtmp.trimOne app p fuel st part).1 ∧ (Talking st → Talking (Rtmp.trimOne app p fuel st part).1) := by
  induction fuel with
  | zero =>
    intro st part h
    unfold Rtmp.trimOne
    split
    · exact ⟨h, id⟩
    · exact ⟨h.wild true, id⟩
  | succ fuel ih =>
    intro st part h
    unfold Rtmp.trimOne
    split
    · exact ⟨h, id⟩
    · next m l hq =>
      split
      · exact ⟨h, id⟩
      · dsimp only
        have h1 : Inv (if app.fate st.log m.id = .before then st else Rtmp.callback app st (.gone m.id)) ∧
            (Talking st → Talking (if app.fate st.log m.id = .before then st else Rtmp.callback app st (.gone m.id))) ∧
            ((∃ k, (if app.fate st.log m.id = .before then st else Rtmp.callback app st (.gone m.id)).tx.queues p = st.tx.queues p ++ k) ∨
              (if app.fate st.log m.id = .before then st else Rtmp.callback app st (.gone m.id)).tx.queues p = []) := by
          split
          · exact ⟨h, id, .inl ⟨[], by simp⟩⟩
          · obtain ⟨a, b, c⟩ := h.callback app (.gone m.id) rfl
            exact ⟨a, b, c p⟩
        generalize (if app.fate st.log m.id = .before then st else Rtmp.callback app st (.gone m.id)) = s at *
        obtain ⟨a, b, c⟩ := h1
        split
        · exact ⟨a.wild true, b⟩
        · next hn =>
          rcases c with ⟨k, c⟩ | c
          · rw [hq, List.cons_append] at c
            have d := a.drop app p m (l ++ k) c
            obtain ⟨i1, i2⟩ := ih (part || (dropFirst app s p m).2) d
            refine ⟨i1, fun ht => i2 ?_⟩
            unfold Talking
            rw [(dropFirst_log app s p m).2.2.2.1]
            exact b ht
          · exact absurd (.inr c) hn

theorem Inv.trim {st : St} (h : Inv st) (app : App) : Inv (Rtmp.trim app st).1 ∧ (Talking st → Talking (Rtmp.trim app st).1) := by
  have key : ∀ (l : List Nat) (r : St × Bool), Inv r.1 →
      Inv (l.foldl (fun r pri => if r.1.wild then r else Rtmp.trimOne app pri ((r.1.tx.queues pri).length + app.patience) r.1 r.2) r).1 ∧
      (Talking r.1 → Talking (l.foldl (fun r pri => if r.1.wild then r else Rtmp.trimOne app pri ((r.1.tx.queues pri).length + app.patience) r.1 r.2) r).1) := by
    intro l
    induction l with
    | nil => intro r h; exact ⟨h, id⟩
    | cons p l ih =>
      intro r h
      rw [List.foldl_cons]
      have h1 : Inv (if r.1.wild then r else Rtmp.trimOne app p ((r.1.tx.queues p).length + app.patience) r.1 r.2).1 ∧
          (Talking r.1 → Talking (if r.1.wild then r else Rtmp.trimOne app p ((r.1.tx.queues p).length + app.patience) r.1 r.2).1) := by
        split
        · exact ⟨h, id⟩
        · exact Inv.trimOne app p _ r.2 h
      generalize (if r.1.wild then r else Rtmp.trimOne app p ((r.1.tx.queues p).length + app.patience) r.1 r.2) = r' at *
      exact ⟨(ih r' h1.1).1, fun ht => (ih r' h1.1).2 (h1.2 ht)⟩
  exact key [7, 6, 5, 4, 3, 2, 1, 0] (st, false) h

theorem Speak.congr {t u t' u' : Tx} (h : Speak t u) (a1 : t'.out = t.out) (a2 : t'.streams = t.streams) (a3 : t'.size = t.size)
    (b1 : u'.out = u.out) (b2 : u'.streams = u.streams) (b3 : u'.size = u.size) : Speak t' u' :=
  ((Speak.of_eq a1.symm a2.symm a3.symm : Speak t' t).trans h).trans (.of_eq b1 b2 b3)

/-- a chunk is written -/
theorem Inv.send {st : St} (h : Book st ∧ Talking st ∧ Tells st) (app : App) (p : Nat) (m : Msg) (l : List Msg) (hq : st.tx.queues p = m :: l) :
    Inv (sendOne app st p m) := by
  unfold sendOne
  cases hc : chunkOf app st m with
  | none => exact Inv.wild (.inl h) true
  | some r =>
    obtain ⟨t, m1⟩ := r
    dsimp only
    obtain ⟨hb, ht, hs, cs, x, d, ms, h1, h2, h3, h4, h5, F, L⟩ := h
    obtain ⟨k, c, d', ns, c1, c2, c3, c4, c5, c6, c7, c8, c9, c10⟩ := chunk_step app st m p l d F L hq t m1 hc
    have hear' := hear_snoc h3 c3
    have fits' : ∀ c' ∈ cs ++ [c], c'.Fits := by
      intro c' hc'
      rcases List.mem_append.mp hc' with e | e
      · exact h2 c' e
      · rw [List.mem_singleton] at e; rw [e]; exact c2
    rw [c6, hq, List.drop_one, List.tail_cons, c1]
    dsimp only [Option.map_some, Option.getD_some]
    by_cases hbz : (t.streams k).busy = true
    · rw [if_neg (by rw [hbz]; nofun)]
      obtain ⟨g1, g2⟩ := c10 hbz
      suffices hk : Book { st with tx := { t with queues := put st.tx.queues p (m1 :: l) } } ∧ Talking { st with tx := { t with queues := put st.tx.queues p (m1 :: l) } } ∧
          Tells { st with tx := { t with queues := put st.tx.queues p (m1 :: l) } } from (Inv.raw (.inl hk) app).1
      refine ⟨⟨fun q => ?_, ?_, hb.done⟩, ht, ?_⟩
      · dsimp only
        rw [hb.queue]
        by_cases e : q = p
        · subst e
          rw [put_at, hq, List.map_cons, List.map_cons, c8]
        · rw [put_off _ e]
      · dsimp only
        rw [c7]; exact hb.ids
      · refine ⟨hs, cs ++ [c], x ++ d.wire c, d', ms ++ ns, h1, fits', hear', ?_, ?_, c5.congr rfl rfl, g2⟩
        · unfold said at *
          dsimp only
          rw [c4, ← List.append_assoc, h4]
          simp
        · rw [users_append, h5, g1, List.append_nil]
    · have hbz : (t.streams k).busy = false := by simpa using hbz
      rw [if_pos hbz]
      obtain ⟨g1, g2⟩ := c9 hbz
      -- as if the message were removed before the callback
      generalize hs0 : (emit (emit { st with tx := { t with queues := put st.tx.queues p (m1 :: l) } } (.finished p m1.id m1.sid m1.type m1.ts m1.payload)) (.done m1.id) : St) = s0
      have z1 : s0.log = st.log ++ [.finished p m1.id m1.sid m1.type m1.ts m1.payload, .done m1.id] := by rw [← hs0]; simp [emit]
      have z2 : s0.tx = { t with queues := put st.tx.queues p (m1 :: l) } := by rw [← hs0]; rfl
      have z3 : s0.phase = st.phase := by rw [← hs0]; rfl
      have hcb : Rtmp.callback app (emit { st with tx := { t with queues := put st.tx.queues p (m1 :: l) } } (.finished p m1.id m1.sid m1.type m1.ts m1.payload)) (.done m1.id) =
          (app.react s0.log).foldl (Rtmp.call app) s0 := by rw [← hs0]; rfl
      rw [hcb]
      clear hcb hs0
      have hk : m1.id = m.id ∧ m1.sid = m.sid ∧ m1.type = m.type ∧ m1.ts = m.ts ∧ m1.payload = m.payload := by
        simp only [Msg.key, Prod.mk.injEq, Message.mk.injEq] at c8
        exact ⟨c8.1, c8.2.1, c8.2.2.1, c8.2.2.2.1, c8.2.2.2.2⟩
      rw [hk.1, hk.2.1, hk.2.2.1, hk.2.2.2.1, hk.2.2.2.2] at z1
      have a0 : Able s0 := ⟨by unfold Talking; rw [z3]; exact ht, by rw [z2]; exact c5.lo⟩
      have A := calls_adds app (app.react s0.log) s0 a0
      generalize (app.react s0.log).foldl (Rtmp.call app) s0 = s2 at *
      generalize hs1 : ({ s0 with tx := { t with queues := put st.tx.queues p l } } : St) = s1
      have y1 : s1.log = st.log ++ [.finished p m.id m.sid m.type m.ts m.payload, .done m.id] := by rw [← hs1]; exact z1
      have y2 : s1.tx = { t with queues := put st.tx.queues p l } := by rw [← hs1]
      have y3 : s1.phase = st.phase := by rw [← hs1]; exact z3
      clear hs1
      have k1 : Book s1 ∧ Talking s1 ∧ Tells s1 := by
        refine ⟨hb.finished p m l hq y1 (by rw [y2]) (by rw [y2]; exact c7), by unfold Talking; rw [y3]; exact ht, ?_⟩
        refine ⟨hs, cs ++ [c], x ++ d.wire c, d', ms ++ ns, h1, fits', hear', ?_, ?_, by rw [y2]; exact c5.congr rfl rfl, by rw [y2]; exact g2⟩
        · unfold said at *
          rw [y1, y2, puts_append]
          dsimp only
          rw [c4, show puts [.finished p m.id m.sid m.type m.ts m.payload, .done m.id] = [] from rfl, List.append_nil, ← List.append_assoc, h4]
          simp
        · rw [users_append, h5, g1, y1, fins_append]
          rfl
      obtain ⟨⟨j, j1, j2, j3, j4, j5⟩, A2, A3⟩ := A
      have B : Adds s1 { s2 with tx := { s2.tx with queues := put s2.tx.queues p ((s2.tx.queues p).drop 1) } } := by
        refine ⟨⟨j, by rw [y1, ← z1]; exact j1, j2, fun q => ?_, ?_, ?_⟩, A2.congr (by rw [y2, z2]) (by rw [y2, z2]) (by rw [y2, z2]) rfl rfl rfl, A3⟩
        · dsimp only
          rw [y2]
          dsimp only
          by_cases e : q = p
          · subst e
            rw [put_at, put_at, j3, z2]
            dsimp only
            rw [put_at]
            rfl
          · rw [put_off _ e, put_off _ e, j3, z2]
            dsimp only
            rw [put_off _ e]
        · dsimp only
          rw [j4, y2, z2]
        · rw [y2]
          rw [z2] at j5
          exact j5
      exact (Inv.raw (.inl (Inv.adds k1 B)) app).1

theorem firstOf_some {t : Tx} {l : List Nat} {p : Nat} {m : Msg} (h : firstOf t l = some (p, m)) : ∃ k, t.queues p = m :: k := by
  induction l with
  | nil => nomatch h
  | cons q l ih =>
    unfold firstOf at h
    cases hq : t.queues q with
    | nil => rw [hq] at h; exact ih h
    | cons a b =>
      rw [hq] at h
      simp only [Option.some.injEq, Prod.mk.injEq] at h
      obtain ⟨rfl, rfl⟩ := h
      exact ⟨b, hq⟩

theorem flow_talking {app : App} {st : St} (h : flowOpen app st = true) : Talking st := by
  unfold flowOpen at h
  simp only [Bool.and_eq_true, Bool.or_eq_true, decide_eq_true_eq] at h
  exact h.2

theorem Inv.talking {st : St} (h : Inv st) (ht : Talking st) : Book st ∧ Talking st ∧ Tells st := by
  rcases h with h | h | h
  · exact h
  · have := ht.rank; have := h.2.said.rank; omega
  · rcases ht with e | e <;> rw [h.phase] at e <;> nomatch e

theorem Inv.writable {st : St} (h : Inv st) (app : App) : Inv (onWritable app st) := by
  unfold onWritable
  split
  · exact (h.raw app).1
  · split
    · next hf =>
      dsimp only
      obtain ⟨a, b⟩ := h.trim app
      have b := b (flow_talking hf)
      generalize Rtmp.trim app st = r at *
      split
      · exact a
      · split
        · exact (a.raw app).1
        · split
          · next p m hm =>
            obtain ⟨k, hk⟩ := firstOf_some hm
            exact Inv.send (a.talking b) app p m k hk
          · split
            · exact (a.closed app).rx rfl rfl rfl rfl
            · exact a.rx rfl rfl rfl rfl
    · exact h.rx rfl rfl rfl rfl

theorem Inv.step {st : St} (h : Inv st) (app : App) (o : Op) : Inv (Rtmp.step app st o) := by
  unfold Rtmp.step
  split
  · exact h
  · cases o with
    | read b => dsimp only; split; exact h.receive app b; exact h
    | writable => dsimp only; split; exact h.writable app; exact h
    | lost => dsimp only; split; exact h.closed app; exact h
    | trim =>
      dsimp only
      split
      · have h1 : Inv { st with trimPending := false } := h.rx rfl rfl rfl rfl
        exact (h1.trim app).1
      · exact h
    | resume =>
      dsimp only
      split
      · have h1 : Inv { st with resumes := st.resumes - 1 } := h.rx rfl rfl rfl rfl
        exact h1.receive app []
      · exact h
    | call c => exact h.call app c

theorem Inv.run (app : App) (ops : List Op) : ∀ {st : St}, Inv st → Inv (Rtmp.run app st ops) := by
  induction ops with
  | nil => intro st h; exact h
  | cons o ops ih => intro st h; exact ih (h.step app o)

theorem run_inv (app : App) (ops : List Op) : Inv (Rtmp.run app init ops) := Inv.run app ops inv_init

end Rtmfp.Rtmp
