import Verif.Lemmas.RtmpVow

/-! # What became of the messages of the application, and the end -/

namespace Rtmfp.Rtmp

open Spec.Chunks Spec.Web

/-- what became of the messages of the application -/
structure Book (st : St) : Prop where
  queue : ∀ p, queuedAt p st.log = leftAt p st.log ++ (st.tx.queues p).map Msg.key
  ids : qids st.log = List.range st.tx.nextId
  done : dones st.log = finIds st.log

theorem Book.grow {a b : St} (h : Book a) (g : Grow a b) : Book b := by
  obtain ⟨l, g1, g2, g3, g4, g5⟩ := g
  obtain ⟨f1, f2, f3, f4, f5, f6, f7, f8⟩ := g2.facts
  refine ⟨fun p => ?_, ?_, ?_⟩
  · rw [g1, queuedAt_append, leftAt_append, f5, f6, h.queue, g3, List.map_append, List.append_nil, List.append_assoc]
  · rw [g1, qids_append, h.ids, g4, List.range_eq_range', List.range_eq_range', ← List.range'_append_1, Nat.zero_add, ← g5]
  · rw [g1, dones_append, finIds_append, f4, f3, h.done]

/-- the first of a queue is abandoned -/
theorem Book.dropped {a b : St} (h : Book a) (p : Nat) (m : Msg) (l : List Msg) (hq : a.tx.queues p = m :: l)
    (hl : b.log = a.log ++ [.dropped p m.id m.sid m.type m.ts m.payload]) (hb : b.tx.queues = put a.tx.queues p l) (hn : b.tx.nextId = a.tx.nextId) : Book b := by
  refine ⟨fun q => ?_, ?_, ?_⟩
  · rw [hl, queuedAt_append, leftAt_append, h.queue, hb]
    by_cases e : q = p
    · subst e
      rw [put_at, hq]
      simp [queuedAt, leftAt, Msg.key]
    · rw [put_off _ e]
      simp [queuedAt, leftAt, Ne.symm e]
  · rw [hl, qids_append, h.ids, hn]
    simp [qids]
  · rw [hl, dones_append, finIds_append, h.done]
    simp [dones, finIds]

/-- the first of a queue is sent -/
theorem Book.finished {a b : St} (h : Book a) (p : Nat) (m : Msg) (l : List Msg) (hq : a.tx.queues p = m :: l)
    (hl : b.log = a.log ++ [.finished p m.id m.sid m.type m.ts m.payload, .done m.id]) (hb : b.tx.queues = put a.tx.queues p l) (hn : b.tx.nextId = a.tx.nextId) : Book b := by
  refine ⟨fun q => ?_, ?_, ?_⟩
  · rw [hl, queuedAt_append, leftAt_append, h.queue, hb]
    by_cases e : q = p
    · subst e
      rw [put_at, hq]
      simp [queuedAt, leftAt, Msg.key]
    · rw [put_off _ e]
      simp [queuedAt, leftAt, Ne.symm e]
  · rw [hl, qids_append, h.ids, hn]
    simp [qids]
  · rw [hl, dones_append, finIds_append, h.done]
    simp [dones, finIds]

/-- nothing more is said, and messages are abandoned -/
structure Shed (a b : St) : Prop where
  puts : puts b.log = puts a.log
  fins : fins b.log = fins a.log
  book : Book a → Book b
  phase : b.phase = a.phase
  queues : ∀ p, b.tx.queues p <:+ a.tx.queues p

theorem Shed.refl (a : St) : Shed a a := ⟨rfl, rfl, id, rfl, fun _ => List.suffix_rfl⟩

theorem Shed.trans {a b c : St} (h : Shed a b) (g : Shed b c) : Shed a c :=
  ⟨g.puts.trans h.puts, g.fins.trans h.fins, fun x => g.book (h.book x), g.phase.trans h.phase, fun p => (g.queues p).trans (h.queues p)⟩

theorem Shed.mute {a b : St} (l : List Ev) (hl : b.log = a.log ++ l) (hm : Mute l) (hq : b.tx.queues = a.tx.queues) (hn : b.tx.nextId = a.tx.nextId)
    (hp : b.phase = a.phase) : Shed a b := by
  obtain ⟨f1, f2, _⟩ := hm.fresh.facts
  refine ⟨by rw [hl, puts_append, f1, List.append_nil], by rw [hl, fins_append, f2, List.append_nil], fun h => h.grow (.mute l hl hm hq hn), hp, fun p => ?_⟩
  rw [hq]; exact List.suffix_rfl

theorem callOver_shed (st : St) (c : Call) : Shed st (callOver st c) ∧ (callOver st c).tx.queues = st.tx.queues := by
  have h0 : Shed st (emit st (.did c)) := .mute [.did c] rfl (one_mute rfl) rfl rfl rfl
  have q0 : (emit st (.did c)).tx.queues = st.tx.queues := rfl
  unfold callOver
  simp only
  generalize emit st (.did c) = s at *
  cases c with
  | init _ => exact ⟨h0, q0⟩
  | chunkSize _ => exact ⟨h0, q0⟩
  | write _ _ _ _ _ => exact ⟨h0, q0⟩
  | close => exact ⟨h0.trans (.mute [] (by simp [clear]) nil_mute rfl rfl rfl), q0⟩
  | simple b => exact ⟨h0.trans (.mute [] (by simp) nil_mute rfl rfl rfl), q0⟩
  | pause b =>
    obtain ⟨p1, p2, _, l, p3, p4⟩ := setPaused_tx s b
    exact ⟨h0.trans (.mute l p3 p4 (by rw [p1]) (by rw [p1]) p2), by simp only; rw [p1]; exact q0⟩

theorem callsOver_shed (l : List Call) : ∀ st : St, Shed st (l.foldl callOver st) ∧ (l.foldl callOver st).tx.queues = st.tx.queues := by
  induction l with
  | nil => intro st; exact ⟨.refl st, rfl⟩
  | cons c l ih =>
    intro st
    exact ⟨(callOver_shed st c).1.trans (ih _).1, (ih _).2.trans (callOver_shed st c).2⟩

theorem callbackOver_shed (app : App) (st : St) (e : Ev) (he : loud e = false) :
    Shed st (callbackOver app st e) ∧ (callbackOver app st e).tx.queues = st.tx.queues := by
  unfold callbackOver
  have h := callsOver_shed (app.react (emit st e).log) (emit st e)
  have h0 : Shed st (emit st e) := .mute [e] rfl (one_mute he) rfl rfl rfl
  exact ⟨h0.trans h.1, h.2⟩

theorem abortChunk_rest (t : Tx) (now : Int) (k : Nat) : (abortChunk t now k).queues = t.queues ∧ (abortChunk t now k).nextId = t.nextId ∧ (abortChunk t now k).size = t.size :=
  ⟨rfl, rfl, rfl⟩

theorem dropFirst_log (app : App) (st : St) (p : Nat) (m : Msg) :
    (dropFirst app st p m).1.log = st.log ++ [.dropped p m.id m.sid m.type m.ts m.payload] ∧
    (dropFirst app st p m).1.tx.queues = put st.tx.queues p ((st.tx.queues p).drop 1) ∧ (dropFirst app st p m).1.tx.nextId = st.tx.nextId ∧
    (dropFirst app st p m).1.phase = st.phase ∧ (dropFirst app st p m).1.server = st.server := by
  unfold dropFirst emit
  dsimp only
  cases m.cs with
  | none => exact ⟨rfl, rfl, rfl, rfl, rfl⟩
  | some k =>
    dsimp only
    split
    · exact ⟨rfl, rfl, rfl, rfl, rfl⟩
    · exact ⟨rfl, rfl, rfl, rfl, rfl⟩

theorem dropFirst_shed (app : App) (st : St) (p : Nat) (m : Msg) (l : List Msg) (hq : st.tx.queues p = m :: l) : Shed st (dropFirst app st p m).1 := by
  obtain ⟨d1, d2, d3, d4, _⟩ := dropFirst_log app st p m
  rw [hq, List.drop_one, List.tail_cons] at d2
  generalize (dropFirst app st p m).1 = s at *
  refine ⟨by rw [d1, puts_append]; simp [Rtmp.puts], by rw [d1, fins_append]; simp [Rtmp.fins], fun h => h.dropped p m l hq d1 d2 d3, d4, fun q => ?_⟩
  rw [d2]
  by_cases e : q = p
  · subst e
    rw [put_at, hq]; exact List.suffix_cons _ _
  · rw [put_off _ e]; exact List.suffix_rfl

theorem trimAllOne_shed (app : App) (p : Nat) (fuel : Nat) : ∀ st : St, (st.tx.queues p).length ≤ fuel →
    Shed st (trimAllOne app p fuel st) ∧ (trimAllOne app p fuel st).tx.queues p = [] := by
  induction fuel with
  | zero =>
    intro st h
    exact ⟨.refl st, show st.tx.queues p = [] from List.length_eq_zero_iff.mp (by omega)⟩
  | succ fuel ih =>
    intro st h
    unfold trimAllOne
    cases hq : st.tx.queues p with
    | nil => exact ⟨.refl st, hq⟩
    | cons m l =>
      simp only
      have h1 : Shed st (if app.fate st.log m.id = .before then st else callbackOver app st (.gone m.id)) ∧
          (if app.fate st.log m.id = .before then st else callbackOver app st (.gone m.id)).tx.queues = st.tx.queues := by
        split
        · exact ⟨.refl st, rfl⟩
        · exact callbackOver_shed app st _ rfl
      generalize (if app.fate st.log m.id = .before then st else callbackOver app st (.gone m.id)) = s at *
      have hq' : s.tx.queues p = m :: l := by rw [h1.2]; exact hq
      have h2 := dropFirst_shed app s p m l hq'
      have h3 : (dropFirst app s p m).1.tx.queues p = l := by
        rw [(dropFirst_log app s p m).2.1, put_at, hq']; rfl
      obtain ⟨i1, i2⟩ := ih (dropFirst app s p m).1 (by rw [h3]; rw [hq] at h; simp at h; omega)
      exact ⟨(h1.1.trans h2).trans i1, i2⟩

theorem trimAll_shed (app : App) (st : St) : Shed st (trimAll app st) ∧ ∀ p, p < 8 → (trimAll app st).tx.queues p = [] := by
  have key : ∀ (l : List Nat) (st : St), Shed st (l.foldl (fun st pri => trimAllOne app pri (st.tx.queues pri).length st) st) ∧
      ∀ p ∈ l, (l.foldl (fun st pri => trimAllOne app pri (st.tx.queues pri).length st) st).tx.queues p = [] := by
    intro l
    induction l with
    | nil => intro st; exact ⟨.refl st, by simp⟩
    | cons q l ih =>
      intro st
      obtain ⟨a1, a2⟩ := trimAllOne_shed app q (st.tx.queues q).length st (Nat.le_refl _)
      obtain ⟨b1, b2⟩ := ih (trimAllOne app q (st.tx.queues q).length st)
      refine ⟨a1.trans b1, fun p hp => ?_⟩
      rcases List.mem_cons.mp hp with rfl | hp
      · have := b1.queues p
        rw [a2] at this
        exact List.suffix_nil.mp this
      · exact b2 p hp
  obtain ⟨k1, k2⟩ := key [7, 6, 5, 4, 3, 2, 1, 0] st
  unfold trimAll
  generalize [7, 6, 5, 4, 3, 2, 1, 0].foldl (fun st pri => trimAllOne app pri (st.tx.queues pri).length st) st = s at *
  refine ⟨k1, fun p hp => k2 p ?_⟩
  simp; omega

/-- What was given to the stream is a first part of chunks that say what was sent. -/
def Wired (st : St) : Prop :=
  ∃ (h : Bytes) (cs : List Chunk) (b : Bytes) (d : Dec) (ms : List Message), h.length = 3072 ∧ (∀ c ∈ cs, c.Fits) ∧ Dec.init.hear cs = some (b, d, ms) ∧
    puts st.log <+: 3 :: (h ++ b) ∧ users ms = fins st.log

/-- all is over -/
structure Ended (st : St) : Prop where
  phase : st.phase = .error
  queues : ∀ p, st.tx.queues p = []
  wired : Wired st
  book : Book st

theorem Wired.shed {a b : St} (h : Wired a) (s : Shed a b) : Wired b := by
  unfold Wired
  rw [s.puts, s.fins]
  exact h

theorem Ended.shed {a b : St} (h : Ended a) (s : Shed a b) : Ended b :=
  ⟨s.phase.trans h.phase, fun p => List.suffix_nil.mp (h.queues p ▸ s.queues p), h.wired.shed s, s.book h.book⟩

theorem setClosed_ended (app : App) (st : St) (he : st.phase ≠ .error) (hw : Wired st) (hb : Book st) (hl : ∀ p, st.tx.queues p ≠ [] → p < 8) :
    Ended (setClosed app st) := by
  unfold setClosed
  split
  · simp only
    have h0 : Wired { st with phase := .error } := hw
    have b0 : Book { st with phase := .error } := ⟨hb.queue, hb.ids, hb.done⟩
    obtain ⟨t1, t2⟩ := trimAll_shed app { st with phase := .error }
    generalize trimAll app { st with phase := .error } = s at *
    have e : Ended s := by
      refine ⟨t1.phase, fun p => ?_, h0.shed t1, t1.book b0⟩
      by_cases g : p < 8
      · exact t2 p g
      · have := t1.queues p
        have hn : st.tx.queues p = [] := by
          cases hq : st.tx.queues p with
          | nil => rfl
          | cons a b => exact absurd (hl p (by rw [hq]; nofun)) g
        exact List.suffix_nil.mp (hn ▸ this)
    have e1 : Ended (emit s .released) := e.shed (.mute [.released] rfl (one_mute rfl) rfl rfl rfl)
    have e2 : Ended (clear (emit s .released)) := e1.shed (.mute [] (by simp [clear]) nil_mute rfl rfl rfl)
    split
    · exact e2.shed (callbackOver_shed app _ _ rfl).1
    · exact e2
  · next h => exact absurd he h

theorem Ended.closed {st : St} (h : Ended st) (app : App) : Ended (setClosed app st) := by
  unfold setClosed
  rw [if_neg (by simp [h.phase])]
  exact h.shed (.mute [] (by simp [clear]) nil_mute rfl rfl rfl)

/-- The functions of the application, when all is over -/
theorem Ended.call {st : St} (h : Ended st) (app : App) (c : Call) : Ended (call app st c) := by
  have h0 : Ended (emit st (.did c)) := h.shed (.mute [.did c] rfl (one_mute rfl) rfl rfl rfl)
  unfold Rtmp.call
  simp only
  generalize emit st (.did c) = s at *
  cases c with
  | init server =>
    simp only
    unfold start
    rw [if_pos (by rw [h0.phase]; decide)]
    exact h0
  | chunkSize n =>
    simp only
    unfold setSize
    rw [if_pos (.inl (by rw [h0.phase]; decide))]
    exact h0
  | write pri sid type ts payload =>
    simp only
    unfold write
    rw [if_pos (.inl (by rw [h0.phase]; decide))]
    exact h0
  | close =>
    simp only
    unfold close
    simp only
    have hc : Ended (clear s) := h0.shed (.mute [] (by simp [clear]) nil_mute rfl rfl rfl)
    generalize clear s = s1 at *
    rw [if_neg (by rw [hc.phase]; nofun), if_neg (by rw [hc.phase]; nofun)]
    exact hc.closed app
  | simple b => exact h0.shed (.mute [] (by simp) nil_mute rfl rfl rfl)
  | pause b =>
    simp only
    obtain ⟨p1, p2, _, l, p3, p4⟩ := setPaused_tx s b
    exact h0.shed (.mute l p3 p4 (by rw [p1]) (by rw [p1]) p2)

theorem Ended.calls (app : App) (l : List Call) : ∀ {st : St}, Ended st → Ended (l.foldl (Rtmp.call app) st) := by
  induction l with
  | nil => intro st h; exact h
  | cons c l ih => intro st h; exact ih (h.call app c)

end Rtmfp.Rtmp
