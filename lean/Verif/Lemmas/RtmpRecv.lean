import Verif.Lemmas.RtmpRun

/-! # What an RTMP hears: whole histories -/

namespace Rtmfp.Rtmp

open Spec.Chunks

theorem startRTT_calm (app : App) (st : St) : Calm st (startRTT app st) := by
  unfold startRTT
  simp only
  split
  · exact tx_calm st _ _ _
  · exact Calm.refl st

theorem writeRaw_calm (app : App) (st : St) : Calm st (writeRaw app st).1 := by
  unfold writeRaw
  split
  · simp only
    have h : ∀ t, Calm st (emit { st with tx := t } (.put st.tx.out)) := fun t =>
      (tx_calm st t st.scheduled st.trimPending).trans (emit_calm _ _ rfl)
    split
    · exact (h _).trans (startRTT_calm app _)
    · exact h _
  · exact Calm.refl st

/-- … but for memory that is no longer there -/
def Calm' (a b : St) : Prop := Calm a { b with wild := a.wild }

theorem Calm.weak {a b : St} (h : Calm a b) : Calm' a b := by
  unfold Calm'
  rw [← h.wild]
  exact h

theorem Calm.weak_trans {a b c : St} (h : Calm a b) (g : Calm' b c) : Calm' a c := by
  unfold Calm' at *
  rw [← h.wild]
  exact h.trans g

theorem wild_calm (st : St) (w : Bool) : Calm' st { st with wild := w } := Calm.refl st

theorem Calm'.trans {a b c : St} (h : Calm' a b) (g : Calm' b c) : Calm' a c := by
  unfold Calm' at *
  have g' : Calm { b with wild := a.wild } { c with wild := a.wild } :=
    ⟨{ log := g.log, wild := rfl, pz := g.pz, rs := g.rs, np := g.np, phase := g.phase, talk := g.talk, er := g.er, cbs := g.cbs, off := g.off, shut := g.shut, rel := g.rel },
      g.rx, g.heard⟩
  exact Calm.trans h g'

theorem trimOne_calm (app : App) (pri : Nat) (fuel : Nat) : ∀ (st : St) (part : Bool), Calm' st (trimOne app pri fuel st part).1 := by
  induction fuel with
  | zero =>
    intro st part
    unfold trimOne
    simp only
    split
    · exact (Calm.refl st).weak
    · exact wild_calm st _
  | succ fuel ih =>
    intro st part
    unfold trimOne
    split
    · exact (Calm.refl st).weak
    · next m l h =>
      by_cases hf : app.fate st.log m.id = .stays
      · rw [if_pos hf]; exact (Calm.refl st).weak
      · rw [if_neg hf]
        simp only
        have hc : Calm st (if app.fate st.log m.id = .before then st else callback app st (.gone m.id)) := by
          split
          · exact Calm.refl st
          · exact callback_calm app st _ rfl
        generalize (if app.fate st.log m.id = .before then st else callback app st (.gone m.id)) = x at *
        split
        · exact hc.weak_trans (wild_calm _ _)
        · exact (hc.trans (dropFirst_calm app x pri m)).weak_trans (ih _ _)

theorem trim_calm (app : App) (st : St) : Calm' st (trim app st).1 := by
  unfold trim
  have key : ∀ (l : List Nat) (r : St × Bool), Calm' st r.1 → Calm' st (l.foldl
      (fun r pri => if r.1.wild then r else trimOne app pri ((r.1.tx.queues pri).length + app.patience) r.1 r.2) r).1 := by
    intro l
    induction l with
    | nil => exact fun r h => h
    | cons pri l ih =>
      intro r h
      rw [List.foldl_cons]
      refine ih _ ?_
      split
      · exact h
      · exact h.trans (trimOne_calm app pri _ _ _)
  exact key _ _ (Calm.refl st).weak

theorem sendOne_calm (app : App) (st : St) (pri : Nat) (m : Msg) : Calm' st (sendOne app st pri m) := by
  unfold sendOne
  split
  · exact wild_calm st _
  · next t m1 h =>
    refine Calm.weak ?_
    simp only
    refine Calm.trans ?_ (writeRaw_calm app _)
    refine Calm.trans (tx_calm st { t with queues := put t.queues pri (m1 :: (t.queues pri).drop 1) } st.scheduled st.trimPending) ?_
    split
    · refine Calm.trans (emit_calm _ (.finished pri m1.id m1.sid m1.type m1.ts m1.payload) rfl) ?_
      refine Calm.trans (callback_calm app _ (.done m1.id) rfl) ?_
      exact tx_calm _ _ _ _
    · exact Calm.refl _

/-- Writing receives nothing; it ends the closing. -/
theorem onWritable_calm (app : App) (st : St) :
    Calm' st (onWritable app st) ∨
    (∃ x, Calm' st x ∧ x.phase = .closing ∧ x.wild = false ∧ onWritable app st = { setClosed app x with scheduled := false }) := by
  unfold onWritable
  split
  · exact .inl (writeRaw_calm app st).weak
  · split
    · simp only
      have ht := trim_calm app st
      generalize trim app st = r at *
      by_cases hw : r.1.wild = true
      · rw [if_pos hw]; exact .inl ht
      · rw [if_neg hw]
        split
        · exact .inl (ht.trans (writeRaw_calm app _).weak)
        · split
          · next pri m h => exact .inl (ht.trans (sendOne_calm app _ pri m))
          · by_cases hc : r.1.phase = .closing
            · rw [if_pos hc]
              exact .inr ⟨r.1, ht, hc, by simpa using hw, rfl⟩
            · rw [if_neg hc]
              exact .inl (ht.trans (tx_calm _ _ _ _).weak)
    · exact .inl (tx_calm st _ _ _).weak

/-- what is known of a history in which the other side says what `s` is -/
structure Hears (s : Script) (lost : Bool) (bytes : Bytes) (st : St) : Prop where
  known : st.phase ≠ .unknown
  pre : heard st.log <+: users s.msgs
  pos : st.wild = false → st.phase ≠ .error →
    ∃ k, Pos s st k ∧ k ++ st.rx.input = bytes ∧ (st.paused = true ∨ st.resumes > 0 ∨ Stuck st st.rx.input)
  cb : st.cbs = false → st.phase ≠ .error → Ev.did .close ∈ st.log
  cl : st.phase = .closing → Ev.did .close ∈ st.log
  er : st.phase = .error → Ev.did .close ∈ st.log ∨ lost = true
  np : (∀ x, Ev.did (.pause x) ∉ st.log) → st.paused = false ∧ st.resumes = 0
  rel : Ev.released ∈ st.log → st.phase = .error

theorem Stuck.base {a b : St} {buf : Bytes} (h : Stuck a buf) (c : Base a b) (hx : parse b.rx buf = parse a.rx buf) (hk : a.phase ≠ .unknown) :
    Stuck b buf := by
  rcases c.phase hk with e | ⟨_, e | ⟨e1, e2⟩⟩
  · unfold Stuck at *
    rw [e, hx]; exact h
  · unfold Stuck; rw [e]; trivial
  · unfold Stuck at *
    rw [e1] at h
    rw [e2, hx]; exact h

theorem Hears.calm {s : Script} {lost : Bool} {bytes : Bytes} {a b : St} (h : Hears s lost bytes a) (hw : a.wild = false) (he : a.phase ≠ .error)
    (c : Calm' a b) : Hears s lost bytes b := by
  have c' : Calm a { b with wild := a.wild } := c
  obtain ⟨k, p1, p2, p3⟩ := h.pos hw he
  have hpos : Pos s b k := show Pos s { b with wild := a.wild } k from Pos.calm p1 c'.toBase (fun d hd => by rw [c'.rx]; exact hd) c'.heard
  have hrx : b.rx = a.rx := c'.rx
  have hlog : a.log <+: b.log := c'.log
  refine ⟨hpos.known, hpos.heard, fun _ hb => ⟨k, hpos, by rw [hrx]; exact p2, ?_⟩, fun hc hb => ?_, fun hc => ?_, fun hc => ?_, fun hn => ?_,
    fun hr => (c'.rel hr).elim (fun h' => absurd (h.rel h') he) id⟩
  · by_cases hpz : b.paused = true
    · exact .inl hpz
    · rcases c'.pz (by simpa using hpz) with h1 | h1
      · rcases p3 with p3 | p3 | p3
        · rw [h1] at p3; nomatch p3
        · exact .inr (.inl (Nat.lt_of_lt_of_le p3 c'.rs))
        · have : Stuck { b with wild := a.wild } a.rx.input := p3.base c'.toBase (congrArg (parse · _) c'.rx) h.known
          exact .inr (.inr (by rw [hrx]; exact this))
      · exact .inr (.inl h1)
  · rcases c'.cbs with e | e
    · exact hlog.subset (h.cb (e ▸ hc) he)
    · exact e
  · rcases c'.phase h.known with e | ⟨e, _⟩
    · exact hlog.subset (h.cl (e ▸ hc))
    · exact e
  · rcases c'.phase h.known with e | ⟨e, _⟩
    · exact absurd (e ▸ hc) he
    · exact .inl e
  · have h1 := c'.np hn
    have h2 := h.np (fun x hx => hn x (hlog.subset hx))
    exact ⟨h1.1.trans h2.1, h1.2.trans h2.2⟩

theorem Hears.ended {s : Script} {lost lost' : Bool} {bytes bytes' : Bytes} {a b : St} (h : Hears s lost bytes a) (hb : b.phase = .error)
    (hh : heard b.log = heard a.log) (hl : Ev.did .close ∈ b.log ∨ lost' = true)
    (hn : (∀ x, Ev.did (.pause x) ∉ b.log) → b.paused = false ∧ b.resumes = 0) : Hears s lost' bytes' b :=
  ⟨by rw [hb]; nofun, by rw [hh]; exact h.pre, fun _ he => absurd hb he, fun _ he => absurd hb he, fun hc => by (rw [hb] at hc; nomatch hc), fun _ => hl, hn, fun _ => hb⟩

theorem Hears.closed {s : Script} {lost lost' : Bool} {bytes bytes' : Bytes} {a : St} (h : Hears s lost bytes a) (app : App)
    (hl : Ev.did .close ∈ a.log ∨ lost' = true) : Hears s lost' bytes' (setClosed app a) := by
  obtain ⟨z1, z2, z3, z4, z5, z6, z7, z8, z9⟩ := setClosed_end app a
  refine h.ended z1 z3 (hl.imp_left (fun x => z5.subset x)) fun hn => ?_
  have h2 := h.np (fun x hx => hn x (z5.subset hx))
  have h1 := z8 hn
  exact ⟨h1.1.trans h2.1, h1.2.trans h2.2⟩

/-- it doesn't matter what is read after the end -/
theorem Hears.over {s : Script} {lost lost' : Bool} {bytes bytes' : Bytes} {a : St} (h : Hears s lost bytes a) (ha : a.wild = true ∨ a.phase = .error)
    (hl : lost = true → lost' = true) : Hears s lost' bytes' a :=
  ⟨h.known, h.pre, fun hw he => ha.elim (fun ha => nomatch hw.symm.trans ha) (fun ha => absurd ha he), h.cb, h.cl, fun hc => (h.er hc).imp_right hl, h.np, h.rel⟩

theorem parse_congr (a b : Rx) (h1 : a.size = b.size) (h2 : a.streams = b.streams) (bs : Bytes) : parse a bs = parse b bs := by
  unfold parse parseRest
  rw [h1, h2]

theorem onReceive_hears {s : Script} {lost : Bool} {bytes : Bytes} {st : St} (app : App) (b : Bytes) (hk : st.phase ≠ .unknown) (he : st.phase ≠ .error)
    (hw : st.wild = false) (hpre : heard st.log <+: users s.msgs)
    (hpos : ∃ k, Pos s st k ∧ k ++ st.rx.input = bytes) (cb : st.cbs = false → Ev.did .close ∈ st.log) (cl : st.phase = .closing → Ev.did .close ∈ st.log)
    (np : (∀ x, Ev.did (.pause x) ∉ st.log) → st.paused = false ∧ st.resumes = 0) (hp : bytes ++ b <+: s.all)
    (hrel : Ev.released ∉ st.log) : Hears s lost (bytes ++ b) (onReceive app st b) := by
  unfold onReceive
  rw [if_neg (fun h => h.elim hk he)]
  simp only
  obtain ⟨k, p1, p2⟩ := hpos
  generalize hrx : ({ st.rx with received := st.rx.received + UInt64.ofNat b.length, input := st.rx.input ++ b } : Rx) = rx'
  have hbase : Base st { st with rx := rx' } := rx_base st rx'
  have q1 : Pos s { st with rx := rx' } k := p1.calm hbase (fun d h => h.congr (by rw [← hrx]) (by rw [← hrx])) rfl
  have hin : rx'.input = st.rx.input ++ b := by rw [← hrx]
  obtain ⟨st', j, rest, g1, g2, g3, g4, g5, g6⟩ := loop_all s app (st.rx.input ++ b).length { st with rx := rx' } k (st.rx.input ++ b) (Nat.le_refl _)
    (by rw [← List.append_assoc, p2]; exact hp) he q1
  rw [g1]
  simp only
  have hplain : Plain st' (if st'.rx.lastAckSent + st'.rx.window ≤ st'.rx.received then sendAck app st' else st') := by
    split
    · exact sendAck_plain app st'
    · exact (Calm.refl st').plain
  generalize (if st'.rx.lastAckSent + st'.rx.window ≤ st'.rx.received then sendAck app st' else st') = y at *
  have hb2 : Base st' { y with rx := { y.rx with input := rest } } := hplain.toBase.trans (rx_base y _)
  have q2 : Pos s { y with rx := { y.rx with input := rest } } (k ++ j) :=
    g3.calm hb2 (fun d h => h.congr hplain.size hplain.streams) hplain.heard
  have hphase : y.phase = st'.phase ∨ y.phase = .closing ∧ Ev.did .close ∈ y.log ∧ st'.phase = .opn ∨ y.phase = .error ∧ Ev.did .close ∈ y.log := by
    rcases hplain.phase g3.known with e | ⟨e, e1 | e1⟩
    · exact .inl e
    · exact .inr (.inr ⟨e1, e⟩)
    · exact .inr (.inl ⟨e1.2, e, e1.1⟩)
  have hl1 : st.log <+: st'.log := g4.log
  have hl2 : st'.log <+: y.log := hplain.log
  refine ⟨q2.known, q2.heard, fun _ _ => ⟨k ++ j, q2, ?_, ?_⟩, fun hc _ => ?_, fun hc => ?_, fun hc => ?_, fun hn => ?_, fun hr => ?_⟩
  · show k ++ j ++ rest = bytes ++ b
    rw [List.append_assoc, ← g2, ← List.append_assoc, p2]
  · by_cases hpz : y.paused = true
    · exact .inl hpz
    · rcases hplain.pz (by simpa using hpz) with h1 | h1
      · rcases g6 with g6 | g6
        · rw [h1] at g6; nomatch g6
        · right; right
          exact g6.base hb2 (parse_congr _ _ hplain.size hplain.streams rest) g3.known
      · exact .inr (.inl h1)
  · rcases hplain.cbs with e | e
    · rcases g4.cbs with e' | e'
      · exact (hl1.trans hl2).subset (cb (by rw [← e', ← e]; exact hc))
      · exact hl2.subset e'
    · exact e
  · rcases hphase with e | ⟨_, e, _⟩ | ⟨_, e⟩
    · rcases g4.shut (by rw [← e]; exact hc) with h | h
      · exact (hl1.trans hl2).subset (cl h)
      · exact hl2.subset h
    · exact e
    · exact e
  · rcases hphase with e | ⟨e', e, _⟩ | ⟨_, e⟩
    · exact absurd (by rw [← e]; exact hc) g5
    · exact .inl e
    · exact .inl e
  · have h1 := hplain.np hn
    have h2 := g4.np (fun x hx => hn x (hl2.subset hx))
    have h3 := np (fun x hx => hn x ((hl1.trans hl2).subset hx))
    exact ⟨(h1.1.trans h2.1).trans h3.1, (h1.2.trans h2.2).trans h3.2⟩
  · rcases hplain.rel hr with h | h
    · rcases g4.rel h with h | h
      · exact absurd h hrel
      · exact absurd h g5
    · exact h

/-- the bytes of an operation -/
def Op.bytes : Op → Bytes
  | .read b => b
  | _ => []

/-- the bytes that arrive in a history -/
def arrives (l : List Op) : Bytes := l.flatMap Op.bytes

theorem step_hears {s : Script} {lost : Bool} {bytes : Bytes} {st : St} (app : App) (o : Op) (h : Hears s lost bytes st)
    (hp : bytes ++ o.bytes <+: s.all) : Hears s (lost || decide (o = .lost)) (bytes ++ o.bytes) (step app st o) := by
  unfold step
  by_cases hw : st.wild = true
  · rw [if_pos hw]
    exact h.over (.inl hw) (fun h => by rw [h]; rfl)
  · rw [if_neg hw]
    have hw : st.wild = false := by simpa using hw
    by_cases he : st.phase = .error
    · have hover : Hears s (lost || decide (o = .lost)) (bytes ++ o.bytes) st := h.over (.inr he) (fun h => by rw [h]; rfl)
      cases o with
      | read b => simp only; rw [if_neg (by simp [he])]; exact hover
      | writable => simp only; rw [if_neg (by simp [he])]; exact hover
      | lost => simp only; rw [if_neg (by simp [he])]; exact hover
      | trim => simp only; rw [if_neg (by simp [he])]; exact hover
      | resume => simp only; rw [if_neg (by simp [he])]; exact hover
      | call c =>
        simp only
        have c1 := call_calm app st c
        refine hover.ended (c1.er he) c1.heard ?_ fun hn => ?_
        · exact (hover.er he).imp_left (fun x => c1.log.subset x)
        · have h1 := c1.np hn
          have h2 := hover.np (fun x hx => hn x (c1.log.subset hx))
          exact ⟨h1.1.trans h2.1, h1.2.trans h2.2⟩
    · obtain ⟨k, p1, p2, p3⟩ := h.pos hw he
      cases o with
      | read b =>
        simp only
        rw [if_pos ⟨h.known, he⟩]
        have hl : (lost || decide (Op.read b = .lost)) = lost := by simp
        rw [hl]
        exact onReceive_hears app b h.known he hw h.pre ⟨k, p1, p2⟩ (fun hc => h.cb hc he) h.cl h.np hp (fun hr => he (h.rel hr))
      | writable =>
        simp only [Op.bytes, List.append_nil] at hp ⊢
        have hl : (lost || decide (Op.writable = .lost)) = lost := by simp
        rw [hl]
        split
        · rcases onWritable_calm app st with c | ⟨x, c, hx, hxw, e⟩
          · exact h.calm hw he c
          · rw [e]
            have hX := h.calm hw he c
            have hZ : Hears s lost bytes (setClosed app x) := hX.closed app (.inl (hX.cl hx))
            exact ⟨hZ.known, hZ.pre, hZ.pos, hZ.cb, hZ.cl, hZ.er, hZ.np, hZ.rel⟩
        · exact h
      | lost =>
        simp only [Op.bytes, List.append_nil] at hp ⊢
        rw [if_pos ⟨h.known, he⟩]
        exact h.closed app (.inr (by simp))
      | trim =>
        simp only [Op.bytes, List.append_nil] at hp ⊢
        have hl : (lost || decide (Op.trim = .lost)) = lost := by simp
        rw [hl]
        split
        · refine h.calm hw he ?_
          exact (tx_calm st st.tx st.scheduled false).weak_trans (trim_calm app _)
        · exact h
      | resume =>
        simp only
        have hl : (lost || decide (Op.resume = .lost)) = lost := by simp
        rw [hl]
        split
        · next hr =>
          refine onReceive_hears app [] (st := { st with resumes := st.resumes - 1 }) h.known he hw h.pre ⟨k, ?_, p2⟩ (fun hc => h.cb hc he) h.cl (fun hn => ?_) hp (fun hr => he (h.rel hr))
          · exact p1
          · have h2 := h.np hn
            exact absurd hr.2 (by omega)
        · simpa [Op.bytes] using h
      | call c =>
        simp only [Op.bytes, List.append_nil] at hp ⊢
        have hl : (lost || decide (Op.call c = .lost)) = lost := by simp
        rw [hl]
        exact h.calm hw he (call_calm app st c).weak

theorem run_hears {s : Script} (app : App) (ops : List Op) : ∀ {lost : Bool} {bytes : Bytes} {st : St}, Hears s lost bytes st →
    bytes ++ arrives ops <+: s.all → Hears s (lost || decide (Op.lost ∈ ops)) (bytes ++ arrives ops) (run app st ops) := by
  induction ops with
  | nil => intro lost bytes st h _; simpa [arrives, run] using h
  | cons o l ih =>
    intro lost bytes st h hp
    have e : arrives (o :: l) = o.bytes ++ arrives l := rfl
    rw [e, ← List.append_assoc] at hp ⊢
    have h1 := step_hears app o h ((List.prefix_append _ _).trans hp)
    have h2 := ih h1 hp
    have hl : (lost || decide (o = .lost) || decide (Op.lost ∈ l)) = (lost || decide (Op.lost ∈ o :: l)) := by
      simp [Bool.or_assoc, eq_comm]
    rw [← hl]
    exact h2

/-- in the beginning -/
theorem hears_start (s : Script) (app : App) (server : Bool) : Hears s false [] (step app init (.call (.init server))) := by
  have hph : (step app init (.call (.init server))).phase = .uninit := by
    cases server <;> rfl
  have hrx : (step app init (.call (.init server))).rx = init.rx := by cases server <;> rfl
  have hlog : heard (step app init (.call (.init server))).log = [] := by cases server <;> rfl
  have hpa : (step app init (.call (.init server))).paused = false ∧ (step app init (.call (.init server))).resumes = 0 := by cases server <;> exact ⟨rfl, rfl⟩
  have hcb : (step app init (.call (.init server))).cbs = true := by cases server <;> rfl
  have hrel : Ev.released ∉ (step app init (.call (.init server))).log := by
    cases server with
    | true => rw [show (step app init (.call (.init true))).log = [.did (.init true)] from rfl]; simp
    | false => rw [show (step app init (.call (.init false))).log = [.did (.init false), .ask] from rfl]; simp
  generalize step app init (.call (.init server)) = x at *
  refine ⟨by rw [hph]; nofun, by rw [hlog]; exact List.nil_prefix, fun _ _ => ⟨[], ?_, by rw [hrx]; rfl, .inr (.inr ?_)⟩, fun h => ?_, fun h => ?_, fun h => ?_, fun _ => hpa, fun h => absurd h hrel⟩
  · unfold Pos
    rw [hph]
    exact ⟨rfl, by rw [hrx]; exact ⟨rfl, fun _ => rfl⟩, hlog⟩
  · unfold Stuck
    rw [hph, hrx]; rfl
  · rw [hcb] at h; nomatch h
  · rw [hph] at h; nomatch h
  · rw [hph] at h; nomatch h

/-- what is stuck has heard all of what has arrived whole -/
theorem stuck_all (s : Script) (st : St) (k buf : Bytes) (hp : Pos s st k) (he : st.phase = .opn ∨ st.phase = .uninit ∨ st.phase = .versionSent ∨ st.phase = .ackSent)
    (hs : Stuck st buf) (hcb : st.cbs = true) (c1 c2 : List Chunk) (b1 : Bytes) (d1 : Dec) (m1 : List Message) (hc : s.chunks = c1 ++ c2)
    (hh : Dec.init.hear c1 = some (b1, d1, m1)) (hb : s.v :: (s.h1 ++ (s.h2 ++ b1)) <+: k ++ buf) : st.phase = .opn ∧ users m1 <+: heard st.log := by
  have hl := hb.length_le
  simp only [List.length_cons, List.length_append, s.l1, s.l2] at hl
  unfold Pos at hp
  unfold Stuck at hs
  rcases he with he | he | he | he
  · refine ⟨he, ?_⟩
    rw [he] at hp hs
    obtain ⟨a1, a2, x1, e1, n1, g1, g2, g3, g4, g5, g6⟩ := hp
    rw [g6 hcb]
    rcases Nat.lt_or_ge a1.length c1.length with hlt | hge
    · exfalso
      have hpre : a1 <+: c1 := List.prefix_of_prefix_length_le (g1 ▸ List.prefix_append a1 a2) (hc ▸ List.prefix_append c1 c2) (by omega)
      obtain ⟨t, rfl⟩ := hpre
      cases t with
      | nil => simp at hlt
      | cons c l =>
        obtain ⟨y1, f1, o1, y2, o2, w1, w2, w3, w4⟩ := hear_split hh
        rw [g2] at w1
        simp only [Option.some.injEq, Prod.mk.injEq] at w1
        obtain ⟨rfl, rfl, rfl⟩ := w1
        obtain ⟨f2, o3, y3, o4, u1, u2, u3, u4⟩ := hear_cons w2
        have hf : c.Fits := s.fits c (by rw [hc]; simp)
        rw [g3, w3, u3] at hb
        have hb' : (s.v :: (s.h1 ++ (s.h2 ++ x1))) ++ (e1.wire c ++ y3) <+: (s.v :: (s.h1 ++ (s.h2 ++ x1))) ++ buf := by simpa using hb
        have hw : e1.wire c <+: buf := (List.prefix_append _ _).trans ((List.prefix_append_right_inj _).mp hb')
        obtain ⟨rest, rfl⟩ := hw
        cases hbg : e1.begin c with
        | none => unfold Dec.take at u1; rw [hbg] at u1; nomatch u1
        | some sm =>
          have hd : c.data.length = min e1.size (sm.len - sm.part.length) := by
            by_cases hd : c.data.length = min e1.size (sm.len - sm.part.length)
            · exact hd
            · unfold Dec.take at u1; rw [hbg] at u1; simp only [Option.bind_some] at u1; rw [if_pos hd] at u1; nomatch u1
          obtain ⟨c', q, _⟩ := (parse_chunk st.rx e1 g4 c hf sm hbg (extended (e1.time c) ++ c.data ++ rest)).2 rest hd rfl
          have q' : parse st.rx (e1.wire c ++ rest) = .chunk c.cs c' (e1.wire c).length := by
            rw [← q]; simp [Dec.wire]
          simp only at hs
          rw [q'] at hs
          nomatch hs
    · have hpre : c1 <+: a1 := List.prefix_of_prefix_length_le (hc ▸ List.prefix_append c1 c2) (g1 ▸ List.prefix_append a1 a2) hge
      obtain ⟨t, rfl⟩ := hpre
      obtain ⟨y1, f1, o1, y2, o2, w1, w2, w3, w4⟩ := hear_split g2
      rw [hh] at w1
      simp only [Option.some.injEq, Prod.mk.injEq] at w1
      obtain ⟨rfl, rfl, rfl⟩ := w1
      rw [w4, users_append]
      exact List.prefix_append _ _
  · rw [he] at hp hs
    simp only at hp hs
    rw [hp.1, hs] at hl
    simp at hl
  · rw [he] at hp hs
    simp only at hp hs
    rw [hp.1] at hl
    simp at hl
    omega
  · rw [he] at hp hs
    simp only at hp hs
    rw [hp.1] at hl
    simp [s.l1] at hl
    omega

/-- … and when all of it has arrived, remembers what is to be remembered -/
theorem stuck_end (s : Script) (st : St) (k buf : Bytes) (hp : Pos s st k) (he : st.phase = .opn) (hs : Stuck st buf) (hb : s.all = k ++ buf) :
    buf = [] ∧ Link st.rx s.fin := by
  unfold Pos at hp
  unfold Stuck at hs
  rw [he] at hp hs
  obtain ⟨a1, a2, x1, e1, n1, g1, g2, g3, g4, g5, g6⟩ := hp
  have hh := s.hears
  rw [g1] at hh
  obtain ⟨y1, f1, o1, y2, o2, w1, w2, w3, w4⟩ := hear_split hh
  rw [g2] at w1
  simp only [Option.some.injEq, Prod.mk.injEq] at w1
  obtain ⟨rfl, rfl, rfl⟩ := w1
  have hbuf : buf = y2 := by
    rw [Script.all, g3, w3] at hb
    have : (s.v :: (s.h1 ++ (s.h2 ++ x1))) ++ y2 = (s.v :: (s.h1 ++ (s.h2 ++ x1))) ++ buf := by simpa using hb
    exact (List.append_cancel_left this).symm
  cases a2 with
  | nil =>
    simp only [Dec.hear, Option.some.injEq, Prod.mk.injEq] at w2
    obtain ⟨rfl, rfl, rfl⟩ := w2
    exact ⟨hbuf, g4⟩
  | cons c l =>
    exfalso
    obtain ⟨f2, o3, y3, o4, u1, u2, u3, u4⟩ := hear_cons w2
    have hf : c.Fits := s.fits c (by rw [g1]; simp)
    rw [hbuf, u3] at hs
    cases hbg : e1.begin c with
    | none => unfold Dec.take at u1; rw [hbg] at u1; nomatch u1
    | some sm =>
      have hd : c.data.length = min e1.size (sm.len - sm.part.length) := by
        by_cases hd : c.data.length = min e1.size (sm.len - sm.part.length)
        · exact hd
        · unfold Dec.take at u1; rw [hbg] at u1; simp only [Option.bind_some] at u1; rw [if_pos hd] at u1; nomatch u1
      obtain ⟨c', q, _⟩ := (parse_chunk st.rx e1 g4 c hf sm hbg (extended (e1.time c) ++ c.data ++ y3)).2 y3 hd rfl
      have q' : parse st.rx (e1.wire c ++ y3) = .chunk c.cs c' (e1.wire c).length := by
        rw [← q]; simp [Dec.wire]
      simp only at hs
      rw [q'] at hs
      nomatch hs

/-- Input that isn't allowed is the end. -/
theorem refuse_step (app : App) (st : St) (d : Dec) (hw : st.wild = false) (ho : st.phase = .opn) (hpz : st.paused = false) (hi : st.rx.input = []) (L : Link st.rx d)
    (c : Chunk) (hf : c.Fits) (ht : d.take c = none) (hd : ∀ s, d.begin c = some s → c.data.length = min d.size (s.len - s.part.length)) (rest : Bytes) :
    (step app st (.read (d.wire c ++ rest))).phase = .error ∧ heard (step app st (.read (d.wire c ++ rest))).log = heard st.log := by
  unfold step
  rw [if_neg (by simp [hw])]
  simp only
  rw [if_pos ⟨by rw [ho]; nofun, by rw [ho]; nofun⟩]
  unfold onReceive
  rw [if_neg (by rw [ho]; rintro (h | h) <;> nomatch h)]
  simp only [hi, List.nil_append]
  have hpos : 0 < (d.wire c ++ rest).length := by
    rw [List.length_append, wire_length, List.length_append]
    have : 0 < c.id.length := by unfold Chunk.id; split; · simp
                                 · split <;> simp
    omega
  obtain ⟨n, hn⟩ : ∃ n, (d.wire c ++ rest).length = n + 1 := ⟨(d.wire c ++ rest).length - 1, by omega⟩
  have hne : ¬ (d.wire c ++ rest = [] ∨ st.paused = true) := by
    rintro (h | h)
    · rw [h] at hpos; simp at hpos
    · rw [hpz] at h; nomatch h
  generalize hrx : ({ st.rx with received := st.rx.received + UInt64.ofNat (d.wire c ++ rest).length, input := d.wire c ++ rest } : Rx) = rx'
  have L' : Link rx' d := L.congr (by rw [← hrx]) (by rw [← hrx])
  rw [hn]
  unfold loop
  rw [if_neg hne]
  have key := open_refuse app { st with rx := rx' } d L' c hf ht hd rest
  simp only [onInput, ho] at key ⊢
  generalize openInput app { st with phase := .opn, rx := rx' } (d.wire c ++ rest) = r at *
  obtain ⟨x, o⟩ := r
  obtain ⟨rfl, k2⟩ := key
  simp only
  obtain ⟨z1, z2, z3, -⟩ := setClosed_end app x
  exact ⟨z1, z3.trans k2⟩

/-! ## What is kept of a message is never more than there is of it, whatever arrives -/

/-- nowhere more than there is to be -/
def Small (rx : Rx) : Prop := ∀ i, (rx.streams i).payload.length ≤ (rx.streams i).h.len ∧ (rx.streams i).h.len < 2 ^ 24

theorem parseRest_small (rx : Rx) (h : Small rx) (cs : Nat) (ct : UInt8) (r n : Nat) (ts : UInt32) (len : Nat) (type : UInt8) (cur : Bytes)
    (hct : ct = 0 ∨ ct = 0x40 ∨ ct = 0x80 ∨ ct = 0xc0)
    (hl : ct ≠ 0 → ct ≠ 0x40 → len = (rx.streams cs).h.len) (h24 : len < 2 ^ 24) (i : Nat) (c : RecvCs) (m : Nat)
    (hp : parseRest rx cs ct r n ts len type cur = .chunk i c m) : c.payload.length ≤ c.h.len ∧ c.h.len < 2 ^ 24 := by
  unfold parseRest at hp
  simp only at hp
  by_cases g1 : r < n + min rx.size (if ct = 0xc0 then len - (rx.streams cs).payload.length else len)
  · rw [if_pos g1] at hp; nomatch hp
  · rw [if_neg g1] at hp
    by_cases g2 : ts ≥ 0xffffff ∧ r < n + min rx.size (if ct = 0xc0 then len - (rx.streams cs).payload.length else len) + 4
    · rw [if_pos g2] at hp; nomatch hp
    · rw [if_neg g2] at hp
      simp only [Parsed.chunk.injEq] at hp
      obtain ⟨rfl, rfl, -⟩ := hp
      simp only [List.length_append, List.length_take]
      have hs := h cs
      rcases hct with c0 | c0 | c0 | c0
      · subst c0; simp; omega
      · subst c0; simp; omega
      · subst c0
        have hl := hl (by decide) (by decide)
        simp; omega
      · subst c0
        have hl := hl (by decide) (by decide)
        simp; omega

theorem top_bits (b : UInt8) : b &&& 0xc0 = 0 ∨ b &&& 0xc0 = 0x40 ∨ b &&& 0xc0 = 0x80 ∨ b &&& 0xc0 = 0xc0 := by
  have h : ∀ n < 256, UInt8.ofNat n &&& 0xc0 = 0 ∨ UInt8.ofNat n &&& 0xc0 = 0x40 ∨ UInt8.ofNat n &&& 0xc0 = 0x80 ∨ UInt8.ofNat n &&& 0xc0 = 0xc0 := by
    decide +kernel
  have := h b.toNat b.toNat_lt
  simpa using this

theorem fold_lt (b : Bytes) : ∀ a, b.foldl (fun a c => a * 256 + c.toNat) a < (a + 1) * 256 ^ b.length := by
  induction b with
  | nil => intro a; simp
  | cons c b ih =>
    intro a
    rw [List.foldl_cons, List.length_cons, Nat.pow_succ]
    have h := ih (a * 256 + c.toNat)
    have hc := c.toNat_lt
    have : (a * 256 + c.toNat + 1) * 256 ^ b.length ≤ ((a + 1) * 256) * 256 ^ b.length := Nat.mul_le_mul_right _ (by omega)
    have e : (a + 1) * (256 ^ b.length * 256) = ((a + 1) * 256) * 256 ^ b.length := by rw [Nat.mul_assoc, Nat.mul_comm 256]
    omega

theorem readBe_lt (b : Bytes) (h : b.length ≤ 3) : (readBe b).toNat < 2 ^ 24 := by
  rw [readBe_num b (by omega)]
  have h1 := fold_lt b 0
  have h2 : 256 ^ b.length ≤ 256 ^ 3 := Nat.pow_le_pow_right (by omega) h
  unfold num
  omega

theorem parse_small (rx : Rx) (h : Small rx) (bs : Bytes) (i : Nat) (c : RecvCs) (m : Nat) (hp : parse rx bs = .chunk i c m) :
    c.payload.length ≤ c.h.len ∧ c.h.len < 2 ^ 24 := by
  unfold parse at hp
  cases bs with
  | nil => nomatch hp
  | cons b0 tl =>
    simp only at hp
    have hct := top_bits b0
    generalize b0 &&& 0xc0 = ct at *
    generalize b0 &&& 0x3f = mid at *
    generalize (1 + (if mid < 2 then 1 else 0) + (if mid = 1 then 1 else 0) + (if ct = 0 then 11 else if ct = 0x40 then 7 else if ct = 0x80 then 3 else 0)) = needed at *
    generalize (if mid = 0 then (tl.getD 0 0).toNat + 64 else if mid = 1 then (tl.getD 0 0).toNat + ((tl.getD 1 0).toNat <<< 8) + 64 else mid.toNat) = cs at *
    by_cases g1 : (b0 :: tl).length < needed
    · rw [if_pos g1] at hp; nomatch hp
    · rw [if_neg g1] at hp
      by_cases g2 : (rx.streams cs).h.initted = false ∧ ct ≠ 0
      · rw [if_pos g2] at hp; nomatch hp
      · rw [if_neg g2] at hp
        by_cases g3 : ct = 0xc0
        · rw [if_pos g3] at hp
          exact parseRest_small rx h cs ct _ _ _ _ _ _ hct (fun _ _ => rfl) (h cs).2 i c m hp
        · rw [if_neg g3] at hp
          by_cases g4 : ct = 0x80
          · rw [if_pos g4] at hp
            exact parseRest_small rx h cs ct _ _ _ _ _ _ hct (fun _ _ => rfl) (h cs).2 i c m hp
          · rw [if_neg g4] at hp
            exact parseRest_small rx h cs ct _ _ _ _ _ _ hct (fun h0 h1 => absurd hct (by simp [h0, h1, g3, g4])) (readBe_lt _ (by rw [List.length_take]; omega)) i c m hp

theorem small_put (f : Nat → RecvCs) (h : ∀ i, (f i).payload.length ≤ (f i).h.len ∧ (f i).h.len < 2 ^ 24) (j : Nat) (c : RecvCs)
    (hc : c.payload.length ≤ c.h.len ∧ c.h.len < 2 ^ 24) (i : Nat) :
    (put f j c i).payload.length ≤ (put f j c i).h.len ∧ (put f j c i).h.len < 2 ^ 24 := by
  unfold put
  split
  · exact hc
  · exact h i

theorem completed_small (app : App) (st : St) (h : Small st.rx) (sid : UInt32) (type : UInt8) (ts : UInt32) (p : Bytes) :
    Small (onMessageCompleted app st sid type ts p).1.rx := by
  have hplain : ∀ b, Plain st b → Small b.rx := fun b hb i => by rw [hb.streams]; exact h i
  unfold onMessageCompleted
  split
  · split
    · exact h
    · split
      · unfold onSetChunkSize
        split
        · exact h
        · simp only
          split
          · exact h
          · exact h
      · split
        · unfold onAbort
          split
          · exact h
          · simp only
            split
            · exact h
            · split
              · exact h
              · exact small_put _ h _ _ ⟨Nat.zero_le _, (h _).2⟩
        · split
          · exact hplain _ (onAck_plain st p)
          · split
            · exact hplain _ (onWindow_plain app st p)
            · exact hplain _ (onBandwidth_plain app st p)
  · simp only
    split
    · unfold callback
      rw [(calls_calm app _ _).rx]
      exact h
    · exact h

theorem openInput_small (app : App) (st : St) (h : Small st.rx) (bs : Bytes) : Small (openInput app st bs).1.rx := by
  unfold openInput
  split
  · exact h
  · exact h
  · next cs c n hp =>
    have h1 : Small { st.rx with streams := put st.rx.streams cs c } := small_put _ h _ _ (parse_small st.rx h bs cs c n hp)
    simp only
    split
    · have h2 := completed_small app { st with rx := { st.rx with streams := put st.rx.streams cs c } } h1 c.h.sid c.h.type c.h.ts c.payload
      generalize onMessageCompleted app { st with rx := { st.rx with streams := put st.rx.streams cs c } } c.h.sid c.h.type c.h.ts c.payload = r at *
      split
      · exact small_put _ h2 _ _ ⟨Nat.zero_le _, (h2 _).2⟩
      · exact h2
    · exact h1

theorem onInput_small (app : App) (st : St) (h : Small st.rx) (bs : Bytes) : Small (onInput app st bs).1.rx := by
  unfold onInput
  split
  · exact openInput_small app st h bs
  · exact openInput_small app st h bs
  · unfold uninitInput
    simp only
    split
    · exact h
    · simp only
      split
      · unfold handshake01
        rw [(scheduleWrite_calm _).rx]
        exact h
      · exact h
  · unfold versionInput
    split
    · exact h
    · simp only
      rw [(scheduleWrite_calm _).rx]
      exact h
  · unfold ackInput
    split
    · exact h
    · simp only
      split
      all_goals
        first
        | rw [(callback_calm app _ .opened rfl).rx, (scheduleWrite_calm _).rx]; exact h
        | (split
           · rw [(callback_calm app _ .opened rfl).rx, (scheduleWrite_calm _).rx]; exact h
           · rw [(scheduleWrite_calm _).rx]; exact h)
  · exact h
  · exact h

theorem loop_small (app : App) (fuel : Nat) : ∀ (st : St) (buf : Bytes), Small st.rx → Small (loop app fuel st buf).1.rx := by
  induction fuel with
  | zero => exact fun st buf h => h
  | succ fuel ih =>
    intro st buf h
    unfold loop
    split
    · exact h
    · have h1 := onInput_small app st h buf
      split
      · next st' e =>
        rw [e] at h1
        show Small (setClosed app st').rx
        rw [(setClosed_end app st').2.1]
        exact h1
      · next st' n e =>
        rw [e] at h1
        split
        · exact h1
        · exact ih _ _ h1

theorem onReceive_small (app : App) (st : St) (h : Small st.rx) (b : Bytes) : Small (onReceive app st b).rx := by
  unfold onReceive
  split
  · rw [(setClosed_end app st).2.1]; exact h
  · simp only
    generalize hrx : ({ st.rx with received := st.rx.received + UInt64.ofNat b.length, input := st.rx.input ++ b } : Rx) = rx'
    have h0 : Small rx' := by rw [← hrx]; exact h
    have h1 := loop_small app (st.rx.input ++ b).length { st with rx := rx' } (st.rx.input ++ b) h0
    split
    · next st' e => rw [e] at h1; exact h1
    · next st' rest e =>
      rw [e] at h1
      show Small _
      have hpl : Plain st' (if st'.rx.lastAckSent + st'.rx.window ≤ st'.rx.received then sendAck app st' else st') := by
        split
        · exact sendAck_plain app st'
        · exact (Calm.refl st').plain
      intro i
      show ((if st'.rx.lastAckSent + st'.rx.window ≤ st'.rx.received then sendAck app st' else st').rx.streams i).payload.length ≤
        ((if st'.rx.lastAckSent + st'.rx.window ≤ st'.rx.received then sendAck app st' else st').rx.streams i).h.len ∧ 
        ((if st'.rx.lastAckSent + st'.rx.window ≤ st'.rx.received then sendAck app st' else st').rx.streams i).h.len < 2 ^ 24
      rw [hpl.streams]
      exact h1 i

theorem calm'_small {a b : St} (h : Small a.rx) (c : Calm' a b) : Small b.rx := by
  unfold Calm' at c
  have e : b.rx = a.rx := c.rx
  rw [e]; exact h

theorem step_small (app : App) (st : St) (h : Small st.rx) (o : Op) : Small (step app st o).rx := by
  have hc' : ∀ b, Calm' st b → Small b.rx := fun b hb => calm'_small h hb
  unfold step
  split
  · exact h
  · cases o with
    | read b =>
      simp only
      split
      · exact onReceive_small app st h b
      · exact h
    | writable =>
      simp only
      split
      · rcases onWritable_calm app st with c | ⟨x, c, _, _, e⟩
        · exact hc' _ c
        · have h1 := (setClosed_end app x).2.1
          have h2 := hc' x c
          rw [← h1] at h2
          rw [e]
          exact h2
      · exact h
    | lost =>
      simp only
      split
      · rw [(setClosed_end app st).2.1]; exact h
      · exact h
    | trim =>
      simp only
      split
      · exact hc' _ ((tx_calm st st.tx st.scheduled false).weak_trans (trim_calm app _))
      · exact h
    | resume =>
      simp only
      split
      · have hs : Small ({ st with resumes := st.resumes - 1 } : St).rx := h
        generalize ({ st with resumes := st.resumes - 1 } : St) = x at *
        exact onReceive_small app x hs []
      · exact h
    | call c => simp only; rw [(call_calm app st c).rx]; exact h

theorem run_small (app : App) (ops : List Op) : ∀ st, Small st.rx → Small (run app st ops).rx := by
  induction ops with
  | nil => exact fun st h => h
  | cons o l ih => exact fun st h => ih _ (step_small app st h o)

/-! ## The end is the end -/

theorem error_step (app : App) (st : St) (he : st.phase = .error) (o : Op) :
    (step app st o).phase = .error ∧ heard (step app st o).log = heard st.log := by
  unfold step
  split
  · exact ⟨he, rfl⟩
  · cases o with
    | read b => simp only; rw [if_neg (by simp [he])]; exact ⟨he, rfl⟩
    | writable => simp only; rw [if_neg (by simp [he])]; exact ⟨he, rfl⟩
    | lost => simp only; rw [if_neg (by simp [he])]; exact ⟨he, rfl⟩
    | trim => simp only; rw [if_neg (by simp [he])]; exact ⟨he, rfl⟩
    | resume => simp only; rw [if_neg (by simp [he])]; exact ⟨he, rfl⟩
    | call c =>
      simp only
      have c1 := call_calm app st c
      exact ⟨c1.er he, c1.heard⟩

theorem error_run (app : App) (ops : List Op) : ∀ st : St, st.phase = .error → (run app st ops).phase = .error ∧ heard (run app st ops).log = heard st.log := by
  induction ops with
  | nil => exact fun st h => ⟨h, rfl⟩
  | cons o l ih =>
    intro st h
    obtain ⟨h1, h2⟩ := error_step app st h o
    obtain ⟨h3, h4⟩ := ih _ h1
    exact ⟨h3, h4.trans h2⟩

theorem run_append (app : App) (st : St) (a b : List Op) : run app st (a ++ b) = run app (run app st a) b := List.foldl_append

theorem arrives_append (a b : List Op) : arrives (a ++ b) = arrives a ++ arrives b := List.flatMap_append

end Rtmfp.Rtmp
