import Verif.Lemmas.WebSocketSend
import Verif.Lemmas.WebSocketRequest

/-! # When a WebSocket is open -/

namespace Rtmfp.WS

open Spec.Web

/-- more happened, but `onOpen` wasn't called -/
def Unopened (st st' : St) : Prop := ∃ l, st'.log = st.log ++ l ∧ Ev.opened ∉ l

theorem Unopened.refl (st : St) : Unopened st st := ⟨[], by simp, by simp⟩

theorem Unopened.trans {a b c : St} (h : Unopened a b) (g : Unopened b c) : Unopened a c := by
  obtain ⟨l, h1, h2⟩ := h
  obtain ⟨m, g1, g2⟩ := g
  exact ⟨l ++ m, by rw [g1, h1, List.append_assoc], by simp [h2, g2]⟩

theorem Calm.unopened {a b : St} (h : Calm a b) : Unopened a b := by
  obtain ⟨l, h1, _, h2, _⟩ := h.log
  exact ⟨l, h1, h2⟩

theorem emit_unopened (st : St) (e : Ev) (h : e ≠ .opened) : Unopened st (emit st e) := ⟨[e], rfl, by simpa using h.symm⟩

theorem frame_unopened (app : App) (st : St) (fin : Bool) (op : Nat) (b : Bytes) : Unopened st (onFrame app st fin op b) := by
  have sc : ∀ s : St, Unopened s (setClosed app s) := fun s => (setClosed_spec app s).1.unopened
  have cb : ∀ (s : St) (e : Ev), e ≠ .opened → Unopened s (callback app s e) := fun s e h => (emit_unopened s e h).trans (callback_calm app s e).unopened
  have mf : ∀ (s : St) (op : Int) (fin : Bool) (b : Bytes), Unopened s (onMessageFrame app s op fin b) := by
    intro s op fin b
    unfold onMessageFrame
    split
    · exact sc s
    · split
      · exact ⟨[], by simp, by simp⟩
      · split
        · split
          · exact cb s _ (by simp)
          · exact .refl s
        · split
          · split
            · exact cb s _ (by simp)
            · exact .refl s
          · exact .refl s
  have hne : ∀ e, e ≠ .opened → Unopened st (if st.phase ≠ .error then emit st e else st) := fun e h => by
    split
    · exact emit_unopened st e h
    · exact .refl st
  unfold onFrame
  simp only
  split
  · unfold onContinuation
    split
    · exact sc st
    · simp only
      split
      · exact mf { st with frag := st.frag ++ b, fragOp := -1 } st.fragOp true (st.frag ++ b)
      · exact ⟨[], by simp, by simp⟩
  · split
    · exact (hne _ (by simp)).trans (writeFrame_calm _ _ _).unopened
    · split
      · exact hne _ (by simp)
      · split
        · split
          · exact (hne _ (by simp)).trans (sc _)
          · exact (hne _ (by simp)).trans (cleanClose_calm _).unopened
        · exact mf st _ _ _

theorem loop_unopened (app : App) (fuel : Nat) (st : St) (buf : Bytes) : Unopened st (loop app fuel st buf).1 := by
  induction fuel generalizing st buf with
  | zero => exact .refl st
  | succ fuel ih =>
    unfold loop
    split
    · exact .refl st
    · split
      · exact .refl st
      · exact (setClosed_spec app st).1.unopened
      · exact (frame_unopened app st _ _ _).trans (ih _ _)

theorem body_unopened (app : App) (st : St) (b : Bytes) : Unopened st (onBody app st b) := by
  have e : onBody app st b = endBody (loop app (st.input ++ b).length { st with input := st.input ++ b } (st.input ++ b)) := rfl
  have h : Unopened st (loop app (st.input ++ b).length { st with input := st.input ++ b } (st.input ++ b)).1 :=
    loop_unopened app (st.input ++ b).length { st with input := st.input ++ b } (st.input ++ b)
  rw [e]
  generalize loop app (st.input ++ b).length { st with input := st.input ++ b } (st.input ++ b) = r at h
  rcases r with ⟨st1, _ | rest⟩
  · exact h
  · exact h

theorem acts_log (app : App) (a b : St) (h : Acts app a b) : a.log <+: b.log := by
  induction h with
  | refl => exact List.prefix_refl _
  | tail _ x ih => exact ih.trans (act_log app _ _ x)

theorem act_headers (app : App) (a b : St) (x : Act app a b) (h : Ev.opened ∈ a.log) : b.headers = a.headers := by
  cases x with
  | call c => exact (call_calm a c).hd
  | note e hp he => rfl
  | ping _ hp => exact (writeFrame_calm _ _ _).hd
  | answer hp hc => exact (cleanClose_calm _).hd
  | second hp hc => rfl
  | fail hp => rfl
  | opened hp => exact (writeBytes_calm a _).hd
  | put hp ho => rfl
  | rest ho => rfl
  | own _ h1 h2 h3 h4 h5 h6 => exact h6.resolve_right (fun hn => hn h)
  | over _ h1 h2 h3 h4 => exact h4

theorem acts_headers (app : App) (a b : St) (h : Acts app a b) (ho : Ev.opened ∈ a.log) : b.headers = a.headers := by
  induction h with
  | refl => rfl
  | tail hx x ih => exact (act_headers app _ _ x ((acts_log app _ _ hx).subset ho)).trans ih

theorem scan_all (g : Bool) (blk x : Bytes) {g' : Bool} {k r : Bytes} (h : scan g blk x = (g', k, some r)) : blk ++ x = k ++ r := by
  induction x generalizing g blk with
  | nil => simp [scan] at h
  | cons c x ih =>
    unfold scan at h
    split at h
    · split at h
      · simp only [Prod.mk.injEq, Option.some.injEq] at h
        obtain ⟨_, h2, h3⟩ := h
        rw [← h2, ← h3]; simp
      · have := ih _ _ h; rw [← this]; simp
    · have := ih _ _ h; rw [← this]; simp

theorem scan_more {R : Bytes} {g : Bool} {k r : Bytes} (h : scan false [] R = (g, k, some r)) (b : Bytes) : scan false [] (R ++ b) = (g, k, some (r ++ b)) := by
  rw [scan_append, h]

/-- the header asks for a WebSocket -/
def Fine (k : Bytes) (fields : List (Bytes × Bytes)) : Prop := ∃ sl, parseBlock k = (sl, some fields) ∧ wanted sl fields = true

theorem headersComplete_open (app : App) (st : St) (hi : Inv st) (ho : Ev.opened ∉ st.log) :
    (Ev.opened ∈ (onHeadersComplete app st).log → (onHeadersComplete app st).headers = st.headers ∧ wanted st.startLine st.headers = true) ∧
    (Stays app → st.phase = .opn → wanted st.startLine st.headers = true → Ev.opened ∈ (onHeadersComplete app st).log ∧ (onHeadersComplete app st).phase = .opn) ∧
    (wanted st.startLine st.headers = false → (onHeadersComplete app st).phase = .error ∧
      (Stays app → st.phase = .opn → Ev.failed ∈ (onHeadersComplete app st).log)) := by
  have hc : ∃ s, (if st.cbs then callback app st .headers else st) = s ∧ s.headers = st.headers ∧ s.startLine = st.startLine ∧ Ev.opened ∉ s.log ∧ Inv s ∧
      (Stays app → s.phase = st.phase) := by
    refine ⟨_, rfl, ?_⟩
    split
    · have c := callback_calm app st .headers
      refine ⟨c.hd, c.sl, ?_, c.inv hi, fun hs => callback_phase app hs st .headers⟩
      obtain ⟨l, h1, _, h2, _⟩ := c.log
      rw [h1]; simp [h2, emit, ho]
    · exact ⟨rfl, rfl, ho, hi, fun _ => rfl⟩
  obtain ⟨s, e, h1, h2, h3, h4, h5⟩ := hc
  unfold onHeadersComplete
  rw [e, ← h1, ← h2]
  simp only
  cases hw : wanted s.startLine s.headers with
  | false =>
    rw [if_neg (by simp)]
    obtain ⟨g, g2, g3⟩ := setClosed_spec app s
    refine ⟨fun hm => ?_, (fun _ _ h => nomatch h), fun _ => ⟨g2 h4, fun hs hp => (g3 h4 (by rw [h5 hs, hp]; simp)).1⟩⟩
    obtain ⟨l, k1, _, k2, _⟩ := g.log
    rw [k1] at hm
    rcases List.mem_append.mp hm with hm | hm
    · exact absurd hm h3
    · exact absurd hm k2
  | true =>
    rw [if_pos rfl]
    have cw := writeBytes_calm s (response app s.headers)
    refine ⟨fun _ => ⟨?_, rfl⟩, fun hs hp _ => ?_, (fun h => nomatch h)⟩
    · split
      · exact (callback_calm app _ _).hd.trans cw.hd
      · exact cw.hd
    · have hph : (writeBytes s (response app s.headers)).phase = .opn := by
        rw [show (writeBytes s (response app s.headers)).phase = s.phase from scheduleWrite_phase _, h5 hs, hp]
      have hcb : (writeBytes s (response app s.headers)).cbs = true := by rw [cw.inv h4, hph]; rfl
      rw [if_pos hcb]
      exact ⟨callback_mem app _ _, by rw [callback_phase app hs, hph]⟩

theorem headerBlock_open (app : App) (st : St) (hi : Inv st) (ho : Ev.opened ∉ st.log) :
    (Ev.opened ∈ (parseHeaderBlock app st).log → Fine st.block (parseHeaderBlock app st).headers) ∧
    (Stays app → st.phase = .opn → (∃ fs, Fine st.block fs) → Ev.opened ∈ (parseHeaderBlock app st).log ∧ (parseHeaderBlock app st).phase = .opn) ∧
    ((¬ ∃ fs, Fine st.block fs) → (parseHeaderBlock app st).phase = .error ∧ (Stays app → st.phase = .opn → Ev.failed ∈ (parseHeaderBlock app st).log)) := by
  unfold parseHeaderBlock
  simp only
  rcases hb : parseBlock st.block with ⟨sl, _ | fields⟩
  · simp only
    obtain ⟨g, g2, g3⟩ := setClosed_spec app { st with headerComplete := true, startLine := sl }
    refine ⟨fun hm => ?_, fun _ _ ⟨fs, sl', h, _⟩ => ?_, fun _ => ⟨g2 hi, fun _ hp => (g3 hi (by simp [hp])).1⟩⟩
    · obtain ⟨l, k1, _, k2, _⟩ := g.log
      rw [k1] at hm
      rcases List.mem_append.mp hm with hm | hm
      · exact absurd hm ho
      · exact absurd hm k2
    · rw [hb] at h; simp at h
  · simp only
    obtain ⟨h1, h2, h3⟩ := headersComplete_open app { st with headerComplete := true, startLine := sl, headers := fields } hi ho
    refine ⟨fun hm => ?_, fun hs hp ⟨fs, sl', h, hw⟩ => ?_, fun hn => h3 ?_⟩
    · obtain ⟨k1, k2⟩ := h1 hm
      rw [k1]; exact ⟨sl, hb, k2⟩
    · rw [hb] at h
      simp only [Prod.mk.injEq, Option.some.injEq] at h
      obtain ⟨rfl, rfl⟩ := h
      exact h2 hs hp hw
    · cases hw : wanted sl fields with
      | false => rfl
      | true => exact absurd ⟨fields, sl, hb, hw⟩ hn

/-- the two cases of `onReceive` before the end of the header -/
theorem receive_header (app : App) (st : St) (R b : Bytes) (g : Good st R) (hp : st.phase = .opn) (hh : st.headerComplete = false) (hb : b ≠ []) :
    (∃ g' k, scan false [] (R ++ b) = (g', k, none) ∧ (onReceive app st b) = { st with gotNewline := g', block := k }) ∨
    (∃ g' k rest, scan false [] (R ++ b) = (g', k, some rest) ∧
      (onReceive app st b = parseHeaderBlock app { st with gotNewline := g', block := k } ∨
       onReceive app st b = onBody app (parseHeaderBlock app { st with gotNewline := g', block := k }) rest) ∧
      ((parseHeaderBlock app { st with gotNewline := g', block := k }).phase = .error → onReceive app st b = parseHeaderBlock app { st with gotNewline := g', block := k })) := by
  rcases g.opn hp with ⟨_, h2, _⟩ | ⟨h2, _⟩
  · have hs : scan false [] (R ++ b) = scan st.gotNewline st.block b := by rw [scan_append, h2]
    have e : onReceive app st b = (if (onHeader app st b).1.phase = .opn ∧ (onHeader app st b).2 ≠ [] then onBody app (onHeader app st b).1 (onHeader app st b).2 else (onHeader app st b).1) := by
      unfold onReceive
      rw [if_pos ⟨hp, hb⟩, if_neg (by simp [hh])]
    rcases hq : scan st.gotNewline st.block b with ⟨g', k, _ | rest⟩
    · left
      refine ⟨g', k, by rw [hs, hq], ?_⟩
      have : onHeader app st b = ({ st with gotNewline := g', block := k }, []) := by simp [onHeader, hq]
      rw [e, this, if_neg (by simp)]
    · right
      have : onHeader app st b = (parseHeaderBlock app { st with gotNewline := g', block := k }, rest) := by simp [onHeader, hq]
      refine ⟨g', k, rest, by rw [hs, hq], ?_, ?_⟩
      · rw [e, this]
        split
        · exact .inr rfl
        · exact .inl rfl
      · intro he
        rw [e, this, if_neg (by simp [he])]
  · rw [hh] at h2; cases h2

/-- `onOpen` was called only if the header asks for a WebSocket -/
def Opened (st : St) (R : Bytes) : Prop := Ev.opened ∈ st.log → ∃ g k rest, scan false [] R = (g, k, some rest) ∧ Fine k st.headers

theorem opened_step (app : App) (st : St) (R : Bytes) (o : Op) (g : Good st R) (h : Opened st R) : Opened (step app st o) (R ++ received [o]) := by
  intro hm
  have hcalm : (∀ b, o ≠ .read b) → Calm st (step app st o) := step_calm app st o
  by_cases ho : Ev.opened ∈ st.log
  · obtain ⟨g', k, rest, h1, h2⟩ := h ho
    rw [acts_headers app _ _ (step_acts app st R o g) ho]
    exact ⟨g', k, _, scan_more h1 _, h2⟩
  · cases o with
    | read b =>
      have hr : received [.read b] = b := by simp [received]
      rw [hr]
      replace hm : Ev.opened ∈ (onReceive app st b).log := hm
      show ∃ g' k rest, scan false [] (R ++ b) = (g', k, some rest) ∧ Fine k (onReceive app st b).headers
      by_cases hc : st.phase = .opn ∧ b ≠ []
      · by_cases hh : st.headerComplete = true
        · exfalso
          have e : onReceive app st b = onBody app st b := by unfold onReceive; rw [if_pos hc, if_pos hh]
          rw [e] at hm
          obtain ⟨l, k1, k2⟩ := body_unopened app st b
          rw [k1] at hm
          rcases List.mem_append.mp hm with hm | hm
          · exact ho hm
          · exact k2 hm
        · rcases receive_header app st R b g hc.1 (by simpa using hh) hc.2 with ⟨g', k, h1, h2⟩ | ⟨g', k, rest, h1, h2, _⟩
          · rw [h2] at hm; exact absurd hm ho
          · refine ⟨g', k, rest, h1, ?_⟩
            obtain ⟨q1, _⟩ := headerBlock_open app { st with gotNewline := g', block := k } g.inv ho
            rcases h2 with h2 | h2
            · rw [h2] at hm ⊢; exact q1 hm
            · obtain ⟨st', q0, qi, _⟩ := headerBlock_spec app { st with gotNewline := g', block := k } g.inv
              rw [h2] at hm ⊢
              have hm1 : Ev.opened ∈ (parseHeaderBlock app { st with gotNewline := g', block := k }).log := by
                obtain ⟨l, k1, k2⟩ := body_unopened app (parseHeaderBlock app { st with gotNewline := g', block := k }) rest
                rw [k1] at hm
                rcases List.mem_append.mp hm with hm | hm
                · exact hm
                · exact absurd hm k2
              rw [acts_headers app _ _ (body_acts app _ rest (by rw [q0]; exact qi)) hm1]
              exact q1 hm1
      · have e : onReceive app st b = st := by unfold onReceive; rw [if_neg hc]
        rw [e] at hm; exact absurd hm ho
    | writable | lost | call c =>
      exfalso
      obtain ⟨l, h1, h2⟩ := (hcalm (by simp)).unopened
      rw [h1] at hm
      rcases List.mem_append.mp hm with hm | hm
      · exact ho hm
      · exact h2 hm

theorem opened_run (app : App) (ops : List Op) : Opened (run app init ops) (received ops) := by
  have go : ∀ (ops : List Op) (st : St) (R : Bytes), Good st R → Opened st R → Opened (run app st ops) (R ++ received ops) := by
    intro ops
    induction ops with
    | nil => intro st R _ h; simpa [received, run] using h
    | cons o ops ih =>
      intro st R g h
      have g1 : Good (step app st o) (R ++ received [o]) := good_run app [o] st R g
      have := ih (step app st o) _ g1 (opened_step app st R o g h)
      rw [show received (o :: ops) = received [o] ++ received ops by simp [received], ← List.append_assoc]
      exact this
  have := go ops init [] good_init (by intro h; simp [init] at h)
  simpa using this

/-- Applications that stay: until the header has ended, open; then `onOpen` was called, or it's over, as the header asks. -/
def Answered (st : St) (R : Bytes) : Prop :=
  (∀ g k, scan false [] R = (g, k, none) → st.phase = .opn ∧ st.headerComplete = false ∧ Ev.opened ∉ st.log) ∧
  (∀ g k rest, scan false [] R = (g, k, some rest) → ((∃ fs, Fine k fs) → Ev.opened ∈ st.log) ∧ ((¬ ∃ fs, Fine k fs) → st.phase = .error ∧ Ev.failed ∈ st.log ∧ arrivals st.log = []))

theorem answered_step (app : App) (hs : Stays app) (st : St) (R : Bytes) (o : Op) (g : Good st R) (h : Answered st R)
    (ho : o ≠ .lost ∧ o ≠ .call .close ∧ o ≠ .call .shutdown) : Answered (step app st o) (R ++ received [o]) := by
  obtain ⟨h1, h2⟩ := h
  have hcalm : (∀ b, o ≠ .read b) → Calm st (step app st o) := step_calm app st o
  have hr : (∀ b, o ≠ .read b) → received [o] = [] := by
    intro h
    cases o with
    | read b => exact absurd rfl (h b)
    | writable | lost | call c => rfl
  have hlog := acts_log app _ _ (step_acts app st R o g)
  rcases hscan : scan false [] R with ⟨gR, kR, _ | restR⟩
  · obtain ⟨p1, p2, p3⟩ := h1 gR kR hscan
    cases o with
    | read b =>
      have hr : received [.read b] = b := by simp [received]
      rw [hr]
      by_cases hb : b = []
      · subst hb
        have e : step app st (.read []) = st := by show onReceive app st [] = st; simp [onReceive]
        rw [e, List.append_nil]
        exact ⟨h1, h2⟩
      · show Answered (onReceive app st b) (R ++ b)
        rcases receive_header app st R b g p1 p2 hb with ⟨g', k, q1, q2⟩ | ⟨g', k, rest, q1, q2, q3⟩
        · rw [q2]
          refine ⟨fun _ _ _ => ⟨p1, p2, p3⟩, fun g'' k' rest' hq => ?_⟩
          rw [q1] at hq; simp at hq
        · obtain ⟨_, r2, r3⟩ := headerBlock_open app { st with gotNewline := g', block := k } g.inv p3
          refine ⟨fun g'' k' hq => ?_, fun g'' k' rest' hq => ?_⟩
          · rw [q1] at hq; simp at hq
          · rw [q1] at hq
            simp only [Prod.mk.injEq, Option.some.injEq] at hq
            obtain ⟨rfl, rfl, rfl⟩ := hq
            refine ⟨fun hf => ?_, fun hf => ?_⟩
            · have hm := (r2 hs p1 hf).1
              rcases q2 with q2 | q2
              · rw [q2]; exact hm
              · rw [q2]
                obtain ⟨l, k1, _⟩ := body_unopened app (parseHeaderBlock app { st with gotNewline := g', block := k }) rest
                rw [k1]; exact List.mem_append_left _ hm
            · obtain ⟨t1, t2⟩ := r3 hf
              rw [q3 t1]
              refine ⟨t1, t2 hs p1, ?_⟩
              obtain ⟨st', u0, _, _, _, _, _, u1, _⟩ := headerBlock_spec app { st with gotNewline := g', block := k } g.inv
              rw [u0, u1]
              rcases g.opn p1 with ⟨_, _, v, _⟩ | ⟨v, _⟩
              · exact v
              · rw [p2] at v; cases v
    | writable | lost | call c =>
      rw [hr (by simp), List.append_nil]
      have c0 := hcalm (by simp)
      refine ⟨fun _ _ _ => ⟨?_, c0.hc.trans p2, ?_⟩, fun g' k rest hq => by rw [hscan] at hq; simp at hq⟩
      · first
        | (show (if st.phase ≠ .error ∧ st.scheduled then onWritable app st else st).phase = .opn
           split
           · exact onWritable_phase app hs st p1
           · exact p1)
        | exact absurd rfl ho.1
        | (show (call st c).phase = .opn
           rw [call_phase st c (fun e => ho.2.1 (by rw [e])) (fun e => ho.2.2 (by rw [e]))]; exact p1)
      · intro hm
        obtain ⟨l, k1, k2⟩ := c0.unopened
        rw [k1] at hm
        rcases List.mem_append.mp hm with hm | hm
        · exact p3 hm
        · exact k2 hm
  · obtain ⟨p1, p2⟩ := h2 gR kR restR hscan
    refine ⟨fun g' k hq => by rw [scan_more hscan] at hq; simp at hq, fun g' k rest hq => ?_⟩
    rw [scan_more hscan] at hq
    simp only [Prod.mk.injEq, Option.some.injEq] at hq
    obtain ⟨rfl, rfl, _⟩ := hq
    refine ⟨fun hf => hlog.subset (p1 hf), fun hf => ?_⟩
    obtain ⟨he, hfl, har⟩ := p2 hf
    refine ⟨?_, hlog.subset hfl, ?_⟩
    · cases o with
      | read b => show (onReceive app st b).phase = .error; simp [onReceive, he]
      | writable | lost | call c => exact (hcalm (by simp)).err he
    · cases o with
      | read b => show arrivals (onReceive app st b).log = []; simpa [onReceive, he] using har
      | writable | lost | call c => exact (hcalm (by simp)).arrivals.trans har

theorem answered_run (app : App) (hs : Stays app) (ops : List Op) (hl : Lasts ops) : Answered (run app init ops) (received ops) := by
  have go : ∀ (ops : List Op) (st : St) (R : Bytes), Lasts ops → Good st R → Answered st R → Answered (run app st ops) (R ++ received ops) := by
    intro ops
    induction ops with
    | nil => intro st R _ _ h; simpa [received, run] using h
    | cons o ops ih =>
      intro st R hl g h
      have g1 : Good (step app st o) (R ++ received [o]) := good_run app [o] st R g
      obtain ⟨l1, l2, l3⟩ := hl
      simp only [List.mem_cons, not_or] at l1 l2 l3
      have := ih (step app st o) _ ⟨l1.2, l2.2, l3.2⟩ g1 (answered_step app hs st R o g h ⟨fun e => l1.1 e.symm, fun e => l2.1 e.symm, fun e => l3.1 e.symm⟩)
      rw [show received (o :: ops) = received [o] ++ received ops by simp [received], ← List.append_assoc]
      exact this
  have := go ops init [] hl good_init ⟨fun _ _ _ => ⟨rfl, rfl, by simp [init]⟩, fun _ _ _ h => by simp [scan] at h⟩
  simpa using this

end Rtmfp.WS
