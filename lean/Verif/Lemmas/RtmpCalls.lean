import Verif.Lemmas.RtmpParse

/-! # What the application's calls can do to an RTMP, as far as receiving is concerned -/

namespace Rtmfp.Rtmp

open Spec.Chunks

/-- the messages given to the application -/
def heard (l : List Ev) : List Message := l.filterMap fun
  | .message sid type ts p => some ⟨sid, type, ts, p⟩
  | _ => none

theorem heard_append (a b : List Ev) : heard (a ++ b) = heard a ++ heard b := List.filterMap_append

/-- what stays, or changes only for a reason -/
structure Base (a b : St) : Prop where
  log : a.log <+: b.log
  wild : b.wild = a.wild
  pz : b.paused = false → a.paused = false ∨ b.resumes > 0
  rs : a.resumes ≤ b.resumes
  np : (∀ x, Ev.did (.pause x) ∉ b.log) → b.paused = a.paused ∧ b.resumes = a.resumes
  phase : a.phase ≠ .unknown →
    b.phase = a.phase ∨ (Ev.did .close ∈ b.log ∧ (b.phase = .error ∨ (a.phase = .opn ∧ b.phase = .closing)))
  talk : a.phase = .opn ∨ a.phase = .closing → b.phase = .opn ∨ b.phase = .closing
  er : a.phase = .error → b.phase = .error
  cbs : b.cbs = a.cbs ∨ Ev.did .close ∈ b.log
  off : a.cbs = false → b.cbs = false
  shut : a.phase = .closing → b.phase = .closing
  rel : Ev.released ∈ b.log → Ev.released ∈ a.log ∨ b.phase = .error

/-- … and nothing was received -/
structure Calm (a b : St) : Prop extends Base a b where
  rx : b.rx = a.rx
  heard : heard b.log = heard a.log

theorem Base.refl (a : St) : Base a a where
  log := List.prefix_refl _
  wild := rfl
  pz h := .inl h
  rs := Nat.le_refl _
  np _ := ⟨rfl, rfl⟩
  phase _ := .inl rfl
  talk h := h
  er h := h
  cbs := .inl rfl
  off h := h
  shut h := h
  rel := .inl

theorem Base.trans {a b c : St} (h : Base a b) (g : Base b c) : Base a c where
  log := h.log.trans g.log
  wild := g.wild.trans h.wild
  pz hc := (g.pz hc).elim (fun hb => (h.pz hb).imp_right (fun x => Nat.lt_of_lt_of_le x g.rs)) .inr
  rs := Nat.le_trans h.rs g.rs
  np hc := by
    have h1 := h.np (fun x hx => hc x (g.log.subset hx))
    have h2 := g.np hc
    exact ⟨h2.1.trans h1.1, h2.2.trans h1.2⟩
  phase ha := by
    rcases h.phase ha with e | ⟨hc, e | ⟨e1, e2⟩⟩
    · rcases g.phase (e ▸ ha) with e' | ⟨hc', e' | ⟨e1, e2⟩⟩
      · exact .inl (e'.trans e)
      · exact .inr ⟨hc', .inl e'⟩
      · exact .inr ⟨hc', .inr ⟨e ▸ e1, e2⟩⟩
    · exact .inr ⟨g.log.subset hc, .inl (g.er e)⟩
    · rcases g.phase (by rw [e2]; nofun) with e' | ⟨hc', e' | ⟨e1', e2'⟩⟩
      · exact .inr ⟨g.log.subset hc, .inr ⟨e1, e'.trans e2⟩⟩
      · exact .inr ⟨hc', .inl e'⟩
      · rw [e2] at e1'; nomatch e1'
  talk ha := g.talk (h.talk ha)
  er ha := g.er (h.er ha)
  cbs := by
    rcases g.cbs with e | e
    · exact h.cbs.imp (fun e' => e.trans e') (fun hc => g.log.subset hc)
    · exact .inr e
  off ha := g.off (h.off ha)
  shut ha := g.shut (h.shut ha)
  rel hc := (g.rel hc).elim (fun hb => (h.rel hb).imp_right g.er) .inr

theorem Calm.refl (a : St) : Calm a a := ⟨Base.refl a, rfl, rfl⟩

theorem Calm.trans {a b c : St} (h : Calm a b) (g : Calm b c) : Calm a c :=
  ⟨h.toBase.trans g.toBase, g.rx.trans h.rx, g.heard.trans h.heard⟩

/-- events that aren't messages or the end -/
def dull : Ev → Bool
  | .message .. => false
  | .released => false
  | _ => true

/-- An event that isn't a message. -/
theorem emit_calm (st : St) (e : Ev) (h : dull e = true) : Calm st (emit st e) where
  log := List.prefix_append _ _
  wild := rfl
  pz h := .inl h
  rs := Nat.le_refl _
  np _ := ⟨rfl, rfl⟩
  phase _ := .inl rfl
  talk h := h
  er h := h
  cbs := .inl rfl
  off h := h
  shut h := h
  rel hr := by
    rcases List.mem_append.mp hr with hr | hr
    · exact .inl hr
    · rw [← List.mem_singleton.mp hr] at h; nomatch h
  rx := rfl
  heard := by
    show Rtmp.heard (st.log ++ [e]) = Rtmp.heard st.log
    rw [heard_append]
    cases e with
    | message a b c d => nomatch h
    | _ => simp [Rtmp.heard]

/-- Only what is for sending is different. -/
theorem tx_calm (st : St) (t : Tx) (s tp : Bool) : Calm st { st with tx := t, scheduled := s, trimPending := tp } :=
  ⟨{ Base.refl st with }, rfl, rfl⟩

theorem scheduleWrite_calm (st : St) : Calm st (scheduleWrite st) := by
  unfold scheduleWrite
  split
  · exact (emit_calm st .ask rfl).trans (tx_calm _ st.tx true _)
  · exact Calm.refl st

theorem clear_calm (st : St) (h : Ev.did .close ∈ st.log) : Calm st (clear st) where
  log := List.prefix_refl _
  wild := rfl
  pz h := .inl h
  rs := Nat.le_refl _
  np _ := ⟨rfl, rfl⟩
  phase _ := .inl rfl
  talk h := h
  er h := h
  cbs := .inr h
  off _ := rfl
  shut h := h
  rel := .inl
  rx := rfl
  heard := rfl

theorem setPaused_calm (st : St) (b : Bool) (h : ∃ x, Ev.did (.pause x) ∈ st.log) : Calm st (setPaused st b) := by
  unfold setPaused
  by_cases hc : st.paused = true ∧ b = false
  · simp only [if_pos hc]
    exact {
      log := List.prefix_append _ _, wild := rfl, pz := fun _ => .inr (Nat.succ_pos _), rs := Nat.le_succ _
      np := fun hn => by obtain ⟨x, hx⟩ := h; exact absurd (List.mem_append_left _ hx) (hn x)
      phase := fun _ => .inl rfl, talk := fun h => h, er := fun h => h, cbs := .inl rfl, off := fun h => h, shut := fun h => h, rel := (emit_calm st .later rfl).rel, rx := rfl
      heard := (emit_calm st .later rfl).heard }
  · simp only [if_neg hc]
    exact {
      log := List.prefix_refl _, wild := rfl
      pz := fun hb => by
        have hb : b = false := hb
        cases hp : st.paused with
        | false => exact .inl rfl
        | true => exact absurd ⟨hp, hb⟩ hc
      rs := Nat.le_refl _
      np := fun hn => by obtain ⟨x, hx⟩ := h; exact absurd hx (hn x)
      phase := fun _ => .inl rfl, talk := fun h => h, er := fun h => h, cbs := .inl rfl, off := fun h => h, shut := fun h => h, rel := .inl, rx := rfl, heard := rfl }

theorem callOver_calm (st : St) (c : Call) : Calm st (callOver st c) := by
  have h1 := emit_calm st (.did c) rfl
  unfold callOver
  cases c with
  | init | chunkSize | write => exact h1
  | close => exact h1.trans (clear_calm _ (by simp [emit]))
  | simple b => exact h1.trans (tx_calm _ _ _ _)
  | pause b => exact h1.trans (setPaused_calm _ b ⟨b, by simp [emit]⟩)

theorem foldl_calm {f : St → α → St} (h : ∀ st a, Calm st (f st a)) : ∀ (l : List α) (st : St), Calm st (l.foldl f st)
  | [], st => Calm.refl st
  | a :: l, st => (h st a).trans (foldl_calm h l (f st a))

theorem callbackOver_calm (app : App) (st : St) (e : Ev) (h : dull e = true) : Calm st (callbackOver app st e) :=
  (emit_calm st e h).trans (foldl_calm callOver_calm _ _)

theorem dropFirst_calm (app : App) (st : St) (pri : Nat) (m : Msg) : Calm st (dropFirst app st pri m).1 := by
  unfold dropFirst
  exact (tx_calm st _ st.scheduled st.trimPending).trans (emit_calm _ _ rfl)

theorem trimAllOne_calm (app : App) (pri : Nat) : ∀ (fuel : Nat) (st : St), Calm st (trimAllOne app pri fuel st)
  | 0, st => Calm.refl st
  | fuel + 1, st => by
    unfold trimAllOne
    split
    · exact Calm.refl st
    · next m l h =>
      refine Calm.trans ?_ (trimAllOne_calm app pri fuel _)
      refine Calm.trans ?_ (dropFirst_calm app _ pri m)
      split
      · exact Calm.refl st
      · exact callbackOver_calm app st _ rfl

theorem trimAll_calm (app : App) (st : St) : Calm st (trimAll app st) := by
  unfold trimAll
  exact foldl_calm (fun st pri => trimAllOne_calm app pri _ st) _ _

/-- The end: nothing is received by it. -/
theorem setClosed_end (app : App) (st : St) :
    (setClosed app st).phase = .error ∧ (setClosed app st).rx = st.rx ∧ heard (setClosed app st).log = heard st.log ∧
    (setClosed app st).wild = st.wild ∧ st.log <+: (setClosed app st).log ∧
    ((setClosed app st).paused = false → st.paused = false ∨ (setClosed app st).resumes > 0) ∧ st.resumes ≤ (setClosed app st).resumes ∧
    ((∀ x, Ev.did (.pause x) ∉ (setClosed app st).log) → (setClosed app st).paused = st.paused ∧ (setClosed app st).resumes = st.resumes) ∧
    (setClosed app st).cbs = false := by
  have key : ∀ (a b : St), Calm a b → a.phase = .error → a.rx = st.rx → heard a.log = heard st.log → a.wild = st.wild → st.log <+: a.log →
      a.paused = st.paused → a.resumes = st.resumes → a.cbs = false →
      b.phase = .error ∧ b.rx = st.rx ∧ heard b.log = heard st.log ∧ b.wild = st.wild ∧ st.log <+: b.log ∧
      (b.paused = false → st.paused = false ∨ b.resumes > 0) ∧ st.resumes ≤ b.resumes ∧
      ((∀ x, Ev.did (.pause x) ∉ b.log) → b.paused = st.paused ∧ b.resumes = st.resumes) ∧ b.cbs = false := by
    intro a b h h1 h2 h3 h4 h5 h6 h7 h8
    exact ⟨h.er h1, h.rx.trans h2, h.heard.trans h3, h.wild.trans h4, h5.trans h.log, h6 ▸ h.pz, h7 ▸ h.rs, h6 ▸ h7 ▸ h.np, h.off h8⟩
  unfold setClosed
  split
  · have h0 : Calm { st with phase := .error } (emit (trimAll app { st with phase := .error }) .released) := by
      refine (trimAll_calm app _).trans ?_
      have he := (trimAll_calm app { st with phase := .error }).er rfl
      generalize trimAll app { st with phase := .error } = x at *
      exact ⟨{ Base.refl x with log := List.prefix_append _ _, np := fun _ => ⟨rfl, rfl⟩, phase := fun _ => .inl rfl, cbs := .inl rfl, rel := fun _ => .inr he }, rfl,
        by show Rtmp.heard (x.log ++ [_]) = _; rw [heard_append]; simp [Rtmp.heard]⟩
    generalize hx : emit (trimAll app { st with phase := .error }) .released = x at *
    have hx2 : x.phase = .error := h0.er rfl
    have hz : (clear x).phase = .error ∧ (clear x).rx = st.rx ∧ heard (clear x).log = heard st.log ∧ (clear x).wild = st.wild ∧ st.log <+: (clear x).log ∧
        ((clear x).paused = false → st.paused = false ∨ (clear x).resumes > 0) ∧ st.resumes ≤ (clear x).resumes ∧
        ((∀ z, Ev.did (.pause z) ∉ (clear x).log) → (clear x).paused = st.paused ∧ (clear x).resumes = st.resumes) ∧ (clear x).cbs = false :=
      ⟨hx2, h0.rx, h0.heard, h0.wild, h0.log, h0.pz, h0.rs, h0.np, rfl⟩
    simp only
    split
    · have h9 : Calm (clear x) (callbackOver app (clear x) .failed) := callbackOver_calm app _ _ rfl
      obtain ⟨z1, z2, z3, z4, z5, z6, z7, z8, z9⟩ := hz
      refine ⟨h9.er z1, h9.rx.trans z2, h9.heard.trans z3, h9.wild.trans z4, z5.trans h9.log, fun h => ?_, Nat.le_trans z7 h9.rs, fun h => ?_, h9.off z9⟩
      · rcases h9.pz h with h | h
        · exact (z6 h).imp_right (fun h => Nat.lt_of_lt_of_le h h9.rs)
        · exact .inr h
      · have a1 := h9.np h
        have a2 := z8 (fun z hz => h z (h9.log.subset hz))
        exact ⟨a1.1.trans a2.1, a1.2.trans a2.2⟩
    · exact hz
  · next hne =>
    have hne : st.phase = .error := Decidable.not_not.mp hne
    exact ⟨hne, rfl, rfl, rfl, List.prefix_refl _, .inl, Nat.le_refl _, fun _ => ⟨rfl, rfl⟩, rfl⟩

theorem start_calm (app : App) (st : St) (server : Bool) : Calm st (start app st server) := by
  unfold start
  by_cases h : st.phase.rank > 0
  · rw [if_pos h]; exact Calm.refl st
  · rw [if_neg h]
    have hu : st.phase = .unknown := by
      generalize st.phase = p at *
      cases p <;> simp [Phase.rank] at h ⊢
    have h1 : Calm st { st with server := server, phase := .uninit } :=
      { log := List.prefix_refl _, wild := rfl, pz := .inl, rs := Nat.le_refl _, np := fun _ => ⟨rfl, rfl⟩, phase := fun h => absurd hu h
        talk := fun h => by rw [hu] at h; rcases h with h | h <;> nomatch h
        er := fun h => by rw [hu] at h; nomatch h
        cbs := .inl rfl, off := fun h => h, shut := fun h => by rw [hu] at h; nomatch h
        rel := .inl, rx := rfl, heard := rfl }
    simp only
    split
    · exact h1
    · unfold handshake01
      exact h1.trans ((tx_calm _ _ _ _).trans (scheduleWrite_calm _))

theorem setSize_calm (app : App) (st : St) (n : Nat) : Calm st (setSize app st n) := by
  unfold setSize
  split
  · exact Calm.refl st
  · split
    · exact tx_calm st _ _ _
    · exact tx_calm st _ _ _

theorem scheduleTrim_calm (st : St) : Calm st (scheduleTrim st) := by
  unfold scheduleTrim
  split
  · exact Calm.refl st
  · exact (tx_calm st st.tx st.scheduled true).trans (emit_calm _ _ rfl)

theorem wake_calm (st : St) : Calm st (wake st) := by
  unfold wake
  split
  · exact scheduleWrite_calm st
  · exact Calm.refl st

theorem write_calm (st : St) (pri : Nat) (sid : UInt32) (type : UInt8) (ts : UInt32) (payload : Bytes) :
    Calm st (write st pri sid type ts payload) := by
  unfold write
  split
  · exact Calm.refl st
  · refine Calm.trans (Calm.trans ?_ (wake_calm _)) (scheduleTrim_calm _)
    unfold enqueue
    exact (tx_calm st _ st.scheduled st.trimPending).trans (emit_calm _ _ rfl)

theorem close_calm (app : App) (st : St) (h : Ev.did .close ∈ st.log) : Calm st (close app st) := by
  unfold close
  refine (clear_calm st h).trans ?_
  have hl : Ev.did .close ∈ (clear st).log := h
  generalize clear st = x at *
  simp only
  split
  · next hp =>
    have h1 : Calm x { x with phase := .closing } :=
      { log := List.prefix_refl _, wild := rfl, pz := .inl, rs := Nat.le_refl _, np := fun _ => ⟨rfl, rfl⟩
        phase := fun _ => .inr ⟨hl, .inr ⟨hp, rfl⟩⟩, talk := fun _ => .inr rfl
        er := fun h => by rw [hp] at h; nomatch h
        cbs := .inl rfl, off := fun h => h, shut := fun _ => rfl, rel := .inl, rx := rfl, heard := rfl }
    exact h1.trans (scheduleWrite_calm _)
  · split
    · exact Calm.refl x
    · next h1 h2 =>
      obtain ⟨z1, z2, z3, z4, z5, z6, z7, z8, z9⟩ := setClosed_end app x
      exact
        { log := z5, wild := z4, pz := z6, rs := z7, np := z8
          phase := fun _ => .inr ⟨z5.subset hl, .inl z1⟩
          talk := fun h => h.elim (fun h => absurd h h1) (fun h => absurd h h2)
          er := fun _ => z1, cbs := .inr (z5.subset hl), off := fun _ => z9, shut := fun h => absurd h h2, rel := fun _ => .inr z1, rx := z2, heard := z3 }

theorem call_calm (app : App) (st : St) (c : Call) : Calm st (call app st c) := by
  have h1 := emit_calm st (.did c) rfl
  unfold call
  cases c with
  | init server => exact h1.trans (start_calm app _ server)
  | chunkSize n => exact h1.trans (setSize_calm app _ n)
  | write => exact h1.trans (write_calm _ _ _ _ _ _)
  | close => exact h1.trans (close_calm app _ (by simp [emit]))
  | simple b => exact h1.trans (tx_calm _ _ _ _)
  | pause b => exact h1.trans (setPaused_calm _ b ⟨b, by simp [emit]⟩)

theorem calls_calm (app : App) (l : List Call) (st : St) : Calm st (l.foldl (call app) st) := foldl_calm (call_calm app) l st

theorem callback_calm (app : App) (st : St) (e : Ev) (h : dull e = true) : Calm st (callback app st e) :=
  (emit_calm st e h).trans (calls_calm app _ _)

end Rtmfp.Rtmp
