import Verif.Lemmas.WebSocketActs

/-! # Frames can be told apart; the end of a WebSocket -/

namespace Rtmfp.WS

open Spec.Web

/-! ## Frames are told apart -/

theorem ofNat_inj {a b : Nat} (ha : a < 256) (hb : b < 256) (h : UInt8.ofNat a = UInt8.ofNat b) : a = b := by
  have := congrArg UInt8.toNat h
  simp [UInt8.toNat_ofNat'] at this
  omega

theorem applyKey_twice (k : Key) (s : Bytes) : applyKey k (applyKey k s) = s := by
  induction s generalizing k with
  | nil => rfl
  | cons c s ih => simp [applyKey, ih, xor_cancel]

/-- no frame is the beginning of another -/
theorem wire_cancel (f g : Frame) (hf : f.Fits) (hg : g.Fits) (x y : Bytes) (h : f.wire ++ x = g.wire ++ y) : f = g ∧ x = y := by
  rw [wire_eq, wire_eq] at h
  simp only [List.cons_append, List.cons.injEq] at h
  obtain ⟨h0, h1, h2⟩ := h
  have l1 := len7_lt f hf
  have l2 := len7_lt g hg
  obtain ⟨f1, f2, f3⟩ := hf
  obtain ⟨g1, g2, g3⟩ := hg
  have e0 := ofNat_inj (by split <;> omega) (by split <;> omega) h0
  have e1 := ofNat_inj (by split <;> omega) (by split <;> omega) h1
  have efin : f.fin = g.fin := by
    cases hb : f.fin <;> cases hc : g.fin <;> simp only [hb, hc, if_true, Bool.false_eq_true, if_false] at e0 ⊢ <;> omega
  have ers : f.rsv = g.rsv ∧ f.op = g.op := by
    rw [efin] at e0; constructor <;> omega
  have ekey : f.key.isSome = g.key.isSome := by
    cases hb : f.key.isSome <;> cases hc : g.key.isSome <;> simp only [hb, hc, if_true, Bool.false_eq_true, if_false] at e1 ⊢ <;> omega
  have elen : len7 f = len7 g := by rw [ekey] at e1; omega
  have eform : f.form = g.form ∧ f.payload.length = g.payload.length ∧ body f ++ x = body g ++ y := by
    have inj : ∀ (n a b : Nat) (u v : Bytes), a < 256 ^ n → b < 256 ^ n → be n a ++ u = be n b ++ v → a = b ∧ u = v := by
      intro n a b u v ha hb h
      have := List.append_inj h (by rw [be_length, be_length])
      exact ⟨by rw [← shiftIn_be n a ha, ← shiftIn_be n b hb, this.1], this.2⟩
    unfold len7 at elen
    unfold ext at h2
    cases hb : f.form <;> cases hc : g.form <;> simp only [hb, hc] at f3 g3 elen h2 <;> first | omega | skip
    · exact ⟨rfl, elen, by simpa using h2⟩
    · rw [List.append_assoc, List.append_assoc] at h2
      obtain ⟨k1, k2⟩ := inj 2 _ _ _ _ (by omega) (by omega) h2
      exact ⟨rfl, k1, k2⟩
    · rw [List.append_assoc, List.append_assoc] at h2
      obtain ⟨k1, k2⟩ := inj 8 _ _ _ _ (by omega) (by omega) h2
      exact ⟨rfl, k1, k2⟩
  obtain ⟨e3, e4, e5⟩ := eform
  obtain ⟨e6, e7⟩ := List.append_inj e5 (by rw [body_length, body_length, ekey, e4])
  refine ⟨?_, e7⟩
  obtain ⟨a1, a2, a3, a4, a5, a6⟩ := f
  obtain ⟨b1, b2, b3, b4, b5, b6⟩ := g
  simp only at efin ers ekey e3 e4 e6
  obtain ⟨rfl, rfl⟩ := ers
  subst efin e3
  unfold body at e6
  cases a4 with
  | none =>
    cases b4 with
    | none => simp only at e6; rw [e6]
    | some k => simp at ekey
  | some k =>
    cases b4 with
    | none => simp at ekey
    | some k' =>
      simp only [List.cons_append, List.nil_append, List.cons.injEq] at e6
      obtain ⟨i0, i1, i2, i3, i4⟩ := e6
      obtain ⟨k0, k1, k2, k3⟩ := k
      obtain ⟨k0', k1', k2', k3'⟩ := k'
      simp only at i0 i1 i2 i3
      subst i0 i1 i2 i3
      have := congrArg (applyKey ⟨k0, k1, k2, k3⟩) i4
      rw [applyKey_twice, applyKey_twice] at this
      rw [this]

theorem wires_prefix (fs gs : List Frame) (hf : ∀ f ∈ fs, f.Fits) (hg : ∀ f ∈ gs, f.Fits) (h : fs.flatMap Frame.wire <+: gs.flatMap Frame.wire) : fs <+: gs := by
  induction fs generalizing gs with
  | nil => exact List.nil_prefix
  | cons f fs ih =>
    cases gs with
    | nil =>
      have := h.length_le
      simp [Frame.wire] at this
    | cons g gs =>
      obtain ⟨t, ht⟩ := h
      simp only [List.flatMap_cons, List.append_assoc] at ht
      obtain ⟨rfl, h2⟩ := wire_cancel f g (hf f (by simp)) (hg g (by simp)) _ _ ht
      exact List.cons_prefix_cons.mpr ⟨rfl, ih gs (fun f h => hf f (by simp [h])) (fun f h => hg f (by simp [h])) ⟨t, h2⟩⟩

theorem serverFrame_fits (op : Nat) (b : Bytes) (ho : op < 16) (hb : b.length < 2 ^ 64) : (serverFrame op b).Fits := by
  refine ⟨by simp [serverFrame], ho, ?_⟩
  unfold serverFrame
  simp only
  split
  · rename_i h; split at h
    · assumption
    · split at h <;> cases h
  · rename_i h; split at h
    · cases h
    · split at h
      · assumption
      · cases h
  · exact hb

/-! ## The end -/

/-- only calls by the application -/
def Quiet (l : List Ev) : Prop := ∀ e ∈ l, ∃ c, e = .did c

/-- Before the end no end; after it one: the platform adapter is told, then `onError` is called unless the application closed, then nothing. -/
structure Ended (st : St) : Prop where
  live : st.phase ≠ .error → Ev.released ∉ st.log ∧ Ev.failed ∉ st.log
  dead : st.phase = .error → ∃ l1 l2, Ev.released ∉ l1 ∧ Ev.failed ∉ l1 ∧ Quiet l2 ∧
    (st.log = l1 ++ .did .close :: .released :: l2 ∨ st.log = l1 ++ .released :: .failed :: l2)

theorem ended_more (st st' : St) (x : List Ev) (h : Ended st) (hp : st'.phase ≠ .error) (hq : st.phase ≠ .error) (hl : st'.log = st.log ++ x)
    (h1 : Ev.released ∉ x) (h2 : Ev.failed ∉ x) : Ended st' := by
  obtain ⟨k1, k2⟩ := h.live hq
  exact ⟨fun _ => by rw [hl]; simp [k1, k2, h1, h2], fun he => absurd he hp⟩

theorem ended_over (st st' : St) (x : List Ev) (h : Ended st) (hp : st'.phase = .error) (hq : st.phase = .error) (hl : st'.log = st.log ++ x)
    (hx : Quiet x) : Ended st' := by
  refine ⟨fun he => absurd hp he, fun _ => ?_⟩
  obtain ⟨l1, l2, k1, k2, k3, k4⟩ := h.dead hq
  refine ⟨l1, l2 ++ x, k1, k2, fun e he => ?_, ?_⟩
  · rcases List.mem_append.mp he with h | h
    · exact k3 e h
    · exact hx e h
  · rcases k4 with k4 | k4
    · left; rw [hl, k4]; simp
    · right; rw [hl, k4]; simp

/-- what a call does to phase and log -/
theorem call_log (st : St) (c : Call) :
    (st.phase = .error → (call st c).phase = .error ∧ (call st c).log = st.log ++ [.did c]) ∧
    (st.phase ≠ .error → c = .close → (call st c).phase = .error ∧ (call st c).log = st.log ++ [.did .close, .released]) ∧
    (st.phase ≠ .error → c ≠ .close → (call st c).phase ≠ .error ∧ ∃ x, (call st c).log = st.log ++ (.did c :: x) ∧ ∀ e ∈ x, e = .ask) := by
  have sw : ∀ s : St, s.phase = st.phase → s.log = st.log ++ [.did c] →
      (st.phase = .error → (scheduleWrite s).phase = .error ∧ (scheduleWrite s).log = st.log ++ [.did c]) ∧
      (st.phase ≠ .error → (scheduleWrite s).phase ≠ .error ∧ ∃ x, (scheduleWrite s).log = st.log ++ (.did c :: x) ∧ ∀ e ∈ x, e = .ask) := by
    intro s h1 h2
    refine ⟨fun he => ?_, fun he => ?_⟩
    · rw [scheduleWrite_log s (h1.trans he)]; exact ⟨h1.trans he, h2⟩
    · obtain ⟨x, f1, f2, f3, _⟩ := scheduleWrite_facts s
      exact ⟨by rw [f3, h1]; exact he, x, by rw [f1, h2]; simp, f2⟩
  have fin : ∀ s : St, s.phase = st.phase → s.log = st.log ++ [.did c] → c ≠ .close → ∀ r : St, r.phase = (scheduleWrite s).phase → r.log = (scheduleWrite s).log →
      (st.phase = .error → r.phase = .error ∧ r.log = st.log ++ [.did c]) ∧
      (st.phase ≠ .error → c = .close → r.phase = .error ∧ r.log = st.log ++ [.did .close, .released]) ∧
      (st.phase ≠ .error → c ≠ .close → r.phase ≠ .error ∧ ∃ x, r.log = st.log ++ (.did c :: x) ∧ ∀ e ∈ x, e = .ask) := by
    intro s h1 h2 hc r r1 r2
    rw [r1, r2]
    exact ⟨(sw s h1 h2).1, fun _ h => absurd h hc, fun h _ => (sw s h1 h2).2 h⟩
  cases c with
  | binary b => exact fin { emit st (.did (.binary b)) with out := (emit st (.did (.binary b))).out ++ (frameHeader 2 b.length ++ b) } rfl rfl (by simp) _ rfl rfl
  | text b => exact fin { emit st (.did (.text b)) with out := (emit st (.did (.text b))).out ++ (frameHeader 1 b.length ++ b) } rfl rfl (by simp) _ rfl rfl
  | cleanClose => exact fin { emit st (.did .cleanClose) with out := (emit st (.did .cleanClose)).out ++ (frameHeader 8 0 ++ []) } rfl rfl (by simp) _ rfl rfl
  | raw b => exact fin { emit st (.did (.raw b)) with out := (emit st (.did (.raw b))).out ++ b } rfl rfl (by simp) _ rfl rfl
  | notify => exact fin { emit st (.did .notify) with onw := true } rfl rfl (by simp) _ rfl rfl
  | close =>
    show (st.phase = .error → (close (emit st (.did .close))).phase = .error ∧ (close (emit st (.did .close))).log = st.log ++ [.did .close]) ∧
      (st.phase ≠ .error → Call.close = .close → (close (emit st (.did .close))).phase = .error ∧ (close (emit st (.did .close))).log = st.log ++ [.did .close, .released]) ∧ _
    refine ⟨fun he => ?_, fun he _ => ?_, fun _ h => absurd rfl h⟩
    · rw [close_eq, if_pos (show (emit st (.did .close)).phase = .error from he)]; exact ⟨he, rfl⟩
    · rw [close_eq, if_neg (show ¬ (emit st (.did .close)).phase = .error from he)]; exact ⟨rfl, by simp [clear, emit]⟩
  | shutdown =>
    show (st.phase = .error → (shutdown (emit st (.did .shutdown))).phase = .error ∧ (shutdown (emit st (.did .shutdown))).log = st.log ++ [.did .shutdown]) ∧ _ ∧
      (st.phase ≠ .error → Call.shutdown ≠ .close → (shutdown (emit st (.did .shutdown))).phase ≠ .error ∧ ∃ x, (shutdown (emit st (.did .shutdown))).log = st.log ++ (.did .shutdown :: x) ∧ ∀ e ∈ x, e = .ask)
    refine ⟨fun he => ?_, fun _ h => by simp at h, fun he _ => ?_⟩
    · unfold shutdown
      rw [if_neg (show ¬ (emit st (.did .shutdown)).phase = .opn by show ¬ st.phase = .opn; rw [he]; simp)]
      exact ⟨he, rfl⟩
    · unfold shutdown
      split
      · obtain ⟨x, f1, f2, f3, _⟩ := scheduleWrite_facts { emit st (.did .shutdown) with phase := .closing }
        exact ⟨by rw [f3]; simp, x, by rw [f1]; simp [emit], f2⟩
      · exact ⟨he, [], by simp [emit], by simp⟩

theorem ended_call (st : St) (c : Call) (h : Ended st) : Ended (call st c) := by
  obtain ⟨k1, k2, k3⟩ := call_log st c
  by_cases he : st.phase = .error
  · exact ended_over st _ _ h (k1 he).1 he (k1 he).2 (fun e he => ⟨c, by simpa using he⟩)
  · by_cases hc : c = .close
    · obtain ⟨p, l⟩ := k2 he hc
      obtain ⟨n1, n2⟩ := h.live he
      exact ⟨fun hn => absurd p hn, fun _ => ⟨st.log, [], n1, n2, by simp [Quiet], .inl l⟩⟩
    · obtain ⟨p, x, l, hx⟩ := k3 he hc
      refine ended_more st _ _ h p he l ?_ ?_
      · intro hm
        rcases List.mem_cons.mp hm with hm | hm
        · simp at hm
        · have := hx _ hm; simp at this
      · intro hm
        rcases List.mem_cons.mp hm with hm | hm
        · simp at hm
        · have := hx _ hm; simp at this

theorem ended_act (app : App) (st st' : St) (a : Act app st st') (h : Ended st) : Ended st' := by
  have asks : ∀ {x : List Ev} {e : Ev}, (∀ y ∈ x, y = Ev.ask) → e ≠ .ask → e ∉ x := fun hx he hm => he (hx _ hm)
  cases a with
  | call c => exact ended_call st c h
  | note e hp he =>
    refine ended_more st _ [e] h hp hp rfl ?_ ?_ <;> rcases he with rfl | rfl | ⟨b, rfl⟩ | ⟨b, rfl⟩ | ⟨b, rfl⟩ <;> simp
  | ping b hp =>
    obtain ⟨x, f1, f2, f3, _⟩ := scheduleWrite_facts { emit st (.ping b) with out := (emit st (.ping b)).out ++ (frameHeader 10 b.length ++ b) }
    refine ended_more st _ (.ping b :: x) h (by show (scheduleWrite _).phase ≠ _; rw [f3]; exact hp) hp (by show (scheduleWrite _).log = _; rw [f1]; simp [emit]) ?_ ?_
    · simp [asks f2]
    · simp [asks f2]
  | answer hp hc =>
    obtain ⟨x, f1, f2, f3, _⟩ := scheduleWrite_facts { emit st .peerClose with out := (emit st .peerClose).out ++ (frameHeader 8 ([] : Bytes).length ++ []) }
    refine ended_more st _ (.peerClose :: x) h (by show (scheduleWrite _).phase ≠ _; rw [f3]; exact hp) hp (by show (scheduleWrite _).log = _; rw [f1]; simp [emit]) ?_ ?_
    · simp [asks f2]
    · simp [asks f2]
  | second hp hc => exact ended_more st _ [.peerClose] h hp hp rfl (by simp) (by simp)
  | fail hp =>
    obtain ⟨n1, n2⟩ := h.live hp
    exact ⟨fun hn => absurd rfl hn, fun _ => ⟨st.log, [], n1, n2, by simp [Quiet], .inr (by simp [emit, clear])⟩⟩
  | opened hp =>
    obtain ⟨x, f1, f2, f3, _⟩ := scheduleWrite_facts { st with out := st.out ++ response app st.headers }
    refine ended_more st _ (x ++ [.opened]) h (by show (scheduleWrite _).phase ≠ _; rw [f3]; exact hp) hp
      (by show (scheduleWrite _).log ++ [.opened] = _; rw [f1]; simp) ?_ ?_
    · simp [asks f2]
    · simp [asks f2]
  | put hp ho => exact ended_more st _ [.put st.out] h hp hp rfl (by simp) (by simp)
  | rest ho => exact ⟨h.live, h.dead⟩
  | own _ h1 h2 h3 h4 h5 h6 => exact ⟨fun hp => by rw [h5]; exact h.live (by rw [← h1]; exact hp), fun hp => by rw [h5]; exact h.dead (by rw [← h1]; exact hp)⟩
  | over _ h1 h2 h3 h4 => exact ⟨fun hp => absurd h2 hp, fun _ => by rw [h3]; exact h.dead h1⟩

theorem ended_run (app : App) (ops : List Op) : Ended (run app init ops) := by
  have hi : Ended init := ⟨fun _ => by simp [init], fun h => by simp [init] at h⟩
  have ha := run_acts app ops init [] good_init
  generalize run app init ops = st at ha
  induction ha with
  | refl => exact hi
  | tail _ a ih => exact ended_act app _ _ a (ih)

theorem queue_run (app : App) (ops : List Op) : Queue (response app (run app init ops).headers) (run app init ops) := by
  have ha := run_acts app ops init [] good_init
  have key : ∀ resp, (Ev.opened ∈ (run app init ops).log → resp = response app (run app init ops).headers) → Queue resp (run app init ops) := by
    generalize run app init ops = st at ha
    induction ha with
    | refl => exact fun resp _ => queue_init resp
    | tail _ a ih => exact queue_act app _ _ a ih
  exact key _ (fun _ => rfl)

/-- the phase can be seen in what happened -/
theorem over_iff (app : App) (ops : List Op) : (run app init ops).phase = .error ↔ Ev.released ∈ (run app init ops).log := by
  have h := ended_run app ops
  generalize run app init ops = st at h
  constructor
  · intro he
    obtain ⟨l1, l2, _, _, _, h | h⟩ := h.dead he <;> rw [h] <;> simp
  · intro hm
    by_cases he : st.phase = .error
    · exact he
    · exact absurd hm (h.live he).1

/-- shut down, the platform adapter has been asked -/
def Asked (st : St) : Prop := st.phase = .closing → st.scheduled = true

theorem asked_schedule (st : St) : Asked (scheduleWrite st) := by
  intro h
  obtain ⟨_, _, _, f3, _, _, f6, _⟩ := scheduleWrite_facts st
  rw [f3] at h
  exact f6 (by rw [h]; simp)

theorem asked_act (app : App) (st st' : St) (a : Act app st st') (h : Asked st) : Asked st' := by
  cases a with
  | call c =>
    cases c with
    | binary b => exact asked_schedule _
    | text b => exact asked_schedule _
    | cleanClose => exact asked_schedule { emit st (.did .cleanClose) with out := (emit st (.did .cleanClose)).out ++ (frameHeader 8 ([] : Bytes).length ++ []) }
    | raw b => exact asked_schedule _
    | notify => exact asked_schedule _
    | close =>
      intro he
      have := (close_phase (emit st (.did .close)))
      rw [show (call st .close).phase = (close (emit st (.did .close))).phase from rfl, this] at he; cases he
    | shutdown =>
      show Asked (shutdown (emit st (.did .shutdown)))
      unfold shutdown
      split
      · exact asked_schedule _
      · exact h
  | note e hp he => exact h
  | ping b hp => exact asked_schedule _
  | answer hp hc => exact asked_schedule { emit st .peerClose with out := (emit st .peerClose).out ++ (frameHeader 8 ([] : Bytes).length ++ []) }
  | second hp hc => exact h
  | fail hp => intro he; cases he
  | opened hp => exact asked_schedule { st with out := st.out ++ response app st.headers }
  | put hp ho => exact h
  | rest ho =>
    intro he
    have he' : st.phase = .closing := he
    rcases ho with ⟨_, ho⟩ | ho
    · exact absurd he' ho
    · rw [ho] at he'; cases he'
  | own _ h1 h2 h3 h4 h5 h6 => intro he; rw [h3]; exact h (by rw [← h1]; exact he)
  | over _ h1 h2 h3 h4 => intro he; rw [h2] at he; cases he

theorem asked_run (app : App) (ops : List Op) : Asked (run app init ops) := by
  have ha := run_acts app ops init [] good_init
  generalize run app init ops = st at ha
  induction ha with
  | refl => intro h; cases h
  | tail _ a ih => exact asked_act app _ _ a (ih)

/-! ## What is to be written, as frames -/

/-- what there is to say because of an event (`c`: a Close has been sent) -/
def sayOf (c : Bool) : Ev → Option Sig
  | .did (.binary b) => some (.binary b)
  | .did (.text b) => some (.text b)
  | .did .cleanClose => some .close
  | .ping b => some (.pong b)
  | .peerClose => if c then none else some .close
  | _ => none

/-- what there is to say because of everything that has happened -/
def toSay : (c : Bool) → List Ev → List Sig
  | _, [] => []
  | c, e :: l => (sayOf c e).toList ++ toSay (c || e == .did .cleanClose || e == .peerClose) l

/-- the application's own bytes, or the answer to the request -/
def Plain : Ev → Prop
  | .did (.raw _) => False
  | .opened => False
  | _ => True

theorem asked_frames (resp : Bytes) (l : List Ev) (c : Bool) (h : ∀ e ∈ l, Plain e) : asked resp c l = (toSay c l).flatMap (fun s => s.frame.wire) := by
  induction l generalizing c with
  | nil => rfl
  | cons e l ih =>
    have h0 := h e (by simp)
    have e1 : due resp c e = (sayOf c e).toList.flatMap (fun s => s.frame.wire) := by
      cases e with
      | did x => cases x <;> simp_all [due, sayOf, Sig.frame, Plain]
      | opened => simp [Plain] at h0
      | peerClose => cases c <;> simp [due, sayOf, Sig.frame]
      | _ => simp [due, sayOf, Sig.frame]
    simp only [asked, toSay, List.flatMap_append]
    rw [e1, ih _ (fun e h' => h e (by simp [h']))]

/-- what is heard up to a Close -/
def upToClose : List Sig → List Sig
  | [] => []
  | .close :: _ => [.close]
  | s :: l => s :: upToClose l

theorem meaning_frames (l : List Sig) : meaning none (l.map Sig.frame) = upToClose l := by
  induction l with
  | nil => rfl
  | cons s l ih => cases s <;> simp [meaning, upToClose, Sig.frame, serverFrame, deliver, ih]

theorem toSay_append (c : Bool) (l m : List Ev) : toSay c (l ++ m) = toSay c l ++ toSay (c || closes l) m := by
  induction l generalizing c with
  | nil => simp [toSay, closes]
  | cons e l ih => simp only [List.cons_append, toSay, ih, List.append_assoc, closes, List.any_cons, Bool.or_assoc]

end Rtmfp.WS
