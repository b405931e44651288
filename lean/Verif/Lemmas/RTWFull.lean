import Verif.Lemmas.RTWTame

/-!
# What a flow has sent and what it was told: all histories
-/

namespace Rtmfp.RTWS

/-- The bytes a flow sends in an event that have to be acknowledged. -/
def sentOf (s : Nat) : Ev → Nat
  | .tx (.s t) (.data id more b) => if t = s then (Msg.data id more b).encode.length else 0
  | _ => 0

/-- All the bytes a flow has sent that have to be acknowledged. -/
def sentSum (s : Nat) (l : List Ev) : Nat := (l.map (sentOf s)).sum

theorem sentOf_plain (s : Nat) (e : Ev) (h : isDat e = false) : sentOf s e = 0 := by
  cases e with
  | tx w m => cases w <;> cases m <;> simp_all [isDat, sentOf]
  | _ => rfl

theorem sentSum_filter (s : Nat) : ∀ l : List Ev, sentSum s (l.filter isDat) = sentSum s l
  | [] => rfl
  | e :: l => by
    have ih := sentSum_filter s l
    unfold sentSum at ih ⊢
    cases h : isDat e with
    | true => rw [List.filter_cons_of_pos h, List.map_cons, List.sum_cons, ih, List.map_cons, List.sum_cons]
    | false =>
      rw [List.filter_cons_of_neg (by simp [h]), ih, List.map_cons, List.sum_cons, sentOf_plain s e h, Nat.zero_add]

/-- Acknowledgements that arrived: number of the flow, bytes, and how many more may come. -/
abbrev Told := List (Nat × Nat × Nat)

/-- The bytes of a flow that were acknowledged. -/
def toldSum (id : Nat) (H : Told) : Nat := ((H.filter fun h => h.1 == id).map fun h => h.2.1).sum

/-- How far a flow may go. -/
def allowed (id : Nat) (H : Told) : Nat :=
  match (H.filter fun h => h.1 == id).getLast? with
  | .none => 65536
  | .some h => toldSum id H + h.2.2

/-- The accounts of the sending flows, given the acknowledgements that arrived. -/
structure Fl (H : Told) (st : St) : Prop where
  sent : On st → ∀ s, s < st.nS → (st.S s).sent = sentSum s st.log
  old : ∀ s, st.nS ≤ s → sentSum s st.log = 0
  src : ∀ e ∈ st.log, isDat e = true → ∃ s id more b, e = .tx (.s s) (.data id more b) ∧ s < st.nS ∧ (st.S s).id = id
  tab : TabS st
  acks : On st → ∀ s, s < st.nS → (∀ t, t < st.nS → (st.S t).id = (st.S s).id → t = s) →
    (st.S s).acked = toldSum (st.S s).id H ∧ (st.S s).through = allowed (st.S s).id H
  known : On st → ∀ h ∈ H, ∃ s, s < st.nS ∧ (st.S s).id = h.1

theorem told_nil {id : Nat} {H : Told} (h : ∀ x ∈ H, x.1 ≠ id) : toldSum id H = 0 ∧ allowed id H = 65536 := by
  have e : H.filter (fun h => h.1 == id) = [] := List.filter_eq_nil_iff.2 (fun x hx => by simpa using h x hx)
  unfold toldSum allowed
  rw [e]
  exact ⟨rfl, rfl⟩

theorem Tame.fl {H : Told} {a b : St} (k : Tame a b) (h : Fl H a) : Fl H b := by
  have hsum : ∀ s, sentSum s b.log = sentSum s a.log := fun s => by rw [← sentSum_filter, k.dat, sentSum_filter]
  refine ⟨fun o s hs => ?_, fun s hs => ?_, fun e he hd => ?_, k.ids h.tab, fun o s hs hu => ?_, fun o x hx => ?_⟩
  · rw [hsum]
    by_cases ha : s < a.nS
    · rw [(k.flow s ha).2.1]; exact h.sent (k.on o) s ha
    · rw [(k.born s (by omega) hs).1, h.old s (by omega)]
  · rw [hsum]; exact h.old s (Nat.le_trans k.nS hs)
  · have : e ∈ b.log.filter isDat := List.mem_filter.2 ⟨he, hd⟩
    rw [k.dat] at this
    obtain ⟨s, id, more, x, e1, e2, e3⟩ := h.src e (List.mem_filter.1 this).1 hd
    exact ⟨s, id, more, x, e1, Nat.lt_of_lt_of_le e2 k.nS, by rw [(k.flow s e2).1]; exact e3⟩
  · by_cases ha : s < a.nS
    · obtain ⟨f1, _, f3, f4⟩ := k.flow s ha
      rw [f1, f3, f4]
      refine h.acks (k.on o) s ha (fun t ht e => hu t (Nat.lt_of_lt_of_le ht k.nS) ?_)
      rw [(k.flow t ht).1, f1, e]
    · obtain ⟨_, b2, b3⟩ := k.born s (by omega) hs
      rw [b2, b3]
      obtain ⟨e1, e2⟩ := told_nil (id := (b.S s).id) (H := H) (fun x hx e => by
        obtain ⟨t, ht, et⟩ := h.known (k.on o) x hx
        have := hu t (Nat.lt_of_lt_of_le ht k.nS) (by rw [(k.flow t ht).1, et, e])
        omega)
      exact ⟨e1.symm, e2.symm⟩
  · obtain ⟨s, hs, e⟩ := h.known (k.on o) x hx
    exact ⟨s, Nat.lt_of_lt_of_le hs k.nS, by rw [(k.flow s hs).1, e]⟩

theorem Fl.off {H H' : Told} {st : St} (h : Fl H st) (o : ¬ On st) : Fl H' st :=
  ⟨fun e => absurd e o, h.old, h.src, h.tab, fun e => absurd e o, fun e => absurd e o⟩

theorem told_other {id i d a : Nat} {H : Told} (h : i ≠ id) : toldSum id (H ++ [(i, d, a)]) = toldSum id H ∧ allowed id (H ++ [(i, d, a)]) = allowed id H := by
  have e : (H ++ [(i, d, a)]).filter (fun h => h.1 == id) = H.filter (fun h => h.1 == id) := by
    rw [List.filter_append]; simp [h]
  unfold allowed toldSum
  rw [e]
  exact ⟨rfl, rfl⟩

theorem told_same {id d a : Nat} {H : Told} : toldSum id (H ++ [(id, d, a)]) = toldSum id H + d ∧ allowed id (H ++ [(id, d, a)]) = toldSum id H + d + a := by
  have e : (H ++ [(id, d, a)]).filter (fun h => h.1 == id) = H.filter (fun h => h.1 == id) ++ [(id, d, a)] := by
    rw [List.filter_append]; simp
  have e1 : toldSum id (H ++ [(id, d, a)]) = toldSum id H + d := by unfold toldSum; rw [e]; simp
  refine ⟨e1, ?_⟩
  unfold allowed
  rw [e1, e]
  simp

theorem fl_ack {H : Told} {st : St} (h : Fl H st) (id s d a : Nat) (hs : (id, s) ∈ st.sIds) :
    Fl (H ++ [(id, d, a)]) (setS { st with bytesAcked := st.bytesAcked + d } s { st.S s with acked := (st.S s).acked + d, through := (st.S s).acked + d + a }) := by
  obtain ⟨h1, h2⟩ := h.tab _ hs
  dsimp only at h1 h2
  have e : ∀ t, ((setS { st with bytesAcked := st.bytesAcked + d } s { st.S s with acked := (st.S s).acked + d, through := (st.S s).acked + d + a }).S t).id = (st.S t).id ∧
      ((setS { st with bytesAcked := st.bytesAcked + d } s { st.S s with acked := (st.S s).acked + d, through := (st.S s).acked + d + a }).S t).sent = (st.S t).sent := by
    intro t
    simp only [setS]
    split
    · rename_i ht; subst ht; exact ⟨rfl, rfl⟩
    · exact ⟨rfl, rfl⟩
  refine ⟨fun o t ht => ?_, h.old, fun x hx hd => by
      obtain ⟨s', id', more, b, e1, e2, e3⟩ := h.src x hx hd
      exact ⟨s', id', more, b, e1, e2, by rw [(e s').1]; exact e3⟩, fun p hp => ⟨(h.tab p hp).1, by rw [(e p.2).1]; exact (h.tab p hp).2⟩, fun o t ht hu => ?_, fun o x hx => ?_⟩
  · rw [(e t).2]; exact h.sent o t ht
  · rw [(e t).1]
    have hu' : ∀ t', t' < st.nS → (st.S t').id = (st.S t).id → t' = t := fun t' ht' e' => hu t' ht' (by rw [(e t').1, (e t).1]; exact e')
    obtain ⟨a1, a2⟩ := h.acks o t ht hu'
    by_cases hts : t = s
    · subst hts
      rw [h2] at a1 ⊢
      obtain ⟨b1, b2⟩ := told_same (id := id) (d := d) (a := a) (H := H)
      rw [b1, b2]
      simp only [setS, if_true]
      rw [a1]
      exact ⟨rfl, rfl⟩
    · have hid : id ≠ (st.S t).id := fun e' => hts (hu' s h1 (h2.trans e')).symm
      obtain ⟨b1, b2⟩ := told_other (d := d) (a := a) (H := H) hid
      rw [b1, b2]
      simp only [setS, if_neg hts]
      exact ⟨a1, a2⟩
  · simp only [List.mem_append, List.mem_singleton] at hx
    rcases hx with hx | hx
    · obtain ⟨t, ht, et⟩ := h.known o x hx
      exact ⟨t, ht, by rw [(e t).1]; exact et⟩
    · exact ⟨s, h1, by rw [(e s).1, hx]; exact h2⟩

/-- A piece is sent. -/
theorem fl_data {H : Told} {st : St} (h : Fl H st) (s : Nat) (hs : s < st.nS) (id : Nat) (hid : (st.S s).id = id) (more : Bool) (b : Bytes) (buf : List WMsg) :
    Fl H (setS { tx st (.s s) (.data id more b) with bytesSent := (tx st (.s s) (.data id more b)).bytesSent + (Msg.data id more b).encode.length } s
      { st.S s with sent := (st.S s).sent + (Msg.data id more b).encode.length, buf := buf }) := by
  by_cases hu : st.up = true
  · have ht : tx st (.s s) (.data id more b) = note st (.tx (.s s) (.data id more b)) := by unfold tx; rw [if_pos hu]
    rw [ht]
    generalize hf : ({ st.S s with sent := (st.S s).sent + (Msg.data id more b).encode.length, buf := buf } : SFlow) = f
    have f1 : f.id = (st.S s).id := by rw [← hf]
    have f2 : f.sent = (st.S s).sent + (Msg.data id more b).encode.length := by rw [← hf]
    have f3 : f.acked = (st.S s).acked := by rw [← hf]
    have f4 : f.through = (st.S s).through := by rw [← hf]
    generalize hv : (setS { note st (.tx (.s s) (.data id more b)) with bytesSent := (note st (.tx (.s s) (.data id more b))).bytesSent + (Msg.data id more b).encode.length } s f) = v
    have hS : ∀ t, v.S t = if t = s then f else st.S t := by rw [← hv]; exact fun _ => rfl
    have hn : v.nS = st.nS := by rw [← hv]; rfl
    have hi : v.sIds = st.sIds := by rw [← hv]; rfl
    have hl : v.log = st.log ++ [.tx (.s s) (.data id more b)] := by rw [← hv]; rfl
    have ho : On v → On st := by rw [← hv]; exact fun o => ⟨o.1, o.2⟩
    clear hv
    have e : ∀ t, (v.S t).id = (st.S t).id ∧ (v.S t).acked = (st.S t).acked ∧ (v.S t).through = (st.S t).through := by
      intro t
      rw [hS]
      split
      · rename_i ht; subst ht; exact ⟨f1, f3, f4⟩
      · exact ⟨rfl, rfl, rfl⟩
    have hsum : ∀ t, sentSum t v.log = sentSum t st.log + if s = t then (Msg.data id more b).encode.length else 0 := by
      intro t; rw [hl]; simp [sentSum, sentOf]
    refine ⟨fun o t ht => ?_, fun t ht => ?_, fun x hx hd => ?_, fun p hp => ?_, fun o t ht hu => ?_, fun o x hx => ?_⟩
    · rw [hsum, hS]
      have := h.sent (ho o) t (hn ▸ ht)
      by_cases hts : t = s
      · subst hts; simp [f2, this]
      · rw [if_neg hts, if_neg (fun e => hts e.symm)]; exact this
    · rw [hsum, h.old t (hn ▸ ht), if_neg (by omega)]
    · rw [hl] at hx
      simp only [List.mem_append, List.mem_singleton] at hx
      rcases hx with hx | hx
      · obtain ⟨s', id', more, b, e1, e2, e3⟩ := h.src x hx hd
        exact ⟨s', id', more, b, e1, hn ▸ e2, by rw [(e s').1]; exact e3⟩
      · exact ⟨s, id, more, b, hx, hn ▸ hs, by rw [(e s).1]; exact hid⟩
    · rw [hi] at hp; rw [hn, (e p.2).1]; exact h.tab p hp
    · obtain ⟨e1, e2, e3⟩ := e t
      rw [e1, e2, e3]
      exact h.acks (ho o) t (hn ▸ ht) (fun t' ht' e' => hu t' (hn ▸ ht') (by rw [(e t').1, e1]; exact e'))
    · obtain ⟨t, ht, et⟩ := h.known (ho o) x hx
      exact ⟨t, hn ▸ ht, by rw [(e t).1]; exact et⟩
  · have ht : tx st (.s s) (.data id more b) = st := by unfold tx; rw [if_neg hu]
    rw [ht]
    refine ⟨fun o => absurd o.1 hu, h.old, fun x hx hd => ?_, fun p hp => ⟨(h.tab p hp).1, ?_⟩, fun o => absurd o.1 hu, fun o => absurd o.1 hu⟩
    · obtain ⟨s', id', more, b, e1, e2, e3⟩ := h.src x hx hd
      refine ⟨s', id', more, b, e1, e2, ?_⟩
      simp only [setS]
      split
      · rename_i hp'; rw [hp'] at e3; exact e3
      · exact e3
    have := (h.tab p hp).2
    simp only [setS]
    split
    · rename_i hp'; rw [hp'] at this; exact this
    · exact this

theorem fl_fragment (app : App) {H : Told} {st : St} (h : Fl H st) (s : Nat) (hs : s < st.nS) : Fl H (fragment app st s).1 := by
  unfold fragment
  dsimp only
  split
  · exact h
  · rename_i m rest hb
    split
    · exact h
    · split
      · refine Tame.fl (tame_setS _ _ _ ⟨rfl, rfl, rfl, rfl⟩) ?_
        refine Tame.fl (tame_tell app _ (.done s m.num) rfl) ?_
        exact fl_data h s hs _ rfl _ _ _
      · exact fl_data h s hs _ rfl _ _ _

theorem fl_transmitS (app : App) {H : Told} {st : St} (h : Fl H st) (ho : Op1 st) (s pri exp : Nat) (hs : s < st.nS) : Fl H (transmitS app st s pri exp).1 := by
  unfold transmitS
  split
  · exact h
  · split
    · rename_i m hm
      have hd : isDat (.tx (.s s) m) = false := by
        have := ho s m hm
        cases m <;> simp_all [plainMsg, isDat]
      have hS : (tx st (.s s) m).S = st.S := by unfold tx; split <;> rfl
      exact ((tame_tx st (.s s) m hd).trans (tame_setS _ _ _ (by rw [hS]; exact ⟨rfl, rfl, rfl, rfl⟩))).fl h
    · have l1 : Tame st (trim app st s exp) := tame_trimLoop app s _ st
      dsimp only
      generalize trim app st s exp = u at l1 ⊢
      have h1 := l1.fl h
      have hS : ∀ (w : Who) (msg : Msg), (tx u w msg).S = u.S := fun w msg => by unfold tx; split <;> rfl
      split
      · exact ((tame_tx u _ _ rfl).trans (tame_setS _ _ _ (by rw [hS]; exact ⟨rfl, rfl, rfl, rfl⟩))).fl h1
      · split
        · exact ((tame_tx u _ _ rfl).trans (tame_setS _ _ _ (by rw [hS]; exact ⟨rfl, rfl, rfl, rfl⟩))).fl h1
        · split
          · exact h1
          · exact fl_fragment app h1 s (Nat.lt_of_lt_of_le hs l1.nS)

theorem fl_tryPri (app : App) (exp : Nat → Nat) (probe : Bool) (pri : Nat) {H : Told} : ∀ (n : Nat) (st : St), Fl H st → Op1 st → Queued st →
    Fl H (tryPri app exp probe n st pri).1 ∧ Queued (tryPri app exp probe n st pri).1
  | 0, _, h, _, q => ⟨h, q⟩
  | n + 1, st, h, ho, q => by
    unfold tryPri
    split
    · exact ⟨h, q⟩
    · rename_i s ws hw
      have hs : s < st.nS := q pri s (by rw [hw]; exact List.mem_cons_self)
      dsimp only
      have l1 := fl_transmitS app h ho s pri (exp s) hs
      have l2 := queued_transmitS app q s pri (exp s)
      have l3 := (meek_transmitS app st s pri (exp s) ho).op ho
      split
      · generalize (transmitS app st s pri (exp s)).1 = u at l1 l2 l3 ⊢
        have q2 : Queued (if s ∈ u.work pri then { u with work := fun p => if p = pri then (u.work p).erase s ++ [s] else u.work p } else u) := by
          split
          · rename_i hin
            intro p t ht
            simp only at ht
            split at ht
            · simp only [List.mem_append, List.mem_singleton] at ht
              rcases ht with ht | ht
              · exact l2 p t (List.mem_of_mem_erase ht)
              · rw [ht]; exact l2 pri s hin
            · exact l2 p t ht
          · exact l2
        have t2 : Tame u (if s ∈ u.work pri then { u with work := fun p => if p = pri then (u.work p).erase s ++ [s] else u.work p } else u) := by
          split
          · exact tame_eq
          · exact Tame.refl _
        generalize (if s ∈ u.work pri then { u with work := fun p => if p = pri then (u.work p).erase s ++ [s] else u.work p } else u) = v at q2 t2 ⊢
        refine ⟨(t2.trans (tame_startRTT _ _)).fl l1, ?_⟩
        unfold startRTT
        split
        · exact queued_tx q2 _ _
        · exact q2
      · generalize (transmitS app st s pri (exp s)).1 = u at l1 l2 l3 ⊢
        refine fl_tryPri app exp probe pri n _ (Tame.fl tame_eq l1) l3 ?_
        intro p t ht
        simp only at ht
        split at ht
        · exact l2 p t (List.mem_of_mem_erase ht)
        · exact l2 p t ht

theorem fl_tryAll (app : App) (exp : Nat → Nat) (probe : Bool) {H : Told} : ∀ (n : Nat) (st : St), Fl H st → Op1 st → Queued st → Fl H (tryAll app exp probe n st).1
  | 0, _, h, _, _ => h
  | n + 1, st, h, ho, q => by
    unfold tryAll
    dsimp only
    obtain ⟨h1, q1⟩ := fl_tryPri app exp probe n (st.work n).length st h ho q
    have o1 := (meek_tryPri app exp probe n (st.work n).length st ho).op ho
    split
    · exact h1
    · exact fl_tryAll app exp probe n _ h1 o1 q1

theorem tame_sendAck (st : St) (r : Nat) : Tame st (sendAck st r) := by
  unfold sendAck
  dsimp only
  split
  · exact Tame.refl _
  · refine Tame.trans (b := setR (tx (setR st r { st.R r with thresh := advert (st.R r) / 2 }) (.r r) (.ack (st.R r).id (st.R r).got (advert (st.R r)))) r
      { (tx (setR st r { st.R r with thresh := advert (st.R r) / 2 }) (.r r) (.ack (st.R r).id (st.R r).got (advert (st.R r)))).R r with got := 0 }) ?_ ?_
    · exact ((tame_setR _ _ _).trans (tame_tx _ _ _ rfl)).trans (tame_setR _ _ _)
    · split
      · exact (tame_tx _ _ _ rfl).trans (tame_setR _ _ _)
      · exact Tame.refl _

theorem tame_ackIfNeeded (st : St) : Tame st (ackIfNeeded st) := by
  unfold ackIfNeeded
  split
  · exact (tame_scheduleAck st).trans tame_eq
  · exact Tame.refl _

theorem tame_onData (st : St) (r : Nat) (more : Bool) (b : Bytes) (len : Nat) : Tame st (onData st r more b len) := by
  unfold onData
  dsimp only
  refine Tame.trans ?_ (tame_queueAck _ _ _)
  split
  · exact tame_setR _ _ _
  · exact (tame_setR _ _ _).trans (tame_queueDelivery _ _)

/-- The acknowledgements in a message. -/
def toldBy : Msg → Told
  | .ack id d a => [(id, d, a)]
  | _ => []

theorem fl_act (app : App) {H : Told} {st : St} (len : Nat) (m : Msg) (h : Fl H st) : (act app st len m).2 = true → Fl (H ++ toldBy m) (act app st len m).1 := by
  have h0 : Fl (H ++ []) st := by rw [List.append_nil]; exact h
  intro e
  cases m with
  | ping b => exact (tame_tx st .self (.pong b) rfl).fl h0
  | pong b => exact h0
  | window n => exact (Tame.trans (b := { st with ackWin := max n 2800 }) tame_eq (tame_ackIfNeeded _)).fl h0
  | opens id ret about =>
    simp only [act] at e ⊢
    by_cases hf : (find st.rIds id).isSome = true
    · rw [if_pos hf] at e; simp at e
    · rw [if_neg hf] at e ⊢
      have h1 : Fl (H ++ toldBy (.opens id ret about)) (note (newR st id about) (.heard st.nR (.opens id ret about))) :=
        (Tame.trans (b := newR st id about) tame_eq (tame_note rfl)).fl h0
      cases ret with
      | none => exact (tame_offer app _ _ _).fl h1
      | some t =>
        dsimp only
        split
        · exact (tame_closeR _ _ _ _).fl h1
        · split
          · exact (tame_offer app _ _ _).fl h1
          · exact (tame_closeR _ _ _ _).fl h1
  | data id more b =>
    simp only [act] at e ⊢
    cases hf : find st.rIds id with
    | none => rw [hf] at e; simp at e
    | some r =>
      have k : Tame st (ackIfNeeded { st with acc := st.acc + len }) := Tame.trans (b := { st with acc := st.acc + len }) tame_eq (tame_ackIfNeeded _)
      exact (k.trans ((tame_note rfl).trans (tame_onData _ _ _ _ _))).fl h0
  | abandon id extra =>
    simp only [act] at e ⊢
    cases hf : find st.rIds id with
    | none => rw [hf] at e; simp at e
    | some r => exact ((tame_note rfl).trans (tame_onAbandon _ _ _)).fl h0
  | closes id =>
    simp only [act] at e ⊢
    cases hf : find st.rIds id with
    | none => rw [hf] at e; simp at e
    | some r =>
      have k : Tame st (onClose (note st (.heard r (.closes id))) r) := (tame_note rfl).trans (tame_onClose _ _)
      exact (k.trans tame_eq).fl h0
  | ack id d a =>
    simp only [act] at e ⊢
    cases hf : find st.sIds id with
    | none => rw [hf] at e; simp at e
    | some s => exact (tame_queueTx _ _).fl (fl_ack h id s d a (find_mem hf))
  | closeAck id =>
    simp only [act] at e ⊢
    cases hf : find st.sIds id with
    | none => rw [hf] at e; simp at e
    | some s =>
      rw [hf] at e
      dsimp only at e ⊢
      split
      · rename_i hu; rw [if_pos hu] at e; simp at e
      · have k : Tame st { st with sIds := st.sIds.filter fun p => p.1 != id } :=
          ⟨fun _ _ => ⟨rfl, rfl, rfl, rfl⟩, Nat.le_refl _, fun s h1 h2 => by have : s < st.nS := h2; omega, rfl, fun h => h, fun h p hp => h p (List.mem_filter.1 hp).1⟩
        exact k.fl h0
  | refuse id reason text =>
    simp only [act] at e ⊢
    cases hf : find st.sIds id with
    | none => rw [hf] at e; simp at e
    | some s => exact (tame_onRefuse app _ _ _ _).fl h0

/-- The acknowledgements in a step. -/
def opTold : Op → Told
  | .recv b => match Msg.decode b with | .some (.some m) => toldBy m | _ => []
  | _ => []

theorem fl_fail (app : App) {H H' : Told} {st : St} (h : Fl H st) (hu : On st → st.userUp = true) : Fl H' (fail app st) :=
  ((tame_fail app st).fl h).off (fail_off app st hu)

theorem fl_arrive (app : App) {H : Told} {st : St} (b : Bytes) (h : Fl H st) {D K M : Nat} (k : Sound any D K M st) : Fl (H ++ opTold (.recv b)) (arrive app st b) := by
  have e0 : opTold (.recv b) = match Msg.decode b with | .some (.some m) => toldBy m | _ => [] := rfl
  rw [e0]
  unfold arrive
  cases hd : Msg.decode b with
  | none => exact fl_fail app h k.owe.user
  | some x =>
    cases x with
    | none => show Fl (H ++ []) st; rw [List.append_nil]; exact h
    | some m =>
      dsimp only
      have a1 := fl_act app b.length m h
      have a2 := (sound_act app b.length m k).2
      by_cases e : (act app st b.length m).2 = true
      · rw [if_pos e]; exact a1 e
      · rw [if_neg e, a2 (by simpa using e)]
        exact fl_fail app h k.owe.user

theorem fl_step (app : App) {H : Told} {st : St} (o : Op) (h : Fl H st) {D K M : Nat} (k : Sound any D K M st) (q : Queued st) : Fl (H ++ opTold o) (step app st o) := by
  have h0 : Fl (H ++ []) st := by rw [List.append_nil]; exact h
  have hu := k.owe.user
  have ho := k.owe.op
  unfold step
  by_cases hw : st.wild = true
  · rw [if_pos hw]
    exact h.off (fun o => by rw [o.2] at hw; exact absurd hw (by simp))
  rw [if_neg hw]
  cases o with
  | call c => exact (tame_call st c).fl h0
  | recv b =>
    dsimp only
    split
    · exact fl_arrive app b h k
    · rename_i hn
      exact h.off (fun o => hn (hu o))
  | transmit exp probe =>
    dsimp only
    show Fl (H ++ []) _
    unfold transmit
    split
    · exact h0
    · split
      · unfold sendAcks
        have k := tame_foldl sendAck tame_sendAck st.ackFlows { st with ackNow := false }
        exact (Tame.trans (a := st) (b := { st with ackNow := false }) tame_eq (k.trans tame_eq)).fl h0
      · dsimp only
        have l1 : Fl (H ++ []) (if inFlight st < st.thresh then tryAll app exp probe 8 st else (st, false)).1 := by
          split
          · exact fl_tryAll app exp probe 8 st h0 ho q
          · exact h0
        generalize (if inFlight st < st.thresh then tryAll app exp probe 8 st else (st, false)) = r at l1 ⊢
        split
        · exact l1
        · exact Tame.fl tame_eq l1
  | task =>
    dsimp only
    split
    · exact h0
    · rename_i r rest ht
      exact (Tame.trans (b := { st with tasks := rest }) tame_eq (tame_deliver app _ r)).fl h0
  | trim s exp =>
    dsimp only
    split
    · exact (tame_trimLoop app s _ st).fl h0
    · exact h0
  | gone =>
    dsimp only
    split
    · exact fl_fail app h hu
    · exact h0
  | limit a b c => exact Tame.fl tame_eq h0

theorem fl_run (app : App) : ∀ (os : List Op) {H : Told} {D K M : Nat} {st : St}, Fl H st → Sound any D K M st → Rec Nobody Nobody st → Whole st →
    Fl (H ++ os.flatMap opTold) (run app st os)
  | [], H, _, _, _, _, h, _, _, _ => by simp only [List.flatMap_nil, List.append_nil]; exact h
  | o :: os, H, D, K, M, st, h, k, r, w => by
    have ih := fl_run app os (fl_step app o h k w.queued) (sound_step app o k r.due) (rec_step app r o) (whole_step app w o)
    simp only [List.flatMap_cons]
    rw [← List.append_assoc]
    exact ih

theorem fl_all (app : App) (os : List Op) : Fl (os.flatMap opTold) (run app init os) := by
  have h : Fl [] init := ⟨fun _ s hs => absurd hs (by simp [init]), fun _ _ => rfl, fun e he => absurd he (by simp [init]), fun p hp => absurd hp (by simp [init]),
    fun _ s hs => absurd hs (by simp [init]), fun _ x hx => by simp at hx⟩
  have := fl_run app os h (sound_all app any []) rec_init (whole_all app [])
  simpa using this

end Rtmfp.RTWS
