import Verif.Lemmas.RTWRecvStep

/-!
# Receiving flows: who is given a message
-/

namespace Rtmfp.RTWS

open Spec.Flows

/-- No reader is given anything. -/
def Still (a b : St) : Prop := ∀ r, given r b.log = given r a.log

theorem Still.refl (a : St) : Still a a := fun _ => rfl
theorem Still.trans {a b c : St} (h : Still a b) (k : Still b c) : Still a c := fun t => (k t).trans (h t)
theorem still_eq {a b : St} (h : b.log = a.log) : Still a b := fun t => by rw [h]
theorem still_note {st : St} {e : Ev} (h : ∀ r k b, e ≠ .message r k b) : Still st (note st e) := fun t => by
  unfold note given
  rw [List.filterMap_append]
  cases e with
  | message r k b => exact absurd rfl (h r k b)
  | _ => simp
theorem still_setR (st : St) (r : Nat) (f : RFlow) : Still st (setR st r f) := fun _ => rfl
theorem still_setS (st : St) (s : Nat) (f : SFlow) : Still st (setS st s f) := fun _ => rfl
theorem still_tx (st : St) (w : Who) (m : Msg) : Still st (tx st w m) := by
  unfold tx; split
  · exact still_note (by simp)
  · exact Still.refl _
theorem still_schedule (st : St) : Still st (schedule st) := by unfold schedule; split <;> exact still_eq rfl
theorem still_scheduleAck (st : St) : Still st (scheduleAck st) := by
  unfold scheduleAck; split
  · exact Still.refl _
  · exact Still.trans (b := { st with ackNow := true }) (still_eq rfl) (still_schedule _)
theorem still_queueAck (st : St) (r : Nat) (now : Bool) : Still st (queueAck st r now) := by
  unfold queueAck
  split
  · have h : Still st (if r ∈ st.ackFlows then st else { st with ackFlows := st.ackFlows ++ [r] }) := by
      split <;> exact still_eq rfl
    dsimp only
    split
    · exact h.trans (still_scheduleAck _)
    · exact h
  · exact Still.refl _
theorem still_queueTx (st : St) (s : Nat) : Still st (queueTx st s) := by
  unfold queueTx
  refine Still.trans ?_ (still_schedule _)
  split <;> exact still_eq rfl
theorem still_openFlow (st : St) (id : Nat) (ret : Option Nat) (about : Bytes) (pri : Nat) : Still st (openFlow st id ret about pri) := by
  unfold openFlow
  split
  · exact Still.trans (still_eq rfl) (still_queueTx _ _)
  · exact Still.refl _
theorem still_write (st : St) (s : Nat) (b : Bytes) : Still st (write st s b) := by
  unfold write
  dsimp only
  split
  · refine Still.trans ?_ (still_queueTx _ _)
    refine Still.trans ?_ (still_note (by simp))
    exact still_eq rfl
  · exact Still.refl _
theorem still_closeS (st : St) (s : Nat) : Still st (closeS st s) := by
  unfold closeS
  split
  · exact Still.trans (b := setS st s { st.S s with up := false }) (still_eq rfl) (still_queueTx _ _)
  · exact Still.refl _
theorem still_setPriority (st : St) (s p : Nat) : Still st (setPriority st s p) := by
  unfold setPriority
  split
  · exact Still.trans (b := setS st s { st.S s with pri := p }) (still_eq rfl) (still_queueTx _ _)
  · exact Still.refl _
theorem still_accept (st : St) (r : Nat) : Still st (accept st r) := by unfold accept; split <;> exact still_eq rfl
theorem still_capacity (st : St) (r n : Nat) : Still st (capacity st r n) := by
  unfold capacity
  dsimp only
  split
  · exact still_eq rfl
  · exact fun t => still_queueAck st r true t
theorem still_closeR (st : St) (r k : Nat) (t : Bytes) : Still st (closeR st r k t) := by
  unfold closeR
  split
  · dsimp only
    split
    · exact fun t => still_capacity (setR st r { st.R r with up := false, yes := false }) r 0 t
    · exact Still.trans (fun t => still_capacity (setR st r { st.R r with up := false, yes := false }) r 0 t) (still_tx _ _ _)
  · exact Still.refl _
theorem still_queueDelivery (st : St) (r : Nat) : Still st (queueDelivery st r) := by
  unfold queueDelivery
  dsimp only
  split
  · split <;> exact still_eq rfl
  · exact Still.refl _
theorem still_pause (st : St) (r : Nat) (y : Bool) : Still st (pause st r y) := by
  unfold pause
  dsimp only
  split
  · exact still_eq rfl
  · split
    · exact Still.trans (fun t => still_queueDelivery (setR st r { st.R r with paused := y }) r t) (still_queueAck _ _ _)
    · exact fun t => still_queueDelivery (setR st r { st.R r with paused := y }) r t
theorem still_foldl {α : Type} (g : St → α → St) (hg : ∀ st a, Still st (g st a)) : ∀ (l : List α) (st : St), Still st (l.foldl g st)
  | [], _ => Still.refl _
  | a :: l, st => (hg st a).trans (still_foldl g hg l _)
theorem still_sendAck (st : St) (r : Nat) : Still st (sendAck st r) := by
  unfold sendAck
  dsimp only
  split
  · exact Still.refl _
  · split
    · exact ((((still_setR _ _ _).trans (still_tx _ _ _)).trans (still_setR _ _ _)).trans (still_tx _ _ _)).trans (still_setR _ _ _)
    · exact ((still_setR _ _ _).trans (still_tx _ _ _)).trans (still_setR _ _ _)
theorem still_sendAcks (st : St) : Still st (sendAcks st) := by
  unfold sendAcks
  exact fun t => still_foldl sendAck still_sendAck st.ackFlows { st with ackNow := false } t
theorem still_ackIfNeeded (st : St) : Still st (ackIfNeeded st) := by
  unfold ackIfNeeded
  split
  · exact fun t => still_scheduleAck st t
  · exact Still.refl _
theorem still_onAbandon (st : St) (r n : Nat) : Still st (onAbandon st r n) := by
  unfold onAbandon
  exact Still.trans (still_eq rfl) (still_queueAck _ _ _)
theorem still_onClose (st : St) (r : Nat) : Still st (onClose st r) := by
  unfold onClose
  exact ((Still.trans (still_eq rfl) (still_onAbandon (setR st r { st.R r with ended := true }) _ _)).trans (still_queueDelivery _ _)).trans (still_queueAck _ _ _)
theorem still_onData (st : St) (r : Nat) (more : Bool) (b : Bytes) (n : Nat) : Still st (onData st r more b n) := by
  unfold onData
  dsimp only
  refine Still.trans ?_ (still_queueAck _ _ _)
  split
  · exact still_eq rfl
  · exact Still.trans (still_eq rfl) (still_queueDelivery _ _)
theorem still_endQuietly (st : St) (r : Nat) : Still st (endQuietly st r) := by
  unfold endQuietly
  dsimp only
  refine Still.trans ?_ (still_closeR _ _ _ _)
  split
  · exact Still.refl _
  · split
    · exact Still.trans (b := setR st r { st.R r with told := true }) (still_eq rfl) (still_note (by simp))
    · exact still_eq rfl
theorem still_endR (st : St) (r : Nat) : Still st (endR st r) := by
  unfold endR
  split
  · exact (still_onClose _ _).trans (still_endQuietly _ _)
  · exact Still.refl _
theorem still_dropAll (s : Nat) : ∀ (n : Nat) (st : St), Still st (dropAll n st s)
  | 0, _ => Still.refl _
  | n + 1, st => by
    unfold dropAll
    dsimp only
    split
    · exact Still.refl _
    · rename_i m rest hb
      split
      · exact Still.refl _
      · refine Still.trans ?_ (still_dropAll s n _)
        exact fun t => still_note (st := st) (e := .dropped s m.num) (by simp) t
theorem still_endS (st : St) (s : Nat) : Still st (endS st s) := by
  unfold endS
  dsimp only
  split
  · refine Still.trans ?_ (still_dropAll _ _ _)
    exact Still.trans (b := setS st s { st.S s with exc := true, up := false }) (still_eq rfl) (still_note (by simp))
  · exact Still.refl _
theorem still_close (st : St) : Still st (close st) := by
  unfold close
  split
  · exact Still.refl _
  · split
    · exact still_eq rfl
    · dsimp only
      have k1 := still_foldl (fun (st : St) (p : Nat × Nat) => endS st p.2) (fun st p => still_endS st p.2) st.sIds { st with up := false, userUp := false, sIds := [] }
      generalize st.sIds.foldl (fun st p => endS st p.2) { st with up := false, userUp := false, sIds := [] } = u at k1 ⊢
      have k2 := still_foldl (fun (st : St) (p : Nat × Nat) => endR st p.2) (fun st p => still_endR st p.2) u.rIds { u with rIds := [] }
      generalize u.rIds.foldl (fun st p => endR st p.2) { u with rIds := [] } = v at k2 ⊢
      exact fun t => (k2 t).trans (k1 t)
theorem still_call (st : St) (c : Call) : Still st (call st c) := by
  cases c <;> simp only [call]
  · split
    · exact still_openFlow _ _ _ _ _
    · exact Still.refl _
  · split
    · exact still_openFlow _ _ _ _ _
    · exact Still.refl _
  · exact still_write _ _ _
  · exact still_closeS _ _
  · exact still_setPriority _ _ _
  · exact still_accept _ _
  · split
    · exact still_closeR _ _ _ _
    · exact Still.refl _
  · split
    · exact still_capacity _ _ _
    · exact Still.refl _
  · split
    · exact still_pause _ _ _
    · exact Still.refl _
  · exact still_close _
theorem still_tell (app : App) (st : St) (e : Ev) (h : ∀ r k b, e ≠ .message r k b) : Still st (tell app st e) := by
  unfold tell
  exact (still_note h).trans (still_foldl call still_call _ _)
theorem still_trimLoop (app : App) (s : Nat) : ∀ (n : Nat) (st : St), Still st (trimLoop app n st s)
  | 0, _ => Still.refl _
  | n + 1, st => by
    unfold trimLoop
    split
    · exact Still.refl _
    · rename_i m rest hb
      dsimp only
      have h := still_tell app { st with trimming := .some s } (.dropped s m.num) (by simp)
      generalize tell app { st with trimming := .some s } (.dropped s m.num) = u at h ⊢
      exact Still.trans (b := u) (fun t => h t) (Still.trans (fun t => rfl) (still_trimLoop app s n _))
theorem still_fragment (app : App) (st : St) (s : Nat) : Still st (fragment app st s).1 := by
  unfold fragment
  dsimp only
  split
  · exact Still.refl _
  · rename_i m rest hb
    split
    · exact Still.refl _
    · generalize Msg.data (st.S s).id (!decide (m.bytes.length ≤ m.off + min (2 ^ 20) (min st.chunk ((st.S s).through - (st.S s).sent))))
        (List.take (min (2 ^ 20) (min st.chunk ((st.S s).through - (st.S s).sent))) (List.drop m.off m.bytes)) = msg
      have l1 : Still st { tx st (.s s) msg with bytesSent := (tx st (.s s) msg).bytesSent + msg.encode.length } := fun t => still_tx st _ _ t
      generalize ({ tx st (.s s) msg with bytesSent := (tx st (.s s) msg).bytesSent + msg.encode.length } : St) = u at l1 ⊢
      split
      · refine l1.trans ?_
        exact ((still_setS _ _ _).trans (still_tell app _ _ (by simp))).trans (still_setS _ _ _)
      · exact l1.trans (still_setS _ _ _)
theorem still_transmitS (app : App) (st : St) (s pri exp : Nat) : Still st (transmitS app st s pri exp).1 := by
  unfold transmitS
  split
  · exact Still.refl _
  · split
    · exact fun t => still_tx st _ _ t
    · have l1 : Still st (trim app st s exp) := still_trimLoop app s _ st
      dsimp only
      generalize trim app st s exp = u at l1 ⊢
      split
      · exact l1.trans (fun t => still_tx u _ _ t)
      · split
        · exact l1.trans (fun t => still_tx u _ _ t)
        · split
          · exact l1
          · exact l1.trans (still_fragment app u s)
theorem still_startRTT (st : St) (p : Bool) : Still st (startRTT st p) := by
  unfold startRTT; split
  · exact still_tx _ _ _
  · exact Still.refl _
theorem still_tryPri (app : App) (exp : Nat → Nat) (probe : Bool) (pri : Nat) : ∀ (n : Nat) (st : St), Still st (tryPri app exp probe n st pri).1
  | 0, _ => Still.refl _
  | n + 1, st => by
    unfold tryPri
    split
    · exact Still.refl _
    · rename_i s ws hw
      dsimp only
      have l1 := still_transmitS app st s pri (exp s)
      split
      · refine Still.trans ?_ (still_startRTT _ _)
        split
        · exact fun t => l1 t
        · exact l1
      · exact Still.trans (fun t => l1 t) (still_tryPri app exp probe pri n _)
theorem still_tryAll (app : App) (exp : Nat → Nat) (probe : Bool) : ∀ (n : Nat) (st : St), Still st (tryAll app exp probe n st).1
  | 0, _ => Still.refl _
  | n + 1, st => by
    unfold tryAll
    dsimp only
    have l1 := still_tryPri app exp probe n (st.work n).length st
    split
    · exact l1
    · exact l1.trans (still_tryAll app exp probe n _)
theorem still_transmit (app : App) (exp : Nat → Nat) (probe : Bool) (st : St) : Still st (transmit app exp probe st) := by
  unfold transmit
  split
  · exact Still.refl _
  · split
    · exact still_sendAcks st
    · dsimp only
      have l1 : Still st (if inFlight st < st.thresh then tryAll app exp probe 8 st else (st, false)).1 := by
        split
        · exact still_tryAll app exp probe 8 st
        · exact Still.refl _
      generalize (if inFlight st < st.thresh then tryAll app exp probe 8 st else (st, false)) = r at l1 ⊢
      split
      · exact l1
      · exact fun t => l1 t
theorem still_endFlow (app : App) (st : St) (r : Nat) : Still st (endFlow app st r) := by
  unfold endFlow
  dsimp only
  refine Still.trans ?_ (still_closeR _ _ _ _)
  split
  · exact Still.refl _
  · split
    · exact Still.trans (b := setR st r { st.R r with told := true }) (still_eq rfl) (still_tell app _ _ (by simp))
    · exact still_eq rfl
theorem still_fail (app : App) (st : St) : Still st (fail app st) := (still_tell app st .error (by simp)).trans (still_close _)
theorem still_onRefuse (app : App) (st : St) (s reason : Nat) (text : Bytes) : Still st (onRefuse app st s reason text) := by
  unfold onRefuse
  dsimp only
  refine Still.trans ?_ (still_queueTx _ _)
  refine Still.trans ?_ (still_trimLoop app s _ _)
  split
  · exact Still.trans (Still.trans (b := setS st s { st.S s with exc := true }) (still_eq rfl) (still_closeS _ _)) (still_tell app _ _ (by simp))
  · exact still_eq rfl
theorem still_offer (app : App) (st : St) (r : Nat) (on : Option Nat) : Still st (offer app st r on) := by
  unfold offer
  dsimp only
  refine Still.trans ?_ (still_queueAck _ _ _)
  have l1 := still_tell app st (.offered r on) (by simp)
  split
  · exact l1
  · exact l1.trans (still_closeR _ _ _ _)
theorem still_act (app : App) (st : St) (len : Nat) (m : Msg) : Still st (act app st len m).1 := by
  cases m with
  | ping b => exact still_tx _ _ _
  | pong b => exact Still.refl _
  | window n =>
    simp only [act]
    exact fun t => still_ackIfNeeded { st with ackWin := max n 2800 } t
  | opens id ret about =>
    simp only [act]
    split
    · exact Still.refl _
    · have l1 : Still st (note (newR st id about) (.heard st.nR (.opens id ret about))) := fun t => still_note (st := newR st id about) (by simp) t
      cases ret with
      | none => exact l1.trans (still_offer app _ _ _)
      | some t =>
        dsimp only
        split
        · exact l1.trans (still_closeR _ _ _ _)
        · split
          · exact l1.trans (still_offer app _ _ _)
          · exact l1.trans (still_closeR _ _ _ _)
  | data id more b =>
    simp only [act]
    split
    · exact Still.refl _
    · refine Still.trans ?_ (Still.trans (still_note (by simp)) (still_onData _ _ _ _ _))
      exact fun t => still_ackIfNeeded { st with acc := st.acc + len } t
  | abandon id n =>
    simp only [act]
    split
    · exact Still.refl _
    · exact (still_note (by simp)).trans (still_onAbandon _ _ _)
  | closes id =>
    simp only [act]
    split
    · exact Still.refl _
    · rename_i r hf
      have l1 : Still st (onClose (note st (.heard r (.closes id))) r) := (still_note (by simp)).trans (still_onClose _ r)
      generalize onClose (note st (.heard r (.closes id))) r = u at l1 ⊢
      exact fun t => l1 t
  | ack id d a =>
    simp only [act]
    split
    · exact Still.refl _
    · rename_i s hf
      exact fun t => still_queueTx (setS { st with bytesAcked := st.bytesAcked + d } s { st.S s with acked := (st.S s).acked + d, through := (st.S s).acked + d + a }) s t
  | closeAck id =>
    simp only [act]
    split
    · exact Still.refl _
    · split
      · exact Still.refl _
      · exact still_eq rfl
  | refuse id reason text =>
    simp only [act]
    split
    · exact Still.refl _
    · exact still_onRefuse app _ _ _ _
theorem still_arrive (app : App) (st : St) (b : Bytes) : Still st (arrive app st b) := by
  unfold arrive
  split
  · exact still_fail app st
  · exact Still.refl _
  · dsimp only
    split
    · exact still_act app _ _ _
    · exact (still_act app _ _ _).trans (still_fail app _)

theorem given_message (st : St) (r k t : Nat) (b : Bytes) (h : r ≠ t) : given t (note st (.message r k b)).log = given t st.log := by
  unfold note given
  rw [List.filterMap_append]
  simp [h]

/-- Deliveries to one flow give nothing to another. -/
theorem deliverLoop_other (app : App) (r t : Nat) (h : r ≠ t) : ∀ (n : Nat) (st : St), given t (deliverLoop app n st r).log = given t st.log
  | 0, _ => rfl
  | n + 1, st => by
    unfold deliverLoop
    dsimp only
    split
    · rfl
    · split
      · rfl
      · rename_i m rest hb hc
        rw [deliverLoop_other app r t h n]
        unfold tell
        dsimp only
        rw [still_foldl call still_call _ _ t, given_message _ _ _ _ _ h]
        rfl

/-- A reader that is paused, closed, or hasn't accepted is given nothing. -/
theorem deliverLoop_held (app : App) (r n : Nat) (st : St) (h : (st.R r).paused = true ∨ (st.R r).up = false ∨ (st.R r).yes = false) :
    deliverLoop app n st r = st := by
  cases n with
  | zero => rfl
  | succ n =>
    unfold deliverLoop
    dsimp only
    split
    · rfl
    · rw [if_pos]
      rcases h with h | h | h <;> simp [h]

theorem deliver_held (app : App) (r t : Nat) (st : St) (h : (st.R t).paused = true ∨ (st.R t).up = false ∨ (st.R t).yes = false) :
    given t (deliver app st r).log = given t st.log := by
  unfold deliver
  dsimp only
  have l1 : given t (deliverLoop app ((setR st r { st.R r with pending := false }).R r).buf.length (setR st r { st.R r with pending := false }) r).log = given t st.log := by
    by_cases e : r = t
    · subst e
      rw [deliverLoop_held]
      · rfl
      · simpa [setR] using h
    · rw [deliverLoop_other app r t e]; rfl
  split
  · rw [still_endFlow app _ r t]; exact l1
  · exact l1

/-- A reader that pauses the flow in the callback is given one message at a time. -/
theorem deliver_one (app : App) (r : Nat) (st : St) (hr : r < st.nR) (h : ∀ l k b, app.react (l ++ [.message r k b]) = [.pause r true]) :
    ∃ p, given r (deliver app st r).log = given r st.log ++ p ∧ p.length ≤ 1 := by
  unfold deliver
  dsimp only
  generalize hu : setR st r { st.R r with pending := false } = u
  have hl : u.log = st.log := by rw [← hu]; rfl
  have hn : r < u.nR := by rw [← hu]; exact hr
  rw [← hl]
  have l1 : ∀ n, ∃ p, given r (deliverLoop app n u r).log = given r u.log ++ p ∧ p.length ≤ 1 := by
    intro n
    cases n with
    | zero => exact ⟨[], by simp [deliverLoop], by simp⟩
    | succ n =>
      unfold deliverLoop
      dsimp only
      split
      · exact ⟨[], by simp, by simp⟩
      · split
        · exact ⟨[], by simp, by simp⟩
        · rename_i m rest hb hc
          refine ⟨[(m.num, m.bytes)], ?_, by simp⟩
          have e : tell app (setR u r { u.R r with buf := rest, size := (u.R r).size - m.bytes.length }) (.message r m.num m.bytes) =
              pause (note (setR u r { u.R r with buf := rest, size := (u.R r).size - m.bytes.length }) (.message r m.num m.bytes)) r true := by
            unfold tell
            dsimp only
            have : (note (setR u r { u.R r with buf := rest, size := (u.R r).size - m.bytes.length }) (.message r m.num m.bytes)).log = u.log ++ [.message r m.num m.bytes] := rfl
            rw [this, h]
            simp only [List.foldl_cons, List.foldl_nil, call]
            rw [if_pos (show r < (note (setR u r _) _).nR from hn)]
          rw [e, deliverLoop_held app r n _ (Or.inl (by unfold pause; simp [setR]))]
          rw [still_pause _ _ _ r]
          simp [note, setR, given]
  split
  · obtain ⟨p, h1, h2⟩ := l1 ((u.R r).buf.length)
    exact ⟨p, by rw [still_endFlow app _ r r]; exact h1, h2⟩
  · exact l1 _

theorem step_held (app : App) (st : St) (o : Op) (t : Nat) (h : (st.R t).paused = true ∨ (st.R t).up = false ∨ (st.R t).yes = false) :
    given t (step app st o).log = given t st.log := by
  unfold step
  split
  · rfl
  · cases o with
    | call c => exact still_call st c t
    | recv b =>
      dsimp only
      split
      · exact still_arrive app st b t
      · rfl
    | transmit exp probe => exact still_transmit app exp probe st t
    | task =>
      dsimp only
      split
      · rfl
      · rename_i r rest hr
        exact deliver_held app r t { st with tasks := rest } h
    | trim s e =>
      dsimp only
      split
      · exact still_trimLoop app s _ st t
      · rfl
    | gone =>
      dsimp only
      split
      · exact still_fail app st t
      · rfl
    | limit a b c => rfl

end Rtmfp.RTWS
