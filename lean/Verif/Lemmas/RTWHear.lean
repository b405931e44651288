import Verif.Lemmas.RTWFull

/-!
# What has arrived for flows is what was said: the functions that hear nothing
-/

namespace Rtmfp.RTWS

/-- Messages of a sending flow. -/
def isFlow : Msg → Bool
  | .opens _ _ _ => true
  | .data _ _ _ => true
  | .abandon _ _ => true
  | .closes _ => true
  | _ => false

/-- The number of the flow a message is of. -/
def flowOf : Msg → Nat
  | .opens id _ _ => id
  | .data id _ _ => id
  | .abandon id _ => id
  | .closes id => id
  | _ => 0

/-- Messages of sending flows are sent by sending flows. -/
def own : Ev → Bool
  | .tx (.s _) _ => true
  | .tx _ m => !isFlow m
  | _ => true

/-- Whether an event is the arrival of a message of a flow. -/
def isHeard : Ev → Bool
  | .heard _ _ => true
  | _ => false

/-- Events that are neither sent nor heard. -/
def still : Ev → Bool
  | .tx _ _ => false
  | .heard _ _ => false
  | _ => true

/-- Nothing is heard, and there are no new receiving flows. -/
structure Deaf (a b : St) : Prop where
  heard : b.log.filter isHeard = a.log.filter isHeard
  src : ∀ e ∈ b.log, e ∈ a.log ∨ own e = true
  on : On b → On a
  rid : ∀ r, (b.R r).id = (a.R r).id
  nR : b.nR = a.nR

theorem Deaf.refl (a : St) : Deaf a a := ⟨rfl, fun _ h => Or.inl h, fun h => h, fun _ => rfl, rfl⟩

theorem Deaf.trans {a b c : St} (h : Deaf a b) (k : Deaf b c) : Deaf a c where
  heard := k.heard.trans h.heard
  src e he := by
    rcases k.src e he with x | x
    · exact h.src e x
    · exact Or.inr x
  on o := h.on (k.on o)
  rid r := (k.rid r).trans (h.rid r)
  nR := k.nR.trans h.nR

/-- Changes of what isn't spoken of. -/
theorem deaf_eq {a b : St} (hR : b.R = a.R := by rfl) (hn : b.nR = a.nR := by rfl) (hl : b.log = a.log := by rfl)
    (hu : b.up = a.up := by rfl) (hw : b.wild = a.wild := by rfl) : Deaf a b :=
  ⟨by rw [hl], fun e he => Or.inl (hl ▸ he), fun o => ⟨hu ▸ o.1, hw ▸ o.2⟩, fun r => by rw [hR], hn⟩

theorem deaf_note {st : St} {e : Ev} (h : still e = true) : Deaf st (note st e) := by
  have h1 : isHeard e = false := by cases e <;> simp_all [still, isHeard]
  have h2 : own e = true := by cases e <;> simp_all [still, own]
  refine ⟨by simp [note, h1], fun x hx => ?_, fun h => h, fun _ => rfl, rfl⟩
  simp only [note, List.mem_append, List.mem_singleton] at hx
  rcases hx with hx | hx
  · exact Or.inl hx
  · exact Or.inr (hx ▸ h2)

theorem deaf_tx (st : St) (w : Who) (m : Msg) (h : own (.tx w m) = true) : Deaf st (tx st w m) := by
  unfold tx
  split
  · refine ⟨by simp [note, isHeard], fun x hx => ?_, fun h => h, fun _ => rfl, rfl⟩
    simp only [note, List.mem_append, List.mem_singleton] at hx
    rcases hx with hx | hx
    · exact Or.inl hx
    · exact Or.inr (hx ▸ h)
  · exact Deaf.refl _

theorem deaf_setR (st : St) (r : Nat) (f : RFlow) (h : f.id = (st.R r).id) : Deaf st (setR st r f) := by
  refine ⟨rfl, fun _ h => Or.inl h, fun h => h, fun t => ?_, rfl⟩
  simp only [setR]
  split
  · rename_i ht; subst ht; exact h
  · rfl

theorem deaf_setS (st : St) (s : Nat) (f : SFlow) : Deaf st (setS st s f) := deaf_eq

theorem deaf_schedule (st : St) : Deaf st (schedule st) := by
  unfold schedule; split
  · exact deaf_eq
  · exact Deaf.refl _
theorem deaf_scheduleAck (st : St) : Deaf st (scheduleAck st) := by
  unfold scheduleAck; split
  · exact Deaf.refl _
  · exact Deaf.trans (b := { st with ackNow := true }) deaf_eq (deaf_schedule _)
theorem deaf_addAck (st : St) (r : Nat) : Deaf st (if r ∈ st.ackFlows then st else { st with ackFlows := st.ackFlows ++ [r] }) := by
  split
  · exact Deaf.refl _
  · exact deaf_eq
theorem deaf_wild (st : St) (w : Bool) (h : w = false → st.wild = false) : Deaf st { st with wild := w } :=
  ⟨rfl, fun _ h => Or.inl h, fun o => ⟨o.1, h o.2⟩, fun _ => rfl, rfl⟩
theorem deaf_queueAck (st : St) (r : Nat) (now : Bool) : Deaf st (queueAck st r now) := by
  unfold queueAck
  split
  · have h := deaf_addAck st r
    dsimp only
    split
    · exact h.trans (deaf_scheduleAck _)
    · exact h
  · exact Deaf.refl _
theorem deaf_queueTx (st : St) (s : Nat) : Deaf st (queueTx st s) := by
  unfold queueTx
  refine Deaf.trans ?_ (deaf_schedule _)
  split
  · exact deaf_eq
  · exact Deaf.refl _
theorem deaf_openFlow (st : St) (id : Nat) (ret : Option Nat) (about : Bytes) (pri : Nat) : Deaf st (openFlow st id ret about pri) := by
  unfold openFlow
  split
  · refine Deaf.trans ?_ (deaf_queueTx _ _)
    exact deaf_eq
  · exact Deaf.refl _
theorem deaf_write (st : St) (s : Nat) (b : Bytes) : Deaf st (write st s b) := by
  unfold write
  dsimp only
  split
  · refine Deaf.trans ?_ (deaf_queueTx _ _)
    refine Deaf.trans ?_ (deaf_note rfl)
    refine (deaf_wild st (st.wild || decide (st.trimming = .some s)) (by cases st.wild <;> simp)).trans ?_
    exact deaf_setS _ _ _ 
  · exact Deaf.refl _
theorem deaf_closeS (st : St) (s : Nat) : Deaf st (closeS st s) := by
  unfold closeS
  split
  · exact (deaf_setS st s { st.S s with up := false } ).trans (deaf_queueTx _ _)
  · exact Deaf.refl _
theorem deaf_setPriority (st : St) (s p : Nat) : Deaf st (setPriority st s p) := by
  unfold setPriority
  split
  · exact (deaf_setS st s { st.S s with pri := p } ).trans (deaf_queueTx _ _)
  · exact Deaf.refl _
theorem deaf_accept (st : St) (r : Nat) : Deaf st (accept st r) := by
  unfold accept; split
  · exact deaf_setR _ _ _ rfl
  · exact Deaf.refl _
theorem deaf_capacity (st : St) (r n : Nat) : Deaf st (capacity st r n) := by
  unfold capacity
  dsimp only
  refine Deaf.trans ?_ (deaf_setR _ _ _ rfl)
  split
  · exact Deaf.refl _
  · exact deaf_queueAck st r true
theorem deaf_closeR (st : St) (r k : Nat) (t : Bytes) : Deaf st (closeR st r k t) := by
  unfold closeR
  split
  · dsimp only
    have h := (deaf_setR st r { st.R r with up := false, yes := false } rfl).trans (deaf_capacity _ r 0)
    split
    · exact h
    · exact h.trans (deaf_tx _ _ _ rfl)
  · exact Deaf.refl _
theorem deaf_queueDelivery (st : St) (r : Nat) : Deaf st (queueDelivery st r) := by
  unfold queueDelivery
  dsimp only
  split
  · have h := deaf_setR st r { st.R r with pending := true } rfl
    split
    · exact h.trans deaf_eq
    · exact h
  · exact Deaf.refl _
theorem deaf_pause (st : St) (r : Nat) (y : Bool) : Deaf st (pause st r y) := by
  unfold pause
  dsimp only
  have h := deaf_setR st r { st.R r with paused := y } rfl
  split
  · exact h
  · have h2 := h.trans (deaf_queueDelivery _ r)
    split
    · exact h2.trans (deaf_queueAck _ _ _)
    · exact h2
theorem deaf_foldl {α : Type} (g : St → α → St) (hg : ∀ st a, Deaf st (g st a)) : ∀ (l : List α) (st : St), Deaf st (l.foldl g st)
  | [], _ => Deaf.refl _
  | a :: l, st => (hg st a).trans (deaf_foldl g hg l _)
theorem deaf_onAbandon (st : St) (r n : Nat) : Deaf st (onAbandon st r n) := by
  unfold onAbandon
  refine Deaf.trans ?_ (deaf_queueAck _ _ _)
  refine deaf_setR _ _ _ ?_
  split
  · split <;> rfl
  · rfl
theorem deaf_onClose (st : St) (r : Nat) : Deaf st (onClose st r) := by
  unfold onClose
  refine Deaf.trans ?_ (deaf_queueAck _ _ _)
  refine Deaf.trans ?_ (deaf_queueDelivery _ _)
  refine Deaf.trans ?_ (deaf_onAbandon _ _ _)
  exact deaf_setR _ _ _ rfl
theorem deaf_endQuietly (st : St) (r : Nat) : Deaf st (endQuietly st r) := by
  unfold endQuietly
  dsimp only
  refine Deaf.trans ?_ (deaf_closeR _ _ _ _)
  split
  · exact Deaf.refl _
  · have h := deaf_setR st r { st.R r with told := true } rfl
    split
    · exact h.trans (deaf_note rfl)
    · exact h
theorem deaf_endR (st : St) (r : Nat) : Deaf st (endR st r) := by
  unfold endR
  split
  · exact (deaf_onClose _ _).trans (deaf_endQuietly _ _)
  · exact Deaf.refl _
theorem deaf_dropAll (s : Nat) : ∀ (n : Nat) (st : St), Deaf st (dropAll n st s)
  | 0, _ => Deaf.refl _
  | n + 1, st => by
    unfold dropAll
    dsimp only
    split
    · exact Deaf.refl _
    · rename_i m rest hb
      split
      · exact Deaf.refl _
      · refine Deaf.trans ?_ (deaf_dropAll s n _)
        exact (deaf_note (st := st) (e := .dropped s m.num) rfl).trans (deaf_setS _ _ _ )
theorem deaf_endS (st : St) (s : Nat) : Deaf st (endS st s) := by
  unfold endS
  dsimp only
  split
  · refine Deaf.trans ?_ (deaf_dropAll _ _ _)
    exact (deaf_setS st s { st.S s with exc := true, up := false } ).trans (deaf_note rfl)
  · exact Deaf.refl _

theorem deaf_close (st : St) : Deaf st (close st) := by
  unfold close
  split
  · exact Deaf.refl _
  · split
    · exact deaf_wild st true (fun h => by simp at h)
    · dsimp only
      have k0 : Deaf st { st with up := false, userUp := false, sIds := [] } :=
        ⟨rfl, fun _ h => Or.inl h, fun o => absurd o.1 (by simp), fun _ => rfl, rfl⟩
      have k1 := deaf_foldl (fun (st : St) (p : Nat × Nat) => endS st p.2) (fun st p => deaf_endS st p.2) st.sIds { st with up := false, userUp := false, sIds := [] }
      generalize st.sIds.foldl (fun st p => endS st p.2) { st with up := false, userUp := false, sIds := [] } = u at k1 ⊢
      have k2 := deaf_foldl (fun (st : St) (p : Nat × Nat) => endR st p.2) (fun st p => deaf_endR st p.2) u.rIds { u with rIds := [] }
      generalize u.rIds.foldl (fun st p => endR st p.2) { u with rIds := [] } = v at k2 ⊢
      exact (k0.trans k1).trans ((Deaf.trans (a := u) (b := { u with rIds := [] }) deaf_eq k2).trans deaf_eq)
theorem deaf_call (st : St) (c : Call) : Deaf st (call st c) := by
  cases c <;> simp only [call]
  · split
    · exact deaf_openFlow _ _ _ _ _
    · exact Deaf.refl _
  · split
    · exact deaf_openFlow _ _ _ _ _
    · exact Deaf.refl _
  · exact deaf_write _ _ _
  · exact deaf_closeS _ _
  · exact deaf_setPriority _ _ _
  · exact deaf_accept _ _
  · split
    · exact deaf_closeR _ _ _ _
    · exact Deaf.refl _
  · split
    · exact deaf_capacity _ _ _
    · exact Deaf.refl _
  · split
    · exact deaf_pause _ _ _
    · exact Deaf.refl _
  · exact deaf_close _
theorem deaf_tell (app : App) (st : St) (e : Ev) (h : still e = true) : Deaf st (tell app st e) := by
  unfold tell
  exact (deaf_note h).trans (deaf_foldl call deaf_call _ _)
theorem deaf_trimLoop (app : App) (s : Nat) : ∀ (n : Nat) (st : St), Deaf st (trimLoop app n st s)
  | 0, _ => Deaf.refl _
  | n + 1, st => by
    unfold trimLoop
    split
    · exact Deaf.refl _
    · rename_i m rest hb
      dsimp only
      have h := deaf_tell app { st with trimming := .some s } (.dropped s m.num) rfl
      generalize tell app { st with trimming := .some s } (.dropped s m.num) = u at h ⊢
      have h0 : Deaf st { st with trimming := .some s } := deaf_eq
      have h1 : Deaf u { u with trimming := .none } := deaf_eq
      have h2 := deaf_setS { u with trimming := .none } s { u.S s with buf := (u.S s).buf.tail, lost := (u.S s).lost + 1 } 
      exact (h0.trans h).trans ((h1.trans h2).trans (deaf_trimLoop app s n _))
theorem deaf_startRTT (st : St) (p : Bool) : Deaf st (startRTT st p) := by
  unfold startRTT; split
  · exact deaf_tx _ _ _ rfl
  · exact Deaf.refl _
theorem deaf_endFlow (app : App) (st : St) (r : Nat) : Deaf st (endFlow app st r) := by
  unfold endFlow
  dsimp only
  refine Deaf.trans ?_ (deaf_closeR _ _ _ _)
  split
  · exact Deaf.refl _
  · have h := deaf_setR st r { st.R r with told := true } rfl
    split
    · exact h.trans (deaf_tell app _ _ rfl)
    · exact h
theorem deaf_deliverLoop (app : App) (r : Nat) : ∀ (n : Nat) (st : St), Deaf st (deliverLoop app n st r)
  | 0, _ => Deaf.refl _
  | n + 1, st => by
    unfold deliverLoop
    dsimp only
    split
    · exact Deaf.refl _
    · rename_i m rest hb
      split
      · exact Deaf.refl _
      · exact ((deaf_setR st r { st.R r with buf := rest, size := (st.R r).size - m.bytes.length } rfl).trans (deaf_tell app _ _ rfl)).trans (deaf_deliverLoop app r n _)
theorem deaf_deliver (app : App) (st : St) (r : Nat) : Deaf st (deliver app st r) := by
  unfold deliver
  dsimp only
  have h := (deaf_setR st r { st.R r with pending := false } rfl).trans (deaf_deliverLoop app r ((setR st r { st.R r with pending := false }).R r).buf.length _)
  split
  · exact h.trans (deaf_endFlow app _ _)
  · exact h
theorem deaf_fail (app : App) (st : St) : Deaf st (fail app st) := (deaf_tell app st .error rfl).trans (deaf_close _)
theorem deaf_onRefuse (app : App) (st : St) (s reason : Nat) (text : Bytes) : Deaf st (onRefuse app st s reason text) := by
  unfold onRefuse
  dsimp only
  refine Deaf.trans ?_ (deaf_queueTx _ _)
  refine Deaf.trans ?_ (deaf_trimLoop app s _ _)
  have h := deaf_setS st s { st.S s with exc := true } 
  split
  · exact (h.trans (deaf_closeS _ _)).trans (deaf_tell app _ _ rfl)
  · exact h
theorem deaf_offer (app : App) (st : St) (r : Nat) (on : Option Nat) : Deaf st (offer app st r on) := by
  unfold offer
  dsimp only
  refine Deaf.trans ?_ (deaf_queueAck _ _ _)
  have l1 := deaf_tell app st (.offered r on) rfl
  split
  · exact l1
  · exact l1.trans (deaf_closeR _ _ _ _)

theorem deaf_sendAck (st : St) (r : Nat) : Deaf st (sendAck st r) := by
  unfold sendAck
  dsimp only
  split
  · exact Deaf.refl _
  · refine Deaf.trans (b := setR (tx (setR st r { st.R r with thresh := advert (st.R r) / 2 }) (.r r) (.ack (st.R r).id (st.R r).got (advert (st.R r)))) r
      { (tx (setR st r { st.R r with thresh := advert (st.R r) / 2 }) (.r r) (.ack (st.R r).id (st.R r).got (advert (st.R r)))).R r with got := 0 }) ?_ ?_
    · have k1 := (deaf_setR st r { st.R r with thresh := advert (st.R r) / 2 } rfl).trans (deaf_tx _ (.r r) (.ack (st.R r).id (st.R r).got (advert (st.R r))) rfl)
      generalize tx (setR st r { st.R r with thresh := advert (st.R r) / 2 }) (.r r) (.ack (st.R r).id (st.R r).got (advert (st.R r))) = u at k1 ⊢
      exact k1.trans (deaf_setR u r { u.R r with got := 0 } rfl)
    · split
      · generalize (setR (tx (setR st r { st.R r with thresh := advert (st.R r) / 2 }) (.r r) (.ack (st.R r).id (st.R r).got (advert (st.R r)))) r
          { (tx (setR st r { st.R r with thresh := advert (st.R r) / 2 }) (.r r) (.ack (st.R r).id (st.R r).got (advert (st.R r)))).R r with got := 0 }) = u
        have hR : (tx u (.r r) (.closeAck (st.R r).id)).R = u.R := by unfold tx; split <;> rfl
        exact (deaf_tx _ _ _ rfl).trans (deaf_setR _ r { u.R r with over := true } (by rw [hR]))
      · exact Deaf.refl _

theorem deaf_ackIfNeeded (st : St) : Deaf st (ackIfNeeded st) := by
  unfold ackIfNeeded
  split
  · exact (deaf_scheduleAck st).trans deaf_eq
  · exact Deaf.refl _

theorem deaf_onData (st : St) (r : Nat) (more : Bool) (b : Bytes) (len : Nat) : Deaf st (onData st r more b len) := by
  unfold onData
  dsimp only
  refine Deaf.trans ?_ (deaf_queueAck _ _ _)
  split
  · refine deaf_setR _ _ _ ?_
    split
    · split <;> rfl
    · rfl
  · refine Deaf.trans ?_ (deaf_queueDelivery _ _)
    refine deaf_setR _ _ _ ?_
    split
    · split <;> rfl
    · rfl

theorem deaf_fragment (app : App) (st : St) (s : Nat) : Deaf st (fragment app st s).1 := by
  unfold fragment
  dsimp only
  split
  · exact Deaf.refl _
  · rename_i m rest hb
    split
    · exact Deaf.refl _
    · have k : ∀ (msg : Msg) (n : Nat) (f : SFlow), Deaf st (setS { tx st (.s s) msg with bytesSent := n } s f) := fun msg n f =>
        (deaf_tx st (.s s) msg rfl).trans ((Deaf.trans (b := { tx st (.s s) msg with bytesSent := n }) deaf_eq (deaf_setS _ _ _)))
      split
      · refine Deaf.trans ?_ (deaf_setS _ _ _)
        exact (k _ _ _).trans (deaf_tell app _ (.done s m.num) rfl)
      · exact k _ _ _

theorem deaf_transmitS (app : App) (st : St) (s pri exp : Nat) : Deaf st (transmitS app st s pri exp).1 := by
  unfold transmitS
  split
  · exact Deaf.refl _
  · split
    · exact (deaf_tx st (.s s) _ rfl).trans (deaf_setS _ _ _)
    · have l1 : Deaf st (trim app st s exp) := deaf_trimLoop app s _ st
      dsimp only
      generalize trim app st s exp = u at l1 ⊢
      split
      · exact l1.trans ((deaf_tx u (.s s) _ rfl).trans (deaf_setS _ _ _))
      · split
        · exact l1.trans ((deaf_tx u (.s s) _ rfl).trans (deaf_setS _ _ _))
        · split
          · exact l1
          · exact l1.trans (deaf_fragment app u s)

theorem deaf_tryPri (app : App) (exp : Nat → Nat) (probe : Bool) (pri : Nat) : ∀ (n : Nat) (st : St), Deaf st (tryPri app exp probe n st pri).1
  | 0, _ => Deaf.refl _
  | n + 1, st => by
    unfold tryPri
    split
    · exact Deaf.refl _
    · rename_i s ws hw
      dsimp only
      have l1 := deaf_transmitS app st s pri (exp s)
      split
      · generalize (transmitS app st s pri (exp s)).1 = u at l1 ⊢
        have t2 : Deaf u (if s ∈ u.work pri then { u with work := fun p => if p = pri then (u.work p).erase s ++ [s] else u.work p } else u) := by
          split
          · exact deaf_eq
          · exact Deaf.refl _
        exact l1.trans (t2.trans (deaf_startRTT _ _))
      · generalize (transmitS app st s pri (exp s)).1 = u at l1 ⊢
        exact l1.trans (Deaf.trans (b := { u with work := fun p => if p = pri then (u.work p).erase s else u.work p }) deaf_eq (deaf_tryPri app exp probe pri n _))

theorem deaf_tryAll (app : App) (exp : Nat → Nat) (probe : Bool) : ∀ (n : Nat) (st : St), Deaf st (tryAll app exp probe n st).1
  | 0, _ => Deaf.refl _
  | n + 1, st => by
    unfold tryAll
    dsimp only
    have h1 := deaf_tryPri app exp probe n (st.work n).length st
    split
    · exact h1
    · exact h1.trans (deaf_tryAll app exp probe n _)

theorem deaf_transmit (app : App) (exp : Nat → Nat) (probe : Bool) (st : St) : Deaf st (transmit app exp probe st) := by
  unfold transmit
  split
  · exact Deaf.refl _
  · split
    · unfold sendAcks
      have k := deaf_foldl sendAck deaf_sendAck st.ackFlows { st with ackNow := false }
      exact Deaf.trans (a := st) (b := { st with ackNow := false }) deaf_eq (k.trans deaf_eq)
    · dsimp only
      have l1 : Deaf st (if inFlight st < st.thresh then tryAll app exp probe 8 st else (st, false)).1 := by
        split
        · exact deaf_tryAll app exp probe 8 st
        · exact Deaf.refl _
      generalize (if inFlight st < st.thresh then tryAll app exp probe 8 st else (st, false)) = r at l1 ⊢
      split
      · exact l1
      · exact l1.trans deaf_eq

/-- All that has arrived for receiving flows. -/
def heardAll (l : List Ev) : List Msg := l.filterMap fun | .heard _ m => .some m | _ => .none

theorem heardAll_filter : ∀ l : List Ev, heardAll (l.filter isHeard) = heardAll l
  | [] => rfl
  | e :: l => by
    have ih := heardAll_filter l
    unfold heardAll at ih ⊢
    cases e with
    | heard r m => rw [List.filter_cons_of_pos rfl, List.filterMap_cons, ih, List.filterMap_cons]
    | _ => rw [List.filter_cons_of_neg (by simp [isHeard]), ih, List.filterMap_cons]

/-- What has arrived for receiving flows is all there was, and each had its own. -/
structure Hrd (G : List Msg) (st : St) : Prop where
  all : On st → heardAll st.log = G
  who : ∀ r m, .heard r m ∈ st.log → r < st.nR ∧ (st.R r).id = flowOf m
  src : ∀ e ∈ st.log, own e = true
  born : ∀ r, r < st.nR → ∃ ret about, .heard r (.opens (st.R r).id ret about) ∈ st.log

theorem Deaf.hrd {G : List Msg} {a b : St} (k : Deaf a b) (h : Hrd G a) : Hrd G b where
  all o := by rw [← heardAll_filter, k.heard, heardAll_filter]; exact h.all (k.on o)
  who r m hm := by
    have : Ev.heard r m ∈ b.log.filter isHeard := List.mem_filter.2 ⟨hm, rfl⟩
    rw [k.heard] at this
    rw [k.nR, k.rid]
    exact h.who r m (List.mem_filter.1 this).1
  src e he := by
    rcases k.src e he with x | x
    · exact h.src e x
    · exact x
  born r hr := by
    rw [k.nR] at hr
    rw [k.rid]
    obtain ⟨ret, about, hm⟩ := h.born r hr
    have : Ev.heard r (.opens (a.R r).id ret about) ∈ a.log.filter isHeard := List.mem_filter.2 ⟨hm, rfl⟩
    rw [← k.heard] at this
    exact ⟨ret, about, (List.mem_filter.1 this).1⟩

theorem Hrd.off {G G' : List Msg} {st : St} (h : Hrd G st) (o : ¬ On st) : Hrd G' st := ⟨fun e => absurd e o, h.who, h.src, h.born⟩

theorem hrd_note {G : List Msg} {st : St} (h : Hrd G st) (r : Nat) (m : Msg) (hr : r < st.nR) (hi : (st.R r).id = flowOf m) :
    Hrd (G ++ [m]) (note st (.heard r m)) where
  all o := by
    have := h.all o
    unfold heardAll at this ⊢
    simp only [note, List.filterMap_append, this]
    rfl
  who t m' hm := by
    simp only [note, List.mem_append, List.mem_singleton, Ev.heard.injEq] at hm
    rcases hm with hm | ⟨h1, h2⟩
    · exact h.who t m' hm
    · subst h1; subst h2; exact ⟨hr, hi⟩
  src e he := by
    simp only [note, List.mem_append, List.mem_singleton] at he
    rcases he with he | he
    · exact h.src e he
    · rw [he]; rfl
  born t ht := by
    obtain ⟨ret, about, hm⟩ := h.born t ht
    exact ⟨ret, about, List.mem_append_left _ hm⟩

theorem hrd_open {G : List Msg} {st : St} (h : Hrd G st) (id : Nat) (ret : Option Nat) (about : Bytes) :
    Hrd (G ++ [.opens id ret about]) (note (newR st id about) (.heard st.nR (.opens id ret about))) where
  all o := by
    have := h.all ⟨o.1, o.2⟩
    unfold heardAll at this ⊢
    simp only [note, newR, setR, List.filterMap_append, this]
    rfl
  who t m' hm := by
    simp only [note, newR, setR, List.mem_append, List.mem_singleton, Ev.heard.injEq] at hm
    rcases hm with hm | ⟨h1, h2⟩
    · obtain ⟨h1, h2⟩ := h.who t m' hm
      have : t ≠ st.nR := by omega
      refine ⟨Nat.lt_succ_of_lt h1, ?_⟩
      simp only [note, newR, setR, if_neg this]
      exact h2
    · subst h1; subst h2
      refine ⟨Nat.lt_succ_self _, ?_⟩
      simp [note, newR, setR, flowOf]
  src e he := by
    simp only [note, newR, setR, List.mem_append, List.mem_singleton] at he
    rcases he with he | he
    · exact h.src e he
    · rw [he]; rfl
  born r hr := by
    have hr : r < st.nR + 1 := hr
    by_cases e : r = st.nR
    · exact ⟨ret, about, by simp [note, newR, setR, e]⟩
    · obtain ⟨ret', about', hm⟩ := h.born r (by omega)
      exact ⟨ret', about', by simp only [note, newR, setR, if_neg e]; exact List.mem_append_left _ hm⟩

/-- The message, if it is one of a flow. -/
def flowIn (m : Msg) : List Msg := if isFlow m then [m] else []

theorem hrd_act (app : App) {G : List Msg} {st : St} (len : Nat) (m : Msg) (h : Hrd G st) (t : Tab st) : (act app st len m).2 = true → Hrd (G ++ flowIn m) (act app st len m).1 := by
  have h0 : Hrd (G ++ []) st := by rw [List.append_nil]; exact h
  intro e
  cases m with
  | ping b => exact (deaf_tx st .self (.pong b) rfl).hrd h0
  | pong b => exact h0
  | window n => exact (Deaf.trans (b := { st with ackWin := max n 2800 }) deaf_eq (deaf_ackIfNeeded _)).hrd h0
  | opens id ret about =>
    simp only [act] at e ⊢
    by_cases hf : (find st.rIds id).isSome = true
    · rw [if_pos hf] at e; simp at e
    · rw [if_neg hf] at e ⊢
      have h1 : Hrd (G ++ flowIn (.opens id ret about)) (note (newR st id about) (.heard st.nR (.opens id ret about))) :=
        hrd_open h id ret about
      cases ret with
      | none => exact (deaf_offer app _ _ _).hrd h1
      | some t =>
        dsimp only
        split
        · exact (deaf_closeR _ _ _ _).hrd h1
        · split
          · exact (deaf_offer app _ _ _).hrd h1
          · exact (deaf_closeR _ _ _ _).hrd h1
  | data id more b =>
    simp only [act] at e ⊢
    cases hf : find st.rIds id with
    | none => rw [hf] at e; simp at e
    | some r =>
      obtain ⟨t1, _, _, t2⟩ := t.flow _ (find_mem hf)
      have k : Deaf st (ackIfNeeded { st with acc := st.acc + len }) := Deaf.trans (b := { st with acc := st.acc + len }) deaf_eq (deaf_ackIfNeeded _)
      dsimp only at t1 t2 ⊢
      exact (deaf_onData _ _ _ _ _).hrd (hrd_note (k.hrd h) r _ (by rw [k.nR]; exact t1) (by rw [k.rid]; exact t2))
  | abandon id extra =>
    simp only [act] at e ⊢
    cases hf : find st.rIds id with
    | none => rw [hf] at e; simp at e
    | some r =>
      obtain ⟨t1, _, _, t2⟩ := t.flow _ (find_mem hf)
      exact (deaf_onAbandon _ _ _).hrd (hrd_note h r _ t1 t2)
  | closes id =>
    simp only [act] at e ⊢
    cases hf : find st.rIds id with
    | none => rw [hf] at e; simp at e
    | some r =>
      obtain ⟨t1, _, _, t2⟩ := t.flow _ (find_mem hf)
      have k : Hrd (G ++ [.closes id]) (onClose (note st (.heard r (.closes id))) r) := (deaf_onClose _ _).hrd (hrd_note h r _ t1 t2)
      exact Deaf.hrd deaf_eq k
  | ack id d a =>
    simp only [act] at e ⊢
    cases hf : find st.sIds id with
    | none => rw [hf] at e; simp at e
    | some s =>
      have k : ∀ f, Deaf st (setS { st with bytesAcked := st.bytesAcked + d } s f) := fun f => deaf_eq
      exact ((k _).trans (deaf_queueTx _ _)).hrd h0
  | closeAck id =>
    simp only [act] at e ⊢
    cases hf : find st.sIds id with
    | none => rw [hf] at e; simp at e
    | some s =>
      dsimp only
      split
      · exact h0
      · exact Deaf.hrd deaf_eq h0
  | refuse id reason text =>
    simp only [act] at e ⊢
    cases hf : find st.sIds id with
    | none => rw [hf] at e; simp at e
    | some s => exact (deaf_onRefuse app _ _ _ _).hrd h0

/-- The messages of flows in a step. -/
def opFlow : Op → List Msg
  | .recv b => match Msg.decode b with | .some (.some m) => flowIn m | _ => []
  | _ => []

theorem hrd_fail (app : App) {G G' : List Msg} {st : St} (h : Hrd G st) (hu : On st → st.userUp = true) : Hrd G' (fail app st) :=
  ((deaf_fail app st).hrd h).off (fail_off app st hu)

theorem hrd_arrive (app : App) {G : List Msg} {st : St} (b : Bytes) (h : Hrd G st) {D K M : Nat} (k : Sound any D K M st) : Hrd (G ++ opFlow (.recv b)) (arrive app st b) := by
  have e0 : opFlow (.recv b) = match Msg.decode b with | .some (.some m) => flowIn m | _ => [] := rfl
  rw [e0]
  unfold arrive
  cases hd : Msg.decode b with
  | none => exact hrd_fail app h k.owe.user
  | some x =>
    cases x with
    | none => show Hrd (G ++ []) st; rw [List.append_nil]; exact h
    | some m =>
      dsimp only
      have a1 := hrd_act app b.length m h k.tab
      have a2 := (sound_act app b.length m k).2
      by_cases e : (act app st b.length m).2 = true
      · rw [if_pos e]; exact a1 e
      · rw [if_neg e, a2 (by simpa using e)]
        exact hrd_fail app h k.owe.user

theorem hrd_step (app : App) {G : List Msg} {st : St} (o : Op) (h : Hrd G st) {D K M : Nat} (k : Sound any D K M st) : Hrd (G ++ opFlow o) (step app st o) := by
  have h0 : Hrd (G ++ []) st := by rw [List.append_nil]; exact h
  have hu := k.owe.user
  unfold step
  by_cases hw : st.wild = true
  · rw [if_pos hw]
    exact h.off (fun o => by rw [o.2] at hw; exact absurd hw (by simp))
  rw [if_neg hw]
  cases o with
  | call c => exact (deaf_call st c).hrd h0
  | recv b =>
    dsimp only
    split
    · exact hrd_arrive app b h k
    · rename_i hn
      exact h.off (fun o => hn (hu o))
  | transmit exp probe => exact (deaf_transmit app exp probe st).hrd h0
  | task =>
    dsimp only
    split
    · exact h0
    · rename_i r rest ht
      exact (Deaf.trans (b := { st with tasks := rest }) deaf_eq (deaf_deliver app _ r)).hrd h0
  | trim s exp =>
    dsimp only
    split
    · exact (deaf_trimLoop app s _ st).hrd h0
    · exact h0
  | gone =>
    dsimp only
    split
    · exact hrd_fail app h hu
    · exact h0
  | limit a b c => exact Deaf.hrd deaf_eq h0

theorem hrd_run (app : App) : ∀ (os : List Op) {G : List Msg} {D K M : Nat} {st : St}, Hrd G st → Sound any D K M st → Rec Nobody Nobody st →
    Hrd (G ++ os.flatMap opFlow) (run app st os)
  | [], G, _, _, _, _, h, _, _ => by simp only [List.flatMap_nil, List.append_nil]; exact h
  | o :: os, G, D, K, M, st, h, k, r => by
    have ih := hrd_run app os (hrd_step app o h k) (sound_step app o k r.due) (rec_step app r o)
    simp only [List.flatMap_cons]
    rw [← List.append_assoc]
    exact ih

theorem hrd_all (app : App) (os : List Op) : Hrd (os.flatMap opFlow) (run app init os) := by
  have h : Hrd [] init := ⟨fun _ => rfl, fun r m hm => absurd hm (by simp [init]), fun e he => absurd he (by simp [init]), fun r hr => absurd hr (by simp [init])⟩
  have := hrd_run app os h (sound_all app any []) rec_init
  simpa using this

end Rtmfp.RTWS
