import Verif.Lemmas.RTWSendAll

/-!
# Sending flows: who has something to send is in the queue
-/

namespace Rtmfp.RTWS

/-- The flow has something that it may send now, as far as its own window goes. -/
def Busy (st : St) (s : Nat) : Prop :=
  (st.S s).opening.isSome = true ∨ 0 < (st.S s).lost ∨ ((st.S s).up = false ∧ (st.S s).buf = [] ∧ (st.S s).shut = false) ∨
    ((st.S s).buf ≠ [] ∧ (st.S s).sent < (st.S s).through)

/-- It is in the queue of its priority. -/
def Enq (st : St) (s : Nat) : Prop := s ∈ st.work (st.S s).pri

/-- Whoever has something to send is in the queue, and a transmission is asked for unless there are too
many bytes in flight; but for the flows in `X`. -/
structure Live (X : Nat → Prop) (st : St) : Prop where
  chunk : 0 < st.chunk
  tab : ∀ p ∈ st.sIds, p.2 < st.nS
  inw : ∀ p s, s ∈ st.work p → s < st.nS
  pri : ∀ s, s < st.nS → (st.S s).pri < 8
  work : st.up = true → ∀ s, s < st.nS → ¬ X s → Busy st s → Enq st s
  sched : st.up = true → st.sendNow = false → (∀ s, s < st.nS → ¬ X s → ¬ Busy st s) ∨ st.thresh ≤ inFlight st

/-- What doesn't touch sending flows, the queues and the bytes in flight. -/
structure Idle (a b : St) : Prop where
  S : b.S = a.S
  nS : b.nS = a.nS
  work : b.work = a.work
  up : b.up = a.up
  send : b.sendNow = false → a.sendNow = false
  thresh : b.thresh = a.thresh
  sent : b.bytesSent = a.bytesSent
  acked : b.bytesAcked = a.bytesAcked
  chunk : b.chunk = a.chunk
  sIds : b.sIds = a.sIds
  user : b.userUp = a.userUp

theorem Idle.refl (a : St) : Idle a a := ⟨rfl, rfl, rfl, rfl, fun h => h, rfl, rfl, rfl, rfl, rfl, rfl⟩
theorem Idle.trans {a b c : St} (h : Idle a b) (k : Idle b c) : Idle a c :=
  ⟨k.S.trans h.S, k.nS.trans h.nS, k.work.trans h.work, k.up.trans h.up, fun x => h.send (k.send x), k.thresh.trans h.thresh,
    k.sent.trans h.sent, k.acked.trans h.acked, k.chunk.trans h.chunk, k.sIds.trans h.sIds, k.user.trans h.user⟩

theorem Idle.live {X : Nat → Prop} {a b : St} (h : Idle a b) (k : Live X a) : Live X b where
  chunk := by rw [h.chunk]; exact k.chunk
  tab := by rw [h.sIds, h.nS]; exact k.tab
  inw := by rw [h.work, h.nS]; exact k.inw
  pri := by rw [h.nS, h.S]; exact k.pri
  work := by unfold Busy Enq; rw [h.nS, h.S, h.work, h.up]; exact k.work
  sched := fun hu hs => by
    unfold Busy inFlight
    rw [h.nS, h.S, h.thresh, h.sent, h.acked]
    exact k.sched (by rw [← h.up]; exact hu) (h.send hs)

/-- Nobody leaves the queues, and a transmission asked for stays asked for, while the connection is up. -/
structure KeepQ (a b : St) : Prop where
  up : b.up = true → a.up = true
  enq : b.up = true → ∀ s, s < a.nS → Enq a s → Enq b s
  send : b.up = true → a.sendNow = true → b.sendNow = true
  nS : a.nS ≤ b.nS

theorem KeepQ.refl (a : St) : KeepQ a a := ⟨fun h => h, fun _ _ _ h => h, fun _ h => h, Nat.le_refl _⟩
theorem KeepQ.trans {a b c : St} (h : KeepQ a b) (k : KeepQ b c) : KeepQ a c :=
  ⟨fun x => h.up (k.up x), fun x s hs e => k.enq x s (Nat.lt_of_lt_of_le hs h.nS) (h.enq (k.up x) s hs e),
    fun x e => k.send x (h.send (k.up x) e), Nat.le_trans h.nS k.nS⟩

theorem Idle.keepq {a b : St} (h : Idle a b) : KeepQ a b :=
  ⟨fun x => by rw [← h.up]; exact x, fun _ s _ e => by unfold Enq; rw [h.work, h.S]; exact e,
    fun _ e => by cases hb : b.sendNow; · have := h.send hb; simp [e] at this
                  · rfl, by rw [h.nS]; exact Nat.le_refl _⟩

theorem idle_setR (st : St) (r : Nat) (f : RFlow) : Idle st (setR st r f) := ⟨rfl, rfl, rfl, rfl, fun h => h, rfl, rfl, rfl, rfl, rfl, rfl⟩
theorem idle_note (st : St) (e : Ev) : Idle st (note st e) := ⟨rfl, rfl, rfl, rfl, fun h => h, rfl, rfl, rfl, rfl, rfl, rfl⟩
theorem idle_tx (st : St) (w : Who) (m : Msg) : Idle st (tx st w m) := by
  unfold tx; split
  · exact idle_note _ _
  · exact Idle.refl _
theorem idle_schedule (st : St) : Idle st (schedule st) := by
  unfold schedule; split
  · exact ⟨rfl, rfl, rfl, rfl, fun h => by simp at h, rfl, rfl, rfl, rfl, rfl, rfl⟩
  · exact Idle.refl _
theorem idle_scheduleAck (st : St) : Idle st (scheduleAck st) := by
  unfold scheduleAck; split
  · exact Idle.refl _
  · exact Idle.trans (b := { st with ackNow := true }) ⟨rfl, rfl, rfl, rfl, fun h => h, rfl, rfl, rfl, rfl, rfl, rfl⟩ (idle_schedule _)
theorem idle_queueAck (st : St) (r : Nat) (now : Bool) : Idle st (queueAck st r now) := by
  unfold queueAck
  split
  · have h : Idle st (if r ∈ st.ackFlows then st else { st with ackFlows := st.ackFlows ++ [r] }) := by
      split <;> exact ⟨rfl, rfl, rfl, rfl, fun h => h, rfl, rfl, rfl, rfl, rfl, rfl⟩
    dsimp only
    split
    · exact h.trans (idle_scheduleAck _)
    · exact h
  · exact Idle.refl _
theorem idle_accept (st : St) (r : Nat) : Idle st (accept st r) := by
  unfold accept; split
  · exact idle_setR _ _ _
  · exact Idle.refl _
theorem idle_capacity (st : St) (r n : Nat) : Idle st (capacity st r n) := by
  unfold capacity
  dsimp only
  split
  · exact idle_setR _ _ _
  · exact (idle_queueAck _ _ _).trans (idle_setR _ _ _)
theorem idle_closeR (st : St) (r k : Nat) (t : Bytes) : Idle st (closeR st r k t) := by
  unfold closeR
  split
  · dsimp only
    split
    · exact (idle_setR _ _ _).trans (idle_capacity _ _ _)
    · exact ((idle_setR _ _ _).trans (idle_capacity _ _ _)).trans (idle_tx _ _ _)
  · exact Idle.refl _
theorem idle_queueDelivery (st : St) (r : Nat) : Idle st (queueDelivery st r) := by
  unfold queueDelivery
  dsimp only
  split
  · split
    · exact ⟨rfl, rfl, rfl, rfl, fun h => h, rfl, rfl, rfl, rfl, rfl, rfl⟩
    · exact idle_setR _ _ _
  · exact Idle.refl _
theorem idle_pause (st : St) (r : Nat) (y : Bool) : Idle st (pause st r y) := by
  unfold pause
  dsimp only
  split
  · exact idle_setR _ _ _
  · split
    · exact ((idle_setR _ _ _).trans (idle_queueDelivery _ _)).trans (idle_queueAck _ _ _)
    · exact (idle_setR _ _ _).trans (idle_queueDelivery _ _)
theorem idle_sendAck (st : St) (r : Nat) : Idle st (sendAck st r) := by
  unfold sendAck
  dsimp only
  split
  · exact Idle.refl _
  · split
    · exact ((((idle_setR _ _ _).trans (idle_tx _ _ _)).trans (idle_setR _ _ _)).trans (idle_tx _ _ _)).trans (idle_setR _ _ _)
    · exact ((idle_setR _ _ _).trans (idle_tx _ _ _)).trans (idle_setR _ _ _)
theorem idle_foldl {α : Type} (g : St → α → St) (hg : ∀ st a, Idle st (g st a)) : ∀ (l : List α) (st : St), Idle st (l.foldl g st)
  | [], _ => Idle.refl _
  | a :: l, st => (hg st a).trans (idle_foldl g hg l _)
theorem idle_sendAcks (st : St) : Idle st (sendAcks st) := by
  unfold sendAcks
  refine Idle.trans (b := { st with ackNow := false }) ⟨rfl, rfl, rfl, rfl, fun h => h, rfl, rfl, rfl, rfl, rfl, rfl⟩ ?_
  refine (idle_foldl sendAck idle_sendAck st.ackFlows { st with ackNow := false }).trans ⟨rfl, rfl, rfl, rfl, fun h => h, rfl, rfl, rfl, rfl, rfl, rfl⟩
theorem idle_ackIfNeeded (st : St) : Idle st (ackIfNeeded st) := by
  unfold ackIfNeeded
  split
  · exact (idle_scheduleAck st).trans ⟨rfl, rfl, rfl, rfl, fun h => h, rfl, rfl, rfl, rfl, rfl, rfl⟩
  · exact Idle.refl _
theorem idle_onAbandon (st : St) (r n : Nat) : Idle st (onAbandon st r n) := by
  unfold onAbandon
  exact (idle_setR _ _ _).trans (idle_queueAck _ _ _)
theorem idle_onClose (st : St) (r : Nat) : Idle st (onClose st r) := by
  unfold onClose
  exact (((idle_setR _ _ _).trans (idle_onAbandon _ _ _)).trans (idle_queueDelivery _ _)).trans (idle_queueAck _ _ _)
theorem idle_onData (st : St) (r : Nat) (more : Bool) (b : Bytes) (n : Nat) : Idle st (onData st r more b n) := by
  unfold onData
  dsimp only
  refine Idle.trans ?_ (idle_queueAck _ _ _)
  split
  · exact idle_setR _ _ _
  · exact (idle_setR _ _ _).trans (idle_queueDelivery _ _)
theorem idle_newR (st : St) (id : Nat) (b : Bytes) : Idle st (newR st id b) := ⟨rfl, rfl, rfl, rfl, fun h => h, rfl, rfl, rfl, rfl, rfl, rfl⟩
theorem idle_startRTT (st : St) (p : Bool) : Idle st (startRTT st p) := by
  unfold startRTT; split
  · exact idle_tx _ _ _
  · exact Idle.refl _

theorem schedule_send (st : St) (h : st.up = true) : (schedule st).sendNow = true := by
  unfold schedule
  cases hs : st.sendNow <;> simp [h, hs]

theorem queueTx_enq (st : St) (s : Nat) (h : st.up = true) : Enq (queueTx st s) s ∧ (queueTx st s).sendNow = true ∧ (queueTx st s).up = true := by
  unfold queueTx
  by_cases hm : s ∈ st.work (st.S s).pri
  · rw [if_neg (by simp [hm])]
    refine ⟨?_, schedule_send _ h, by rw [(idle_schedule _).up]; exact h⟩
    unfold Enq
    rw [(idle_schedule _).work, (idle_schedule _).S]; exact hm
  · rw [if_pos (by simp [hm, h])]
    refine ⟨?_, schedule_send _ h, by rw [(idle_schedule _).up]; exact h⟩
    unfold Enq
    rw [(idle_schedule _).work, (idle_schedule _).S]; simp

theorem keepq_queueTx (st : St) (s : Nat) : KeepQ st (queueTx st s) := by
  unfold queueTx
  refine KeepQ.trans ?_ (idle_schedule _).keepq
  split
  · refine ⟨fun h => h, fun _ t _ e => ?_, fun _ h => h, Nat.le_refl _⟩
    unfold Enq at e ⊢
    dsimp only
    split
    · exact List.mem_append_left _ e
    · exact e
  · exact KeepQ.refl _

theorem queueTx_more (st : St) (s : Nat) : (queueTx st s).chunk = st.chunk ∧ (queueTx st s).sIds = st.sIds ∧
    ∀ p t, t ∈ (queueTx st s).work p → t ∈ st.work p ∨ t = s := by
  unfold queueTx
  rw [(idle_schedule _).chunk, (idle_schedule _).sIds, (idle_schedule _).work]
  split
  · refine ⟨rfl, rfl, fun p t h => ?_⟩
    dsimp only at h
    split at h
    · simpa using h
    · exact Or.inl h
  · exact ⟨rfl, rfl, fun _ _ h => Or.inl h⟩

theorem queueTx_SnS (st : St) (s : Nat) : (queueTx st s).S = st.S ∧ (queueTx st s).nS = st.nS ∧ (queueTx st s).up = st.up := by
  have := same_queueTx st s
  exact ⟨this.S, this.nS, this.up⟩

/-- A flow is put in the queue: it needs no exemption any more. -/
theorem live_queueTx_any {X : Nat → Prop} {st : St} {s : Nat} (hs : s < st.nS) (k1 : 0 < st.chunk) (k2 : ∀ p ∈ st.sIds, p.2 < st.nS)
    (k3 : ∀ p t, t ∈ st.work p → t < st.nS) (k4 : ∀ t, t < st.nS → (st.S t).pri < 8)
    (k5 : st.up = true → ∀ t, t < st.nS → ¬ (X t ∨ t = s) → Busy st t → Enq st t) : Live X (queueTx st s) := by
  obtain ⟨e1, e2, e3⟩ := queueTx_SnS st s
  have kq := keepq_queueTx st s
  obtain ⟨c1, c2, c3⟩ := queueTx_more st s
  refine ⟨by rw [c1]; exact k1, by rw [c2, e2]; exact k2, fun p t h => ?_, by rw [e1, e2]; exact k4, ?_, ?_⟩
  · rw [e2]
    rcases c3 p t h with a | a
    · exact k3 p t a
    · rw [a]; exact hs
  · intro hu t ht hx hb
    rw [e3] at hu
    by_cases h : t = s
    · subst h; exact (queueTx_enq st t hu).1
    · refine kq.enq (by rw [e3]; exact hu) t (by omega) (k5 hu t (by omega) (fun h' => h'.elim hx h) ?_)
      unfold Busy at hb ⊢
      rw [e1] at hb; exact hb
  · intro hu hs
    rw [e3] at hu
    rw [(queueTx_enq st s hu).2.1] at hs; simp at hs

theorem live_queueTx {X : Nat → Prop} {st : St} {s : Nat} (hs : s < st.nS) (k : Live (fun t => X t ∨ t = s) st) : Live X (queueTx st s) :=
  live_queueTx_any hs k.chunk k.tab k.inw k.pri k.work

theorem Live.more {X Y : Nat → Prop} {st : St} (k : Live X st) (h : ∀ s, X s → Y s) : Live Y st :=
  ⟨k.chunk, k.tab, k.inw, k.pri, fun hu s hs hy => k.work hu s hs (fun hx => hy (h s hx)), fun hu hs => (k.sched hu hs).imp (fun a s hs hy => a s hs (fun hx => hy (h s hx))) id⟩

/-- One flow changes; it is exempt then. -/
theorem Live.one {X : Nat → Prop} {st : St} (k : Live X st) (s : Nat) (f : SFlow) (hp : s < st.nS → f.pri < 8) : Live (fun t => X t ∨ t = s) (setS st s f) := by
  have hS : ∀ t, t ≠ s → (setS st s f).S t = st.S t := fun t h => by simp [setS, h]
  have hB : ∀ t, t ≠ s → Busy (setS st s f) t → Busy st t := fun t h hb => by unfold Busy at hb ⊢; rw [hS t h] at hb; exact hb
  refine ⟨k.chunk, k.tab, k.inw, ?_, ?_, ?_⟩
  · intro t ht
    by_cases h : t = s
    · subst h; simpa [setS] using hp ht
    · rw [hS t h]; exact k.pri t ht
  · intro hu t ht hx hb
    have h : t ≠ s := fun h => hx (Or.inr h)
    have := k.work hu t ht (fun h' => hx (Or.inl h')) (hB t h hb)
    unfold Enq at this ⊢
    rw [hS t h]; exact this
  · intro hu hs
    rcases k.sched hu hs with a | a
    · refine Or.inl (fun t ht hx hb => ?_)
      have h : t ≠ s := fun h => hx (Or.inr h)
      exact a t ht (fun h' => hx (Or.inl h')) (hB t h hb)
    · exact Or.inr a

/-- The flow is in the queue and a transmission is asked for: it needs no exemption. -/
theorem Live.restore {X : Nat → Prop} {st : St} {s : Nat} (k : Live (fun t => X t ∨ t = s) st) (h : st.up = true → Enq st s ∧ st.sendNow = true) : Live X st := by
  refine ⟨k.chunk, k.tab, k.inw, k.pri, ?_, ?_⟩
  · intro hu t ht hx hb
    by_cases h' : t = s
    · subst h'; exact (h hu).1
    · exact k.work hu t ht (fun a => a.elim hx h') hb
  · intro hu hs
    rw [(h hu).2] at hs; simp at hs

theorem enq_setS (st : St) (s : Nat) (f : SFlow) (hp : f.pri = (st.S s).pri) (t : Nat) : Enq (setS st s f) t ↔ Enq st t := by
  unfold Enq
  by_cases h : t = s
  · subst h; simp [setS, hp]
  · simp [setS, h]

theorem keepq_setS (st : St) (s : Nat) (f : SFlow) (hp : f.pri = (st.S s).pri) : KeepQ st (setS st s f) :=
  ⟨fun h => h, fun _ t _ e => (enq_setS st s f hp t).mpr e, fun _ h => h, Nat.le_refl _⟩

theorem live_openFlow {X : Nat → Prop} {st : St} (k : Live X st) (id : Nat) (ret : Option Nat) (about : Bytes) (pri : Nat) (hp : pri < 8) :
    Live X (openFlow st id ret about pri) ∧ KeepQ st (openFlow st id ret about pri) := by
  unfold openFlow
  split
  · dsimp only
    rw [Nat.add_sub_cancel]
    have hS : ∀ (t : Nat) (f : SFlow), t < st.nS → (setS st st.nS f).S t = st.S t := fun t f h => by
      have : t ≠ st.nS := by omega
      simp [setS, this]
    constructor
    · refine live_queueTx (Nat.lt_succ_self _) ⟨k.chunk, ?_, ?_, ?_, ?_, ?_⟩
      · intro p hp'
        rcases List.mem_append.mp hp' with a | a
        · exact Nat.lt_succ_of_lt (k.tab p a)
        · rw [List.mem_singleton.mp a]; exact Nat.lt_succ_self _
      · intro p t h
        exact Nat.lt_succ_of_lt (k.inw p t h)
      · intro t ht
        by_cases h : t = st.nS
        · subst h; simpa [setS] using hp
        · have h1 : t < st.nS := by have : t < st.nS + 1 := ht; omega
          show ((setS st st.nS _).S t).pri < 8
          rw [hS t _ h1]; exact k.pri t h1
      · intro hu t ht hx hb
        have h : t ≠ st.nS := fun h => hx (Or.inr h)
        have h1 : t < st.nS := by have : t < st.nS + 1 := ht; omega
        have hb' : Busy st t := by
          unfold Busy at hb ⊢
          have e : ∀ f l, ({ setS st st.nS f with nS := st.nS + 1, sIds := l } : St).S t = st.S t := fun f l => hS t f h1
          rw [e] at hb; exact hb
        have := k.work hu t h1 (fun h' => hx (Or.inl h')) hb'
        unfold Enq at this ⊢
        show t ∈ st.work ((setS st st.nS _).S t).pri
        rw [hS t _ h1]; exact this
      · intro hu hs
        rcases k.sched hu hs with a | a
        · refine Or.inl (fun t ht hx hb => ?_)
          have h : t ≠ st.nS := fun h => hx (Or.inr h)
          have h1 : t < st.nS := by have : t < st.nS + 1 := ht; omega
          refine a t h1 (fun h' => hx (Or.inl h')) ?_
          unfold Busy at hb ⊢
          have e : ∀ f l, ({ setS st st.nS f with nS := st.nS + 1, sIds := l } : St).S t = st.S t := fun f l => hS t f h1
          rw [e] at hb; exact hb
        · exact Or.inr a
    · refine KeepQ.trans ?_ (keepq_queueTx _ _)
      refine ⟨fun h => h, fun _ t ht e => ?_, fun _ h => h, Nat.le_succ _⟩
      unfold Enq at e ⊢
      show t ∈ st.work ((setS st st.nS _).S t).pri
      rw [hS t _ ht]; exact e
  · exact ⟨k, KeepQ.refl _⟩

theorem Live.wild {X : Nat → Prop} {st : St} (k : Live X st) (w : Bool) : Live X { st with wild := w } :=
  Idle.live (a := st) ⟨rfl, rfl, rfl, rfl, fun h => h, rfl, rfl, rfl, rfl, rfl, rfl⟩ k

theorem live_write {X : Nat → Prop} {st : St} (k : Live X st) (s : Nat) (b : Bytes) : Live X (write st s b) ∧ KeepQ st (write st s b) := by
  unfold write
  dsimp only
  split
  · rename_i h
    simp only [Bool.and_eq_true, decide_eq_true_eq] at h
    have i1 : ∀ w, Idle st { st with wild := w } := fun w => ⟨rfl, rfl, rfl, rfl, fun h => h, rfl, rfl, rfl, rfl, rfl, rfl⟩
    constructor
    · refine live_queueTx h.1 ((idle_note _ _).live ?_)
      exact ((i1 _).live k).one s _ (fun _ => k.pri s h.1)
    · refine KeepQ.trans ?_ (keepq_queueTx _ _)
      refine KeepQ.trans ?_ (idle_note _ _).keepq
      exact (i1 _).keepq.trans (keepq_setS _ _ _ rfl)
  · exact ⟨k, KeepQ.refl _⟩

theorem live_closeS {X : Nat → Prop} {st : St} (k : Live X st) (s : Nat) : Live X (closeS st s) ∧ KeepQ st (closeS st s) := by
  unfold closeS
  split
  · rename_i h
    simp only [Bool.and_eq_true, decide_eq_true_eq] at h
    exact ⟨live_queueTx h.1 (k.one s { st.S s with up := false } (fun _ => k.pri s h.1)), (keepq_setS st s { st.S s with up := false } rfl).trans (keepq_queueTx _ _)⟩
  · exact ⟨k, KeepQ.refl _⟩

theorem live_setPriority {X : Nat → Prop} {st : St} (k : Live X st) (s p : Nat) : Live X (setPriority st s p) ∧ KeepQ st (setPriority st s p) := by
  unfold setPriority
  split
  · rename_i h
    refine ⟨live_queueTx h.1 (k.one s { st.S s with pri := p } (fun _ => h.2.1)), ?_⟩
    refine ⟨fun hu => by rw [(queueTx_SnS _ _).2.2] at hu; exact hu, fun hu t ht e => ?_, fun hu _ => ?_, by rw [(queueTx_SnS _ _).2.1]; exact Nat.le_refl _⟩
    · rw [(queueTx_SnS _ _).2.2] at hu
      by_cases ht' : t = s
      · subst ht'; exact (queueTx_enq _ _ hu).1
      · refine (keepq_queueTx _ s).enq (by rw [(queueTx_SnS _ _).2.2]; exact hu) t ht ?_
        unfold Enq at e ⊢
        simpa [setS, ht'] using e
    · rw [(queueTx_SnS _ _).2.2] at hu
      exact (queueTx_enq _ _ hu).2.1
  · exact ⟨k, KeepQ.refl _⟩


/-- What leaves the numbers of the flows and their priorities as they were. -/
structure Kin (a b : St) : Prop where
  nS : b.nS = a.nS
  pri : ∀ s, (b.S s).pri = (a.S s).pri
  up : b.up = a.up
  chunk : b.chunk = a.chunk
  sIds : b.sIds = a.sIds

theorem Kin.refl (a : St) : Kin a a := ⟨rfl, fun _ => rfl, rfl, rfl, rfl⟩
theorem Kin.trans {a b c : St} (h : Kin a b) (k : Kin b c) : Kin a c :=
  ⟨k.nS.trans h.nS, fun s => (k.pri s).trans (h.pri s), k.up.trans h.up, k.chunk.trans h.chunk, k.sIds.trans h.sIds⟩
theorem Idle.kin {a b : St} (h : Idle a b) : Kin a b := ⟨h.nS, fun s => by rw [h.S], h.up, h.chunk, h.sIds⟩

theorem kin_setS (st : St) (s : Nat) (f : SFlow) (hp : f.pri = (st.S s).pri) : Kin st (setS st s f) :=
  ⟨rfl, fun t => by by_cases h : t = s
                    · subst h; simp [setS, hp]
                    · simp [setS, h], rfl, rfl, rfl⟩

theorem kin_dropAll : ∀ (n : Nat) (st : St) (s : Nat), Kin st (dropAll n st s)
  | 0, st, s => Kin.refl _
  | n + 1, st, s => by
    unfold dropAll
    dsimp only
    split
    · exact Kin.refl _
    · split
      · exact Kin.refl _
      · rename_i m rest hb hf
        exact ((idle_note st (.dropped s m.num)).kin.trans (kin_setS _ s { st.S s with buf := rest, lost := (st.S s).lost + 1 } rfl)).trans (kin_dropAll n _ s)

theorem kin_endS (st : St) (s : Nat) : Kin st (endS st s) := by
  unfold endS
  dsimp only
  split
  · exact ((kin_setS st s { st.S s with exc := true, up := false } rfl).trans (idle_note _ _).kin).trans (kin_dropAll _ _ _)
  · exact Kin.refl _

theorem idle_endQuietly (st : St) (r : Nat) : Idle st (endQuietly st r) := by
  unfold endQuietly
  dsimp only
  refine Idle.trans ?_ (idle_closeR _ _ _ _)
  split
  · exact Idle.refl _
  · split
    · exact (idle_setR _ _ _).trans (idle_note _ _)
    · exact idle_setR _ _ _

theorem idle_endR (st : St) (r : Nat) : Idle st (endR st r) := by
  unfold endR
  split
  · exact (idle_onClose _ _).trans (idle_endQuietly _ _)
  · exact Idle.refl _

theorem kin_foldl {α : Type} (g : St → α → St) (hg : ∀ st a, Kin st (g st a)) : ∀ (l : List α) (st : St), Kin st (l.foldl g st)
  | [], _ => Kin.refl _
  | a :: l, st => (hg st a).trans (kin_foldl g hg l _)

theorem live_close {X : Nat → Prop} {st : St} (k : Live X st) : Live X (close st) ∧ KeepQ st (close st) := by
  unfold close
  split
  · exact ⟨k, KeepQ.refl _⟩
  · split
    · exact ⟨k.wild true, (Idle.keepq (a := st) ⟨rfl, rfl, rfl, rfl, fun h => h, rfl, rfl, rfl, rfl, rfl, rfl⟩)⟩
    · dsimp only
      have k1 := kin_foldl (fun st p => endS st p.2) (fun st p => kin_endS st p.2) st.sIds { st with up := false, userUp := false, sIds := [] }
      generalize st.sIds.foldl (fun st p => endS st p.2) { st with up := false, userUp := false, sIds := [] } = u at k1 ⊢
      have k2 := idle_foldl (fun (st : St) (p : Nat × Nat) => endR st p.2) (fun st p => idle_endR st p.2) u.rIds { u with rIds := [] }
      generalize u.rIds.foldl (fun st p => endR st p.2) { u with rIds := [] } = v at k2 ⊢
      have hu : v.up = false := k2.up.trans k1.up
      have hn : v.nS = st.nS := k2.nS.trans k1.nS
      have hi : v.sIds = [] := k2.sIds.trans k1.sIds
      refine ⟨⟨?_, ?_, ?_, ?_, ?_, ?_⟩, ⟨?_, ?_, ?_, ?_⟩⟩
      · show 0 < v.chunk
        have : v.chunk = st.chunk := k2.chunk.trans k1.chunk
        rw [this]; exact k.chunk
      · intro p hp
        have : p ∈ v.sIds := hp
        simp [hi] at this
      · intro p s h; simp at h
      · intro s hs
        have h1 : s < st.nS := by rw [← hn]; exact hs
        have h2 : (v.S s).pri = (st.S s).pri := by rw [k2.S]; exact k1.pri s
        show (v.S s).pri < 8
        rw [h2]; exact k.pri s h1
      · intro h; have : v.up = true := h
        simp [hu] at this
      · intro h; have : v.up = true := h
        simp [hu] at this
      · intro h; have : v.up = true := h
        simp [hu] at this
      · intro h; have : v.up = true := h
        simp [hu] at this
      · intro h; have : v.up = true := h
        simp [hu] at this
      · show st.nS ≤ v.nS
        rw [hn]; exact Nat.le_refl _

theorem live_call {X : Nat → Prop} {st : St} (k : Live X st) (c : Call) : Live X (call st c) ∧ KeepQ st (call st c) := by
  have idle : ∀ {b : St}, Idle st b → Live X b ∧ KeepQ st b := fun h => ⟨h.live k, h.keepq⟩
  cases c <;> simp only [call]
  · split
    · rename_i h; exact live_openFlow k _ _ _ _ h
    · exact ⟨k, KeepQ.refl _⟩
  · split
    · rename_i h
      simp only [Bool.and_eq_true, decide_eq_true_eq] at h
      exact live_openFlow k _ _ _ _ h.2
    · exact ⟨k, KeepQ.refl _⟩
  · exact live_write k _ _
  · exact live_closeS k _
  · exact live_setPriority k _ _
  · exact idle (idle_accept _ _)
  · split
    · exact idle (idle_closeR _ _ _ _)
    · exact ⟨k, KeepQ.refl _⟩
  · split
    · exact idle (idle_capacity _ _ _)
    · exact ⟨k, KeepQ.refl _⟩
  · split
    · exact idle (idle_pause _ _ _)
    · exact ⟨k, KeepQ.refl _⟩
  · exact live_close k

theorem live_calls {X : Nat → Prop} : ∀ (cs : List Call) {st : St}, Live X st → Live X (cs.foldl call st) ∧ KeepQ st (cs.foldl call st)
  | [], _, k => ⟨k, KeepQ.refl _⟩
  | c :: cs, _, k =>
    have h := live_call k c
    have h' := live_calls cs h.1
    ⟨h'.1, h.2.trans h'.2⟩

theorem live_tell {X : Nat → Prop} (app : App) {st : St} (k : Live X st) (e : Ev) : Live X (tell app st e) ∧ KeepQ st (tell app st e) := by
  unfold tell
  have h := live_calls (app.react (note st e).log) ((idle_note st e).live k)
  exact ⟨h.1, (idle_note st e).keepq.trans h.2⟩

theorem Live.dup {X : Nat → Prop} {st : St} {s : Nat} (k : Live (fun t => (X t ∨ t = s) ∨ t = s) st) : Live (fun t => X t ∨ t = s) st :=
  k.more (fun _ h => h.elim id Or.inr)

theorem live_trimLoop {X : Nat → Prop} (app : App) (s : Nat) : ∀ (n : Nat) {st : St}, Live (fun t => X t ∨ t = s) st →
    Live (fun t => X t ∨ t = s) (trimLoop app n st s) ∧ KeepQ st (trimLoop app n st s)
  | 0, _, k => ⟨k, KeepQ.refl _⟩
  | n + 1, st, k => by
    unfold trimLoop
    split
    · exact ⟨k, KeepQ.refl _⟩
    · rename_i m rest hb
      dsimp only
      have i1 : Idle st { st with trimming := .some s } := ⟨rfl, rfl, rfl, rfl, fun h => h, rfl, rfl, rfl, rfl, rfl, rfl⟩
      have h := live_tell app (i1.live k) (.dropped s m.num)
      generalize tell app { st with trimming := .some s } (.dropped s m.num) = u at h ⊢
      have i2 : Idle u { u with trimming := .none } := ⟨rfl, rfl, rfl, rfl, fun h => h, rfl, rfl, rfl, rfl, rfl, rfl⟩
      have l2 := ((i2.live h.1).one s { u.S s with buf := (u.S s).buf.tail, lost := (u.S s).lost + 1 } (fun hs => h.1.pri s hs)).dup
      have l3 := live_trimLoop app s n l2
      exact ⟨l3.1, ((i1.keepq.trans h.2).trans (i2.keepq.trans (keepq_setS _ s { u.S s with buf := (u.S s).buf.tail, lost := (u.S s).lost + 1 } rfl))).trans l3.2⟩

/-- Trimming that drops anything leaves something to report. -/
theorem trimLoop_lost (app : App) (s : Nat) : ∀ (n : Nat) (st : St), trimLoop app n st s = st ∨ 0 < ((trimLoop app n st s).S s).lost
  | 0, _ => Or.inl rfl
  | n + 1, st => by
    unfold trimLoop
    split
    · exact Or.inl rfl
    · rename_i m rest hb
      dsimp only
      refine Or.inr ?_
      generalize tell app { st with trimming := .some s } (.dropped s m.num) = u
      rcases trimLoop_lost app s n (setS { u with trimming := .none } s { u.S s with buf := (u.S s).buf.tail, lost := (u.S s).lost + 1 }) with e | e
      · rw [e]; simp [setS]
      · exact e

/-- A flow that sends nothing doesn't change a thing, and has nothing to send. -/
theorem transmitS_no (app : App) (st : St) (s pri exp : Nat) (hc : 0 < st.chunk) (h : (transmitS app st s pri exp).2 = false) :
    (transmitS app st s pri exp).1 = st ∧ ((st.S s).pri = pri → ¬ Busy st s) := by
  unfold transmitS at h ⊢
  by_cases hp : pri ≠ (st.S s).pri
  · rw [if_pos hp] at h ⊢
    exact ⟨rfl, fun e => absurd e.symm hp⟩
  rw [if_neg hp] at h ⊢
  cases ho : (st.S s).opening with
  | some m => rw [ho] at h; simp at h
  | none =>
    rw [ho] at h
    dsimp only at h ⊢
    have ht := trimLoop_lost app s (if (st.S s).exc then (st.S s).buf.length else exp) st
    rw [← trim] at ht
    by_cases hl : 0 < ((trim app st s exp).S s).lost
    · rw [if_pos hl] at h; simp at h
    rw [if_neg hl] at h ⊢
    have e : trim app st s exp = st := ht.resolve_right hl
    rw [e] at h hl ⊢
    by_cases hs : (!(st.S s).up && (st.S s).buf.isEmpty && !(st.S s).shut) = true
    · rw [if_pos hs] at h; simp at h
    rw [if_neg hs] at h ⊢
    have hq : ¬ ((st.S s).up = false ∧ (st.S s).buf = [] ∧ (st.S s).shut = false) := fun a => hs (by simp [a.1, a.2.1, a.2.2])
    by_cases hw : (st.S s).through ≤ (st.S s).sent
    · rw [if_pos hw]
      refine ⟨rfl, fun _ hb => ?_⟩
      rcases hb with a | a | a | a
      · simp [ho] at a
      · exact hl a
      · exact hq a
      · omega
    · rw [if_neg hw] at h ⊢
      unfold fragment at h ⊢
      dsimp only at h ⊢
      cases hb : (st.S s).buf with
      | nil =>
        rw [hb] at h
        refine ⟨by simp, fun _ hb' => ?_⟩
        rcases hb' with a | a | a | a
        · simp [ho] at a
        · exact hl a
        · exact hq a
        · exact a.1 hb
      | cons m rest =>
        rw [hb] at h
        dsimp only at h
        have hz : ¬ min (2 ^ 20) (min st.chunk ((st.S s).through - (st.S s).sent)) = 0 := by omega
        rw [if_neg hz] at h
        split at h <;> simp at h

theorem idle_sent (st : St) (n : Nat) {X : Nat → Prop} (hn : st.up = true → st.sendNow = true) (k : Live X st) : Live X { st with bytesSent := st.bytesSent + n } :=
  ⟨k.chunk, k.tab, k.inw, k.pri, k.work, fun hu hs => by
    have : st.sendNow = false := hs
    simp [hn hu] at this⟩

theorem live_fragment {X : Nat → Prop} (app : App) {st : St} (s : Nat) (hn : st.up = true → st.sendNow = true) (k : Live (fun t => X t ∨ t = s) st) :
    Live (fun t => X t ∨ t = s) (fragment app st s).1 ∧ KeepQ st (fragment app st s).1 := by
  unfold fragment
  dsimp only
  split
  · exact ⟨k, KeepQ.refl _⟩
  · rename_i m rest hb
    split
    · exact ⟨k, KeepQ.refl _⟩
    · generalize Msg.data (st.S s).id (!decide (m.bytes.length ≤ m.off + min (2 ^ 20) (min st.chunk ((st.S s).through - (st.S s).sent))))
        (List.take (min (2 ^ 20) (min st.chunk ((st.S s).through - (st.S s).sent))) (List.drop m.off m.bytes)) = msg
      have i1 := idle_tx st (.s s) msg
      have hn1 : (tx st (.s s) msg).up = true → (tx st (.s s) msg).sendNow = true := by
        intro hup
        cases h : (tx st (.s s) msg).sendNow
        · have := i1.send h; simp [hn (by rw [← i1.up]; exact hup)] at this
        · rfl
      have l1 := idle_sent _ msg.encode.length hn1 (i1.live k)
      have q1 : KeepQ st { tx st (.s s) msg with bytesSent := (tx st (.s s) msg).bytesSent + msg.encode.length } :=
        i1.keepq.trans ⟨fun h => h, fun _ _ _ h => h, fun _ h => h, Nat.le_refl _⟩
      have hS : (tx st (.s s) msg).S s = st.S s := by rw [i1.S]
      generalize hu : ({ tx st (.s s) msg with bytesSent := (tx st (.s s) msg).bytesSent + msg.encode.length } : St) = u at l1 q1 ⊢
      have hS' : (u.S s).pri = (st.S s).pri := by rw [← hu]; exact congrArg SFlow.pri hS
      split
      · generalize hf : ({ st.S s with sent := (st.S s).sent + msg.encode.length, buf := { m with off := m.bytes.length, fin := true } :: rest } : SFlow) = f
        have hfp : f.pri = (st.S s).pri := by rw [← hf]
        have l2 := (l1.one s f (fun hs => by rw [hfp, ← hS']; exact l1.pri s hs)).dup
        have l3 := live_tell app l2 (.done s m.num)
        have l4 := (l3.1.one s { (tell app (setS u s f) (.done s m.num)).S s with buf := ((tell app (setS u s f) (.done s m.num)).S s).buf.tail }
          (fun hs => l3.1.pri s hs)).dup
        refine ⟨l4, ?_⟩
        exact ((q1.trans (keepq_setS _ _ _ (hfp.trans hS'.symm))).trans l3.2).trans (keepq_setS _ _ _ rfl)
      · generalize hf : ({ st.S s with sent := (st.S s).sent + msg.encode.length, buf := { m with off := m.off + _ } :: rest } : SFlow) = f
        have hfp : f.pri = (st.S s).pri := by rw [← hf]
        have l2 := (l1.one s f (fun hs => by rw [hfp, ← hS']; exact l1.pri s hs)).dup
        exact ⟨l2, q1.trans (keepq_setS _ _ _ (hfp.trans hS'.symm))⟩

/-- No flow is exempt. -/
def nobody : Nat → Prop := fun _ => False

theorem live_transmitS (app : App) {st : St} (s pri exp : Nat) (hs : s < st.nS) (hu : st.up = true) (hn : st.sendNow = true) (he : s ∈ st.work pri)
    (k : Live nobody st) : Live nobody (transmitS app st s pri exp).1 ∧ KeepQ st (transmitS app st s pri exp).1 := by
  unfold transmitS
  by_cases hp : pri ≠ (st.S s).pri
  · rw [if_pos hp]; exact ⟨k, KeepQ.refl _⟩
  rw [if_neg hp]
  have henq : Enq st s := by
    unfold Enq; rw [← Decidable.not_not.mp hp]; exact he
  have kx : Live (fun t => nobody t ∨ t = s) st := k.more (fun _ h => Or.inl h)
  have fin : ∀ {b : St}, Live (fun t => nobody t ∨ t = s) b → KeepQ st b → Live nobody b ∧ KeepQ st b := fun l q =>
    ⟨l.restore (fun hb => ⟨q.enq hb s hs henq, q.send hb hn⟩), q⟩
  cases ho : (st.S s).opening with
  | some m =>
    dsimp only
    have i1 := idle_tx st (.s s) m
    have hfp : ({ st.S s with opening := .none } : SFlow).pri = ((tx st (.s s) m).S s).pri := by rw [i1.S]
    exact fin ((i1.live kx).one s { st.S s with opening := .none } (fun _ => k.pri s hs)).dup (i1.keepq.trans (keepq_setS _ _ _ hfp))
  | none =>
    dsimp only
    have l1 := live_trimLoop app s (if (st.S s).exc then (st.S s).buf.length else exp) kx
    rw [← trim] at l1
    generalize trim app st s exp = u at l1 ⊢
    have lone : ∀ (msg : Msg) (f : SFlow), f.pri = (u.S s).pri → Live nobody (setS (tx u (.s s) msg) s f) ∧ KeepQ st (setS (tx u (.s s) msg) s f) := by
      intro msg f hf
      have i1 := idle_tx u (.s s) msg
      refine fin ((i1.live l1.1).one s f (fun h => ?_)).dup ((l1.2.trans i1.keepq).trans (keepq_setS _ _ _ (by rw [i1.S]; exact hf)))
      rw [hf]; exact l1.1.pri s (by rw [← i1.nS]; exact h)
    split
    · exact lone _ _ rfl
    · split
      · exact lone _ _ rfl
      · split
        · exact fin l1.1 l1.2
        · have l2 := live_fragment app s (fun huu => l1.2.send huu hn) l1.1
          exact fin l2.1 (l1.2.trans l2.2)

/-- A flow is taken from a queue when it has nothing to send. -/
theorem live_erase {st : St} {s pri : Nat} (k : Live nobody st) (h : (st.S s).pri = pri → ¬ Busy st s) (hn : st.sendNow = true) :
    Live nobody { st with work := fun p => if p = pri then (st.work p).erase s else st.work p } := by
  refine ⟨k.chunk, k.tab, ?_, k.pri, ?_, ?_⟩
  · intro p t ht
    dsimp only at ht
    split at ht
    · exact k.inw p t (List.mem_of_mem_erase ht)
    · exact k.inw p t ht
  · intro hu t ht hx hb
    have hb' : Busy st t := hb
    have := k.work hu t ht hx hb'
    unfold Enq at this ⊢
    dsimp only
    split
    · rename_i hp
      have hts : t ≠ s := fun e => by subst e; exact h hp hb'
      exact (List.mem_erase_of_ne hts).mpr this
    · exact this
  · intro hu hs
    have : st.sendNow = false := hs
    simp [hn] at this

theorem live_rotate {st : St} {s pri : Nat} (k : Live nobody st) (hm : s ∈ st.work pri) :
    Live nobody { st with work := fun p => if p = pri then (st.work p).erase s ++ [s] else st.work p } := by
  refine ⟨k.chunk, k.tab, ?_, k.pri, ?_, k.sched⟩
  · intro p t ht
    dsimp only at ht
    split at ht
    · rename_i hp
      subst hp
      rcases List.mem_append.mp ht with a | a
      · exact k.inw p t (List.mem_of_mem_erase a)
      · rw [List.mem_singleton.mp a]; exact k.inw p s hm
    · exact k.inw p t ht
  · intro hu t ht hx hb
    have := k.work hu t ht hx hb
    unfold Enq at this ⊢
    dsimp only
    split
    · by_cases hts : t = s
      · subst hts; simp
      · exact List.mem_append_left _ ((List.mem_erase_of_ne hts).mpr this)
    · exact this

/-- What a failed round leaves behind: the queues it tried are empty, and nothing else has changed. -/
structure Drained (a b : St) : Prop where
  same : b = { a with work := b.work }
  sub : ∀ p, a.work p = [] → b.work p = []

theorem live_tryPri (app : App) (exp : Nat → Nat) (probe : Bool) (pri : Nat) : ∀ (n : Nat) {st : St}, (st.work pri).length ≤ n → st.up = true → st.sendNow = true →
    Live nobody st → Live nobody (tryPri app exp probe n st pri).1 ∧
      ((tryPri app exp probe n st pri).2 = false → Drained st (tryPri app exp probe n st pri).1 ∧ (tryPri app exp probe n st pri).1.work pri = [])
  | 0, st, hl, _, _, k => ⟨k, fun _ => ⟨⟨rfl, fun _ h => h⟩, List.length_eq_zero_iff.mp (by simpa [tryPri] using hl)⟩⟩
  | n + 1, st, hl, hu, hn, k => by
    unfold tryPri
    cases hw : st.work pri with
    | nil => exact ⟨k, fun _ => ⟨⟨rfl, fun _ h => h⟩, hw⟩⟩
    | cons s ws =>
      dsimp only
      have hm : s ∈ st.work pri := by rw [hw]; exact List.mem_cons_self
      have l1 := live_transmitS app s pri (exp s) (k.inw pri s hm) hu hn hm k
      cases hr : (transmitS app st s pri (exp s)).2 with
      | true =>
        rw [if_pos rfl]
        refine ⟨?_, fun h => by simp at h⟩
        refine (idle_startRTT _ _).live ?_
        split
        · rename_i hm'; exact live_rotate l1.1 hm'
        · exact l1.1
      | false =>
        rw [if_neg (by simp)]
        obtain ⟨e, hb⟩ := transmitS_no app st s pri (exp s) k.chunk hr
        rw [e]
        have ih := live_tryPri app exp probe pri n (st := { st with work := fun p => if p = pri then (st.work p).erase s else st.work p })
          (by simp only [if_pos]; rw [hw]; rw [hw] at hl; simpa using hl) hu hn (live_erase k hb hn)
        refine ⟨ih.1, fun h => ?_⟩
        obtain ⟨d, hz⟩ := ih.2 h
        refine ⟨⟨?_, ?_⟩, hz⟩
        · exact d.same
        · intro p hp
          refine d.sub p ?_
          dsimp only
          split
          · rw [hp]; rfl
          · exact hp

theorem live_tryAll (app : App) (exp : Nat → Nat) (probe : Bool) : ∀ (n : Nat) {st : St}, st.up = true → st.sendNow = true → Live nobody st →
    Live nobody (tryAll app exp probe n st).1 ∧
      ((tryAll app exp probe n st).2 = false → Drained st (tryAll app exp probe n st).1 ∧ ∀ p, p < n → (tryAll app exp probe n st).1.work p = [])
  | 0, st, _, _, k => ⟨k, fun _ => ⟨⟨rfl, fun _ h => h⟩, fun p h => absurd h (Nat.not_lt_zero p)⟩⟩
  | n + 1, st, hu, hn, k => by
    unfold tryAll
    dsimp only
    have l1 := live_tryPri app exp probe n (st.work n).length (Nat.le_refl _) hu hn k
    cases hr : (tryPri app exp probe (st.work n).length st n).2 with
    | true =>
      rw [if_pos rfl]
      exact ⟨l1.1, fun h => by simp [hr] at h⟩
    | false =>
      rw [if_neg (by simp)]
      obtain ⟨d, hz⟩ := l1.2 hr
      generalize (tryPri app exp probe (st.work n).length st n).1 = u at l1 d hz ⊢
      have l2 := live_tryAll app exp probe n (st := u) (by rw [d.same]; exact hu) (by rw [d.same]; exact hn) l1.1
      refine ⟨l2.1, fun h => ?_⟩
      obtain ⟨d', hz'⟩ := l2.2 h
      generalize (tryAll app exp probe n u).1 = w at d' hz' ⊢
      refine ⟨⟨?_, fun p hp => d'.sub p (d.sub p hp)⟩, fun p hp => ?_⟩
      · have e1 : ({ u with work := w.work } : St) = { st with work := w.work } := by rw [d.same]
        exact d'.same.trans e1
      · by_cases hpn : p = n
        · subst hpn; exact d'.sub p hz
        · exact hz' p (by omega)

theorem live_transmit (app : App) (exp : Nat → Nat) (probe : Bool) {st : St} (k : Live nobody st) : Live nobody (transmit app exp probe st) := by
  unfold transmit
  split
  · exact k
  · rename_i h
    have hu : st.up = true := by cases h' : st.up <;> simp_all
    have hn : st.sendNow = true := by cases h' : st.sendNow <;> simp_all
    split
    · exact (idle_sendAcks st).live k
    · dsimp only
      by_cases hf : inFlight st < st.thresh
      · rw [if_pos hf]
        have l1 := live_tryAll app exp probe 8 hu hn k
        cases hr : (tryAll app exp probe 8 st).2 with
        | true => rw [if_pos rfl]; exact l1.1
        | false =>
          rw [if_neg (by simp)]
          obtain ⟨d, hz⟩ := l1.2 hr
          generalize (tryAll app exp probe 8 st).1 = u at l1 d hz ⊢
          refine ⟨l1.1.chunk, l1.1.tab, l1.1.inw, l1.1.pri, l1.1.work, fun hu' _ => Or.inl (fun s hs hx hb => ?_)⟩
          have := l1.1.work hu' s hs hx hb
          unfold Enq at this
          rw [hz _ (l1.1.pri s hs)] at this
          simp at this
      · rw [if_neg hf, if_neg (by simp)]
        exact ⟨k.chunk, k.tab, k.inw, k.pri, k.work, fun _ _ => Or.inr (Nat.le_of_not_lt hf)⟩

theorem live_deliverLoop (app : App) (r : Nat) : ∀ (n : Nat) {st : St}, Live nobody st → Live nobody (deliverLoop app n st r)
  | 0, _, k => k
  | n + 1, st, k => by
    unfold deliverLoop
    dsimp only
    split
    · exact k
    · split
      · exact k
      · exact live_deliverLoop app r n (live_tell app ((idle_setR st r _).live k) _).1

theorem live_endFlow (app : App) (r : Nat) {st : St} (k : Live nobody st) : Live nobody (endFlow app st r) := by
  unfold endFlow
  dsimp only
  refine (idle_closeR _ _ _ _).live ?_
  split
  · exact k
  · split
    · exact (live_tell app ((idle_setR st r _).live k) _).1
    · exact (idle_setR st r _).live k

theorem live_deliver (app : App) (r : Nat) {st : St} (k : Live nobody st) : Live nobody (deliver app st r) := by
  unfold deliver
  dsimp only
  have l1 := live_deliverLoop app r ((setR st r { st.R r with pending := false }).R r).buf.length ((idle_setR st r { st.R r with pending := false }).live k)
  split
  · exact live_endFlow app r l1
  · exact l1

theorem live_fail (app : App) {st : St} (k : Live nobody st) : Live nobody (fail app st) := (live_close (live_tell app k .error).1).1

theorem live_onRefuse (app : App) {st : St} (s reason : Nat) (text : Bytes) (hs : s < st.nS) (k : Live nobody st) : Live nobody (onRefuse app st s reason text) := by
  unfold onRefuse
  dsimp only
  have l1 : Live (fun t => nobody t ∨ t = s) (setS st s { st.S s with exc := true }) := k.one s _ (fun h => k.pri s h)
  have l2 : ∀ {u : St}, s < u.nS → Live (fun t => nobody t ∨ t = s) u → Live nobody (queueTx (trim app u s 0) s) := by
    intro u hu l
    have := live_trimLoop app s (if (u.S s).exc then (u.S s).buf.length else 0) l
    rw [← trim] at this
    exact live_queueTx (Nat.lt_of_lt_of_le hu this.2.nS) this.1
  split
  · have l3 := live_closeS l1 s
    have l4 := live_tell app l3.1 (.refused s reason text)
    exact l2 (Nat.lt_of_lt_of_le hs (Nat.le_trans l3.2.nS l4.2.nS)) l4.1
  · exact l2 hs l1

theorem live_offer (app : App) {st : St} (r : Nat) (on : Option Nat) (k : Live nobody st) : Live nobody (offer app st r on) := by
  unfold offer
  dsimp only
  refine (idle_queueAck _ _ _).live ?_
  have l1 := (live_tell app k (.offered r on)).1
  split
  · exact l1
  · exact (idle_closeR _ _ _ _).live l1

theorem find_lt {t : List (Nat × Nat)} {id s n : Nat} (h : find t id = .some s) (ht : ∀ p ∈ t, p.2 < n) : s < n := by
  unfold find at h
  cases hf : t.find? (fun p => p.1 == id) with
  | none => rw [hf] at h; simp at h
  | some p =>
    rw [hf] at h
    have := ht p (List.mem_of_find?_eq_some hf)
    simp at h; omega

theorem live_acked {st : St} {s n : Nat} {f : SFlow} (k : Live nobody st) (hs : s < st.nS) (hp : f.pri = (st.S s).pri) :
    Live nobody (queueTx (setS { st with bytesAcked := n } s f) s) := by
  have k2 := k.one s f (fun h => by rw [hp]; exact k.pri s h)
  exact live_queueTx_any hs k2.chunk k2.tab k2.inw k2.pri k2.work

theorem live_act (app : App) {st : St} (len : Nat) (m : Msg) (k : Live nobody st) : Live nobody (act app st len m).1 := by
  cases m with
  | ping b => exact (idle_tx _ _ _).live k
  | pong b => exact k
  | window n =>
    simp only [act]
    exact (Idle.trans (a := st) (b := { st with ackWin := max n 2800 }) ⟨rfl, rfl, rfl, rfl, fun h => h, rfl, rfl, rfl, rfl, rfl, rfl⟩ (idle_ackIfNeeded _)).live k
  | opens id ret about =>
    simp only [act]
    split
    · exact k
    · have l1 := ((idle_newR st id about).trans (idle_note _ (.heard st.nR (.opens id ret about)))).live k
      cases ret with
      | none => exact live_offer app _ _ l1
      | some t =>
        dsimp only
        split
        · exact (idle_closeR _ _ _ _).live l1
        · split
          · exact live_offer app _ _ l1
          · exact (idle_closeR _ _ _ _).live l1
  | data id more b =>
    simp only [act]
    split
    · exact k
    · refine ((Idle.trans (a := st) (b := { st with acc := st.acc + len }) ⟨rfl, rfl, rfl, rfl, fun h => h, rfl, rfl, rfl, rfl, rfl, rfl⟩ (idle_ackIfNeeded _)).trans ?_).live k
      exact (idle_note _ _).trans (idle_onData _ _ _ _ _)
  | abandon id n =>
    simp only [act]
    split
    · exact k
    · exact ((idle_note _ _).trans (idle_onAbandon _ _ _)).live k
  | closes id =>
    simp only [act]
    split
    · exact k
    · rename_i r hf
      have l1 := ((idle_note st (.heard r (.closes id))).trans (idle_onClose _ r)).live k
      generalize onClose (note st (.heard r (.closes id))) r = u at l1 ⊢
      exact Idle.live (a := u) ⟨rfl, rfl, rfl, rfl, fun h => h, rfl, rfl, rfl, rfl, rfl, rfl⟩ l1
  | ack id d a =>
    simp only [act]
    split
    · exact k
    · rename_i s hf
      have hs := find_lt hf k.tab
      exact live_acked (n := st.bytesAcked + d) (f := { st.S s with acked := (st.S s).acked + d, through := (st.S s).acked + d + a }) k hs rfl
  | closeAck id =>
    simp only [act]
    split
    · exact k
    · split
      · exact k
      · exact ⟨k.chunk, fun p hp => k.tab p (List.mem_filter.mp hp).1, k.inw, k.pri, k.work, k.sched⟩
  | refuse id reason text =>
    simp only [act]
    split
    · exact k
    · rename_i s hf
      exact live_onRefuse app s reason text (find_lt hf k.tab) k

theorem live_arrive (app : App) {st : St} (b : Bytes) (k : Live nobody st) : Live nobody (arrive app st b) := by
  unfold arrive
  split
  · exact live_fail app k
  · exact k
  · dsimp only
    split
    · exact live_act app _ _ k
    · exact live_fail app (live_act app _ _ k)

/-- A step other than: the messages of a flow are trimmed by the clock, or the measure of the path is
raised while nothing is being transmitted (or the size of a piece becomes zero). -/
def steady (st : St) : Op → Prop
  | .trim _ _ => False
  | .limit a _ c => 0 < c ∧ (a ≤ st.thresh ∨ st.sendNow = true)
  | _ => True

/-- A history of such steps. -/
def Steady (app : App) : St → List Op → Prop
  | _, [] => True
  | st, o :: os => steady st o ∧ Steady app (step app st o) os

theorem live_step (app : App) {st : St} (o : Op) (ho : steady st o) (k : Live nobody st) : Live nobody (step app st o) := by
  unfold step
  split
  · exact k
  · cases o with
    | call c => exact (live_call k c).1
    | recv b =>
      dsimp only
      split
      · exact live_arrive app b k
      · exact k
    | transmit exp probe => exact live_transmit app exp probe k
    | task =>
      dsimp only
      split
      · exact k
      · exact live_deliver app _ (Idle.live (a := st) ⟨rfl, rfl, rfl, rfl, fun h => h, rfl, rfl, rfl, rfl, rfl, rfl⟩ k)
    | trim s e => exact absurd ho (by simp [steady])
    | gone =>
      dsimp only
      split
      · exact live_fail app k
      · exact k
    | limit a b c =>
      obtain ⟨hc, ht⟩ := ho
      refine ⟨hc, k.tab, k.inw, k.pri, k.work, fun hu hs => ?_⟩
      rcases ht with ht | ht
      · exact (k.sched hu hs).imp (fun h => h) (fun h => Nat.le_trans ht h)
      · have : st.sendNow = false := hs
        simp [ht] at this

theorem live_run (app : App) : ∀ (os : List Op) {st : St}, Steady app st os → Live nobody st → Live nobody (run app st os)
  | [], _, _, k => k
  | o :: os, _, h, k => live_run app os h.2 (live_step app o h.1 k)

theorem live_all (app : App) (os : List Op) (h : Steady app init os) : Live nobody (run app init os) :=
  live_run app os h ⟨by decide, fun p hp => by simp [init] at hp, fun p s hs => by simp [init] at hs, fun s hs => absurd hs (Nat.not_lt_zero s),
    fun _ s hs => absurd hs (Nat.not_lt_zero s), fun _ _ => Or.inl (fun s hs => absurd hs (Nat.not_lt_zero s))⟩

end Rtmfp.RTWS
