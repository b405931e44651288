import Verif.Lemmas.RTWBusy

/-!
# What is owed to the other end: the functions that leave the accounts of bytes alone
-/

namespace Rtmfp.RTWS

/-- Messages that no account of bytes is kept of. -/
def plainMsg : Msg → Bool
  | .ack _ _ _ => false
  | .data _ _ _ => false
  | .window _ => false
  | _ => true

/-- Events that no account of bytes is kept of. -/
def plainEv : Ev → Bool
  | .tx _ m => plainMsg m
  | _ => true

/-- The bytes of an event that are acknowledged in it, of the flows with certain numbers. -/
def ackOf (P : Nat → Bool) : Ev → Nat
  | .tx _ (.ack id d _) => if P id then d else 0
  | _ => 0

/-- The bytes of an event that have to be acknowledged. -/
def dataOf : Ev → Nat
  | .tx _ (.data id more b) => (Msg.data id more b).encode.length
  | _ => 0

/-- The window an event asks for. -/
def windowOf : Ev → Nat
  | .tx _ (.window n) => n
  | _ => 0

/-- Whether an event is an acknowledgement. -/
def isAck : Ev → Bool
  | .tx _ (.ack _ _ _) => true
  | _ => false

/-- All bytes acknowledged, of the flows with certain numbers. -/
def ackedLen (P : Nat → Bool) (l : List Ev) : Nat := (l.map (ackOf P)).sum

/-- All bytes sent that have to be acknowledged. -/
def sentLen (l : List Ev) : Nat := (l.map dataOf).sum

/-- The connection is open, and defined. -/
def On (st : St) : Prop := st.up = true ∧ st.wild = false

/-- A flow is opened with a message that opens a flow. -/
def Op1 (st : St) : Prop := ∀ s m, (st.S s).opening = .some m → plainMsg m = true

/-- The accounts are left alone. -/
structure Meek (a b : St) : Prop where
  got : ∀ r, (b.R r).got = (a.R r).got
  over : ∀ r, (b.R r).over = (a.R r).over
  rid : ∀ r, (b.R r).id = (a.R r).id
  thr : ∀ r, (b.R r).thresh = (a.R r).thresh
  nR : b.nR = a.nR
  says : b.log.filter isAck = a.log.filter isAck
  mem : On b → ∀ r ∈ b.ackFlows, r ∈ a.ackFlows ∨ r < a.nR
  tab : b.rIds = [] ∨ (b.rIds = a.rIds ∧ ∀ r, (b.R r).ended = (a.R r).ended)
  log : ∀ P, ackedLen P b.log = ackedLen P a.log
  sent : On b → sentLen b.log + a.bytesSent = sentLen a.log + b.bytesSent
  acked : b.bytesAcked = a.bytesAcked
  on : On b → On a
  acc : b.acc = a.acc
  win : b.ackWin = a.ackWin
  sn : a.sendNow = true → b.sendNow = true
  an : a.ackNow = true → b.ackNow = true
  new : On b → b.ackNow = true → a.ackNow = true ∨ b.sendNow = true
  acks : On b → ∀ r ∈ a.ackFlows, r ∈ b.ackFlows
  user : On b → b.userUp = a.userUp
  wnd : ∀ e ∈ b.log, e ∈ a.log ∨ windowOf e ≤ 11200
  op : Op1 a → Op1 b

theorem Meek.refl (a : St) : Meek a a :=
  ⟨fun _ => rfl, fun _ => rfl, fun _ => rfl, fun _ => rfl, rfl, rfl, fun _ _ h => Or.inl h, Or.inr ⟨rfl, fun _ => rfl⟩, fun _ => rfl, fun _ => rfl, rfl, fun h => h, rfl, rfl, fun h => h, fun h => h, fun _ h => Or.inl h, fun _ _ h => h, fun _ => rfl, fun _ h => Or.inl h, fun h => h⟩

theorem Meek.trans {a b c : St} (h : Meek a b) (k : Meek b c) : Meek a c where
  got r := (k.got r).trans (h.got r)
  over r := (k.over r).trans (h.over r)
  rid r := (k.rid r).trans (h.rid r)
  thr r := (k.thr r).trans (h.thr r)
  nR := k.nR.trans h.nR
  says := k.says.trans h.says
  mem o r hr := by
    rcases k.mem o r hr with e | e
    · exact h.mem (k.on o) r e
    · exact Or.inr (h.nR ▸ e)
  tab := by
    rcases k.tab with e | ⟨e, he⟩
    · exact Or.inl e
    · rcases h.tab with e' | ⟨e', he'⟩
      · exact Or.inl (e.trans e')
      · exact Or.inr ⟨e.trans e', fun r => (he r).trans (he' r)⟩
  log P := (k.log P).trans (h.log P)
  sent o := by have := k.sent o; have := h.sent (k.on o); omega
  acked := k.acked.trans h.acked
  on o := h.on (k.on o)
  acc := k.acc.trans h.acc
  win := k.win.trans h.win
  sn e := k.sn (h.sn e)
  an e := k.an (h.an e)
  new o e := by
    rcases k.new o e with e' | e'
    · rcases h.new (k.on o) e' with e'' | e''
      · exact Or.inl e''
      · exact Or.inr (k.sn e'')
    · exact Or.inr e'
  acks o r hr := k.acks o r (h.acks (k.on o) r hr)
  user o := (k.user o).trans (h.user (k.on o))
  wnd e he := by
    rcases k.wnd e he with e' | e'
    · exact h.wnd e e'
    · exact Or.inr e'
  op o := k.op (h.op o)

/-- Changes of what no account speaks of. -/
theorem meek_eq {a b : St} (hR : b.R = a.R := by rfl) (hn : b.nR = a.nR := by rfl) (ht : b.rIds = a.rIds := by rfl) (hl : b.log = a.log := by rfl)
    (hs : b.bytesSent = a.bytesSent := by rfl) (ha : b.bytesAcked = a.bytesAcked := by rfl) (hu : b.up = a.up := by rfl) (hw : b.wild = a.wild := by rfl)
    (hc : b.acc = a.acc := by rfl) (hi : b.ackWin = a.ackWin := by rfl) (h1 : b.sendNow = a.sendNow := by rfl) (h2 : b.ackNow = a.ackNow := by rfl)
    (h3 : b.ackFlows = a.ackFlows := by rfl) (h4 : b.userUp = a.userUp := by rfl) (h5 : b.S = a.S := by rfl) : Meek a b :=
  ⟨fun _ => by rw [hR], fun _ => by rw [hR], fun _ => by rw [hR], fun _ => by rw [hR], hn, by rw [hl], fun _ _ h => Or.inl (h3 ▸ h), Or.inr ⟨ht, fun _ => by rw [hR]⟩, fun _ => by rw [hl], fun _ => by rw [hl, hs], ha,
    fun o => ⟨hu ▸ o.1, hw ▸ o.2⟩, hc, hi, fun h => h1 ▸ h, fun h => h2 ▸ h, fun _ h => Or.inl (h2 ▸ h), fun _ _ h => h3 ▸ h, fun _ => h4,
    fun _ h => Or.inl (hl ▸ h), fun h => by unfold Op1; rw [h5]; exact h⟩

theorem meek_note {st : St} {e : Ev} (h : plainEv e = true) : Meek st (note st e) := by
  have ha : ∀ P, ackOf P e = 0 := by
    intro P
    cases e with
    | tx w m => cases m <;> simp_all [plainEv, plainMsg, ackOf]
    | _ => rfl
  have hd : dataOf e = 0 := by
    cases e with
    | tx w m => cases m <;> simp_all [plainEv, plainMsg, dataOf]
    | _ => rfl
  have hk : isAck e = false := by
    cases e with
    | tx w m => cases m <;> simp_all [plainEv, plainMsg, isAck]
    | _ => rfl
  have hw : windowOf e = 0 := by
    cases e with
    | tx w m => cases m <;> simp_all [plainEv, plainMsg, windowOf]
    | _ => rfl
  refine ⟨fun _ => rfl, fun _ => rfl, fun _ => rfl, fun _ => rfl, rfl, by simp [note, hk], fun _ _ h => Or.inl h, Or.inr ⟨rfl, fun _ => rfl⟩, fun P => ?_, fun _ => ?_, rfl, fun h => h, rfl, rfl, fun h => h, fun h => h, fun _ h => Or.inl h, fun _ _ h => h, fun _ => rfl, fun x hx => ?_, fun h => h⟩
  · simp [note, ackedLen, ha]
  · simp [note, sentLen, hd]
  · simp only [note, List.mem_append, List.mem_singleton] at hx
    rcases hx with hx | hx
    · exact Or.inl hx
    · exact Or.inr (by rw [hx, hw]; omega)

theorem meek_window (st : St) (w : Who) (n : Nat) (hn : n ≤ 11200) : Meek st (tx st w (.window n)) := by
  unfold tx
  split
  · refine ⟨fun _ => rfl, fun _ => rfl, fun _ => rfl, fun _ => rfl, rfl, by simp [note, isAck], fun _ _ h => Or.inl h, Or.inr ⟨rfl, fun _ => rfl⟩, fun P => ?_, fun _ => ?_, rfl, fun h => h, rfl, rfl, fun h => h, fun h => h, fun _ h => Or.inl h, fun _ _ h => h, fun _ => rfl, fun x hx => ?_, fun h => h⟩
    · simp [note, ackedLen, ackOf]
    · simp [note, sentLen, dataOf]
    · simp only [note, List.mem_append, List.mem_singleton] at hx
      rcases hx with hx | hx
      · exact Or.inl hx
      · exact Or.inr (by rw [hx]; exact hn)
  · exact Meek.refl _

theorem meek_setR (st : St) (r : Nat) (f : RFlow) (h1 : f.got = (st.R r).got) (h2 : f.over = (st.R r).over) (h3 : f.ended = (st.R r).ended) (h4 : f.id = (st.R r).id) (h5 : f.thresh = (st.R r).thresh) : Meek st (setR st r f) := by
  have e : ∀ t, ((setR st r f).R t).got = (st.R t).got ∧ ((setR st r f).R t).over = (st.R t).over ∧ ((setR st r f).R t).ended = (st.R t).ended ∧ ((setR st r f).R t).id = (st.R t).id ∧ ((setR st r f).R t).thresh = (st.R t).thresh := by
    intro t
    simp only [setR]
    split
    · rename_i ht; subst ht; exact ⟨h1, h2, h3, h4, h5⟩
    · exact ⟨rfl, rfl, rfl, rfl, rfl⟩
  exact ⟨fun t => (e t).1, fun t => (e t).2.1, fun t => (e t).2.2.2.1, fun t => (e t).2.2.2.2, rfl, rfl, fun _ _ h => Or.inl h, Or.inr ⟨rfl, fun t => (e t).2.2.1⟩, fun _ => rfl, fun _ => rfl, rfl, fun h => h, rfl, rfl, fun h => h, fun h => h, fun _ h => Or.inl h, fun _ _ h => h, fun _ => rfl, fun _ h => Or.inl h, fun h => h⟩

theorem meek_setS (st : St) (s : Nat) (f : SFlow) (h : ∀ m, f.opening = .some m → (st.S s).opening = .some m) : Meek st (setS st s f) :=
  ⟨fun _ => rfl, fun _ => rfl, fun _ => rfl, fun _ => rfl, rfl, rfl, fun _ _ h => Or.inl h, Or.inr ⟨rfl, fun _ => rfl⟩, fun _ => rfl, fun _ => rfl, rfl, fun h => h, rfl, rfl, fun h => h, fun h => h, fun _ h => Or.inl h, fun _ _ h => h, fun _ => rfl, fun _ h => Or.inl h,
    fun o t m hm => by
      simp only [setS] at hm
      split at hm
      · exact o s m (h m hm)
      · exact o t m hm⟩

theorem meek_tx (st : St) (w : Who) (m : Msg) (h : plainMsg m = true) : Meek st (tx st w m) := by
  unfold tx; split
  · exact meek_note h
  · exact Meek.refl _
theorem meek_schedule (st : St) : Meek st (schedule st) := by
  unfold schedule; split
  · exact ⟨fun _ => rfl, fun _ => rfl, fun _ => rfl, fun _ => rfl, rfl, rfl, fun _ _ h => Or.inl h, Or.inr ⟨rfl, fun _ => rfl⟩, fun _ => rfl, fun _ => rfl, rfl, fun h => h, rfl, rfl, fun _ => rfl, fun h => h, fun _ h => Or.inl h, fun _ _ h => h, fun _ => rfl, fun _ h => Or.inl h, fun h => h⟩
  · exact Meek.refl _
theorem scheduleAck_ack (st : St) : (scheduleAck st).ackNow = true := by
  unfold scheduleAck
  split
  · assumption
  · exact (meek_schedule { st with ackNow := true }).an rfl
theorem meek_scheduleAck (st : St) : Meek st (scheduleAck st) := by
  unfold scheduleAck; split
  · exact Meek.refl _
  · have k := meek_schedule { st with ackNow := true }
    exact ⟨k.got, k.over, k.rid, k.thr, k.nR, k.says, k.mem, k.tab, k.log, k.sent, k.acked, k.on, k.acc, k.win, k.sn, fun _ => k.an rfl,
      fun o _ => Or.inr (schedule_send _ (k.on o).1), k.acks, k.user, k.wnd, k.op⟩
theorem meek_addAck (st : St) (r : Nat) (hr : On st → r < st.nR) : Meek st (if r ∈ st.ackFlows then st else { st with ackFlows := st.ackFlows ++ [r] }) := by
  split
  · exact Meek.refl _
  · exact ⟨fun _ => rfl, fun _ => rfl, fun _ => rfl, fun _ => rfl, rfl, rfl, fun o t ht => (List.mem_append.1 ht).imp (fun h => h) (fun h => by rw [List.mem_singleton.1 h]; exact hr ⟨o.1, o.2⟩), Or.inr ⟨rfl, fun _ => rfl⟩, fun _ => rfl, fun _ => rfl, rfl, fun h => h, rfl, rfl, fun h => h, fun h => h, fun _ h => Or.inl h, fun _ _ h => List.mem_append_left _ h, fun _ => rfl, fun _ h => Or.inl h, fun h => h⟩
theorem meek_queueAck (st : St) (r : Nat) (now : Bool) (hr : On st → r < st.nR) : Meek st (queueAck st r now) := by
  unfold queueAck
  split
  · have h := meek_addAck st r hr
    dsimp only
    split
    · exact h.trans (meek_scheduleAck _)
    · exact h
  · exact Meek.refl _
theorem queueAck_mem (st : St) (r : Nat) (now : Bool) (h : On (queueAck st r now)) : r ∈ (queueAck st r now).ackFlows := by
  unfold queueAck at h ⊢
  split at h
  · rename_i hu
    rw [if_pos hu]
    dsimp only at h ⊢
    have hm : r ∈ (if r ∈ st.ackFlows then st else { st with ackFlows := st.ackFlows ++ [r] }).ackFlows := by
      split
      · assumption
      · exact List.mem_append_right _ List.mem_cons_self
    split at h
    · rename_i hn
      rw [if_pos hn]
      exact (meek_scheduleAck _).acks h r hm
    · rename_i hn
      rw [if_neg hn]
      exact hm
  · rename_i hu
    exact absurd h.1 (by simpa using hu)
theorem meek_queueTx (st : St) (s : Nat) : Meek st (queueTx st s) := by
  unfold queueTx
  refine Meek.trans ?_ (meek_schedule _)
  split
  · exact meek_eq
  · exact Meek.refl _
theorem meek_openFlow (st : St) (id : Nat) (ret : Option Nat) (about : Bytes) (pri : Nat) : Meek st (openFlow st id ret about pri) := by
  unfold openFlow
  split
  · refine Meek.trans ?_ (meek_queueTx _ _)
    exact ⟨fun _ => rfl, fun _ => rfl, fun _ => rfl, fun _ => rfl, rfl, rfl, fun _ _ h => Or.inl h, Or.inr ⟨rfl, fun _ => rfl⟩, fun _ => rfl, fun _ => rfl, rfl, fun h => h, rfl, rfl, fun h => h, fun h => h, fun _ h => Or.inl h, fun _ _ h => h, fun _ => rfl, fun _ h => Or.inl h,
      fun o t m hm => by
        simp only [setS] at hm
        split at hm
        · simp only [Option.some.injEq] at hm; rw [← hm]; rfl
        · exact o t m hm⟩
  · exact Meek.refl _
theorem meek_wild (st : St) (w : Bool) (h : w = false → st.wild = false) : Meek st { st with wild := w } :=
  ⟨fun _ => rfl, fun _ => rfl, fun _ => rfl, fun _ => rfl, rfl, rfl, fun _ _ h => Or.inl h, Or.inr ⟨rfl, fun _ => rfl⟩, fun _ => rfl, fun _ => rfl, rfl, fun o => ⟨o.1, h o.2⟩, rfl, rfl, fun h => h, fun h => h, fun _ h => Or.inl h, fun _ _ h => h, fun _ => rfl, fun _ h => Or.inl h, fun h => h⟩
theorem meek_write (st : St) (s : Nat) (b : Bytes) : Meek st (write st s b) := by
  unfold write
  dsimp only
  split
  · refine Meek.trans ?_ (meek_queueTx _ _)
    refine Meek.trans ?_ (meek_note rfl)
    refine (meek_wild st (st.wild || decide (st.trimming = .some s)) (by cases st.wild <;> simp)).trans ?_
    exact meek_setS _ _ _ (fun m h => h)
  · exact Meek.refl _
theorem meek_closeS (st : St) (s : Nat) : Meek st (closeS st s) := by
  unfold closeS
  split
  · exact (meek_setS st s { st.S s with up := false } (fun m h => h)).trans (meek_queueTx _ _)
  · exact Meek.refl _
theorem meek_setPriority (st : St) (s p : Nat) : Meek st (setPriority st s p) := by
  unfold setPriority
  split
  · exact (meek_setS st s { st.S s with pri := p } (fun m h => h)).trans (meek_queueTx _ _)
  · exact Meek.refl _
theorem meek_accept (st : St) (r : Nat) : Meek st (accept st r) := by
  unfold accept; split
  · exact meek_setR _ _ _ rfl rfl rfl rfl rfl
  · exact Meek.refl _
theorem meek_capacity (st : St) (r n : Nat) (hr : On st → r < st.nR) : Meek st (capacity st r n) := by
  unfold capacity
  dsimp only
  refine Meek.trans ?_ (meek_setR _ _ _ rfl rfl rfl rfl rfl)
  split
  · exact Meek.refl _
  · exact meek_queueAck st r true hr
theorem meek_closeR (st : St) (r k : Nat) (t : Bytes) (hr : On st → r < st.nR) : Meek st (closeR st r k t) := by
  unfold closeR
  split
  · dsimp only
    have h := (meek_setR st r { st.R r with up := false, yes := false } rfl rfl rfl rfl rfl).trans (meek_capacity _ r 0 hr)
    split
    · exact h
    · exact h.trans (meek_tx _ _ _ rfl)
  · exact Meek.refl _
theorem meek_queueDelivery (st : St) (r : Nat) : Meek st (queueDelivery st r) := by
  unfold queueDelivery
  dsimp only
  split
  · have h := meek_setR st r { st.R r with pending := true } rfl rfl rfl rfl rfl
    split
    · exact h.trans meek_eq
    · exact h
  · exact Meek.refl _
theorem meek_pause (st : St) (r : Nat) (y : Bool) (hr : On st → r < st.nR) : Meek st (pause st r y) := by
  unfold pause
  dsimp only
  have h := meek_setR st r { st.R r with paused := y } rfl rfl rfl rfl rfl
  split
  · exact h
  · have h2 := h.trans (meek_queueDelivery _ r)
    split
    · exact h2.trans (meek_queueAck _ _ _ (fun o => by rw [h2.nR]; exact hr (h2.on o)))
    · exact h2
theorem meek_foldl {α : Type} (g : St → α → St) (hg : ∀ st a, Meek st (g st a)) : ∀ (l : List α) (st : St), Meek st (l.foldl g st)
  | [], _ => Meek.refl _
  | a :: l, st => (hg st a).trans (meek_foldl g hg l _)
theorem meek_onAbandon (st : St) (r n : Nat) (hr : On st → r < st.nR) : Meek st (onAbandon st r n) := by
  unfold onAbandon
  refine Meek.trans ?_ (meek_queueAck _ _ _ hr)
  have e : ∀ f : RFlow, (f = match (st.R r).buf.getLast? with
      | .some m => if m.whole then { st.R r with next := (st.R r).next + (n + 1) } else
          { st.R r with size := (st.R r).size - m.bytes.length, buf := (st.R r).buf.dropLast, next := (st.R r).next + n }
      | .none => { st.R r with next := (st.R r).next + (n + 1) }) → f.got = (st.R r).got ∧ f.over = (st.R r).over ∧ f.ended = (st.R r).ended ∧ f.id = (st.R r).id ∧ f.thresh = (st.R r).thresh := by
    intro f hf
    cases hb : (st.R r).buf.getLast? with
    | none => rw [hb] at hf; rw [hf]; exact ⟨rfl, rfl, rfl, rfl, rfl⟩
    | some m =>
      rw [hb] at hf
      dsimp only at hf
      split at hf <;> (rw [hf]; exact ⟨rfl, rfl, rfl, rfl, rfl⟩)
  obtain ⟨h1, h2, h3, h4, h5⟩ := e _ rfl
  exact meek_setR _ _ _ h1 h2 h3 h4 h5
/-- the end of a flow, when no number leads to any flow any more -/
theorem meek_onClose (st : St) (r : Nat) (h : st.rIds = []) (hr : On st → r < st.nR) : Meek st (onClose st r) := by
  unfold onClose
  suffices k : Meek st (setR st r { st.R r with ended := true }) by
    have k2 := (k.trans (meek_onAbandon _ r 0 hr)).trans (meek_queueDelivery _ r)
    exact k2.trans (meek_queueAck _ _ _ (fun o => by rw [k2.nR]; exact hr (k2.on o)))
  have e : ∀ t, ((setR st r { st.R r with ended := true }).R t).got = (st.R t).got ∧ ((setR st r { st.R r with ended := true }).R t).over = (st.R t).over ∧ ((setR st r { st.R r with ended := true }).R t).id = (st.R t).id ∧ ((setR st r { st.R r with ended := true }).R t).thresh = (st.R t).thresh := by
    intro t
    simp only [setR]
    split
    · rename_i ht; subst ht; exact ⟨rfl, rfl, rfl, rfl⟩
    · exact ⟨rfl, rfl, rfl, rfl⟩
  exact ⟨fun t => (e t).1, fun t => (e t).2.1, fun t => (e t).2.2.1, fun t => (e t).2.2.2, rfl, rfl, fun _ _ h => Or.inl h, Or.inl h, fun _ => rfl, fun _ => rfl, rfl, fun h => h, rfl, rfl, fun h => h, fun h => h, fun _ h => Or.inl h, fun _ _ h => h, fun _ => rfl, fun _ h => Or.inl h, fun h => h⟩
theorem meek_endQuietly (st : St) (r : Nat) (hr : On st → r < st.nR) : Meek st (endQuietly st r) := by
  unfold endQuietly
  dsimp only
  suffices k : Meek st (if (st.R r).told then st else
      if (st.R r).up && (st.R r).yes then note (setR st r { st.R r with told := true }) (.complete r) else setR st r { st.R r with told := true }) by
    exact k.trans (meek_closeR _ _ _ _ (fun o => by rw [k.nR]; exact hr (k.on o)))
  split
  · exact Meek.refl _
  · have h := meek_setR st r { st.R r with told := true } rfl rfl rfl rfl rfl
    split
    · exact h.trans (meek_note rfl)
    · exact h
theorem Meek.none {a b : St} (k : Meek a b) (h : a.rIds = []) : b.rIds = [] := by
  rcases k.tab with e | ⟨e, _⟩
  · exact e
  · exact e.trans h
theorem meek_endR (st : St) (r : Nat) (h : st.rIds = []) (ho : ¬ On st) : Meek st (endR st r) := by
  unfold endR
  split
  · have k := meek_onClose st r h (fun o => absurd o ho)
    exact k.trans (meek_endQuietly _ _ (fun o => absurd (k.on o) ho))
  · exact Meek.refl _
theorem meek_endRs : ∀ (l : List (Nat × Nat)) (st : St), st.rIds = [] → ¬ On st → Meek st (l.foldl (fun st p => endR st p.2) st)
  | [], st, _, _ => Meek.refl _
  | p :: l, st, h, ho => (meek_endR st p.2 h ho).trans (meek_endRs l _ ((meek_endR st p.2 h ho).none h) (fun o => ho ((meek_endR st p.2 h ho).on o)))
theorem meek_dropAll (s : Nat) : ∀ (n : Nat) (st : St), Meek st (dropAll n st s)
  | 0, _ => Meek.refl _
  | n + 1, st => by
    unfold dropAll
    dsimp only
    split
    · exact Meek.refl _
    · rename_i m rest hb
      split
      · exact Meek.refl _
      · refine Meek.trans ?_ (meek_dropAll s n _)
        exact (meek_note (st := st) (e := .dropped s m.num) rfl).trans (meek_setS _ _ _ (fun m h => h))
theorem meek_endS (st : St) (s : Nat) : Meek st (endS st s) := by
  unfold endS
  dsimp only
  split
  · refine Meek.trans ?_ (meek_dropAll _ _ _)
    exact (meek_setS st s { st.S s with exc := true, up := false } (fun m h => h)).trans (meek_note rfl)
  · exact Meek.refl _

/-- after a close the connection is no longer open and defined -/
theorem close_off (st : St) (h : On st → st.userUp = true) : ¬ On (close st) := by
  intro o
  unfold close at o
  split at o
  · rename_i hu
    rw [h o] at hu
    exact absurd hu (by simp)
  · split at o
    · exact absurd o.2 (by simp)
    · dsimp only at o
      have k1 := meek_foldl (fun (st : St) (p : Nat × Nat) => endS st p.2) (fun st p => meek_endS st p.2) st.sIds { st with up := false, userUp := false, sIds := [] }
      generalize st.sIds.foldl (fun st p => endS st p.2) { st with up := false, userUp := false, sIds := [] } = u at k1 o
      have k2 := meek_endRs u.rIds { u with rIds := [] } rfl (fun o => absurd (k1.on ⟨o.1, o.2⟩).1 (by simp))
      generalize u.rIds.foldl (fun st p => endR st p.2) { u with rIds := [] } = v at k2 o
      have := (k1.on ⟨(k2.on ⟨o.1, o.2⟩).1, (k2.on ⟨o.1, o.2⟩).2⟩).1
      exact absurd this (by simp)
theorem meek_close (st : St) : Meek st (close st) := by
  by_cases hu : st.userUp = true
  · have hoff := close_off st (fun _ => hu)
    unfold close at hoff ⊢
    rw [if_neg (by simp [hu])] at hoff ⊢
    split
    · exact ⟨fun _ => rfl, fun _ => rfl, fun _ => rfl, fun _ => rfl, rfl, rfl, fun _ _ h => Or.inl h, Or.inr ⟨rfl, fun _ => rfl⟩, fun _ => rfl, fun _ => rfl, rfl, fun o => absurd o.2 (by simp), rfl, rfl, fun h => h, fun h => h, fun _ h => Or.inl h, fun _ _ h => h, fun _ => rfl, fun _ h => Or.inl h, fun h => h⟩
    · rename_i ht
      rw [if_neg ht] at hoff
      dsimp only at hoff ⊢
      have k1 := meek_foldl (fun (st : St) (p : Nat × Nat) => endS st p.2) (fun st p => meek_endS st p.2) st.sIds { st with up := false, userUp := false, sIds := [] }
      generalize st.sIds.foldl (fun st p => endS st p.2) { st with up := false, userUp := false, sIds := [] } = u at k1 hoff ⊢
      have k2 := meek_endRs u.rIds { u with rIds := [] } rfl (fun o => absurd (k1.on ⟨o.1, o.2⟩).1 (by simp))
      generalize u.rIds.foldl (fun st p => endR st p.2) { u with rIds := [] } = v at k2 hoff ⊢
      exact ⟨fun r => (k2.got r).trans (k1.got r), fun r => (k2.over r).trans (k1.over r), fun r => (k2.rid r).trans (k1.rid r), fun r => (k2.thr r).trans (k1.thr r), k2.nR.trans k1.nR, k2.says.trans k1.says, fun o => absurd o hoff, Or.inl (k2.none rfl), fun P => (k2.log P).trans (k1.log P),
        fun o => absurd o hoff, k2.acked.trans k1.acked, fun o => absurd o hoff, k2.acc.trans k1.acc, k2.win.trans k1.win,
        fun h => k2.sn (k1.sn h), fun h => k2.an (k1.an h), fun o => absurd o hoff, fun o => absurd o hoff, fun o => absurd o hoff,
        fun e he => (k2.wnd e he).elim (fun h => k1.wnd e h) Or.inr, fun h => k2.op (k1.op h)⟩
  · unfold close
    rw [if_pos (by simp [hu])]
    exact Meek.refl _
theorem meek_call (st : St) (c : Call) : Meek st (call st c) := by
  cases c <;> simp only [call]
  · split
    · exact meek_openFlow _ _ _ _ _
    · exact Meek.refl _
  · split
    · exact meek_openFlow _ _ _ _ _
    · exact Meek.refl _
  · exact meek_write _ _ _
  · exact meek_closeS _ _
  · exact meek_setPriority _ _ _
  · exact meek_accept _ _
  · split
    · rename_i hr; exact meek_closeR _ _ _ _ (fun _ => hr)
    · exact Meek.refl _
  · split
    · rename_i hr; exact meek_capacity _ _ _ (fun _ => hr)
    · exact Meek.refl _
  · split
    · rename_i hr; exact meek_pause _ _ _ (fun _ => hr)
    · exact Meek.refl _
  · exact meek_close _
theorem meek_tell (app : App) (st : St) (e : Ev) (h : plainEv e = true) : Meek st (tell app st e) := by
  unfold tell
  exact (meek_note h).trans (meek_foldl call meek_call _ _)
theorem meek_trimLoop (app : App) (s : Nat) : ∀ (n : Nat) (st : St), Meek st (trimLoop app n st s)
  | 0, _ => Meek.refl _
  | n + 1, st => by
    unfold trimLoop
    split
    · exact Meek.refl _
    · rename_i m rest hb
      dsimp only
      have h := meek_tell app { st with trimming := .some s } (.dropped s m.num) rfl
      generalize tell app { st with trimming := .some s } (.dropped s m.num) = u at h ⊢
      have h0 : Meek st { st with trimming := .some s } := meek_eq
      have h1 : Meek u { u with trimming := .none } := meek_eq
      have h2 := meek_setS { u with trimming := .none } s { u.S s with buf := (u.S s).buf.tail, lost := (u.S s).lost + 1 } (fun m h => h)
      exact (h0.trans h).trans ((h1.trans h2).trans (meek_trimLoop app s n _))
theorem meek_data (st : St) (w : Who) (id : Nat) (more : Bool) (b : Bytes) :
    Meek st { tx st w (.data id more b) with bytesSent := (tx st w (.data id more b)).bytesSent + (Msg.data id more b).encode.length } := by
  unfold tx
  split
  · refine ⟨fun _ => rfl, fun _ => rfl, fun _ => rfl, fun _ => rfl, rfl, by simp [note, isAck], fun _ _ h => Or.inl h, Or.inr ⟨rfl, fun _ => rfl⟩, fun P => ?_, fun _ => ?_, rfl, fun h => h, rfl, rfl, fun h => h, fun h => h, fun _ h => Or.inl h, fun _ _ h => h, fun _ => rfl, fun x hx => ?_, fun h => h⟩
    · simp [note, ackedLen, ackOf]
    · simp only [note, sentLen, dataOf, List.map_append, List.sum_append, List.map_cons, List.map_nil, List.sum_cons, List.sum_nil]; omega
    · simp only [note, List.mem_append, List.mem_singleton] at hx
      rcases hx with hx | hx
      · exact Or.inl hx
      · exact Or.inr (by rw [hx]; simp [windowOf])
  · rename_i hu
    exact ⟨fun _ => rfl, fun _ => rfl, fun _ => rfl, fun _ => rfl, rfl, rfl, fun _ _ h => Or.inl h, Or.inr ⟨rfl, fun _ => rfl⟩, fun _ => rfl, fun o => absurd o.1 hu, rfl, fun h => h, rfl, rfl, fun h => h, fun h => h, fun _ h => Or.inl h, fun _ _ h => h, fun _ => rfl, fun _ h => Or.inl h, fun h => h⟩
theorem meek_fragment (app : App) (st : St) (s : Nat) : Meek st (fragment app st s).1 := by
  unfold fragment
  dsimp only
  split
  · exact Meek.refl _
  · rename_i m rest hb
    split
    · exact Meek.refl _
    · have l1 := meek_data st (.s s) (st.S s).id (!decide (m.bytes.length ≤ m.off + min (2 ^ 20) (min st.chunk ((st.S s).through - (st.S s).sent))))
        (List.take (min (2 ^ 20) (min st.chunk ((st.S s).through - (st.S s).sent))) (List.drop m.off m.bytes))
      have hS : ∀ (w : Who) (msg : Msg), (tx st w msg).S = st.S := fun w msg => by unfold tx; split <;> rfl
      generalize Msg.data (st.S s).id (!decide (m.bytes.length ≤ m.off + min (2 ^ 20) (min st.chunk ((st.S s).through - (st.S s).sent))))
        (List.take (min (2 ^ 20) (min st.chunk ((st.S s).through - (st.S s).sent))) (List.drop m.off m.bytes)) = msg at l1 ⊢
      have hS' : ({ tx st (.s s) msg with bytesSent := (tx st (.s s) msg).bytesSent + msg.encode.length } : St).S = st.S := hS _ _
      generalize ({ tx st (.s s) msg with bytesSent := (tx st (.s s) msg).bytesSent + msg.encode.length } : St) = u at l1 hS' ⊢
      split
      · refine l1.trans ?_
        refine Meek.trans ?_ (meek_setS _ _ _ (fun m h => h))
        refine Meek.trans ?_ (meek_tell app _ _ rfl)
        exact meek_setS _ _ _ (fun m h => by rw [hS']; exact h)
      · exact l1.trans (meek_setS _ _ _ (fun m h => by rw [hS']; exact h))
theorem meek_transmitS (app : App) (st : St) (s pri exp : Nat) (ho : Op1 st) : Meek st (transmitS app st s pri exp).1 := by
  unfold transmitS
  split
  · exact Meek.refl _
  · split
    · rename_i m hm
      have h := meek_tx st (.s s) m (ho s m hm)
      exact h.trans (meek_setS _ _ _ (fun m h => by simp at h))
    · have l1 : Meek st (trim app st s exp) := meek_trimLoop app s _ st
      dsimp only
      generalize trim app st s exp = u at l1 ⊢
      have hS : ∀ (w : Who) (msg : Msg), (tx u w msg).S = u.S := fun w msg => by unfold tx; split <;> rfl
      split
      · exact l1.trans ((meek_tx u _ _ rfl).trans (meek_setS _ _ _ (fun m h => by rw [hS]; exact h)))
      · split
        · exact l1.trans ((meek_tx u _ _ rfl).trans (meek_setS _ _ _ (fun m h => by rw [hS]; exact h)))
        · split
          · exact l1
          · exact l1.trans (meek_fragment app u s)
theorem meek_startRTT (st : St) (p : Bool) : Meek st (startRTT st p) := by
  unfold startRTT; split
  · exact meek_window _ _ _ (by omega)
  · exact Meek.refl _
theorem meek_tryPri (app : App) (exp : Nat → Nat) (probe : Bool) (pri : Nat) : ∀ (n : Nat) (st : St), Op1 st → Meek st (tryPri app exp probe n st pri).1
  | 0, _, _ => Meek.refl _
  | n + 1, st, ho => by
    unfold tryPri
    split
    · exact Meek.refl _
    · rename_i s ws hw
      dsimp only
      have l1 := meek_transmitS app st s pri (exp s) ho
      split
      · refine Meek.trans ?_ (meek_startRTT _ _)
        split
        · exact l1.trans meek_eq
        · exact l1
      · have l2 := l1.trans (meek_eq (b := { (transmitS app st s pri (exp s)).1 with work := fun p => if p = pri then ((transmitS app st s pri (exp s)).1.work p).erase s else (transmitS app st s pri (exp s)).1.work p }))
        exact l2.trans (meek_tryPri app exp probe pri n _ (l2.op ho))
theorem meek_tryAll (app : App) (exp : Nat → Nat) (probe : Bool) : ∀ (n : Nat) (st : St), Op1 st → Meek st (tryAll app exp probe n st).1
  | 0, _, _ => Meek.refl _
  | n + 1, st, ho => by
    unfold tryAll
    dsimp only
    have l1 := meek_tryPri app exp probe n (st.work n).length st ho
    split
    · exact l1
    · exact l1.trans (meek_tryAll app exp probe n _ (l1.op ho))
theorem meek_endFlow (app : App) (st : St) (r : Nat) (hr : On st → r < st.nR) : Meek st (endFlow app st r) := by
  unfold endFlow
  dsimp only
  suffices k : Meek st (if (st.R r).told then st else
      if (st.R r).up && (st.R r).yes then tell app (setR st r { st.R r with told := true }) (.complete r) else setR st r { st.R r with told := true }) by
    exact k.trans (meek_closeR _ _ _ _ (fun o => by rw [k.nR]; exact hr (k.on o)))
  split
  · exact Meek.refl _
  · have h := meek_setR st r { st.R r with told := true } rfl rfl rfl rfl rfl
    split
    · exact h.trans (meek_tell app _ _ rfl)
    · exact h
theorem meek_deliverLoop (app : App) (r : Nat) : ∀ (n : Nat) (st : St), Meek st (deliverLoop app n st r)
  | 0, _ => Meek.refl _
  | n + 1, st => by
    unfold deliverLoop
    dsimp only
    split
    · exact Meek.refl _
    · rename_i m rest hb
      split
      · exact Meek.refl _
      · exact ((meek_setR st r { st.R r with buf := rest, size := (st.R r).size - m.bytes.length } rfl rfl rfl rfl rfl).trans (meek_tell app _ _ rfl)).trans (meek_deliverLoop app r n _)
theorem meek_deliver (app : App) (st : St) (r : Nat) (hr : On st → r < st.nR) : Meek st (deliver app st r) := by
  unfold deliver
  dsimp only
  have h := (meek_setR st r { st.R r with pending := false } rfl rfl rfl rfl rfl).trans (meek_deliverLoop app r ((setR st r { st.R r with pending := false }).R r).buf.length _)
  split
  · exact h.trans (meek_endFlow app _ _ (fun o => by rw [h.nR]; exact hr (h.on o)))
  · exact h
theorem meek_fail (app : App) (st : St) : Meek st (fail app st) := (meek_tell app st .error rfl).trans (meek_close _)
theorem fail_off (app : App) (st : St) (h : On st → st.userUp = true) : ¬ On (fail app st) :=
  close_off _ (fun o => by
    have k := meek_tell app st .error rfl
    rw [k.user o]; exact h (k.on o))
theorem meek_onRefuse (app : App) (st : St) (s reason : Nat) (text : Bytes) : Meek st (onRefuse app st s reason text) := by
  unfold onRefuse
  dsimp only
  refine Meek.trans ?_ (meek_queueTx _ _)
  refine Meek.trans ?_ (meek_trimLoop app s _ _)
  have h := meek_setS st s { st.S s with exc := true } (fun m h => h)
  split
  · exact (h.trans (meek_closeS _ _)).trans (meek_tell app _ _ rfl)
  · exact h
theorem meek_offer (app : App) (st : St) (r : Nat) (on : Option Nat) (hr : On st → r < st.nR) : Meek st (offer app st r on) := by
  unfold offer
  dsimp only
  have l1 := meek_tell app st (.offered r on) rfl
  generalize tell app st (.offered r on) = u at l1 ⊢
  have l2 : Meek st (if (u.R r).up && (u.R r).yes then u else closeR u r 0 []) := by
    split
    · exact l1
    · exact l1.trans (meek_closeR _ _ _ _ (fun o => by rw [l1.nR]; exact hr (l1.on o)))
  exact l2.trans (meek_queueAck _ _ _ (fun o => by rw [l2.nR]; exact hr (l2.on o)))

end Rtmfp.RTWS
