import Verif.Lemmas.RTWSend

/-!
# Sending flows: every step keeps the books right
-/

namespace Rtmfp.RTWS

open Rtmfp.Spec.Flows

/-- The flow with what has been seen of it. -/
def view (st : St) (s : Nat) : Vw :=
  ⟨st.S s, st.trimming == .some s, sentBy s st.log, written s st.log, settled s st.log⟩

/-- The events that concern sending flows. -/
def isS : Ev → Bool
  | .tx (.s _) _ => true
  | .wrote _ _ => true
  | .done _ _ => true
  | .dropped _ _ => true
  | _ => false

theorem sentBy_isS (s : Nat) (l : List Ev) : sentBy s (l.filter isS) = sentBy s l := by
  induction l with
  | nil => rfl
  | cons e l ih =>
    unfold sentBy at *
    rcases e with ⟨_ | _ | _, m⟩ | _ | _ | _ | _ | _ | _ | _ | _ | _ <;> simp_all [isS, List.filter_cons, List.filterMap_cons]

theorem written_isS (s : Nat) (l : List Ev) : written s (l.filter isS) = written s l := by
  induction l with
  | nil => rfl
  | cons e l ih =>
    unfold written at *
    rcases e with ⟨_ | _ | _, m⟩ | _ | _ | _ | _ | _ | _ | _ | _ | _ <;> simp_all [isS, List.filter_cons, List.filterMap_cons]

theorem settled_isS (s : Nat) (l : List Ev) : settled s (l.filter isS) = settled s l := by
  induction l with
  | nil => rfl
  | cons e l ih =>
    unfold settled at *
    rcases e with ⟨_ | _ | _, m⟩ | _ | _ | _ | _ | _ | _ | _ | _ | _ <;> simp_all [isS, List.filter_cons, List.filterMap_cons]

/-- Nothing about sending flows has changed. -/
structure SameS (a b : St) : Prop where
  S : b.S = a.S
  nS : b.nS = a.nS
  trim : b.trimming = a.trimming
  log : b.log.filter isS = a.log.filter isS
  sIds : b.sIds = a.sIds
  up : b.up = a.up

theorem SameS.refl (a : St) : SameS a a := ⟨rfl, rfl, rfl, rfl, rfl, rfl⟩

theorem SameS.trans {a b c : St} (h : SameS a b) (k : SameS b c) : SameS a c :=
  ⟨k.S.trans h.S, k.nS.trans h.nS, k.trim.trans h.trim, k.log.trans h.log, k.sIds.trans h.sIds, k.up.trans h.up⟩

theorem SameS.view {a b : St} (h : SameS a b) (s : Nat) : view b s = view a s := by
  unfold RTWS.view
  rw [h.S, h.trim, ← sentBy_isS s b.log, ← written_isS s b.log, ← settled_isS s b.log, h.log,
    sentBy_isS, written_isS, settled_isS]

theorem same_note {st : St} {e : Ev} (h : isS e = false) : SameS st (note st e) :=
  ⟨rfl, rfl, rfl, by simp [note, h], rfl, rfl⟩

theorem same_setR (st : St) (r : Nat) (f : RFlow) : SameS st (setR st r f) := ⟨rfl, rfl, rfl, rfl, rfl, rfl⟩

theorem same_schedule (st : St) : SameS st (schedule st) := by
  unfold schedule; split <;> exact ⟨rfl, rfl, rfl, rfl, rfl, rfl⟩

theorem same_scheduleAck (st : St) : SameS st (scheduleAck st) := by
  unfold scheduleAck; split
  · exact SameS.refl _
  · exact SameS.trans (b := { st with ackNow := true }) ⟨rfl, rfl, rfl, rfl, rfl, rfl⟩ (same_schedule _)

theorem same_queueAck (st : St) (r : Nat) (now : Bool) : SameS st (queueAck st r now) := by
  unfold queueAck
  split
  · dsimp only
    have h1 : SameS st (if r ∈ st.ackFlows then st else { st with ackFlows := st.ackFlows ++ [r] }) := by
      split <;> exact ⟨rfl, rfl, rfl, rfl, rfl, rfl⟩
    split
    · exact h1.trans (same_scheduleAck _)
    · exact h1
  · exact SameS.refl _

theorem same_queueTx (st : St) (s : Nat) : SameS st (queueTx st s) := by
  unfold queueTx
  refine SameS.trans ?_ (same_schedule _)
  split <;> exact ⟨rfl, rfl, rfl, rfl, rfl, rfl⟩

theorem same_tx_r (st : St) (r : Nat) (m : Msg) : SameS st (tx st (.r r) m) := by
  unfold tx; split
  · exact same_note rfl
  · exact SameS.refl _

theorem same_tx_self (st : St) (m : Msg) : SameS st (tx st .self m) := by
  unfold tx; split
  · exact same_note rfl
  · exact SameS.refl _

theorem same_accept (st : St) (r : Nat) : SameS st (accept st r) := by
  unfold accept; split
  · exact same_setR _ _ _
  · exact SameS.refl _

theorem same_capacity (st : St) (r n : Nat) : SameS st (capacity st r n) := by
  unfold capacity
  dsimp only
  refine SameS.trans ?_ (same_setR _ _ _)
  split
  · exact SameS.refl _
  · exact same_queueAck _ _ _

theorem same_closeR (st : St) (r k : Nat) (t : Bytes) : SameS st (closeR st r k t) := by
  unfold closeR
  split
  · dsimp only
    have h := (same_setR st r { st.R r with up := false, yes := false }).trans (same_capacity _ r 0)
    split
    · exact h
    · exact h.trans (same_tx_r _ _ _)
  · exact SameS.refl _

theorem same_queueDelivery (st : St) (r : Nat) : SameS st (queueDelivery st r) := by
  unfold queueDelivery
  dsimp only
  split
  · split <;> exact ⟨rfl, rfl, rfl, rfl, rfl, rfl⟩
  · exact SameS.refl _

theorem same_pause (st : St) (r : Nat) (y : Bool) : SameS st (pause st r y) := by
  unfold pause
  dsimp only
  split
  · exact same_setR _ _ _
  · have h := (same_setR st r { st.R r with paused := y }).trans (same_queueDelivery _ r)
    split
    · exact h.trans (same_queueAck _ _ _)
    · exact h

theorem same_sendAck (st : St) (r : Nat) : SameS st (sendAck st r) := by
  unfold sendAck
  dsimp only
  split
  · exact SameS.refl _
  · have h := ((same_setR st r { st.R r with thresh := advert (st.R r) / 2 }).trans
      (same_tx_r _ r (.ack (st.R r).id (st.R r).got (advert (st.R r)))))
    have h2 := h.trans (same_setR _ r { (tx (setR st r { st.R r with thresh := advert (st.R r) / 2 }) (.r r)
      (.ack (st.R r).id (st.R r).got (advert (st.R r)))).R r with got := 0 })
    split
    · exact (h2.trans (same_tx_r _ _ _)).trans (same_setR _ _ _)
    · exact h2

theorem same_foldl {α : Type} (g : St → α → St) (hg : ∀ st a, SameS st (g st a)) :
    ∀ (l : List α) (st : St), SameS st (l.foldl g st)
  | [], st => SameS.refl st
  | a :: l, st => (hg st a).trans (same_foldl g hg l _)

theorem same_sendAcks (st : St) : SameS st (sendAcks st) := by
  unfold sendAcks
  have h := same_foldl sendAck same_sendAck st.ackFlows { st with ackNow := false }
  exact ⟨h.S, h.nS, h.trim, h.log, h.sIds, h.up⟩

theorem same_ackIfNeeded (st : St) : SameS st (ackIfNeeded st) := by
  unfold ackIfNeeded
  split
  · have h := same_scheduleAck st
    exact ⟨h.S, h.nS, h.trim, h.log, h.sIds, h.up⟩
  · exact SameS.refl _

theorem same_onAbandon (st : St) (r n : Nat) : SameS st (onAbandon st r n) := by
  unfold onAbandon
  exact (same_setR _ _ _).trans (same_queueAck _ _ _)

theorem same_onClose (st : St) (r : Nat) : SameS st (onClose st r) := by
  unfold onClose
  exact (((same_setR _ _ _).trans (same_onAbandon _ _ _)).trans (same_queueDelivery _ _)).trans (same_queueAck _ _ _)

theorem same_onData (st : St) (r : Nat) (more : Bool) (b : Bytes) (n : Nat) : SameS st (onData st r more b n) := by
  unfold onData
  dsimp only
  refine SameS.trans ?_ (same_queueAck _ _ _)
  cases more
  · exact (same_setR _ _ _).trans (same_queueDelivery _ _)
  · exact same_setR _ _ _

theorem same_endQuietly (st : St) (r : Nat) : SameS st (endQuietly st r) := by
  unfold endQuietly
  dsimp only
  refine SameS.trans ?_ (same_closeR _ _ _ _)
  split
  · exact SameS.refl _
  · split
    · exact (same_setR _ _ _).trans (same_note rfl)
    · exact same_setR _ _ _

theorem same_endR (st : St) (r : Nat) : SameS st (endR st r) := by
  unfold endR; split
  · exact (same_onClose _ _).trans (same_endQuietly _ _)
  · exact SameS.refl _

theorem same_newR (st : St) (id : Nat) (b : Bytes) : SameS st (newR st id b) := ⟨rfl, rfl, rfl, rfl, rfl, rfl⟩

theorem same_startRTT (st : St) (p : Bool) : SameS st (startRTT st p) := by
  unfold startRTT; split
  · exact same_tx_self _ _
  · exact SameS.refl _

/-- Before a flow is there, nothing has been seen of it. -/
def Unborn (st : St) (s : Nat) : Prop :=
  sentBy s st.log = [] ∧ written s st.log = [] ∧ settled s st.log = [] ∧ st.trimming ≠ .some s

/-- The books of all sending flows are right. -/
def SInv (st : St) : Prop := ∀ s, if s < st.nS then Good (view st s) else Unborn st s

theorem SameS.inv {a b : St} (h : SameS a b) (k : SInv a) : SInv b := by
  intro s
  have hs := k s
  have hv := h.view s
  rw [h.nS]
  split at hs
  · rename_i hl
    rw [if_pos hl, hv]; exact hs
  · rename_i hl
    rw [if_neg hl]
    unfold view at hv
    injection hv with _ _ h3 h4 h5
    exact ⟨by rw [h3]; exact hs.1, by rw [h4]; exact hs.2.1, by rw [h5]; exact hs.2.2.1, by rw [h.trim]; exact hs.2.2.2⟩

/-- Changing flow `s` alone. -/
theorem SInv.one {a b : St} (k : SInv a) (s : Nat) (hs : s < a.nS) (hn : b.nS = a.nS)
    (ho : ∀ t, t ≠ s → view b t = view a t) (hg : Good (view b s)) : SInv b := by
  intro t
  rw [hn]
  by_cases e : t = s
  · subst e; rw [if_pos hs]; exact hg
  · have hv := ho t e
    have ht := k t
    split at ht
    · rename_i hl; rw [if_pos hl, hv]; exact ht
    · rename_i hl
      rw [if_neg hl]
      unfold view at hv
      injection hv with h1 h2 h3 h4 h5
      refine ⟨by rw [h3]; exact ht.1, by rw [h4]; exact ht.2.1, by rw [h5]; exact ht.2.2.1, ?_⟩
      have := ht.2.2.2
      intro hc
      simp [hc, this] at h2

theorem SInv.good {st : St} (k : SInv st) {s : Nat} (hs : s < st.nS) : Good (view st s) := by
  have := k s; rwa [if_pos hs] at this

theorem view_setS_self (st : St) (s : Nat) (f : SFlow) : view (setS st s f) s = { view st s with f := f } := by
  simp [view, setS]

theorem view_setS_other (st : St) (s t : Nat) (f : SFlow) (h : t ≠ s) : view (setS st s f) t = view st t := by
  simp [view, setS, h]

theorem view_wrote (st : St) (s t : Nat) (b : Bytes) : view (note st (.wrote s b)) t =
    if t = s then { view st t with wrote := (view st t).wrote ++ [b] } else view st t := by
  by_cases h : t = s
  · subst h; simp [view, note, sentBy, written, settled]
  · have : ¬ s = t := fun e => h e.symm
    simp [view, note, sentBy, written, settled, h, this]

theorem view_tx (st : St) (s t : Nat) (m : Msg) : view (note st (.tx (.s s) m)) t =
    if t = s then { view st t with wire := (view st t).wire ++ [m] } else view st t := by
  by_cases h : t = s
  · subst h; simp [view, note, sentBy, written, settled]
  · have : ¬ s = t := fun e => h e.symm
    simp [view, note, sentBy, written, settled, h, this]

theorem view_done (st : St) (s t k : Nat) : view (note st (.done s k)) t =
    if t = s then { view st t with told := (view st t).told ++ [(k, true)] } else view st t := by
  by_cases h : t = s
  · subst h; simp [view, note, sentBy, written, settled]
  · have : ¬ s = t := fun e => h e.symm
    simp [view, note, sentBy, written, settled, h, this]

theorem view_dropped (st : St) (s t k : Nat) : view (note st (.dropped s k)) t =
    if t = s then { view st t with told := (view st t).told ++ [(k, false)] } else view st t := by
  by_cases h : t = s
  · subst h; simp [view, note, sentBy, written, settled]
  · have : ¬ s = t := fun e => h e.symm
    simp [view, note, sentBy, written, settled, h, this]

/-- A change to the flow that doesn't touch messages, opening and closing. -/
theorem SInv.ctl {st : St} (k : SInv st) (s : Nat) (hs : s < st.nS) (f' : SFlow)
    (h1 : f'.id = (st.S s).id) (h2 : f'.buf = (st.S s).buf)
    (h3 : f'.count = (st.S s).count) (h4 : f'.lost = (st.S s).lost) (h5 : f'.opening = (st.S s).opening)
    (h6 : f'.shut = (st.S s).shut) (h7 : (st.S s).up = false → f'.up = false) : SInv (setS st s f') := by
  refine k.one s hs rfl (fun t ht => view_setS_other _ _ _ _ ht) ?_
  rw [view_setS_self]
  exact (k.good hs).ctl f' h1 h2 h3 h4 h5 h6 h7

theorem good_new (st : St) (s id pri : Nat) (ret : Option Nat) (about : Bytes) (h : Unborn st s) :
    Good { view st s with f := { id := id, pri := pri, opening := .some (.opens id ret about) } } := by
  obtain ⟨h1, h2, h3, h4⟩ := h
  constructor <;> simp [view, h1, h2, h3, h4, listen, carriedOf, Tune, Framed]

theorem inv_openFlow {st : St} (k : SInv st) (id : Nat) (ret : Option Nat) (about : Bytes) (pri : Nat) :
    SInv (openFlow st id ret about pri) := by
  unfold openFlow
  split
  · dsimp only
    refine (same_queueTx _ _).inv ?_
    intro t
    have hn := k st.nS
    rw [if_neg (by omega)] at hn
    by_cases e : t = st.nS
    · subst e
      simp only [Nat.lt_succ_self, if_true]
      have := good_new st st.nS id pri ret about hn
      rw [← view_setS_self st] at this
      exact this
    · have ht := k t
      have hv := view_setS_other st st.nS t { id := id, pri := pri, opening := .some (.opens id ret about) } e
      split at ht
      · rename_i hl
        dsimp only
        rw [if_pos (by omega)]
        rw [← hv] at ht; exact ht
      · rename_i hl
        dsimp only
        rw [if_neg (by omega)]
        exact ht
  · exact k

theorem inv_write {st : St} (k : SInv st) (s : Nat) (b : Bytes) : SInv (write st s b) := by
  unfold write
  dsimp only
  split
  · rename_i hc
    simp only [Bool.and_eq_true, decide_eq_true_eq] at hc
    refine (same_queueTx _ _).inv ?_
    refine SInv.one (a := st) k s hc.1 rfl ?_ ?_
    · intro t ht
      rw [view_wrote, if_neg ht, view_setS_other _ _ _ _ ht]; rfl
    · rw [view_wrote, if_pos rfl, view_setS_self]
      exact (k.good hc.1).write hc.2 b
  · exact k

theorem inv_closeS {st : St} (k : SInv st) (s : Nat) : SInv (closeS st s) := by
  unfold closeS
  split
  · rename_i hc
    simp only [Bool.and_eq_true, decide_eq_true_eq] at hc
    exact (same_queueTx _ _).inv (k.ctl s hc.1 _ rfl rfl rfl rfl rfl rfl (fun _ => rfl))
  · exact k

theorem inv_setPriority {st : St} (k : SInv st) (s pri : Nat) : SInv (setPriority st s pri) := by
  unfold setPriority
  split
  · rename_i hc
    exact (same_queueTx _ _).inv (k.ctl s hc.1 _ rfl rfl rfl rfl rfl rfl (fun h => h))
  · exact k

theorem SInv.drop {st : St} (k : SInv st) (s : Nat) (hs : s < st.nS) (m : WMsg) (rest : List WMsg)
    (hb : (st.S s).buf = m :: rest) (hf : m.fin = false) (ht : st.trimming ≠ .some s) :
    SInv (setS (note st (.dropped s m.num)) s { st.S s with buf := rest, lost := (st.S s).lost + 1 }) := by
  refine SInv.one k s hs rfl ?_ ?_
  · intro t e
    rw [view_setS_other _ _ _ _ e, view_dropped, if_neg e]
  · rw [view_setS_self, view_dropped, if_pos rfl]
    have h1 := (k.good hs).dropNote m rest hb (by simp [view, ht]) hf
    have h2 := h1.dropRemove rfl
    simp only [view, hb, List.tail_cons, beq_eq_false_iff_ne.2 ht] at h2 ⊢
    exact h2

theorem dropAll_nS (s : Nat) : ∀ (n : Nat) (st : St), (dropAll n st s).nS = st.nS ∧ (dropAll n st s).trimming = st.trimming
    ∧ (dropAll n st s).sIds = st.sIds ∧ (dropAll n st s).up = st.up
  | 0, st => ⟨rfl, rfl, rfl, rfl⟩
  | n + 1, st => by
    unfold dropAll
    dsimp only
    split
    · exact ⟨rfl, rfl, rfl, rfl⟩
    · split
      · exact ⟨rfl, rfl, rfl, rfl⟩
      · exact dropAll_nS s n _

theorem inv_dropAll (s : Nat) : ∀ (n : Nat) (st : St), SInv st → s < st.nS → st.trimming ≠ .some s → SInv (dropAll n st s)
  | 0, st, k, _, _ => k
  | n + 1, st, k, hs, ht => by
    unfold dropAll
    dsimp only
    split
    · exact k
    · rename_i m rest hb
      split
      · exact k
      · rename_i hf
        exact inv_dropAll s n _ (k.drop s hs m rest hb (by simpa using hf) ht) hs ht

theorem endS_nS (st : St) (s : Nat) : (endS st s).nS = st.nS ∧ (endS st s).trimming = st.trimming
    ∧ (endS st s).sIds = st.sIds ∧ (endS st s).up = st.up := by
  unfold endS
  dsimp only
  split
  · exact dropAll_nS s _ _
  · exact ⟨rfl, rfl, rfl, rfl⟩

theorem inv_endS {st : St} (k : SInv st) (s : Nat) (hs : s < st.nS) (ht : st.trimming ≠ .some s) : SInv (endS st s) := by
  unfold endS
  dsimp only
  split
  · exact inv_dropAll s _ _ ((same_note rfl).inv (k.ctl s hs _ rfl rfl rfl rfl rfl rfl (fun _ => rfl))) hs ht
  · exact k

/-- The numbers lead to flows that are there. -/
def Table (st : St) : Prop := ∀ p ∈ st.sIds, p.2 < st.nS

theorem inv_endAll : ∀ (l : List (Nat × Nat)) (st : St), SInv st → (∀ p ∈ l, p.2 < st.nS) → st.trimming = .none →
    SInv (l.foldl (fun st p => endS st p.2) st) ∧ (l.foldl (fun st p => endS st p.2) st).nS = st.nS ∧
    (l.foldl (fun st p => endS st p.2) st).trimming = .none ∧ (l.foldl (fun st p => endS st p.2) st).sIds = st.sIds
  | [], st, k, _, ht => ⟨k, rfl, ht, rfl⟩
  | p :: l, st, k, h, ht => by
    have h1 := endS_nS st p.2
    have h2 := inv_endAll l (endS st p.2) (inv_endS k p.2 (h p (by simp)) (by simp [ht]))
      (fun q hq => by rw [h1.1]; exact h q (by simp [hq])) (by rw [h1.2.1]; exact ht)
    simp only [List.foldl_cons]
    exact ⟨h2.1, h2.2.1.trans h1.1, h2.2.2.1, h2.2.2.2.trans h1.2.2.1⟩

theorem inv_close {st : St} (k : SInv st) (ht : Table st) : SInv (close st) ∧ Table (close st) := by
  unfold close
  split
  · exact ⟨k, ht⟩
  split
  · exact ⟨k, ht⟩
  · rename_i h1 h2
    dsimp only
    have hn : st.trimming = .none := by simpa using h2
    have h3 := inv_endAll st.sIds { st with up := false, userUp := false, sIds := [] }
      (SameS.inv (a := { st with sIds := [], up := false }) ⟨rfl, rfl, rfl, rfl, rfl, rfl⟩ k) ht hn
    have h4 := same_foldl (fun (st : St) (p : Nat × Nat) => endR st p.2) (fun st p => same_endR st p.2)
      (List.foldl (fun st p => endS st p.2) { st with up := false, userUp := false, sIds := [] } st.sIds).rIds
      { List.foldl (fun st p => endS st p.2) { st with up := false, userUp := false, sIds := [] } st.sIds with rIds := [] }
    have h5 : SInv { List.foldl (fun st p => endS st p.2) { st with up := false, userUp := false, sIds := [] } st.sIds with rIds := [] } := h3.1
    have h6 := h4.inv h5
    refine ⟨h6, ?_⟩
    intro p hp
    have h7 := h4.sIds
    rw [show (List.foldl (fun (st : St) (p : Nat × Nat) => endS st p.2) { st with up := false, userUp := false, sIds := [] } st.sIds).sIds = [] from h3.2.2.2] at h7
    have hp' : p ∈ ([] : List (Nat × Nat)) := by rw [← h7]; exact hp
    simp at hp'

end Rtmfp.RTWS
