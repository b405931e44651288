import Verif.Lemmas.RTWSendStep

/-!
# Sending flows: whole histories
-/

namespace Rtmfp.RTWS

open Rtmfp.Spec.Flows

/-- Right and calm. -/
structure Okay (st : St) : Prop where
  fine : Fine st
  calm : Calm st

theorem SameS.okay {a b : St} (h : SameS a b) (k : Okay a) : Okay b := ⟨h.fine k.fine, h.keep.calm k.calm⟩

theorem okay_init : Okay init := by
  refine ⟨⟨?_, ?_⟩, rfl, ?_⟩
  · intro s; simp [init, Unborn, sentBy, written, settled]
  · intro p hp; simp [init] at hp
  · intro s hs; simp [init] at hs

theorem okay_call {st : St} (k : Okay st) (c : Call) : Okay (call st c) := ⟨fine_call k.fine c, (keep_call st c).calm k.calm⟩

theorem okay_tell (app : App) {st : St} {e : Ev} (k : Okay st) (h : isS e = false) : Okay (tell app st e) :=
  ⟨fine_tell_quiet app k.fine h, (keep_tell app st e).calm k.calm⟩

theorem okay_close {st : St} (k : Okay st) : Okay (close st) := okay_call k .close

theorem okay_closeS {st : St} (k : Okay st) (s : Nat) : Okay (closeS st s) := okay_call k (.closeS s)

theorem okay_ctl {st : St} (k : Okay st) (s : Nat) (hs : s < st.nS) (f' : SFlow)
    (h1 : f'.id = (st.S s).id) (h2 : f'.buf = (st.S s).buf)
    (h3 : f'.count = (st.S s).count) (h4 : f'.lost = (st.S s).lost) (h5 : f'.opening = (st.S s).opening)
    (h6 : f'.shut = (st.S s).shut) (h7 : (st.S s).up = false → f'.up = false) : Okay (setS st s f') := by
  refine ⟨⟨k.fine.inv.ctl s hs f' h1 h2 h3 h4 h5 h6 h7, k.fine.table⟩, calm_setS k.calm s _ ?_⟩
  rw [h2]; exact k.calm.fin s hs

theorem okay_trim (app : App) {st : St} (k : Okay st) (s exp : Nat) (hs : s < st.nS) : Okay (trim app st s exp) := by
  have := trim_loop app s (if (st.S s).exc then (st.S s).buf.length else exp) st k.fine k.calm hs
  exact ⟨this.1, this.2.1⟩

/-- `SendFlow::transmit`. -/
theorem okay_transmitS (app : App) {st : St} (k : Okay st) (s pri exp : Nat) (hs : s < st.nS) (hu : st.up = true) :
    Okay (transmitS app st s pri exp).1 ∧ ((transmitS app st s pri exp).2 = false → (transmitS app st s pri exp).1.up = true) ∧
      st.nS ≤ (transmitS app st s pri exp).1.nS := by
  unfold transmitS
  split
  · exact ⟨k, fun _ => hu, Nat.le_refl _⟩
  split
  · rename_i m ho
    rw [tx_up hu]
    refine ⟨⟨⟨SInv.say k.fine.inv s hs m _ ((k.fine.inv.good hs).sayOpen m ho), k.fine.table⟩, ?_⟩, by simp, Nat.le_refl _⟩
    exact calm_setS (st := note st _) ⟨k.calm.trim, k.calm.fin⟩ s _ (k.calm.fin s hs)
  · rename_i ho
    obtain ⟨a1, a2, a3, a4, a5⟩ := trim_loop app s (if (st.S s).exc then (st.S s).buf.length else exp) st k.fine k.calm hs
    have hT : trim app st s exp = trimLoop app (if (st.S s).exc then (st.S s).buf.length else exp) st s := rfl
    rw [← hT] at a1 a2 a3 a4 a5
    generalize trim app st s exp = T at a1 a2 a3 a4 a5 ⊢
    have hs' : s < T.nS := by omega
    have hoT : (T.S s).opening = .none := by rw [(a5 s hs).1, ho]
    have huT : T.up = true := by rw [a3, hu]
    dsimp only
    split
    · rename_i hl
      rw [tx_up huT]
      refine ⟨⟨⟨SInv.say a1.inv s hs' _ _ ((a1.inv.good hs').sayAbandon hl hoT), a1.table⟩, ?_⟩, by simp, a4⟩
      exact calm_setS (st := note T _) ⟨a2.trim, a2.fin⟩ s _ (a2.fin s hs')
    · rename_i hl
      split
      · rename_i hc
        simp only [Bool.and_eq_true, Bool.not_eq_true', List.isEmpty_iff] at hc
        rw [tx_up huT]
        refine ⟨⟨⟨SInv.say a1.inv s hs' _ _ ((a1.inv.good hs').sayClose (by show (T.S s).lost = 0; omega) hc.1.2 hc.1.1 hc.2 hoT), a1.table⟩, ?_⟩, by simp, a4⟩
        exact calm_setS (st := note T _) ⟨a2.trim, a2.fin⟩ s _ (a2.fin s hs')
      · split
        · exact ⟨⟨a1, a2⟩, fun _ => huT, a4⟩
        · have hf := fragment_fine app a1 a2 s hs' huT (by omega) hoT
          refine ⟨⟨hf.1, hf.2⟩, ?_, ?_⟩
          · unfold fragment
            dsimp only
            split
            · exact fun _ => huT
            · split
              · exact fun _ => huT
              · split <;> simp
          · refine Nat.le_trans a4 ?_
            unfold fragment
            dsimp only
            split
            · exact Nat.le_refl _
            · split
              · exact Nat.le_refl _
              · split
                · refine Nat.le_trans ?_ (keep_tell app _ _).nS
                  rw [tx_up huT]; exact Nat.le_refl _
                · rw [tx_up huT]; exact Nat.le_refl _

/-- The queues hold flows that are there. -/
def Queued (st : St) : Prop := ∀ p, ∀ s ∈ st.work p, s < st.nS

theorem SameS.queued {a b : St} (h : SameS a b) (hw : b.work = a.work) (k : Queued a) : Queued b := by
  intro p s hs; rw [h.nS]; rw [hw] at hs; exact k p s hs

theorem queued_schedule {st : St} (k : Queued st) : Queued (schedule st) := by
  unfold schedule; split <;> exact k

theorem queued_queueTx {st : St} (k : Queued st) (s : Nat) (hs : s < st.nS) : Queued (queueTx st s) := by
  unfold queueTx
  refine queued_schedule ?_
  split
  · intro p t ht
    simp only at ht
    split at ht
    · simp only [List.mem_append, List.mem_singleton] at ht
      rcases ht with ht | ht
      · exact k p t ht
      · subst ht; exact hs
    · exact k p t ht
  · exact k

theorem work_schedule (st : St) : (schedule st).work = st.work := by unfold schedule; split <;> rfl
theorem work_scheduleAck (st : St) : (scheduleAck st).work = st.work := by
  unfold scheduleAck; split
  · rfl
  · rw [work_schedule]
theorem work_queueAck (st : St) (r : Nat) (n : Bool) : (queueAck st r n).work = st.work := by
  unfold queueAck
  split
  · dsimp only
    split
    · rw [work_scheduleAck]; split <;> rfl
    · split <;> rfl
  · rfl
theorem work_tx (st : St) (w : Who) (m : Msg) : (tx st w m).work = st.work := by unfold tx; split <;> rfl
theorem work_capacity (st : St) (r n : Nat) : (capacity st r n).work = st.work := by
  unfold capacity
  dsimp only
  simp only [setR]
  split
  · rfl
  · rw [work_queueAck]
theorem work_closeR (st : St) (r k : Nat) (t : Bytes) : (closeR st r k t).work = st.work := by
  unfold closeR
  split
  · dsimp only
    split
    · rw [work_capacity]; rfl
    · rw [work_tx, work_capacity]; rfl
  · rfl
theorem work_queueDelivery (st : St) (r : Nat) : (queueDelivery st r).work = st.work := by
  unfold queueDelivery
  dsimp only
  split
  · split <;> rfl
  · rfl
theorem work_pause (st : St) (r : Nat) (y : Bool) : (pause st r y).work = st.work := by
  unfold pause
  dsimp only
  split
  · rfl
  · split
    · rw [work_queueAck, work_queueDelivery]; rfl
    · rw [work_queueDelivery]; rfl
theorem work_sendAck (st : St) (r : Nat) : (sendAck st r).work = st.work := by
  unfold sendAck
  dsimp only
  split
  · rfl
  · split
    · simp only [setR, work_tx]
    · simp only [setR, work_tx]
theorem work_foldl {α : Type} (g : St → α → St) (hg : ∀ st a, (g st a).work = st.work) :
    ∀ (l : List α) (st : St), (l.foldl g st).work = st.work
  | [], _ => rfl
  | a :: l, st => (work_foldl g hg l _).trans (hg st a)
theorem work_sendAcks (st : St) : (sendAcks st).work = st.work := by
  unfold sendAcks
  exact work_foldl sendAck work_sendAck _ _
theorem work_ackIfNeeded (st : St) : (ackIfNeeded st).work = st.work := by
  unfold ackIfNeeded; split
  · exact work_scheduleAck _
  · rfl
theorem work_onAbandon (st : St) (r n : Nat) : (onAbandon st r n).work = st.work := by
  unfold onAbandon; dsimp only; rw [work_queueAck]; rfl
theorem work_onClose (st : St) (r : Nat) : (onClose st r).work = st.work := by
  unfold onClose; rw [work_queueAck, work_queueDelivery, work_onAbandon]; rfl
theorem work_onData (st : St) (r : Nat) (m : Bool) (b : Bytes) (n : Nat) : (onData st r m b n).work = st.work := by
  unfold onData
  dsimp only
  rw [work_queueAck]
  cases m
  · simp only [Bool.false_eq_true, if_false]; rw [work_queueDelivery]; rfl
  · rfl
theorem work_startRTT (st : St) (p : Bool) : (startRTT st p).work = st.work := by
  unfold startRTT; split
  · exact work_tx _ _ _
  · rfl

theorem queued_call {st : St} (k : Queued st) (c : Call) : Queued (call st c) := by
  cases c <;> simp only [call]
  · rename_i id about pri
    split
    · unfold openFlow
      split
      · dsimp only
        refine queued_queueTx ?_ _ (by simp)
        intro p t ht
        exact Nat.lt_succ_of_lt (k p t ht)
      · exact k
    · exact k
  · rename_i r id about pri
    split
    · unfold openFlow
      split
      · dsimp only
        refine queued_queueTx ?_ _ (by simp)
        intro p t ht
        exact Nat.lt_succ_of_lt (k p t ht)
      · exact k
    · exact k
  · unfold write
    dsimp only
    split
    · rename_i hc
      simp only [Bool.and_eq_true, decide_eq_true_eq] at hc
      refine queued_queueTx ?_ _ hc.1
      exact k
    · exact k
  · unfold closeS
    split
    · rename_i hc
      simp only [Bool.and_eq_true, decide_eq_true_eq] at hc
      refine queued_queueTx ?_ _ hc.1
      exact k
    · exact k
  · unfold setPriority
    split
    · rename_i hc
      refine queued_queueTx ?_ _ hc.1
      exact k
    · exact k
  · refine (same_accept _ _).queued ?_ k
    unfold accept; split <;> rfl
  · split
    · exact (same_closeR _ _ _ _).queued (work_closeR _ _ _ _) k
    · exact k
  · split
    · exact (same_capacity _ _ _).queued (work_capacity _ _ _) k
    · exact k
  · split
    · exact (same_pause _ _ _).queued (work_pause _ _ _) k
    · exact k
  · unfold close
    split
    · exact k
    split
    · exact k
    · intro p t ht; simp at ht

theorem queued_calls : ∀ (cs : List Call) (st : St), Queued st → Queued (cs.foldl call st)
  | [], _, k => k
  | c :: cs, _, k => queued_calls cs _ (queued_call k c)

theorem queued_tell (app : App) {st : St} (k : Queued st) (e : Ev) : Queued (tell app st e) :=
  queued_calls _ _ (show Queued (note st e) from k)

theorem queued_trimLoop (app : App) (s : Nat) : ∀ (n : Nat) (st : St), Queued st → Queued (trimLoop app n st s)
  | 0, _, k => k
  | n + 1, st, k => by
    rw [trimLoop_eq]
    split
    · exact k
    · rename_i m _ _
      refine queued_trimLoop app s n _ ?_
      have h1 : Queued (tell app { st with trimming := .some s } (.dropped s m.num)) := queued_tell app (st := { st with trimming := .some s }) k _
      exact h1

theorem queued_tx {st : St} (k : Queued st) (w : Who) (m : Msg) : Queued (tx st w m) := by
  unfold tx; split <;> exact k

theorem queued_transmitS (app : App) {st : St} (k : Queued st) (s pri exp : Nat) : Queued (transmitS app st s pri exp).1 := by
  unfold transmitS
  split
  · exact k
  split
  · exact queued_tx k _ _
  · have h1 : Queued (trim app st s exp) := queued_trimLoop app s _ _ k
    generalize trim app st s exp = T at h1 ⊢
    dsimp only
    split
    · exact queued_tx h1 _ _
    split
    · exact queued_tx h1 _ _
    split
    · exact h1
    · unfold fragment
      dsimp only
      split
      · exact h1
      split
      · exact h1
      split
      · refine queued_tell app (st := setS _ _ _) ?_ _
        exact queued_tx h1 _ _
      · exact queued_tx h1 _ _

/-- Right, calm, and the queues hold flows. -/
structure Whole (st : St) : Prop where
  okay : Okay st
  queued : Queued st

theorem SameS.whole {a b : St} (h : SameS a b) (hw : b.work = a.work) (k : Whole a) : Whole b :=
  ⟨h.okay k.okay, h.queued hw k.queued⟩

theorem whole_call {st : St} (k : Whole st) (c : Call) : Whole (call st c) := ⟨okay_call k.okay c, queued_call k.queued c⟩

theorem whole_tell (app : App) {st : St} {e : Ev} (k : Whole st) (h : isS e = false) : Whole (tell app st e) :=
  ⟨okay_tell app k.okay h, queued_tell app k.queued e⟩

theorem okay_work {st : St} (k : Okay st) (w : Nat → List Nat) : Okay { st with work := w } :=
  SameS.okay (a := st) ⟨rfl, rfl, rfl, rfl, rfl, rfl⟩ k

theorem whole_tryPri (app : App) (exp : Nat → Nat) (probe : Bool) (pri : Nat) : ∀ (n : Nat) (st : St), Whole st → st.up = true →
    Whole (tryPri app exp probe n st pri).1 ∧ ((tryPri app exp probe n st pri).2 = false → (tryPri app exp probe n st pri).1.up = true)
  | 0, st, k, hu => ⟨k, fun _ => hu⟩
  | n + 1, st, k, hu => by
    unfold tryPri
    split
    · exact ⟨k, fun _ => hu⟩
    · rename_i s rest hw
      have hs : s < st.nS := k.queued pri s (by simp [hw])
      obtain ⟨a1, a2, a3⟩ := okay_transmitS app k.okay s pri (exp s) hs hu
      have a4 := queued_transmitS app k.queued s pri (exp s)
      dsimp only
      split
      · refine ⟨?_, by simp⟩
        refine (same_startRTT _ _).whole (work_startRTT _ _) ?_
        split
        · rename_i hm
          refine ⟨okay_work a1 _, ?_⟩
          intro p t ht
          simp only at ht
          split at ht
          · simp only [List.mem_append, List.mem_singleton] at ht
            rcases ht with ht | ht
            · exact a4 p t (List.mem_of_mem_erase ht)
            · subst ht; exact a4 pri t hm
          · exact a4 p t ht
        · exact ⟨a1, a4⟩
      · rename_i hf
        refine whole_tryPri app exp probe pri n _ ⟨okay_work a1 _, ?_⟩ ?_
        · intro p t ht
          simp only at ht
          split at ht
          · exact a4 p t (List.mem_of_mem_erase ht)
          · exact a4 p t ht
        · exact a2 (by simpa using hf)

theorem whole_tryAll (app : App) (exp : Nat → Nat) (probe : Bool) : ∀ (n : Nat) (st : St), Whole st → st.up = true →
    Whole (tryAll app exp probe n st).1
  | 0, st, k, hu => k
  | n + 1, st, k, hu => by
    unfold tryAll
    obtain ⟨a1, a2⟩ := whole_tryPri app exp probe n (st.work n).length st k hu
    dsimp only
    split
    · exact a1
    · rename_i hf
      exact whole_tryAll app exp probe n _ a1 (a2 (by simpa using hf))

theorem whole_transmit (app : App) (exp : Nat → Nat) (probe : Bool) {st : St} (k : Whole st) : Whole (transmit app exp probe st) := by
  unfold transmit
  split
  · exact k
  · rename_i hc
    have hu : st.up = true := by
      cases h : st.up with
      | true => rfl
      | false => simp [h] at hc
    split
    · exact (same_sendAcks _).whole (work_sendAcks _) k
    · have h1 : Whole (if inFlight st < st.thresh then tryAll app exp probe 8 st else (st, false)).1 := by
        split
        · exact whole_tryAll app exp probe 8 st k hu
        · exact k
      generalize (if inFlight st < st.thresh then tryAll app exp probe 8 st else (st, false)) = q at h1 ⊢
      dsimp only
      split
      · exact h1
      · exact SameS.whole (a := q.1) ⟨rfl, rfl, rfl, rfl, rfl, rfl⟩ rfl h1

theorem whole_deliverLoop (app : App) (r : Nat) : ∀ (n : Nat) (st : St), Whole st → Whole (deliverLoop app n st r)
  | 0, _, k => k
  | n + 1, st, k => by
    unfold deliverLoop
    dsimp only
    split
    · exact k
    · split
      · exact k
      · exact whole_deliverLoop app r n _ (whole_tell app ((same_setR _ _ _).whole rfl k) rfl)

theorem whole_endFlow (app : App) {st : St} (k : Whole st) (r : Nat) : Whole (endFlow app st r) := by
  unfold endFlow
  dsimp only
  refine (same_closeR _ _ _ _).whole (work_closeR _ _ _ _) ?_
  split
  · exact k
  · split
    · exact whole_tell app ((same_setR _ _ _).whole rfl k) rfl
    · exact (same_setR _ _ _).whole rfl k

theorem whole_deliver (app : App) {st : St} (k : Whole st) (r : Nat) : Whole (deliver app st r) := by
  unfold deliver
  dsimp only
  have h := whole_deliverLoop app r ((setR st r { st.R r with pending := false }).R r).buf.length _ ((same_setR st r { st.R r with pending := false }).whole rfl k)
  split
  · exact whole_endFlow app h r
  · exact h

theorem whole_fail (app : App) {st : St} (k : Whole st) : Whole (fail app st) := whole_call (whole_tell app k rfl) .close

theorem whole_queueTx {st : St} (k : Whole st) (s : Nat) (hs : s < st.nS) : Whole (queueTx st s) :=
  ⟨(same_queueTx _ _).okay k.okay, queued_queueTx k.queued s hs⟩

theorem whole_trim (app : App) {st : St} (k : Whole st) (s exp : Nat) (hs : s < st.nS) : Whole (trim app st s exp) :=
  ⟨okay_trim app k.okay s exp hs, queued_trimLoop app s _ _ k.queued⟩

theorem trim_nS (app : App) {st : St} (k : Whole st) (s exp : Nat) (hs : s < st.nS) : st.nS ≤ (trim app st s exp).nS :=
  (trim_loop app s (if (st.S s).exc then (st.S s).buf.length else exp) st k.okay.fine k.okay.calm hs).2.2.2.1

theorem whole_onRefuse (app : App) {st : St} (k : Whole st) (s reason : Nat) (text : Bytes) (hs : s < st.nS) :
    Whole (onRefuse app st s reason text) := by
  unfold onRefuse
  dsimp only
  have h1 : Whole (setS st s { st.S s with exc := true }) :=
    ⟨okay_ctl k.okay s hs _ rfl rfl rfl rfl rfl rfl (fun h => h), k.queued⟩
  have h2 : Whole (if (st.S s).up = true then
        tell app (closeS (setS st s { st.S s with exc := true }) s) (.refused s reason text)
      else setS st s { st.S s with exc := true }) ∧ s < (if (st.S s).up = true then
        tell app (closeS (setS st s { st.S s with exc := true }) s) (.refused s reason text)
      else setS st s { st.S s with exc := true }).nS := by
    split
    · refine ⟨whole_tell app (whole_call h1 (.closeS s)) rfl, ?_⟩
      have := (keep_tell app (closeS (setS st s { st.S s with exc := true }) s) (.refused s reason text)).nS
      have h3 := (keep_closeS (setS st s { st.S s with exc := true }) s).nS
      exact Nat.lt_of_lt_of_le hs (Nat.le_trans h3 this)
    · exact ⟨h1, hs⟩
  exact whole_queueTx (whole_trim app h2.1 s 0 h2.2) s (Nat.lt_of_lt_of_le h2.2 (trim_nS app h2.1 s 0 h2.2))

theorem find_mem {t : List (Nat × Nat)} {id s : Nat} (h : find t id = .some s) : (id, s) ∈ t := by
  unfold find at h
  simp only [Option.map_eq_some_iff] at h
  obtain ⟨p, hp, rfl⟩ := h
  have h1 := List.mem_of_find?_eq_some hp
  have h2 := List.find?_some hp
  simp only [beq_iff_eq] at h2
  rw [← h2]; exact h1

theorem whole_offer (app : App) {st : St} (k : Whole st) (r : Nat) (on : Option Nat) : Whole (offer app st r on) := by
  unfold offer
  dsimp only
  refine (same_queueAck _ _ _).whole (work_queueAck _ _ _) ?_
  have h := whole_tell app (e := .offered r on) k rfl
  split
  · exact h
  · exact (same_closeR _ _ _ _).whole (work_closeR _ _ _ _) h

theorem whole_note {st : St} {e : Ev} (k : Whole st) (h : isS e = false) : Whole (note st e) := (same_note h).whole rfl k

theorem whole_act (app : App) {st : St} (k : Whole st) (len : Nat) (m : Msg) : Whole (act app st len m).1 := by
  cases m with
  | ping b => exact (same_tx_self _ _).whole (work_tx _ _ _) k
  | pong b => exact k
  | window n =>
    exact SameS.whole (a := st) (SameS.trans (b := { st with ackWin := max n 2800 }) ⟨rfl, rfl, rfl, rfl, rfl, rfl⟩ (same_ackIfNeeded _)) (work_ackIfNeeded _) k
  | opens id ret about =>
    simp only [act]
    split
    · exact k
    · have h1 : Whole (note (newR st id about) (.heard st.nR (.opens id ret about))) :=
        whole_note ((same_newR st id about).whole rfl k) rfl
      split
      · exact whole_offer app h1 _ _
      · split
        · exact (same_closeR _ _ _ _).whole (work_closeR _ _ _ _) h1
        · split
          · exact whole_offer app h1 _ _
          · exact (same_closeR _ _ _ _).whole (work_closeR _ _ _ _) h1
  | data id more b =>
    simp only [act]
    split
    · exact k
    · refine (same_onData _ _ _ _ _).whole (work_onData _ _ _ _ _) (whole_note ?_ rfl)
      exact SameS.whole (a := st) (SameS.trans (b := { st with acc := st.acc + len }) ⟨rfl, rfl, rfl, rfl, rfl, rfl⟩ (same_ackIfNeeded _)) (work_ackIfNeeded _) k
  | abandon id extra =>
    simp only [act]
    split
    · exact k
    · exact (same_onAbandon _ _ _).whole (work_onAbandon _ _ _) (whole_note k rfl)
  | closes id =>
    simp only [act]
    split
    · exact k
    · rename_i r _
      have h1 := (same_onClose (note st (.heard r (.closes id))) r).whole (work_onClose _ _) (whole_note k rfl)
      exact SameS.whole (a := onClose (note st (.heard r (.closes id))) r) ⟨rfl, rfl, rfl, rfl, rfl, rfl⟩ rfl h1
  | ack id d a =>
    simp only [act]
    split
    · exact k
    · rename_i s hf
      have hs := k.okay.fine.table _ (find_mem hf)
      refine whole_queueTx ?_ s hs
      have h1 : Whole { st with bytesAcked := st.bytesAcked + d } := SameS.whole (a := st) ⟨rfl, rfl, rfl, rfl, rfl, rfl⟩ rfl k
      exact ⟨okay_ctl h1.okay s hs _ rfl rfl rfl rfl rfl rfl (fun h => h), h1.queued⟩
  | closeAck id =>
    simp only [act]
    split
    · exact k
    · split
      · exact k
      · refine ⟨⟨⟨SameS.inv (a := { st with sIds := st.sIds.filter fun p => p.1 != id }) ⟨rfl, rfl, rfl, rfl, rfl, rfl⟩ k.okay.fine.inv, ?_⟩, k.okay.calm.trim, k.okay.calm.fin⟩, k.queued⟩
        intro p hp
        simp only [List.mem_filter] at hp
        exact k.okay.fine.table p hp.1
  | refuse id reason text =>
    simp only [act]
    split
    · exact k
    · rename_i s hf
      exact whole_onRefuse app k s reason text (k.okay.fine.table _ (find_mem hf))

theorem whole_step (app : App) {st : St} (k : Whole st) (o : Op) : Whole (step app st o) := by
  unfold step
  split
  · exact k
  cases o with
  | call c => exact whole_call k c
  | recv b =>
    dsimp only
    split
    · unfold arrive
      split
      · exact whole_fail app k
      · exact k
      · dsimp only
        split
        · exact whole_act app k _ _
        · exact whole_fail app (whole_act app k _ _)
    · exact k
  | transmit exp probe => exact whole_transmit app exp probe k
  | task =>
    dsimp only
    split
    · exact k
    · rename_i r rest _
      exact whole_deliver app (SameS.whole (a := st) (b := { st with tasks := rest }) ⟨rfl, rfl, rfl, rfl, rfl, rfl⟩ rfl k) r
  | trim s exp =>
    dsimp only
    split
    · rename_i hs; exact whole_trim app k s exp hs
    · exact k
  | gone =>
    dsimp only
    split
    · exact whole_fail app k
    · exact k
  | limit a b c => exact SameS.whole (a := st) ⟨rfl, rfl, rfl, rfl, rfl, rfl⟩ rfl k

theorem whole_run (app : App) : ∀ (os : List Op) (st : St), Whole st → Whole (run app st os)
  | [], _, k => k
  | o :: os, _, k => whole_run app os _ (whole_step app k o)

theorem whole_all (app : App) (os : List Op) : Whole (run app init os) :=
  whole_run app os _ ⟨okay_init, fun p s hs => by simp [init] at hs⟩

end Rtmfp.RTWS
