import Verif.Lemmas.RTWOweAll

/-!
# What a flow has sent and what it was told: the functions that leave both alone
-/

namespace Rtmfp.RTWS

/-- Whether an event is a piece of a flow sent. -/
def isDat : Ev → Bool
  | .tx _ (.data _ _ _) => true
  | _ => false

/-- Numbers lead to flows with these numbers. -/
def TabS (st : St) : Prop := ∀ p ∈ st.sIds, p.2 < st.nS ∧ (st.S p.2).id = p.1

/-- No flow sends data or hears of it; there may be new flows. -/
structure Tame (a b : St) : Prop where
  flow : ∀ s, s < a.nS → (b.S s).id = (a.S s).id ∧ (b.S s).sent = (a.S s).sent ∧ (b.S s).acked = (a.S s).acked ∧ (b.S s).through = (a.S s).through
  nS : a.nS ≤ b.nS
  born : ∀ s, a.nS ≤ s → s < b.nS → (b.S s).sent = 0 ∧ (b.S s).acked = 0 ∧ (b.S s).through = 65536
  dat : b.log.filter isDat = a.log.filter isDat
  on : On b → On a
  ids : TabS a → TabS b

theorem Tame.refl (a : St) : Tame a a :=
  ⟨fun _ _ => ⟨rfl, rfl, rfl, rfl⟩, Nat.le_refl _, fun s h1 h2 => by omega, rfl, fun h => h, fun h => h⟩

theorem Tame.trans {a b c : St} (h : Tame a b) (k : Tame b c) : Tame a c where
  flow s hs := by
    obtain ⟨h1, h2, h3, h4⟩ := h.flow s hs
    obtain ⟨k1, k2, k3, k4⟩ := k.flow s (Nat.lt_of_lt_of_le hs h.nS)
    exact ⟨k1.trans h1, k2.trans h2, k3.trans h3, k4.trans h4⟩
  nS := Nat.le_trans h.nS k.nS
  born s h1 h2 := by
    by_cases hb : s < b.nS
    · obtain ⟨a1, a2, a3⟩ := h.born s h1 hb
      obtain ⟨_, k2, k3, k4⟩ := k.flow s hb
      exact ⟨k2.trans a1, k3.trans a2, k4.trans a3⟩
    · exact k.born s (by omega) h2
  dat := k.dat.trans h.dat
  on o := h.on (k.on o)
  ids t := k.ids (h.ids t)

/-- Changes of what isn't spoken of. -/
theorem tame_eq {a b : St} (hS : b.S = a.S := by rfl) (hn : b.nS = a.nS := by rfl) (ht : b.sIds = a.sIds := by rfl) (hl : b.log = a.log := by rfl)
    (hu : b.up = a.up := by rfl) (hw : b.wild = a.wild := by rfl) : Tame a b :=
  ⟨fun s _ => by rw [hS]; exact ⟨rfl, rfl, rfl, rfl⟩, by omega, fun s h1 h2 => by omega, by rw [hl], fun o => ⟨hu ▸ o.1, hw ▸ o.2⟩,
    fun h p hp => by rw [hn, hS]; exact h p (ht ▸ hp)⟩

theorem tame_note {st : St} {e : Ev} (h : plainEv e = true) : Tame st (note st e) := by
  have hk : isDat e = false := by
    cases e with
    | tx w m => cases m <;> simp_all [plainEv, plainMsg, isDat]
    | _ => rfl
  exact ⟨fun _ _ => ⟨rfl, rfl, rfl, rfl⟩, Nat.le_refl _, fun s h1 h2 => by have : s < st.nS := h2; omega, by simp [note, hk], fun h => h, fun h => h⟩

theorem tame_tx (st : St) (w : Who) (m : Msg) (h : isDat (.tx w m) = false) : Tame st (tx st w m) := by
  unfold tx
  split
  · exact ⟨fun _ _ => ⟨rfl, rfl, rfl, rfl⟩, Nat.le_refl _, fun s h1 h2 => by have : s < st.nS := h2; omega, by simp [note, h], fun h => h, fun h => h⟩
  · exact Tame.refl _

theorem tame_setR (st : St) (r : Nat) (f : RFlow) : Tame st (setR st r f) := tame_eq

theorem tame_setS (st : St) (s : Nat) (f : SFlow) (h : f.id = (st.S s).id ∧ f.sent = (st.S s).sent ∧ f.acked = (st.S s).acked ∧ f.through = (st.S s).through) : Tame st (setS st s f) := by
  have e : ∀ t, ((setS st s f).S t).id = (st.S t).id ∧ ((setS st s f).S t).sent = (st.S t).sent ∧ ((setS st s f).S t).acked = (st.S t).acked ∧ ((setS st s f).S t).through = (st.S t).through := by
    intro t
    simp only [setS]
    split
    · rename_i ht; subst ht; exact h
    · exact ⟨rfl, rfl, rfl, rfl⟩
  exact ⟨fun t _ => e t, Nat.le_refl _, fun s h1 h2 => by have : s < st.nS := h2; omega, rfl, fun h => h, fun h p hp => ⟨(h p hp).1, by rw [(e p.2).1]; exact (h p hp).2⟩⟩

theorem tame_schedule (st : St) : Tame st (schedule st) := by
  unfold schedule; split
  · exact tame_eq
  · exact Tame.refl _
theorem tame_scheduleAck (st : St) : Tame st (scheduleAck st) := by
  unfold scheduleAck; split
  · exact Tame.refl _
  · exact Tame.trans (b := { st with ackNow := true }) tame_eq (tame_schedule _)
theorem tame_addAck (st : St) (r : Nat) : Tame st (if r ∈ st.ackFlows then st else { st with ackFlows := st.ackFlows ++ [r] }) := by
  split
  · exact Tame.refl _
  · exact tame_eq
theorem tame_wild (st : St) (w : Bool) (h : w = false → st.wild = false) : Tame st { st with wild := w } :=
  ⟨fun _ _ => ⟨rfl, rfl, rfl, rfl⟩, Nat.le_refl _, fun s h1 h2 => by have : s < st.nS := h2; omega, rfl, fun o => ⟨o.1, h o.2⟩, fun h => h⟩
theorem tame_queueAck (st : St) (r : Nat) (now : Bool) : Tame st (queueAck st r now) := by
  unfold queueAck
  split
  · have h := tame_addAck st r
    dsimp only
    split
    · exact h.trans (tame_scheduleAck _)
    · exact h
  · exact Tame.refl _
theorem tame_queueTx (st : St) (s : Nat) : Tame st (queueTx st s) := by
  unfold queueTx
  refine Tame.trans ?_ (tame_schedule _)
  split
  · exact tame_eq
  · exact Tame.refl _
theorem tame_openFlow (st : St) (id : Nat) (ret : Option Nat) (about : Bytes) (pri : Nat) : Tame st (openFlow st id ret about pri) := by
  unfold openFlow
  split
  · refine Tame.trans ?_ (tame_queueTx _ _)
    refine ⟨fun s hs => ?_, Nat.le_succ _, fun s h1 h2 => ?_, rfl, fun h => h, fun h p hp => ?_⟩
    · have : s ≠ st.nS := by omega
      simp [setS, this]
    · have h2 : s < st.nS + 1 := h2
      have : s = st.nS := by omega
      simp [setS, this]
    · simp only [List.mem_append, List.mem_singleton] at hp
      rcases hp with hp | hp
      · have := h p hp
        have hne : p.2 ≠ st.nS := by omega
        simp only [setS, if_neg hne]
        exact ⟨by omega, this.2⟩
      · rw [hp]; simp [setS]
  · exact Tame.refl _
theorem tame_write (st : St) (s : Nat) (b : Bytes) : Tame st (write st s b) := by
  unfold write
  dsimp only
  split
  · refine Tame.trans ?_ (tame_queueTx _ _)
    refine Tame.trans ?_ (tame_note rfl)
    refine (tame_wild st (st.wild || decide (st.trimming = .some s)) (by cases st.wild <;> simp)).trans ?_
    exact tame_setS _ _ _ ⟨rfl, rfl, rfl, rfl⟩
  · exact Tame.refl _
theorem tame_closeS (st : St) (s : Nat) : Tame st (closeS st s) := by
  unfold closeS
  split
  · exact (tame_setS st s { st.S s with up := false } ⟨rfl, rfl, rfl, rfl⟩).trans (tame_queueTx _ _)
  · exact Tame.refl _
theorem tame_setPriority (st : St) (s p : Nat) : Tame st (setPriority st s p) := by
  unfold setPriority
  split
  · exact (tame_setS st s { st.S s with pri := p } ⟨rfl, rfl, rfl, rfl⟩).trans (tame_queueTx _ _)
  · exact Tame.refl _
theorem tame_accept (st : St) (r : Nat) : Tame st (accept st r) := by
  unfold accept; split
  · exact tame_setR _ _ _
  · exact Tame.refl _
theorem tame_capacity (st : St) (r n : Nat) : Tame st (capacity st r n) := by
  unfold capacity
  dsimp only
  refine Tame.trans ?_ (tame_setR _ _ _)
  split
  · exact Tame.refl _
  · exact tame_queueAck st r true
theorem tame_closeR (st : St) (r k : Nat) (t : Bytes) : Tame st (closeR st r k t) := by
  unfold closeR
  split
  · dsimp only
    have h := (tame_setR st r { st.R r with up := false, yes := false }).trans (tame_capacity _ r 0)
    split
    · exact h
    · exact h.trans (tame_tx _ _ _ rfl)
  · exact Tame.refl _
theorem tame_queueDelivery (st : St) (r : Nat) : Tame st (queueDelivery st r) := by
  unfold queueDelivery
  dsimp only
  split
  · have h := tame_setR st r { st.R r with pending := true }
    split
    · exact h.trans tame_eq
    · exact h
  · exact Tame.refl _
theorem tame_pause (st : St) (r : Nat) (y : Bool) : Tame st (pause st r y) := by
  unfold pause
  dsimp only
  have h := tame_setR st r { st.R r with paused := y }
  split
  · exact h
  · have h2 := h.trans (tame_queueDelivery _ r)
    split
    · exact h2.trans (tame_queueAck _ _ _)
    · exact h2
theorem tame_foldl {α : Type} (g : St → α → St) (hg : ∀ st a, Tame st (g st a)) : ∀ (l : List α) (st : St), Tame st (l.foldl g st)
  | [], _ => Tame.refl _
  | a :: l, st => (hg st a).trans (tame_foldl g hg l _)
theorem tame_onAbandon (st : St) (r n : Nat) : Tame st (onAbandon st r n) := by
  unfold onAbandon
  refine Tame.trans ?_ (tame_queueAck _ _ _)
  exact tame_setR _ _ _
theorem tame_onClose (st : St) (r : Nat) : Tame st (onClose st r) := by
  unfold onClose
  refine Tame.trans ?_ (tame_queueAck _ _ _)
  refine Tame.trans ?_ (tame_queueDelivery _ _)
  refine Tame.trans ?_ (tame_onAbandon _ _ _)
  exact tame_setR _ _ _
theorem tame_endQuietly (st : St) (r : Nat) : Tame st (endQuietly st r) := by
  unfold endQuietly
  dsimp only
  refine Tame.trans ?_ (tame_closeR _ _ _ _)
  split
  · exact Tame.refl _
  · have h := tame_setR st r { st.R r with told := true }
    split
    · exact h.trans (tame_note rfl)
    · exact h
theorem tame_endR (st : St) (r : Nat) : Tame st (endR st r) := by
  unfold endR
  split
  · exact (tame_onClose _ _).trans (tame_endQuietly _ _)
  · exact Tame.refl _
theorem tame_dropAll (s : Nat) : ∀ (n : Nat) (st : St), Tame st (dropAll n st s)
  | 0, _ => Tame.refl _
  | n + 1, st => by
    unfold dropAll
    dsimp only
    split
    · exact Tame.refl _
    · rename_i m rest hb
      split
      · exact Tame.refl _
      · refine Tame.trans ?_ (tame_dropAll s n _)
        exact (tame_note (st := st) (e := .dropped s m.num) rfl).trans (tame_setS _ _ _ ⟨rfl, rfl, rfl, rfl⟩)
theorem tame_endS (st : St) (s : Nat) : Tame st (endS st s) := by
  unfold endS
  dsimp only
  split
  · refine Tame.trans ?_ (tame_dropAll _ _ _)
    exact (tame_setS st s { st.S s with exc := true, up := false } ⟨rfl, rfl, rfl, rfl⟩).trans (tame_note rfl)
  · exact Tame.refl _

theorem tame_close (st : St) : Tame st (close st) := by
  unfold close
  split
  · exact Tame.refl _
  · split
    · exact tame_wild st true (fun h => by simp at h)
    · dsimp only
      have k0 : Tame st { st with up := false, userUp := false, sIds := [] } :=
        ⟨fun _ _ => ⟨rfl, rfl, rfl, rfl⟩, Nat.le_refl _, fun s h1 h2 => by have : s < st.nS := h2; omega, rfl, fun o => absurd o.1 (by simp), fun _ p hp => by simp at hp⟩
      have k1 := tame_foldl (fun (st : St) (p : Nat × Nat) => endS st p.2) (fun st p => tame_endS st p.2) st.sIds { st with up := false, userUp := false, sIds := [] }
      generalize st.sIds.foldl (fun st p => endS st p.2) { st with up := false, userUp := false, sIds := [] } = u at k1 ⊢
      have k2 := tame_foldl (fun (st : St) (p : Nat × Nat) => endR st p.2) (fun st p => tame_endR st p.2) u.rIds { u with rIds := [] }
      generalize u.rIds.foldl (fun st p => endR st p.2) { u with rIds := [] } = v at k2 ⊢
      exact (k0.trans k1).trans ((Tame.trans (a := u) (b := { u with rIds := [] }) tame_eq k2).trans tame_eq)
theorem tame_call (st : St) (c : Call) : Tame st (call st c) := by
  cases c <;> simp only [call]
  · split
    · exact tame_openFlow _ _ _ _ _
    · exact Tame.refl _
  · split
    · exact tame_openFlow _ _ _ _ _
    · exact Tame.refl _
  · exact tame_write _ _ _
  · exact tame_closeS _ _
  · exact tame_setPriority _ _ _
  · exact tame_accept _ _
  · split
    · exact tame_closeR _ _ _ _
    · exact Tame.refl _
  · split
    · exact tame_capacity _ _ _
    · exact Tame.refl _
  · split
    · exact tame_pause _ _ _
    · exact Tame.refl _
  · exact tame_close _
theorem tame_tell (app : App) (st : St) (e : Ev) (h : plainEv e = true) : Tame st (tell app st e) := by
  unfold tell
  exact (tame_note h).trans (tame_foldl call tame_call _ _)
theorem tame_trimLoop (app : App) (s : Nat) : ∀ (n : Nat) (st : St), Tame st (trimLoop app n st s)
  | 0, _ => Tame.refl _
  | n + 1, st => by
    unfold trimLoop
    split
    · exact Tame.refl _
    · rename_i m rest hb
      dsimp only
      have h := tame_tell app { st with trimming := .some s } (.dropped s m.num) rfl
      generalize tell app { st with trimming := .some s } (.dropped s m.num) = u at h ⊢
      have h0 : Tame st { st with trimming := .some s } := tame_eq
      have h1 : Tame u { u with trimming := .none } := tame_eq
      have h2 := tame_setS { u with trimming := .none } s { u.S s with buf := (u.S s).buf.tail, lost := (u.S s).lost + 1 } ⟨rfl, rfl, rfl, rfl⟩
      exact (h0.trans h).trans ((h1.trans h2).trans (tame_trimLoop app s n _))
theorem tame_startRTT (st : St) (p : Bool) : Tame st (startRTT st p) := by
  unfold startRTT; split
  · exact tame_tx _ _ _ rfl
  · exact Tame.refl _
theorem tame_endFlow (app : App) (st : St) (r : Nat) : Tame st (endFlow app st r) := by
  unfold endFlow
  dsimp only
  refine Tame.trans ?_ (tame_closeR _ _ _ _)
  split
  · exact Tame.refl _
  · have h := tame_setR st r { st.R r with told := true }
    split
    · exact h.trans (tame_tell app _ _ rfl)
    · exact h
theorem tame_deliverLoop (app : App) (r : Nat) : ∀ (n : Nat) (st : St), Tame st (deliverLoop app n st r)
  | 0, _ => Tame.refl _
  | n + 1, st => by
    unfold deliverLoop
    dsimp only
    split
    · exact Tame.refl _
    · rename_i m rest hb
      split
      · exact Tame.refl _
      · exact ((tame_setR st r { st.R r with buf := rest, size := (st.R r).size - m.bytes.length }).trans (tame_tell app _ _ rfl)).trans (tame_deliverLoop app r n _)
theorem tame_deliver (app : App) (st : St) (r : Nat) : Tame st (deliver app st r) := by
  unfold deliver
  dsimp only
  have h := (tame_setR st r { st.R r with pending := false }).trans (tame_deliverLoop app r ((setR st r { st.R r with pending := false }).R r).buf.length _)
  split
  · exact h.trans (tame_endFlow app _ _)
  · exact h
theorem tame_fail (app : App) (st : St) : Tame st (fail app st) := (tame_tell app st .error rfl).trans (tame_close _)
theorem tame_onRefuse (app : App) (st : St) (s reason : Nat) (text : Bytes) : Tame st (onRefuse app st s reason text) := by
  unfold onRefuse
  dsimp only
  refine Tame.trans ?_ (tame_queueTx _ _)
  refine Tame.trans ?_ (tame_trimLoop app s _ _)
  have h := tame_setS st s { st.S s with exc := true } ⟨rfl, rfl, rfl, rfl⟩
  split
  · exact (h.trans (tame_closeS _ _)).trans (tame_tell app _ _ rfl)
  · exact h
theorem tame_offer (app : App) (st : St) (r : Nat) (on : Option Nat) : Tame st (offer app st r on) := by
  unfold offer
  dsimp only
  refine Tame.trans ?_ (tame_queueAck _ _ _)
  have l1 := tame_tell app st (.offered r on) rfl
  split
  · exact l1
  · exact l1.trans (tame_closeR _ _ _ _)

end Rtmfp.RTWS
