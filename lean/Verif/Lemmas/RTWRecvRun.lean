import Verif.Lemmas.RTWRecv

/-!
# Receiving flows: what leaves them alone, and what one change does
-/

namespace Rtmfp.RTWS

open Rtmfp.Spec.Flows

/-- A receiving flow of the connection with what has been seen of it. -/
def rv (st : St) (r : Nat) : Rw := ⟨st.R r, heardBy r st.log, given r st.log, endings r st.log⟩

/-- Events about receiving flows. -/
def isR : Ev → Bool
  | .heard _ _ => true
  | .message _ _ _ => true
  | .complete _ => true
  | _ => false

theorem heardBy_isR (r : Nat) (l : List Ev) : heardBy r (l.filter isR) = heardBy r l := by
  induction l with
  | nil => rfl
  | cons e l ih =>
    unfold heardBy at *
    rcases e with _ | _ | _ | _ | _ | _ | _ | _ | _ | _ <;> simp_all [isR, List.filter_cons, List.filterMap_cons]

theorem given_isR (r : Nat) (l : List Ev) : given r (l.filter isR) = given r l := by
  induction l with
  | nil => rfl
  | cons e l ih =>
    unfold given at *
    rcases e with _ | _ | _ | _ | _ | _ | _ | _ | _ | _ <;> simp_all [isR, List.filter_cons, List.filterMap_cons]

theorem endings_isR (r : Nat) (l : List Ev) : endings r (l.filter isR) = endings r l := by
  induction l with
  | nil => rfl
  | cons e l ih =>
    unfold endings at *
    rcases e with _ | _ | _ | _ | _ | _ | _ | _ | _ | _ <;> simp_all [isR, List.filter_cons, List.countP_cons]

/-- The same as far as receiving flows go. -/
structure SameR (a b : St) : Prop where
  R : b.R = a.R
  nR : b.nR = a.nR
  ids : b.rIds = a.rIds
  tasks : b.tasks = a.tasks
  up : b.up = a.up
  user : b.userUp = a.userUp
  log : b.log.filter isR = a.log.filter isR

theorem SameR.refl (a : St) : SameR a a := ⟨rfl, rfl, rfl, rfl, rfl, rfl, rfl⟩

theorem SameR.trans {a b c : St} (h : SameR a b) (k : SameR b c) : SameR a c :=
  ⟨k.R.trans h.R, k.nR.trans h.nR, k.ids.trans h.ids, k.tasks.trans h.tasks, k.up.trans h.up, k.user.trans h.user, k.log.trans h.log⟩

theorem SameR.view {a b : St} (h : SameR a b) (r : Nat) : rv b r = rv a r := by
  unfold rv
  rw [← heardBy_isR r b.log, ← given_isR r b.log, ← endings_isR r b.log, h.log, heardBy_isR, given_isR, endings_isR, h.R]

theorem samer_note {st : St} {e : Ev} (h : isR e = false) : SameR st (note st e) :=
  ⟨rfl, rfl, rfl, rfl, rfl, rfl, by simp [note, h]⟩

theorem samer_setS (st : St) (s : Nat) (f : SFlow) : SameR st (setS st s f) := ⟨rfl, rfl, rfl, rfl, rfl, rfl, rfl⟩

theorem samer_schedule (st : St) : SameR st (schedule st) := by
  unfold schedule; split <;> exact ⟨rfl, rfl, rfl, rfl, rfl, rfl, rfl⟩

theorem samer_scheduleAck (st : St) : SameR st (scheduleAck st) := by
  unfold scheduleAck; split
  · exact SameR.refl _
  · exact SameR.trans (b := { st with ackNow := true }) ⟨rfl, rfl, rfl, rfl, rfl, rfl, rfl⟩ (samer_schedule _)

theorem samer_queueAck (st : St) (r : Nat) (now : Bool) : SameR st (queueAck st r now) := by
  unfold queueAck
  split
  · have h : SameR st (if r ∈ st.ackFlows then st else { st with ackFlows := st.ackFlows ++ [r] }) := by
      split <;> exact ⟨rfl, rfl, rfl, rfl, rfl, rfl, rfl⟩
    dsimp only
    split
    · exact h.trans (samer_scheduleAck _)
    · exact h
  · exact SameR.refl _

theorem samer_queueTx (st : St) (s : Nat) : SameR st (queueTx st s) := by
  unfold queueTx
  refine SameR.trans ?_ (samer_schedule _)
  split <;> exact ⟨rfl, rfl, rfl, rfl, rfl, rfl, rfl⟩

theorem samer_tx (st : St) (w : Who) (m : Msg) : SameR st (tx st w m) := by
  unfold tx; split
  · exact samer_note rfl
  · exact SameR.refl _

theorem samer_openFlow (st : St) (id : Nat) (ret : Option Nat) (about : Bytes) (pri : Nat) : SameR st (openFlow st id ret about pri) := by
  unfold openFlow
  split
  · dsimp only
    refine SameR.trans ?_ (samer_queueTx _ _)
    exact ⟨rfl, rfl, rfl, rfl, rfl, rfl, rfl⟩
  · exact SameR.refl _

theorem samer_write (st : St) (s : Nat) (b : Bytes) : SameR st (write st s b) := by
  unfold write
  dsimp only
  split
  · refine SameR.trans ?_ (samer_queueTx _ _)
    refine SameR.trans ?_ (samer_note rfl)
    exact ⟨rfl, rfl, rfl, rfl, rfl, rfl, rfl⟩
  · exact SameR.refl _

theorem samer_closeS (st : St) (s : Nat) : SameR st (closeS st s) := by
  unfold closeS
  split
  · exact (samer_setS _ _ _).trans (samer_queueTx _ _)
  · exact SameR.refl _

theorem samer_setPriority (st : St) (s p : Nat) : SameR st (setPriority st s p) := by
  unfold setPriority
  split
  · exact (samer_setS _ _ _).trans (samer_queueTx _ _)
  · exact SameR.refl _

theorem samer_dropAll (s : Nat) : ∀ (n : Nat) (st : St), SameR st (dropAll n st s)
  | 0, st => SameR.refl _
  | n + 1, st => by
    simp only [dropAll]
    split
    · exact SameR.refl _
    · split
      · exact SameR.refl _
      · refine SameR.trans ?_ (samer_dropAll s n _)
        exact (samer_note rfl).trans (samer_setS _ _ _)

theorem samer_endS (st : St) (s : Nat) : SameR st (endS st s) := by
  unfold endS
  dsimp only
  split
  · refine SameR.trans ?_ (samer_dropAll s _ _)
    exact (samer_setS _ _ _).trans (samer_note rfl)
  · exact SameR.refl _

theorem samer_foldl {α : Type} (g : St → α → St) (hg : ∀ st a, SameR st (g st a)) :
    ∀ (l : List α) (st : St), SameR st (l.foldl g st)
  | [], st => SameR.refl _
  | a :: l, st => (hg st a).trans (samer_foldl g hg l _)

theorem samer_ackIfNeeded (st : St) : SameR st (ackIfNeeded st) := by
  unfold ackIfNeeded
  split
  · exact (samer_scheduleAck st).trans ⟨rfl, rfl, rfl, rfl, rfl, rfl, rfl⟩
  · exact SameR.refl _

theorem samer_startRTT (st : St) (p : Bool) : SameR st (startRTT st p) := by
  unfold startRTT
  split
  · exact samer_tx _ _ _
  · exact SameR.refl _

/-- Something in the list can be passed on. -/
def hasWhole (f : RFlow) : Prop := ∃ m ∈ f.buf, m.whole = true

/-- If there is something to do for a flow, it will be done. -/
def Woken (st : St) (r : Nat) : Prop :=
  st.up = true → (st.R r).paused = false → (st.R r).up = true → (st.R r).yes = true → hasWhole (st.R r) ∨ (st.R r).ended = true →
    (st.R r).pending = true

/-- All is well with the receiving flows, but for those in `E`, which may not have been accepted yet,
and those in `D`, which may have something to deliver. -/
structure Rec (E D : Nat → Prop) (st : St) : Prop where
  good : ∀ r, r < st.nR → RGood st.userUp (rv st r)
  unborn : ∀ r, st.nR ≤ r → heardBy r st.log = [] ∧ given r st.log = [] ∧ endings r st.log = 0
  table : ∀ p ∈ st.rIds, p.2 < st.nR ∧ (st.R p.2).id = p.1 ∧ (st.R p.2).ended = false
  pend : ∀ r, r < st.nR → st.up = true → (st.R r).pending = true → r ∈ st.tasks
  wake : ∀ r, r < st.nR → ¬ D r → Woken st r
  calm : ∀ r, r < st.nR → ¬ E r → (st.R r).up = true → (st.R r).yes = true
  users : st.up = true → st.userUp = true
  due : ∀ r ∈ st.tasks, r < st.nR

theorem SameR.recd {E D : Nat → Prop} {a b : St} (h : SameR a b) (k : Rec E D a) : Rec E D b where
  good := fun r hr => by
    rw [h.view, h.user]; exact k.good r (by rw [← h.nR]; exact hr)
  unborn := fun r hr => by
    rw [← heardBy_isR, ← given_isR, ← endings_isR, h.log, heardBy_isR, given_isR, endings_isR]
    exact k.unborn r (by rw [← h.nR]; exact hr)
  table := by rw [h.ids, h.nR, h.R]; exact k.table
  pend := by rw [h.nR, h.R, h.up, h.tasks]; exact k.pend
  wake := by unfold Woken; rw [h.nR, h.R, h.up]; exact k.wake
  calm := by rw [h.nR, h.R]; exact k.calm
  users := by rw [h.up, h.user]; exact k.users
  due := by rw [h.tasks, h.nR]; exact k.due

theorem Rec.more {E D E' D' : Nat → Prop} {st : St} (k : Rec E D st) (h1 : ∀ r, E r → E' r) (h2 : ∀ r, D r → D' r) : Rec E' D' st :=
  ⟨k.good, k.unborn, k.table, k.pend, fun r hr hd => k.wake r hr (fun h => hd (h2 r h)), fun r hr he => k.calm r hr (fun h => he (h1 r h)), k.users, k.due⟩

/-- One flow changes. -/
theorem Rec.one {E D : Nat → Prop} {a b : St} (k : Rec E D a) (r : Nat) (hr : r < a.nR) (hn : b.nR = a.nR) (hup : b.up = a.up)
    (huu : b.userUp = a.userUp) (hids : ∀ p ∈ b.rIds, p ∈ a.rIds ∧ (p.2 = r → (b.R r).ended = false)) (ht : ∀ x ∈ a.tasks, x ∈ b.tasks)
    (hd : ∀ x ∈ b.tasks, x ∈ a.tasks ∨ x = r)
    (ho : ∀ t, t ≠ r → rv b t = rv a t) (hg : RGood a.userUp (rv b r)) (hid : (b.R r).id = (a.R r).id)
    (hp : b.up = true → (b.R r).pending = true → (a.R r).pending = true ∨ r ∈ b.tasks)
    (hc : (b.R r).up = true → ((a.R r).up = true ∧ ((a.R r).yes = true → (b.R r).yes = true)) ∨ (b.R r).yes = true) :
    Rec E (fun t => D t ∨ t = r) b := by
  have hR : ∀ t, t ≠ r → b.R t = a.R t := fun t h => congrArg Rw.f (ho t h)
  refine ⟨?_, ?_, ?_, ?_, ?_, ?_, ?_, ?_⟩
  · intro t htn
    by_cases h : t = r
    · subst h; rw [huu]; exact hg
    · rw [ho t h, huu]; exact k.good t (by omega)
  · intro t htn
    have h : t ≠ r := by omega
    have h1 := congrArg Rw.heard (ho t h)
    have h2 := congrArg Rw.given (ho t h)
    have h3 := congrArg Rw.endings (ho t h)
    simp only [rv] at h1 h2 h3
    rw [h1, h2, h3]; exact k.unborn t (by omega)
  · intro p hp'
    obtain ⟨h1, h2⟩ := hids p hp'
    obtain ⟨h3, h4, h5⟩ := k.table p h1
    refine ⟨by omega, ?_, ?_⟩
    · by_cases h : p.2 = r
      · rw [h, hid, ← h, h4]
      · rw [hR _ h, h4]
    · by_cases h : p.2 = r
      · rw [h]; exact h2 h
      · rw [hR _ h, h5]
  · intro t htn hu hpd
    by_cases h : t = r
    · subst h
      rcases hp hu hpd with h1 | h1
      · exact ht _ (k.pend t hr (by rw [← hup]; exact hu) h1)
      · exact h1
    · rw [hR t h] at hpd
      exact ht _ (k.pend t (by omega) (by rw [← hup]; exact hu) hpd)
  · intro t htn hd
    have h : t ≠ r := fun h => hd (Or.inr h)
    have := k.wake t (by omega) (fun h' => hd (Or.inl h'))
    unfold Woken at this ⊢
    rw [hR t h, hup]; exact this
  · intro t htn he hu
    by_cases h : t = r
    · subst h
      rcases hc hu with ⟨h1, h2⟩ | h1
      · exact h2 (k.calm t hr he h1)
      · exact h1
    · rw [hR t h] at hu ⊢
      exact k.calm t (by omega) he hu
  · rw [hup, huu]; exact k.users
  · intro x hx
    rcases hd x hx with h | h
    · rw [hn]; exact k.due x h
    · rw [hn, h]; exact hr

/-- The changed flow has nothing to deliver, or will be looked after. -/
theorem Rec.restore {E D : Nat → Prop} {st : St} {r : Nat} (k : Rec E (fun t => D t ∨ t = r) st) (h : D r ∨ Woken st r) : Rec E D st :=
  ⟨k.good, k.unborn, k.table, k.pend, fun t ht hd => by
    by_cases h' : t = r
    · subst h'
      rcases h with h | h
      · exact absurd h hd
      · exact h
    · exact k.wake t ht (fun hc => hc.elim hd h'), k.calm, k.users, k.due⟩

theorem rv_setR_self (st : St) (r : Nat) (f : RFlow) : rv (setR st r f) r = { rv st r with f := f } := by simp [rv, setR]
theorem rv_setR_other (st : St) (r t : Nat) (f : RFlow) (h : t ≠ r) : rv (setR st r f) t = rv st t := by simp [rv, setR, h]
theorem setR_R (st : St) (r : Nat) (f : RFlow) : (setR st r f).R r = f := by simp [setR]

/-- A change of one flow's record that doesn't touch its messages. -/
theorem Rec.ctl {E D : Nat → Prop} {st : St} (k : Rec E D st) (r : Nat) (hr : r < st.nR) (f' : RFlow) (h1 : f'.buf = (st.R r).buf)
    (h2 : f'.ended = (st.R r).ended) (h3 : f'.next = (st.R r).next) (h4 : f'.size = (st.R r).size)
    (h5 : (st.R r).told = true → f'.told = true) (h6 : f'.id = (st.R r).id) (h7 : f'.pending = true → (st.R r).pending = true)
    (h8 : f'.up = true → (st.R r).up = true ∧ ((st.R r).yes = true → f'.yes = true)) :
    Rec E (fun t => D t ∨ t = r) (setR st r f') := by
  refine k.one r hr rfl rfl rfl (fun p hp => ⟨hp, fun h => ?_⟩) (fun x hx => hx) (fun x hx => Or.inl hx) (fun t ht => rv_setR_other _ _ _ _ ht) ?_ ?_ ?_ ?_
  · rw [setR_R, h2, ← h]; exact (k.table p hp).2.2
  · rw [rv_setR_self]
    refine (k.good r hr).ctl f' h1 h2 h3 h4 h5 ?_
    intro a b
    refine ⟨(h8 a).1, ?_⟩
    cases hy : (rv st r).f.yes
    · rfl
    · have := (h8 a).2 hy; simp [b] at this
  · rw [setR_R, h6]
  · rw [setR_R]; exact fun _ h => Or.inl (h7 h)
  · rw [setR_R]; exact fun h => Or.inl (h8 h)

theorem rec_queueDelivery {E D : Nat → Prop} {st : St} {r : Nat} (k : Rec E (fun t => D t ∨ t = r) st) (hr : r < st.nR) :
    Rec E D (queueDelivery st r) := by
  unfold queueDelivery
  dsimp only
  split
  · rename_i hc
    simp only [Bool.and_eq_true, Bool.not_eq_true'] at hc
    have key : ∀ ts : List Nat, (∀ x ∈ st.tasks, x ∈ ts) → (∀ x ∈ ts, x ∈ st.tasks ∨ x = r) → (st.up = true → r ∈ ts) →
        Rec E D { setR st r { st.R r with pending := true } with tasks := ts } := by
      intro ts h1 hts h2
      have k1 : Rec E (fun t => (D t ∨ t = r) ∨ t = r) { setR st r { st.R r with pending := true } with tasks := ts } := by
        refine k.one r hr rfl rfl rfl (fun p hp => ⟨hp, fun h => ?_⟩) h1 hts (fun t ht => ?_) ?_ ?_ ?_ ?_
        · show ((setR st r { st.R r with pending := true }).R r).ended = false
          rw [setR_R, ← h]; exact (k.table p hp).2.2
        · show rv (setR st r _) t = _
          exact rv_setR_other _ _ _ _ ht
        · show RGood _ (rv (setR st r _) r)
          rw [rv_setR_self]
          exact (k.good r hr).ctl _ rfl rfl rfl rfl (fun h => h) (fun a b => ⟨a, b⟩)
        · show ((setR st r { st.R r with pending := true }).R r).id = _
          rw [setR_R]
        · exact fun hu _ => Or.inr (h2 hu)
        · show ((setR st r { st.R r with pending := true }).R r).up = true → _ ∨ ((setR st r { st.R r with pending := true }).R r).yes = true
          rw [setR_R]; exact fun h => Or.inl ⟨h, fun h => h⟩
      refine (k1.restore (Or.inl (Or.inr rfl))).restore (Or.inr ?_)
      intro _ _ _ _ _
      show ((setR st r { st.R r with pending := true }).R r).pending = true
      rw [setR_R]
    split
    · rename_i hu
      exact key _ (fun x hx => List.mem_append_left _ hx) (fun x hx => by simpa [setR] using hx) (fun _ => by simp)
    · rename_i hu
      exact key _ (fun x hx => hx) (fun x hx => Or.inl hx) (fun h => absurd h hu)
  · rename_i hc
    simp only [Bool.and_eq_true, Bool.not_eq_true'] at hc
    refine k.restore (Or.inr ?_)
    intro _ hp _ _ _
    cases hpd : (st.R r).pending
    · exact absurd ⟨hpd, hp⟩ hc
    · rfl

theorem rec_accept {E D : Nat → Prop} {st : St} (k : Rec E D st) (r : Nat) : Rec E D (accept st r) := by
  unfold accept
  split
  · rename_i h
    simp only [Bool.and_eq_true, decide_eq_true_eq] at h
    refine (k.ctl r h.1 { st.R r with yes := true } rfl rfl rfl rfl (fun h => h) rfl (fun h => h) (fun h => ⟨h, fun _ => rfl⟩)).restore ?_
    by_cases hd : D r
    · exact Or.inl hd
    · refine Or.inr ?_
      intro hu hp hup _ hw
      rw [setR_R] at hp hup hw ⊢
      cases hy : (st.R r).yes with
      | true => exact k.wake r h.1 hd hu hp hup hy hw
      | false =>
        obtain ⟨h1, h2⟩ := (k.good r h.1).fresh hup hy
        simp only [rv] at h1 h2
        rcases hw with ⟨m, hm, _⟩ | hw
        · simp [h1] at hm
        · simp [h2] at hw
  · exact k

theorem rec_capacity {E D : Nat → Prop} {st : St} (k : Rec E D st) (r n : Nat) (hr : r < st.nR) : Rec E D (capacity st r n) := by
  unfold capacity
  dsimp only
  have hs : SameR st (if n = (st.R r).cap then st else queueAck st r true) := by
    split
    · exact SameR.refl _
    · exact samer_queueAck _ _ _
  generalize (if n = (st.R r).cap then st else queueAck st r true) = st' at hs
  have k' := hs.recd k
  refine (k'.ctl r (by rw [hs.nR]; exact hr) { st'.R r with cap := n } rfl rfl rfl rfl (fun h => h) rfl (fun h => h) (fun h => ⟨h, fun h => h⟩)).restore ?_
  by_cases hd : D r
  · exact Or.inl hd
  · refine Or.inr ?_
    have := k'.wake r (by rw [hs.nR]; exact hr) hd
    intro hu hp hup hy hw
    rw [setR_R] at hp hup hy hw ⊢
    exact this hu hp hup hy hw

theorem capacity_R (st : St) (r n : Nat) : (capacity st r n).R r = { st.R r with cap := n } ∧ (capacity st r n).nR = st.nR := by
  unfold capacity
  dsimp only
  split
  · exact ⟨by rw [setR_R], rfl⟩
  · have hs := samer_queueAck st r true
    exact ⟨by rw [setR_R, hs.R], hs.nR⟩

theorem rec_closeR {E D : Nat → Prop} {st : St} (k : Rec E D st) (r n : Nat) (t : Bytes) (hr : r < st.nR) : Rec E D (closeR st r n t) := by
  unfold closeR
  split
  · dsimp only
    have k1 : Rec E D (setR st r { st.R r with up := false, yes := false }) := by
      refine (k.ctl r hr { st.R r with up := false, yes := false } rfl rfl rfl rfl (fun h => h) rfl (fun h => h) (fun h => by simp at h)).restore (Or.inr ?_)
      intro _ _ hu
      rw [setR_R] at hu; simp at hu
    have k2 := rec_capacity k1 r 0 hr
    split
    · exact k2
    · exact (samer_tx _ _ _).recd k2
  · exact k

theorem closeR_up (st : St) (r n : Nat) (t : Bytes) : ((closeR st r n t).R r).up = false := by
  unfold closeR
  split
  · dsimp only
    have h := (capacity_R (setR st r { st.R r with up := false, yes := false }) r 0).1
    split
    · rw [h, setR_R]
    · rw [(samer_tx _ _ _).R, h, setR_R]
  · rename_i h
    simpa using h

theorem rec_pause {E D : Nat → Prop} {st : St} (k : Rec E D st) (r : Nat) (y : Bool) (hr : r < st.nR) : Rec E D (pause st r y) := by
  unfold pause
  dsimp only
  have k1 := k.ctl r hr { st.R r with paused := y } rfl rfl rfl rfl (fun h => h) rfl (fun h => h) (fun h => ⟨h, fun h => h⟩)
  split
  · rename_i hy
    refine k1.restore (Or.inr ?_)
    intro _ hp
    rw [setR_R] at hp; simp [hy] at hp
  · have k2 := rec_queueDelivery k1 hr
    split
    · exact (samer_queueAck _ _ _).recd k2
    · exact k2

theorem rec_sendAck {E D : Nat → Prop} {st : St} (k : Rec E D st) (r : Nat) (hr : r < st.nR) : Rec E D (sendAck st r) ∧ (sendAck st r).nR = st.nR := by
  have step : ∀ (st : St), Rec E D st → r < st.nR → ∀ f' : RFlow, f'.buf = (st.R r).buf → f'.ended = (st.R r).ended → f'.next = (st.R r).next →
      f'.size = (st.R r).size → f'.told = (st.R r).told → f'.id = (st.R r).id → f'.pending = (st.R r).pending → f'.up = (st.R r).up →
      f'.yes = (st.R r).yes → f'.paused = (st.R r).paused → Rec E D (setR st r f') := by
    intro st k hr f' h1 h2 h3 h4 h5 h6 h7 h8 h9 h10
    refine (k.ctl r hr f' h1 h2 h3 h4 (by rw [h5]; exact fun h => h) h6 (by rw [h7]; exact fun h => h) (by rw [h8, h9]; exact fun h => ⟨h, fun h => h⟩)).restore ?_
    by_cases hd : D r
    · exact Or.inl hd
    · refine Or.inr ?_
      have := k.wake r hr hd
      intro hu hp hup hy hw
      rw [setR_R] at hp hup hy hw ⊢
      rw [h7]
      refine this hu (by rw [← h10]; exact hp) (by rw [← h8]; exact hup) (by rw [← h9]; exact hy) ?_
      rcases hw with ⟨m, hm, hw⟩ | hw
      · exact Or.inl ⟨m, by rw [← h1]; exact hm, hw⟩
      · exact Or.inr (by rw [← h2]; exact hw)
  unfold sendAck
  dsimp only
  split
  · exact ⟨k, rfl⟩
  · have k1 := step st k hr { st.R r with thresh := advert (st.R r) / 2 } rfl rfl rfl rfl rfl rfl rfl rfl rfl rfl
    have s2 := samer_tx (setR st r { st.R r with thresh := advert (st.R r) / 2 }) (.r r) (.ack (st.R r).id (st.R r).got (advert (st.R r)))
    have k2 := s2.recd k1
    have n2 : (tx (setR st r { st.R r with thresh := advert (st.R r) / 2 }) (.r r) (.ack (st.R r).id (st.R r).got (advert (st.R r)))).nR = st.nR := s2.nR
    generalize tx (setR st r { st.R r with thresh := advert (st.R r) / 2 }) (.r r) (.ack (st.R r).id (st.R r).got (advert (st.R r))) = a at k2 n2
    have k3 := step a k2 (by omega) { a.R r with got := 0 } rfl rfl rfl rfl rfl rfl rfl rfl rfl rfl
    split
    · have s4 := samer_tx (setR a r { a.R r with got := 0 }) (.r r) (.closeAck (st.R r).id)
      have k4 := s4.recd k3
      refine ⟨step _ k4 (by rw [s4.nR]; show r < a.nR; omega) _ ?_ ?_ ?_ ?_ ?_ ?_ ?_ ?_ ?_ ?_, by show (tx _ _ _).nR = _; rw [s4.nR]; exact n2⟩ <;> rw [s4.R]
    · exact ⟨k3, n2⟩

end Rtmfp.RTWS
