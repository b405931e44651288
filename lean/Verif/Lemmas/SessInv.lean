import Verif.Lemmas.Sess

/-! # What holds for a session at all times: every step -/

namespace Rtmfp
namespace Sess
open SS (Wants Turn Turns Like Books FlowOk)

/-- the flow was opened -/
def Opened (h : List SS.Op) (i : Nat) : Prop := ∃ m a p, SS.Op.openFlow i m a p ∈ h

theorem Opened.snoc {h : List SS.Op} {i : Nat} (op : SS.Op) (k : Opened h i) : Opened (h ++ [op]) i := by
  obtain ⟨m, a, p, q⟩ := k; exact ⟨m, a, p, List.mem_append_left _ q⟩

theorem Traced.bound_opened {h : List SS.Op} {s : SS} (k : Traced h s) {i : Nat} (hi : (s.flow i).bound = true) : Opened h i := by
  refine k.opened fun e => ?_
  rw [(k.books.flow i).ok.closed e] at hi; cases hi

/-- flows that can send are ready, -/
abbrev Ready (h : List SS.Op) (s : Sess) : Prop := Core (Opened h) (fun _ => False) s.ss s.ready s.persist

structure Inv (h : List SS.Op) (s : Sess) : Prop where
  traced : Traced h s.ss
  core : Ready h s
  cwnd : 0 < s.cwnd
  line : ¬ (s.mid = true ∧ s.anyAcks = true) → Line s
  armed : s.ss.outs ≠ [] → s.alarm ≠ none

theorem line_ss {s : Sess} {t : SS} (h : Line s) (ht : t.outSum = s.ss.outSum) : Line { s with ss := t } := by
  intro p hp
  have := h p hp
  dsimp only
  rw [ht]; exact this

/-- members that scheduling leaves alone -/
theorem schedule_more (s : Sess) (i : Nat) : (schedule s i).mid = s.mid ∧ (schedule s i).anyAcks = s.anyAcks ∧ (schedule s i).cwnd = s.cwnd ∧ (schedule s i).alarm = s.alarm ∧
    (schedule s i).ss = s.ss := by
  have h := schedule_rest s i
  have h1 := congrArg Sess.mid h; have h2 := congrArg Sess.anyAcks h; have h3 := congrArg Sess.cwnd h; have h4 := congrArg Sess.alarm h; have h5 := congrArg Sess.ss h
  exact ⟨h1, h2, h3, h4, h5⟩

theorem afterChange_more (s : Sess) (i : Nat) (b : SS) : (afterChange s i b).mid = s.mid ∧ (afterChange s i b).anyAcks = s.anyAcks ∧ (afterChange s i b).cwnd = s.cwnd ∧
    (afterChange s i b).alarm = s.alarm ∧ (afterChange s i b).ss = s.ss := by
  rw [afterChange]
  have h1 : (noteIdle s b).mid = s.mid ∧ (noteIdle s b).anyAcks = s.anyAcks ∧ (noteIdle s b).cwnd = s.cwnd ∧ (noteIdle s b).alarm = s.alarm ∧ (noteIdle s b).ss = s.ss := by
    rw [noteIdle]; split <;> exact ⟨rfl, rfl, rfl, rfl, rfl⟩
  generalize noteIdle s b = u at *
  have h2 : ∀ v, v = (if (u.ss.flow i).state = .closed then clearPersist u i else u) → v.mid = s.mid ∧ v.anyAcks = s.anyAcks ∧ v.cwnd = s.cwnd ∧ v.alarm = s.alarm ∧ v.ss = s.ss := by
    intro v hv
    rw [hv]; split <;> exact h1
  generalize hv : (if (u.ss.flow i).state = .closed then clearPersist u i else u) = v
  have h3 := h2 v hv.symm
  clear h2 hv
  show (if (v.ss.flow i).nextSn ≠ _ ∧ _ ∧ _ then schedule v i else v).mid = _ ∧ (if (v.ss.flow i).nextSn ≠ _ ∧ _ ∧ _ then schedule v i else v).anyAcks = _ ∧
    (if (v.ss.flow i).nextSn ≠ _ ∧ _ ∧ _ then schedule v i else v).cwnd = _ ∧ (if (v.ss.flow i).nextSn ≠ _ ∧ _ ∧ _ then schedule v i else v).alarm = _ ∧
    (if (v.ss.flow i).nextSn ≠ _ ∧ _ ∧ _ then schedule v i else v).ss = _
  split
  · obtain ⟨a, b, c, d, e⟩ := schedule_more v i
    rw [a, b, c, d, e]; exact h3
  · exact h3

/-- a flow was changed -/
theorem change_inv {h h' : List SS.Op} {s : Sess} {t : SS} {i : Nat} (k : Inv h s) (hh : ∀ i, Opened h i → Opened h' i) (ht : Traced h' t) (hc : Turns s.ss t i) :
    Inv h' (afterChange { s with ss := t } i s.ss) := by
  obtain ⟨m1, m2, m3, m4, m5⟩ := afterChange_more { s with ss := t } i s.ss
  refine ⟨by rw [m5]; exact ht, ?_, by rw [m3]; exact k.cwnd, ?_, ?_⟩
  · exact afterChange_core (k.core.weaken hh fun _ q => q) hc ht.books fun hb => ht.bound_opened hb
  · intro q; rw [m1, m2] at q; exact afterChange_line (k.line q) hc
  · rw [m4, m5]; dsimp only; rw [hc.outs]; exact k.armed

/-- nothing that matters -/
theorem same_inv {h h' : List SS.Op} {s : Sess} {t : SS} {i : Nat} (k : Inv h s) (hh : ∀ i, Opened h i → Opened h' i) (ht : Traced h' t) (hc : Turns s.ss t i)
    (hn : (t.flow i).nextSn = (s.ss.flow i).nextSn) : Inv h' { s with ss := t } := by
  refine ⟨ht, ?_, k.cwnd, fun q => line_ss (k.line q) hc.sum, fun q => k.armed (by rw [← hc.outs]; exact q)⟩
  have := turn_core (ps' := s.persist) (k.core.weaken hh fun _ q => q) hc.all hc.isOpen fun _ => Or.inl rfl
  refine { this with ready := fun j _ hw => this.ready j (fun e => ?_) hw }
  rcases e with e | e
  · exact e
  · by_cases ej : j = i
    · subst ej; exact e hn
    · rw [hc.other j ej] at e; exact e rfl

theorem writeRes_turns {s : SS} (h : Books s) {i : Nat} {msg : Bytes} {now a b : Int} {rid : Nat} {names : Nat → Nat} : Turns s (SS.writeRes s i rid msg (s.write i msg now a b rid names)).1 i := by
  cases e : s.write i msg now a b rid names with
  | none => exact .refl _ _
  | some t => exact SS.write_turn h e

theorem flow_inv {h : List SS.Op} {s : Sess} {op : SS.Op} {t : SS} {es : List SS.Ev} (k : Inv h s) (hc : Calls op) (ha : SS.Allowed h s.ss op)
    (hs : SS.step s.ss op = some (t, es)) : Inv (h ++ [op]) (flowEffects s t op) := by
  have ht := k.traced.step ha hs
  have hh : ∀ i, Opened h i → Opened (h ++ [op]) i := fun i q => q.snoc op
  have hb := k.traced.books
  cases op with
  | openFlow i m a p =>
    obtain ⟨a1, a2, _⟩ := ha
    simp only [SS.step, Option.some.injEq, Prod.mk.injEq] at hs
    obtain ⟨hs, -⟩ := hs
    show Inv _ { s with ss := t }
    rw [SS.openFlow] at hs
    split at hs
    · subst hs
      exact same_inv (i := 0) k hh ht (.refl _ _) rfl
    · have hi : ∀ p, i ∉ s.ready p := fun p q => by
        obtain ⟨m, a, p, e⟩ := k.core.known i p q
        exact a2 m a p e
      have hfi : t.flow i = SF.init (startupOptions m a) a.isSome p := by rw [← hs]; exact SS.setFlow_same _ _ _
      have hfj : ∀ j, j ≠ i → t.flow j = s.ss.flow j := fun j hj => by rw [← hs]; exact SS.setFlow_other _ _ hj
      have ho : t.isOpen = s.ss.isOpen := by rw [← hs]; rfl
      refine ⟨ht, ?_, k.cwnd, fun q => line_ss (k.line q) (by rw [← hs]; rfl), fun q => k.armed (by rw [← hs] at q; exact q)⟩
      have c := k.core
      refine { ready := fun j _ hw => ?_, persist := fun j x y z => ?_, fresh := fun j x y => ?_, member := fun j q hj => ?_, known := fun j q hj => hh j (c.known j q hj),
               pri := fun j => ?_, high := c.high, closed := fun q => c.closed (by rw [← ho]; exact q), once := c.once }
      · by_cases e : j = i
        · subst e; have := hw.1; dsimp only at this; rw [hfi] at this; cases this
        · dsimp only at hw ⊢; rw [hfj j e] at hw ⊢; exact c.ready j (fun q => q) hw
      · by_cases e : j = i
        · subst e; dsimp only at x; rw [hfi] at x; cases x
        · dsimp only at x y z ⊢; rw [hfj j e] at x y z; exact c.persist j x y z
      · by_cases e : j = i
        · subst e; dsimp only; rw [hfi]; simp [SF.init]
        · dsimp only at x y ⊢; rw [hfj j e] at x y ⊢; exact c.fresh j x y
      · have e : j ≠ i := fun e => hi q (by rw [← e]; exact hj)
        dsimp only; rw [hfj j e]; exact c.member j q hj
      · by_cases e : j = i
        · subst e; dsimp only; rw [hfi]; exact hc
        · dsimp only; rw [hfj j e]; exact c.pri j
  | bind i fid =>
    obtain ⟨a1, a2, _⟩ := ha
    simp only [SS.step, Option.some.injEq, Prod.mk.injEq] at hs
    obtain ⟨hs, -⟩ := hs
    rw [flowEffects]
    rw [SS.bind] at hs
    split at hs
    · rename_i hbd
      subst hs
      rw [if_pos hbd]
      exact same_inv (i := 0) k hh ht (.refl _ _) rfl
    · rename_i hbd
      rw [if_neg hbd]
      have hfi : t.flow i = { s.ss.flow i with bound := true, flowId := fid } := by rw [← hs]; exact SS.setFlow_same _ _ _
      have hfj : ∀ j, j ≠ i → t.flow j = s.ss.flow j := fun j hj => by rw [← hs]; exact SS.setFlow_other _ _ hj
      have ho : t.isOpen = s.ss.isOpen := by rw [← hs]; rfl
      have hK : Opened h i := k.traced.opened (by rw [a2]; simp)
      have c := k.core
      have hbd' : (s.ss.flow i).bound = false := by simpa using hbd
      obtain ⟨m1, m2, m3, m4, m5⟩ := schedule_more { s with ss := t } i
      refine ⟨by rw [m5]; exact ht, ?_, by rw [m3]; exact k.cwnd, fun q => ?_, fun q => ?_⟩
      · refine schedule_core (s := { s with ss := t }) ?_ (hh i hK) (by dsimp only; rw [hfi]) (by dsimp only; rw [ho]; exact a1)
        refine { ready := fun j hj hw => ?_, persist := fun j x y z => ?_, fresh := fun j x y => ?_, member := fun j q hj => ?_, known := fun j q hj => hh j (c.known j q hj),
                 pri := fun j => ?_, high := c.high, closed := fun q => c.closed (by rw [← ho]; exact q), once := c.once }
        · have e : j ≠ i := fun e => hj (Or.inl e)
          dsimp only at hw ⊢; rw [hfj j e] at hw ⊢; exact c.ready j (fun q => q) hw
        · by_cases e : j = i
          · subst e; dsimp only at y z; rw [hfi] at y z; exact absurd z (c.fresh j hbd' y)
          · dsimp only at x y z ⊢; rw [hfj j e] at x y z; exact c.persist j x y z
        · by_cases e : j = i
          · subst e; dsimp only at x; rw [hfi] at x; cases x
          · dsimp only at x y ⊢; rw [hfj j e] at x y ⊢; exact c.fresh j x y
        · by_cases e : j = i
          · subst e; dsimp only; rw [hfi]; exact Or.inl rfl
          · dsimp only; rw [hfj j e]; exact c.member j q hj
        · by_cases e : j = i
          · subst e; dsimp only; rw [hfi]; exact c.pri j
          · dsimp only; rw [hfj j e]; exact c.pri j
      · rw [m1, m2] at q
        exact schedule_line (line_ss (k.line q) (by rw [← hs]; rfl))
      · rw [m5] at q; rw [m4]
        exact k.armed (by dsimp only at q; rw [← hs] at q; exact q)
  | write i msg now a b rid names =>
    simp only [SS.step, Option.some.injEq] at hs
    have hs1 : (SS.writeRes s.ss i rid msg (s.ss.write i msg now a b rid names)).1 = t := by rw [hs]
    rw [flowEffects]
    exact change_inv k hh ht (by rw [← hs1]; exact writeRes_turns hb)
  | close i now rid names =>
    simp only [SS.step, Option.some.injEq, Prod.mk.injEq] at hs
    rw [flowEffects]
    exact change_inv k hh ht (by rw [← hs.1]; exact SS.close_turn hb i now rid names)
  | lingerAlarm i =>
    simp only [SS.step, Option.some.injEq, Prod.mk.injEq] at hs
    rw [flowEffects]
    exact change_inv k hh ht (by rw [← hs.1]; exact SS.gotoClosed_turn fun _ => (hb.flow i).ok.linger ha)
  | setOnException i =>
    simp only [SS.step, Option.some.injEq, Prod.mk.injEq] at hs
    show Inv _ { s with ss := t }
    refine same_inv (i := i) k hh ht (by rw [← hs.1]; exact .set (.same rfl rfl rfl rfl rfl rfl rfl)) (by rw [← hs.1, SS.setFlow_same])
  | receipt op =>
    simp only [SS.step, Option.some.injEq, Prod.mk.injEq] at hs
    show Inv _ { s with ss := t }
    refine same_inv (i := 0) k hh ht ?_ (by rw [← hs.1])
    rw [← hs.1]
    exact ⟨.refl _, fun _ _ => rfl, rfl, rfl, rfl⟩
  | trim i now =>
    simp only [SS.step, Option.some.injEq, Prod.mk.injEq] at hs
    show Inv _ { s with ss := t }
    refine same_inv (i := i) k hh ht (by rw [← hs.1]; exact SS.trim_turn _ _ _) ?_
    rw [← hs.1, SS.trim]
    show ((s.ss.setFlow i _).flow i).nextSn = _
    rw [SS.setFlow_same]
  | setPriority i pri =>
    simp only [SS.step, SS.setPriority] at hs
    rw [flowEffects]
    split at hs
    · cases hs
    · rename_i hok
      simp only [SS.priRes, Option.some.injEq, Prod.mk.injEq] at hs
      obtain ⟨hs, -⟩ := hs
      have hfi : t.flow i = { s.ss.flow i with priority := pri } := by rw [← hs]; exact SS.setFlow_same _ _ _
      have hfj : ∀ j, j ≠ i → t.flow j = s.ss.flow j := fun j hj => by rw [← hs]; exact SS.setFlow_other _ _ hj
      have ho : t.isOpen = s.ss.isOpen := by rw [← hs]; rfl
      have c := k.core
      by_cases hp : pri ≠ (s.ss.flow i).priority
      · rw [if_pos hp]
        have hw1 : Core (Opened (h ++ [.setPriority i pri])) (fun j => j = i ∨ False) t s.ready s.persist := by
          refine { ready := fun j hj hw => ?_, persist := fun j x y z => ?_, fresh := fun j x y => ?_, member := fun j q hj => ?_, known := fun j q hj => hh j (c.known j q hj),
                   pri := fun j => ?_, high := c.high, closed := fun q => c.closed (by rw [← ho]; exact q), once := c.once }
          · have e : j ≠ i := fun e => hj (Or.inl e)
            rw [hfj j e] at hw ⊢; exact c.ready j (fun q => q) hw
          · by_cases e : j = i
            · subst e; rw [hfi] at x y z; exact c.persist j x y z
            · rw [hfj j e] at x y z; exact c.persist j x y z
          · by_cases e : j = i
            · subst e; rw [hfi] at x y ⊢; exact c.fresh j x y
            · rw [hfj j e] at x y ⊢; exact c.fresh j x y
          · by_cases e : j = i
            · subst e; rw [hfi]; exact c.member j q hj
            · rw [hfj j e]; exact c.member j q hj
          · by_cases e : j = i
            · subst e; rw [hfi]; exact hc
            · rw [hfj j e]; exact c.pri j
        obtain ⟨m1, m2, m3, m4, m5⟩ := schedule_more { s with ss := t } i
        refine ⟨by rw [m5]; exact ht, ?_, by rw [m3]; exact k.cwnd, fun q => ?_, fun q => ?_⟩
        · cases hbi : (s.ss.flow i).bound with
          | true =>
            exact schedule_core (s := { s with ss := t }) hw1 (hh i (k.traced.bound_opened hbi)) (by dsimp only; rw [hfi]; exact hbi) (by dsimp only; rw [ho]; exact hb.isOpen i hbi)
          | false =>
            have hn : SS.isMaybeReady (t.flow i) = false := by
              have : SS.scheduleOk { s.ss.flow i with priority := pri } = true := by
                apply Classical.byContradiction
                intro q; exact hok ⟨hp, by simpa using q⟩
              rw [SS.scheduleOk, ← hfi] at this
              rw [show (t.flow i).bound = false by rw [hfi]; exact hbi] at this
              simpa using this
            have e : schedule { s with ss := t } i = { s with ss := t } := by rw [schedule, if_neg (by dsimp only; rw [hn]; simp)]
            rw [e]
            refine { hw1 with ready := fun j hj hw => hw1.ready j (fun e => ?_) hw }
            rcases e with e | e
            · subst e; have := hw.1; dsimp only at this; rw [hfi] at this; rw [show (s.ss.flow j).bound = true from this] at hbi; cases hbi
            · exact e
        · rw [m1, m2] at q
          exact schedule_line (line_ss (k.line q) (by rw [← hs]; rfl))
        · rw [m5] at q; rw [m4]
          exact k.armed (by dsimp only at q; rw [← hs] at q; exact q)
      · rw [if_neg hp]
        have hp' : (s.ss.flow i).priority = pri := by
          apply Classical.byContradiction
          intro q; exact hp (Ne.symm q)
        refine same_inv (i := i) k hh ht ?_ (by rw [hfi])
        rw [← hs]
        exact .set (.same hp'.symm rfl rfl rfl rfl rfl rfl)
  | openingFailed i now =>
    obtain ⟨a1, a2⟩ := ha
    simp only [SS.step, Option.some.injEq, Prod.mk.injEq] at hs
    obtain ⟨hs, -⟩ := hs
    show Inv _ { s with ss := t }
    obtain ⟨k1, k2, k3, k4, k5, k6, k7, k8, k9, k10, k11, _⟩ := SS.didClose_flows (now := now) (rid := 0) (names := id) (hb.flow i).ok (fun q => by rw [a1] at q; cases q) _ rfl
    have kp := SS.didClose_pri s.ss i now
    rw [hs] at k1 k2 k3 k4 k5 k6 k7 k8 k9 k10 k11 kp
    refine ⟨ht, ?_, k.cwnd, fun q => line_ss (k.line q) k9, fun q => k.armed (by rw [← k8]; exact q)⟩
    have c := k.core
    refine { ready := fun j _ hw => ?_, persist := fun j x y z => ?_, fresh := fun j x y => ?_, member := fun j q hj => ?_, known := fun j q hj => hh j (c.known j q hj),
             pri := fun j => ?_, high := c.high, closed := fun q => c.closed (by rw [← k7]; exact q), once := c.once }
    · by_cases e : j = i
      · subst e; have := hw.1; dsimp only at this; rw [k2] at this; cases this
      · dsimp only at hw ⊢; rw [k6 j e] at hw ⊢; exact c.ready j (fun q => q) hw
    · by_cases e : j = i
      · subst e; dsimp only at x; rw [k2] at x; cases x
      · dsimp only at x y z ⊢; rw [k6 j e] at x y z; exact c.persist j x y z
    · by_cases e : j = i
      · subst e; dsimp only at y; rw [k1] at y; simp [SFState.rank] at y
      · dsimp only at x y ⊢; rw [k6 j e] at x y ⊢; exact c.fresh j x y
    · by_cases e : j = i
      · subst e; exact Or.inr ⟨k1, k5⟩
      · dsimp only; rw [k6 j e]; exact c.member j q hj
    · by_cases e : j = i
      · subst e; dsimp only; rw [kp]; exact c.pri j
      · dsimp only; rw [k6 j e]; exact c.pri j
  | _ => exact hc.elim

/-! ## the other things that happen -/

/-- more places in line -/
theorem Inv.grow {h : List SS.Op} {s t : Sess} (k : Inv h s) (h1 : t.ss = s.ss) (h2 : t.ready = s.ready) (h3 : t.persist = s.persist) (h4 : t.cwnd = s.cwnd)
    (h5 : t.burstAlarm = s.burstAlarm) (h6 : t.mid = s.mid) (h7 : t.anyAcks = s.anyAcks) (h8 : s.alarm ≠ none → t.alarm ≠ none) (h9 : ∀ x p, s.listed x p = true → t.listed x p = true) :
    Inv h t := by
  refine ⟨by rw [h1]; exact k.traced, by rw [Ready, h1, h2, h3]; exact k.core, by rw [h4]; exact k.cwnd, fun q => ?_, fun q => h8 (k.armed (by rw [← h1]; exact q))⟩
  rw [h6, h7] at q
  intro p hp
  rw [h2] at hp
  rcases k.line q p hp with ⟨x, a⟩ | a | a
  · exact Or.inl ⟨x, h9 x p a⟩
  · exact Or.inr (Or.inl (by rw [h5]; exact a))
  · exact Or.inr (Or.inr (by rw [h4, h1]; exact a))

theorem scheduleWrite_inv {h : List SS.Op} {s : Sess} (k : Inv h s) (p : Nat) : Inv h (scheduleWrite s p) :=
  k.grow rfl rfl rfl rfl rfl rfl rfl (fun q => q) (fun x q e => by
    show (if x = s.dest ∧ q = p then true else s.listed x q) = true
    rw [e]; simp)

theorem reschedule_inv {h : List SS.Op} {s : Sess} (h1 : Traced h s.ss) (h2 : Ready h s) (h3 : 0 < s.cwnd) (h4 : s.ss.outs ≠ [] → s.alarm ≠ none) :
    Inv h (rescheduleTransmission s) := ⟨h1, h2, h3, fun _ => reschedule_line h2.high, h4⟩

theorem rescheduleTimeout_rest (s : Sess) : (rescheduleTimeout s).ss = s.ss ∧ (rescheduleTimeout s).ready = s.ready ∧ (rescheduleTimeout s).persist = s.persist ∧
    (rescheduleTimeout s).cwnd = s.cwnd ∧ (rescheduleTimeout s).burstAlarm = s.burstAlarm ∧ (rescheduleTimeout s).mid = s.mid ∧ (rescheduleTimeout s).anyAcks = s.anyAcks ∧
    (rescheduleTimeout s).alarm ≠ none ∧ (rescheduleTimeout s).listed = s.listed := by
  rw [rescheduleTimeout]
  split <;> exact ⟨rfl, rfl, rfl, rfl, rfl, rfl, rfl, by simp, rfl⟩

theorem rescheduleTimeout_inv {h : List SS.Op} {s : Sess} (h1 : Traced h s.ss) (h2 : Ready h s) (h3 : 0 < s.cwnd) (h4 : ¬ (s.mid = true ∧ s.anyAcks = true) → Line s) :
    Inv h (rescheduleTimeout s) := by
  obtain ⟨a1, a2, a3, a4, a5, a6, a7, a8, a9⟩ := rescheduleTimeout_rest s
  refine ⟨by rw [a1]; exact h1, by rw [Ready, a1, a2, a3]; exact h2, by rw [a4]; exact h3, fun q => ?_, fun _ => a8⟩
  rw [a6, a7] at q
  intro p hp
  rw [a2] at hp
  rw [a1, a4, a5, a9]
  exact h4 q p hp

theorem ackAtOnce_inv {h : List SS.Op} {s : Sess} (k : Inv h s) : Inv h (ackAtOnce s) := by
  rw [ackAtOnce]
  split
  · dsimp only
    split
    · exact ⟨k.traced, k.core, k.cwnd, k.line, k.armed⟩
    · exact scheduleWrite_inv (s := { s with delack := none, ackNow := true }) ⟨k.traced, k.core, k.cwnd, k.line, k.armed⟩ _
  · exact k

theorem scheduleAck_inv {h : List SS.Op} {s : Sess} (k : Inv h s) (r : Nat) : Inv h (scheduleAck s r) := by
  rw [scheduleAck]
  split
  · dsimp only
    split <;> exact ⟨k.traced, k.core, k.cwnd, k.line, k.armed⟩
  · exact k

theorem recvAck_inv {h : List SS.Op} {s : Sess} (k : Inv h s) (r : Nat) (u : Bool) : Inv h (recvAck s r u) := by
  rw [recvAck]
  have k2 : Inv h (if u = true then ackAtOnce s else s) := by
    split
    · exact ackAtOnce_inv k
    · exact k
  generalize (if u = true then ackAtOnce s else s) = v at *
  show Inv h (if r ∈ v.ackFlows then v else scheduleAck v r)
  split
  · exact k2
  · exact scheduleAck_inv k2 r

theorem putAcks_inv {h : List SS.Op} {s : Sess} (k : Inv h s) (n : Nat) : Inv h (putAcks s n) := by
  rw [putAcks]
  dsimp only
  split <;> exact ⟨k.traced, k.core, k.cwnd, k.line, k.armed⟩

theorem setKeepaliveAlarm_inv {h : List SS.Op} {s : Sess} (k : Inv h s) : Inv h (setKeepaliveAlarm s) := by
  rw [setKeepaliveAlarm]
  split <;> exact ⟨k.traced, k.core, k.cwnd, k.line, k.armed⟩

theorem setIdle_inv {h : List SS.Op} {s : Sess} (k : Inv h s) (d : Int) : Inv h (setIdle s d) := by
  rw [setIdle]
  dsimp only
  split <;> exact ⟨k.traced, k.core, k.cwnd, k.line, k.armed⟩

theorem Inv.opened_of_outs {h : List SS.Op} {s : Sess} (k : Inv h s) (ho : s.ss.outs ≠ []) : s.ss.isOpen = true := by
  obtain ⟨o, l, e⟩ := List.exists_cons_of_ne_nil ho
  exact k.traced.books.isOpen _ (outs_bound k.traced.books (o := o) (by rw [e]; simp))

theorem closeSession_inv {h : List SS.Op} {s : Sess} (k : Inv h s) : Inv h (closeSession s).1 := by
  have hb := k.traced.books
  obtain ⟨c1, c2, c3, c4, c5⟩ := SS.closeSession_like hb s.now
  refine ⟨k.traced.quiet (op := .closeSession s.now) trivial rfl rfl (fun _ _ _ _ e => by cases e), closeSession_core k.core hb, k.cwnd, fun _ p hp => absurd rfl hp, fun q => absurd c3 q⟩

theorem setOpen_inv {h : List SS.Op} {s : Sess} (k : Inv h s) (p l i : Int) : Inv h (setOpen s p l i) := by
  rw [setOpen]
  dsimp only
  apply setIdle_inv
  have k2 : Inv h (setKeepaliveAlarm { s with ss := { s.ss with isOpen := true }, lastTx := s.now, lastIdle := s.now, epoch := none, period := max p MIN_PERIOD }) := by
    apply setKeepaliveAlarm_inv
    refine ⟨k.traced.quiet (op := .sessionOpen) trivial rfl rfl (fun _ _ _ _ e => by cases e), ?_, k.cwnd, k.line, k.armed⟩
    have c := k.core
    exact { ready := c.ready, persist := c.persist, fresh := c.fresh, member := c.member, known := c.known, pri := c.pri, high := c.high, closed := (fun q => by cases q), once := c.once }
  exact ⟨k2.traced, k2.core, k2.cwnd, k2.line, k2.armed⟩

theorem onAck_inv {h : List SS.Op} {s : Sess} (k : Inv h s) {i b : Nat} {rs : List (Nat × Nat)} (hb : (s.ss.flow i).bound = true) (hm : s.mid = true) : Inv h (onAck s i b rs).1 := by
  obtain ⟨_, _, _, k4, _⟩ := SS.onAck_like s.ss i b rs
  have hc := onAck_core (b := b) (rs := rs) k.core hb (k.traced.books.isOpen i hb) (k.traced.bound_opened hb)
  have hrest : (onAck s i b rs).1.ss = (s.ss.onAck i b rs).1 ∧ (onAck s i b rs).1.cwnd = s.cwnd ∧ (onAck s i b rs).1.mid = s.mid ∧ (onAck s i b rs).1.anyAcks = true ∧
      (onAck s i b rs).1.alarm = s.alarm := by
    rw [onAck]
    dsimp only
    generalize hu : Sess.mk (s.ss.onAck i b rs).1 _ _ _ _ _ _ _ _ _ _ _ _ _ _ _ _ _ _ _ _ _ _ _ _ _ _ _ _ _ _ _ = u
    have u1 : u.ss = (s.ss.onAck i b rs).1 ∧ u.cwnd = s.cwnd ∧ u.mid = s.mid ∧ u.anyAcks = true ∧ u.alarm = s.alarm := by rw [← hu]; exact ⟨rfl, rfl, rfl, rfl, rfl⟩
    generalize decide ((s.ss.flow i).state.rank ≥ SFState.completeLinger.rank) = dn
    have hv : ∀ v, v = (if dn = true then u else if b = 0 then setPersist u i else clearPersist u i) → v.ss = (s.ss.onAck i b rs).1 ∧ v.cwnd = s.cwnd ∧ v.mid = s.mid ∧ v.anyAcks = true ∧ v.alarm = s.alarm := by
      intro v hv
      rw [hv]
      split
      · exact u1
      split
      · rw [setPersist]; split <;> exact u1
      · exact u1
    generalize hv' : (if dn = true then u else if b = 0 then setPersist u i else clearPersist u i) = v
    have h1 := hv v hv'.symm
    split
    · exact h1
    · obtain ⟨m1, m2, m3, m4, m5⟩ := schedule_more v i
      rw [m1, m2, m3, m4, m5]; obtain ⟨a, b, c, d, e⟩ := h1; exact ⟨a, b, c, d, e⟩
  obtain ⟨r1, r2, r3, r4, r5⟩ := hrest
  refine ⟨?_, hc, by rw [r2]; exact k.cwnd, ?_, ?_⟩
  · rw [r1]; exact k.traced.quiet (op := .ack i b rs) hb rfl rfl (fun _ _ _ _ e => by cases e)
  · intro q; rw [r3, r4] at q; exact absurd ⟨hm, rfl⟩ q
  · rw [r1, r5]; exact fun q => k.armed (k4 q)

theorem onException_inv {h : List SS.Op} {s : Sess} (k : Inv h s) {i rid : Nat} {names : Nat → Nat} (ha : SS.Allowed h s.ss (.exceptionReport i s.now rid names)) :
    Inv (h ++ [.exceptionReport i 0 rid names]) (onException s i rid names).1 := by
  refine change_inv k (fun i q => q.snoc _) ?_ (SS.exceptionReport_turn k.traced.books i s.now rid names)
  exact (k.traced.step ha rfl).retime rfl (fun _ _ _ _ e => by cases e)

theorem afterData_inv {h : List SS.Op} {s : Sess} (k : Inv h s) : Inv h (afterData s) := by
  have k1 : Inv h (afterData s) ∧ (afterData s).anyAcks = s.anyAcks := by
    rw [afterData]
    have k0 : Inv h (if s.seenData = true then { s with rxData := s.rxData + 1 } else s) ∧ (if s.seenData = true then { s with rxData := s.rxData + 1 } else s).anyAcks = s.anyAcks := by
      split
      · exact ⟨⟨k.traced, k.core, k.cwnd, k.line, k.armed⟩, rfl⟩
      · exact ⟨k, rfl⟩
    generalize (if s.seenData = true then { s with rxData := s.rxData + 1 } else s) = v at *
    show Inv h (if v.rxData ≥ 2 then ackAtOnce v else v) ∧ (if v.rxData ≥ 2 then ackAtOnce v else v).anyAcks = s.anyAcks
    split
    · refine ⟨ackAtOnce_inv k0.1, ?_⟩
      rw [← k0.2, ackAtOnce]
      split
      · dsimp only; split <;> rfl
      · rfl
    · exact k0
  exact k1.1

theorem afterAcks_inv {h : List SS.Op} {u : Sess} (k1 : Inv h u) (c : Bool) {w : Nat} (hw : 0 < w) : Inv h (afterAcks u c w) ∧ Line (afterAcks u c w) := by
  rw [afterAcks]
  split
  · rename_i hacks
    dsimp only
    generalize hv : Sess.mk u.ss u.now u.dest u.ready u.listed u.mid u.anyAcks u.seenData u.cwnd (if u.burst < MAX_BURST then MAX_BURST else u.burst) u.srtt u.mrto u.erto none u.alarm
      u.deadline u.epoch u.limit u.responder u.kaTimer u.kaOut u.lastTx u.period u.idleTimer u.idleLimit u.lastIdle u.recvFlows u.persist u.ackFlows u.ackNow u.delack u.rxData = v
    have v1 : v.ss = u.ss := by rw [← hv]
    have v2 : v.ready = u.ready := by rw [← hv]
    have v3 : v.persist = u.persist := by rw [← hv]
    have hb := k1.traced.books
    have n1 : Core (Opened h) (fun _ => False) (nakLoop v ⟨c, false, 0⟩ u.ss.outs).1.ss (nakLoop v ⟨c, false, 0⟩ u.ss.outs).1.ready (nakLoop v ⟨c, false, 0⟩ u.ss.outs).1.persist := by
      by_cases ho : u.ss.outs = []
      · rw [ho, nakLoop, v1, v2, v3]; exact k1.core
      · refine nakLoop_core _ v _ (by rw [v1, v2, v3]; exact k1.core) (fun o q => ?_) (by rw [v1]; exact k1.opened_of_outs ho)
        rw [v1]
        exact ⟨outs_bound hb q, k1.traced.bound_opened (outs_bound hb q)⟩
    have n2 := (nakLoop_ss u.ss.outs v ⟨c, false, 0⟩).1
    rw [v1] at n2
    generalize nakLoop v ⟨c, false, 0⟩ u.ss.outs = x at *
    have ht : Traced h x.1.ss := by rw [n2]; exact k1.traced.quiet (op := .afterAcks c) trivial rfl rfl (fun _ _ _ _ e => by cases e)
    have := rescheduleTimeout_inv (s := rescheduleTransmission { x.1 with cwnd := w }) ht n1 hw fun _ => reschedule_line n1.high
    generalize hy : rescheduleTimeout _ = y at *
    have hyl : Line y := by
      rw [← hy]
      obtain ⟨a1, a2, a3, a4, a5, a6, a7, a8, a9⟩ := rescheduleTimeout_rest (rescheduleTransmission { x.1 with cwnd := w })
      intro p hp
      rw [a2] at hp
      rw [a1, a4, a5, a9]
      exact reschedule_line (s := { x.1 with cwnd := w }) n1.high p hp
    exact ⟨this, hyl⟩
  · rename_i hacks
    exact ⟨k1, k1.line (fun q => hacks q.2)⟩

/-- after the chunks of a packet -/
theorem after_inv {h : List SS.Op} {s : Sess} (k : Inv h s) (c : Bool) {w : Nat} (hw : 0 < w) : Inv h (after s c w) := by
  obtain ⟨a, b⟩ := afterAcks_inv (afterData_inv k) c hw
  exact ⟨a.traced, a.core, a.cwnd, fun _ => b, a.armed⟩

theorem keepalivePing_inv {h : List SS.Op} {s : Sess} (k : Inv h s) : Inv h (sendKeepalivePing s) :=
  rescheduleTimeout_inv (s := { s with kaOut := true, lastTx := s.now }) k.traced k.core k.cwnd k.line

/-- the timeout alarm -/
theorem onTimeout_inv {h : List SS.Op} {s : Sess} (k : Inv h s) (hm : s.mid = false) : Inv h (onTimeout s).1 := by
  have hnil : s.ss.outs = [] → s.ss.outSum = 0 := fun e => by rw [k.traced.books.sum, e]; rfl
  have hlz := k.line (by rw [hm]; simp)
  rw [onTimeout]
  split
  · exact ⟨k.traced, k.core, k.cwnd, k.line, fun _ => by simp⟩
  dsimp only
  split
  · rename_i hc
    refine ⟨k.traced, k.core, k.cwnd, k.line, fun q => ?_⟩
    rw [k.opened_of_outs q] at hc; cases hc
  split
  · rename_i ho
    apply setKeepaliveAlarm_inv
    refine ⟨k.traced, k.core, (by show 0 < 3 * MSS; decide), fun _ p hp => ?_, fun q => absurd ho.1 q⟩
    rcases hlz p hp with a | a | a
    · exact Or.inl a
    · exact Or.inr (Or.inl a)
    · have := k.cwnd; have := hnil ho.1; omega
  rename_i hopen _
  have hopen' : s.ss.isOpen = true := by simpa using hopen
  split
  · -- it closes
    have hb := k.traced.books
    obtain ⟨c1, c2, c3, c4, c5⟩ := SS.closeSession_like hb s.now
    refine ⟨k.traced.quiet (op := .closeSession s.now) trivial rfl rfl (fun _ _ _ _ e => by cases e), ?_, k.cwnd, fun _ p hp => absurd rfl hp, fun q => absurd c3 q⟩
    exact closeSession_core (s := { s with alarm := none, burst := MAX_BURST }) k.core hb
  · generalize hu : Sess.mk s.ss s.now s.dest s.ready s.listed s.mid s.anyAcks s.seenData s.cwnd MAX_BURST s.srtt s.mrto s.erto s.burstAlarm none
      s.deadline s.epoch s.limit s.responder s.kaTimer s.kaOut s.lastTx s.period s.idleTimer s.idleLimit s.lastIdle s.recvFlows s.persist s.ackFlows s.ackNow s.delack s.rxData = u
    have u1 : u.ss = s.ss := by rw [← hu]
    have u2 : u.ready = s.ready := by rw [← hu]
    have u3 : u.persist = s.persist := by rw [← hu]
    have l0 := loseAll_timeout u
    have l1 : Core (Opened h) (fun _ => False) (loseAll u).ss (loseAll u).ready (loseAll u).persist := by
      have := loseAll_core (K := Opened h) u.ss.outs u (by rw [u1, u2, u3]; exact k.core) (fun o q => by
        rw [u1] at q ⊢
        exact ⟨outs_bound k.traced.books q, k.traced.bound_opened (outs_bound k.traced.books q)⟩) (by rw [u1]; exact hopen')
      rw [loseAll]
      exact { ready := this.ready, persist := this.persist, fresh := this.fresh, member := this.member, known := this.known, pri := this.pri, high := this.high, closed := this.closed, once := this.once }
    have l2 : (loseAll u).ss.outs = [] := rfl
    rw [u1] at l0
    generalize loseAll u = v at *
    have ht : Traced h v.ss := by rw [l0]; exact k.traced.quiet (op := .timeout) trivial rfl rfl (fun _ _ _ _ e => by cases e)
    have ki : Inv h (rescheduleTransmission { v with cwnd := 2 * MSS, erto := max (min (backedOff v.erto) MAX_ERTO) v.mrto }) :=
      reschedule_inv (s := { v with cwnd := 2 * MSS, erto := max (min (backedOff v.erto) MAX_ERTO) v.mrto }) ht l1 (by show 0 < 2 * MSS; decide) fun q => absurd l2 q
    split
    · exact keepalivePing_inv ki
    · exact ki

theorem onKeepalive_inv {h : List SS.Op} {s : Sess} (k : Inv h s) : Inv h (onKeepalive s).1 := by
  rw [onKeepalive]
  split
  · exact k
  dsimp only
  generalize s.lastTx + s.period + _ = due
  split
  · exact ⟨k.traced, k.core, k.cwnd, k.line, k.armed⟩
  · exact keepalivePing_inv (s := { s with kaTimer := none }) ⟨k.traced, k.core, k.cwnd, k.line, k.armed⟩

theorem onIdle_inv {h : List SS.Op} {s : Sess} (k : Inv h s) : Inv h (onIdle s).1 := by
  rw [onIdle]
  split
  · exact k
  split
  · exact ⟨k.traced, k.core, k.cwnd, k.line, k.armed⟩
  split
  · exact closeSession_inv k
  · exact ⟨k.traced, k.core, k.cwnd, k.line, k.armed⟩

theorem onPersist_inv {h : List SS.Op} {s : Sess} (k : Inv h s) (i : Nat) (f e : Int) : Inv h (onPersist s i f e).1 := by
  rw [onPersist]
  have c := k.core
  split
  · rename_i hr
    refine ⟨k.traced, { c with persist := fun j x y z => ?_ }, k.cwnd, k.line, k.armed⟩
    show (if j = i then none else s.persist j) ≠ none
    split
    · rename_i e; subst e
      have : (s.ss.flow j).state.rank ≤ 1 := y
      have h2 : ¬ (s.ss.flow j).state.rank ≤ 1 := by
        have : SFState.closing.rank = 1 := rfl
        omega
      exact absurd this h2
    · exact c.persist j x y z
  · refine ⟨k.traced, { c with persist := fun j x y z => ?_ }, k.cwnd, k.line, k.armed⟩
    dsimp only
    split
    · simp
    · exact c.persist j x y z

/-- data is sent -/
theorem sendData_inv {h : List SS.Op} {s : Sess} (k : Inv h s) (hm : s.mid = false) {x pri : Nat} {p : PA} {gone : Nat → Bool} (hp : Small p) (hl : s.listed x pri = true)
    (hid : ∀ i ∈ s.ss.sendFlows, (s.ss.flow i).flowId < 2 ^ 42 ∧ (s.ss.flow i).nextSn ≤ 2 ^ 42) :
    Inv h (sendData s pri p gone).1 ∧ ((sendData s pri p gone).2.1 = none →
      (sendData s pri p gone).1.ready pri = [] ∨ (sendData s pri p gone).1.burstAlarm ≠ none ∨ (sendData s pri p gone).1.cwnd ≤ (sendData s pri p gone).1.ss.outSum) := by
  have hlz := k.line (by rw [hm]; simp)
  have hrd : (fun q => if q = pri then s.ready pri else s.ready q) = s.ready := by funext q; split <;> simp_all
  rw [sendData]
  split
  · rename_i hcw
    split
    · have hof := offer_core (K := Opened h) (rd := s.ready) (pri := pri) s.now gone (s.ready pri) s.ss p [] k.traced (by rw [hrd]; exact k.core) hp
        (fun j hj => hid j ((k.traced.books.bound j).mpr hj))
      generalize offer pri s.now gone (s.ready pri) s.ss p [] = r at *
      obtain ⟨b1, b2, b3, b4, b5, b6, b7⟩ := hof
      dsimp only
      have hline : ∀ q, (if q = pri then r.2.1 else s.ready q) ≠ [] → (∃ x, s.listed x q = true) ∨ s.burstAlarm ≠ none := by
        intro q hq
        by_cases e : q = pri
        · subst e; exact Or.inl ⟨x, hl⟩
        · rw [if_neg e] at hq
          rcases hlz q hq with a | a | a
          · exact Or.inl a
          · exact Or.inr a
          · omega
      cases hr : r.2.2.1 with
      | some i =>
        dsimp only
        refine ⟨rescheduleTimeout_inv (s := { s with ss := r.1, ready := fun q => if q = pri then r.2.1 else s.ready q, burst := s.burst - (sub64 r.1.outSum s.ss.outSum : Int) })
          b1 b2 k.cwnd fun _ q hq => ?_, fun e => by cases e⟩
        rcases hline q hq with a | a
        · exact Or.inl a
        · exact Or.inr (Or.inl a)
      | none =>
        obtain ⟨c1, c2, c3⟩ := b6 hr
        dsimp only
        refine ⟨⟨b1, b2, k.cwnd, fun _ q hq => ?_, fun q => k.armed (by rw [← c2]; exact q)⟩, fun _ => Or.inl (by rw [if_pos rfl]; exact c1)⟩
        rcases hline q hq with a | a
        · exact Or.inl a
        · exact Or.inr (Or.inl a)
    · split
      · refine ⟨⟨k.traced, k.core, k.cwnd, fun _ q hq => Or.inr (Or.inl (by simp [scheduleBurst])), k.armed⟩, fun _ => Or.inr (Or.inl (by simp [scheduleBurst]))⟩
      · rename_i hba
        exact ⟨k, fun _ => Or.inr (Or.inl hba)⟩
  · rename_i hcw
    exact ⟨k, fun _ => Or.inr (Or.inr (by show s.cwnd ≤ s.ss.outSum; omega))⟩

/-- a place in line is given up -/
theorem unlist_inv {h : List SS.Op} {s : Sess} (k : Inv h s) (hm : s.mid = false) (x pri : Nat)
    (hp : s.ready pri = [] ∨ (∃ y, y ≠ x ∧ s.listed y pri = true) ∨ s.burstAlarm ≠ none ∨ s.cwnd ≤ s.ss.outSum) : Inv h (unlist s x pri) := by
  refine ⟨k.traced, k.core, k.cwnd, fun _ q hq => ?_, k.armed⟩
  have hq' : s.ready q ≠ [] := hq
  by_cases e : q = pri
  · subst e
    rcases hp with a | ⟨y, a, b⟩ | a | a
    · exact absurd a hq'
    · refine Or.inl ⟨y, ?_⟩
      show (if y = x ∧ q = q then false else s.listed y q) = true
      rw [if_neg (fun e => a e.1)]; exact b
    · exact Or.inr (Or.inl a)
    · exact Or.inr (Or.inr a)
  · rcases k.line (by rw [hm]; simp) q hq' with ⟨y, a⟩ | a | a
    · refine Or.inl ⟨y, ?_⟩
      show (if y = x ∧ q = pri then false else s.listed y q) = true
      rw [if_neg (fun f => e f.2)]; exact a
    · exact Or.inr (Or.inl a)
    · exact Or.inr (Or.inr a)

theorem writable_inv {h : List SS.Op} {s : Sess} (k : Inv h s) (hm : s.mid = false) {x pri : Nat} {p : PA} {gone : Nat → Bool} {n n' : Nat} (hp : Small p) (hl : s.listed x pri = true)
    (hid : ∀ i ∈ s.ss.sendFlows, (s.ss.flow i).flowId < 2 ^ 42 ∧ (s.ss.flow i).nextSn ≤ 2 ^ 42) : Inv h (writable s x pri p gone n n').1 := by
  rw [writable]
  split
  · rename_i hx
    refine unlist_inv (scheduleWrite_inv k pri) hm x pri (Or.inr (Or.inl ⟨s.dest, Ne.symm hx, ?_⟩))
    show (if s.dest = s.dest ∧ pri = pri then true else _) = true
    simp
  split
  · rename_i ho
    exact unlist_inv k hm x pri (Or.inl (k.core.closed ho pri))
  dsimp only
  have k1 : Inv h (if s.ackNow = true then putAcks s n else s) ∧ (if s.ackNow = true then putAcks s n else s).mid = false ∧
      (if s.ackNow = true then putAcks s n else s).listed x pri = true ∧ (if s.ackNow = true then putAcks s n else s).ss = s.ss := by
    split
    · refine ⟨putAcks_inv k n, ?_⟩
      rw [putAcks]; dsimp only; split <;> exact ⟨hm, hl, rfl⟩
    · exact ⟨k, hm, hl, rfl⟩
  generalize (if s.ackNow = true then putAcks s n else s) = u at *
  obtain ⟨k1, k2, k3, k4⟩ := k1
  generalize (if s.ackNow = true then s.ackFlows.take n else []) = first
  have k5 := sendData_inv (gone := gone) k1 k2 hp k3 (by rw [k4]; exact hid)
  have k6 : (sendData u pri p gone).1.mid = false := by
    have r : ∀ v : Sess, (rescheduleTimeout v).mid = v.mid := fun v => (rescheduleTimeout_rest v).2.2.2.2.2.1
    rw [sendData]
    split
    · split
      · dsimp only
        split
        · rw [r]; exact k2
        · exact k2
      · split <;> exact k2
    · exact k2
  have k7 : ∀ d, d = (if first ≠ [] then (u, none, []) else sendData u pri p gone) → Inv h d.1 ∧ d.1.mid = false ∧ (first = [] ∧ d.2.1 = none →
      d.1.ready pri = [] ∨ d.1.burstAlarm ≠ none ∨ d.1.cwnd ≤ d.1.ss.outSum) := by
    intro d hd
    rw [hd]
    split
    · rename_i hf
      exact ⟨k1, k2, fun q => absurd q.1 hf⟩
    · exact ⟨k5.1, k6, fun q => k5.2 q.2⟩
  generalize hd : (if first ≠ [] then (u, none, []) else sendData u pri p gone) = d
  obtain ⟨d1, d2, d3⟩ := k7 d hd.symm
  split
  · rename_i hq
    refine unlist_inv d1 d2 x pri ((d3 hq).imp id fun a => Or.inr a)
  · have := putAcks_inv d1 n'
    exact ⟨this.traced, this.core, this.cwnd, this.line, this.armed⟩

/-! ## every step -/

theorem used_snoc (ops : List Op) (op : Op) : used (ops ++ [op]) = used ops ++ used [op] := by simp [used]

theorem step_inv {ops : List Op} {s t : Sess} {op : Op} {os : List SOut} (k : Inv (used ops) s) (ha : Allowed ops s op) (hs : step s op = some (t, os)) :
    Inv (used (ops ++ [op])) t := by
  rw [used_snoc]
  have nil : ∀ {h : List SS.Op} {x : Sess}, Inv h x → Inv (h ++ []) x := fun q => by rw [List.append_nil]; exact q
  have fst : ∀ {x : Sess × List SOut}, some x = some (t, os) → x.1 = t := fun e => by injection e with e; rw [e]
  cases op with
  | advance x => cases hs; exact nil ⟨k.traced, k.core, k.cwnd, k.line, k.armed⟩
  | opened p l i => cases hs; exact nil (setOpen_inv k p l i)
  | flow op =>
    obtain ⟨a1, a2, a3⟩ := ha
    rw [step] at hs
    cases e : SS.step s.ss op with
    | none => rw [e] at hs; cases hs
    | some x =>
      rw [e] at hs
      cases hs
      exact flow_inv k a1 a3 e
  | writable x pri p gone n n' =>
    obtain ⟨a1, a2, a3, a4, a5, a6⟩ := ha
    rw [← fst hs]; exact nil (writable_inv k a1 a4.small a3 a5)
  | header sample =>
    obtain ⟨a1, _⟩ := ha
    cases hs
    have hl := k.line (by rw [a1]; simp)
    cases sample with
    | none => exact nil ⟨k.traced, k.core, k.cwnd, fun _ => hl, k.armed⟩
    | some x => exact nil ⟨k.traced, k.core, k.cwnd, fun _ => hl, k.armed⟩
  | chunk c =>
    obtain ⟨a1, a2, a3⟩ := ha
    have hs' := fst hs
    cases c with
    | ack i b rs => rw [← hs']; exact nil (onAck_inv k a3 a1)
    | exception i rid names => rw [← hs']; exact onException_inv k a3
    | ping => rw [← hs']; exact nil ⟨k.traced, k.core, k.cwnd, k.line, k.armed⟩
    | pingReply => rw [← hs']; exact nil ⟨k.traced, k.core, k.cwnd, k.line, k.armed⟩
    | data r u => rw [← hs']; exact nil (recvAck_inv (s := { s with seenData := true }) ⟨k.traced, k.core, k.cwnd, k.line, k.armed⟩ r u)
    | probe r => rw [← hs']; exact nil (recvAck_inv k r true)
  | after c w => cases hs; exact nil (after_inv k c ha.2)
  | moved x => cases hs; exact nil (reschedule_inv (s := { s with dest := x }) k.traced k.core k.cwnd k.armed)
  | recvAck r u => cases hs; exact nil (recvAck_inv k r u)
  | recvOpen r => cases hs; exact nil ⟨k.traced, k.core, k.cwnd, k.line, k.armed⟩
  | recvClose r => cases hs; exact nil ⟨k.traced, k.core, k.cwnd, k.line, k.armed⟩
  | setPeriod d => cases hs; exact nil (setKeepaliveAlarm_inv (s := { s with period := max d MIN_PERIOD }) ⟨k.traced, k.core, k.cwnd, k.line, k.armed⟩)
  | setLimit d => cases hs; exact nil ⟨k.traced, k.core, k.cwnd, k.line, k.armed⟩
  | setIdle d => cases hs; exact nil (setIdle_inv k d)
  | alarm =>
    obtain ⟨a1, f, a2, _⟩ := ha
    rw [step, a2] at hs
    rw [← fst hs]; exact nil (onTimeout_inv k a1)
  | keepalive =>
    obtain ⟨a1, f, a2, _⟩ := ha
    rw [step, a2] at hs
    rw [← fst hs]; exact nil (onKeepalive_inv k)
  | idle =>
    obtain ⟨a1, f, a2, _⟩ := ha
    rw [step, a2] at hs
    rw [← fst hs]; exact nil (onIdle_inv k)
  | burst =>
    obtain ⟨a1, f, a2, _⟩ := ha
    rw [step, a2] at hs
    rw [← fst hs]
    exact nil (reschedule_inv (s := { s with burstAlarm := none, burst := MSS + (if s.srtt ≥ BURST_RTT ∧ s.now - f > 0 then (s.now - f) * s.cwnd / s.srtt else 0) })
      k.traced k.core k.cwnd k.armed)
  | delack =>
    obtain ⟨a1, f, a2, _⟩ := ha
    rw [step, a2] at hs
    rw [← fst hs]; exact nil (ackAtOnce_inv k)
  | persist i =>
    obtain ⟨a1, f, e, a2, _⟩ := ha
    rw [step, a2] at hs
    rw [← fst hs]; exact nil (onPersist_inv k i f e)
  | close => rw [← fst hs]; exact nil (closeSession_inv k)

theorem init_inv (responder : Bool) (dest : Nat) : Inv [] (init responder dest) := by
  refine ⟨⟨[], [], .nil, (fun _ _ _ _ h => by cases h), (fun _ h => by cases h)⟩, ?_, (by show 0 < 3 * MSS; decide), fun _ p hp => absurd rfl hp, fun h => absurd rfl h⟩
  refine { ready := fun i _ hw => ?_, persist := fun i a _ _ => ?_, fresh := fun i _ _ => ?_, member := fun i p hi => (by cases hi), known := fun i p hi => (by cases hi),
           pri := fun i => (by show 0 < 8; decide), high := fun _ _ => rfl, closed := fun _ _ => rfl, once := fun _ => .nil }
  · have : false = true := hw.1
    cases this
  · have : false = true := a
    cases this
  · show 65536 ≠ 0; decide

theorem run_inv {responder : Bool} {dest : Nat} {ops : List Op} {s : Sess} {out : List SOut} (h : Run responder dest ops s out) : Inv (used ops) s := by
  induction h with
  | nil => exact init_inv responder dest
  | snoc _ ha hs ih => exact step_inv ih ha hs

end Sess
end Rtmfp
