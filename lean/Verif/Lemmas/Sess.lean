import Verif.Spec.Sess
import Verif.Lemmas.SessTurn

/-! # What holds for a session at all times -/

namespace Rtmfp
namespace Sess
open SS (Wants Turn Turns Like Books FlowOk)

/-! ## the sending side of a session -/

/-- what was called, as far as it matters for what can be called later -/
def Covers (tr h : List SS.Op) : Prop :=
  (∀ i m a p, SS.Op.openFlow i m a p ∈ tr → SS.Op.openFlow i m a p ∈ h) ∧ ∀ r, some r ∈ tr.map SS.Op.rid → some r ∈ h.map SS.Op.rid

/-- the sending side is as in C11 to C26 -/
def Traced (h : List SS.Op) (s : SS) : Prop := ∃ tr evs, SS.Exec tr s evs ∧ Covers tr h

theorem allowed_mono {tr h : List SS.Op} (hc : Covers tr h) {s : SS} {op : SS.Op} (ha : SS.Allowed h s op) : SS.Allowed tr s op := by
  cases op with
  | openFlow i m a p => exact ⟨ha.1, fun m a p k => ha.2.1 m a p (hc.1 i m a p k), ha.2.2⟩
  | write i msg now a b rid names => exact ⟨fun k => ha.1 (hc.2 _ k), ha.2⟩
  | close i now rid names => exact ⟨fun k => ha.1 (hc.2 _ k), ha.2⟩
  | exceptionReport i now rid names => exact ⟨ha.1, fun k => ha.2.1 (hc.2 _ k), ha.2.2⟩
  | receipt op => cases op <;> exact ha
  | _ => exact ha

theorem Traced.step {h : List SS.Op} {s t : SS} {op : SS.Op} {es : List SS.Ev} (k : Traced h s) (ha : SS.Allowed h s op) (hs : SS.step s op = some (t, es)) :
    Traced (h ++ [op]) t := by
  obtain ⟨tr, evs, e, c⟩ := k
  refine ⟨tr ++ [op], _, .snoc e (allowed_mono c ha) hs, fun i m a p q => ?_, fun r q => ?_⟩
  · rcases List.mem_append.mp q with q | q
    · exact List.mem_append_left _ (c.1 i m a p q)
    · exact List.mem_append_right _ q
  · rw [List.map_append] at q ⊢
    rcases List.mem_append.mp q with q | q
    · exact List.mem_append_left _ (c.2 r q)
    · exact List.mem_append_right _ q

/-- operations that open nothing and issue no receipts -/
theorem Traced.quiet {h : List SS.Op} {s t : SS} {op : SS.Op} {es : List SS.Ev} (k : Traced h s) (ha : SS.Allowed h s op) (hs : SS.step s op = some (t, es))
    (h1 : op.rid = none) (h2 : ∀ i m a p, op ≠ .openFlow i m a p) : Traced h t := by
  obtain ⟨tr, evs, e, c⟩ := k
  refine ⟨tr ++ [op], _, .snoc e (allowed_mono c ha) hs, fun i m a p q => ?_, fun r q => ?_⟩
  · rcases List.mem_append.mp q with q | q
    · exact c.1 i m a p q
    · exact absurd (List.mem_singleton.mp q).symm (h2 i m a p)
  · rw [List.map_append] at q
    rcases List.mem_append.mp q with q | q
    · exact c.2 r q
    · simp [h1] at q

/-- the same with the time of an exception, which is not in the record -/
theorem Traced.retime {h : List SS.Op} {op op' : SS.Op} {s : SS} (k : Traced (h ++ [op]) s) (h1 : op'.rid = op.rid) (h2 : ∀ i m a p, op = .openFlow i m a p → op' = op) :
    Traced (h ++ [op']) s := by
  obtain ⟨tr, evs, e, c⟩ := k
  refine ⟨tr, evs, e, fun i m a p q => ?_, fun r q => ?_⟩
  · rcases List.mem_append.mp (c.1 i m a p q) with q | q
    · exact List.mem_append_left _ q
    · have := List.mem_singleton.mp q
      exact List.mem_append_right _ (by rw [h2 i m a p this.symm]; exact q)
  · have := c.2 r q
    rw [List.map_append] at this ⊢
    simpa [h1] using this

theorem Traced.books {h : List SS.Op} {s : SS} (k : Traced h s) : Books s := by
  obtain ⟨tr, evs, e, _⟩ := k; exact SS.exec_books e
theorem Traced.lined {h : List SS.Op} {s : SS} (k : Traced h s) (i : Nat) : SS.Lined (s.flow i) := by
  obtain ⟨tr, evs, e, _⟩ := k; exact SS.exec_lined e i
theorem Traced.opened {h : List SS.Op} {s : SS} (k : Traced h s) {i : Nat} (hi : (s.flow i).state ≠ .closed) : ∃ m a p, SS.Op.openFlow i m a p ∈ h := by
  obtain ⟨tr, evs, e, c⟩ := k
  obtain ⟨m, a, p, q, _⟩ := SS.opened_was_opened e hi
  exact ⟨m, a, p, c.1 i m a p q⟩

/-! ## flows that want to send are ready -/

/-- `K`: the flows that were opened; `ex`: flows about to be scheduled -/
structure Core (K ex : Nat → Prop) (ss : SS) (rd : Nat → List Nat) (ps : Nat → Option (Int × Int)) : Prop where
  ready : ∀ i, ¬ ex i → Wants (ss.flow i) → i ∈ rd (ss.flow i).priority
  persist : ∀ i, (ss.flow i).bound = true → (ss.flow i).state.rank ≤ 1 → (ss.flow i).rxBuffer = 0 → ps i ≠ none
  fresh : ∀ i, (ss.flow i).bound = false → (ss.flow i).state.rank ≤ 1 → (ss.flow i).rxBuffer ≠ 0
  member : ∀ i p, i ∈ rd p → (ss.flow i).bound = true ∨ ((ss.flow i).state = .closed ∧ (ss.flow i).queue = [])
  known : ∀ i p, i ∈ rd p → K i
  pri : ∀ i, (ss.flow i).priority < 8
  high : ∀ p, 8 ≤ p → rd p = []
  closed : ss.isOpen = false → ∀ p, rd p = []
  once : ∀ p, (rd p).Nodup

theorem Core.weaken {K K' ex ex' : Nat → Prop} {ss ready persist} (h : Core K ex ss ready persist) (hK : ∀ i, K i → K' i) (he : ∀ i, ex i → ex' i) :
    Core K' ex' ss ready persist :=
  { h with ready := fun i hi => h.ready i fun k => hi (he i k), known := fun i p hi => hK i (h.known i p hi) }

theorem Wants.maybeReady {f : SF} (h : Wants f) : SS.isMaybeReady f = true := by
  obtain ⟨_, ⟨x, hx, _⟩, h3⟩ := h
  have : f.queue ≠ [] := fun e => by rw [e] at hx; cases hx
  simp [SS.isMaybeReady, this, h3]

theorem scheduleFlow_rest (s : Sess) (i p : Nat) : (scheduleFlow s i p).ss = s.ss ∧ (scheduleFlow s i p).persist = s.persist := by
  rw [scheduleFlow]; split <;> exact ⟨rfl, rfl⟩

/-- the members that scheduling doesn't touch: everything but `ready` and `listed` -/
def rest (s : Sess) : Sess := { s with ready := fun _ => [], listed := fun _ _ => false }

theorem schedule_rest (s : Sess) (i : Nat) : rest (schedule s i) = rest s := by
  rw [schedule]
  split
  · rw [scheduleFlow]; split <;> rfl
  · rfl

theorem rest_eq {s t : Sess} (h : rest t = rest s) : t.ss = s.ss ∧ t.persist = s.persist ∧ t.cwnd = s.cwnd ∧ t.burstAlarm = s.burstAlarm ∧ t.dest = s.dest ∧
    t.alarm = s.alarm ∧ t.now = s.now := by
  have h1 := congrArg Sess.ss h; have h2 := congrArg Sess.persist h; have h3 := congrArg Sess.cwnd h; have h4 := congrArg Sess.burstAlarm h
  have h5 := congrArg Sess.dest h; have h6 := congrArg Sess.alarm h; have h7 := congrArg Sess.now h
  exact ⟨h1, h2, h3, h4, h5, h6, h7⟩

theorem schedule_core {K ex : Nat → Prop} {s : Sess} {i : Nat} (h : Core K (fun j => j = i ∨ ex j) s.ss s.ready s.persist) (hK : K i) (hb : (s.ss.flow i).bound = true)
    (ho : s.ss.isOpen = true) : Core K ex (schedule s i).ss (schedule s i).ready (schedule s i).persist := by
  by_cases hm : SS.isMaybeReady (s.ss.flow i) = true
  · rw [schedule, if_pos hm, scheduleFlow]
    by_cases hi : i ∈ s.ready (s.ss.flow i).priority
    · rw [if_pos hi]
      refine { h with ready := fun j hj hw => ?_ }
      by_cases e : j = i
      · subst e; exact hi
      · exact h.ready j (fun k => k.elim e hj) hw
    · rw [if_neg hi]
      show Core K ex s.ss (fun q => if q = (s.ss.flow i).priority then s.ready (s.ss.flow i).priority ++ [i] else s.ready q) s.persist
      refine { h with ready := fun j hj hw => ?_, member := fun j p hj => ?_, known := fun j p hj => ?_, high := fun p hp => ?_, closed := fun k => ?_, once := fun p => ?_ }
      · by_cases e : j = i
        · subst e; simp
        · have := h.ready j (fun k => k.elim e hj) hw
          split
          · rename_i hq; rw [hq] at this; exact List.mem_append_left _ this
          · exact this
      · split at hj
        · rename_i hq
          rcases List.mem_append.mp hj with hj | hj
          · exact h.member j _ hj
          · rw [List.mem_singleton.mp hj]; exact Or.inl hb
        · exact h.member j p hj
      · split at hj
        · rcases List.mem_append.mp hj with hj | hj
          · exact h.known j _ hj
          · rw [List.mem_singleton.mp hj]; exact hK
        · exact h.known j p hj
      · have := h.pri i
        rw [if_neg (by omega)]; exact h.high p hp
      · rw [ho] at k; cases k
      · split
        · rw [List.nodup_append]
          refine ⟨h.once _, by simp, fun a ha b hb => ?_⟩
          rw [List.mem_singleton.mp hb]
          rintro rfl; exact hi ha
        · exact h.once p
  · rw [schedule, if_neg hm]
    refine { h with ready := fun j hj hw => ?_ }
    by_cases e : j = i
    · subst e; exact absurd (Wants.maybeReady hw) hm
    · exact h.ready j (fun k => k.elim e hj) hw

/-! ## a session with ready flows is in line, or will be -/

def Line (s : Sess) : Prop := ∀ p, s.ready p ≠ [] → (∃ x, s.listed x p = true) ∨ s.burstAlarm ≠ none ∨ s.cwnd ≤ s.ss.outSum

theorem schedule_line {s : Sess} {i : Nat} (h : Line s) : Line (schedule s i) := by
  rw [schedule]
  split
  · rw [scheduleFlow]
    split
    · exact h
    · intro p hp
      by_cases e : p = (s.ss.flow i).priority
      · subst e
        refine Or.inl ⟨s.dest, ?_⟩
        show (if s.dest = s.dest ∧ _ = _ then true else _) = true
        simp
      · have hp' : s.ready p ≠ [] := by
          intro k; apply hp
          show (if p = (s.ss.flow i).priority then _ else s.ready p) = []
          rw [if_neg e]; exact k
        have hl : ∀ x, s.listed x p = true → (if x = s.dest ∧ p = (s.ss.flow i).priority then true else s.listed x p) = true := by
          intro x hx; rw [hx]; simp
        rcases h p hp' with ⟨x, a⟩ | a | a
        · exact Or.inl ⟨x, hl x a⟩
        · exact Or.inr (Or.inl a)
        · exact Or.inr (Or.inr a)
  · exact h

theorem reschedule_line {s : Sess} (h : ∀ p, 8 ≤ p → s.ready p = []) : Line (rescheduleTransmission s) := by
  intro p hp
  refine Or.inl ⟨s.dest, ?_⟩
  have hp8 : p < 8 := by
    apply Classical.byContradiction
    intro k; exact hp (h p (by omega))
  show (if s.dest = s.dest ∧ p < 8 ∧ s.ready p ≠ [] then true else _) = true
  rw [if_pos ⟨rfl, hp8, hp⟩]

/-! ## changes of the sending side -/

theorem turn_core {K ex : Nat → Prop} {s t : SS} {rd : Nat → List Nat} {ps ps' : Nat → Option (Int × Int)} (h : Core K ex s rd ps)
    (ht : ∀ j, Turn (s.flow j) (t.flow j)) (ho : t.isOpen = s.isOpen) (hp : ∀ j, ps' j = ps j ∨ (t.flow j).state = .closed) :
    Core K (fun j => ex j ∨ (t.flow j).nextSn ≠ (s.flow j).nextSn) t rd ps' := by
  refine { ready := fun j hj hw => ?_, persist := fun j hb hr hx => ?_, fresh := fun j hb hr => ?_, member := fun j p hj => ?_, known := h.known,
           pri := fun j => by rw [(ht j).pri]; exact h.pri j, high := h.high, closed := fun k => h.closed (by rw [← ho]; exact k), once := h.once }
  · rw [(ht j).pri]
    refine h.ready j (fun k => hj (Or.inl k)) ((ht j).wants ?_ hw)
    apply Classical.byContradiction
    intro k; exact hj (Or.inr k)
  · have := (ht j).rank
    rcases hp j with e | e
    · rw [e]; exact h.persist j ((ht j).bound hb) (by omega) (by rw [← (ht j).rx]; exact hx)
    · rw [e] at hr; simp [SFState.rank] at hr
  · have := (ht j).rank
    rw [(ht j).rx]
    cases e : (s.flow j).bound with
    | false => exact h.fresh j e (by omega)
    | true => rw [((ht j).gone hb e).1] at hr; simp [SFState.rank] at hr
  · rcases h.member j p hj with a | ⟨a, b⟩
    · cases e : (t.flow j).bound with
      | true => exact Or.inl rfl
      | false => exact Or.inr ((ht j).gone e a)
    · exact Or.inr ((ht j).closed a b)

theorem noteIdle_rest (s : Sess) (b : SS) : (noteIdle s b).ss = s.ss ∧ (noteIdle s b).ready = s.ready ∧ (noteIdle s b).persist = s.persist := by
  rw [noteIdle]; split <;> exact ⟨rfl, rfl, rfl⟩

theorem afterChange_core {K : Nat → Prop} {s : Sess} {t : SS} {i : Nat} (h : Core K (fun _ => False) s.ss s.ready s.persist) (ht : Turns s.ss t i) (hb : Books t)
    (hK : (t.flow i).bound = true → K i) : Core K (fun _ => False) (afterChange { s with ss := t } i s.ss).ss (afterChange { s with ss := t } i s.ss).ready
      (afterChange { s with ss := t } i s.ss).persist := by
  rw [afterChange]
  obtain ⟨e1, e2, e3⟩ := noteIdle_rest { s with ss := t } s.ss
  generalize noteIdle { s with ss := t } s.ss = u at *
  rw [e1]
  dsimp only at e1 e2 e3
  have hu : ∃ v : Sess, v = (if (t.flow i).state = .closed then clearPersist u i else u) ∧ v.ss = t ∧ v.ready = s.ready ∧ ∀ j, v.persist j = s.persist j ∨ (t.flow j).state = .closed := by
    refine ⟨_, rfl, ?_⟩
    split
    · rename_i hc
      refine ⟨e1, e2, fun j => ?_⟩
      by_cases e : j = i
      · subst e; exact Or.inr hc
      · left; show (if j = i then none else u.persist j) = _; rw [if_neg e, e3]
    · exact ⟨e1, e2, fun j => Or.inl (by rw [e3])⟩
  obtain ⟨v, hv, v1, v2, v3⟩ := hu
  rw [← hv, v1]
  have hc := turn_core (ps' := v.persist) h ht.all ht.isOpen v3
  split
  · rename_i hi
    refine schedule_core ?_ (hK hi.2.1) (by rw [v1]; exact hi.2.1) (by rw [v1]; exact hi.2.2)
    rw [v1, v2]
    refine hc.weaken (fun _ k => k) fun j hj => ?_
    rcases hj with hj | hj
    · exact hj.elim
    · left
      apply Classical.byContradiction
      intro e; exact hj (by rw [ht.other j e])
  · rename_i hi
    rw [v1, v2]
    refine { hc with ready := fun j _ hw => ?_ }
    refine hc.ready j (fun hj => ?_) hw
    rcases hj with hj | hj
    · exact hj.elim
    · have e : j = i := by
        apply Classical.byContradiction
        intro e; exact hj (by rw [ht.other j e])
      subst e
      exact hi ⟨hj, hw.1, hb.isOpen j hw.1⟩

theorem afterChange_line {s : Sess} {t : SS} {i : Nat} (h : Line s) (ht : Turns s.ss t i) : Line (afterChange { s with ss := t } i s.ss) := by
  rw [afterChange]
  have h1 : Line (noteIdle { s with ss := t } s.ss) := by
    rw [noteIdle]
    split <;> (intro p hp; have := h p hp; dsimp only; rw [ht.sum]; exact this)
  generalize noteIdle { s with ss := t } s.ss = u at *
  have h2 : Line (if (u.ss.flow i).state = .closed then clearPersist u i else u) := by
    split
    · exact h1
    · exact h1
  generalize (if (u.ss.flow i).state = .closed then clearPersist u i else u) = v at *
  show Line (if (v.ss.flow i).nextSn ≠ _ ∧ _ ∧ _ then schedule v i else v)
  split
  · exact schedule_line h2
  · exact h2

/-! ## acknowledgements -/

theorem setPersist_rest (s : Sess) (i : Nat) : (setPersist s i).ss = s.ss ∧ (setPersist s i).ready = s.ready ∧ (∀ j, j ≠ i → (setPersist s i).persist j = s.persist j) ∧
    (setPersist s i).persist i ≠ none := by
  rw [setPersist]
  split
  · rename_i h; exact ⟨rfl, rfl, fun _ _ => rfl, by rw [h]; simp⟩
  · exact ⟨rfl, rfl, fun j hj => if_neg hj, by simp⟩

theorem onAck_core {K : Nat → Prop} {s : Sess} {i b : Nat} {rs : List (Nat × Nat)} (h : Core K (fun _ => False) s.ss s.ready s.persist) (hb : (s.ss.flow i).bound = true)
    (ho : s.ss.isOpen = true) (hK : K i) : Core K (fun _ => False) (onAck s i b rs).1.ss (onAck s i b rs).1.ready (onAck s i b rs).1.persist := by
  obtain ⟨k1, k2, k3, k4, k5, k6⟩ := SS.onAck_like s.ss i b rs
  rw [onAck]
  dsimp only
  by_cases hr : (s.ss.flow i).state.rank ≥ 2
  · have hr' : (s.ss.flow i).state.rank ≥ SFState.completeLinger.rank := hr
    have hx := k5 hr
    simp only [hr', hx, decide_true, if_true, true_or]
    exact h
  · have hr' : ¬ (s.ss.flow i).state.rank ≥ SFState.completeLinger.rank := hr
    have hx := k6 hr
    simp only [hr', decide_false, Bool.false_eq_true, if_false, false_or]
    generalize (s.ss.onAck i b rs).1 = t at *
    have hfl : ∀ (ex : Nat → Prop) (ps : Nat → Option (Int × Int)), (∀ j, j ≠ i → ps j = s.persist j) → (b = 0 → ps i ≠ none) → (ex i ∨ ¬ Wants (t.flow i)) → Core K ex t s.ready ps := by
      intro ex ps h1 h2 h3
      refine { ready := fun j hj hw => ?_, persist := fun j hb2 hr2 hx2 => ?_, fresh := fun j hb2 hr2 => ?_, member := fun j p hj => ?_, known := h.known,
               pri := fun j => ?_, high := h.high, closed := fun k => h.closed (by rw [← k2]; exact k), once := h.once }
      · by_cases e : j = i
        · subst e; exact (h3.elim (fun k => absurd k hj) (fun k => absurd hw k))
        · rw [k1 j e] at hw ⊢; exact h.ready j (fun k => k.elim) hw
      · by_cases e : j = i
        · subst e; exact h2 (by rw [← hx2]; exact hx.rx.symm)
        · rw [k1 j e] at hb2 hr2 hx2; rw [h1 j e]; exact h.persist j hb2 hr2 hx2
      · by_cases e : j = i
        · subst e; rw [hx.bound, hb] at hb2; cases hb2
        · rw [k1 j e] at hb2 hr2 ⊢; exact h.fresh j hb2 hr2
      · by_cases e : j = i
        · subst e; left; rw [hx.bound]; exact hb
        · rw [k1 j e]; exact h.member j p hj
      · by_cases e : j = i
        · subst e; rw [hx.pri]; exact h.pri j
        · rw [k1 j e]; exact h.pri j
    generalize hu : Sess.mk t _ _ _ _ _ _ _ _ _ _ _ _ _ _ _ _ _ _ _ _ _ _ _ _ _ _ _ _ _ _ _ = u
    have u1 : u.ss = t := by rw [← hu]
    have u2 : u.ready = s.ready := by rw [← hu]
    have u3 : u.persist = s.persist := by rw [← hu]
    have hv : ∃ v : Sess, v = (if b = 0 then setPersist u i else clearPersist u i) ∧ v.ss = t ∧ v.ready = s.ready ∧ (∀ j, j ≠ i → v.persist j = s.persist j) ∧ (b = 0 → v.persist i ≠ none) := by
      refine ⟨_, rfl, ?_⟩
      split
      · obtain ⟨a1, a2, a3, a4⟩ := setPersist_rest u i
        exact ⟨by rw [a1, u1], by rw [a2, u2], fun j hj => by rw [a3 j hj, u3], fun _ => a4⟩
      · rename_i hb0
        refine ⟨u1, u2, fun j hj => ?_, fun k => absurd k hb0⟩
        show (if j = i then none else u.persist j) = _
        rw [if_neg hj, u3]
    obtain ⟨v, hv, v1, v2, v3, v4⟩ := hv
    rw [← hv]
    split
    · rename_i hl
      rw [v1, v2]
      refine hfl _ _ v3 v4 (Or.inr fun hw => ?_)
      rcases hx.state with e | e
      · rw [← e, hl] at hr; simp [SFState.rank] at hr
      · obtain ⟨_, ⟨x, hx, _⟩, _⟩ := hw
        rw [e.2] at hx; cases hx
    · refine schedule_core ?_ hK (by rw [v1, hx.bound]; exact hb) (by rw [v1, k2]; exact ho)
      rw [v1, v2]
      exact hfl _ _ v3 v4 (Or.inl (Or.inl rfl))

/-! ## loss -/

theorem like_core {K ex ex' : Nat → Prop} {s t : SS} {rd : Nat → List Nat} {ps : Nat → Option (Int × Int)} (h : Core K ex s rd ps) (hl : ∀ j, Like (s.flow j) (t.flow j))
    (ho : t.isOpen = s.isOpen) (hw : ∀ j, ¬ ex' j → Wants (t.flow j) → ¬ ex j ∧ Wants (s.flow j)) : Core K ex' t rd ps := by
  refine { ready := fun j hj k => ?_, persist := fun j a b c => ?_, fresh := fun j a b => ?_, member := fun j p hj => ?_, known := h.known,
           pri := fun j => by rw [(hl j).pri]; exact h.pri j, high := h.high, closed := fun k => h.closed (by rw [← ho]; exact k), once := h.once }
  · obtain ⟨a, b⟩ := hw j hj k
    rw [(hl j).pri]; exact h.ready j a b
  · rw [(hl j).bound] at a; rw [(hl j).state] at b; rw [(hl j).rx] at c; exact h.persist j a b c
  · rw [(hl j).bound] at a; rw [(hl j).state] at b; rw [(hl j).rx]; exact h.fresh j a b
  · rw [(hl j).bound, (hl j).state, (hl j).empty]; exact h.member j p hj

theorem schedule_ss (s : Sess) (i : Nat) : (schedule s i).ss = s.ss := (rest_eq (schedule_rest s i)).1

theorem lose_core {K : Nat → Prop} {s : Sess} {o : OutRef} (h : Core K (fun _ => False) s.ss s.ready s.persist) (hb : (s.ss.flow o.flow).bound = true) (ho : s.ss.isOpen = true)
    (hK : K o.flow) : Core K (fun _ => False) (schedule { s with ss := SS.lose s.ss o } o.flow).ss (schedule { s with ss := SS.lose s.ss o } o.flow).ready
      (schedule { s with ss := SS.lose s.ss o } o.flow).persist := by
  obtain ⟨k1, k2⟩ := SS.lose_like s.ss o
  refine schedule_core (s := { s with ss := SS.lose s.ss o }) ?_ hK (by rw [← hb]; exact (k1 _).bound) ho
  refine like_core h k1 rfl fun j hj hw => ⟨fun k => k, ?_⟩
  rw [← k2 j fun e => hj (Or.inl e)]; exact hw

theorem loseAll_core {K : Nat → Prop} (l : List OutRef) : ∀ s : Sess, Core K (fun _ => False) s.ss s.ready s.persist → (∀ o ∈ l, (s.ss.flow o.flow).bound = true ∧ K o.flow) →
    s.ss.isOpen = true → Core K (fun _ => False) (l.foldl (fun s o => schedule { s with ss := SS.lose s.ss o } o.flow) s).ss
      (l.foldl (fun s o => schedule { s with ss := SS.lose s.ss o } o.flow) s).ready (l.foldl (fun s o => schedule { s with ss := SS.lose s.ss o } o.flow) s).persist := by
  induction l with
  | nil => intro s h _ _; exact h
  | cons o l ih =>
    intro s h hb ho
    obtain ⟨b, k⟩ := hb o (by simp)
    refine ih _ (lose_core h b ho k) (fun p hp => ?_) (by rw [schedule_ss]; exact ho)
    rw [schedule_ss]
    obtain ⟨c, d⟩ := hb p (List.mem_cons_of_mem _ hp)
    exact ⟨by rw [← c]; exact ((SS.lose_like s.ss o).1 _).bound, d⟩

theorem loseAll_ss (l : List OutRef) : ∀ s : Sess, (l.foldl (fun s o => schedule { s with ss := SS.lose s.ss o } o.flow) s).ss = l.foldl SS.lose s.ss := by
  induction l with
  | nil => intro s; rfl
  | cons o l ih => intro s; rw [List.foldl_cons, List.foldl_cons, ih, schedule_ss]

theorem loseAll_timeout (s : Sess) : (loseAll s).ss = s.ss.timeout := by
  rw [loseAll, SS.timeout, ← loseAll_ss s.ss.outs s]

theorem loseAll_rest (l : List OutRef) : ∀ s : Sess, rest { l.foldl (fun s o => schedule { s with ss := SS.lose s.ss o } o.flow) s with ss := s.ss } = rest s := by
  induction l with
  | nil => intro s; rfl
  | cons o l ih =>
    intro s
    rw [List.foldl_cons]
    have h := ih (schedule { s with ss := SS.lose s.ss o } o.flow)
    have h2 := schedule_rest { s with ss := SS.lose s.ss o } o.flow
    generalize l.foldl _ _ = x at *
    generalize schedule _ _ = y at *
    have e1 : rest { x with ss := s.ss } = { rest { x with ss := y.ss } with ss := s.ss } := rfl
    rw [e1, h, h2]; rfl

theorem nakLoop_core {K : Nat → Prop} (l : List OutRef) : ∀ (s : Sess) (k : SS.Nak), Core K (fun _ => False) s.ss s.ready s.persist →
    (∀ o ∈ l, (s.ss.flow o.flow).bound = true ∧ K o.flow) → s.ss.isOpen = true →
    Core K (fun _ => False) (nakLoop s k l).1.ss (nakLoop s k l).1.ready (nakLoop s k l).1.persist := by
  induction l with
  | nil => intro s k h _ _; exact h
  | cons o l ih =>
    intro s k h hb ho
    rw [nakLoop]
    split
    · exact h
    obtain ⟨b, hk⟩ := hb o (by simp)
    obtain ⟨n1, n2⟩ := SS.nakFrag_like s.ss o
    have h2 : Core K (fun _ => False) (SS.nakFrag s.ss o) s.ready s.persist := like_core h n1 rfl fun j _ hw => ⟨fun k => k, n2 j hw⟩
    have hb2 : ∀ p ∈ l, ((SS.nakFrag s.ss o).flow p.flow).bound = true ∧ K p.flow := fun p hp => by
      obtain ⟨c, d⟩ := hb p (List.mem_cons_of_mem _ hp)
      exact ⟨by rw [← c]; exact (n1 _).bound, d⟩
    dsimp only
    split
    · exact ih { s with ss := SS.nakFrag s.ss o } _ h2 hb2 ho
    · split
      · refine ih _ _ ?_ ?_ ?_
        · have h3 := lose_core (s := { s with ss := SS.nakFrag s.ss o }) (o := o) h2 (by rw [← b]; exact (n1 _).bound) ho hk
          exact { ready := h3.ready, persist := h3.persist, fresh := h3.fresh, member := h3.member, known := h3.known, pri := h3.pri, high := h3.high, closed := h3.closed, once := h3.once }
        · intro p hp
          obtain ⟨c, d⟩ := hb2 p hp
          refine ⟨?_, d⟩
          dsimp only
          rw [schedule_ss, ← c]
          exact ((SS.lose_like _ o).1 _).bound
        · dsimp only
          rw [schedule_ss]; exact ho
      · exact ih { s with ss := SS.nakFrag s.ss o } _ h2 hb2 ho

theorem nakLoop_ss (l : List OutRef) : ∀ (s : Sess) (k : SS.Nak), (nakLoop s k l).1.ss = (SS.nakLoop s.ss k l).1 ∧ (nakLoop s k l).2 = (SS.nakLoop s.ss k l).2 := by
  induction l with
  | nil => intro s k; exact ⟨rfl, rfl⟩
  | cons o l ih =>
    intro s k
    rw [nakLoop, SS.nakLoop]
    split
    · exact ⟨rfl, rfl⟩
    dsimp only
    cases hf : SS.fragOf ((SS.nakFrag s.ss o).flow o.flow).queue o.sn with
    | none => exact ih _ _
    | some frag =>
      dsimp only
      split
      · have e := schedule_ss { s with ss := SS.lose (SS.nakFrag s.ss o) o } o.flow
        generalize schedule _ _ = y at *
        dsimp only at e
        rw [← e]
        exact ih { y with ss := { y.ss with outs := y.ss.outs.filter (fun p => !(decide (p.flow = o.flow) && decide (p.sn = o.sn))), outSum := sub64 y.ss.outSum o.size } } _
      · exact ih _ _

theorem nakLoop_rest (l : List OutRef) : ∀ (s : Sess) (k : SS.Nak), rest { (nakLoop s k l).1 with ss := s.ss } = rest s := by
  induction l with
  | nil => intro s k; rfl
  | cons o l ih =>
    intro s k
    rw [nakLoop]
    split
    · rfl
    dsimp only
    split
    · have := ih { s with ss := SS.nakFrag s.ss o } k
      generalize (nakLoop _ _ _).1 = x at *
      have e1 : rest { x with ss := s.ss } = { rest { x with ss := SS.nakFrag s.ss o } with ss := s.ss } := rfl
      rw [e1, this]; rfl
    · split
      · generalize (SS.Nak.mk _ _ _) = k2
        have h2 := schedule_rest { s with ss := SS.lose (SS.nakFrag s.ss o) o } o.flow
        generalize schedule _ _ = y at *
        have := ih { y with ss := { y.ss with outs := y.ss.outs.filter (fun p => !(decide (p.flow = o.flow) && decide (p.sn = o.sn))), outSum := sub64 y.ss.outSum o.size } } k2
        generalize (nakLoop _ _ _).1 = x at *
        have e1 : rest { x with ss := s.ss } = { rest { x with ss := { y.ss with outs := y.ss.outs.filter (fun p => !(decide (p.flow = o.flow) && decide (p.sn = o.sn))), outSum := sub64 y.ss.outSum o.size } } with ss := s.ss } := rfl
        rw [e1, this]
        have e2 : { rest { y with ss := { y.ss with outs := y.ss.outs.filter (fun p => !(decide (p.flow = o.flow) && decide (p.sn = o.sn))), outSum := sub64 y.ss.outSum o.size } } with ss := s.ss } = { rest y with ss := s.ss } := rfl
        rw [e2, h2]; rfl
      · rename_i frag _ _
        generalize (if frag.sentAbandoned = true then k else _) = k2
        have := ih { s with ss := SS.nakFrag s.ss o } k2
        generalize (nakLoop _ _ _).1 = x at *
        have e1 : rest { x with ss := s.ss } = { rest { x with ss := SS.nakFrag s.ss o } with ss := s.ss } := rfl
        rw [e1, this]; rfl

theorem outs_bound {s : SS} (h : Books s) {o : OutRef} (ho : o ∈ s.outs) : (s.flow o.flow).bound = true := by
  cases e : (s.flow o.flow).bound with
  | true => rfl
  | false =>
    have h1 := (h.flow o.flow).perm
    rw [SS.refs_nil_of ((h.flow o.flow).ok.unbound e)] at h1
    have : o ∈ SS.ofFlow o.flow s.outs := by simp [SS.ofFlow, ho]
    rw [h1.eq_nil] at this
    cases this

/-! ## transmission -/

/-- a packet with its header -/
structure Small (p : PA) : Prop where
  inv : p.Inv
  lim : p.limit = 1200
  cur : p.cursor ≤ 17

theorem HeaderOnly.small {p : PA} (h : HeaderOnly p) : Small p := by
  obtain ⟨buf, fm, flags, ts, tse, rfl, hbuf, hfm⟩ := h
  obtain ⟨i1, i2, i3, i4, i5, i6, i7, i8, i9⟩ := PA.initHeader_inv buf fm 1200 flags ts tse (by omega) hbuf (by omega)
  refine ⟨i1, i3, ?_⟩
  have e := congrArg List.length i9
  have l1 := PA.tsBytes_length ts
  have l2 := PA.tsBytes_length tse
  have l3 := i1.cur; have l4 := i1.lim
  simp only [PA.toVector, List.length_take, List.length_append, List.length_cons] at e
  omega

theorem Small.unchanged {p q : PA} (h : Small p) (k : SS.Unchanged p q) : Small q := by
  obtain ⟨s1, s2, s3, s4, s5, s6⟩ := k.same
  exact ⟨k.inv, by rw [s2]; exact h.lim, by rw [k.cur]; exact h.cur⟩

/-- a flow that puts nothing in such a packet has nothing it could send -/
theorem not_sent {h : List SS.Op} {s : SS} (ht : Traced h s) {i : Nat} {p : PA} (hp : Small p) (now : Int) (gone : Bool)
    (hid : (s.flow i).flowId < 2 ^ 42) (hsn : (s.flow i).nextSn ≤ 2 ^ 42) (hs : (s.assembleData i p (s.flow i).priority now gone).sent = false) :
    ¬ Wants ((s.assembleData i p (s.flow i).priority now gone).s.flow i) := by
  rintro ⟨_, ⟨x, hx, hi⟩, hr⟩
  have hok := (ht.books.flow i).ok
  have hl := ht.lined i
  obtain ⟨_, _, n3, _⟩ := SS.assembleData_none s i hp.inv (s.flow i).priority now gone hs
  have n4 := (SS.assembleData_like s i p (s.flow i).priority now gone).1 i
  rcases SS.assembleData_idle hok.sorted hl hp.inv now gone hs with a | a | a | ⟨f, hf, _, c, c1, c2, c3, abn, c4⟩
  · rw [n4.empty.mpr a] at hx; cases hx
  · rw [n3, n4.rx] at hr; omega
  · rw [a x hx] at hi; cases hi
  · have hr := hok.range f hf
    have hoff : sub64 f.sn c.fsn < 2 ^ 42 := by rw [sub64_le c3 (by omega)]; omega
    have b1 := encode_length_bound 5 c.flowId (by rw [c1]; exact hid)
    have b2 := encode_length_bound 5 f.sn (by have : (128 : Nat) ^ (5 + 1) = 2 ^ 42 := by decide
                                              omega)
    have b3 := encode_length_bound 5 (sub64 f.sn c.fsn) hoff
    have hroom := hl.room f hf
    have hlen := SS.chunk_length (c := c) (f := f) 0 abn (by omega)
    have := hp.lim; have := hp.cur
    omega

/-- one flow is asked -/
theorem ask_core {K : Nat → Prop} {h : List SS.Op} {pri : Nat} {rd : Nat → List Nat} {ps : Nat → Option (Int × Int)} {s : SS} (ht : Traced h s) {i : Nat} {l : List Nat}
    (hc : Core K (fun _ => False) s (fun q => if q = pri then i :: l else rd q) ps) {p : PA} (hp : Small p) (now : Int) (gone : Bool)
    (hid : ∀ j, (s.flow j).bound = true → (s.flow j).flowId < 2 ^ 42 ∧ (s.flow j).nextSn ≤ 2 ^ 42) :
    Traced h (SS.sentRes i (s.assembleData i p pri now gone)).1 ∧
    Core K (fun _ => False) (SS.sentRes i (s.assembleData i p pri now gone)).1
      (fun q => if q = pri then (if (s.assembleData i p pri now gone).sent = true then l ++ [i] else l) else rd q) ps := by
  have hm := hc.member i pri (by simp)
  obtain ⟨k1, k2, k3, k4⟩ := SS.assembleData_like s i p pri now gone
  have e0 : (SS.sentRes i (s.assembleData i p pri now gone)).1 = (s.assembleData i p pri now gone).s.afterSend (s.assembleData i p pri now gone).sent := rfl
  have e1 : (SS.sentRes i (s.assembleData i p pri now gone)).1.flow = (s.assembleData i p pri now gone).s.flow := by rw [e0, SS.afterSend]; split <;> rfl
  have e2 : (SS.sentRes i (s.assembleData i p pri now gone)).1.isOpen = s.isOpen := by rw [← k3, e0, SS.afterSend]; split <;> rfl
  have hnd := hc.once pri
  rw [if_pos rfl, List.nodup_cons] at hnd
  -- not bound: nothing happens
  have hnb : (s.flow i).bound = false → s.assembleData i p pri now gone = ⟨s, p, false, [], 0, []⟩ := by
    intro hb
    rcases hm with hm | ⟨_, hq⟩
    · rw [hb] at hm; cases hm
    · rw [SS.assembleData]
      split
      · rfl
      · rw [if_pos (by rw [SS.isMaybeReady, hq]; rfl)]
  refine ⟨?_, ?_⟩
  · cases hb : (s.flow i).bound with
    | true => exact ht.quiet (op := .transmit i p pri now gone) ⟨hb, hp.inv⟩ rfl rfl (fun _ _ _ _ e => by cases e)
    | false => rw [e0, hnb hb]; exact ht
  · refine { ready := fun j _ hw => ?_, persist := fun j a b c => ?_, fresh := fun j a b => ?_, member := fun j q hj => ?_, known := fun j q hj => ?_,
             pri := fun j => ?_, high := fun q hq => ?_, closed := fun k q => ?_, once := fun q => ?_ }
    · rw [e1] at hw ⊢
      rw [(k1 j).pri]
      by_cases e : j = i
      · subst e
        by_cases hpr : (s.flow j).priority = pri
        · rw [if_pos hpr]
          split
          · simp
          · rename_i hs
            exfalso
            subst hpr
            have hb := hw.1
            rw [(k1 j).bound] at hb
            obtain ⟨f1, f2⟩ := hid j hb
            exact not_sent ht hp now gone f1 f2 (by simpa using hs) hw
        · rw [if_neg hpr]
          have es : s.assembleData j p pri now gone = ⟨s, p, false, [], 0, []⟩ := by rw [SS.assembleData, if_pos (fun e => hpr e.symm)]
          rw [es] at hw
          have := hc.ready j (fun k => k) hw
          rw [if_neg hpr] at this; exact this
      · rw [k2 j e] at hw
        have := hc.ready j (fun k => k) hw
        split
        · rename_i hq
          rw [if_pos hq] at this
          have : j ∈ l := by simpa [e] using this
          split
          · exact List.mem_append_left _ this
          · exact this
        · rename_i hq; rw [if_neg hq] at this; exact this
    · rw [e1] at a b c; rw [(k1 j).bound] at a; rw [(k1 j).state] at b; rw [(k1 j).rx] at c; exact hc.persist j a b c
    · rw [e1] at a b ⊢; rw [(k1 j).bound] at a; rw [(k1 j).state] at b; rw [(k1 j).rx]; exact hc.fresh j a b
    · rw [e1, (k1 j).bound, (k1 j).state, (k1 j).empty]
      apply hc.member j q
      split at hj
      · rename_i hq; rw [if_pos hq]
        split at hj
        · simp only [List.mem_append, List.mem_singleton] at hj
          rcases hj with hj | hj
          · exact List.mem_cons_of_mem _ hj
          · rw [hj]; exact List.mem_cons_self
        · exact List.mem_cons_of_mem _ hj
      · rename_i hq; rw [if_neg hq]; exact hj
    · apply hc.known j q
      split at hj
      · rename_i hq; rw [if_pos hq]
        split at hj
        · simp only [List.mem_append, List.mem_singleton] at hj
          rcases hj with hj | hj
          · exact List.mem_cons_of_mem _ hj
          · rw [hj]; exact List.mem_cons_self
        · exact List.mem_cons_of_mem _ hj
      · rename_i hq; rw [if_neg hq]; exact hj
    · rw [e1, (k1 j).pri]; exact hc.pri j
    · have := hc.high q hq
      split at this
      · cases this
      · rename_i hq; rw [if_neg hq]; exact this
    · have := hc.closed (by rw [← e2]; exact k) pri
      rw [if_pos rfl] at this; cases this
    · have := hc.once q
      split
      · split
        · rw [List.nodup_append]
          exact ⟨hnd.2, by simp, fun a ha b hb => by rw [List.mem_singleton.mp hb]; rintro rfl; exact hnd.1 ha⟩
        · exact hnd.2
      · rename_i hq; rw [if_neg hq] at this; exact this

/-- the flows are asked in turn -/
theorem offer_core {K : Nat → Prop} {h : List SS.Op} {pri : Nat} {rd : Nat → List Nat} {ps : Nat → Option (Int × Int)} (now : Int) (gone : Nat → Bool) (l : List Nat) :
    ∀ (s : SS) (p : PA) (es : List SS.Ev), Traced h s → Core K (fun _ => False) s (fun q => if q = pri then l else rd q) ps → Small p →
      (∀ j, (s.flow j).bound = true → (s.flow j).flowId < 2 ^ 42 ∧ (s.flow j).nextSn ≤ 2 ^ 42) →
      Traced h (offer pri now gone l s p es).1 ∧ Core K (fun _ => False) (offer pri now gone l s p es).1 (fun q => if q = pri then (offer pri now gone l s p es).2.1 else rd q) ps ∧
      (offer pri now gone l s p es).1.isOpen = s.isOpen ∧ (offer pri now gone l s p es).1.sendFlows = s.sendFlows ∧
      (∀ j, Like (s.flow j) ((offer pri now gone l s p es).1.flow j)) ∧
      ((offer pri now gone l s p es).2.2.1 = none → (offer pri now gone l s p es).2.1 = [] ∧ (offer pri now gone l s p es).1.outs = s.outs ∧
        (offer pri now gone l s p es).1.outSum = s.outSum) ∧
      (∀ i, (offer pri now gone l s p es).2.2.1 = some i → (offer pri now gone l s p es).1.outs ≠ [] ∧ i ∈ (offer pri now gone l s p es).2.1) := by
  induction l with
  | nil => intro s p es h1 h2 _ _; exact ⟨h1, h2, rfl, rfl, fun _ => .refl _, fun _ => ⟨rfl, rfl, rfl⟩, fun i hi => by cases hi⟩
  | cons i l ih =>
    intro s p es h1 h2 h3 h4
    obtain ⟨a1, a2⟩ := ask_core h1 h2 h3 now (gone i) h4
    obtain ⟨k1, k2, k3, k4⟩ := SS.assembleData_like s i p pri now (gone i)
    have e0 : (SS.sentRes i (s.assembleData i p pri now (gone i))).1 = (s.assembleData i p pri now (gone i)).s.afterSend (s.assembleData i p pri now (gone i)).sent := rfl
    rw [offer]
    by_cases hs : (s.assembleData i p pri now (gone i)).sent = true
    · simp only [hs, if_true] at a2 ⊢
      refine ⟨a1, a2, ?_, ?_, fun j => ?_, (fun k => by cases k), fun j hj => ?_⟩
      · rw [e0, hs, ← k3]; rfl
      · rw [e0, hs, ← k4]; rfl
      · rw [e0, hs]; exact k1 j
      · injection hj with hj
        subst hj
        refine ⟨?_, by simp⟩
        rw [e0, hs]
        exact SS.assembleData_sent s i h3.inv pri now (gone i) (h1.books.flow i).ok.sorted hs
    · simp only [hs, Bool.false_eq_true, if_false] at a2 ⊢
      have hs' : (s.assembleData i p pri now (gone i)).sent = false := by simpa using hs
      obtain ⟨n1, n2, n3, n4⟩ := SS.assembleData_none s i h3.inv pri now (gone i) hs'
      have e1 : (SS.sentRes i (s.assembleData i p pri now (gone i))).1 = (s.assembleData i p pri now (gone i)).s := by rw [e0, hs']; rfl
      rw [e1] at a1 a2 ⊢
      obtain ⟨b1, b2, b3, b4, b5, b6, b7⟩ := ih (s.assembleData i p pri now (gone i)).s (s.assembleData i p pri now (gone i)).packet
        (es ++ (SS.sentRes i (s.assembleData i p pri now (gone i))).2) a1 a2 (h3.unchanged n4) (fun j hj => by
          rw [(k1 j).bound] at hj; rw [(k1 j).fid, (k1 j).next]; exact h4 j hj)
      refine ⟨b1, b2, by rw [b3, k3], by rw [b4, k4], fun j => (k1 j).trans (b5 j), fun k => ?_, b7⟩
      obtain ⟨c1, c2, c3⟩ := b6 k
      exact ⟨c1, by rw [c2, n1], by rw [c3, n2]⟩

/-- flows that aren't asked don't change -/
theorem offer_other (pri : Nat) (now : Int) (gone : Nat → Bool) (l : List Nat) : ∀ (s : SS) (p : PA) (es : List SS.Ev) {i : Nat}, i ∉ l → (offer pri now gone l s p es).1.flow i = s.flow i := by
  induction l with
  | nil => intro s p es i _; rfl
  | cons j l ih =>
    intro s p es i hi
    simp only [List.mem_cons, not_or] at hi
    have h1 := (SS.assembleData_like s j p pri now (gone j)).2.1 i hi.1
    have h2 : (SS.sentRes j (s.assembleData j p pri now (gone j))).1.flow i = s.flow i := by
      rw [← h1]
      show ((s.assembleData j p pri now (gone j)).s.afterSend _).flow i = _
      rw [SS.afterSend]; split <;> rfl
    rw [offer]
    split
    · exact h2
    · rw [ih _ _ _ hi.2]; exact h2

/-- a flow that wants to send gets its turn, or comes closer to it -/
theorem offer_turn {K : Nat → Prop} {h : List SS.Op} {pri : Nat} {rd : Nat → List Nat} {ps : Nat → Option (Int × Int)} (now : Int) (gone : Nat → Bool) {i : Nat} (l : List Nat) :
    ∀ (s : SS) (p : PA) (es : List SS.Ev), Traced h s → Core K (fun _ => False) s (fun q => if q = pri then l else rd q) ps → Small p →
      (∀ j, (s.flow j).bound = true → (s.flow j).flowId < 2 ^ 42 ∧ (s.flow j).nextSn ≤ 2 ^ 42) → Wants (s.flow i) → (s.flow i).priority = pri →
      ¬ Wants ((offer pri now gone l s p es).1.flow i) ∨ ∃ j, (offer pri now gone l s p es).2.2.1 = some j ∧ (j = i ∨ ((offer pri now gone l s p es).1.flow i = s.flow i ∧
        i ∈ (offer pri now gone l s p es).2.1 ∧ (offer pri now gone l s p es).2.1.idxOf i < l.idxOf i)) := by
  induction l with
  | nil =>
    intro s p es _ h2 _ _ hw hpr
    have := h2.ready i (fun k => k) hw
    rw [if_pos hpr] at this; cases this
  | cons j l ih =>
    intro s p es h1 h2 h3 h4 hw hpr
    obtain ⟨a1, a2⟩ := ask_core h1 h2 h3 now (gone j) h4
    obtain ⟨k1, k2, k3, k4⟩ := SS.assembleData_like s j p pri now (gone j)
    have e0 : (SS.sentRes j (s.assembleData j p pri now (gone j))).1 = (s.assembleData j p pri now (gone j)).s.afterSend (s.assembleData j p pri now (gone j)).sent := rfl
    have hin := h2.ready i (fun k => k) hw
    rw [if_pos hpr] at hin
    rw [offer]
    by_cases hs : (s.assembleData j p pri now (gone j)).sent = true
    · simp only [hs, if_true] at a2 ⊢
      refine Or.inr ⟨j, rfl, ?_⟩
      by_cases e : j = i
      · exact Or.inl e
      · right
        have hl : i ∈ l := by simpa [Ne.symm e] using hin
        refine ⟨?_, List.mem_append_left _ hl, ?_⟩
        · rw [e0, hs]; exact k2 i (Ne.symm e)
        · rw [List.idxOf_cons, show (j == i) = false by simp [e], cond_false, List.idxOf_append, if_pos hl]; omega
    · simp only [hs, Bool.false_eq_true, if_false] at a2 ⊢
      have hs' : (s.assembleData j p pri now (gone j)).sent = false := by simpa using hs
      obtain ⟨n1, n2, n3, n4⟩ := SS.assembleData_none s j h3.inv pri now (gone j) hs'
      have e1 : (SS.sentRes j (s.assembleData j p pri now (gone j))).1 = (s.assembleData j p pri now (gone j)).s := by rw [e0, hs']; rfl
      rw [e1] at a1 a2 ⊢
      by_cases e : j = i
      · subst e
        left
        subst hpr
        obtain ⟨f1, f2⟩ := h4 j hw.1
        have hn := not_sent h1 h3 now (gone j) f1 f2 hs'
        have hnd := h2.once (s.flow j).priority
        rw [if_pos rfl, List.nodup_cons] at hnd
        rw [offer_other _ _ _ _ _ _ _ hnd.1]
        exact hn
      rcases ih (s.assembleData j p pri now (gone j)).s (s.assembleData j p pri now (gone j)).packet
        (es ++ (SS.sentRes j (s.assembleData j p pri now (gone j))).2) a1 a2 (h3.unchanged n4) (fun j hj => by
          rw [(k1 j).bound] at hj; rw [(k1 j).fid, (k1 j).next]; exact h4 j hj) (by rw [k2 i (Ne.symm e)]; exact hw) (by rw [k2 i (Ne.symm e)]; exact hpr) with k | ⟨x, b1, b2⟩
      · exact Or.inl k
      refine Or.inr ⟨x, b1, b2.imp id fun ⟨c1, c2, c3⟩ => ⟨by rw [c1, k2 i (Ne.symm e)], c2, ?_⟩⟩
      rw [List.idxOf_cons, show (j == i) = false by simp [e], cond_false]; omega

/-! ## the end -/

theorem closeFlows_each (now : Int) (l : List Nat) : ∀ s : SS, (∀ i ∈ l, FlowOk (s.flow i)) → s.isOpen = false → l.Nodup →
    ∀ j, (j ∈ l → ((SS.closeFlows now s l).1.flow j).state = .closed) ∧ (j ∉ l → (SS.closeFlows now s l).1.flow j = s.flow j) := by
  induction l with
  | nil => intro s _ _ _ j; exact ⟨fun h => by (cases h), fun _ => rfl⟩
  | cons i l ih =>
    intro s h ho hn j
    obtain ⟨k1, k2, k3, k4, k5, k6, k7, k8, k9, k10, k11, _⟩ := SS.didClose_flows (now := now) (rid := 0) (names := id) (h i (by simp)) (fun _ => ho) _ rfl
    rw [SS.closeFlows]
    dsimp only
    rw [List.nodup_cons] at hn
    have hi := ih (s.onSessionDidClose i now 0 id).1 (fun x hx => by
      rw [k6 x (fun e => hn.1 (by rw [← e]; exact hx))]; exact h x (List.mem_cons_of_mem _ hx)) (by rw [k7]; exact ho) hn.2
    refine ⟨fun hj => ?_, fun hj => ?_⟩
    · by_cases e : j = i
      · subst e; rw [(hi j).2 hn.1]; exact k1
      · exact (hi j).1 (by simpa [e] using hj)
    · simp only [List.mem_cons, not_or] at hj
      rw [(hi j).2 hj.2, k6 j hj.1]

theorem closeSession_core {K : Nat → Prop} {s : Sess} (h : Core K (fun _ => False) s.ss s.ready s.persist) (hb : Books s.ss) :
    Core K (fun _ => False) (closeSession s).1.ss (closeSession s).1.ready (closeSession s).1.persist := by
  obtain ⟨c1, c2, c3, c4, c5⟩ := SS.closeSession_like hb s.now
  have hcl := closeFlows_each s.now s.ss.sendFlows { s.ss with isOpen := false } (fun i _ => (hb.flow i).ok) rfl hb.nodup
  rw [closeSession]
  refine { ready := fun j _ hw => ?_, persist := fun j a _ _ => ?_, fresh := fun j a b => ?_, member := fun j q hj => (by cases hj), known := fun j q hj => (by cases hj),
           pri := c5 8 h.pri, high := fun q hq => rfl, closed := fun k q => rfl, once := fun q => .nil }
  · have := c1 j
    rw [show ((s.ss.closeSession s.now).1.flow j).bound = true from hw.1] at this; cases this
  · have := c1 j
    rw [show ((s.ss.closeSession s.now).1.flow j).bound = true from a] at this; cases this
  · have hf : (s.ss.closeSession s.now).1.flow j = (SS.closeFlows s.now { s.ss with isOpen := false } s.ss.sendFlows).1.flow j := rfl
    dsimp only at b ⊢
    rw [hf] at b ⊢
    by_cases hj : j ∈ s.ss.sendFlows
    · rw [(hcl j).1 hj] at b; simp [SFState.rank] at b
    · rw [(hcl j).2 hj] at b ⊢
      refine h.fresh j ?_ b
      cases e : (s.ss.flow j).bound with
      | false => rfl
      | true => exact absurd ((hb.bound j).mpr e) hj

end Sess
end Rtmfp
