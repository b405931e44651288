import Verif.Lemmas.SessInv

/-! # Which members the functions of a session change -/

namespace Rtmfp
namespace Sess

/-- places are only added -/
structure Adds (s : Sess) (rd : Nat → List Nat) (li : Nat → Nat → Bool) : Prop where
  ready : ∀ p, ∃ l, rd p = s.ready p ++ l
  listed : ∀ x p, s.listed x p = true → li x p = true

theorem Adds.refl (s : Sess) : Adds s s.ready s.listed := ⟨fun _ => ⟨[], (List.append_nil _).symm⟩, fun _ _ h => h⟩

theorem Adds.trans {s t : Sess} {rd : Nat → List Nat} {li : Nat → Nat → Bool} (h : Adds s t.ready t.listed) (k : Adds t rd li) : Adds s rd li := by
  refine ⟨fun p => ?_, fun x p q => k.listed x p (h.listed x p q)⟩
  obtain ⟨a, ha⟩ := h.ready p
  obtain ⟨b, hb⟩ := k.ready p
  exact ⟨a ++ b, by rw [hb, ha, List.append_assoc]⟩

theorem schedule_form (s : Sess) (i : Nat) : ∃ rd li, schedule s i = { s with ready := rd, listed := li } ∧ Adds s rd li := by
  rw [schedule]
  split
  · rw [scheduleFlow]
    split
    · exact ⟨_, _, rfl, .refl s⟩
    · refine ⟨_, _, rfl, fun p => ?_, fun x p h => ?_⟩
      · by_cases hp : p = (s.ss.flow i).priority
        · exact ⟨[i], by subst hp; simp⟩
        · exact ⟨[], by simp [hp]⟩
      · by_cases hp : x = s.dest ∧ p = (s.ss.flow i).priority
        · simp [hp]
        · simp [hp, h]
  · exact ⟨_, _, rfl, .refl s⟩

theorem reschedule_form (s : Sess) : ∃ li, rescheduleTransmission s = { s with listed := li } ∧ Adds s s.ready li ∧ ∀ q, q < 8 → s.ready q ≠ [] → li s.dest q = true := by
  refine ⟨_, rfl, ⟨fun p => ⟨[], (List.append_nil _).symm⟩, fun x p h => ?_⟩, fun q h1 h2 => if_pos ⟨rfl, h1, h2⟩⟩
  by_cases hp : x = s.dest ∧ p < 8 ∧ s.ready p ≠ []
  · rw [if_pos hp]
  · rw [if_neg hp]; exact h

theorem losing_form (l : List OutRef) : ∀ s : Sess, ∃ ss rd li, l.foldl (fun s o => schedule { s with ss := SS.lose s.ss o } o.flow) s = { s with ss := ss, ready := rd, listed := li } ∧
    Adds s rd li ∧ ss = l.foldl SS.lose s.ss := by
  induction l with
  | nil => intro s; exact ⟨_, _, _, rfl, .refl s, rfl⟩
  | cons o l ih =>
    intro s
    rw [List.foldl_cons]
    obtain ⟨rd, li, e, a⟩ := schedule_form { s with ss := SS.lose s.ss o } o.flow
    obtain ⟨ss, rd', li', e', a', b'⟩ := ih (schedule { s with ss := SS.lose s.ss o } o.flow)
    rw [e] at a' b' e'
    rw [e]
    exact ⟨ss, rd', li', e', Adds.trans (t := { s with ss := SS.lose s.ss o, ready := rd, listed := li }) ⟨a.ready, a.listed⟩ a', b'⟩

theorem loseAll_form (s : Sess) : ∃ rd li, loseAll s = { s with ss := s.ss.timeout, ready := rd, listed := li } ∧ Adds s rd li := by
  have h := loseAll_timeout s
  obtain ⟨ss, rd, li, e, a, _⟩ := losing_form s.ss.outs s
  refine ⟨rd, li, ?_, a⟩
  rw [loseAll, e] at h ⊢
  rw [← h]

theorem nakLoop_form (l : List OutRef) : ∀ (s : Sess) (k : SS.Nak), ∃ rd li, (nakLoop s k l).1 = { s with ss := (SS.nakLoop s.ss k l).1, ready := rd, listed := li } ∧ Adds s rd li := by
  suffices H : ∀ (s : Sess) (k : SS.Nak), ∃ ss rd li, (nakLoop s k l).1 = { s with ss := ss, ready := rd, listed := li } ∧ Adds s rd li by
    intro s k
    obtain ⟨ss, rd, li, e, a⟩ := H s k
    have h := (nakLoop_ss l s k).1
    rw [e] at h
    refine ⟨rd, li, ?_, a⟩
    rw [e]; rw [← h]
  induction l with
  | nil => intro s k; exact ⟨_, _, _, rfl, .refl s⟩
  | cons o l ih =>
    intro s k
    rw [nakLoop]
    split
    · exact ⟨_, _, _, rfl, .refl s⟩
    dsimp only
    split
    · obtain ⟨ss, rd, li, e, a⟩ := ih { s with ss := SS.nakFrag s.ss o } k
      exact ⟨ss, rd, li, e, ⟨a.ready, a.listed⟩⟩
    · rename_i frag _
      generalize (if frag.sentAbandoned = true then k else { k with anyNaks := true }) = k'
      split
      · generalize (if frag.sentAbandoned = true then k' else { k' with anyLoss := true }) = k2
        obtain ⟨rd, li, e, a⟩ := schedule_form { s with ss := SS.lose (SS.nakFrag s.ss o) o } o.flow
        have e' : schedule { s with ss := (SS.nakFrag s.ss o).lose o } o.flow = { s with ss := SS.lose (SS.nakFrag s.ss o) o, ready := rd, listed := li } := e
        rw [e']
        obtain ⟨ss, rd', li', e2, a2⟩ := ih { s with ss := { SS.lose (SS.nakFrag s.ss o) o with outs := (SS.lose (SS.nakFrag s.ss o) o).outs.filter (fun p => !(decide (p.flow = o.flow) && decide (p.sn = o.sn))), outSum := sub64 (SS.lose (SS.nakFrag s.ss o) o).outSum o.size }, ready := rd, listed := li } { k2 with lostBytes := add64 k2.lostBytes o.size }
        refine ⟨ss, rd', li', e2, Adds.trans (t := { s with ready := rd, listed := li }) ⟨a.ready, a.listed⟩ ⟨a2.ready, a2.listed⟩⟩
      · obtain ⟨ss, rd, li, e, a⟩ := ih { s with ss := SS.nakFrag s.ss o } k'
        exact ⟨ss, rd, li, e, ⟨a.ready, a.listed⟩⟩

theorem afterChange_form (s : Sess) (i : Nat) (b : SS) : ∃ rd li ps lt, afterChange s i b = { s with ready := rd, listed := li, persist := ps, lastIdle := lt } ∧ Adds s rd li ∧
    lt = (if s.ss.sendFlows.length < b.sendFlows.length then s.now else s.lastIdle) := by
  have h1 : noteIdle s b = { s with lastIdle := if s.ss.sendFlows.length < b.sendFlows.length then s.now else s.lastIdle } := by
    rw [noteIdle]; split <;> rfl
  rw [afterChange, h1]
  have h2 : ∃ ps, (if (s.ss.flow i).state = .closed then clearPersist { s with lastIdle := if s.ss.sendFlows.length < b.sendFlows.length then s.now else s.lastIdle } i
      else { s with lastIdle := if s.ss.sendFlows.length < b.sendFlows.length then s.now else s.lastIdle }) =
      { s with lastIdle := if s.ss.sendFlows.length < b.sendFlows.length then s.now else s.lastIdle, persist := ps } := by
    split <;> exact ⟨_, rfl⟩
  obtain ⟨ps, h2⟩ := h2
  dsimp only
  rw [h2]
  dsimp only
  split
  · obtain ⟨rd, li, e, a⟩ := schedule_form { s with lastIdle := if s.ss.sendFlows.length < b.sendFlows.length then s.now else s.lastIdle, persist := ps } i
    exact ⟨rd, li, ps, _, e, ⟨a.ready, a.listed⟩, rfl⟩
  · exact ⟨_, _, ps, _, rfl, .refl s, rfl⟩

theorem flowEffects_form (s : Sess) (t : SS) (op : SS.Op) : ∃ rd li ps lt, flowEffects s t op = { s with ss := t, ready := rd, listed := li, persist := ps, lastIdle := lt } ∧ Adds s rd li ∧
    (lt = s.lastIdle ∨ (lt = s.now ∧ t.sendFlows.length < s.ss.sendFlows.length)) ∧
    (t.sendFlows.length < s.ss.sendFlows.length → lt = s.now ∨ ∀ i, (∀ a b c d e f, op ≠ .write i a b c d e f) ∧ (∀ a b c, op ≠ .close i a b c) ∧ op ≠ .lingerAlarm i) := by
  have hch : ∀ i, ∃ rd li ps lt, afterChange { s with ss := t } i s.ss = { s with ss := t, ready := rd, listed := li, persist := ps, lastIdle := lt } ∧ Adds s rd li ∧
      (lt = s.lastIdle ∨ (lt = s.now ∧ t.sendFlows.length < s.ss.sendFlows.length)) ∧ (t.sendFlows.length < s.ss.sendFlows.length → lt = s.now) := by
    intro i
    obtain ⟨rd, li, ps, lt, e, a, c⟩ := afterChange_form { s with ss := t } i s.ss
    refine ⟨rd, li, ps, lt, e, ⟨a.ready, a.listed⟩, ?_, fun h => by rw [c, if_pos h]⟩
    rw [c]; dsimp only; split <;> simp_all
  have hsc : ∀ i, ∃ rd li ps lt, schedule { s with ss := t } i = { s with ss := t, ready := rd, listed := li, persist := ps, lastIdle := lt } ∧ Adds s rd li ∧ lt = s.lastIdle := by
    intro i
    obtain ⟨rd, li, e, a⟩ := schedule_form { s with ss := t } i
    exact ⟨rd, li, _, _, e, ⟨a.ready, a.listed⟩, rfl⟩
  have hnil : ∃ rd li ps lt, ({ s with ss := t } : Sess) = { s with ss := t, ready := rd, listed := li, persist := ps, lastIdle := lt } ∧ Adds s rd li ∧ lt = s.lastIdle :=
    ⟨_, _, _, _, rfl, .refl s, rfl⟩
  have fin : ∀ {u : Sess} {rd li ps lt}, u = { s with ss := t, ready := rd, listed := li, persist := ps, lastIdle := lt } ∧ Adds s rd li ∧
      (lt = s.lastIdle ∨ (lt = s.now ∧ t.sendFlows.length < s.ss.sendFlows.length)) ∧ (t.sendFlows.length < s.ss.sendFlows.length → lt = s.now) → _ :=
    fun {u rd li ps lt} h => (⟨rd, li, ps, lt, h.1, h.2.1, h.2.2.1, fun q => Or.inl (h.2.2.2 q)⟩ : ∃ rd li ps lt, u = { s with ss := t, ready := rd, listed := li, persist := ps, lastIdle := lt } ∧ Adds s rd li ∧
    (lt = s.lastIdle ∨ (lt = s.now ∧ t.sendFlows.length < s.ss.sendFlows.length)) ∧
    (t.sendFlows.length < s.ss.sendFlows.length → lt = s.now ∨ ∀ i, (∀ a b c d e f, op ≠ .write i a b c d e f) ∧ (∀ a b c, op ≠ .close i a b c) ∧ op ≠ .lingerAlarm i))
  cases op with
  | write i => obtain ⟨rd, li, ps, lt, h⟩ := hch i; exact fin h
  | close i => obtain ⟨rd, li, ps, lt, h⟩ := hch i; exact fin h
  | lingerAlarm i => obtain ⟨rd, li, ps, lt, h⟩ := hch i; exact fin h
  | bind i b =>
    have : flowEffects s t (.bind i b) = if (s.ss.flow i).bound = true then { s with ss := t } else schedule { s with ss := t } i := rfl
    rw [this]
    split
    · obtain ⟨rd, li, ps, lt, h1, h2, h3⟩ := hnil; exact ⟨rd, li, ps, lt, h1, h2, Or.inl h3, fun _ => Or.inr fun _ => by simp⟩
    · obtain ⟨rd, li, ps, lt, h1, h2, h3⟩ := hsc i; exact ⟨rd, li, ps, lt, h1, h2, Or.inl h3, fun _ => Or.inr fun _ => by simp⟩
  | setPriority i pri =>
    have : flowEffects s t (.setPriority i pri) = if pri ≠ (s.ss.flow i).priority then schedule { s with ss := t } i else { s with ss := t } := rfl
    rw [this]
    split
    · obtain ⟨rd, li, ps, lt, h1, h2, h3⟩ := hsc i; exact ⟨rd, li, ps, lt, h1, h2, Or.inl h3, fun _ => Or.inr fun _ => by simp⟩
    · obtain ⟨rd, li, ps, lt, h1, h2, h3⟩ := hnil; exact ⟨rd, li, ps, lt, h1, h2, Or.inl h3, fun _ => Or.inr fun _ => by simp⟩
  | _ => obtain ⟨rd, li, ps, lt, h1, h2, h3⟩ := hnil; exact ⟨rd, li, ps, lt, h1, h2, Or.inl h3, fun _ => Or.inr fun _ => by simp⟩

theorem onAck_form (s : Sess) (i b : Nat) (rs : List (Nat × Nat)) : ∃ rd li ps, (onAck s i b rs).1 = { s with ss := (s.ss.onAck i b rs).1, anyAcks := true, kaOut := false, epoch := none, ready := rd, listed := li, persist := ps } ∧ Adds s rd li := by
  rw [onAck]
  dsimp only
  generalize decide ((s.ss.flow i).state.rank ≥ SFState.completeLinger.rank) = done
  have h1 : ∃ ps, (if done = true then { s with ss := (s.ss.onAck i b rs).1, anyAcks := true, kaOut := false, epoch := none }
      else if b = 0 then setPersist { s with ss := (s.ss.onAck i b rs).1, anyAcks := true, kaOut := false, epoch := none } i
      else clearPersist { s with ss := (s.ss.onAck i b rs).1, anyAcks := true, kaOut := false, epoch := none } i) =
      { s with ss := (s.ss.onAck i b rs).1, anyAcks := true, kaOut := false, epoch := none, persist := ps } := by
    split
    · exact ⟨_, rfl⟩
    split
    · rw [setPersist]; split <;> exact ⟨_, rfl⟩
    · exact ⟨_, rfl⟩
  obtain ⟨ps, h1⟩ := h1
  rw [h1]
  split
  · exact ⟨_, _, ps, rfl, .refl s⟩
  · obtain ⟨rd, li, e, a⟩ := schedule_form { s with ss := (s.ss.onAck i b rs).1, anyAcks := true, kaOut := false, epoch := none, persist := ps } i
    exact ⟨rd, li, ps, e, ⟨a.ready, a.listed⟩⟩

theorem onException_form (s : Sess) (i rid : Nat) (names : Nat → Nat) : ∃ rd li ps lt, (onException s i rid names).1 = { s with ss := (s.ss.onExceptionReport i s.now rid names).1, ready := rd, listed := li, persist := ps, lastIdle := lt } ∧ Adds s rd li ∧
    lt = (if (s.ss.onExceptionReport i s.now rid names).1.sendFlows.length < s.ss.sendFlows.length then s.now else s.lastIdle) := by
  obtain ⟨rd, li, ps, lt, e, a, c⟩ := afterChange_form { s with ss := (s.ss.onExceptionReport i s.now rid names).1 } i s.ss
  exact ⟨rd, li, ps, lt, e, ⟨a.ready, a.listed⟩, c⟩

theorem rescheduleTimeout_form (s : Sess) : ∃ f, rescheduleTimeout s = { s with alarm := some f, deadline := s.now + s.erto, epoch := some (minInf s.epoch s.now) } ∧
    ((∃ g, s.alarm = some g ∧ s.deadline ≤ s.now + s.erto ∧ f = g) ∨ f = s.now + s.erto) := by
  rw [rescheduleTimeout]
  split
  · rename_i g hg
    by_cases h : s.now + s.erto < s.deadline
    · refine ⟨_, rfl, Or.inr (if_pos h)⟩
    · refine ⟨_, rfl, Or.inl ⟨g, hg, by omega, if_neg h⟩⟩
  · exact ⟨_, rfl, Or.inr rfl⟩

theorem afterData_form (s : Sess) : ∃ li an dl rx, afterData s = { s with listed := li, ackNow := an, delack := dl, rxData := rx } ∧ Adds s s.ready li := by
  rw [afterData]
  have : ∃ rx, (if s.seenData = true then { s with rxData := s.rxData + 1 } else s) = { s with rxData := rx } := by split <;> exact ⟨_, rfl⟩
  obtain ⟨rx, e⟩ := this
  rw [e]
  dsimp only
  split
  · rw [ackAtOnce]
    dsimp only
    split
    · split
      · exact ⟨_, _, _, rx, rfl, .refl s⟩
      · refine ⟨_, _, _, rx, rfl, fun p => ⟨[], (List.append_nil _).symm⟩, fun x p h => ?_⟩
        by_cases hq : x = s.dest ∧ p = PRI_IMMEDIATE
        · show (if _ then true else _) = true; rw [if_pos hq]
        · show (if _ then true else _) = true; rw [if_neg hq]; exact h
    · exact ⟨_, _, _, rx, rfl, .refl s⟩
  · exact ⟨_, _, _, rx, rfl, .refl s⟩

theorem afterAcks_form (s : Sess) (c : Bool) (w : Nat) : (s.anyAcks = false ∧ afterAcks s c w = s) ∨
    (s.anyAcks = true ∧ ∃ bu rd li f, afterAcks s c w = { s with burst := bu, burstAlarm := none, ss := (SS.nakLoop s.ss ⟨c, false, 0⟩ s.ss.outs).1, ready := rd, listed := li, cwnd := w, alarm := some f, deadline := s.now + s.erto, epoch := some (minInf s.epoch s.now) } ∧ Adds s rd li ∧ (∀ q, q < 8 → rd q ≠ [] → li s.dest q = true) ∧
      ((∃ g, s.alarm = some g ∧ s.deadline ≤ s.now + s.erto ∧ f = g) ∨ f = s.now + s.erto)) := by
  rw [afterAcks]
  by_cases hA : s.anyAcks = true
  case neg => exact Or.inl ⟨by simpa using hA, if_neg hA⟩
  case pos =>
    right
    refine ⟨hA, ?_⟩
    rw [if_pos hA]
    dsimp only
    generalize (if s.burst < MAX_BURST then MAX_BURST else s.burst) = bu
    obtain ⟨rd, li, e, a⟩ := nakLoop_form s.ss.outs { s with burst := bu, burstAlarm := none } ⟨c, false, 0⟩
    have e' : (nakLoop { s with burst := bu, burstAlarm := none } ⟨c, false, 0⟩ s.ss.outs).1 = { s with burst := bu, burstAlarm := none, ss := (SS.nakLoop s.ss ⟨c, false, 0⟩ s.ss.outs).1, ready := rd, listed := li } := e
    rw [e']
    obtain ⟨li', e2, a2, c2⟩ := reschedule_form { s with burst := bu, burstAlarm := none, ss := (SS.nakLoop s.ss ⟨c, false, 0⟩ s.ss.outs).1, ready := rd, listed := li, cwnd := w }
    rw [e2]
    obtain ⟨f, e3, a3⟩ := rescheduleTimeout_form { s with burst := bu, burstAlarm := none, ss := (SS.nakLoop s.ss ⟨c, false, 0⟩ s.ss.outs).1, ready := rd, listed := li', cwnd := w }
    rw [e3]
    exact ⟨bu, rd, li', f, rfl, Adds.trans (t := { s with ready := rd, listed := li }) ⟨a.ready, a.listed⟩ ⟨a2.ready, a2.listed⟩, c2, a3⟩

/-- the end of a packet, when there were acknowledgements and otherwise -/
theorem after_form (s : Sess) (c : Bool) (w : Nat) : ∃ rd li an dl rx, Adds s rd li ∧
    ((s.anyAcks = false ∧ rd = s.ready ∧ after s c w = { s with mid := false, ready := rd, listed := li, ackNow := an, delack := dl, rxData := rx }) ∨
    (s.anyAcks = true ∧ (∀ q, q < 8 → rd q ≠ [] → li s.dest q = true) ∧ ∃ bu f, after s c w = { s with mid := false, ready := rd, listed := li, ackNow := an, delack := dl, rxData := rx, burst := bu, burstAlarm := none, ss := (SS.nakLoop s.ss ⟨c, false, 0⟩ s.ss.outs).1, cwnd := w, alarm := some f, deadline := s.now + s.erto, epoch := some (minInf s.epoch s.now) } ∧
      ((∃ g, s.alarm = some g ∧ s.deadline ≤ s.now + s.erto ∧ f = g) ∨ f = s.now + s.erto))) := by
  obtain ⟨li, an, dl, rx, e, a⟩ := afterData_form s
  rw [after, e]
  rcases afterAcks_form { s with listed := li, ackNow := an, delack := dl, rxData := rx } c w with ⟨h1, h2⟩ | ⟨h1, bu, rd, li', f, h2, h3, h5, h4⟩
  · rw [h2]
    exact ⟨s.ready, li, an, dl, rx, a, Or.inl ⟨h1, rfl, rfl⟩⟩
  · rw [h2]
    exact ⟨rd, li', an, dl, rx, Adds.trans (t := { s with listed := li }) ⟨a.ready, a.listed⟩ ⟨h3.ready, h3.listed⟩, Or.inr ⟨h1, h5, bu, f, rfl, h4⟩⟩

theorem recvAck_form (s : Sess) (r : Nat) (u : Bool) : ∃ li af an dl, recvAck s r u = { s with listed := li, ackFlows := af, ackNow := an, delack := dl } ∧ Adds s s.ready li := by
  have h1 : ∃ li an dl, (if u = true then ackAtOnce s else s) = { s with listed := li, ackNow := an, delack := dl } ∧ Adds s s.ready li := by
    split
    · rw [ackAtOnce]
      split
      · dsimp only
        split
        · exact ⟨_, _, _, rfl, .refl s⟩
        · refine ⟨_, _, _, rfl, fun p => ⟨[], (List.append_nil _).symm⟩, fun x p h => ?_⟩
          by_cases hq : x = s.dest ∧ p = PRI_IMMEDIATE
          · show (if _ then true else _) = true; rw [if_pos hq]
          · show (if _ then true else _) = true; rw [if_neg hq]; exact h
      · exact ⟨_, _, _, rfl, .refl s⟩
    · exact ⟨_, _, _, rfl, .refl s⟩
  obtain ⟨li, an, dl, e, a⟩ := h1
  rw [recvAck, e]
  dsimp only
  split
  · exact ⟨_, _, _, _, rfl, a⟩
  · rw [scheduleAck]
    split
    · dsimp only
      split <;> exact ⟨_, _, _, _, rfl, a⟩
    · exact ⟨_, _, _, _, rfl, a⟩

theorem putAcks_form (s : Sess) (k : Nat) : ∃ af an dl rx, putAcks s k = { s with ackFlows := af, ackNow := an, delack := dl, rxData := rx } := by
  rw [putAcks]; dsimp only; split <;> exact ⟨_, _, _, _, rfl⟩

/-- one packet may be sent, or not -/
inductive Sent (s : Sess) (x pri : Nat) (packet : PA) (gone : Nat → Bool) : Sess → List SOut → Prop
  | moved : x ≠ s.dest → Sent s x pri packet gone { s with listed := fun y q => if y = x ∧ q = pri then false else if y = s.dest ∧ q = pri then true else s.listed y q } []
  | closed : x = s.dest → s.ss.isOpen = false → Sent s x pri packet gone { s with listed := fun y q => if y = x ∧ q = pri then false else s.listed y q } []
  /-- acknowledgements -/
  | acks {af an dl rx rs} : x = s.dest → s.ss.isOpen = true → rs ≠ [] → Sent s x pri packet gone { s with ackFlows := af, ackNow := an, delack := dl, rxData := rx, lastTx := s.now } [.acks rs]
  /-- the congestion window is full -/
  | full {af an dl rx} : x = s.dest → s.ss.isOpen = true → s.cwnd ≤ s.ss.outSum →
      Sent s x pri packet gone { s with ackFlows := af, ackNow := an, delack := dl, rxData := rx, listed := fun y q => if y = x ∧ q = pri then false else s.listed y q } []
  /-- the burst limit is reached -/
  | limited {af an dl rx b} : x = s.dest → s.ss.isOpen = true → s.ss.outSum < s.cwnd → s.burst ≤ 0 → BURST_RTT ≤ s.srtt →
      Sent s x pri packet gone { s with ackFlows := af, ackNow := an, delack := dl, rxData := rx, burstAlarm := some b, listed := fun y q => if y = x ∧ q = pri then false else s.listed y q } []
  /-- there is nothing to send -/
  | nothing {af an dl rx} : x = s.dest → s.ss.isOpen = true → s.ss.outSum < s.cwnd → (offer pri s.now gone (s.ready pri) s.ss packet []).2.2.1 = none →
      Sent s x pri packet gone { s with ackFlows := af, ackNow := an, delack := dl, rxData := rx, ss := (offer pri s.now gone (s.ready pri) s.ss packet []).1, ready := fun q => if q = pri then (offer pri s.now gone (s.ready pri) s.ss packet []).2.1 else s.ready q, listed := fun y q => if y = x ∧ q = pri then false else s.listed y q }
        ((offer pri s.now gone (s.ready pri) s.ss packet []).2.2.2.map .ss)
  /-- data -/
  | data {af an dl rx bu f j rs} : x = s.dest → s.ss.isOpen = true → s.ss.outSum < s.cwnd → (offer pri s.now gone (s.ready pri) s.ss packet []).2.2.1 = some j →
      ((∃ g, s.alarm = some g ∧ s.deadline ≤ s.now + s.erto ∧ f = g) ∨ f = s.now + s.erto) →
      Sent s x pri packet gone { s with ackFlows := af, ackNow := an, delack := dl, rxData := rx, ss := (offer pri s.now gone (s.ready pri) s.ss packet []).1, ready := (fun q => if q = pri then (offer pri s.now gone (s.ready pri) s.ss packet []).2.1 else s.ready q), burst := bu, alarm := some f, deadline := s.now + s.erto, epoch := some (minInf s.epoch s.now), lastTx := s.now }
        ((offer pri s.now gone (s.ready pri) s.ss packet []).2.2.2.map .ss ++ [.data j] ++ [.acks rs])

theorem sendData_form (s : Sess) (pri : Nat) (packet : PA) (gone : Nat → Bool) :
    (s.cwnd ≤ s.ss.outSum ∧ sendData s pri packet gone = (s, none, [])) ∨
    (s.ss.outSum < s.cwnd ∧ s.burst ≤ 0 ∧ BURST_RTT ≤ s.srtt ∧ ∃ b, sendData s pri packet gone = ({ s with burstAlarm := some b }, none, [])) ∨
    (s.ss.outSum < s.cwnd ∧ (offer pri s.now gone (s.ready pri) s.ss packet []).2.2.1 = none ∧
      sendData s pri packet gone = ({ s with ss := (offer pri s.now gone (s.ready pri) s.ss packet []).1, ready := (fun q => if q = pri then (offer pri s.now gone (s.ready pri) s.ss packet []).2.1 else s.ready q) }, none, (offer pri s.now gone (s.ready pri) s.ss packet []).2.2.2)) ∨
    (s.ss.outSum < s.cwnd ∧ ∃ j bu f, (offer pri s.now gone (s.ready pri) s.ss packet []).2.2.1 = some j ∧ ((∃ g, s.alarm = some g ∧ s.deadline ≤ s.now + s.erto ∧ f = g) ∨ f = s.now + s.erto) ∧
      sendData s pri packet gone = ({ s with ss := (offer pri s.now gone (s.ready pri) s.ss packet []).1, ready := (fun q => if q = pri then (offer pri s.now gone (s.ready pri) s.ss packet []).2.1 else s.ready q), burst := bu, alarm := some f, deadline := s.now + s.erto, epoch := some (minInf s.epoch s.now) }, some j, (offer pri s.now gone (s.ready pri) s.ss packet []).2.2.2)) := by
  rw [sendData]
  by_cases hc : s.cwnd > s.ss.outSum
  · right
    rw [if_pos hc]
    by_cases hb : s.burst > 0 ∨ s.srtt < BURST_RTT
    · right
      rw [if_pos hb]
      dsimp only
      cases hr : (offer pri s.now gone (s.ready pri) s.ss packet []).2.2.1 with
      | none => exact Or.inl ⟨hc, rfl, rfl⟩
      | some j =>
        right
        obtain ⟨f, e2, a2⟩ := rescheduleTimeout_form { s with ss := (offer pri s.now gone (s.ready pri) s.ss packet []).1, ready := (fun q => if q = pri then (offer pri s.now gone (s.ready pri) s.ss packet []).2.1 else s.ready q), burst := s.burst - (sub64 (offer pri s.now gone (s.ready pri) s.ss packet []).1.outSum s.ss.outSum : Int) }
        exact ⟨hc, j, _, f, rfl, a2, by rw [e2]⟩
    · left
      rw [if_neg hb]
      simp only [not_or, Int.not_lt, gt_iff_lt] at hb
      refine ⟨hc, hb.1, hb.2, ?_⟩
      cases hb : s.burstAlarm with
      | none => exact ⟨_, rfl⟩
      | some b => exact ⟨b, by rw [if_neg (by simp), ← hb]⟩
  · left
    exact ⟨by omega, if_neg hc⟩

theorem writable_form (s : Sess) (x pri : Nat) (packet : PA) (gone : Nat → Bool) (k k' : Nat) : Sent s x pri packet gone (writable s x pri packet gone k k').1 (writable s x pri packet gone k k').2 := by
  rw [writable]
  by_cases hx : x = s.dest
  · rw [if_neg (fun h => h hx)]
    cases ho : s.ss.isOpen with
    | false => rw [if_pos rfl]; exact .closed hx ho
    | true =>
      rw [if_neg (by simp)]
      dsimp only
      have h1 : ∃ af an dl rx, (if s.ackNow = true then putAcks s k else s) = { s with ackFlows := af, ackNow := an, delack := dl, rxData := rx } := by
        split
        · exact putAcks_form s k
        · exact ⟨_, _, _, _, rfl⟩
      obtain ⟨af, an, dl, rx, e⟩ := h1
      rw [e]
      generalize (if s.ackNow = true then s.ackFlows.take k else []) = first
      by_cases hf : first = []
      · subst hf
        rw [if_neg (show ¬ (([] : List Nat) ≠ []) from fun h => h rfl)]
        simp only [true_and, List.nil_append]
        rcases sendData_form { s with ackFlows := af, ackNow := an, delack := dl, rxData := rx } pri packet gone with ⟨h1, h2⟩ | ⟨h1, h2, h3, b, h4⟩ | ⟨h1, h2, h3⟩ | ⟨h1, j, bu, f, h2, h3, h4⟩
        · rw [h2]; dsimp only; rw [if_pos rfl]; exact .full hx ho h1
        · rw [h4]; dsimp only; rw [if_pos rfl]; exact .limited hx ho h1 h2 h3
        · rw [h3]; dsimp only; rw [if_pos rfl]; exact .nothing hx ho h1 h2
        · rw [h4]
          dsimp only
          rw [if_neg (by simp)]
          dsimp only
          generalize List.take _ _ = rs
          obtain ⟨af', an', dl', rx', e3⟩ := putAcks_form { s with ackFlows := af, ackNow := an, delack := dl, rxData := rx, ss := (offer pri s.now gone (s.ready pri) s.ss packet []).1, ready := (fun q => if q = pri then (offer pri s.now gone (s.ready pri) s.ss packet []).2.1 else s.ready q), burst := bu, alarm := some f, deadline := s.now + s.erto, epoch := some (minInf s.epoch s.now) } k'
          dsimp only at e3
          rw [e3]
          exact .data hx ho h1 h2 h3
      · rw [if_pos hf]
        dsimp only
        rw [if_neg (fun h => hf h.1)]
        dsimp only
        generalize List.take _ _ = rs
        obtain ⟨af', an', dl', rx', e3⟩ := putAcks_form { s with ackFlows := af, ackNow := an, delack := dl, rxData := rx } k'
        rw [e3]
        exact .acks hx ho (by simp [hf])
  · rw [if_pos hx]; exact .moved hx

end Sess
end Rtmfp
