import Verif.Lemmas.SendExec

/-! # How a flow changes -/

namespace Rtmfp
namespace SS

/-- what may happen to a flow besides being opened or bound, or getting a callback; `d`: its startup options may be dropped -/
structure Evolves (d : Bool) (f g : SF) : Prop where
  id : g.bound = true → f.bound = true ∧ g.flowId = f.flowId
  opts : g.options = f.options ∨ (d = true ∧ g.options = [])
  next : f.nextSn ≤ g.nextSn
  rank : f.state.rank ≤ g.state.rank
  base : g.baseOpen = true → f.baseOpen = true
  exc : g.onException = true → f.onException = true
  excM : f.exception = true → g.exception = true

theorem Evolves.refl (d : Bool) (f : SF) : Evolves d f f := ⟨fun h => ⟨h, rfl⟩, Or.inl rfl, Nat.le_refl _, Nat.le_refl _, fun h => h, fun h => h, fun h => h⟩

theorem Evolves.trans {d : Bool} {f g h : SF} (a : Evolves d f g) (b : Evolves d g h) : Evolves d f h := by
  refine ⟨fun k => ?_, ?_, Nat.le_trans a.next b.next, Nat.le_trans a.rank b.rank, fun k => a.base (b.base k), fun k => a.exc (b.exc k), fun k => b.excM (a.excM k)⟩
  · obtain ⟨k1, k2⟩ := b.id k
    obtain ⟨k3, k4⟩ := a.id k1
    exact ⟨k3, k2.trans k4⟩
  · rcases b.opts with e | e
    · rw [e]; exact a.opts
    · exact Or.inr e

theorem Evolves.weaken {d : Bool} {f g : SF} (a : Evolves false f g) : Evolves d f g :=
  ⟨a.id, Or.inl (a.opts.resolve_right (by simp)), a.next, a.rank, a.base, a.exc, a.excM⟩

/-- all flows -/
def EvolvesAll (s t : SS) : Prop := ∀ j, Evolves false (s.flow j) (t.flow j)

theorem EvolvesAll.refl (s : SS) : EvolvesAll s s := fun _ => Evolves.refl _ _
theorem EvolvesAll.trans {s t u : SS} (a : EvolvesAll s t) (b : EvolvesAll t u) : EvolvesAll s u := fun j => (a j).trans (b j)

theorem evolves_set {s : SS} {i : Nat} {f : SF} (h : Evolves false (s.flow i) f) : EvolvesAll s (s.setFlow i f) := by
  intro j
  by_cases e : j = i
  · subst e; rw [setFlow_same]; exact h
  · rw [setFlow_other _ _ e]; exact Evolves.refl _ _

theorem evolves_set' {s : SS} {i : Nat} {f : SF} {d : Bool} (h : Evolves d (s.flow i) f) (j : Nat) :
    Evolves (decide (j = i) && d) (s.flow j) ((s.setFlow i f).flow j) := by
  by_cases e : j = i
  · subst e; rw [setFlow_same]; simpa using h
  · rw [setFlow_other _ _ e]; exact Evolves.refl _ _

/-- only members not mentioned change -/
theorem evolves_same {d : Bool} {f g : SF} (h1 : g.bound = f.bound) (h2 : g.flowId = f.flowId) (h3 : g.options = f.options ∨ (d = true ∧ g.options = []))
    (h4 : f.nextSn ≤ g.nextSn) (h5 : f.state.rank ≤ g.state.rank) (h6 : g.baseOpen = true → f.baseOpen = true)
    (h7 : g.onException = true → f.onException = true) (h8 : f.exception = true → g.exception = true) : Evolves d f g :=
  ⟨fun k => ⟨by rw [← h1]; exact k, h2⟩, h3, h4, h5, h6, h7, h8⟩

theorem queueFrags_evolves (s : SS) (i : Nat) (fs : List (Fra × Bytes)) (now a b : Int) (rid : Nat) (names : Nat → Nat) :
    EvolvesAll s (s.queueFrags i fs now a b rid names) := by
  intro j
  by_cases e : j = i
  · subst e
    rw [queueFrags_flow]
    exact evolves_same rfl rfl (Or.inl rfl) (Nat.le_add_right _ _) (Nat.le_refl _) (fun h => h) (fun h => h) (fun h => h)
  · rw [queueFrags_other _ _ _ _ _ _ _ _ e]; exact Evolves.refl _ _

theorem gotoClosed_evolves (s : SS) (i : Nat) : EvolvesAll s (s.gotoClosed i) := by
  intro j
  by_cases e : j = i
  · subst e
    rw [gotoClosed_flow]
    split
    · exact Evolves.refl _ _
    · refine ⟨(fun h => by cases h), Or.inl rfl, Nat.le_refl _, ?_, fun h => h, fun h => h, fun h => h⟩
      cases (s.flow j).state <;> simp [SFState.rank]
  · rw [gotoClosed_other _ _ e]; exact Evolves.refl _ _

theorem addFin_evolves (s : SS) (i : Nat) (now : Int) (rid : Nat) (names : Nat → Nat) : EvolvesAll s (s.addFin i now rid names) := by
  rcases addFin_cases s i now rid names with ⟨_, e⟩ | ⟨_, e⟩ <;> rw [e]
  · exact EvolvesAll.refl s
  · exact queueFrags_evolves _ _ _ _ _ _ _ _

theorem addFin_state (s : SS) (i : Nat) (now : Int) (rid : Nat) (names : Nat → Nat) : ((s.addFin i now rid names).flow i).state = (s.flow i).state := by
  rcases addFin_cases s i now rid names with ⟨_, e⟩ | ⟨_, e⟩ <;> rw [e]
  rw [queueFrags_flow]

theorem closeState_evolves (s : SS) (i : Nat) (now : Int) (rid : Nat) (names : Nat → Nat) : EvolvesAll s (s.closeState i now rid names) := by
  rw [closeState]
  split
  · rename_i h
    split
    · refine (addFin_evolves s i now rid names).trans (evolves_set ?_)
      refine evolves_same rfl rfl (Or.inl rfl) (Nat.le_refl _) ?_ (fun h => h) (fun h => h) (fun h => h)
      rw [addFin_state, h]; simp [SFState.rank]
    · exact gotoClosed_evolves s i
  · exact EvolvesAll.refl s

theorem close_evolves (s : SS) (i : Nat) (now : Int) (rid : Nat) (names : Nat → Nat) : EvolvesAll s (s.close i now rid names) := by
  rw [close]
  have h1 : EvolvesAll s ((s.setFlow i { s.flow i with onException := false, baseOpen := false }).closeState i now rid names) := by
    refine EvolvesAll.trans (evolves_set ?_) (closeState_evolves _ i now rid names)
    exact evolves_same rfl rfl (Or.inl rfl) (Nat.le_refl _) (Nat.le_refl _) (fun h => by cases h) (fun h => by cases h) (fun h => h)
  dsimp only
  split
  · exact h1.trans (gotoClosed_evolves _ _)
  · exact h1

theorem exceptionReport_evolves (s : SS) (i : Nat) (now : Int) (rid : Nat) (names : Nat → Nat) :
    EvolvesAll s (s.onExceptionReport i now rid names).1 := by
  rw [onExceptionReport]
  dsimp only
  have := EvolvesAll.trans (evolves_set (s := s) (i := i) (f := { s.flow i with exception := true })
    (evolves_same rfl rfl (Or.inl rfl) (Nat.le_refl _) (Nat.le_refl _) (fun h => h) (fun h => h) (fun _ => rfl))) (close_evolves _ i now rid names)
  exact this

theorem didClose_evolves (s : SS) (i : Nat) (now : Int) (rid : Nat) (names : Nat → Nat) :
    EvolvesAll s (s.onSessionDidClose i now rid names).1 := by
  rw [onSessionDidClose]
  refine (exceptionReport_evolves s i now rid names).trans (evolves_set ?_)
  exact evolves_same rfl rfl (Or.inl rfl) (Nat.le_refl _) (Nat.le_refl _) (fun h => h) (fun h => h) (fun h => h)

theorem closeFlows_evolves (now : Int) (l : List Nat) : ∀ s : SS, EvolvesAll s (closeFlows now s l).1 := by
  induction l with
  | nil => intro s; exact EvolvesAll.refl s
  | cons i l ih => intro s; rw [closeFlows]; exact (didClose_evolves s i now 0 _).trans (ih _)

theorem trim_evolves (s : SS) (i : Nat) (now : Int) : EvolvesAll s (s.trim i now).1 := by
  rw [trim]
  exact evolves_set (f := { s.flow i with queue := _ }) (evolves_same rfl rfl (Or.inl rfl) (Nat.le_refl _) (Nat.le_refl _) (fun h => h) (fun h => h) (fun h => h))

theorem assembleData_evolves (s : SS) (i : Nat) (p : PA) (pri : Nat) (now : Int) (gone : Bool) :
    ∀ j, Evolves (decide (j = i) && gone) (s.flow j) ((s.assembleData i p pri now gone).s.flow j) := by
  intro j
  rw [assembleData]
  split
  · exact Evolves.refl _ _
  split
  · exact Evolves.refl _ _
  dsimp only
  refine (trim_evolves s i now j).weaken.trans ?_
  generalize (s.trim i now).1 = t
  have hd : Evolves gone (t.flow i) (dropOptions (t.flow i) gone) := by
    rw [dropOptions]
    split
    · rename_i hg
      exact evolves_same rfl rfl (Or.inr ⟨hg.2.2, rfl⟩) (Nat.le_refl _) (Nat.le_refl _) (fun h => h) (fun h => h) (fun h => h)
    · exact Evolves.refl _ _
  refine evolves_set' (s := t) (i := i) (f := { dropOptions (t.flow i) gone with outstanding := _, lastName := _, queue := _ }) ?_ j
  refine hd.trans ?_
  exact evolves_same rfl rfl (Or.inl rfl) (Nat.le_refl _) (Nat.le_refl _) (fun h => h) (fun h => h) (fun h => h)

theorem onAck_evolves (s : SS) (i b : Nat) (rs : List (Nat × Nat)) : ∀ j, Evolves (decide (j = i)) (s.flow j) ((s.onAck i b rs).1.flow j) := by
  intro j
  rw [onAck]
  dsimp only
  split
  · exact Evolves.refl _ _
  · rename_i hr
    generalize ackRanges i rs _ _ = x
    generalize (if (s.flow i).options = [] then (s.flow i).assoc else false) = as
    rw [show decide (j = i) = (decide (j = i) && true) by simp]
    refine evolves_set' (s := s) (i := i) (f := lingerIf _) ?_ j
    rw [lingerIf]
    split
    · rename_i h
      refine evolves_same rfl rfl (Or.inr ⟨rfl, rfl⟩) (Nat.le_refl _) ?_ (fun h => h) (fun h => h) (fun h => h)
      have : (s.flow i).state = .closing := h.1
      rw [this]; simp [SFState.rank]
    · exact evolves_same rfl rfl (Or.inr ⟨rfl, rfl⟩) (Nat.le_refl _) (Nat.le_refl _) (fun h => h) (fun h => h) (fun h => h)

theorem lose_evolves (s : SS) (o : OutRef) : EvolvesAll s (lose s o) := by
  rw [lose]
  exact evolves_set (evolves_same rfl rfl (Or.inl rfl) (Nat.le_refl _) (Nat.le_refl _) (fun h => h) (fun h => h) (fun h => h))

theorem nakFrag_evolves (s : SS) (o : OutRef) : EvolvesAll s (nakFrag s o) := by
  rw [nakFrag]
  exact evolves_set (evolves_same rfl rfl (Or.inl rfl) (Nat.le_refl _) (Nat.le_refl _) (fun h => h) (fun h => h) (fun h => h))

theorem loseAll_evolves (l : List OutRef) : ∀ s : SS, EvolvesAll s (l.foldl lose s) := by
  induction l with
  | nil => intro s; exact EvolvesAll.refl s
  | cons o l ih => intro s; exact (lose_evolves s o).trans (ih _)

theorem nakLoop_evolves (l : List OutRef) : ∀ (s : SS) (k : Nak), EvolvesAll s (nakLoop s k l).1 := by
  induction l with
  | nil => intro s k; exact EvolvesAll.refl s
  | cons o l ih =>
    intro s k
    rw [nakLoop]
    split
    · exact EvolvesAll.refl s
    dsimp only
    split
    · exact (nakFrag_evolves s o).trans (ih _ _)
    · split
      · refine ((nakFrag_evolves s o).trans (lose_evolves _ o)).trans ?_
        intro j
        refine Evolves.trans ?_ (ih _ _ j)
        exact Evolves.refl _ _
      · exact (nakFrag_evolves s o).trans (ih _ _)

/-- whether an operation may drop the startup options of a flow: it was acknowledged, or the flow it answers is gone -/
def dropsOptions : Op → Nat → Bool
  | .ack i _ _, j => decide (j = i)
  | .transmit i _ _ _ gone, j => decide (j = i) && gone
  | _, _ => false

/-- what an operation does to a flow that is not opened, bound or given a callback by it -/
theorem step_evolves {s t : SS} {op : Op} {es : List Ev} (hs : step s op = some (t, es)) (j : Nat) :
    Evolves (dropsOptions op j) (s.flow j) (t.flow j) ∨ (∃ m a p, op = .openFlow j m a p ∧ m.length ≤ MAX_METADATA_LENGTH ∧ t.flow j = SF.init (startupOptions m a) a.isSome p) ∨
      (∃ fid, op = .bind j fid ∧ (s.flow j).bound = false ∧ t.flow j = { s.flow j with bound := true, flowId := fid }) ∨
      (op = .setOnException j ∧ t.flow j = { s.flow j with onException := true }) := by
  cases op with
  | openFlow i m a p =>
    rw [step] at hs
    simp only [Option.some.injEq, Prod.mk.injEq] at hs
    rw [← hs.1, openFlow]
    split
    · exact Or.inl (Evolves.refl _ _)
    · rename_i hm
      by_cases e : j = i
      · subst e; right; left; exact ⟨m, a, p, rfl, by omega, by simp⟩
      · left; rw [setFlow_other _ _ e]; exact Evolves.refl _ _
  | sessionOpen =>
    rw [step] at hs
    simp only [Option.some.injEq, Prod.mk.injEq] at hs
    rw [← hs.1]; exact Or.inl (Evolves.refl _ _)
  | bind i fid =>
    rw [step] at hs
    simp only [Option.some.injEq, Prod.mk.injEq] at hs
    rw [← hs.1, bind]
    split
    · exact Or.inl (Evolves.refl _ _)
    · rename_i hb
      by_cases e : j = i
      · subst e; right; right; left
        exact ⟨fid, rfl, by simpa using hb, by simp [setFlow]⟩
      · left
        show Evolves false _ ((s.setFlow i _).flow j)
        rw [setFlow_other _ _ e]; exact Evolves.refl _ _
  | write i msg now a b rid names =>
    rw [step] at hs
    simp only [Option.some.injEq] at hs
    left
    cases hw : s.write i msg now a b rid names with
    | none => rw [hw, writeRes] at hs; rw [← (Prod.mk.inj hs).1]; exact Evolves.refl _ _
    | some u =>
      rw [hw, writeRes] at hs; rw [← (Prod.mk.inj hs).1]
      rw [write] at hw
      split at hw
      · rw [basicWrite] at hw
        cases hc : cut (maxFrag (s.flow i).options) (msg.length + 1) .whole msg with
        | none => rw [hc] at hw; cases hw
        | some fs =>
          rw [hc] at hw
          simp only [Option.map_some, Option.some.injEq] at hw
          rw [← hw]; exact queueFrags_evolves _ _ _ _ _ _ _ _ j
      · cases hw
  | close i now rid names =>
    rw [step] at hs
    simp only [Option.some.injEq, Prod.mk.injEq] at hs
    rw [← hs.1]; exact Or.inl (close_evolves s i now rid names j)
  | setOnException i =>
    rw [step] at hs
    simp only [Option.some.injEq, Prod.mk.injEq] at hs
    rw [← hs.1]
    by_cases e : j = i
    · subst e; right; right; right; exact ⟨rfl, by simp⟩
    · left; rw [setFlow_other _ _ e]; exact Evolves.refl _ _
  | setPriority i pri =>
    rw [step, setPriority] at hs
    dsimp only at hs
    split at hs
    · cases hs
    · simp only [priRes, Option.some.injEq, Prod.mk.injEq] at hs
      rw [← hs.1]
      refine Or.inl (evolves_set (s := s) (i := i) (f := { s.flow i with priority := pri }) ?_ j)
      exact (evolves_same rfl rfl (Or.inl rfl) (Nat.le_refl _) (Nat.le_refl _) (fun h => h) (fun h => h) (fun h => h))
  | receipt op =>
    rw [step] at hs
    simp only [Option.some.injEq, Prod.mk.injEq] at hs
    rw [← hs.1]; exact Or.inl (Evolves.refl _ _)
  | trim i now =>
    rw [step] at hs
    simp only [Option.some.injEq, Prod.mk.injEq] at hs
    rw [← hs.1]; exact Or.inl (trim_evolves s i now j)
  | transmit i p pri now gone =>
    rw [step] at hs
    simp only [sentRes, Option.some.injEq, Prod.mk.injEq] at hs
    rw [← hs.1]
    left
    have := assembleData_evolves s i p pri now gone j
    rw [afterSend]; split <;> exact this
  | ack i b rs =>
    rw [step] at hs
    simp only [Option.some.injEq, Prod.mk.injEq] at hs
    rw [← hs.1]; exact Or.inl (onAck_evolves s i b rs j)
  | afterAcks c =>
    rw [step] at hs
    simp only [Option.some.injEq, Prod.mk.injEq] at hs
    rw [← hs.1]; exact Or.inl (nakLoop_evolves _ _ _ j)
  | exceptionReport i now rid names =>
    rw [step] at hs
    simp only [Option.some.injEq, Prod.mk.injEq] at hs
    rw [← hs.1]; exact Or.inl (exceptionReport_evolves s i now rid names j)
  | timeout =>
    rw [step] at hs
    simp only [Option.some.injEq, Prod.mk.injEq] at hs
    rw [← hs.1]; exact Or.inl (loseAll_evolves s.outs s j)
  | lingerAlarm i =>
    rw [step] at hs
    simp only [Option.some.injEq, Prod.mk.injEq] at hs
    rw [← hs.1]; exact Or.inl (gotoClosed_evolves s i j)
  | closeSession now =>
    rw [step] at hs
    simp only [Option.some.injEq, Prod.mk.injEq] at hs
    rw [← hs.1]; exact Or.inl (closeFlows_evolves now s.sendFlows { s with isOpen := false } j)
  | openingFailed i now =>
    rw [step] at hs
    simp only [Option.some.injEq, Prod.mk.injEq] at hs
    rw [← hs.1]; exact Or.inl (didClose_evolves s i now 0 _ j)

/-- identification of a flow: its id has 64 bits, and its startup options are those it was opened with, or none -/
structure Ident (ops : List Op) (j : Nat) (f : SF) : Prop where
  id : f.bound = true → f.flowId < 2 ^ 64
  opts : (f.options = [] ∧ ((∃ op ∈ ops, dropsOptions op j = true) ∨ ∀ m a p, Op.openFlow j m a p ∈ ops → m.length > MAX_METADATA_LENGTH)) ∨
    ∃ m a p, Op.openFlow j m a p ∈ ops ∧ m.length ≤ MAX_METADATA_LENGTH ∧ (∀ id, a = some id → id < 2 ^ 64) ∧ f.options = startupOptions m a

theorem exec_ident {ops : List Op} {s : SS} {evs : List Ev} (h : Exec ops s evs) (j : Nat) : Ident ops j (s.flow j) := by
  induction h with
  | nil => exact ⟨by simp [init, SF.init], Or.inl ⟨rfl, Or.inr (by simp)⟩⟩
  | @snoc ops s evs op t es he ha hs ih =>
    have up : ∀ f : SF, Ident ops j f → (∀ m a p, op = .openFlow j m a p → m.length > MAX_METADATA_LENGTH) → Ident (ops ++ [op]) j f := by
      intro f k hop
      refine ⟨k.id, ?_⟩
      rcases k.opts with ⟨e, e2⟩ | ⟨m, a, p, h1, h2⟩
      · refine Or.inl ⟨e, ?_⟩
        rcases e2 with ⟨o, h1, h2⟩ | e2
        · exact Or.inl ⟨o, by simp [h1], h2⟩
        · right
          intro m a p hm
          rcases List.mem_append.mp hm with hm | hm
          · exact e2 m a p hm
          · exact hop m a p (List.mem_singleton.mp hm).symm
      · exact Or.inr ⟨m, a, p, by simp [h1], h2⟩
    rcases step_evolves hs j with e | ⟨m, a, p, rfl, hm, e⟩ | ⟨fid, rfl, _, e⟩ | ⟨rfl, e⟩
    · have k : Ident (ops ++ [op]) j (s.flow j) := by
        refine up _ ih ?_
        rintro m a p rfl
        apply Classical.byContradiction
        intro hm
        rw [step] at hs
        simp only [Option.some.injEq, Prod.mk.injEq] at hs
        rw [← hs.1, openFlow, if_neg hm, setFlow_same] at e
        have h1 := e.rank
        rw [ha.1] at h1
        simp [SF.init, SFState.rank] at h1
      refine ⟨fun hb => ?_, ?_⟩
      · obtain ⟨b1, b2⟩ := e.id hb
        rw [b2]; exact k.id b1
      · rcases e.opts with o | ⟨o1, o2⟩
        · rw [o]; exact k.opts
        · exact Or.inl ⟨o2, Or.inl ⟨op, by simp, o1⟩⟩
    · rw [e]
      refine ⟨by simp [SF.init], Or.inr ⟨m, a, p, by simp, hm, ha.2.2, rfl⟩⟩
    · rw [e]
      exact ⟨fun _ => ha.2.2.1, (up _ ih (by simp)).opts⟩
    · rw [e]
      exact ⟨(up _ ih (by simp)).id, (up _ ih (by simp)).opts⟩

/-- a flow that isn't closed, or is bound, was opened -/
theorem opened_was_opened {ops : List Op} {s : SS} {evs : List Ev} (h : Exec ops s evs) {j : Nat} (hj : (s.flow j).state ≠ .closed) :
    ∃ m a pr, Op.openFlow j m a pr ∈ ops ∧ m.length ≤ MAX_METADATA_LENGTH := by
  induction h with
  | nil => exact absurd rfl hj
  | @snoc ops s evs op t es he ha hs ih =>
    have up : (∃ m a pr, Op.openFlow j m a pr ∈ ops ∧ m.length ≤ MAX_METADATA_LENGTH) →
        ∃ m a pr, Op.openFlow j m a pr ∈ ops ++ [op] ∧ m.length ≤ MAX_METADATA_LENGTH := by
      rintro ⟨m, a, pr, h1, h2⟩
      exact ⟨m, a, pr, by simp [h1], h2⟩
    rcases step_evolves hs j with e | ⟨m, a, p, rfl, hm, e⟩ | ⟨fid, rfl, _, e⟩ | ⟨rfl, e⟩
    · refine up (ih ?_)
      intro hc
      have := e.rank
      rw [hc] at this
      apply hj
      cases hst : (t.flow j).state <;> rw [hst] at this <;> simp [SFState.rank] at this ⊢
    · exact ⟨m, a, p, by simp, hm⟩
    · rw [e] at hj; exact up (ih hj)
    · rw [e] at hj; exact up (ih hj)

end SS
end Rtmfp
