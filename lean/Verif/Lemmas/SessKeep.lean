import Verif.Lemmas.SessTurns

/-! # What one thing that happens to a session leaves as it is -/

namespace Rtmfp
namespace Sess

theorem offer_same (pri : Nat) (now : Int) (gone : Nat → Bool) (l : List Nat) : ∀ (s : SS) (p : PA) (es : List SS.Ev),
    (offer pri now gone l s p es).1.isOpen = s.isOpen ∧ (offer pri now gone l s p es).1.sendFlows = s.sendFlows := by
  induction l with
  | nil => intro s p es; exact ⟨rfl, rfl⟩
  | cons i l ih =>
    intro s p es
    rw [offer]
    obtain ⟨k1, _, k2⟩ := SS.assembleData_like s i p pri now (gone i)
    have e1 : (SS.sentRes i (s.assembleData i p pri now (gone i))).1.isOpen = s.isOpen ∧ (SS.sentRes i (s.assembleData i p pri now (gone i))).1.sendFlows = s.sendFlows := by
      show ((s.assembleData i p pri now (gone i)).s.afterSend (s.assembleData i p pri now (gone i)).sent).isOpen = _ ∧ ((s.assembleData i p pri now (gone i)).s.afterSend (s.assembleData i p pri now (gone i)).sent).sendFlows = _
      rw [SS.afterSend]; split
      · exact k2
      · exact k2
    split
    · exact e1
    · obtain ⟨a, b⟩ := ih (SS.sentRes i (s.assembleData i p pri now (gone i))).1 (s.assembleData i p pri now (gone i)).packet (es ++ (SS.sentRes i (s.assembleData i p pri now (gone i))).2)
      exact ⟨a.trans e1.1, b.trans e1.2⟩

theorem nakLoop_same (l : List OutRef) : ∀ (s : SS) (k : SS.Nak), (SS.nakLoop s k l).1.isOpen = s.isOpen ∧ (SS.nakLoop s k l).1.sendFlows = s.sendFlows := by
  induction l with
  | nil => intro s k; exact ⟨rfl, rfl⟩
  | cons o l ih =>
    intro s k
    rw [SS.nakLoop]
    split
    · exact ⟨rfl, rfl⟩
    dsimp only
    split
    · exact ih _ _
    · split
      · exact ih _ _
      · exact ih _ _

theorem timeout_same {s : SS} (h : SS.Books s) : s.timeout.isOpen = s.isOpen ∧ s.timeout.sendFlows = s.sendFlows := by
  obtain ⟨_, _, a, b⟩ := SS.loseAll_books s.outs s h.flow
  exact ⟨b, a⟩

/-- calls of the user leave the session open, and take a flow from it only by closing it -/
theorem calls_same {h : List SS.Op} {s t : SS} {op : SS.Op} {es : List SS.Ev} (hb : SS.Books s) (hc : Calls op) (ha : SS.Allowed h s op) (hs : SS.step s op = some (t, es)) :
    t.isOpen = s.isOpen ∧ t.outs = s.outs ∧ ((∀ x ∈ s.sendFlows, x ∈ t.sendFlows) ∨ (∃ i, ∃ a b c, op = .close i a b c) ∨ (∃ i, op = .lingerAlarm i)) := by
  cases op with
  | openFlow i m a p =>
    simp only [SS.step, Option.some.injEq, Prod.mk.injEq] at hs
    rw [← hs.1, SS.openFlow]; split
    · exact ⟨rfl, rfl, Or.inl fun _ h => h⟩
    · exact ⟨rfl, rfl, Or.inl fun _ h => h⟩
  | bind i f =>
    simp only [SS.step, Option.some.injEq, Prod.mk.injEq] at hs
    rw [← hs.1, SS.bind]; split
    · exact ⟨rfl, rfl, Or.inl fun _ h => h⟩
    · exact ⟨rfl, rfl, Or.inl fun _ h => List.mem_append_left _ h⟩
  | write i msg now a b rid names =>
    have hw := writeRes_turns hb (i := i) (msg := msg) (now := now) (a := a) (b := b) (rid := rid) (names := names)
    simp only [SS.step, Option.some.injEq] at hs
    rw [hs] at hw
    refine ⟨hw.isOpen, hw.outs, Or.inl fun x hx => ?_⟩
    cases hq : s.write i msg now a b rid names with
    | none => rw [hq] at hs; cases hs; exact hx
    | some u =>
      rw [hq] at hs; cases hs
      rw [SS.write] at hq
      split at hq
      · rw [SS.basicWrite, Option.map_eq_some_iff] at hq
        obtain ⟨fr, _, rfl⟩ := hq
        exact hx
      · cases hq
  | close i now rid names =>
    have hw := SS.close_turn hb i now rid names
    simp only [SS.step, Option.some.injEq, Prod.mk.injEq] at hs
    rw [hs.1] at hw
    exact ⟨hw.isOpen, hw.outs, Or.inr (Or.inl ⟨_, _, _, _, rfl⟩)⟩
  | setOnException i => cases hs; exact ⟨rfl, rfl, Or.inl fun _ h => h⟩
  | setPriority i pri =>
    simp only [SS.step, SS.setPriority] at hs
    split at hs
    · cases hs
    · cases hs; exact ⟨rfl, rfl, Or.inl fun _ h => h⟩
  | receipt op => cases hs; exact ⟨rfl, rfl, Or.inl fun _ h => h⟩
  | trim i now => cases hs; exact ⟨rfl, rfl, Or.inl fun _ h => h⟩
  | lingerAlarm i =>
    simp only [SS.step, Option.some.injEq, Prod.mk.injEq] at hs
    rw [← hs.1]
    obtain ⟨a, b, c, _⟩ := SS.gotoClosed_rest s i
    exact ⟨c, a, Or.inr (Or.inr ⟨_, rfl⟩)⟩
  | openingFailed i now =>
    obtain ⟨a1, a2⟩ := ha
    simp only [SS.step, Option.some.injEq, Prod.mk.injEq] at hs
    obtain ⟨k1, k2, k3, k4, k5, k6, k7, k8, k9, k10, k11, _⟩ := SS.didClose_flows (now := now) (rid := 0) (names := id) (hb.flow i).ok (fun q => by rw [a1] at q; cases q) _ rfl
    rw [hs.1] at k7 k8 k11
    rw [if_neg (by rw [a1]; simp)] at k11
    exact ⟨k7, k8, Or.inl fun _ h => by rw [k11]; exact h⟩
  | _ => exact absurd hc (by simp [Calls])

/-- only opening opens, and only closing closes -/
theorem way_open {ops : List Op} {s t : Sess} {op : Op} {os : List SOut} (k : Inv (used ops) s) (ha : Allowed ops s op) (w : Way s op t os) :
    (t.ss.isOpen = s.ss.isOpen ∧ ∀ a b c, op ≠ .opened a b c) ∨ (t.ss.isOpen = false ∧ t.recvFlows = [] ∧ t.ss.sendFlows = [] ∧ t.now = s.now ∧ t.lastIdle = s.now) ∨ ∃ a b c, op = .opened a b c := by
  have hb := k.traced.books
  have hcl : ∀ u : Sess, u.ss = s.ss → u.now = s.now → (closeSession u).1.ss.isOpen = false ∧ (closeSession u).1.recvFlows = [] ∧ (closeSession u).1.ss.sendFlows = [] ∧ (closeSession u).1.now = s.now ∧ (closeSession u).1.lastIdle = s.now := by
    intro u h1 h2
    have hb' : SS.Books u.ss := by rw [h1]; exact hb
    obtain ⟨_, k2, _, k4, _⟩ := SS.closeSession_like hb' u.now
    exact ⟨k2, rfl, k4, h2, h2⟩
  cases w with
  | opened a b c => exact Or.inr (Or.inr ⟨_, _, _, rfl⟩)
  | flow h a b c => exact Or.inl ⟨(calls_same hb ha.1 ha.2.2 h).1, fun _ _ _ => Op.noConfusion⟩
  | writable w =>
    cases w with
    | nothing => exact Or.inl ⟨(offer_same _ _ _ _ _ _ _).1, fun _ _ _ => Op.noConfusion⟩
    | data => exact Or.inl ⟨(offer_same _ _ _ _ _ _ _).1, fun _ _ _ => Op.noConfusion⟩
    | _ => exact Or.inl ⟨rfl, fun _ _ _ => Op.noConfusion⟩
  | ack => exact Or.inl ⟨(SS.onAck_like _ _ _ _).2.1, fun _ _ _ => Op.noConfusion⟩
  | exception => exact Or.inl ⟨(SS.exceptionReport_turn hb _ _ _ _).isOpen, fun _ _ _ => Op.noConfusion⟩
  | afterAcks => exact Or.inl ⟨(nakLoop_same _ _ _).1, fun _ _ _ => Op.noConfusion⟩
  | gaveUp => exact Or.inr (Or.inl (hcl _ rfl rfl))
  | lost => exact Or.inl ⟨(timeout_same hb).1, fun _ _ _ => Op.noConfusion⟩
  | again => exact Or.inl ⟨(timeout_same hb).1, fun _ _ _ => Op.noConfusion⟩
  | idle => exact Or.inr (Or.inl (hcl _ rfl rfl))
  | close => exact Or.inr (Or.inl (hcl _ rfl rfl))
  | _ => exact Or.inl ⟨rfl, fun _ _ _ => Op.noConfusion⟩

/-- time, and the time flows were last seen -/
theorem way_time {ops : List Op} {s t : Sess} {op : Op} {os : List SOut} (ha : Allowed ops s op) (w : Way s op t os) :
    s.now ≤ t.now ∧ (t.lastIdle = s.lastIdle ∨ (t.lastIdle = s.now ∧ t.now = s.now)) := by
  cases w with
  | advance x => exact ⟨ha, Or.inl rfl⟩
  | opened a b c => exact ⟨Int.le_refl _, Or.inr ⟨rfl, rfl⟩⟩
  | flow h a b c =>
    refine ⟨Int.le_refl _, ?_⟩
    rcases b with b | b
    · exact Or.inl b
    · exact Or.inr ⟨b.1, rfl⟩
  | writable w => cases w <;> exact ⟨Int.le_refl _, Or.inl rfl⟩
  | exception a b =>
    refine ⟨Int.le_refl _, ?_⟩
    dsimp only
    rw [b]
    split
    · exact Or.inr ⟨rfl, rfl⟩
    · exact Or.inl rfl
  | recvClose r => exact ⟨Int.le_refl _, Or.inr ⟨rfl, rfl⟩⟩
  | gaveUp => exact ⟨Int.le_refl _, Or.inr ⟨rfl, rfl⟩⟩
  | idle => exact ⟨Int.le_refl _, Or.inr ⟨rfl, rfl⟩⟩
  | close => exact ⟨Int.le_refl _, Or.inr ⟨rfl, rfl⟩⟩
  | _ => exact ⟨Int.le_refl _, Or.inl rfl⟩

end Sess
end Rtmfp
