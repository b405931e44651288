import Verif.Lemmas.SendInv
import Verif.Lemmas.SendPacket

/-! # Executions of the sending side -/

namespace Rtmfp
namespace SS

/-- the receipt that an operation may issue -/
def Op.rid : Op → Option Nat
  | .write _ _ _ _ _ r _ => some r
  | .close _ _ r _ => some r
  | .exceptionReport _ _ r _ => some r
  | _ => none

/-- names given to new elements of a queue are different, not 0 (`List` begins with 1) and not in use (C09) -/
def GoodNames (q : List SFrag) (names : Nat → Nat) : Prop :=
  (∀ a b, names a = names b → a = b) ∧ (∀ a, 0 < names a) ∧ ∀ f ∈ q, ∀ a, f.name ≠ names a

/-- What can happen after `ops`, in the state `s`.
* A new flow has a new index (and ids of flows have 64 bits), a new receipt a new number; a message has less than 2^64 - 1 bytes.
* A flow is bound while the session is open, to an id that is not in use (`bindFlow`, src/Session.cpp:796-800, tries ids until it finds one).
* The session gives acknowledgements and exceptions to the bound flow with the id they name, and asks bound flows for data, in a packet it has set up.
* The linger alarm is set when that state is entered. The opening of a session fails for flows not bound yet.
* The user sets callbacks while the flow is open, or the receipt isn't finished; the remaining calls on receipts are up to them. (`issue`, `fragmentDone`, `abandonIfNeeded` and
  `start` are the library's.) -/
def Allowed (ops : List Op) (s : SS) : Op → Prop
  | .openFlow i _ a _ => (s.flow i).state = .closed ∧ (∀ m a p, Op.openFlow i m a p ∉ ops) ∧ ∀ id, a = some id → id < 2 ^ 64
  | .bind i fid => s.isOpen = true ∧ (s.flow i).state = .opened ∧ fid < 2 ^ 64 ∧ ∀ j ∈ s.sendFlows, (s.flow j).flowId ≠ fid
  | .write i msg _ _ _ rid names => some rid ∉ ops.map Op.rid ∧ GoodNames (s.flow i).queue names ∧ msg.length + 1 < 2 ^ 64
  | .close i _ rid names => some rid ∉ ops.map Op.rid ∧ GoodNames (s.flow i).queue names
  | .exceptionReport i _ rid names => (s.flow i).bound = true ∧ some rid ∉ ops.map Op.rid ∧ GoodNames (s.flow i).queue names
  | .setOnException i => (s.flow i).baseOpen = true
  | .receipt (.issue _ _ _ _ _) | .receipt (.fragmentDone _) | .receipt (.abandonIfNeeded _ _) | .receipt (.start _) | .receipt .callbackReturned => False
  | .receipt (.setCallback r) => (s.receipts.r r).isFinished = false
  | .transmit i p _ _ _ => (s.flow i).bound = true ∧ p.Inv
  | .ack i _ _ => (s.flow i).bound = true
  | .lingerAlarm i => (s.flow i).state = .completeLinger
  | .openingFailed i _ => (s.flow i).bound = false ∧ (s.flow i).state = .opened
  | _ => True

/-- What happened, the resulting state and what was observed. -/
inductive Exec : List Op → SS → List Ev → Prop
  | nil : Exec [] init []
  | snoc {ops s evs op t es} : Exec ops s evs → Allowed ops s op → step s op = some (t, es) → Exec (ops ++ [op]) t (evs ++ es)

/-! ## the end of the session -/

theorem close_flows {s : SS} {i : Nat} {now : Int} {rid : Nat} {names : Nat → Nat} (ok : FlowOk (s.flow i))
    (hb : (s.flow i).bound = true → s.isOpen = false) :
    ((s.close i now rid names).flow i).state = .closed ∧ ((s.close i now rid names).flow i).bound = false ∧
    ((s.close i now rid names).flow i).baseOpen = false ∧ ((s.close i now rid names).flow i).nextSn = (s.flow i).nextSn ∧
    ((s.close i now rid names).flow i).queue = (s.flow i).queue ∧
    (∀ j, j ≠ i → (s.close i now rid names).flow j = s.flow j) ∧
    (s.close i now rid names).isOpen = s.isOpen ∧ (s.close i now rid names).outs = s.outs ∧ (s.close i now rid names).outSum = s.outSum ∧
    (s.close i now rid names).receipts = s.receipts ∧
    (s.close i now rid names).sendFlows = if (s.flow i).bound = true then s.sendFlows.filter (fun j => j ≠ i) else s.sendFlows := by
  have hcs : ∀ t : SS, (t.flow i).bound = (s.flow i).bound → t.isOpen = s.isOpen →
      t.closeState i now rid names = if (t.flow i).state = .opened then t.gotoClosed i else t := by
    intro t ht1 ht2
    rw [closeState]
    split
    · rw [if_neg]
      rintro ⟨a, b, _⟩
      rw [ht1] at a; rw [ht2, hb a] at b; cases b
    · rfl
  rw [close]
  dsimp only
  rw [hcs (s.setFlow i { s.flow i with onException := false, baseOpen := false }) (by simp) rfl, setFlow_same]
  dsimp only
  by_cases h1 : (s.flow i).state = .opened
  · simp only [if_pos h1]
    rw [if_neg (by rw [gotoClosed_flow]; simp [h1])]
    obtain ⟨r1, r2, r3, r4, _⟩ := gotoClosed_rest (s.setFlow i { s.flow i with onException := false, baseOpen := false }) i
    rw [gotoClosed_flow, gotoClosed_sendFlows, r1, r2, r3, r4]
    refine ⟨?_, ?_, ?_, ?_, ?_, fun j hj => ?_, rfl, rfl, rfl, rfl, ?_⟩
    · simp [h1]
    · simp [h1]
    · simp [h1]
    · simp [h1]
    · simp [h1]
    · rw [gotoClosed_other _ _ hj, setFlow_other _ _ hj]
    · simp [h1]
  · simp only [if_neg h1, setFlow_same, setFlow_isOpen]
    by_cases h2 : (s.flow i).bound = true
    · rw [if_pos ⟨h2, hb h2⟩]
      have hnc : (s.flow i).state ≠ .closed := fun e => by rw [ok.closed e] at h2; cases h2
      obtain ⟨r1, r2, r3, r4, _⟩ := gotoClosed_rest (s.setFlow i { s.flow i with onException := false, baseOpen := false }) i
      rw [gotoClosed_flow, gotoClosed_sendFlows, r1, r2, r3, r4]
      refine ⟨?_, ?_, ?_, ?_, ?_, fun j hj => ?_, rfl, rfl, rfl, rfl, ?_⟩
      · simp [hnc]
      · simp [hnc]
      · simp [hnc]
      · simp [hnc]
      · simp [hnc]
      · rw [gotoClosed_other _ _ hj, setFlow_other _ _ hj]
      · simp [hnc]
    · rw [if_neg (by simp [h2])]
      have hc : (s.flow i).state = .closed := by
        apply Classical.byContradiction
        intro k
        exact h1 (ok.zero (by simpa using h2) k).2
      simp only [setFlow_same]
      refine ⟨hc, by simpa using h2, trivial, trivial, trivial, fun j hj => setFlow_other _ _ hj, rfl, rfl, rfl, rfl, ?_⟩
      simp [h2]

theorem didClose_flows {s : SS} {i : Nat} {now : Int} {rid : Nat} {names : Nat → Nat} (ok : FlowOk (s.flow i))
    (hb : (s.flow i).bound = true → s.isOpen = false) (t : SS) (ht : t = (s.onSessionDidClose i now rid names).1) :
    (t.flow i).state = .closed ∧ (t.flow i).bound = false ∧ (t.flow i).baseOpen = false ∧ (t.flow i).nextSn = (s.flow i).nextSn ∧
    (t.flow i).queue = [] ∧ (∀ j, j ≠ i → t.flow j = s.flow j) ∧ t.isOpen = s.isOpen ∧ t.outs = s.outs ∧ t.outSum = s.outSum ∧
    t.receipts = (abandonAll s.receipts (s.flow i).queue).1 ∧
    t.sendFlows = (if (s.flow i).bound = true then s.sendFlows.filter (fun j => j ≠ i) else s.sendFlows) ∧
    (s.onSessionDidClose i now rid names).2 = ((s.flow i).onException, (abandonAll s.receipts (s.flow i).queue).2) := by
  have ok2 : FlowOk ((s.setFlow i { s.flow i with exception := true }).flow i) := by
    rw [setFlow_same]
    exact ⟨ok.sorted, ok.range, ok.next, ok.unbound, ok.zero, ok.linger, ok.opened, ok.closed⟩
  obtain ⟨k1, k2, k3, k4, k5, k6, k7, k8, k9, k10, k11⟩ := close_flows (now := now) (rid := rid) (names := names) ok2 (by simpa using hb)
  rw [setFlow_same] at k4 k5 k11
  dsimp only at k4 k5 k11
  rw [onSessionDidClose] at ht ⊢
  rw [onExceptionReport] at ht ⊢
  dsimp only at ht ⊢
  generalize (s.setFlow i { s.flow i with exception := true }).close i now rid names = u at *
  rw [k5, k10] at ht
  rw [k5, k10]
  subst ht
  refine ⟨?_, ?_, ?_, ?_, ?_, fun j hj => ?_, k7, k8, k9, rfl, ?_, rfl⟩
  · simpa [setFlow] using k1
  · simpa [setFlow] using k2
  · simpa [setFlow] using k3
  · simpa [setFlow] using k4
  · simp
  · rw [setFlow_other _ _ hj]
    show u.flow j = _
    rw [k6 j hj, setFlow_other _ _ hj]
  · exact k11

/-- the loop over the flows when the session ends -/
theorem closeFlows_ok (now : Int) (l : List Nat) : ∀ s : SS, (∀ i, FlowOk (s.flow i)) → s.isOpen = false → s.sendFlows.Nodup →
    (∀ i, i ∈ s.sendFlows ↔ (s.flow i).bound = true) → l = s.sendFlows →
    (∀ i, FlowOk ((closeFlows now s l).1.flow i)) ∧ (∀ i, ((closeFlows now s l).1.flow i).bound = false) ∧
    (closeFlows now s l).1.sendFlows = [] ∧ (closeFlows now s l).1.isOpen = false := by
  induction l with
  | nil =>
    intro s h ho _ hb hl
    refine ⟨h, fun i => ?_, hl.symm, ho⟩
    rw [closeFlows]
    have := hb i
    rw [← hl] at this
    simpa using this
  | cons i l ih =>
    intro s h ho hn hb hl
    obtain ⟨k1, k2, k3, k4, k5, k6, k7, k8, k9, k10, k11, _⟩ := didClose_flows (now := now) (rid := 0) (names := id) (h i) (fun _ => ho) _ rfl
    rw [closeFlows]
    dsimp only
    generalize (s.onSessionDidClose i now 0 id).1 = t at *
    have hib : (s.flow i).bound = true := (hb i).mp (by rw [← hl]; simp)
    rw [if_pos hib, ← hl] at k11
    have hn2 : (i :: l).Nodup := by rw [hl]; exact hn
    rw [List.nodup_cons] at hn2
    have hl2 : (i :: l).filter (fun j => j ≠ i) = l := by
      rw [List.filter_cons_of_neg (by simp), List.filter_eq_self]
      intro j hj; simp; rintro rfl; exact hn2.1 hj
    rw [hl2] at k11
    refine ih t ?_ (by rw [k7]; exact ho) (by rw [k11]; exact hn2.2) ?_ k11.symm
    · intro j
      by_cases e : j = i
      · subst e
        refine ⟨?_, ?_, ?_, ?_, ?_, ?_, ?_, ?_⟩
        · rw [k5]; exact .nil
        · rw [k5]; simp
        · rw [k4]; exact (h j).next
        · rw [k5]; simp
        · intro _ k; exact absurd k1 k
        · intro _; exact k5
        · intro k; rw [k3] at k; cases k
        · intro _; exact k2
      · rw [k6 j e]; exact h j
    · intro j
      rw [k11]
      by_cases e : j = i
      · subst e; simp [hn2.1, k2]
      · rw [k6 j e, ← hb j, ← hl]; simp [e]

theorem closeFlows_keep (now : Int) (l : List Nat) (P : SF → Prop) : ∀ s : SS, (∀ i, P (s.flow i)) →
    (∀ (s : SS) i, (∀ i, P (s.flow i)) → i ∈ l → ∀ j, P ((s.onSessionDidClose i now 0 id).1.flow j)) → ∀ i, P ((closeFlows now s l).1.flow i) := by
  induction l with
  | nil => intro s h _; exact h
  | cons i l ih =>
    intro s h hs
    rw [closeFlows]
    exact ih _ (hs s i h (by simp)) (fun s j a b => hs s j a (by simp [b]))

theorem closeSession_books {s : SS} (h : Books s) (now : Int) : Books (s.closeSession now).1 := by
  rw [closeSession]
  dsimp only
  obtain ⟨k1, k2, k3, k4⟩ := closeFlows_ok now s.sendFlows { s with isOpen := false } (fun i => (h.flow i).ok) rfl h.nodup h.bound rfl
  refine ⟨fun i => ⟨k1 i, ?_, fun hc => ?_⟩, rfl, ?_, fun i => ?_, fun i hi => ?_⟩
  · show List.Perm (ofFlow i []) (refs i _)
    rw [refs_nil_of ((k1 i).unbound (k2 i))]; rfl
  · have := ((k1 i).zero (k2 i) hc).1
    show _ = flight _ % W64
    rw [flight_zero_of ((k1 i).unbound (k2 i))]
    exact this
  · show List.Nodup (closeFlows _ _ _).1.sendFlows
    rw [k3]; exact .nil
  · show i ∈ (closeFlows _ _ _).1.sendFlows ↔ ((closeFlows _ _ _).1.flow i).bound = true
    rw [k3, k2 i]; simp
  · have : ((closeFlows now { s with isOpen := false } s.sendFlows).1.flow i).bound = true := hi
    rw [k2 i] at this; cases this

theorem openingFailed_books {s : SS} (h : Books s) (i : Nat) (now : Int) (hb : (s.flow i).bound = false) :
    Books (s.onSessionDidClose i now 0 id).1 := by
  obtain ⟨k1, k2, k3, k4, k5, k6, k7, k8, k9, k10, k11, _⟩ := didClose_flows (now := now) (rid := 0) (names := id) (h.flow i).ok
    (fun q => by rw [hb] at q; cases q) _ rfl
  generalize (s.onSessionDidClose i now 0 id).1 = t at *
  rw [if_neg (by simp [hb])] at k11
  refine h.one i k8 k9 k11 k7 (by rw [k2, hb]) k6 ⟨⟨?_, ?_, ?_, ?_, ?_, ?_, ?_, ?_⟩, ?_, ?_⟩
  · rw [k5]; exact .nil
  · rw [k5]; simp
  · rw [k4]; exact (h.flow i).ok.next
  · rw [k5]; simp
  · intro _ k; exact absurd k1 k
  · intro _; exact k5
  · intro k; rw [k3] at k; cases k
  · intro _; exact k2
  · rw [k5]
    have := (h.flow i).perm
    rwa [refs_nil_of ((h.flow i).ok.unbound hb)] at this
  · intro k; exact absurd k1 k

/-! ## everything -/

theorem step_books {ops : List Op} {s t : SS} {op : Op} {es : List Ev} (h : Books s) (ha : Allowed ops s op) (hs : step s op = some (t, es)) :
    Books t := by
  cases op with
  | openFlow i m a p =>
    rw [step] at hs
    simp only [Option.some.injEq, Prod.mk.injEq] at hs
    rw [← hs.1, openFlow]
    split
    · exact h
    · have hc : (s.flow i).state = .closed := ha.1
      have hub := (h.flow i).ok.closed hc
      refine h.one i rfl rfl rfl rfl (by rw [setFlow_same, hub]; rfl) (fun j hj => setFlow_other _ _ hj) ?_
      rw [setFlow_same]
      refine ⟨⟨.nil, by simp [SF.init], by simp [SF.init], by simp [SF.init], by simp [SF.init], by simp [SF.init], by simp [SF.init], by simp [SF.init]⟩, ?_, ?_⟩
      · have := (h.flow i).perm
        rwa [refs_nil_of ((h.flow i).ok.unbound hub)] at this
      · intro _; simp [SF.init, flight]
  | sessionOpen =>
    rw [step] at hs
    simp only [Option.some.injEq, Prod.mk.injEq] at hs
    rw [← hs.1]
    exact ⟨h.flow, h.sum, h.nodup, h.bound, fun _ _ => rfl⟩
  | bind i fid =>
    rw [step] at hs
    simp only [Option.some.injEq, Prod.mk.injEq] at hs
    rw [← hs.1, bind]
    split
    · exact h
    · rename_i hb
      obtain ⟨a1, a2, _⟩ := ha
      have ok := (h.flow i).ok
      have hb' : (s.flow i).bound = false := by simpa using hb
      have hq := ok.unbound hb'
      refine ⟨?_, h.sum, ?_, ?_, ?_⟩
      · intro j
        show FlowBooks j ((s.setFlow i _).flow j) s.outs
        by_cases e : j = i
        · subst e
          rw [setFlow_same]
          refine ⟨⟨ok.sorted, ok.range, ok.next, (fun k => by cases k), (fun k => by cases k), ok.linger, ok.opened, ?_⟩, (h.flow j).perm, (h.flow j).out⟩
          intro k; rw [show (s.flow j).state = .closed from k] at a2; cases a2
        · rw [setFlow_other _ _ e]; exact h.flow j
      · show (s.sendFlows ++ [i]).Nodup
        rw [List.nodup_append]
        refine ⟨h.nodup, by simp, ?_⟩
        intro a ha b hb2
        simp only [List.mem_singleton] at hb2
        rintro rfl
        subst hb2
        rw [h.bound] at ha; exact hb ha
      · intro j
        show j ∈ s.sendFlows ++ [i] ↔ ((s.setFlow i _).flow j).bound = true
        by_cases e : j = i
        · subst e; simp
        · rw [setFlow_other _ _ e, ← h.bound]; simp [e]
      · intro j _; exact a1
  | write i msg now a b rid names =>
    rw [step] at hs
    simp only [Option.some.injEq] at hs
    cases hw : s.write i msg now a b rid names with
    | none => rw [hw, writeRes] at hs; rw [← (Prod.mk.inj hs).1]; exact h
    | some u => rw [hw, writeRes] at hs; rw [← (Prod.mk.inj hs).1]; exact write_books h hw
  | close i now rid names =>
    rw [step] at hs
    simp only [Option.some.injEq, Prod.mk.injEq] at hs
    rw [← hs.1]; exact close_books h i now rid names
  | setOnException i =>
    rw [step] at hs
    simp only [Option.some.injEq, Prod.mk.injEq] at hs
    rw [← hs.1]
    have ok := (h.flow i).ok
    refine h.one i rfl rfl rfl rfl (by simp) (fun j hj => setFlow_other _ _ hj) ?_
    rw [setFlow_same]
    exact ⟨⟨ok.sorted, ok.range, ok.next, ok.unbound, ok.zero, ok.linger, ok.opened, ok.closed⟩, (h.flow i).perm, (h.flow i).out⟩
  | setPriority i pri =>
    rw [step, setPriority] at hs
    dsimp only at hs
    split at hs
    · cases hs
    · simp only [priRes, Option.some.injEq, Prod.mk.injEq] at hs
      rw [← hs.1]
      have ok := (h.flow i).ok
      refine h.one i rfl rfl rfl rfl (by simp) (fun j hj => setFlow_other _ _ hj) ?_
      rw [setFlow_same]
      exact ⟨⟨ok.sorted, ok.range, ok.next, ok.unbound, ok.zero, ok.linger, ok.opened, ok.closed⟩, (h.flow i).perm, (h.flow i).out⟩
  | receipt op =>
    rw [step] at hs
    simp only [Option.some.injEq, Prod.mk.injEq] at hs
    rw [← hs.1]; exact h.receipts _
  | trim i now =>
    rw [step] at hs
    simp only [Option.some.injEq, Prod.mk.injEq] at hs
    rw [← hs.1]; exact trim_books h i now
  | transmit i p pri now gone =>
    rw [step] at hs
    simp only [sentRes, Option.some.injEq, Prod.mk.injEq] at hs
    rw [← hs.1]
    exact afterSend_books (assembleData_books h i p pri now gone ha.1) _
  | ack i b rs =>
    rw [step] at hs
    simp only [Option.some.injEq, Prod.mk.injEq] at hs
    rw [← hs.1]; exact onAck_books h i b rs
  | afterAcks c =>
    rw [step] at hs
    simp only [Option.some.injEq, Prod.mk.injEq] at hs
    rw [← hs.1]; exact afterAcks_books h c
  | exceptionReport i now rid names =>
    rw [step] at hs
    simp only [Option.some.injEq, Prod.mk.injEq] at hs
    rw [← hs.1]; exact exceptionReport_books h i now rid names
  | timeout =>
    rw [step] at hs
    simp only [Option.some.injEq, Prod.mk.injEq] at hs
    rw [← hs.1]; exact timeout_books h
  | lingerAlarm i =>
    rw [step] at hs
    simp only [Option.some.injEq, Prod.mk.injEq] at hs
    rw [← hs.1, lingerAlarm]
    have hl : (s.flow i).state = .completeLinger := ha
    refine gotoClosed_books h i ?_ ?_
    · cases hb : (s.flow i).baseOpen
      · rfl
      · have := (h.flow i).ok.opened hb; rw [hl] at this; cases this
    · rw [(h.flow i).ok.linger hl]; simp
  | closeSession now =>
    rw [step] at hs
    simp only [Option.some.injEq, Prod.mk.injEq] at hs
    rw [← hs.1]; exact closeSession_books h now
  | openingFailed i now =>
    rw [step] at hs
    simp only [Option.some.injEq, Prod.mk.injEq] at hs
    rw [← hs.1]; exact openingFailed_books h i now ha.1

theorem exec_books {ops : List Op} {s : SS} {evs : List Ev} (h : Exec ops s evs) : Books s := by
  induction h with
  | nil => exact init_books
  | snoc _ ha hs ih => exact step_books ih ha hs

end SS
end Rtmfp
