import Verif.Lemmas.SendReceipts

/-! # What becomes of the fragments of a message

In every execution, each fragment of an accepted message is in the flow's queue, was acknowledged after it was written, or its receipt is abandoned.
-/

namespace Rtmfp
namespace SS

/-- receipts that may have been issued -/
def issuedBy (ops : List Op) (k : Nat) : Prop := some k ∈ ops.map Op.rid

/-- the reports of receipts among the events -/
def finsOf : List Ev → List (Nat × Bool)
  | [] => []
  | .finished r b :: l => (r, b) :: finsOf l
  | _ :: l => finsOf l

theorem finsOf_append (a b : List Ev) : finsOf (a ++ b) = finsOf a ++ finsOf b := by
  induction a with
  | nil => rfl
  | cons e a ih => cases e <;> simp [finsOf, ih]

theorem finsOf_fins (l : List (Nat × Bool)) : finsOf (fins l) = l := by
  induction l with
  | nil => rfl
  | cons x l ih => rw [fins, List.map_cons, finsOf]; rw [fins] at ih; rw [ih]

theorem finsOf_exc (l : List Nat) : finsOf (l.map .exception) = [] := by
  induction l with
  | nil => rfl
  | cons x l ih => rw [List.map_cons, finsOf]; exact ih; intro r b h; cases h

theorem mem_finsOf {r : Nat} {b : Bool} {l : List Ev} : (r, b) ∈ finsOf l ↔ Ev.finished r b ∈ l := by
  induction l with
  | nil => simp [finsOf]
  | cons e l ih => cases e <;> simp [finsOf, ih]

/-- the numbers an operation acknowledges -/
def acks (op : Op) (i sn : Nat) : Prop := ∃ b rs, op = .ack i b rs ∧ ∃ x ∈ rs, x.1 ≤ sn ∧ sn ≤ x.2

theorem cut_length (m : Nat) (fuel : Nat) : ∀ (fra : Fra) (rem : Bytes) (fs : List (Fra × Bytes)), cut m fuel fra rem = some fs → 0 < fs.length ∧ fs.length ≤ fuel := by
  induction fuel with
  | zero => intro fra rem fs h; cases h
  | succ n ih =>
    intro fra rem fs h
    rw [cut] at h
    generalize (if rem.length > m then m else rem.length) = k at h
    generalize (if rem.length > m then (if fra = .whole then Fra.begin else .middle) else (if fra = .whole then .whole else .end)) = g at h
    split at h
    · simp only [Option.some.injEq] at h; rw [← h]; simp
    · obtain ⟨l, h1, h2⟩ := Option.map_eq_some_iff.mp h
      rw [← h2]
      have := ih _ _ _ h1
      simp; omega

/-- an accepted message -/
theorem write_queue {s t : SS} {i : Nat} {msg : Bytes} {now a b : Int} {rid : Nat} {names : Nat → Nat} (hw : s.write i msg now a b rid names = some t) :
    (s.flow i).baseOpen = true ∧ ∃ fs, cut (maxFrag (s.flow i).options) (msg.length + 1) .whole msg = some fs ∧ t = s.queueFrags i fs now a b rid names ∧
      0 < fs.length ∧ fs.length ≤ msg.length + 1 := by
  rw [write] at hw
  by_cases ho : (s.flow i).baseOpen = true
  · rw [if_pos ho, basicWrite] at hw
    cases hc : cut (maxFrag (s.flow i).options) (msg.length + 1) .whole msg with
    | none => rw [hc] at hw; cases hw
    | some fs =>
      rw [hc] at hw
      simp only [Option.map_some, Option.some.injEq] at hw
      exact ⟨ho, fs, rfl, hw.symm, cut_length _ _ _ _ _ hc⟩
  · rw [if_neg ho] at hw; cases hw

theorem RH.frozen {iss : Nat → Prop} {r r' : RStore} {tr : List (Nat × Bool)} (op : RStore.Op) (e : r.step op = (r', [])) (hs : r'.stack = r.stack)
    (ha : ∀ rops, RStore.Hist rops r tr → RStore.Allowed rops r op) (hi : ∀ k o a b n, op = .issue k o a b n → iss k) (h : RH iss r tr) : RH iss r' (tr ++ []) := by
  have h2 : r.stack = [] := by obtain ⟨_, _, h2, _⟩ := h; exact h2
  have := h.settled op ha hi (Or.inl ⟨by rw [e], by rw [e]; exact hs.trans h2⟩)
  rw [Rtmfp.settled, e, if_pos rfl] at this
  exact this

/-- a call of the user on a receipt -/
theorem userReceipt_go {ops : List Op} {s : SS} (op : RStore.Op) (ha : Allowed ops s (.receipt op)) (A : Nat → Prop) (Q : List SFrag) :
    Go A s.receipts Q (settled (s.receipts.step op)).1 Q (settled (s.receipts.step op)).2 := by
  have quiet : RStore.Quiet op = true → Go A s.receipts Q (settled (s.receipts.step op)).1 Q (settled (s.receipts.step op)).2 := by
    intro hq
    obtain ⟨q1, q2, q3⟩ := RStore.quiet_step s.receipts op hq
    have e : s.receipts.step op = ((s.receipts.step op).1, []) := by rw [← q1]
    rw [Rtmfp.settled, if_pos q1, q1]
    refine Go.receipts Q (fun tr iss h => RH.frozen op e q2 ?_ ?_ h) (fun k => (q3 k).u) (fun k hk => by rw [(q3 k).a]; exact hk)
    · intro rops _; cases op <;> simp [RStore.Quiet] at hq <;> trivial
    · rintro k o a b n rfl; simp [RStore.Quiet] at hq
  cases op with
  | issue => exact absurd ha id
  | fragmentDone => exact absurd ha id
  | abandonIfNeeded => exact absurd ha id
  | callbackReturned => exact absurd ha id
  | start => exact absurd ha id
  | abandon k => exact Go.abandonNow A s.receipts Q k
  | setCallback k =>
    have hf : (s.receipts.r k).isFinished = false := ha
    have e : s.receipts.step (.setCallback k) = (s.receipts.upd k { s.receipts.r k with onFinished := true }, []) := rfl
    rw [Rtmfp.settled, e, if_pos rfl]
    refine Go.receipts Q (fun tr iss h => RH.frozen _ e rfl ?_ (by simp) h) (fun j => ?_) (fun j hj => ?_)
    · intro rops h
      refine ⟨?_, hf⟩
      refine Classical.byContradiction fun hn => ?_
      have := ((RStore.hist_inv h k).fresh hn).2.2.2.1
      rw [Receipt.isFinished, this] at hf
      simp at hf
    · by_cases e : j = k
      · subst e; rw [RStore.upd_same]
      · rw [RStore.upd_other _ _ e]
    · by_cases e : j = k
      · subst e; rw [RStore.upd_same]; exact hj
      · rw [RStore.upd_other _ _ e]; exact hj
  | setStartBy => exact quiet rfl
  | setFinishBy => exact quiet rfl
  | setStartWithin => exact quiet rfl
  | setFinishWithin => exact quiet rfl
  | setRetransmit => exact quiet rfl
  | setParent => exact quiet rfl
  | chainAppend => exact quiet rfl
  | chainExpire => exact quiet rfl

theorem issuedBy_snoc (ops : List Op) (op : Op) (k : Nat) : issuedBy (ops ++ [op]) k ↔ issuedBy ops k ∨ op.rid = some k := by
  simp only [issuedBy, List.map_append, List.mem_append, List.map_cons, List.map_nil, List.mem_singleton]
  constructor <;> rintro (h | h)
  · exact Or.inl h
  · exact Or.inr h.symm
  · exact Or.inl h
  · exact Or.inr h.symm

theorem Moves.plain {ops : List Op} {op : Op} {A : Nat → Nat → Prop} {s t : SS} {ev : List (Nat × Bool)}
    (h : Moves (issuedBy ops) (issuedBy ops) A s t ev) : Moves (issuedBy ops) (issuedBy (ops ++ [op])) A s t ev := by
  have := h.trans (fun k h => h) (Moves.weaken (i2 := issuedBy (ops ++ [op])) (fun k hk => (issuedBy_snoc ops op k).mpr (Or.inl hk)) A t)
  simpa using this

theorem Moves.new {ops : List Op} {op : Op} {A : Nat → Nat → Prop} {s t : SS} {ev : List (Nat × Bool)} {r : Nat} (hr : op.rid = some r)
    (h : Moves (issuedBy ops) (fun k => issuedBy ops k ∨ k = r) A s t ev) : Moves (issuedBy ops) (issuedBy (ops ++ [op])) A s t ev := by
  have := h.trans (fun k h => Or.inl h) (Moves.weaken (i2 := issuedBy (ops ++ [op])) (fun k hk => (issuedBy_snoc ops op k).mpr
    (hk.elim Or.inl (fun e => Or.inr (by rw [hr, e])))) A t)
  simpa using this

theorem Moves.more {iss iss' : Nat → Prop} {A B : Nat → Nat → Prop} {s t : SS} {ev : List (Nat × Bool)} (hab : ∀ i sn, A i sn → B i sn) (h : Moves iss iss' A s t ev) :
    Moves iss iss' B s t ev := by
  intro tr h1
  obtain ⟨a, b⟩ := h tr h1
  exact ⟨a, fun i f hf => (b.kept i f hf).imp id (fun h => h.imp (hab _ _) id), b.mono, b.sub⟩

theorem step_moves {ops : List Op} {s t : SS} {op : Op} {es : List Ev} (hbk : Books s) (hun : ∀ i, (∀ m a p, Op.openFlow i m a p ∉ ops) → (s.flow i).queue = [])
    (ha : Allowed ops s op) (hs : step s op = some (t, es)) : Moves (issuedBy ops) (issuedBy (ops ++ [op])) (acks op) s t (finsOf es) := by
  cases op with
  | openFlow i m a p =>
    rw [step] at hs
    simp only [Option.some.injEq, Prod.mk.injEq] at hs
    have e : finsOf es = [] := by rw [← hs.2]; split <;> rfl
    rw [← hs.1, e, openFlow]
    split
    · exact (Moves.same rfl (fun _ => rfl)).plain
    · exact (setFlow_moves s i _ (by rw [hun i ha.2.1]; rfl)).plain
  | sessionOpen =>
    rw [step] at hs
    simp only [Option.some.injEq, Prod.mk.injEq] at hs
    rw [← hs.1, ← hs.2]
    exact (Moves.same (s := s) (t := { s with isOpen := true }) rfl (fun _ => rfl)).plain
  | bind i fid =>
    rw [step] at hs
    simp only [Option.some.injEq, Prod.mk.injEq] at hs
    rw [← hs.1, ← hs.2, bind]
    split
    · exact (Moves.same rfl (fun _ => rfl)).plain
    · refine (Moves.same (s := s) (t := { s.setFlow i { s.flow i with bound := true, flowId := fid } with sendFlows := s.sendFlows ++ [i] }) rfl (fun j => ?_)).plain
      show ((s.setFlow i _).flow j).queue = _
      by_cases e : j = i
      · subst e; rw [setFlow_same]
      · rw [setFlow_other _ _ e]
  | write i msg now a b rid names =>
    rw [step] at hs
    simp only [Option.some.injEq] at hs
    cases hw : s.write i msg now a b rid names with
    | none => rw [hw, writeRes] at hs; rw [← (Prod.mk.inj hs).1, ← (Prod.mk.inj hs).2]; exact (Moves.same rfl (fun _ => rfl)).plain
    | some u =>
      rw [hw, writeRes] at hs; rw [← (Prod.mk.inj hs).1, ← (Prod.mk.inj hs).2]
      obtain ⟨_, fs, _, e, h1, h2⟩ := write_queue hw
      rw [e]
      have := ha.2.2
      exact (queueFrags_moves i fs now a b rid names ha.1 h1 (by omega)).new rfl
  | close i now rid names =>
    rw [step] at hs
    simp only [Option.some.injEq, Prod.mk.injEq] at hs
    rw [← hs.1, ← hs.2]
    exact (close_moves s i now rid names ha.1).new rfl
  | setOnException i =>
    rw [step] at hs
    simp only [Option.some.injEq, Prod.mk.injEq] at hs
    rw [← hs.1, ← hs.2]
    exact (setFlow_moves s i { s.flow i with onException := true } rfl).plain
  | setPriority i pri =>
    rw [step, setPriority] at hs
    dsimp only at hs
    split at hs
    · cases hs
    · simp only [priRes, Option.some.injEq, Prod.mk.injEq] at hs
      rw [← hs.1, ← hs.2]
      exact (setFlow_moves s i { s.flow i with priority := pri } rfl).plain
  | receipt op =>
    rw [step] at hs
    simp only [Option.some.injEq, Prod.mk.injEq] at hs
    rw [← hs.1, ← hs.2, finsOf_fins]
    exact (receipts_moves s (fun Q => userReceipt_go op ha _ Q)).plain
  | trim i now =>
    rw [step] at hs
    simp only [Option.some.injEq, Prod.mk.injEq] at hs
    rw [← hs.1, ← hs.2, finsOf_fins]
    exact (trim_moves s i now).plain
  | transmit i p pri now gone =>
    rw [step] at hs
    simp only [sentRes, Option.some.injEq, Prod.mk.injEq] at hs
    have e : finsOf es = (s.assembleData i p pri now gone).events := by
      rw [← hs.2, finsOf_append, finsOf_fins]
      split <;> simp [finsOf]
    rw [← hs.1, e]
    have := (assembleData_moves (iss := issuedBy ops) (A := acks (.transmit i p pri now gone)) s i p ha.2 pri now gone).trans (fun k h => h)
      (Moves.same (t := (s.assembleData i p pri now gone).s.afterSend (s.assembleData i p pri now gone).sent) (by rw [afterSend]; split <;> rfl) (fun _ => by rw [afterSend]; split <;> rfl))
    rw [List.append_nil] at this
    exact this.plain
  | ack i b rs =>
    rw [step] at hs
    simp only [Option.some.injEq, Prod.mk.injEq] at hs
    rw [← hs.1, ← hs.2, finsOf_fins]
    refine ((onAck_moves s i b rs).more ?_).plain
    rintro j sn ⟨rfl, x, h1, h2⟩
    exact ⟨b, rs, rfl, x, h1, h2⟩
  | afterAcks c =>
    rw [step] at hs
    simp only [Option.some.injEq, Prod.mk.injEq] at hs
    rw [← hs.1, ← hs.2]
    exact (nakLoop_moves _ _ _).plain
  | exceptionReport i now rid names =>
    rw [step] at hs
    simp only [Option.some.injEq, Prod.mk.injEq] at hs
    rw [← hs.1, ← hs.2, finsOf_append, finsOf_exc, finsOf_fins]
    exact (exceptionReport_moves s i now rid names ha.2.1).new rfl
  | timeout =>
    rw [step] at hs
    simp only [Option.some.injEq, Prod.mk.injEq] at hs
    rw [← hs.1, ← hs.2]
    exact ((loseAll_moves s.outs s).trans (fun k h => h) (Moves.same (t := { s.outs.foldl lose s with outs := [], outSum := 0 }) rfl (fun _ => rfl))).plain
  | lingerAlarm i =>
    rw [step] at hs
    simp only [Option.some.injEq, Prod.mk.injEq] at hs
    rw [← hs.1, ← hs.2]
    exact (gotoClosed_moves s i).plain
  | closeSession now =>
    rw [step] at hs
    simp only [Option.some.injEq, Prod.mk.injEq] at hs
    rw [← hs.1, ← hs.2, finsOf_append, finsOf_exc, finsOf_fins, closeSession]
    dsimp only
    have h0 : Moves (issuedBy ops) (issuedBy ops) (acks (.closeSession now)) s { s with isOpen := false } [] := Moves.same rfl (fun _ => rfl)
    have h1 := h0.trans (fun k h => h) (closeFlows_moves now s.sendFlows { s with isOpen := false } (fun i => (hbk.flow i).ok) rfl)
    have h2 := h1.trans (fun k h => h) (Moves.same (t := { (closeFlows now { s with isOpen := false } s.sendFlows).1 with outs := [], outSum := 0 }) rfl (fun _ => rfl))
    rw [List.append_nil] at h2
    exact h2.plain
  | openingFailed i now =>
    rw [step] at hs
    simp only [Option.some.injEq, Prod.mk.injEq] at hs
    rw [← hs.1, ← hs.2, finsOf_append, finsOf_exc, finsOf_fins]
    have hb : (s.flow i).bound = false := ha.1
    exact (didClose_moves (hbk.flow i).ok (fun h => by rw [hb] at h; cases h) now 0 id).plain

theorem close_other (s : SS) (i : Nat) (now : Int) (rid : Nat) (names : Nat → Nat) {j : Nat} (hj : j ≠ i) : (s.close i now rid names).flow j = s.flow j := by
  have hfin : ∀ s : SS, (s.addFin i now rid names).flow j = s.flow j := by
    intro s
    rcases addFin_cases s i now rid names with ⟨_, e⟩ | ⟨_, e⟩ <;> rw [e]
    exact queueFrags_other _ _ _ _ _ _ _ _ hj
  have hcs : ∀ s : SS, (s.closeState i now rid names).flow j = s.flow j := by
    intro s
    rw [closeState]
    split
    · split
      · dsimp only; rw [setFlow_other _ _ hj, hfin]
      · rw [gotoClosed_other _ _ hj]
    · rfl
  rw [close]
  dsimp only
  split
  · rw [gotoClosed_other _ _ hj, hcs, setFlow_other _ _ hj]
  · rw [hcs, setFlow_other _ _ hj]

/-! ## executions -/

/-- The fragment with number `sn` of flow `i`, written with receipt `r`, was acknowledged afterwards. -/
def Acked (ops : List Op) (i r sn : Nat) : Prop :=
  ∃ ops1 b rs ops2, ops = ops1 ++ .ack i b rs :: ops2 ∧ (∃ msg now x y names, Op.write i msg now x y r names ∈ ops1) ∧ ∃ x ∈ rs, x.1 ≤ sn ∧ sn ≤ x.2

theorem Acked.later {ops : List Op} {i r sn : Nat} (h : Acked ops i r sn) (op : Op) : Acked (ops ++ [op]) i r sn := by
  obtain ⟨ops1, b, rs, ops2, e, h1, h2⟩ := h
  exact ⟨ops1, b, rs, ops2 ++ [op], by rw [e]; simp, h1, h2⟩

structure Fate (ops : List Op) (s : SS) (evs : List Ev) : Prop where
  rb : RB (issuedBy ops) s (finsOf evs)
  unopened : ∀ i, (∀ m a p, Op.openFlow i m a p ∉ ops) → (s.flow i).queue = []
  wrote : ∀ i r a n M, Ev.accepted i r a n M ∈ evs → (∃ msg now x y names, Op.write i msg now x y r names ∈ ops) ∧ (∃ m a p, Op.openFlow i m a p ∈ ops) ∧ 1 ≤ a ∧ 0 < n ∧ a + n ≤ (s.flow i).nextSn
  frag : ∀ i r a n M, Ev.accepted i r a n M ∈ evs → ∀ sn, a ≤ sn → sn < a + n →
    (∃ f ∈ (s.flow i).queue, f.sn = sn ∧ f.receipt = r) ∨ Acked ops i r sn ∨ (s.receipts.r r).abandoned = true
  forward : ∀ i fsn ps P, Ev.sent i fsn ps P ∈ evs → fsn < (s.flow i).nextSn ∧ (∃ m a p, Op.openFlow i m a p ∈ ops) ∧ ∀ r a n M, Ev.accepted i r a n M ∈ evs → ∀ sn, a ≤ sn → sn < a + n → sn ≤ fsn →
    Acked ops i r sn ∨ (s.receipts.r r).abandoned = true

theorem number_mem (rid : Nat) (names : Nat → Nat) (fs : List (Fra × Bytes)) : ∀ sn k, sn ≤ k → k < sn + fs.length → ∃ f ∈ number rid names sn fs, f.sn = k ∧ f.receipt = rid := by
  induction fs with
  | nil => intro sn k h1 h2; simp at h2; omega
  | cons f fs ih =>
    intro sn k h1 h2
    obtain ⟨fra, d⟩ := f
    rw [number]
    by_cases e : k = sn
    · subst e; exact ⟨_, List.mem_cons_self, rfl, rfl⟩
    · obtain ⟨g, hg, h⟩ := ih (sn + 1) k (by omega) (by simp at h2; omega)
      exact ⟨g, List.mem_cons_of_mem _ hg, h⟩

/-- which step accepts a message -/
theorem accepted_step {s t : SS} {op : Op} {es : List Ev} (hs : step s op = some (t, es)) {i r a n : Nat} {M : Bytes} (he : Ev.accepted i r a n M ∈ es) :
    ∃ msg now x y names fs, op = .write i msg now x y r names ∧ (s.flow i).baseOpen = true ∧ t = s.queueFrags i fs now x y r names ∧ a = (s.flow i).nextSn ∧ n = fs.length ∧
      0 < n ∧ cut (maxFrag (s.flow i).options) (msg.length + 1) .whole msg = some fs ∧ es = [.accepted i r a n M] ∧ msg = M := by
  have nofin : ∀ l, Ev.accepted i r a n M ∉ fins l := by intro l h; simp [fins] at h
  have noexc : ∀ l : List Nat, Ev.accepted i r a n M ∉ l.map Ev.exception := by intro l h; simp at h
  cases op with
  | write j msg now x y rid names =>
    rw [step] at hs
    simp only [Option.some.injEq] at hs
    cases hw : s.write j msg now x y rid names with
    | none => rw [hw, writeRes] at hs; rw [← (Prod.mk.inj hs).2] at he; simp at he
    | some u =>
      rw [hw, writeRes] at hs
      obtain ⟨e1, e2⟩ := Prod.mk.inj hs
      obtain ⟨ho, fs, hc, e, h1, h2⟩ := write_queue hw
      rw [← e2] at he
      simp only [List.mem_singleton, Ev.accepted.injEq] at he
      obtain ⟨rfl, rfl, rfl, he, hM⟩ := he
      have hn : n = fs.length := by
        rw [he, e, queueFrags_flow]; simp
      refine ⟨msg, now, x, y, names, fs, rfl, ho, by rw [← e1]; exact e, rfl, hn, by omega, hc, ?_, hM.symm⟩
      rw [← e2, he, hM]
  | openFlow j m a p =>
    rw [step] at hs
    simp only [Option.some.injEq, Prod.mk.injEq] at hs
    rw [← hs.2] at he; split at he <;> simp at he
  | sessionOpen => rw [step] at hs; simp only [Option.some.injEq, Prod.mk.injEq] at hs; rw [← hs.2] at he; cases he
  | bind => rw [step] at hs; simp only [Option.some.injEq, Prod.mk.injEq] at hs; rw [← hs.2] at he; cases he
  | close => rw [step] at hs; simp only [Option.some.injEq, Prod.mk.injEq] at hs; rw [← hs.2] at he; cases he
  | setOnException => rw [step] at hs; simp only [Option.some.injEq, Prod.mk.injEq] at hs; rw [← hs.2] at he; cases he
  | setPriority =>
    rw [step, setPriority] at hs
    dsimp only at hs
    split at hs
    · cases hs
    · simp only [priRes, Option.some.injEq, Prod.mk.injEq] at hs; rw [← hs.2] at he; cases he
  | receipt => rw [step] at hs; simp only [Option.some.injEq, Prod.mk.injEq] at hs; rw [← hs.2] at he; exact absurd he (nofin _)
  | trim => rw [step] at hs; simp only [Option.some.injEq, Prod.mk.injEq] at hs; rw [← hs.2] at he; exact absurd he (nofin _)
  | transmit =>
    rw [step] at hs
    simp only [sentRes, Option.some.injEq, Prod.mk.injEq] at hs
    rw [← hs.2] at he
    rcases List.mem_append.mp he with he | he
    · exact absurd he (nofin _)
    · split at he <;> simp at he
  | ack => rw [step] at hs; simp only [Option.some.injEq, Prod.mk.injEq] at hs; rw [← hs.2] at he; exact absurd he (nofin _)
  | afterAcks => rw [step] at hs; simp only [Option.some.injEq, Prod.mk.injEq] at hs; rw [← hs.2] at he; cases he
  | exceptionReport =>
    rw [step] at hs; simp only [Option.some.injEq, Prod.mk.injEq] at hs; rw [← hs.2] at he
    rcases List.mem_append.mp he with he | he
    · exact absurd he (noexc _)
    · exact absurd he (nofin _)
  | timeout => rw [step] at hs; simp only [Option.some.injEq, Prod.mk.injEq] at hs; rw [← hs.2] at he; cases he
  | lingerAlarm => rw [step] at hs; simp only [Option.some.injEq, Prod.mk.injEq] at hs; rw [← hs.2] at he; cases he
  | closeSession =>
    rw [step] at hs; simp only [Option.some.injEq, Prod.mk.injEq] at hs; rw [← hs.2] at he
    rcases List.mem_append.mp he with he | he
    · exact absurd he (noexc _)
    · exact absurd he (nofin _)
  | openingFailed =>
    rw [step] at hs; simp only [Option.some.injEq, Prod.mk.injEq] at hs; rw [← hs.2] at he
    rcases List.mem_append.mp he with he | he
    · exact absurd he (noexc _)
    · exact absurd he (nofin _)

/-- which step sends -/
theorem sent_step {s t : SS} {op : Op} {es : List Ev} (hs : step s op = some (t, es)) {i fsn : Nat} {ps : List Put} {P : PA} (he : Ev.sent i fsn ps P ∈ es) :
    ∃ p pri now gone, op = .transmit i p pri now gone ∧ (s.assembleData i p pri now gone).sent = true ∧ t = (s.assembleData i p pri now gone).s.afterSend true ∧
      fsn = (s.assembleData i p pri now gone).fsn ∧ ps = (s.assembleData i p pri now gone).chunks ∧ P = (s.assembleData i p pri now gone).packet := by
  have nofin : ∀ l, Ev.sent i fsn ps P ∉ fins l := by intro l h; simp [fins] at h
  have noexc : ∀ l : List Nat, Ev.sent i fsn ps P ∉ l.map Ev.exception := by intro l h; simp at h
  cases op with
  | write j msg now x y rid names =>
    rw [step] at hs
    simp only [Option.some.injEq] at hs
    cases hw : s.write j msg now x y rid names with
    | none => rw [hw, writeRes] at hs; rw [← (Prod.mk.inj hs).2] at he; simp at he
    | some u => rw [hw, writeRes] at hs; rw [← (Prod.mk.inj hs).2] at he; simp at he
  | openFlow j m a p =>
    rw [step] at hs
    simp only [Option.some.injEq, Prod.mk.injEq] at hs
    rw [← hs.2] at he; split at he <;> simp at he
  | sessionOpen => rw [step] at hs; simp only [Option.some.injEq, Prod.mk.injEq] at hs; rw [← hs.2] at he; cases he
  | bind => rw [step] at hs; simp only [Option.some.injEq, Prod.mk.injEq] at hs; rw [← hs.2] at he; cases he
  | close => rw [step] at hs; simp only [Option.some.injEq, Prod.mk.injEq] at hs; rw [← hs.2] at he; cases he
  | setOnException => rw [step] at hs; simp only [Option.some.injEq, Prod.mk.injEq] at hs; rw [← hs.2] at he; cases he
  | setPriority =>
    rw [step, setPriority] at hs
    dsimp only at hs
    split at hs
    · cases hs
    · simp only [priRes, Option.some.injEq, Prod.mk.injEq] at hs; rw [← hs.2] at he; cases he
  | receipt => rw [step] at hs; simp only [Option.some.injEq, Prod.mk.injEq] at hs; rw [← hs.2] at he; exact absurd he (nofin _)
  | trim => rw [step] at hs; simp only [Option.some.injEq, Prod.mk.injEq] at hs; rw [← hs.2] at he; exact absurd he (nofin _)
  | transmit j p pri now gone =>
    rw [step] at hs
    simp only [sentRes, Option.some.injEq, Prod.mk.injEq] at hs
    rw [← hs.2] at he
    rcases List.mem_append.mp he with he | he
    · exact absurd he (nofin _)
    · split at he
      · rename_i hsent
        simp only [List.mem_singleton, Ev.sent.injEq] at he
        obtain ⟨rfl, e2, e3, e4⟩ := he
        exact ⟨p, pri, now, gone, rfl, hsent, by rw [← hs.1, hsent], e2, e3, e4⟩
      · cases he
  | ack => rw [step] at hs; simp only [Option.some.injEq, Prod.mk.injEq] at hs; rw [← hs.2] at he; exact absurd he (nofin _)
  | afterAcks => rw [step] at hs; simp only [Option.some.injEq, Prod.mk.injEq] at hs; rw [← hs.2] at he; cases he
  | exceptionReport =>
    rw [step] at hs; simp only [Option.some.injEq, Prod.mk.injEq] at hs; rw [← hs.2] at he
    rcases List.mem_append.mp he with he | he
    · exact absurd he (noexc _)
    · exact absurd he (nofin _)
  | timeout => rw [step] at hs; simp only [Option.some.injEq, Prod.mk.injEq] at hs; rw [← hs.2] at he; cases he
  | lingerAlarm => rw [step] at hs; simp only [Option.some.injEq, Prod.mk.injEq] at hs; rw [← hs.2] at he; cases he
  | closeSession =>
    rw [step] at hs; simp only [Option.some.injEq, Prod.mk.injEq] at hs; rw [← hs.2] at he
    rcases List.mem_append.mp he with he | he
    · exact absurd he (noexc _)
    · exact absurd he (nofin _)
  | openingFailed =>
    rw [step] at hs; simp only [Option.some.injEq, Prod.mk.injEq] at hs; rw [← hs.2] at he
    rcases List.mem_append.mp he with he | he
    · exact absurd he (noexc _)
    · exact absurd he (nofin _)

theorem init_fate : Fate [] init [] := by
  refine ⟨⟨⟨[], .nil, rfl, ?_⟩, ?_, ?_, ?_⟩, ?_, ?_, ?_, ?_⟩
  · rintro k ⟨o, a, b, n, h⟩; cases h
  · intro i k; exact Nat.zero_le _
  · intro i j f g hf; cases hf
  · intro i f hf; cases hf
  · intro i _; rfl
  · intro i r a n M h; cases h
  · intro i r a n M h; cases h
  · intro i fsn ps P h; cases h

/-- numbers only grow, unless the flow is new -/
theorem step_next {ops : List Op} {s t : SS} {op : Op} {es : List Ev} (ha : Allowed ops s op) (hs : step s op = some (t, es)) (i : Nat)
    (ho : ∃ m a p, Op.openFlow i m a p ∈ ops) : (s.flow i).nextSn ≤ (t.flow i).nextSn := by
  rcases step_evolves hs i with e | ⟨m, a, p, rfl, _, _⟩ | ⟨fid, _, _, e⟩ | ⟨_, e⟩
  · exact e.next
  · obtain ⟨m, a, p, h⟩ := ho; exact absurd h (ha.2.1 m a p)
  · rw [e]; exact Nat.le_refl _
  · rw [e]; exact Nat.le_refl _

theorem exec_fate {ops : List Op} {s : SS} {evs : List Ev} (h : Exec ops s evs) : Fate ops s evs := by
  induction h with
  | nil => exact init_fate
  | @snoc ops s evs op t es he ha hs ih =>
    have hbk := exec_books he
    have hbt := exec_books (he.snoc ha hs)
    have hm := step_moves hbk ih.unopened ha hs (finsOf evs) ih.rb
    obtain ⟨m1, m2⟩ := hm
    have hopen : ∀ i, (∃ m a p, Op.openFlow i m a p ∈ ops) → ∃ m a p, Op.openFlow i m a p ∈ ops ++ [op] := by
      rintro i ⟨m, a, p, h⟩; exact ⟨m, a, p, by simp [h]⟩
    have hiss : ∀ i r a n M, Ev.accepted i r a n M ∈ evs → issuedBy ops r := by
      intro i r a n M hacc
      obtain ⟨msg, now, x, y, names, h⟩ := (ih.wrote i r a n M hacc).1
      exact List.mem_map.mpr ⟨_, h, rfl⟩
    have wrote : ∀ i r a n M, Ev.accepted i r a n M ∈ evs ++ es → (∃ msg now x y names, Op.write i msg now x y r names ∈ ops ++ [op]) ∧
        (∃ m a p, Op.openFlow i m a p ∈ ops ++ [op]) ∧ 1 ≤ a ∧ 0 < n ∧ a + n ≤ (t.flow i).nextSn := by
      intro i r a n M hacc
      rcases List.mem_append.mp hacc with hacc | hacc
      · obtain ⟨⟨msg, now, x, y, names, h1⟩, h2, h3, h4, h5⟩ := ih.wrote i r a n M hacc
        exact ⟨⟨msg, now, x, y, names, by simp [h1]⟩, hopen i h2, h3, h4, Nat.le_trans h5 (step_next ha hs i h2)⟩
      · obtain ⟨msg, now, x, y, names, fs, rfl, ho, rfl, ha1, hn, h0, _, _, _⟩ := accepted_step hs hacc
        have hst : (s.flow i).state = .opened := (hbk.flow i).ok.opened ho
        obtain ⟨m, a', p, h1, _⟩ := opened_was_opened he (j := i) (by rw [hst]; simp)
        refine ⟨⟨msg, now, x, y, names, by simp⟩, ⟨m, a', p, by simp [h1]⟩, by rw [ha1]; exact (hbk.flow i).ok.next, h0, ?_⟩
        rw [queueFrags_flow, ha1, hn]; exact Nat.le_refl _
    have frag : ∀ i r a n M, Ev.accepted i r a n M ∈ evs ++ es → ∀ sn, a ≤ sn → sn < a + n →
        (∃ f ∈ (t.flow i).queue, f.sn = sn ∧ f.receipt = r) ∨ Acked (ops ++ [op]) i r sn ∨ (t.receipts.r r).abandoned = true := by
      intro i r a n M hacc sn h1 h2
      rcases List.mem_append.mp hacc with hacc | hacc
      · rcases ih.frag i r a n M hacc sn h1 h2 with ⟨f, hf, e1, e2⟩ | h | h
        · rcases m2.kept i f hf with ⟨f', hf', k1, k2⟩ | ⟨b, rs, k1, k2⟩ | k
          · exact Or.inl ⟨f', hf', k1.trans e1, k2.trans e2⟩
          · right; left
            rw [e1] at k2
            exact ⟨ops, b, rs, [], by rw [k1], (ih.wrote i r a n M hacc).1, k2⟩
          · right; right; rw [← e2]; exact k
        · exact Or.inr (Or.inl (h.later op))
        · exact Or.inr (Or.inr (m2.mono r (hiss i r a n M hacc) h))
      · obtain ⟨msg, now, x, y, names, fs, rfl, ho, rfl, ha1, hn, h0, _, _, _⟩ := accepted_step hs hacc
        left
        rw [queueFrags_flow]
        obtain ⟨f, hf, e1, e2⟩ := number_mem r names fs a sn h1 (by omega)
        rw [ha1] at hf
        exact ⟨f, List.mem_append_right _ hf, e1, e2⟩
    refine ⟨by rw [finsOf_append]; exact m1, ?_, wrote, frag, ?_⟩
    · intro i hno
      have hno' : ∀ m a p, Op.openFlow i m a p ∉ ops := fun m a p h => hno m a p (by simp [h])
      have hq := ih.unopened i hno'
      have hc : (s.flow i).state = .closed := by
        refine Classical.byContradiction fun hc => ?_
        obtain ⟨m, a, p, h, _⟩ := opened_was_opened he hc
        exact hno' m a p h
      have hub := (hbk.flow i).ok.closed hc
      have hold : (∀ f ∈ (t.flow i).queue, issuedBy ops f.receipt) → (t.flow i).queue = [] := by
        intro hall
        rw [List.eq_nil_iff_forall_not_mem]
        intro f hf
        obtain ⟨f0, hf0, _⟩ := m2.sub i f hf (hall f hf)
        rw [hq] at hf0; cases hf0
      by_cases hr : op.rid = none
      · apply hold
        intro f hf
        have := m1.iss i f hf
        rw [issuedBy_snoc, hr] at this
        rcases this with h | h
        · exact h
        · cases h
      · have hcase : (∃ j msg now x y rid names, op = .write j msg now x y rid names) ∨ (∃ j now rid names, op = .close j now rid names) ∨
            (∃ j now rid names, op = .exceptionReport j now rid names) := by
          cases op <;> simp [Op.rid] at hr ⊢
        rcases hcase with ⟨j, msg, now, x, y, rid, names, rfl⟩ | ⟨j, now, rid, names, rfl⟩ | ⟨j, now, rid, names, rfl⟩
        · rw [step] at hs
          simp only [Option.some.injEq] at hs
          cases hw : s.write j msg now x y rid names with
          | none => rw [hw, writeRes] at hs; rw [← (Prod.mk.inj hs).1]; exact hq
          | some u =>
            rw [hw, writeRes] at hs
            rw [← (Prod.mk.inj hs).1]
            obtain ⟨ho, fs, _, e, _⟩ := write_queue hw
            have hji : i ≠ j := by
              rintro rfl
              rw [(hbk.flow i).ok.opened ho] at hc; cases hc
            rw [e, queueFrags_other _ _ _ _ _ _ _ _ hji]; exact hq
        · rw [step] at hs
          simp only [Option.some.injEq, Prod.mk.injEq] at hs
          rw [← hs.1]
          by_cases e : i = j
          · subst e
            rw [(close_flows (now := now) (rid := rid) (names := names) (hbk.flow i).ok (fun h => by rw [hub] at h; cases h)).2.2.2.2.1]
            exact hq
          · rw [close_other _ _ _ _ _ e]; exact hq
        · rw [step] at hs
          simp only [Option.some.injEq, Prod.mk.injEq] at hs
          rw [← hs.1]
          have hji : i ≠ j := by
            rintro rfl
            have h1 : (s.flow i).bound = true := ha.1
            rw [hub] at h1; cases h1
          rw [onExceptionReport]
          show ((SS.close _ j now rid names).flow i).queue = []
          rw [close_other _ _ _ _ _ hji, setFlow_other _ _ hji]; exact hq
    · intro i fsn ps P hsent
      rcases List.mem_append.mp hsent with hsent | hsent
      · obtain ⟨f1, f2, f3⟩ := ih.forward i fsn ps P hsent
        refine ⟨Nat.lt_of_lt_of_le f1 (step_next ha hs i f2), hopen i f2, ?_⟩
        intro r a n M hacc sn h1 h2 h3
        rcases List.mem_append.mp hacc with hacc | hacc
        · rcases f3 r a n M hacc sn h1 h2 h3 with h | h
          · exact Or.inl (h.later op)
          · exact Or.inr (m2.mono r (hiss i r a n M hacc) h)
        · obtain ⟨msg, now, x, y, names, fs, rfl, ho, rfl, ha1, hn, h0, _, _, _⟩ := accepted_step hs hacc
          omega
      · obtain ⟨p, pri, now, gone, rfl, e1, e2, e3, e4, e5⟩ := sent_step hs hsent
        have hst : (s.flow i).state ≠ .closed := by
          intro hc
          have := (hbk.flow i).ok.closed hc
          rw [ha.1] at this; cases this
        obtain ⟨m, a', p', ho, _⟩ := opened_was_opened he hst
        obtain ⟨c, q0, q1, q1', fs, ps', P', hsa⟩ := assembleData_spec (hbk.flow i).ok.sorted ha.2 pri now gone e1
        generalize s.assembleData i p pri now gone = A at *
        have htq : (t.flow i).queue = (A.s.flow i).queue := by rw [e2, afterSend]; rfl
        have htr : t.receipts = A.s.receipts := by rw [e2, afterSend]; rfl
        have htn : (t.flow i).nextSn = (A.s.flow i).nextSn := by rw [e2, afterSend]; rfl
        have hal : Alikes (q0 ++ q1) (q0 ++ q1') := (Alikes.refl q0).append hsa.puts.alikes
        have hfw : ∀ f ∈ (t.flow i).queue, fsn ≤ f.sn ∧ (fsn = f.sn → 1 ≤ f.sn → (t.receipts.r f.receipt).abandoned = true) := by
          intro f hf
          rw [htq, hsa.queue] at hf
          obtain ⟨g, hg, hag⟩ := hal.mem hf
          have := hsa.forward g hg
          rw [e3, htr, hag.sn, hag.receipt]
          exact this
        refine ⟨?_, ⟨m, a', p', by simp [ho]⟩, ?_⟩
        · have hne : q0 ++ q1' ≠ [] := by
            intro e
            have h := (List.append_eq_nil_iff.mp e).2
            have hps := hsa.ne
            have hp2 := hsa.puts
            rw [h] at hp2
            cases hp2
            exact hps rfl
          cases hq : (t.flow i).queue with
          | nil => rw [htq, hsa.queue] at hq; exact absurd hq hne
          | cons f l =>
            have h1 := (hfw f (by rw [hq]; simp)).1
            have h2 := ((hbt.flow i).ok.range f (by rw [hq]; simp)).2
            omega
        · intro r a n M hacc sn h1 h2 h3
          rcases frag i r a n M hacc sn h1 h2 with ⟨f, hf, k1, k2⟩ | h | h
          · right
            obtain ⟨g1, g2⟩ := hfw f hf
            have := (wrote i r a n M hacc).2.2.1
            rw [← k2]
            exact g2 (by omega) (by omega)
          · exact Or.inl h
          · exact Or.inr h

end SS
end Rtmfp
