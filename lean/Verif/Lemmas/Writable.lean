import Verif.Model.Writable
import Verif.Lemmas.SendFate

/-! # Lemmas about the writable notification -/

namespace Rtmfp
namespace Writable
open SS (setFlow_same setFlow_other)

/-! ## what doesn't make room in the queue -/

theorem buffered_append (a b : List SFrag) : buffered (a ++ b) = buffered a + buffered b := by simp [buffered]

theorem buffered_map (q : List SFrag) (g : SFrag → SFrag) (h : ∀ f, (g f).data = f.data) : buffered (q.map g) = buffered q := by
  induction q with
  | nil => rfl
  | cons a q ih => simp only [buffered, List.map_cons, List.sum_cons, queueSize, h] at ih ⊢; omega

theorem buffered_mod (q : List SFrag) (sn : Nat) (g : SFrag → SFrag) (h : ∀ f, (g f).data = f.data) : buffered (SS.modFrag q sn g) = buffered q := by
  rw [SS.modFrag]
  refine buffered_map q _ ?_
  intro f
  split
  · exact h f
  · rfl

theorem fill_buffered (c : SS.Ctx) (q : List SFrag) : ∀ s, buffered (SS.fill c s q).2 = buffered q := by
  induction q with
  | nil => intro s; rfl
  | cons f q ih =>
    intro s
    rw [SS.fill]
    split
    · rfl
    split
    · simp only [buffered, List.map_cons, List.sum_cons] at ih ⊢
      rw [ih]
    dsimp only
    split
    · rfl
    · simp only [buffered, List.map_cons, List.sum_cons, queueSize, SS.sentFrag] at ih ⊢
      rw [ih]

theorem untrimmed {s : SS} {i : Nat} {now : Int} (h : anyTrimmed s i now = false) : (SS.trimLoop now s.receipts (s.flow i).queue).2.1 = (s.flow i).queue := by
  obtain ⟨k, h1, _⟩ := SS.trimLoop_abandoned now (s.flow i).queue s.receipts
  simp only [anyTrimmed, decide_eq_false_iff_not, Nat.not_lt] at h
  rw [h1] at h ⊢
  rw [List.length_drop] at h
  by_cases e : k = 0
  · rw [e]; rfl
  · have : (s.flow i).queue = [] := by
      apply List.eq_nil_of_length_eq_zero
      omega
    rw [this]; simp

theorem lose_buffered (s : SS) (o : OutRef) (j : Nat) : buffered ((SS.lose s o).flow j).queue = buffered (s.flow j).queue := by
  rw [SS.lose]
  by_cases e : j = o.flow
  · subst e
    simp only [setFlow_same]
    exact buffered_mod _ _ _ (fun _ => rfl)
  · rw [setFlow_other _ _ e]

theorem nakFrag_buffered (s : SS) (o : OutRef) (j : Nat) : buffered ((SS.nakFrag s o).flow j).queue = buffered (s.flow j).queue := by
  rw [SS.nakFrag]
  by_cases e : j = o.flow
  · subst e
    simp only [setFlow_same]
    exact buffered_mod _ _ _ (fun _ => rfl)
  · rw [setFlow_other _ _ e]

theorem loseAll_buffered (l : List OutRef) (j : Nat) : ∀ s : SS, buffered ((l.foldl SS.lose s).flow j).queue = buffered (s.flow j).queue := by
  induction l with
  | nil => intro s; rfl
  | cons o l ih => intro s; rw [List.foldl_cons, ih, lose_buffered]

theorem nakLoop_buffered (l : List OutRef) (j : Nat) : ∀ (s : SS) (k : SS.Nak), buffered ((SS.nakLoop s k l).1.flow j).queue = buffered (s.flow j).queue := by
  induction l with
  | nil => intro s k; rfl
  | cons o l ih =>
    intro s k
    rw [SS.nakLoop]
    split
    · rfl
    dsimp only
    split
    · rw [ih, nakFrag_buffered]
    · split
      · rw [ih]
        show buffered ((SS.lose (SS.nakFrag s o) o).flow j).queue = _
        rw [lose_buffered, nakFrag_buffered]
      · rw [ih, nakFrag_buffered]

/-- the two members looked at here -/
def Stays (f g : SF) : Prop := g.bound = f.bound ∧ g.baseOpen = f.baseOpen

theorem Stays.trans {f g h : SF} (a : Stays f g) (b : Stays g h) : Stays f h := ⟨b.1.trans a.1, b.2.trans a.2⟩

theorem lose_stays (s : SS) (o : OutRef) (j : Nat) : Stays (s.flow j) ((SS.lose s o).flow j) := by
  rw [SS.lose]
  by_cases e : j = o.flow
  · subst e
    simp only [setFlow_same]
    exact ⟨rfl, rfl⟩
  · rw [setFlow_other _ _ e]; exact ⟨rfl, rfl⟩

theorem nakFrag_stays (s : SS) (o : OutRef) (j : Nat) : Stays (s.flow j) ((SS.nakFrag s o).flow j) := by
  rw [SS.nakFrag]
  by_cases e : j = o.flow
  · subst e
    simp only [setFlow_same]
    exact ⟨rfl, rfl⟩
  · rw [setFlow_other _ _ e]; exact ⟨rfl, rfl⟩

theorem loseAll_stays (l : List OutRef) (j : Nat) : ∀ s : SS, Stays (s.flow j) ((l.foldl SS.lose s).flow j) := by
  induction l with
  | nil => intro s; exact ⟨rfl, rfl⟩
  | cons o l ih => intro s; rw [List.foldl_cons]; exact (lose_stays s o j).trans (ih _)

theorem nakLoop_stays (l : List OutRef) (j : Nat) : ∀ (s : SS) (k : SS.Nak), Stays (s.flow j) ((SS.nakLoop s k l).1.flow j) := by
  induction l with
  | nil => intro s k; exact ⟨rfl, rfl⟩
  | cons o l ih =>
    intro s k
    rw [SS.nakLoop]
    split
    · exact ⟨rfl, rfl⟩
    dsimp only
    split
    · exact (nakFrag_stays s o j).trans (ih _ _)
    · split
      · refine Stays.trans ?_ (ih _ _)
        exact (nakFrag_stays s o j).trans (lose_stays _ o j)
      · exact (nakFrag_stays s o j).trans (ih _ _)

/-- a closed flow is not open -/
theorem close_shut (s : SS) (i : Nat) (now : Int) (rid : Nat) (names : Nat → Nat) : ((s.close i now rid names).flow i).baseOpen = false := by
  have h1 : SS.EvolvesAll (s.setFlow i { s.flow i with onException := false, baseOpen := false }) (s.close i now rid names) := by
    rw [SS.close]
    dsimp only
    split
    · exact (SS.closeState_evolves _ i now rid names).trans (SS.gotoClosed_evolves _ _)
    · exact SS.closeState_evolves _ i now rid names
  have h2 := (h1 i).base
  rw [setFlow_same] at h2
  cases h : ((s.close i now rid names).flow i).baseOpen
  · rfl
  · exact absurd (h2 h) (by simp)

/-- An operation of which a flow isn't notified doesn't make it writable. -/
theorem step_room {ops : List SS.Op} {s t : SS} {op : SS.Op} {es : List SS.Ev} (hbk : SS.Books s) (htb : SS.Books t) (ha : SS.Allowed ops s op) (hs : s.step op = some (t, es)) {j : Nat}
    (hn : notifies s op ≠ some j) (hb : (t.flow j).bound = true) (ho : (t.flow j).baseOpen = true) : buffered (s.flow j).queue ≤ buffered (t.flow j).queue := by
  cases op with
  | openFlow i m a p =>
    rw [SS.step] at hs
    simp only [Option.some.injEq, Prod.mk.injEq] at hs
    rw [← hs.1, SS.openFlow] at hb ⊢
    split at hb
    · rename_i h; rw [if_pos h]; exact Nat.le_refl _
    · rename_i h
      rw [if_neg h]
      by_cases e : j = i
      · subst e; simp [SF.init] at hb
      · rw [setFlow_other _ _ e]; exact Nat.le_refl _
  | sessionOpen =>
    rw [SS.step] at hs
    simp only [Option.some.injEq, Prod.mk.injEq] at hs
    rw [← hs.1]; exact Nat.le_refl _
  | bind i fid =>
    rw [SS.step] at hs
    simp only [Option.some.injEq, Prod.mk.injEq] at hs
    rw [← hs.1, SS.bind]
    split
    · exact Nat.le_refl _
    · by_cases e : j = i
      · subst e; simp
      · dsimp only; rw [setFlow_other _ _ e]; exact Nat.le_refl _
  | write i msg now a b rid names =>
    rw [SS.step] at hs
    simp only [Option.some.injEq] at hs
    cases hw : s.write i msg now a b rid names with
    | none => rw [hw, SS.writeRes] at hs; rw [← (Prod.mk.inj hs).1]; exact Nat.le_refl _
    | some u =>
      rw [hw, SS.writeRes] at hs; rw [← (Prod.mk.inj hs).1]
      obtain ⟨_, fs, _, e, _⟩ := SS.write_queue hw
      rw [e]
      by_cases e : j = i
      · subst e
        rw [SS.queueFrags_flow]
        dsimp only
        rw [buffered_append]; omega
      · rw [SS.queueFrags_other _ _ _ _ _ _ _ _ e]; exact Nat.le_refl _
  | close i now rid names =>
    rw [SS.step] at hs
    simp only [Option.some.injEq, Prod.mk.injEq] at hs
    rw [← hs.1] at ho ⊢
    by_cases e : j = i
    · subst e
      rw [close_shut] at ho; cases ho
    · rw [SS.close_other _ _ _ _ _ e]; exact Nat.le_refl _
  | setOnException i =>
    rw [SS.step] at hs
    simp only [Option.some.injEq, Prod.mk.injEq] at hs
    rw [← hs.1]
    by_cases e : j = i
    · subst e; simp
    · rw [setFlow_other _ _ e]; exact Nat.le_refl _
  | setPriority i pri =>
    rw [SS.step, SS.setPriority] at hs
    dsimp only at hs
    split at hs
    · cases hs
    · simp only [SS.priRes, Option.some.injEq, Prod.mk.injEq] at hs
      rw [← hs.1]
      by_cases e : j = i
      · subst e; simp
      · rw [setFlow_other _ _ e]; exact Nat.le_refl _
  | receipt op =>
    rw [SS.step] at hs
    simp only [Option.some.injEq, Prod.mk.injEq] at hs
    rw [← hs.1]; exact Nat.le_refl _
  | trim i now =>
    rw [SS.step] at hs
    simp only [Option.some.injEq, Prod.mk.injEq] at hs
    rw [← hs.1, SS.trim]
    dsimp only
    by_cases e : j = i
    · subst e
      rw [notifies] at hn
      split at hn
      · exact absurd rfl hn
      · rename_i h
        rw [setFlow_same]
        dsimp only
        rw [untrimmed (by simpa using h)]; exact Nat.le_refl _
    · rw [setFlow_other _ _ e]; exact Nat.le_refl _
  | transmit i p pri now gone =>
    rw [SS.step] at hs
    simp only [SS.sentRes, Option.some.injEq, Prod.mk.injEq] at hs
    rw [← hs.1]
    have key : ∀ u : SS, ∀ b, ((u.afterSend b).flow j) = u.flow j := by
      intro u b; rw [SS.afterSend]; split <;> rfl
    rw [key, SS.assembleData]
    rw [notifies] at hn
    split
    · exact Nat.le_refl _
    rename_i h1
    split
    · exact Nat.le_refl _
    rename_i h2
    have h1 : pri = (s.flow i).priority := by simpa using h1
    have h2 : SS.isMaybeReady (s.flow i) = true := by simpa using h2
    dsimp only
    by_cases e : j = i
    · subst e
      rw [setFlow_same]
      dsimp only
      have h3 : anyTrimmed s j now = false := by
        cases h : anyTrimmed s j now
        · rfl
        · rw [if_pos ⟨h1, h2, h⟩] at hn; exact absurd rfl hn
      rw [buffered_append, fill_buffered, ← buffered_append, SS.startAt_append]
      have h4 : (SS.dropOptions ((s.trim j now).1.flow j) gone).queue = (s.flow j).queue := by
        have : ∀ f, (SS.dropOptions f gone).queue = f.queue := by intro f; rw [SS.dropOptions]; split <;> rfl
        rw [this, SS.trim]
        dsimp only
        rw [setFlow_same]
        exact untrimmed h3
      rw [h4]; exact Nat.le_refl _
    · rw [setFlow_other _ _ e, SS.trim]
      dsimp only
      rw [setFlow_other _ _ e]; exact Nat.le_refl _
  | ack i b rs =>
    rw [SS.step] at hs
    simp only [Option.some.injEq, Prod.mk.injEq] at hs
    rw [notifies] at hn
    by_cases e : j = i
    · subst e
      split at hn
      · rename_i h
        rw [← hs.1, SS.onAck]
        dsimp only
        rw [if_pos h]; exact Nat.le_refl _
      · split at hn
        · rename_i h
          rw [hs.1] at h
          have := (htb.flow j).ok.opened ho
          rw [this] at h; cases h
        · exact absurd rfl hn
    · rw [← hs.1, SS.onAck]
      dsimp only
      split
      · exact Nat.le_refl _
      · dsimp only
        rw [setFlow_other _ _ e]; exact Nat.le_refl _
  | afterAcks c =>
    rw [SS.step] at hs
    simp only [Option.some.injEq, Prod.mk.injEq] at hs
    rw [← hs.1, SS.afterAcks, nakLoop_buffered]; exact Nat.le_refl _
  | exceptionReport i now rid names =>
    rw [SS.step] at hs
    simp only [Option.some.injEq, Prod.mk.injEq] at hs
    rw [← hs.1, SS.onExceptionReport] at ho ⊢
    dsimp only at ho ⊢
    by_cases e : j = i
    · subst e
      rw [close_shut] at ho; cases ho
    · rw [SS.close_other _ _ _ _ _ e, setFlow_other _ _ e]; exact Nat.le_refl _
  | timeout =>
    rw [SS.step] at hs
    simp only [Option.some.injEq, Prod.mk.injEq] at hs
    rw [← hs.1, SS.timeout]
    dsimp only
    rw [loseAll_buffered]; exact Nat.le_refl _
  | lingerAlarm i =>
    rw [SS.step] at hs
    simp only [Option.some.injEq, Prod.mk.injEq] at hs
    rw [← hs.1, SS.lingerAlarm]
    by_cases e : j = i
    · subst e
      rw [SS.gotoClosed_flow]
      split <;> exact Nat.le_refl _
    · rw [SS.gotoClosed_other _ _ e]; exact Nat.le_refl _
  | closeSession now =>
    rw [SS.step] at hs
    simp only [Option.some.injEq, Prod.mk.injEq] at hs
    obtain ⟨_, k2, _, _⟩ := SS.closeFlows_ok now s.sendFlows { s with isOpen := false } (fun i => (hbk.flow i).ok) rfl hbk.nodup hbk.bound rfl
    rw [← hs.1, SS.closeSession] at hb
    dsimp only at hb
    rw [k2] at hb; cases hb
  | openingFailed i now =>
    rw [SS.step] at hs
    simp only [Option.some.injEq, Prod.mk.injEq] at hs
    obtain ⟨_, k2, _, _, _, k6, _⟩ := SS.didClose_flows (s := s) (i := i) (now := now) (rid := 0) (names := id) (hbk.flow i).ok (by rw [ha.1]; simp) _ rfl
    rw [← hs.1] at hb ⊢
    by_cases e : j = i
    · subst e; rw [k2] at hb; cases hb
    · rw [k6 j e]; exact Nat.le_refl _

/-! ## executions -/

/-- what happened to the sending side -/
def libOps (ops : List Op) : List SS.Op := ops.filterMap fun | .lib op => some op | _ => none

/-- the flow was opened -/
def opened (i : Nat) (ops : List Op) : Prop := ∃ m a p, Op.lib (.openFlow i m a p) ∈ ops

/-- What can happen after `ops`: what `SS.Allowed` says; the user makes calls on flows they opened, and sets the callback before asking for it; the task runs if it was given to the platform,
not inside of a callback; a callback that was called returns. -/
def Allowed (ops : List Op) (w : WS) : Op → Prop
  | .lib op => SS.Allowed (libOps ops) w.ss op
  | .notify i => Op.setHandler i ∈ ops
  | .setCapacity i _ => opened i ops
  | .setHandler i => opened i ops
  | .run i => 0 < (w.flag i).tasks ∧ w.running = none
  | .ret i _ => w.running = some i

/-- What happened, the resulting state and what was observed. -/
inductive Exec : List Op → WS → List Ev → Prop
  | nil : Exec [] init []
  | snoc {ops w evs op t es} : Exec ops w evs → Allowed ops w op → step w op = some (t, es) → Exec (ops ++ [op]) t (evs ++ es)

/-- Specification: the user asked for notification of a flow after the last time the callback answered, or it answered that it wants to be called again. -/
def wantsStep (i : Nat) (b : Bool) : Op → Bool
  | .notify j => if j = i then true else b
  | .ret j a => if j = i then a else b
  | _ => b
/-- see `wantsStep` -/
def wants (i : Nat) (ops : List Op) : Bool := ops.foldl (wantsStep i) false

/-- Specification: the capacity of a flow's buffer: what the user set last. -/
def capStep (i : Nat) (c : Nat) : Op → Nat
  | .setCapacity j n => if j = i then n else c
  | _ => c
/-- see `capStep` -/
def capOf (i : Nat) (ops : List Op) : Nat := ops.foldl (capStep i) 65536

/-- Specification: the capacity was raised since the user asked for notification or the callback answered. -/
def raisedStep (i : Nat) (x : Nat × Bool) : Op → Nat × Bool
  | .setCapacity j n => if j = i then (n, x.2 || decide (x.1 < n)) else x
  | .notify j => if j = i then (x.1, false) else x
  | .ret j _ => if j = i then (x.1, false) else x
  | _ => x
/-- see `raisedStep` -/
def raised (i : Nat) (ops : List Op) : Bool := (ops.foldl (raisedStep i) (65536, false)).2

theorem wants_snoc (i : Nat) (ops : List Op) (op : Op) : wants i (ops ++ [op]) = wantsStep i (wants i ops) op := by simp [wants]
theorem capOf_snoc (i : Nat) (ops : List Op) (op : Op) : capOf i (ops ++ [op]) = capStep i (capOf i ops) op := by simp [capOf]

theorem raised_cap (i : Nat) (ops : List Op) : ∀ x, (ops.foldl (raisedStep i) x).1 = ops.foldl (capStep i) x.1 := by
  induction ops with
  | nil => intro x; rfl
  | cons op ops ih =>
    intro x
    rw [List.foldl_cons, List.foldl_cons, ih]
    congr 1
    cases op <;> simp only [raisedStep, capStep] <;> split <;> rfl

theorem raised_snoc (i : Nat) (ops : List Op) (op : Op) : raised i (ops ++ [op]) = (raisedStep i (capOf i ops, raised i ops) op).2 := by
  have : ops.foldl (raisedStep i) (65536, false) = (capOf i ops, raised i ops) := by
    rw [capOf, ← raised_cap i ops (65536, false), raised]
  rw [raised, List.foldl_append, this]
  rfl

/-- the flags of a flow and what the user did -/
structure FlagOk (ops : List Op) (w : WS) (i : Nat) : Prop where
  should : (w.flag i).should = wants i ops
  cap : (w.flag i).capacity = capOf i ops
  opn : Op.setHandler i ∈ ops → opened i ops
  hand : Op.setHandler i ∈ ops → (w.flag i).handler = true ∨ (w.ss.flow i).baseOpen = false
  has : (w.flag i).handler = true → Op.setHandler i ∈ ops
  asked : (w.flag i).should = true → Op.setHandler i ∈ ops
  run : w.running = some i → (w.flag i).should = true
  wake : (w.flag i).should = true → isWritable w i = true → raised i ops = false → (w.flag i).pending = true ∨ w.running = some i

theorem isWritable_iff {w : WS} {i : Nat} : isWritable w i = true ↔
    (w.ss.flow i).bound = true ∧ w.ss.isOpen = true ∧ (w.ss.flow i).baseOpen = true ∧ buffered (w.ss.flow i).queue < (w.flag i).capacity := by
  simp [isWritable, and_assoc]

@[simp] theorem setFlag_ss (w : WS) (i : Nat) (f : Flag) : (w.setFlag i f).ss = w.ss := rfl
@[simp] theorem setFlag_running (w : WS) (i : Nat) (f : Flag) : (w.setFlag i f).running = w.running := rfl
@[simp] theorem setFlag_flag (w : WS) (i : Nat) (f : Flag) (j : Nat) : (w.setFlag i f).flag j = if j = i then f else w.flag j := rfl

theorem libOps_snoc (ops : List Op) (op : Op) : libOps (ops ++ [op]) = libOps ops ++ (match op with | .lib o => [o] | _ => []) := by
  cases op <;> simp [libOps]

theorem mem_libOps {ops : List Op} {o : SS.Op} : o ∈ libOps ops ↔ Op.lib o ∈ ops := by
  simp only [libOps, List.mem_filterMap]
  constructor
  · rintro ⟨a, h, e⟩
    cases a <;> simp at e
    rw [← e]; exact h
  · intro h; exact ⟨_, h, rfl⟩

theorem queueIf_ss (w : WS) (o : Option Nat) : (queueIf w o).ss = w.ss ∧ (queueIf w o).running = w.running := by
  cases o with
  | none => exact ⟨rfl, rfl⟩
  | some i =>
    rw [queueIf, queueNotify]
    split <;> exact ⟨rfl, rfl⟩

theorem queueIf_flag (w : WS) (o : Option Nat) (j : Nat) : ((queueIf w o).flag j).should = (w.flag j).should ∧ ((queueIf w o).flag j).capacity = (w.flag j).capacity ∧
    ((queueIf w o).flag j).handler = (w.flag j).handler ∧
    (((queueIf w o).flag j).pending = true ↔ (w.flag j).pending = true ∨ (o = some j ∧ (w.flag j).should = true)) := by
  cases o with
  | none => simp [queueIf]
  | some i =>
    rw [queueIf, queueNotify]
    by_cases e : j = i
    · subst e
      split
      · rename_i h; simp [h.1]
      · rename_i h
        refine ⟨rfl, rfl, rfl, fun k => Or.inl k, fun k => ?_⟩
        rcases k with k | ⟨_, k⟩
        · exact k
        · cases hp : (w.flag j).pending
          · exact absurd ⟨k, hp⟩ h
          · rfl
    · split
      · simp [e, Ne.symm e]
      · simp [Ne.symm e]

theorem clear_flag (s t : SS) (flag : Nat → Flag) (j : Nat) : (clearHandlers s t flag j).should = (flag j).should ∧ (clearHandlers s t flag j).capacity = (flag j).capacity ∧
    (clearHandlers s t flag j).pending = (flag j).pending ∧
    (clearHandlers s t flag j).handler = if (s.flow j).baseOpen = true ∧ (t.flow j).baseOpen = false then false else (flag j).handler := by
  rw [clearHandlers]
  split <;> exact ⟨rfl, rfl, rfl, rfl⟩

theorem loop_ss (w : WS) (i : Nat) : (loop w i).1.ss = w.ss := by
  rw [loop]
  split
  · split <;> rfl
  · rfl

/-- the sending side of an execution -/
theorem exec_lib {ops : List Op} {w : WS} {evs : List Ev} (h : Exec ops w evs) : ∃ es, SS.Exec (libOps ops) w.ss es := by
  induction h with
  | nil => exact ⟨_, .nil⟩
  | @snoc ops w evs op t es _ ha hs ih =>
    obtain ⟨e, ih⟩ := ih
    rw [libOps_snoc]
    cases op with
    | lib o =>
      rw [step] at hs
      cases hst : w.ss.step o with
      | none => rw [hst] at hs; cases hs
      | some x =>
        rw [hst, libRes] at hs
        simp only [Option.some.injEq, Prod.mk.injEq] at hs
        rw [← hs.1, (queueIf_ss _ _).1]
        exact ⟨_, .snoc ih ha hst⟩
    | notify i =>
      simp only [step, Option.some.injEq, Prod.mk.injEq] at hs
      rw [← hs.1]
      have := (queueIf_ss (w.setFlag i { w.flag i with should := true }) (some i)).1
      rw [queueIf] at this
      rw [this]
      exact ⟨e, by simpa using ih⟩
    | setCapacity i n =>
      simp only [step, Option.some.injEq, Prod.mk.injEq] at hs
      rw [← hs.1]
      exact ⟨e, by simpa using ih⟩
    | setHandler i =>
      simp only [step, Option.some.injEq, Prod.mk.injEq] at hs
      rw [← hs.1]
      exact ⟨e, by simpa using ih⟩
    | run i =>
      simp only [step, Option.some.injEq] at hs
      have := loop_ss (w.setFlag i { w.flag i with pending := false, tasks := (w.flag i).tasks - 1 }) i
      rw [hs] at this
      rw [this]
      exact ⟨e, by simpa using ih⟩
    | ret i b =>
      simp only [step, Option.some.injEq] at hs
      have := loop_ss (w.setFlag i { w.flag i with should := b }) i
      rw [hs] at this
      rw [this]
      exact ⟨e, by simpa using ih⟩

/-- an open flow was open before, or is opened now -/
theorem step_base {s t : SS} {op : SS.Op} {es : List SS.Ev} (hs : s.step op = some (t, es)) {j : Nat} (hop : ∀ m a p, op ≠ .openFlow j m a p) (h : (t.flow j).baseOpen = true) :
    (s.flow j).baseOpen = true := by
  rcases SS.step_evolves hs j with e | ⟨m, a, p, rfl, _, _⟩ | ⟨fid, _, _, e⟩ | ⟨_, e⟩
  · exact e.base h
  · exact absurd rfl (hop m a p)
  · rw [e] at h; exact h
  · rw [e] at h; exact h

theorem step_bound {s t : SS} {op : SS.Op} {es : List SS.Ev} (hs : s.step op = some (t, es)) {j : Nat} (hn : notifies s op ≠ some j) (h : (t.flow j).bound = true) :
    (s.flow j).bound = true := by
  rcases SS.step_evolves hs j with e | ⟨m, a, p, rfl, _, e⟩ | ⟨fid, rfl, hb, e⟩ | ⟨_, e⟩
  · exact (e.id h).1
  · rw [e] at h; simp [SF.init] at h
  · rw [notifies, hb] at hn; exact absurd rfl hn
  · rw [e] at h; exact h

/-- the loop of the task keeps the flags in order; what it was like before except for the flag that the user wants to be called -/
theorem loop_ok {ops : List Op} {w : WS} {i : Nat} (h1 : (w.flag i).should = wants i ops) (h2 : (w.flag i).capacity = capOf i ops) (h3 : Op.setHandler i ∈ ops → opened i ops)
    (h4 : Op.setHandler i ∈ ops → (w.flag i).handler = true ∨ (w.ss.flow i).baseOpen = false) (h5 : (w.flag i).handler = true → Op.setHandler i ∈ ops)
    (h6 : (w.flag i).should = true → Op.setHandler i ∈ ops) : FlagOk ops (loop w i).1 i := by
  rw [loop]
  by_cases hc : (w.flag i).should = true ∧ isWritable w i = true
  · have hh : (w.flag i).handler = true := by
      rcases h4 (h6 hc.1) with h | h
      · exact h
      · have := (isWritable_iff.mp hc.2).2.2.1
        rw [h] at this; cases this
    rw [if_pos hc, if_pos hh]
    exact ⟨h1, h2, h3, h4, h5, h6, fun _ => hc.1, fun _ _ _ => Or.inr rfl⟩
  · rw [if_neg hc]
    exact ⟨h1, h2, h3, h4, h5, h6, (fun h => by cases h), fun a b _ => absurd ⟨a, b⟩ hc⟩

theorem loop_other {w : WS} {i j : Nat} (h : j ≠ i) : (loop w i).1.flag j = w.flag j ∧ ((loop w i).1.running = some i ∨ (loop w i).1.running = none) := by
  rw [loop]
  split
  · split
    · exact ⟨rfl, Or.inl rfl⟩
    · exact ⟨by simp [h], Or.inr rfl⟩
  · exact ⟨rfl, Or.inr rfl⟩

/-- a flow that isn't concerned -/
theorem FlagOk.keep {ops : List Op} {w t : WS} {op : Op} {j : Nat} (h : FlagOk ops w j) (hf : t.flag j = w.flag j) (hs : t.ss = w.ss) (hr : t.running = some j ↔ w.running = some j)
    (hw : wantsStep j (wants j ops) op = wants j ops) (hc : capStep j (capOf j ops) op = capOf j ops) (hra : (raisedStep j (capOf j ops, raised j ops) op).2 = raised j ops)
    (hh : op ≠ .setHandler j) : FlagOk (ops ++ [op]) t j := by
  have hset : Op.setHandler j ∈ ops ++ [op] → Op.setHandler j ∈ ops := by
    intro k
    rcases List.mem_append.mp k with k | k
    · exact k
    · exact absurd (List.mem_singleton.mp k).symm hh
  refine ⟨?_, ?_, fun k => ?_, fun k => ?_, fun k => ?_, fun k => ?_, fun k => ?_, fun k1 k2 k3 => ?_⟩
  · rw [hf, wants_snoc, hw]; exact h.should
  · rw [hf, capOf_snoc, hc]; exact h.cap
  · obtain ⟨m, a, p, e⟩ := h.opn (hset k); exact ⟨m, a, p, by simp [e]⟩
  · rw [hf, hs]; exact h.hand (hset k)
  · rw [hf] at k; simp [h.has k]
  · rw [hf] at k; simp [h.asked k]
  · rw [hf]; exact h.run (hr.mp k)
  · rw [hf] at k1 ⊢
    rw [raised_snoc, hra] at k3
    have : isWritable w j = true := by
      rw [isWritable_iff] at k2 ⊢
      rw [hs, hf] at k2; exact k2
    rcases h.wake k1 this k3 with e | e
    · exact Or.inl e
    · exact Or.inr (hr.mpr e)

theorem exec_flag {ops : List Op} {w : WS} {evs : List Ev} (h : Exec ops w evs) (j : Nat) : FlagOk ops w j := by
  induction h with
  | nil => exact ⟨rfl, rfl, (fun h => by cases h), (fun h => by cases h), (fun h => by cases h), (fun h => by cases h), (fun h => by cases h), (fun h => by cases h)⟩
  | @snoc ops w evs op t es he ha hs ih =>
    cases op with
    | lib o =>
      obtain ⟨e0, hlib⟩ := exec_lib he
      have hbk := SS.exec_books hlib
      rw [step] at hs
      cases hst : w.ss.step o with
      | none => rw [hst] at hs; cases hs
      | some x =>
        obtain ⟨u, es'⟩ := x
        rw [hst, libRes] at hs
        simp only [Option.some.injEq, Prod.mk.injEq] at hs
        have hub := SS.step_books hbk ha hst
        rw [← hs.1]
        have hset : Op.setHandler j ∈ ops ++ [Op.lib o] → Op.setHandler j ∈ ops := by
          intro k
          rcases List.mem_append.mp k with k | k
          · exact k
          · simp at k
        have hw : wants j (ops ++ [Op.lib o]) = wants j ops := by rw [wants_snoc]; rfl
        have hc : capOf j (ops ++ [Op.lib o]) = capOf j ops := by rw [capOf_snoc]; rfl
        have hra : raised j (ops ++ [Op.lib o]) = raised j ops := by rw [raised_snoc]; rfl
        have hno : Op.setHandler j ∈ ops → ∀ m a p, o ≠ .openFlow j m a p := by
          rintro k m a p rfl
          obtain ⟨m', a', p', e⟩ := ih.opn k
          exact ha.2.1 m' a' p' (mem_libOps.mpr e)
        have k1 := queueIf_flag { w with ss := u, flag := clearHandlers w.ss u w.flag } (notifies w.ss o) j
        obtain ⟨k2, k3⟩ := queueIf_ss { w with ss := u, flag := clearHandlers w.ss u w.flag } (notifies w.ss o)
        generalize queueIf { w with ss := u, flag := clearHandlers w.ss u w.flag } (notifies w.ss o) = v at k1 k2 k3 ⊢
        obtain ⟨f1, f2, f3, f4⟩ := k1
        obtain ⟨c1, c2, c3, c4⟩ := clear_flag w.ss u w.flag j
        dsimp only at f1 f2 f3 f4 k2 k3
        rw [c1] at f1
        rw [c2] at f2
        rw [c3, c1] at f4
        refine ⟨?_, ?_, fun k => ?_, fun k => ?_, fun k => ?_, fun k => ?_, fun k => ?_, fun q1 q2 q3 => ?_⟩
        · rw [f1, hw]; exact ih.should
        · rw [f2, hc]; exact ih.cap
        · obtain ⟨m, a, p, e⟩ := ih.opn (hset k); exact ⟨m, a, p, by simp [e]⟩
        · rw [f3, k2]
          cases hb : (u.flow j).baseOpen with
          | false => exact Or.inr rfl
          | true =>
            left
            have hb2 := step_base hst (hno (hset k)) hb
            rw [c4, if_neg (by simp [hb])]
            rcases ih.hand (hset k) with e | e
            · exact e
            · rw [e] at hb2; cases hb2
        · rw [f3, c4] at k
          have : (w.flag j).handler = true := by
            split at k
            · cases k
            · exact k
          simp [ih.has this]
        · rw [f1] at k; simp [ih.asked k]
        · rw [k3] at k; rw [f1]; exact ih.run k
        · rw [f1] at q1
          by_cases hn : notifies w.ss o = some j
          · exact Or.inl (f4.mpr (Or.inr ⟨hn, q1⟩))
          · obtain ⟨g1, g2, g3, g4⟩ := isWritable_iff.mp q2
            rw [k2] at g1 g3 g4
            rw [f2] at g4
            have b1 := step_bound hst hn g1
            have b3 := step_base hst (hno (ih.asked q1)) g3
            have b4 := step_room hbk hub ha hst hn g1 g3
            rw [hra] at q3
            rcases ih.wake q1 (isWritable_iff.mpr ⟨b1, hbk.isOpen j b1, b3, by omega⟩) q3 with e | e
            · exact Or.inl (f4.mpr (Or.inl e))
            · right; rw [k3]; exact e
    | notify i =>
      simp only [step, Option.some.injEq, Prod.mk.injEq] at hs
      rw [← hs.1]
      obtain ⟨k2, k3⟩ := queueIf_ss (w.setFlag i { w.flag i with should := true }) (some i)
      have k1 := queueIf_flag (w.setFlag i { w.flag i with should := true }) (some i) j
      rw [show queueNotify (w.setFlag i { w.flag i with should := true }) i = queueIf (w.setFlag i { w.flag i with should := true }) (some i) from rfl]
      generalize hv : queueIf (w.setFlag i { w.flag i with should := true }) (some i) = v at k1 k2 k3 ⊢
      obtain ⟨f1, f2, f3, f4⟩ := k1
      by_cases e : j = i
      · subst e
        simp only [setFlag_flag, if_true, setFlag_ss, setFlag_running] at f1 f2 f3 f4 k2 k3
        have hm : Op.setHandler j ∈ ops := ha
        refine ⟨?_, ?_, fun k => ?_, fun k => ?_, fun k => ?_, fun k => ?_, fun k => f1, fun q1 q2 q3 => ?_⟩
        · rw [f1, wants_snoc]; simp [wantsStep]
        · rw [f2, capOf_snoc]; exact ih.cap
        · obtain ⟨m, a, p, e⟩ := ih.opn hm; exact ⟨m, a, p, by simp [e]⟩
        · rw [f3, k2]; exact ih.hand hm
        · simp [hm]
        · simp [hm]
        · left; exact f4.mpr (Or.inr ⟨by simp, by simp⟩)
      · refine ih.keep ?_ k2 (by rw [k3]; exact Iff.rfl) ?_ rfl ?_ (by simp)
        · rw [← hv, queueIf, queueNotify]
          split <;> simp [e]
        · simp [wantsStep, Ne.symm e]
        · simp [raisedStep, Ne.symm e]
    | setCapacity i n =>
      simp only [step, Option.some.injEq, Prod.mk.injEq] at hs
      rw [← hs.1]
      by_cases e : j = i
      · subst e
        have hset : Op.setHandler j ∈ ops ++ [Op.setCapacity j n] → Op.setHandler j ∈ ops := by
          intro k; simpa using k
        refine ⟨?_, ?_, fun k => ?_, fun k => ?_, fun k => ?_, fun k => ?_, fun k => ?_, fun q1 q2 q3 => ?_⟩
        · simp only [setFlag_flag, if_true]; rw [wants_snoc]; exact ih.should
        · simp only [setFlag_flag, if_true]; rw [capOf_snoc]; simp [capStep]
        · obtain ⟨m, a, p, e⟩ := ih.opn (hset k); exact ⟨m, a, p, by simp [e]⟩
        · have := ih.hand (hset k)
          simpa using this
        · simp only [setFlag_flag, if_true] at k; simp [ih.has k]
        · simp only [setFlag_flag, if_true] at k; simp [ih.asked k]
        · simp only [setFlag_flag, if_true]; exact ih.run k
        · simp only [setFlag_flag, if_true] at q1 ⊢
          rw [isWritable_iff] at q2
          simp only [setFlag_flag, if_true, setFlag_ss] at q2
          rw [raised_snoc] at q3
          simp only [raisedStep, if_true, Bool.or_eq_false_iff, decide_eq_false_iff_not, Nat.not_lt] at q3
          rw [← ih.cap] at q3
          exact ih.wake q1 (isWritable_iff.mpr ⟨q2.1, q2.2.1, q2.2.2.1, by omega⟩) q3.1
      · refine ih.keep (by simp [e]) rfl Iff.rfl rfl ?_ ?_ (by simp)
        · simp [capStep, Ne.symm e]
        · simp [raisedStep, Ne.symm e]
    | setHandler i =>
      simp only [step, Option.some.injEq, Prod.mk.injEq] at hs
      rw [← hs.1]
      by_cases e : j = i
      · subst e
        have ho : opened j ops := ha
        refine ⟨?_, ?_, fun k => ?_, fun k => ?_, fun k => ?_, fun k => ?_, fun k => ?_, fun q1 q2 q3 => ?_⟩
        · simp only [setFlag_flag, if_true]; rw [wants_snoc]; exact ih.should
        · simp only [setFlag_flag, if_true]; rw [capOf_snoc]; exact ih.cap
        · obtain ⟨m, a, p, e⟩ := ho; exact ⟨m, a, p, by simp [e]⟩
        · left; simp
        · simp
        · simp
        · simp only [setFlag_flag, if_true]; exact ih.run k
        · simp only [setFlag_flag, if_true] at q1 ⊢
          rw [isWritable_iff] at q2
          simp only [setFlag_flag, if_true, setFlag_ss] at q2
          rw [raised_snoc] at q3
          exact ih.wake q1 (isWritable_iff.mpr q2) q3
      · exact ih.keep (by simp [e]) rfl Iff.rfl rfl rfl rfl (by simp [Ne.symm e])
    | run i =>
      simp only [step, Option.some.injEq] at hs
      have ht : t = (loop (w.setFlag i { w.flag i with pending := false, tasks := (w.flag i).tasks - 1 }) i).1 := by rw [hs]
      rw [ht]
      by_cases e : j = i
      · subst e
        have hset : Op.setHandler j ∈ ops ++ [Op.run j] ↔ Op.setHandler j ∈ ops := by simp
        have hop : opened j ops → opened j (ops ++ [Op.run j]) := by rintro ⟨m, a, p, e⟩; exact ⟨m, a, p, by simp [e]⟩
        refine loop_ok ?_ ?_ (fun k => hop (ih.opn (hset.mp k))) (fun k => ?_) (fun k => ?_) (fun k => ?_)
        · simp only [setFlag_flag, if_true]; rw [wants_snoc]; exact ih.should
        · simp only [setFlag_flag, if_true]; rw [capOf_snoc]; exact ih.cap
        · have := ih.hand (hset.mp k); simpa using this
        · simp only [setFlag_flag, if_true] at k; exact hset.mpr (ih.has k)
        · simp only [setFlag_flag, if_true] at k; exact hset.mpr (ih.asked k)
      · obtain ⟨o1, o2⟩ := loop_other (w := w.setFlag i { w.flag i with pending := false, tasks := (w.flag i).tasks - 1 }) e
        refine ih.keep (by rw [o1]; simp [e]) (by rw [loop_ss]; rfl) ?_ rfl rfl rfl (by simp)
        rw [ha.2]
        rcases o2 with o2 | o2 <;> rw [o2]
        simp [Ne.symm e]
    | ret i b =>
      simp only [step, Option.some.injEq] at hs
      have ht : t = (loop (w.setFlag i { w.flag i with should := b }) i).1 := by rw [hs]
      rw [ht]
      have hrun : w.running = some i := ha
      by_cases e : j = i
      · subst e
        have hset : Op.setHandler j ∈ ops ++ [Op.ret j b] ↔ Op.setHandler j ∈ ops := by simp
        have hop : opened j ops → opened j (ops ++ [Op.ret j b]) := by rintro ⟨m, a, p, e⟩; exact ⟨m, a, p, by simp [e]⟩
        refine loop_ok ?_ ?_ (fun k => hop (ih.opn (hset.mp k))) (fun k => ?_) (fun k => ?_) (fun k => ?_)
        · simp only [setFlag_flag, if_true]; rw [wants_snoc]; simp [wantsStep]
        · simp only [setFlag_flag, if_true]; rw [capOf_snoc]; exact ih.cap
        · have := ih.hand (hset.mp k); simpa using this
        · simp only [setFlag_flag, if_true] at k; exact hset.mpr (ih.has k)
        · exact hset.mpr (ih.asked (ih.run hrun))
      · obtain ⟨o1, o2⟩ := loop_other (w := w.setFlag i { w.flag i with should := b }) e
        refine ih.keep (by rw [o1]; simp [e]) (by rw [loop_ss]; rfl) ?_ ?_ rfl ?_ (by simp)
        · rw [hrun]
          rcases o2 with o2 | o2 <;> rw [o2]
          simp [Ne.symm e]
        · simp [wantsStep, Ne.symm e]
        · simp [raisedStep, Ne.symm e]

/-- the tasks given to the platform -/
theorem queueIf_tasks (w : WS) (o : Option Nat) (j : Nat) : (w.flag j).tasks ≤ ((queueIf w o).flag j).tasks ∧
    ((w.flag j).tasks = (if (w.flag j).pending = true then 1 else 0) → ((queueIf w o).flag j).tasks = if ((queueIf w o).flag j).pending = true then 1 else 0) := by
  cases o with
  | none => exact ⟨Nat.le_refl _, id⟩
  | some i =>
    rw [queueIf, queueNotify]
    split
    · rename_i h
      by_cases e : j = i
      · subst e
        simp only [setFlag_flag, if_true]
        exact ⟨by omega, fun k => by rw [k, h.2]; rfl⟩
      · simp only [setFlag_flag, if_neg e]
        exact ⟨Nat.le_refl _, id⟩
    · exact ⟨Nat.le_refl _, id⟩

theorem clear_tasks (s t : SS) (flag : Nat → Flag) (j : Nat) : (clearHandlers s t flag j).tasks = (flag j).tasks := by
  rw [clearHandlers]
  split <;> rfl

theorem loop_tasks (w : WS) (i j : Nat) : ((loop w i).1.flag j).tasks = (w.flag j).tasks ∧ ((loop w i).1.flag j).pending = (w.flag j).pending := by
  rw [loop]
  split
  · split
    · exact ⟨rfl, rfl⟩
    · by_cases e : j = i
      · subst e; simp
      · simp [e]
  · exact ⟨rfl, rfl⟩

/-- a step takes a task from the platform only by running it -/
theorem step_tasks {w t : WS} {es : List Ev} {op : Op} (hs : step w op = some (t, es)) (j : Nat) :
    ((w.flag j).tasks ≤ (t.flag j).tasks ∨ op = .run j ∧ (w.flag j).tasks ≤ (t.flag j).tasks + 1) ∧
    ((w.flag j).tasks = (if (w.flag j).pending = true then 1 else 0) → (t.flag j).tasks = if (t.flag j).pending = true then 1 else 0) := by
  cases op with
  | lib o =>
    rw [step] at hs
    cases hst : w.ss.step o with
    | none => rw [hst] at hs; cases hs
    | some x =>
      rw [hst, libRes] at hs
      simp only [Option.some.injEq, Prod.mk.injEq] at hs
      have k := queueIf_tasks { w with ss := x.1, flag := clearHandlers w.ss x.1 w.flag } (notifies w.ss o) j
      rw [hs.1] at k
      dsimp only at k
      rw [clear_tasks, (clear_flag w.ss x.1 w.flag j).2.2.1] at k
      exact ⟨Or.inl k.1, k.2⟩
  | notify i =>
    simp only [step, Option.some.injEq, Prod.mk.injEq] at hs
    have k := queueIf_tasks (w.setFlag i { w.flag i with should := true }) (some i) j
    rw [show queueIf (w.setFlag i { w.flag i with should := true }) (some i) = t from hs.1] at k
    by_cases e : j = i
    · subst e; simp only [setFlag_flag, if_true] at k; exact ⟨Or.inl k.1, k.2⟩
    · simp only [setFlag_flag, if_neg e] at k; exact ⟨Or.inl k.1, k.2⟩
  | setCapacity i n =>
    simp only [step, Option.some.injEq, Prod.mk.injEq] at hs
    rw [← hs.1]
    by_cases e : j = i
    · subst e; simp
    · simp [e]
  | setHandler i =>
    simp only [step, Option.some.injEq, Prod.mk.injEq] at hs
    rw [← hs.1]
    by_cases e : j = i
    · subst e; simp
    · simp [e]
  | run i =>
    simp only [step, Option.some.injEq] at hs
    obtain ⟨k1, k2⟩ := loop_tasks (w.setFlag i { w.flag i with pending := false, tasks := (w.flag i).tasks - 1 }) i j
    rw [hs] at k1 k2
    by_cases e : j = i
    · subst e
      simp only [setFlag_flag, if_true] at k1 k2
      rw [k1, k2]
      refine ⟨Or.inr ⟨rfl, by omega⟩, fun h => ?_⟩
      rw [h]
      split <;> rfl
    · simp only [setFlag_flag, if_neg e] at k1 k2
      rw [k1, k2]
      exact ⟨Or.inl (Nat.le_refl _), id⟩
  | ret i b =>
    simp only [step, Option.some.injEq] at hs
    obtain ⟨k1, k2⟩ := loop_tasks (w.setFlag i { w.flag i with should := b }) i j
    rw [hs] at k1 k2
    by_cases e : j = i
    · subst e
      simp only [setFlag_flag, if_true] at k1 k2
      rw [k1, k2]
      exact ⟨Or.inl (Nat.le_refl _), id⟩
    · simp only [setFlag_flag, if_neg e] at k1 k2
      rw [k1, k2]
      exact ⟨Or.inl (Nat.le_refl _), id⟩

/-- the flag says whether the platform has a task -/
theorem exec_tasks {ops : List Op} {w : WS} {evs : List Ev} (h : Exec ops w evs) (j : Nat) : (w.flag j).tasks = if (w.flag j).pending = true then 1 else 0 := by
  induction h with
  | nil => rfl
  | snoc _ _ hs ih => exact (step_tasks hs j).2 ih

end Writable
end Rtmfp
