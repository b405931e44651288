import Verif.Lemmas.SendAccount
import Verif.Props.C12_Fragment

/-! # The books of a session are kept by everything that happens -/

namespace Rtmfp
namespace SS

@[simp] theorem setFlow_same (s : SS) (i : Nat) (f : SF) : (s.setFlow i f).flow i = f := by simp [setFlow]
theorem setFlow_other (s : SS) {i j : Nat} (f : SF) (h : j ≠ i) : (s.setFlow i f).flow j = s.flow j := by simp [setFlow, h]
@[simp] theorem setFlow_outs (s : SS) (i : Nat) (f : SF) : (s.setFlow i f).outs = s.outs := rfl
@[simp] theorem setFlow_outSum (s : SS) (i : Nat) (f : SF) : (s.setFlow i f).outSum = s.outSum := rfl
@[simp] theorem setFlow_sendFlows (s : SS) (i : Nat) (f : SF) : (s.setFlow i f).sendFlows = s.sendFlows := rfl
@[simp] theorem setFlow_isOpen (s : SS) (i : Nat) (f : SF) : (s.setFlow i f).isOpen = s.isOpen := rfl
@[simp] theorem setFlow_receipts (s : SS) (i : Nat) (f : SF) : (s.setFlow i f).receipts = s.receipts := rfl

/-- what is always true of a flow by itself -/
structure FlowOk (f : SF) : Prop where
  sorted : Sorted f.queue
  range : ∀ x ∈ f.queue, 1 ≤ x.sn ∧ x.sn < f.nextSn
  next : 1 ≤ f.nextSn
  unbound : f.bound = false → ∀ x ∈ f.queue, x.inFlight = false
  zero : f.bound = false → f.state ≠ .closed → f.outstanding = 0 ∧ f.state = .opened
  linger : f.state = .completeLinger → f.queue = []
  opened : f.baseOpen = true → f.state = .opened
  closed : f.state = .closed → f.bound = false

/-- The accounting of one flow. A flow that is closed is not in the session's books any more. -/
structure FlowBooks (i : Nat) (f : SF) (outs : List OutRef) : Prop where
  ok : FlowOk f
  perm : (ofFlow i outs).Perm (refs i f.queue)
  out : f.state ≠ .closed → f.outstanding = flight f.queue % W64

/-- The accounting of the session. -/
structure Books (s : SS) : Prop where
  flow : ∀ i, FlowBooks i (s.flow i) s.outs
  sum : s.outSum = total s.outs % W64
  nodup : s.sendFlows.Nodup
  bound : ∀ i, i ∈ s.sendFlows ↔ (s.flow i).bound = true
  isOpen : ∀ i, (s.flow i).bound = true → s.isOpen = true

/-- one flow changes, its fragments in flight stay those in the books -/
theorem Books.one {s t : SS} (h : Books s) (i : Nat) (ho : t.outs = s.outs) (hs : t.outSum = s.outSum) (hf : t.sendFlows = s.sendFlows)
    (hopen : t.isOpen = s.isOpen) (hb : (t.flow i).bound = (s.flow i).bound) (hj : ∀ j, j ≠ i → t.flow j = s.flow j)
    (hi : FlowBooks i (t.flow i) s.outs) : Books t := by
  have hbb : ∀ j, (t.flow j).bound = (s.flow j).bound := by
    intro j
    by_cases e : j = i
    · subst e; exact hb
    · rw [hj j e]
  refine ⟨?_, by rw [hs, ho]; exact h.sum, by rw [hf]; exact h.nodup, fun j => by rw [hf, hbb]; exact h.bound j,
    fun j k => by rw [hopen]; exact h.isOpen j (by rw [← hbb]; exact k)⟩
  intro j
  rw [ho]
  by_cases e : j = i
  · subst e; exact hi
  · rw [hj j e]; exact h.flow j

theorem init_books : Books init := by
  refine ⟨fun i => ⟨⟨.nil, ?_, Nat.le_refl 1, ?_, ?_, ?_, ?_, ?_⟩, ?_, ?_⟩, by decide, by decide, ?_, ?_⟩ <;>
    simp [init, SF.init, ofFlow, refs, flight]

/-! ## writing -/

theorem number_new (rid : Nat) (names : Nat → Nat) (fs : List (Fra × Bytes)) : ∀ sn, ∀ x ∈ number rid names sn fs,
    x.inFlight = false ∧ sn ≤ x.sn ∧ x.sn < sn + fs.length ∧ x.receipt = rid ∧ x.name = names x.sn ∧ x.everSent = false := by
  induction fs with
  | nil => intro sn x hx; cases hx
  | cons f fs ih =>
    intro sn x hx
    obtain ⟨fra, d⟩ := f
    rw [number] at hx
    rcases List.mem_cons.mp hx with rfl | hx
    · refine ⟨rfl, ?_, ?_, rfl, rfl, rfl⟩ <;> simp [SFrag.new]
    · obtain ⟨a, b, c, d, e⟩ := ih (sn + 1) x hx
      exact ⟨a, by omega, by simp only [List.length_cons]; omega, d, e⟩

theorem number_sorted (rid : Nat) (names : Nat → Nat) (fs : List (Fra × Bytes)) : ∀ sn, Sorted (number rid names sn fs) := by
  induction fs with
  | nil => intro sn; exact .nil
  | cons f fs ih =>
    intro sn
    obtain ⟨fra, d⟩ := f
    rw [number, Sorted, List.pairwise_cons]
    refine ⟨fun x hx => ?_, ih (sn + 1)⟩
    obtain ⟨_, b, _⟩ := number_new rid names fs (sn + 1) x hx
    simp only [SFrag.new]; omega

theorem queued_ok {f : SF} (h : FlowOk f) (rid : Nat) (names : Nat → Nat) (fs : List (Fra × Bytes)) :
    FlowOk { f with queue := f.queue ++ number rid names f.nextSn fs, nextSn := f.nextSn + fs.length } ∨ f.state = .completeLinger := by
  by_cases hl : f.state = .completeLinger
  · exact Or.inr hl
  left
  refine ⟨?_, ?_, ?_, ?_, h.zero, fun k => absurd k hl, h.opened, h.closed⟩
  · rw [Sorted, List.pairwise_append]
    refine ⟨h.sorted, number_sorted _ _ _ _, fun a ha b hb => ?_⟩
    have := (h.range a ha).2
    have := (number_new _ _ _ _ b hb).2.1
    omega
  · intro x hx
    rcases List.mem_append.mp hx with hx | hx
    · have := h.range x hx; dsimp only; omega
    · have := (number_new _ _ _ _ x hx).2; have := h.next; dsimp only; omega
  · have := h.next; dsimp only; omega
  · intro hb x hx
    rcases List.mem_append.mp hx with hx | hx
    · exact h.unbound hb x hx
    · exact (number_new _ _ _ _ x hx).1

theorem queued_refs (i : Nat) (q : List SFrag) (rid : Nat) (names : Nat → Nat) (fs : List (Fra × Bytes)) (sn : Nat) :
    refs i (q ++ number rid names sn fs) = refs i q ∧ flight (q ++ number rid names sn fs) = flight q := by
  have h : ∀ x ∈ number rid names sn fs, x.inFlight = false := fun x hx => (number_new _ _ _ _ x hx).1
  rw [refs_append, flight_append, refs_nil_of h, flight_zero_of h]
  simp

theorem queueFrags_flow (s : SS) (i : Nat) (fs : List (Fra × Bytes)) (now a b : Int) (rid : Nat) (names : Nat → Nat) :
    (s.queueFrags i fs now a b rid names).flow i =
      { s.flow i with queue := (s.flow i).queue ++ number rid names (s.flow i).nextSn fs, nextSn := (s.flow i).nextSn + fs.length } := by
  simp [queueFrags, setFlow]

theorem queueFrags_other (s : SS) (i : Nat) (fs : List (Fra × Bytes)) (now a b : Int) (rid : Nat) (names : Nat → Nat) {j : Nat} (h : j ≠ i) :
    (s.queueFrags i fs now a b rid names).flow j = s.flow j := by
  simp [queueFrags, setFlow, h]

theorem queueFrags_books {s : SS} (h : Books s) (i : Nat) (hl : (s.flow i).state ≠ .completeLinger) (fs : List (Fra × Bytes)) (now a b : Int) (rid : Nat)
    (names : Nat → Nat) : Books (s.queueFrags i fs now a b rid names) := by
  refine h.one i rfl rfl rfl rfl (by rw [queueFrags_flow]) (fun j hj => queueFrags_other _ _ _ _ _ _ _ _ hj) ?_
  rw [queueFrags_flow]
  have e := queued_refs i (s.flow i).queue rid names fs (s.flow i).nextSn
  refine ⟨(queued_ok (h.flow i).ok _ _ _).resolve_right hl, ?_, ?_⟩
  · show List.Perm _ (refs i ((s.flow i).queue ++ _))
    rw [e.1]; exact (h.flow i).perm
  · intro k
    show (s.flow i).outstanding = flight ((s.flow i).queue ++ _) % W64
    rw [e.2]; exact (h.flow i).out k

theorem write_books {s t : SS} (h : Books s) {i : Nat} {msg : Bytes} {now a b : Int} {rid : Nat} {names : Nat → Nat}
    (hw : s.write i msg now a b rid names = some t) : Books t := by
  rw [write] at hw
  by_cases ho : (s.flow i).baseOpen = true
  · rw [if_pos ho, basicWrite] at hw
    cases hc : cut (maxFrag (s.flow i).options) (msg.length + 1) .whole msg with
    | none => rw [hc] at hw; cases hw
    | some fs =>
      rw [hc] at hw
      simp only [Option.map_some, Option.some.injEq] at hw
      rw [← hw]
      refine queueFrags_books h i ?_ _ _ _ _ _ _
      rw [(h.flow i).ok.opened ho]; simp
  · rw [if_neg ho] at hw; cases hw

/-- the additional fragment: either there is none, or one empty fragment is queued -/
theorem addFin_cases (s : SS) (i : Nat) (now : Int) (rid : Nat) (names : Nat → Nat) :
    (needsFin (s.flow i) = false ∧ s.addFin i now rid names = s) ∨
    (needsFin (s.flow i) = true ∧ s.addFin i now rid names = s.queueFrags i [(.whole, [])] now (-1) (-1) rid names) := by
  rw [addFin]
  by_cases h : needsFin (s.flow i) = true
  · right
    rw [if_pos h]
    refine ⟨h, ?_⟩
    simp [basicWrite, cut]
  · left
    rw [if_neg h]
    exact ⟨by simpa using h, rfl⟩

/-! ## closing -/

/-- the end of `gotoClosed` for a flow that isn't closed yet -/
theorem gotoClosed_flow (s : SS) (i : Nat) : (s.gotoClosed i).flow i =
    if (s.flow i).state = .closed then s.flow i else { s.flow i with state := .closed, bound := false, assoc := false } := by
  rw [gotoClosed]
  cases hs : (s.flow i).state <;> simp [SFState.rank, setFlow]

theorem gotoClosed_other (s : SS) (i : Nat) {j : Nat} (h : j ≠ i) : (s.gotoClosed i).flow j = s.flow j := by
  rw [gotoClosed]
  dsimp only
  split
  · simp [setFlow, h]
  · rfl

theorem gotoClosed_rest (s : SS) (i : Nat) : (s.gotoClosed i).outs = s.outs ∧ (s.gotoClosed i).outSum = s.outSum ∧
    (s.gotoClosed i).isOpen = s.isOpen ∧ (s.gotoClosed i).receipts = s.receipts ∧ (s.gotoClosed i).nextTsn = s.nextTsn ∧ (s.gotoClosed i).maxTsnAck = s.maxTsnAck := by
  rw [gotoClosed]
  dsimp only
  split <;> simp [setFlow]

theorem gotoClosed_sendFlows (s : SS) (i : Nat) : (s.gotoClosed i).sendFlows =
    if (s.flow i).state ≠ .closed ∧ (s.flow i).bound = true then s.sendFlows.filter (fun j => j ≠ i) else s.sendFlows := by
  rw [gotoClosed]
  cases hs : (s.flow i).state <;> cases hb : (s.flow i).bound <;> simp [SFState.rank, setFlow]

/-- closing a flow with nothing in flight -/
theorem gotoClosed_books {s : SS} (h : Books s) (i : Nat) (hb : (s.flow i).baseOpen = false) (hq : ∀ x ∈ (s.flow i).queue, x.inFlight = false) :
    Books (s.gotoClosed i) := by
  obtain ⟨r1, r2, r3, _⟩ := gotoClosed_rest s i
  by_cases hc : (s.flow i).state = .closed
  · have : s.gotoClosed i = s := by rw [gotoClosed, hc]; simp [SFState.rank]
    rw [this]; exact h
  have hf : (s.gotoClosed i).flow i = { s.flow i with state := .closed, bound := false, assoc := false } := by
    rw [gotoClosed_flow, if_neg hc]
  have ok := (h.flow i).ok
  refine ⟨?_, by rw [r2, r1]; exact h.sum, ?_, ?_, ?_⟩
  · intro j
    rw [r1]
    by_cases e : j = i
    · subst e
      rw [hf]
      refine ⟨⟨ok.sorted, ok.range, ok.next, fun _ => hq, ?_, ?_, ?_, fun _ => rfl⟩, (h.flow j).perm, ?_⟩
      · intro _ k; exact absurd rfl k
      · intro k; cases k
      · intro k; rw [show (s.flow j).baseOpen = true from k] at hb; cases hb
      · intro k; exact absurd rfl k
    · rw [gotoClosed_other _ _ e]; exact h.flow j
  · rw [gotoClosed_sendFlows]; split
    · exact h.nodup.filter _
    · exact h.nodup
  · intro j
    rw [gotoClosed_sendFlows]
    by_cases e : j = i
    · subst e
      rw [hf]
      split
      · simp
      · rename_i hn
        simp only [ne_eq, hc, not_false_eq_true, true_and] at hn
        simp only [h.bound j]
        simpa using hn
    · rw [gotoClosed_other _ _ e]
      split
      · simp [e, h.bound j]
      · exact h.bound j
  · intro j
    rw [r3]
    by_cases e : j = i
    · subst e; rw [hf]; intro k; cases k
    · rw [gotoClosed_other _ _ e]; exact h.isOpen j

theorem FlowOk.noQueue {f : SF} (h : FlowOk f) (hn : ¬ f.nextSn > 1) : f.queue = [] := by
  cases hq : f.queue with
  | nil => rfl
  | cons a q => have := h.range a (by simp [hq]); omega

theorem closeState_books {s : SS} (h : Books s) (i : Nat) (now : Int) (rid : Nat) (names : Nat → Nat) (hb : (s.flow i).baseOpen = false) :
    Books (s.closeState i now rid names) := by
  rw [closeState]
  by_cases h1 : (s.flow i).state = .opened
  · rw [if_pos h1]
    by_cases h2 : (s.flow i).bound = true ∧ s.isOpen = true ∧ (s.flow i).nextSn > 1
    · rw [if_pos h2]
      have key : Books (s.addFin i now rid names) ∧ ((s.addFin i now rid names).flow i).state = .opened ∧
          ((s.addFin i now rid names).flow i).baseOpen = false ∧ ((s.addFin i now rid names).flow i).bound = true := by
        rcases addFin_cases s i now rid names with ⟨_, e⟩ | ⟨_, e⟩ <;> rw [e]
        · exact ⟨h, h1, hb, h2.1⟩
        · refine ⟨queueFrags_books h i (by rw [h1]; simp) _ _ _ _ _ _, ?_, ?_, ?_⟩ <;> rw [queueFrags_flow]
          · exact h1
          · exact hb
          · exact h2.1
      obtain ⟨k1, k2, k3, k4⟩ := key
      generalize s.addFin i now rid names = t at k1 k2 k3 k4
      have ok := (k1.flow i).ok
      refine k1.one i rfl rfl rfl rfl (by simp) (fun j hj => setFlow_other _ _ hj) ?_
      rw [setFlow_same]
      refine ⟨⟨ok.sorted, ok.range, ok.next, ok.unbound, ?_, ?_, ?_, ?_⟩, (k1.flow i).perm, ?_⟩
      · intro q; rw [show (t.flow i).bound = false from q] at k4; cases k4
      · intro q; cases q
      · intro q; rw [show (t.flow i).baseOpen = true from q] at k3; cases k3
      · intro q; cases q
      · intro _; exact (k1.flow i).out (by rw [k2]; simp)
    · rw [if_neg h2]
      refine gotoClosed_books h i hb ?_
      have ok := (h.flow i).ok
      cases hbd : (s.flow i).bound
      · exact ok.unbound hbd
      · rw [hbd] at h2
        simp only [h.isOpen i hbd, true_and] at h2
        rw [ok.noQueue h2]; simp
  · rw [if_neg h1]; exact h

theorem close_books {s : SS} (h : Books s) (i : Nat) (now : Int) (rid : Nat) (names : Nat → Nat) : Books (s.close i now rid names) := by
  have ok := (h.flow i).ok
  have h1 : Books (s.setFlow i { s.flow i with onException := false, baseOpen := false }) := by
    refine h.one i rfl rfl rfl rfl (by simp) (fun j hj => setFlow_other _ _ hj) ?_
    rw [setFlow_same]
    exact ⟨⟨ok.sorted, ok.range, ok.next, ok.unbound, ok.zero, ok.linger, (fun k => by cases k), ok.closed⟩, (h.flow i).perm, (h.flow i).out⟩
  have h2 := closeState_books h1 i now rid names (by simp)
  rw [close]
  dsimp only
  rw [if_neg]
  · exact h2
  · rintro ⟨a, b⟩
    rw [h2.isOpen i a] at b; cases b

theorem Books.receipts {s : SS} (h : Books s) (r : RStore) : Books { s with receipts := r } := ⟨h.flow, h.sum, h.nodup, h.bound, h.isOpen⟩

theorem exceptionReport_books {s : SS} (h : Books s) (i : Nat) (now : Int) (rid : Nat) (names : Nat → Nat) :
    Books (s.onExceptionReport i now rid names).1 := by
  have ok := (h.flow i).ok
  rw [onExceptionReport]
  dsimp only
  refine (close_books ?_ i now rid names).receipts _
  refine h.one i rfl rfl rfl rfl (by simp) (fun j hj => setFlow_other _ _ hj) ?_
  rw [setFlow_same]
  exact ⟨⟨ok.sorted, ok.range, ok.next, ok.unbound, ok.zero, ok.linger, ok.opened, ok.closed⟩, (h.flow i).perm, (h.flow i).out⟩

/-! ## transmission -/

theorem trim_books {s : SS} (h : Books s) (i : Nat) (now : Int) : Books (s.trim i now).1 := by
  rw [trim]
  dsimp only
  obtain ⟨k, e, hk⟩ := trimLoop_queue now (s.flow i).queue s.receipts
  have ok := (h.flow i).ok
  have hr : refs i ((s.flow i).queue.drop k) = refs i (s.flow i).queue := by
    conv => rhs; rw [← List.take_append_drop k (s.flow i).queue]
    rw [refs_append, refs_nil_of hk]; rfl
  have hfl : flight ((s.flow i).queue.drop k) = flight (s.flow i).queue := by rw [← total_refs i, hr, total_refs]
  refine (Books.one h i (t := s.setFlow i _) rfl rfl rfl rfl (by simp) (fun j hj => setFlow_other _ _ hj) ?_).receipts _
  rw [setFlow_same, e]
  have hm : ∀ x ∈ (s.flow i).queue.drop k, x ∈ (s.flow i).queue := fun x hx => List.mem_of_mem_drop hx
  refine ⟨⟨?_, fun x hx => ok.range x (hm x hx), ok.next, fun b x hx => ok.unbound b x (hm x hx), ok.zero, ?_, ok.opened, ok.closed⟩, ?_, ?_⟩
  · exact List.Pairwise.sublist (List.drop_sublist _ _) ok.sorted
  · intro q; show List.drop _ _ = []; rw [ok.linger q]; simp
  · show List.Perm _ (refs i (List.drop _ _)); rw [hr]; exact (h.flow i).perm
  · intro q; show (s.flow i).outstanding = flight (List.drop _ _) % W64; rw [hfl]; exact (h.flow i).out q

theorem dropOptions_eq (f : SF) (gone : Bool) : ∃ o a, dropOptions f gone = { f with options := o, assoc := a } := by
  rw [dropOptions]
  split
  · exact ⟨_, _, rfl⟩
  · exact ⟨f.options, f.assoc, rfl⟩

theorem ofFlow_other {i j : Nat} {new : List OutRef} (h : ∀ o ∈ new, o.flow = i) (hj : j ≠ i) : ofFlow j new = [] := by
  rw [ofFlow, List.filter_eq_nil_iff]
  intro o ho
  simp only [decide_eq_true_eq]
  intro e; rw [h o ho] at e; exact hj e.symm

theorem ofFlow_self {i : Nat} {new : List OutRef} (h : ∀ o ∈ new, o.flow = i) : ofFlow i new = new := by
  rw [ofFlow, List.filter_eq_self]
  intro o ho
  simp [h o ho]

theorem assembleData_books {s : SS} (h : Books s) (i : Nat) (p : PA) (pri : Nat) (now : Int) (gone : Bool) (hb : (s.flow i).bound = true) :
    Books (s.assembleData i p pri now gone).s := by
  rw [assembleData]
  split
  · exact h
  split
  · exact h
  dsimp only
  have ht := trim_books h i now
  have hbt : ((s.trim i now).1.flow i).bound = true := by rw [trim]; simpa using hb
  generalize (s.trim i now).1 = t at ht hbt ⊢
  obtain ⟨o, a, hd⟩ := dropOptions_eq (t.flow i) gone
  rw [hd]
  dsimp only
  generalize hc : (Ctx.mk _ _ _ _ _ _ _ _) = c
  have hci : c.flow = i := by rw [← hc]
  generalize hx : (Fill.mk _ _ _ _ _ _ _ _ _ _) = x
  obtain ⟨new, k⟩ := fill_books c (startAt (t.flow i).lastName (t.flow i).queue).2 x
  have hq := startAt_append (t.flow i).lastName (t.flow i).queue
  generalize (startAt (t.flow i).lastName (t.flow i).queue).1 = pre at hq ⊢
  generalize (startAt (t.flow i).lastName (t.flow i).queue).2 = q at hq k ⊢
  generalize (fill c x q).1 = y at k ⊢
  generalize (fill c x q).2 = q' at k ⊢
  have ok := (ht.flow i).ok
  have hx1 : x.outs = t.outs := by rw [← hx]
  have hx2 : x.outSum = t.outSum := by rw [← hx]
  have hx3 : x.outstanding = (t.flow i).outstanding := by rw [← hx]
  have hnc : (t.flow i).state ≠ .closed := fun e => by rw [ok.closed e] at hbt; cases hbt
  have hal : Alikes (t.flow i).queue (pre ++ q') := by rw [← hq]; exact (Alikes.refl pre).append k.alike
  have hkr := k.refs
  have hkf := k.flow
  rw [hci] at hkr hkf
  have hrefs : (refs i (pre ++ q')).Perm (refs i (t.flow i).queue ++ new) := by
    rw [← hq, refs_append, refs_append, List.append_assoc]
    exact hkr.append_left _
  have hbound : ∀ j, ((({ t.setFlow i { t.flow i with options := o, assoc := a, outstanding := y.outstanding, lastName := y.lastName, queue := pre ++ q' } with
      receipts := y.receipts, outs := y.outs, outSum := y.outSum } : SS).flow j).bound) = (t.flow j).bound := by
    intro j
    by_cases e : j = i
    · subst e; simp [setFlow]
    · simp [setFlow, e]
  refine ⟨?_, ?_, ht.nodup, fun j => ?_, fun j hj => ?_⟩
  · intro j
    show FlowBooks j ((t.setFlow i _).flow j) y.outs
    rw [k.outs, hx1]
    by_cases e : j = i
    · subst e
      rw [setFlow_same]
      refine ⟨⟨hal.sorted ok.sorted, ?_, ok.next, ?_, ?_, ?_, ok.opened, ok.closed⟩, ?_, ?_⟩
      · intro z hz
        obtain ⟨w, hw, e⟩ := hal.mem hz
        rw [e.sn]; exact ok.range w hw
      · intro hh; rw [show (t.flow j).bound = false from hh] at hbt; cases hbt
      · intro hh; rw [show (t.flow j).bound = false from hh] at hbt; cases hbt
      · intro hh
        have := ok.linger hh
        rw [this] at hal
        show pre ++ q' = []
        cases hp : pre ++ q' with
        | nil => rfl
        | cons _ _ => rw [hp] at hal; cases hal
      · rw [ofFlow_append, ofFlow_self hkf]
        exact ((ht.flow j).perm.append_right _).trans hrefs.symm
      · intro _
        show y.outstanding = flight (pre ++ q') % W64
        rw [k.outstanding (flight (t.flow j).queue) (by rw [hx3]; exact (ht.flow j).out hnc)]
        rw [← total_refs j (pre ++ q'), total_perm hrefs, total_append, total_refs]
    · rw [setFlow_other _ _ e]
      refine ⟨(ht.flow j).ok, ?_, (ht.flow j).out⟩
      rw [ofFlow_append, ofFlow_other hkf e, List.append_nil]
      exact (ht.flow j).perm
  · show y.outSum = total y.outs % W64
    rw [k.outs, hx1, total_append]
    exact k.outSum _ (by rw [hx2]; exact ht.sum)
  · rw [hbound]; exact ht.bound j
  · exact ht.isOpen j (by rw [← hbound]; exact hj)

theorem afterSend_books {s : SS} (h : Books s) (b : Bool) : Books (s.afterSend b) := by
  rw [afterSend]; split
  · exact ⟨h.flow, h.sum, h.nodup, h.bound, h.isOpen⟩
  · exact h

/-! ## acknowledgement and loss -/

theorem onAck_books {s : SS} (h : Books s) (i b : Nat) (rs : List (Nat × Nat)) : Books (s.onAck i b rs).1 := by
  rw [onAck]
  dsimp only
  by_cases h1 : (s.flow i).state.rank ≥ SFState.completeLinger.rank
  · rw [if_pos h1]; exact h
  rw [if_neg h1]
  have ok := (h.flow i).ok
  have hnc : (s.flow i).state ≠ .closed := by intro e; rw [e] at h1; simp [SFState.rank] at h1
  have hnl : (s.flow i).state ≠ .completeLinger := by intro e; rw [e] at h1; simp [SFState.rank] at h1
  obtain ⟨k, hsub⟩ := ackRanges_books i (s.outs.filter (fun o => !decide (o.flow = i))) rs (s.flow i).queue []
    ⟨s.receipts, (s.flow i).outstanding, s.outs, s.outSum, s.maxTsnAck, []⟩ ok.sorted
    ⟨(h.flow i).perm, rfl, (h.flow i).out hnc, h.sum⟩
  generalize ackRanges i rs _ _ = x at k hsub ⊢
  rw [List.nil_append] at k
  have hm : ∀ z ∈ x.2, z ∈ (s.flow i).queue := fun z hz => hsub.subset hz
  generalize (if (s.flow i).options = [] then (s.flow i).assoc else false) = as
  have hfb : FlowBooks i (lingerIf { s.flow i with options := [], assoc := as, rxBuffer := b, outstanding := x.1.outstanding, queue := x.2 }) x.1.outs ∧
      (lingerIf { s.flow i with options := [], assoc := as, rxBuffer := b, outstanding := x.1.outstanding, queue := x.2 }).bound = (s.flow i).bound := by
    rw [lingerIf]
    split
    · rename_i hg
      refine ⟨⟨⟨List.Pairwise.sublist hsub ok.sorted, fun z hz => ok.range z (hm z hz), ok.next, fun q z hz => ok.unbound q z (hm z hz), ?_, fun _ => hg.2, ?_, ?_⟩, k.perm, fun _ => k.out⟩, rfl⟩
      · intro q
        have := (ok.zero q hnc).2
        rw [hg.1] at this; cases this
      · intro q
        have := ok.opened q
        rw [hg.1] at this; cases this
      · intro q; cases q
    · refine ⟨⟨⟨List.Pairwise.sublist hsub ok.sorted, fun z hz => ok.range z (hm z hz), ok.next, fun q z hz => ok.unbound q z (hm z hz), ?_, ?_, ok.opened, ok.closed⟩, k.perm, fun _ => k.out⟩, rfl⟩
      · intro q _
        refine ⟨?_, (ok.zero q hnc).2⟩
        show x.1.outstanding = 0
        rw [k.out, flight_zero_of (fun z hz => ok.unbound q z (hm z hz))]
      · intro q; exact absurd q hnl
  generalize lingerIf _ = f' at hfb ⊢
  have hbound : ∀ j, ((({ s.setFlow i f' with receipts := x.1.receipts, outs := x.1.outs, outSum := x.1.outSum, maxTsnAck := x.1.maxTsnAck } : SS).flow j).bound) = (s.flow j).bound := by
    intro j
    by_cases e : j = i
    · subst e; simpa [setFlow] using hfb.2
    · simp [setFlow, e]
  refine ⟨?_, k.sum, h.nodup, fun j => ?_, fun j hj => ?_⟩
  · intro j
    show FlowBooks j ((s.setFlow i f').flow j) x.1.outs
    by_cases e : j = i
    · subst e; rw [setFlow_same]; exact hfb.1
    · rw [setFlow_other _ _ e]
      refine ⟨(h.flow j).ok, ?_, (h.flow j).out⟩
      have e2 : ∀ l : List OutRef, ofFlow j l = ofFlow j (l.filter (fun o => !decide (o.flow = i))) := by
        intro l
        simp only [ofFlow, List.filter_filter]
        apply List.filter_congr
        intro o _
        by_cases hh : o.flow = j
        · simp [hh, e]
        · simp [hh]
      rw [e2, k.other, ← e2]
      exact (h.flow j).perm
  · rw [hbound]; exact h.bound j
  · exact h.isOpen j (by rw [← hbound]; exact hj)

theorem lose_books {s : SS} {l1 l2 : List OutRef} {o : OutRef} (h : ∀ i, FlowBooks i (s.flow i) (l1 ++ o :: l2)) :
    (∀ i, FlowBooks i ((lose s o).flow i) (l1 ++ l2)) ∧ (∀ i, ((lose s o).flow i).bound = (s.flow i).bound) := by
  have hi := h o.flow
  have ho : o ∈ refs o.flow (s.flow o.flow).queue := hi.perm.mem_iff.mp (by simp [ofFlow])
  obtain ⟨p1, p2⟩ := lost_books (s.flow o.flow).queue o.flow hi.ok.sorted o ho
  have hal := modFrag_alikes (s.flow o.flow).queue o.sn (fun x => { x with inFlight := false }) (fun x => ⟨rfl, rfl, rfl, rfl, rfl⟩)
  have hfl : ∀ z ∈ modFrag (s.flow o.flow).queue o.sn (fun x => { x with inFlight := false }), z.inFlight = true → z ∈ (s.flow o.flow).queue := by
    intro z hz hzf
    simp only [modFrag, List.mem_map] at hz
    obtain ⟨w, hw, e⟩ := hz
    split at e
    · rw [← e] at hzf; cases hzf
    · rw [← e]; exact hw
  generalize hq : modFrag (s.flow o.flow).queue o.sn (fun x => { x with inFlight := false }) = q at p1 p2 hal hfl
  have hnb : (s.flow o.flow).bound = true := by
    cases hb : (s.flow o.flow).bound
    · obtain ⟨f, hf, k, _⟩ := refs_mem.mp ho
      rw [hi.ok.unbound hb f hf] at k; cases k
    · rfl
  have hnc : (s.flow o.flow).state ≠ .closed := fun e => by rw [hi.ok.closed e] at hnb; cases hnb
  have ok := hi.ok
  constructor
  · intro i
    by_cases e : i = o.flow
    · subst e
      rw [lose]
      rw [setFlow_same, hq]
      refine ⟨⟨hal.sorted ok.sorted, ?_, ok.next, ?_, ?_, ?_, ok.opened, ok.closed⟩, ?_, ?_⟩
      · intro z hz
        obtain ⟨w, hw, e⟩ := hal.mem hz
        rw [e.sn]; exact ok.range w hw
      · intro hh; rw [show (s.flow o.flow).bound = false from hh] at hnb; cases hnb
      · intro hh; rw [show (s.flow o.flow).bound = false from hh] at hnb; cases hnb
      · intro hh
        rw [ok.linger hh] at hal
        show q = []
        cases hp : q with
        | nil => rfl
        | cons _ _ => rw [hp] at hal; cases hal
      · have p3 := hi.perm
        rw [ofFlow_append, show ofFlow o.flow (o :: l2) = o :: ofFlow o.flow l2 by simp [ofFlow]] at p3
        rw [ofFlow_append]
        exact (List.perm_cons o).mp ((List.perm_middle.symm.trans p3).trans p1)
      · intro _
        show sub64 (s.flow o.flow).outstanding o.size = flight q % W64
        rw [hi.out hnc, p2, sub64_mod]
    · rw [lose]
      rw [setFlow_other _ _ e]
      refine ⟨(h i).ok, ?_, (h i).out⟩
      have := (h i).perm
      rw [ofFlow_append] at this ⊢
      rwa [show ofFlow i (o :: l2) = ofFlow i l2 by simp [ofFlow, Ne.symm e]] at this
  · intro i
    rw [lose]
    by_cases e : i = o.flow
    · subst e; simp
    · rw [setFlow_other _ _ e]

theorem lose_rest (s : SS) (o : OutRef) : (lose s o).sendFlows = s.sendFlows ∧ (lose s o).isOpen = s.isOpen ∧ (lose s o).outs = s.outs ∧
    (lose s o).outSum = s.outSum ∧ (lose s o).receipts = s.receipts ∧ (lose s o).maxTsnAck = s.maxTsnAck := by
  rw [lose]; exact ⟨rfl, rfl, rfl, rfl, rfl, rfl⟩

theorem loseAll_books (l : List OutRef) : ∀ s : SS, (∀ i, FlowBooks i (s.flow i) l) →
    (∀ i, FlowBooks i ((l.foldl lose s).flow i) []) ∧ (∀ i, ((l.foldl lose s).flow i).bound = (s.flow i).bound) ∧
    (l.foldl lose s).sendFlows = s.sendFlows ∧ (l.foldl lose s).isOpen = s.isOpen := by
  induction l with
  | nil => intro s h; exact ⟨h, fun _ => rfl, rfl, rfl⟩
  | cons o l ih =>
    intro s h
    obtain ⟨a, b⟩ := lose_books (l1 := []) h
    obtain ⟨c, d, e, f⟩ := ih (lose s o) a
    obtain ⟨r1, r2, _⟩ := lose_rest s o
    exact ⟨c, fun i => (d i).trans (b i), e.trans r1, f.trans r2⟩

theorem timeout_books {s : SS} (h : Books s) : Books s.timeout := by
  obtain ⟨a, b, c, d⟩ := loseAll_books s.outs s h.flow
  rw [timeout]
  refine ⟨a, rfl, by show (List.foldl lose s s.outs).sendFlows.Nodup; rw [c]; exact h.nodup, fun i => ?_, fun i hi => ?_⟩
  · show i ∈ (List.foldl lose s s.outs).sendFlows ↔ ((List.foldl lose s s.outs).flow i).bound = true
    rw [c, b]; exact h.bound i
  · show (List.foldl lose s s.outs).isOpen = true
    rw [d]; exact h.isOpen i (by rw [← b i]; exact hi)

/-- the name of a reference -/
def key (o : OutRef) : Nat × Nat := (o.flow, o.sn)

/-- no fragment is twice in the list -/
theorem outs_keys {s : SS} (h : ∀ i, FlowBooks i (s.flow i) s.outs) : s.outs.Pairwise (fun a b => ¬ (a.flow = b.flow ∧ a.sn = b.sn)) := by
  have key : ∀ l : List OutRef, (∀ i, (ofFlow i l).Pairwise (fun a b => a.sn ≠ b.sn)) → l.Pairwise (fun a b => ¬ (a.flow = b.flow ∧ a.sn = b.sn)) := by
    intro l
    induction l with
    | nil => intro _; exact .nil
    | cons o l ih =>
      intro hl
      rw [List.pairwise_cons]
      refine ⟨?_, ih fun i => ?_⟩
      · rintro b hb ⟨e1, e2⟩
        have := hl o.flow
        rw [show ofFlow o.flow (o :: l) = o :: ofFlow o.flow l by simp [ofFlow], List.pairwise_cons] at this
        exact this.1 b (by simp [ofFlow, hb, e1]) e2
      · exact List.Pairwise.sublist (by
          simp only [ofFlow]; exact (List.sublist_cons_self _ _).filter _) (hl i)
  refine key _ fun i => ?_
  have hp := (h i).perm
  have h1 : (refs i (s.flow i).queue).Pairwise (fun a b => a.sn ≠ b.sn) := by
    rw [refs, List.pairwise_map]
    refine List.Pairwise.imp ?_ (List.Pairwise.sublist List.filter_sublist (h i).ok.sorted)
    intro a b hab
    simp only [refOf]; omega
  exact hp.symm.pairwise h1 (fun h => Ne.symm h)

theorem nakFrag_books {s : SS} (h : Books s) (o : OutRef) : Books (nakFrag s o) := by
  have ok := (h.flow o.flow).ok
  have hal := modFrag_alikes (s.flow o.flow).queue o.sn (fun x => { x with nak := x.nak + 1 }) (fun x => ⟨rfl, rfl, rfl, rfl, rfl⟩)
  obtain ⟨e1, e2⟩ := modFrag_keep (s.flow o.flow).queue o.sn (fun x => { x with nak := x.nak + 1 }) (fun x => ⟨rfl, rfl, rfl, rfl⟩) o.flow
  have hfl : ∀ z ∈ modFrag (s.flow o.flow).queue o.sn (fun x => { x with nak := x.nak + 1 }), ∃ w ∈ (s.flow o.flow).queue, z.inFlight = w.inFlight := by
    intro z hz
    simp only [modFrag, List.mem_map] at hz
    obtain ⟨w, hw, e⟩ := hz
    refine ⟨w, hw, ?_⟩
    rw [← e]; split <;> rfl
  rw [nakFrag]
  generalize modFrag (s.flow o.flow).queue o.sn (fun x => { x with nak := x.nak + 1 }) = q at *
  refine h.one o.flow rfl rfl rfl rfl (by simp) (fun j hj => setFlow_other _ _ hj) ?_
  rw [setFlow_same]
  refine ⟨⟨hal.sorted ok.sorted, ?_, ok.next, ?_, ok.zero, ?_, ok.opened, ok.closed⟩, ?_, ?_⟩
  · intro z hz
    obtain ⟨w, hw, e⟩ := hal.mem hz
    rw [e.sn]; exact ok.range w hw
  · intro b z hz
    obtain ⟨w, hw, e⟩ := hfl z hz
    rw [e]; exact ok.unbound b w hw
  · intro hh
    rw [ok.linger hh] at hal
    show q = []
    cases hp : q with
    | nil => rfl
    | cons _ _ => rw [hp] at hal; cases hal
  · show List.Perm _ (refs o.flow q)
    rw [e1]; exact (h.flow o.flow).perm
  · intro k
    show (s.flow o.flow).outstanding = flight q % W64
    rw [e2]; exact (h.flow o.flow).out k

theorem filter_key {l1 l2 : List OutRef} {o : OutRef} (h : (l1 ++ o :: l2).Pairwise (fun a b => ¬ (a.flow = b.flow ∧ a.sn = b.sn))) :
    (l1 ++ o :: l2).filter (fun p => !(decide (p.flow = o.flow) && decide (p.sn = o.sn))) = l1 ++ l2 := by
  rw [List.pairwise_append, List.pairwise_cons] at h
  obtain ⟨_, ⟨h2, _⟩, h3⟩ := h
  rw [List.filter_append, List.filter_cons_of_neg (by simp), ← List.filter_append, List.filter_eq_self]
  intro p hp
  simp only [Bool.not_eq_true', Bool.and_eq_false_imp, decide_eq_true_eq, decide_eq_false_iff_not]
  intro e1 e2
  rcases List.mem_append.mp hp with k | k
  · exact h3 p k o (by simp) ⟨e1, e2⟩
  · exact h2 p k ⟨e1.symm, e2.symm⟩

/-- a fragment declared lost -/
theorem loseOne_books {s : SS} (h : Books s) {o : OutRef} (ho : o ∈ s.outs) :
    Books { lose s o with outs := (lose s o).outs.filter (fun p => !(decide (p.flow = o.flow) && decide (p.sn = o.sn))), outSum := sub64 (lose s o).outSum o.size } := by
  obtain ⟨r1, r2, r3, r4, _⟩ := lose_rest s o
  have hk := outs_keys h.flow
  obtain ⟨l1, l2, e⟩ := List.append_of_mem ho
  have hfl := h.flow
  rw [e] at hfl hk
  obtain ⟨a, b⟩ := lose_books hfl
  refine ⟨?_, ?_, by show (lose s o).sendFlows.Nodup; rw [r1]; exact h.nodup, fun i => ?_, fun i hi => ?_⟩
  · intro i
    show FlowBooks i ((lose s o).flow i) (List.filter _ (lose s o).outs)
    rw [r3, e, filter_key hk]
    exact a i
  · show sub64 (lose s o).outSum o.size = total (List.filter _ (lose s o).outs) % W64
    rw [r3, r4, h.sum, e, filter_key hk]
    have : total (l1 ++ o :: l2) = total (l1 ++ l2) + o.size := by simp [total]; omega
    rw [this, sub64_mod]
  · show i ∈ (lose s o).sendFlows ↔ ((lose s o).flow i).bound = true
    rw [r1, b]; exact h.bound i
  · show (lose s o).isOpen = true
    rw [r2]; exact h.isOpen i (by rw [← b i]; exact hi)

theorem nakLoop_books (l : List OutRef) : ∀ (s : SS) (k : Nak), Books s → (∀ o ∈ l, o ∈ s.outs) →
    l.Pairwise (fun a b => ¬ (a.flow = b.flow ∧ a.sn = b.sn)) → Books (nakLoop s k l).1 := by
  induction l with
  | nil => intro s k h _ _; exact h
  | cons o l ih =>
    intro s k h hl hp
    rw [List.pairwise_cons] at hp
    rw [nakLoop]
    split
    · exact h
    have h1 := nakFrag_books h o
    have ho1 : (nakFrag s o).outs = s.outs := rfl
    dsimp only
    split
    · exact ih _ _ h1 (fun p hp => hl p (by simp [hp])) hp.2
    · split
      · refine ih _ _ (loseOne_books h1 (hl o (by simp))) ?_ hp.2
        intro p hpl
        show p ∈ List.filter _ (lose (nakFrag s o) o).outs
        rw [(lose_rest _ _).2.2.1, List.mem_filter]
        refine ⟨hl p (by simp [hpl]), ?_⟩
        simp only [Bool.not_eq_true', Bool.and_eq_false_imp, decide_eq_true_eq, decide_eq_false_iff_not]
        intro e1 e2
        exact hp.1 p hpl ⟨e1.symm, e2.symm⟩
      · exact ih _ _ h1 (fun p hp => hl p (by simp [hp])) hp.2

theorem afterAcks_books {s : SS} (h : Books s) (c : Bool) : Books (s.afterAcks c).1 :=
  nakLoop_books _ _ _ h (fun _ h => h) (outs_keys h.flow)

end SS
end Rtmfp
