import Verif.Spec.RunLoop
/-! # Performers: what holds in every history -/
namespace Rtmfp
namespace Perf
open Spec.Perf

theorem queued_append (a b : List Ev) : queued (a ++ b) = queued a ++ queued b := by simp [queued]
theorem started_append (a b : List Ev) : started (a ++ b) = started a ++ started b := by simp [started]
theorem taken_append (a b : List Ev) : taken (a ++ b) = taken a ++ taken b := by simp [taken]

/-- the ways a step can go -/
inductive Way (st : St) : Op → St → List Ev → Prop
  | refused (op : Op) (hc : st.closed = true) : Way st op st []
  | call (t : Nat) (w : Bool) (hp : st.pcs t = .idle) (hc : st.closed = false) : Way st (.call t w) (st.goto t (.entered w)) []
  | push (t : Nat) (w : Bool) (hp : st.pcs t = .entered w) : Way st (.push t)
      { st.goto t (.pushed st.next w) with items := st.items ++ [st.next], next := st.next + 1 } [.queued st.next]
  | seen (t id : Nat) (w : Bool) (hp : st.pcs t = .pushed id w) (hs : st.signaled = true) : Way st (.look t) (st.goto t (afterSignal id w)) []
  | unseen (t id : Nat) (w : Bool) (hp : st.pcs t = .pushed id w) (hs : st.signaled = false) : Way st (.look t) (st.goto t (.unsignaled id w)) []
  | signal (t id : Nat) (w : Bool) (hp : st.pcs t = .unsignaled id w) : Way st (.signal t) { st.goto t (.writing id w) with signaled := true } []
  | write (t id : Nat) (w : Bool) (hp : st.pcs t = .writing id w) : Way st (.write t)
      { st.goto t (afterSignal id w) with bytes := st.bytes + 1 } []
  | resume (t id : Nat) (hp : st.pcs t = .waiting id) (hc : id ∈ st.complete) : Way st (.resume t) (st.goto t .idle) [.resumed t id]
  | wake (hs : st.stack = []) (hb : 0 < st.bytes) (hc : st.closed = false) : Way st .wake { st with signaled := false, stack := [.reading] } []
  | read (s : List Frame) (hs : st.stack = .reading :: s) (hb : 0 < st.bytes) : Way st .read
      { st with bytes := st.bytes - 1, stack := .firing :: s } []
  | drained (s : List Frame) (hs : st.stack = .firing :: s) (hi : st.items = []) : Way st .fire { st with stack := s } []
  | drop (s : List Frame) (hs : st.stack = .firing :: s) (id : Nat) (l : List Nat) (hi : st.items = id :: l) (hc : st.closed = true) :
      Way st .fire { st with items := l } [.dropped id]
  | fire (s : List Frame) (hs : st.stack = .firing :: s) (id : Nat) (l : List Nat) (hi : st.items = id :: l) (hc : st.closed = false) :
      Way st .fire { st with items := l, stack := .running id :: .firing :: s } [.started id]
  | done (id : Nat) (s : List Frame) (hs : st.stack = .running id :: s) : Way st .done
      { st with stack := s, complete := id :: st.complete } [.finished id]
  | doneDirect (id : Nat) (s : List Frame) (hs : st.stack = .direct id :: s) : Way st .done { st with stack := s } [.finished id]
  | performWait (hf : free st.stack = true) (hc : st.closed = false) : Way st .performWait
      { st with stack := .firing :: .before st.next :: st.stack, next := st.next + 1 } [.asked st.next]
  | start (id : Nat) (s : List Frame) (hs : st.stack = .before id :: s) : Way st .start { st with stack := .direct id :: s } [.started id]
  | close (hf : free st.stack = true) (hc : st.closed = false) : Way st .close { st with closed := true, stack := .firing :: st.stack } [.closed]

theorem step_way {st : St} {op : Op} {st' : St} {evs : List Ev} (h : step st op = some (st', evs)) : Way st op st' evs := by
  cases op with
  | call t w =>
    simp only [step] at h
    split at h
    next hp =>
      simp only [Option.some.injEq, Prod.mk.injEq] at h
      obtain ⟨rfl, rfl⟩ := h
      by_cases hc : st.closed = true
      · rw [if_pos hc]; exact .refused _ hc
      · rw [if_neg hc]; exact .call t w hp (by simpa using hc)
    next => cases h
  | push t =>
    simp only [step] at h
    split at h
    next w hp => simp only [Option.some.injEq, Prod.mk.injEq] at h; obtain ⟨rfl, rfl⟩ := h; exact .push t w hp
    next => cases h
  | look t =>
    simp only [step] at h
    split at h
    next id w hp =>
      simp only [Option.some.injEq, Prod.mk.injEq] at h
      obtain ⟨rfl, rfl⟩ := h
      by_cases hc : st.signaled = true
      · rw [if_pos hc]; exact .seen t id w hp hc
      · rw [if_neg hc]; exact .unseen t id w hp (by simpa using hc)
    next => cases h
  | signal t =>
    simp only [step] at h
    split at h
    next id w hp => simp only [Option.some.injEq, Prod.mk.injEq] at h; obtain ⟨rfl, rfl⟩ := h; exact .signal t id w hp
    next => cases h
  | write t =>
    simp only [step] at h
    split at h
    next id w hp => simp only [Option.some.injEq, Prod.mk.injEq] at h; obtain ⟨rfl, rfl⟩ := h; exact .write t id w hp
    next => cases h
  | resume t =>
    simp only [step] at h
    split at h
    next id hp =>
      split at h
      next hc =>
        simp only [Option.some.injEq, Prod.mk.injEq] at h
        obtain ⟨rfl, rfl⟩ := h
        exact .resume t id hp (by simpa using hc)
      next => cases h
    next => cases h
  | wake =>
    simp only [step] at h
    split at h
    next hc => simp only [Option.some.injEq, Prod.mk.injEq] at h; obtain ⟨rfl, rfl⟩ := h; exact .wake hc.1 hc.2.1 hc.2.2
    next => cases h
  | read =>
    simp only [step] at h
    split at h
    next s hs =>
      split at h
      next hb => simp only [Option.some.injEq, Prod.mk.injEq] at h; obtain ⟨rfl, rfl⟩ := h; exact .read s hs hb
      next => cases h
    next => cases h
  | fire =>
    simp only [step] at h
    split at h
    next s hs =>
      split at h
      next hi => simp only [Option.some.injEq, Prod.mk.injEq] at h; obtain ⟨rfl, rfl⟩ := h; exact .drained s hs hi
      next id l hi =>
        split at h
        next hc => simp only [Option.some.injEq, Prod.mk.injEq] at h; obtain ⟨rfl, rfl⟩ := h; exact .drop s hs id l hi hc
        next hc => simp only [Option.some.injEq, Prod.mk.injEq] at h; obtain ⟨rfl, rfl⟩ := h; exact .fire s hs id l hi (by simpa using hc)
    next => cases h
  | done =>
    simp only [step] at h
    split at h
    next id s hs => simp only [Option.some.injEq, Prod.mk.injEq] at h; obtain ⟨rfl, rfl⟩ := h; exact .done id s hs
    next id s hs => simp only [Option.some.injEq, Prod.mk.injEq] at h; obtain ⟨rfl, rfl⟩ := h; exact .doneDirect id s hs
    next => cases h
  | performWait =>
    simp only [step] at h
    split at h
    next hf =>
      split at h
      next hc => simp only [Option.some.injEq, Prod.mk.injEq] at h; obtain ⟨rfl, rfl⟩ := h; exact .refused _ hc
      next hc => simp only [Option.some.injEq, Prod.mk.injEq] at h; obtain ⟨rfl, rfl⟩ := h; exact .performWait hf (by simpa using hc)
    next => cases h
  | start =>
    simp only [step] at h
    split at h
    next id s hs => simp only [Option.some.injEq, Prod.mk.injEq] at h; obtain ⟨rfl, rfl⟩ := h; exact .start id s hs
    next => cases h
  | close =>
    simp only [step] at h
    split at h
    next hf =>
      split at h
      next hc => simp only [Option.some.injEq, Prod.mk.injEq] at h; obtain ⟨rfl, rfl⟩ := h; exact .refused _ hc
      next hc => simp only [Option.some.injEq, Prod.mk.injEq] at h; obtain ⟨rfl, rfl⟩ := h; exact .close hf (by simpa using hc)
    next => cases h

theorem goto_same (st : St) (t : Nat) (pc : Pc) : (st.goto t pc).pcs t = pc := by simp [St.goto]
theorem goto_other (st : St) (t t' : Nat) (pc : Pc) (h : t' ≠ t) : (st.goto t pc).pcs t' = st.pcs t' := by simp [St.goto, h]

/-! ## no wakeup is lost -/

/-- the signal in every state of a history -/
structure WInv (st : St) : Prop where
  reading : Frame.reading ∈ st.stack → st.stack = [.reading] ∧ 0 < st.bytes
  signaled : st.signaled = true → 0 < st.bytes ∨ ∃ t id w, st.pcs t = .writing id w
  again : st.signaled = true → Frame.reading ∈ st.stack → 1 < st.bytes ∨ ∃ t id w, st.pcs t = .writing id w
  items : st.items ≠ [] → Frame.reading ∈ st.stack ∨ Frame.firing ∈ st.stack ∨ 0 < st.bytes ∨ ∃ t, Busy (st.pcs t)

theorem busy_writing {pc : Pc} {id : Nat} {w : Bool} (h : pc = .writing id w) : Busy pc := by rw [h]; trivial

theorem writing_goto {st : St} {t : Nat} {pc : Pc} (hp : ∀ id w, st.pcs t ≠ .writing id w) (h : ∃ t id w, st.pcs t = .writing id w) :
    ∃ t' id w, (st.goto t pc).pcs t' = .writing id w := by
  obtain ⟨t', id, w, h⟩ := h
  refine ⟨t', id, w, ?_⟩
  rw [goto_other _ _ _ _ (fun e => hp id w (by rw [← e]; exact h))]
  exact h

theorem busy_goto {st : St} {t : Nat} {pc : Pc} (hp : ¬ Busy (st.pcs t)) (h : ∃ t, Busy (st.pcs t)) : ∃ t', Busy ((st.goto t pc).pcs t') := by
  obtain ⟨t', h⟩ := h
  refine ⟨t', ?_⟩
  rw [goto_other _ _ _ _ (fun e => hp (by rw [← e]; exact h))]
  exact h

theorem free_not_reading {st : St} (h : WInv st) (hf : free st.stack = true) : Frame.reading ∉ st.stack := by
  intro hr
  rw [(h.reading hr).1] at hf
  cases hf

theorem WInv.step {st : St} (h : WInv st) {op : Op} {st' : St} {evs' : List Ev} (hs : Perf.step st op = some (st', evs')) : WInv st' := by
  cases step_way hs with
  | refused _ hc => exact h
  | call t w hp hc =>
    have hw : ∀ id w, st.pcs t ≠ .writing id w := fun id w e => by rw [hp] at e; cases e
    have hb : ¬ Busy (st.pcs t) := by rw [hp]; exact id
    exact ⟨h.reading, fun hs => (h.signaled hs).imp id (writing_goto hw), fun hs hr => (h.again hs hr).imp id (writing_goto hw),
      fun hi => (h.items hi).imp id (fun x => x.imp id (fun x => x.imp id (busy_goto hb)))⟩
  | push t w hp =>
    have hw : ∀ id w, st.pcs t ≠ .writing id w := fun id w e => by rw [hp] at e; cases e
    refine ⟨h.reading, fun hs => (h.signaled hs).imp id (writing_goto hw), fun hs hr => (h.again hs hr).imp id (writing_goto hw), ?_⟩
    intro _
    exact Or.inr (Or.inr (Or.inr ⟨t, by show Busy ((st.goto t _).pcs t); rw [goto_same]; trivial⟩))
  | seen t id w hp hsig =>
    have hw : ∀ id w, st.pcs t ≠ .writing id w := fun id w e => by rw [hp] at e; cases e
    refine ⟨h.reading, fun hs => (h.signaled hs).imp (fun x => x) (writing_goto hw), fun hs hr => (h.again hs hr).imp (fun x => x) (writing_goto hw), ?_⟩
    intro _
    refine Or.inr (Or.inr ((h.signaled hsig).imp (fun x => x) (fun x => ?_)))
    obtain ⟨t', id', w', hx⟩ := writing_goto (pc := afterSignal id w) hw x
    exact ⟨t', busy_writing hx⟩
  | unseen t id w hp hsig =>
    have hw : ∀ id w, st.pcs t ≠ .writing id w := fun id w e => by rw [hp] at e; cases e
    refine ⟨h.reading, fun hs => (h.signaled hs).imp (fun x => x) (writing_goto hw), fun hs hr => (h.again hs hr).imp (fun x => x) (writing_goto hw), ?_⟩
    intro _
    exact Or.inr (Or.inr (Or.inr ⟨t, by show Busy ((st.goto t _).pcs t); rw [goto_same]; trivial⟩))
  | signal t id w hp =>
    have hx : ∃ t' id' w', (st.goto t (.writing id w)).pcs t' = .writing id' w' := ⟨t, id, w, goto_same _ _ _⟩
    refine ⟨h.reading, fun _ => Or.inr hx, fun _ _ => Or.inr hx, fun _ => Or.inr (Or.inr (Or.inr ?_))⟩
    obtain ⟨t', id', w', hx⟩ := hx
    exact ⟨t', busy_writing hx⟩
  | write t id w hp =>
    refine ⟨fun hr => ⟨(h.reading hr).1, Nat.succ_pos _⟩, fun _ => Or.inl (Nat.succ_pos _), fun _ hr => Or.inl ?_,
      fun _ => Or.inr (Or.inr (Or.inl (Nat.succ_pos _)))⟩
    show 1 < st.bytes + 1
    have := (h.reading hr).2
    omega
  | resume t id hp hc =>
    have hw : ∀ id w, st.pcs t ≠ .writing id w := fun id w e => by rw [hp] at e; cases e
    have hb : ¬ Busy (st.pcs t) := by rw [hp]; exact fun x => x
    exact ⟨h.reading, fun hs => (h.signaled hs).imp (fun x => x) (writing_goto hw), fun hs hr => (h.again hs hr).imp (fun x => x) (writing_goto hw),
      fun hi => (h.items hi).imp (fun x => x) (fun x => x.imp (fun x => x) (fun x => x.imp (fun x => x) (busy_goto hb)))⟩
  | wake hst hb hc => exact ⟨fun _ => ⟨rfl, hb⟩, fun e => by simp at e, fun e => by simp at e, fun _ => Or.inl (by simp)⟩
  | read s hst hb =>
    have hr : Frame.reading ∈ st.stack := by rw [hst]; simp
    have hs0 : s = [] := by
      have := (h.reading hr).1
      rw [hst] at this
      simpa using this
    subst hs0
    refine ⟨fun e => by simp at e, fun e => ?_, fun _ e => by simp at e, fun _ => Or.inr (Or.inl (by simp))⟩
    rcases h.again e hr with hh | hh
    · left
      show 0 < st.bytes - 1
      omega
    · exact Or.inr hh
  | drained s hst hi =>
    have hns : Frame.reading ∈ s → False := fun e => by
      have := (h.reading (by rw [hst]; exact List.mem_cons_of_mem _ e)).1
      rw [hst] at this
      simp at this
    refine ⟨fun e => (hns e).elim, h.signaled, fun _ e => (hns e).elim, fun e => absurd hi e⟩
  | drop s hst id l hi hc =>
    refine ⟨h.reading, h.signaled, h.again, fun _ => Or.inr (Or.inl ?_)⟩
    show Frame.firing ∈ st.stack
    rw [hst]; simp
  | fire s hst id l hi hc =>
    have hns : Frame.reading ∈ s → False := fun e => by
      have := (h.reading (by rw [hst]; exact List.mem_cons_of_mem _ e)).1
      rw [hst] at this
      simp at this
    refine ⟨fun e => ?_, h.signaled, fun _ e => ?_, fun _ => Or.inr (Or.inl (by simp))⟩
    · simp only [List.mem_cons, reduceCtorEq, false_or] at e
      exact (hns e).elim
    · simp only [List.mem_cons, reduceCtorEq, false_or] at e
      exact (hns e).elim
  | done id s hst =>
    have hns : Frame.reading ∈ s → False := fun e => by
      have := (h.reading (by rw [hst]; exact List.mem_cons_of_mem _ e)).1
      rw [hst] at this
      simp at this
    refine ⟨fun e => (hns e).elim, h.signaled, fun _ e => (hns e).elim, fun hi => ?_⟩
    have := h.items hi
    rw [hst] at this
    simp only [List.mem_cons, reduceCtorEq, false_or] at this
    exact this
  | doneDirect id s hst =>
    have hns : Frame.reading ∈ s → False := fun e => by
      have := (h.reading (by rw [hst]; exact List.mem_cons_of_mem _ e)).1
      rw [hst] at this
      simp at this
    refine ⟨fun e => (hns e).elim, h.signaled, fun _ e => (hns e).elim, fun hi => ?_⟩
    have := h.items hi
    rw [hst] at this
    simp only [List.mem_cons, reduceCtorEq, false_or] at this
    exact this
  | performWait hf hc =>
    have hn := free_not_reading h hf
    refine ⟨fun e => ?_, h.signaled, fun _ e => ?_, fun _ => Or.inr (Or.inl (by simp))⟩
    · simp only [List.mem_cons, reduceCtorEq, false_or] at e
      exact (hn e).elim
    · simp only [List.mem_cons, reduceCtorEq, false_or] at e
      exact (hn e).elim
  | start id s hst =>
    have hns : Frame.reading ∈ s → False := fun e => by
      have := (h.reading (by rw [hst]; exact List.mem_cons_of_mem _ e)).1
      rw [hst] at this
      simp at this
    refine ⟨fun e => ?_, h.signaled, fun _ e => ?_, fun hi => ?_⟩
    · simp only [List.mem_cons, reduceCtorEq, false_or] at e
      exact (hns e).elim
    · simp only [List.mem_cons, reduceCtorEq, false_or] at e
      exact (hns e).elim
    · have := h.items hi
      rw [hst] at this
      simp only [List.mem_cons, reduceCtorEq, false_or] at this ⊢
      exact this
  | close hf hc =>
    have hn := free_not_reading h hf
    refine ⟨fun e => ?_, h.signaled, fun _ e => ?_, fun _ => Or.inr (Or.inl (by simp))⟩
    · simp only [List.mem_cons, reduceCtorEq, false_or] at e
      exact (hn e).elim
    · simp only [List.mem_cons, reduceCtorEq, false_or] at e
      exact (hn e).elim

theorem winv {ops : List Op} {st : St} {evs : List Ev} (h : Run init ops st evs) : WInv st := by
  induction h with
  | nil => exact ⟨by simp [init], by simp [init], by simp [init], by simp [init]⟩
  | step _ hs ih => exact ih.step hs

/-! ## order -/

/-- the tasks of calls of `perform` that are going to run their task themselves -/
def befores : List Frame → List Nat := List.filterMap (fun | .before id => some id | _ => none)

/-- a call of `perform` that is going to run its task is in `fireItems` if it is not the innermost -/
def Shape : List Frame → Prop
  | [] => True
  | f :: s => (∀ id s', s = .before id :: s' → f = .firing) ∧ Shape s

/-- the tasks in every state of a history -/
structure OInv (st : St) (evs : List Ev) : Prop where
  order : queued evs = (taken evs).filter (fun t => t ∈ queued evs) ++ st.items
  inc : (queued evs).Pairwise (· < ·)
  lt : ∀ t ∈ queued evs, t < st.next
  taken_lt : ∀ t ∈ taken evs, t < st.next
  before_lt : ∀ t ∈ befores st.stack, t < st.next
  before_new : ∀ t ∈ befores st.stack, t ∉ queued evs ∧ t ∉ taken evs
  once : (taken evs).Nodup
  before_once : (befores st.stack).Nodup
  top : ∀ id s, st.stack = .before id :: s → ∀ j ∈ st.items, id < j
  shape : Shape st.stack
  running : ∀ id, Frame.running id ∈ st.stack → Ev.started id ∈ evs
  complete : ∀ id, id ∈ st.complete → Ev.finished id ∈ evs
  asked : ∀ id, Ev.asked id ∈ evs → id < st.next ∧ id ∉ queued evs
  before_asked : ∀ t ∈ befores st.stack, Ev.asked t ∈ evs

theorem OInv.same {st : St} {evs : List Ev} (h : OInv st evs) {st' : St} {evs' : List Ev} (hq : queued evs' = []) (ht : taken evs' = [])
    (hi : st'.items = st.items) (hn : st'.next = st.next) (hb : befores st'.stack = befores st.stack)
    (htop : ∀ id s, st'.stack = .before id :: s → ∀ j ∈ st'.items, id < j) (hsh : Shape st'.stack)
    (hr : ∀ id, Frame.running id ∈ st'.stack → Frame.running id ∈ st.stack)
    (hc : ∀ id, id ∈ st'.complete → id ∈ st.complete ∨ Ev.finished id ∈ evs') (has : ∀ id, Ev.asked id ∉ evs' := by simp) :
    OInv st' (evs ++ evs') := by
  have e1 : queued (evs ++ evs') = queued evs := by rw [queued_append, hq, List.append_nil]
  have e2 : taken (evs ++ evs') = taken evs := by rw [taken_append, ht, List.append_nil]
  refine ⟨?_, ?_, ?_, ?_, ?_, ?_, ?_, ?_, htop, hsh, ?_, ?_, ?_, ?_⟩
  · rw [e1, e2, hi]; exact h.order
  · rw [e1]; exact h.inc
  · rw [e1, hn]; exact h.lt
  · rw [e2, hn]; exact h.taken_lt
  · rw [hb, hn]; exact h.before_lt
  · rw [hb, e1, e2]; exact h.before_new
  · rw [e2]; exact h.once
  · rw [hb]; exact h.before_once
  · exact fun id hid => List.mem_append_left _ (h.running id (hr id hid))
  · intro id hid
    rcases hc id hid with hh | hh
    · exact List.mem_append_left _ (h.complete id hh)
    · exact List.mem_append_right _ hh
  · intro id hid
    rw [e1, hn]
    exact h.asked id ((List.mem_append.1 hid).resolve_right (has id))
  · rw [hb]
    exact fun t ht => List.mem_append_left _ (h.before_asked t ht)

/-- an item is taken from the queue -/
theorem OInv.take {st : St} {evs : List Ev} (h : OInv st evs) {id : Nat} {l : List Nat} (hi : st.items = id :: l) {st' : St} {ev : Ev}
    (hq : queued [ev] = []) (ht : taken [ev] = [id]) (hi' : st'.items = l) (hn : st'.next = st.next) (hb : befores st'.stack = befores st.stack)
    (hx : ∃ f s, st'.stack = f :: s ∧ ∀ i, f ≠ .before i) (hsh : Shape st'.stack)
    (hr : ∀ i, Frame.running i ∈ st'.stack → Frame.running i ∈ st.stack ∨ Ev.started i = ev)
    (hc : st'.complete = st.complete) : OInv st' (evs ++ [ev]) := by
  have e1 : queued (evs ++ [ev]) = queued evs := by rw [queued_append, hq, List.append_nil]
  have e2 : taken (evs ++ [ev]) = taken evs ++ [id] := by rw [taken_append, ht]
  have hid : id ∈ queued evs := by rw [h.order, hi]; simp
  have hnd : (queued evs).Nodup := h.inc.imp (fun hlt => Nat.ne_of_lt hlt)
  have hnt : id ∉ taken evs := by
    intro hh
    have h2 := h.order
    rw [h2, List.nodup_append] at hnd
    exact hnd.2.2 id (List.mem_filter.2 ⟨hh, by simpa using hid⟩) id (by rw [hi]; simp) rfl
  refine ⟨?_, ?_, ?_, ?_, ?_, ?_, ?_, ?_, ?_, hsh, ?_, ?_, ?_, ?_⟩
  · rw [e1, e2, hi', List.filter_append]
    have : [id].filter (fun t => decide (t ∈ queued evs)) = [id] := by simp [hid]
    rw [this, List.append_assoc]
    have h2 := h.order
    rw [hi] at h2
    exact h2
  · rw [e1]; exact h.inc
  · rw [e1, hn]; exact h.lt
  · rw [e2, hn]
    intro t ht
    rcases List.mem_append.1 ht with ht | ht
    · exact h.taken_lt t ht
    · rw [List.mem_singleton] at ht; subst ht; exact h.lt t hid
  · rw [hb, hn]; exact h.before_lt
  · rw [hb, e1, e2]
    intro t ht
    refine ⟨(h.before_new t ht).1, ?_⟩
    intro hh
    rcases List.mem_append.1 hh with hh | hh
    · exact (h.before_new t ht).2 hh
    · rw [List.mem_singleton] at hh; rw [hh] at ht; exact (h.before_new id ht).1 hid
  · rw [e2, List.nodup_append]
    refine ⟨h.once, by simp, ?_⟩
    rintro a ha b hb rfl
    rw [List.mem_singleton] at hb; subst hb
    exact hnt ha
  · rw [hb]; exact h.before_once
  · intro i s hs
    obtain ⟨f, s', hs', hne⟩ := hx
    rw [hs] at hs'
    simp only [List.cons.injEq] at hs'
    exact absurd hs'.1.symm (hne i)
  · intro i hi
    rcases hr i hi with hh | hh
    · exact List.mem_append_left _ (h.running i hh)
    · rw [hh]; simp
  · intro i hi
    rw [hc] at hi
    exact List.mem_append_left _ (h.complete i hi)
  · intro i hi
    rw [e1, hn]
    rcases List.mem_append.1 hi with hi | hi
    · exact h.asked i hi
    · rw [List.mem_singleton] at hi; subst hi; simp [taken] at ht
  · rw [hb]
    exact fun t ht => List.mem_append_left _ (h.before_asked t ht)

theorem OInv.step {st : St} {evs : List Ev} (h : OInv st evs) {op : Op} {st' : St} {evs' : List Ev} (hs : Perf.step st op = some (st', evs')) :
    OInv st' (evs ++ evs') := by
  cases step_way hs with
  | refused _ hc => rw [List.append_nil]; exact h
  | call t w hp hc => exact h.same rfl rfl rfl rfl rfl h.top h.shape (fun _ x => x) (fun _ x => Or.inl x)
  | seen t id w hp hsig => exact h.same rfl rfl rfl rfl rfl h.top h.shape (fun _ x => x) (fun _ x => Or.inl x)
  | unseen t id w hp hsig => exact h.same rfl rfl rfl rfl rfl h.top h.shape (fun _ x => x) (fun _ x => Or.inl x)
  | signal t id w hp => exact h.same rfl rfl rfl rfl rfl h.top h.shape (fun _ x => x) (fun _ x => Or.inl x)
  | write t id w hp => exact h.same rfl rfl rfl rfl rfl h.top h.shape (fun _ x => x) (fun _ x => Or.inl x)
  | resume t id hp hc => exact h.same rfl rfl rfl rfl rfl h.top h.shape (fun _ x => x) (fun _ x => Or.inl x)
  | wake hst hb hc => exact h.same rfl rfl rfl rfl (by rw [hst]; rfl) (fun id s e => by simp at e) ⟨by simp, trivial⟩ (fun _ x => by simp at x) (fun _ x => Or.inl x)
  | read s hst hb =>
    have hsh := h.shape
    rw [hst] at hsh
    refine h.same rfl rfl rfl rfl (by rw [hst]; rfl) (fun id s e => by simp at e) ⟨fun _ _ _ => rfl, hsh.2⟩ (fun i x => ?_) (fun _ x => Or.inl x)
    rw [hst]
    simpa using x
  | drained s hst hi =>
    have hsh := h.shape
    rw [hst] at hsh
    refine h.same rfl rfl rfl rfl (by rw [hst]; rfl) (fun id s e j hj => ?_) hsh.2 (fun i x => ?_) (fun _ x => Or.inl x)
    · have hj : j ∈ st.items := hj
      rw [hi] at hj; simp at hj
    · rw [hst]; exact List.mem_cons_of_mem _ x
  | drop s hst id l hi hc =>
    exact h.take hi rfl rfl rfl rfl rfl ⟨.firing, s, hst, by simp⟩ h.shape (fun _ x => Or.inl x) rfl
  | fire s hst id l hi hc =>
    have hsh := h.shape
    rw [hst] at hsh
    refine h.take hi rfl rfl rfl rfl (by rw [hst]; rfl) ⟨_, _, rfl, by simp⟩ ⟨by simp, hsh⟩ (fun i x => ?_) rfl
    simp only [List.mem_cons, Frame.running.injEq, reduceCtorEq, false_or] at x
    rcases x with rfl | x
    · exact Or.inr rfl
    · exact Or.inl (by rw [hst]; exact List.mem_cons_of_mem _ x)
  | done id s hst =>
    have hsh := h.shape
    rw [hst] at hsh
    refine h.same rfl rfl rfl rfl (by rw [hst]; rfl) (fun i s' e j hj => ?_) hsh.2 (fun i x => ?_) (fun i x => ?_)
    · have := hsh.1 i s' e
      cases this
    · rw [hst]; exact List.mem_cons_of_mem _ x
    · rcases List.mem_cons.1 x with rfl | x
      · exact Or.inr (by simp)
      · exact Or.inl x
  | doneDirect id s hst =>
    have hsh := h.shape
    rw [hst] at hsh
    refine h.same rfl rfl rfl rfl (by rw [hst]; rfl) (fun i s' e j hj => ?_) hsh.2 (fun i x => ?_) (fun _ x => Or.inl x)
    · have := hsh.1 i s' e
      cases this
    · rw [hst]; exact List.mem_cons_of_mem _ x
  | push t w hp =>
    have e1 : queued (evs ++ [.queued st.next]) = queued evs ++ [st.next] := by rw [queued_append]; rfl
    have e2 : taken (evs ++ [.queued st.next]) = taken evs := by rw [taken_append]; exact List.append_nil _
    refine ⟨?_, ?_, ?_, ?_, ?_, ?_, ?_, h.before_once, ?_, h.shape, ?_, ?_, ?_, ?_⟩
    · rw [e1, e2]
      have : (taken evs).filter (fun t => decide (t ∈ queued evs ++ [st.next])) = (taken evs).filter (fun t => decide (t ∈ queued evs)) := by
        apply List.filter_congr
        intro x hx
        have := h.taken_lt x hx
        have hne : x ≠ st.next := by omega
        simp [hne]
      rw [this]
      show queued evs ++ [st.next] = _ ++ (st.items ++ [st.next])
      rw [← List.append_assoc, ← h.order]
    · rw [e1, List.pairwise_append]
      refine ⟨h.inc, by simp, ?_⟩
      intro a ha b hb
      rw [List.mem_singleton] at hb
      subst hb
      exact h.lt a ha
    · rw [e1]
      intro x hx
      show x < st.next + 1
      rcases List.mem_append.1 hx with hx | hx
      · have := h.lt x hx; omega
      · rw [List.mem_singleton] at hx; omega
    · rw [e2]
      intro x hx
      exact Nat.lt_succ_of_lt (h.taken_lt x hx)
    · intro x hx
      exact Nat.lt_succ_of_lt (h.before_lt x hx)
    · rw [e1, e2]
      intro x hx
      have := h.before_lt x hx
      refine ⟨?_, (h.before_new x hx).2⟩
      intro hh
      rcases List.mem_append.1 hh with hh | hh
      · exact (h.before_new x hx).1 hh
      · rw [List.mem_singleton] at hh; omega
    · rw [e2]; exact h.once
    · intro id s hst j hj
      have hst : st.stack = .before id :: s := hst
      have hj : j ∈ st.items ++ [st.next] := hj
      rcases List.mem_append.1 hj with hj | hj
      · exact h.top id s hst j hj
      · rw [List.mem_singleton] at hj; subst hj
        exact h.before_lt id (by rw [hst]; simp [befores])
    · exact fun id hid => List.mem_append_left _ (h.running id hid)
    · exact fun id hid => List.mem_append_left _ (h.complete id hid)
    · intro id hid
      have hid : Ev.asked id ∈ evs := by simpa using hid
      have := h.asked id hid
      rw [e1]
      refine ⟨Nat.lt_succ_of_lt this.1, ?_⟩
      simp only [List.mem_append, List.mem_singleton, not_or]
      exact ⟨this.2, by omega⟩
    · exact fun t ht => List.mem_append_left _ (h.before_asked t ht)
  | performWait hf hc =>
    have e1 : queued (evs ++ [.asked st.next]) = queued evs := by rw [queued_append]; exact List.append_nil _
    have e2 : taken (evs ++ [.asked st.next]) = taken evs := by rw [taken_append]; exact List.append_nil _
    have hb : befores (.firing :: .before st.next :: st.stack) = st.next :: befores st.stack := rfl
    refine ⟨by rw [e1, e2]; exact h.order, by rw [e1]; exact h.inc, ?_, ?_, ?_, ?_, by rw [e2]; exact h.once, ?_, by simp, ?_, ?_, ?_, ?_, ?_⟩
    · rw [e1]; exact fun t ht => Nat.lt_succ_of_lt (h.lt t ht)
    · rw [e2]; exact fun t ht => Nat.lt_succ_of_lt (h.taken_lt t ht)
    · rw [hb]
      intro t ht
      rcases List.mem_cons.1 ht with rfl | ht
      · exact Nat.lt_succ_self _
      · exact Nat.lt_succ_of_lt (h.before_lt t ht)
    · rw [hb, e1, e2]
      intro t ht
      rcases List.mem_cons.1 ht with rfl | ht
      · exact ⟨fun hh => absurd (h.lt _ hh) (Nat.lt_irrefl _), fun hh => absurd (h.taken_lt _ hh) (Nat.lt_irrefl _)⟩
      · exact h.before_new t ht
    · rw [hb, List.nodup_cons]
      exact ⟨fun hh => absurd (h.before_lt _ hh) (Nat.lt_irrefl _), h.before_once⟩
    · refine ⟨fun _ _ _ => rfl, fun id s' e => ?_, h.shape⟩
      rw [e] at hf
      cases hf
    · intro id hid
      simp only [List.mem_cons, reduceCtorEq, false_or] at hid
      exact List.mem_append_left _ (h.running id hid)
    · exact fun id hid => List.mem_append_left _ (h.complete id hid)
    · intro id hid
      rw [e1]
      rcases List.mem_append.1 hid with hid | hid
      · exact ⟨Nat.lt_succ_of_lt (h.asked id hid).1, (h.asked id hid).2⟩
      · simp only [List.mem_singleton, Ev.asked.injEq] at hid
        subst hid
        exact ⟨Nat.lt_succ_self _, fun hh => absurd (h.lt _ hh) (Nat.lt_irrefl _)⟩
    · rw [hb]
      intro t ht
      rcases List.mem_cons.1 ht with rfl | ht
      · simp
      · exact List.mem_append_left _ (h.before_asked t ht)
  | start id s hst =>
    have hsh := h.shape
    rw [hst] at hsh
    have hb : befores st.stack = id :: befores s := by rw [hst]; rfl
    have hb' : befores (.direct id :: s) = befores s := rfl
    have e1 : queued (evs ++ [.started id]) = queued evs := by rw [queued_append]; exact List.append_nil _
    have e2 : taken (evs ++ [.started id]) = taken evs ++ [id] := by rw [taken_append]; rfl
    have hnew := h.before_new id (by rw [hb]; simp)
    refine ⟨?_, ?_, ?_, ?_, ?_, ?_, ?_, ?_, by simp, ?_, ?_, ?_, ?_, ?_⟩
    · rw [e1, e2, List.filter_append]
      have : [id].filter (fun t => decide (t ∈ queued evs)) = [] := by simp [hnew.1]
      rw [this, List.append_nil]
      exact h.order
    · rw [e1]; exact h.inc
    · rw [e1]; exact h.lt
    · rw [e2]
      intro t ht
      rcases List.mem_append.1 ht with ht | ht
      · exact h.taken_lt t ht
      · rw [List.mem_singleton] at ht; subst ht; exact h.before_lt t (by rw [hb]; simp)
    · rw [hb']
      exact fun t ht => h.before_lt t (by rw [hb]; exact List.mem_cons_of_mem _ ht)
    · rw [hb', e1, e2]
      intro t ht
      have ht' := h.before_new t (by rw [hb]; exact List.mem_cons_of_mem _ ht)
      refine ⟨ht'.1, ?_⟩
      intro hh
      rcases List.mem_append.1 hh with hh | hh
      · exact ht'.2 hh
      · rw [List.mem_singleton] at hh
        have := h.before_once
        rw [hb, List.nodup_cons] at this
        exact this.1 (by rw [← hh]; exact ht)
    · rw [e2, List.nodup_append]
      refine ⟨h.once, by simp, ?_⟩
      rintro a ha b hb rfl
      rw [List.mem_singleton] at hb; subst hb
      exact hnew.2 ha
    · rw [hb']
      have := h.before_once
      rw [hb, List.nodup_cons] at this
      exact this.2
    · exact ⟨fun i s' e => (by have := hsh.1 i s' e; cases this), hsh.2⟩
    · intro i hi
      simp only [List.mem_cons, reduceCtorEq, false_or] at hi
      exact List.mem_append_left _ (h.running i (by rw [hst]; exact List.mem_cons_of_mem _ hi))
    · exact fun i hi => List.mem_append_left _ (h.complete i hi)
    · intro i hi
      rw [e1]
      exact h.asked i (by simpa using hi)
    · rw [hb']
      exact fun t ht => List.mem_append_left _ (h.before_asked t (by rw [hb]; exact List.mem_cons_of_mem _ ht))
  | close hf hc =>
    refine h.same rfl rfl rfl rfl rfl (by simp) ⟨fun _ _ _ => rfl, h.shape⟩ (fun i x => ?_) (fun _ x => Or.inl x)
    simpa using x

theorem oinv {ops : List Op} {st : St} {evs : List Ev} (h : Run init ops st evs) : OInv st evs := by
  induction h with
  | nil =>
    exact ⟨rfl, by simp [queued], by simp [queued], by simp [taken], by simp [init, befores], by simp [init, befores], by simp [taken],
      by simp [init, befores], by simp [init], trivial, by simp [init], by simp [init], by simp, by simp [init, befores]⟩
  | step _ hs ih => exact ih.step hs

/-! ## the moment of each event -/

theorem closed_inv {ops : List Op} {st : St} {evs : List Ev} (h : Run init ops st evs) : st.closed = true ↔ Ev.closed ∈ evs := by
  induction h with
  | nil => simp [init]
  | step _ hs ih =>
    cases step_way hs with
    | refused _ hc => simpa using ih
    | close hf hc => simp
    | _ => rw [List.mem_append, ← ih]; simp [St.goto]

/-- what holds for what was observed before an event -/
def Fine (e1 : List Ev) : Ev → Prop
  | .started id => id ∉ taken e1 ∧ ((id ∈ queued e1 ∧ Ev.closed ∉ e1) ∨ (Ev.asked id ∈ e1 ∧ ∀ j ∈ queued e1, j < id → j ∈ taken e1))
  | .asked id => ∀ j ∈ queued e1, j < id
  | .dropped id => id ∈ queued e1 ∧ Ev.closed ∈ e1
  | .resumed _ id => Ev.finished id ∈ e1
  | _ => True

theorem step_fine {st : St} {evs : List Ev} (h : OInv st evs) (hcl : st.closed = true ↔ Ev.closed ∈ evs) {op : Op} {st' : St} {evs' : List Ev}
    (hs : Perf.step st op = some (st', evs')) : evs' = [] ∨ ∃ x, evs' = [x] ∧ Fine evs x := by
  have hwait : ∀ j, j ∈ queued evs → j ∉ st.items → j ∈ taken evs := by
    intro j hj hn
    rw [h.order] at hj
    rcases List.mem_append.1 hj with hj | hj
    · exact (List.mem_filter.1 hj).1
    · exact absurd hj hn
  have hitem : ∀ id l, st.items = id :: l → id ∈ queued evs ∧ id ∉ taken evs := by
    intro id l hi
    have hid : id ∈ queued evs := by rw [h.order, hi]; simp
    refine ⟨hid, fun hh => ?_⟩
    have hnd : (queued evs).Nodup := h.inc.imp (fun hlt => Nat.ne_of_lt hlt)
    have h2 := h.order
    rw [h2, List.nodup_append] at hnd
    exact hnd.2.2 id (List.mem_filter.2 ⟨hh, by simpa using hid⟩) id (by rw [hi]; simp) rfl
  cases step_way hs with
  | refused _ hc => exact Or.inl rfl
  | call t w hp hc => exact Or.inl rfl
  | seen t id w hp hsig => exact Or.inl rfl
  | unseen t id w hp hsig => exact Or.inl rfl
  | signal t id w hp => exact Or.inl rfl
  | write t id w hp => exact Or.inl rfl
  | wake hst hb hc => exact Or.inl rfl
  | read s hst hb => exact Or.inl rfl
  | drained s hst hi => exact Or.inl rfl
  | performWait hf hc => exact Or.inr ⟨_, rfl, h.lt⟩
  | push t w hp => exact Or.inr ⟨_, rfl, trivial⟩
  | close hf hc => exact Or.inr ⟨_, rfl, trivial⟩
  | done id s hst => exact Or.inr ⟨_, rfl, trivial⟩
  | doneDirect id s hst => exact Or.inr ⟨_, rfl, trivial⟩
  | resume t id hp hc => exact Or.inr ⟨_, rfl, h.complete id hc⟩
  | drop s hst id l hi hc => exact Or.inr ⟨_, rfl, (hitem id l hi).1, hcl.1 hc⟩
  | fire s hst id l hi hc =>
    refine Or.inr ⟨_, rfl, (hitem id l hi).2, Or.inl ⟨(hitem id l hi).1, fun hh => ?_⟩⟩
    rw [hcl.2 hh] at hc
    cases hc
  | start id s hst =>
    have hnew := h.before_new id (by rw [hst]; simp [befores])
    refine Or.inr ⟨_, rfl, hnew.2, Or.inr ⟨h.before_asked id (by rw [hst]; simp [befores]), fun j hj hlt => hwait j hj (fun hi => ?_)⟩⟩
    have := h.top id s hst j hi
    omega

theorem fine {ops : List Op} {st : St} {evs : List Ev} (h : Run init ops st evs) :
    ∀ (e1 : List Ev) (x : Ev) (e2 : List Ev), evs = e1 ++ x :: e2 → Fine e1 x := by
  induction h with
  | nil => intro e1 x e2 he; simp at he
  | @step ops st evs op st' evs' hrun hs ih =>
    intro e1 x e2 he
    rcases step_fine (oinv hrun) (closed_inv hrun) hs with rfl | ⟨y, rfl, hy⟩
    · rw [List.append_nil] at he
      exact ih e1 x e2 he
    · rcases List.append_eq_append_iff.1 he with ⟨a, ha, hb⟩ | ⟨a, ha, hb⟩
      · cases a with
        | nil =>
          simp only [List.nil_append, List.cons.injEq] at hb
          rw [ha, ← hb.1, List.append_nil]; exact hy
        | cons z a => simp at hb
      · cases a with
        | nil =>
          simp only [List.nil_append, List.cons.injEq, List.append_nil] at hb ha
          rw [← ha, hb.1]; exact hy
        | cons z a =>
          simp only [List.cons_append, List.cons.injEq] at hb
          obtain ⟨rfl, _⟩ := hb
          exact ih e1 x a ha

/-! ## the items of calls -/

/-- the item of a call -/
def Pc.holds : Pc → Option Nat
  | .pushed id _ => some id
  | .unsignaled id _ => some id
  | .writing id _ => some id
  | .waiting id => some id
  | _ => none

theorem holds_after (id id' : Nat) (w : Bool) (h : (afterSignal id w).holds = some id') : id' = id := by
  cases w with
  | false => simp [afterSignal, Pc.holds] at h
  | true => simpa [afterSignal, Pc.holds] using h.symm

theorem holds_inv {ops : List Op} {st : St} {evs : List Ev} (h : Run init ops st evs) : ∀ t id, (st.pcs t).holds = some id →
    id ∈ queued evs ∧ (id ∈ st.items ∨ Frame.running id ∈ st.stack ∨ id ∈ st.complete ∨ Ev.dropped id ∈ evs) := by
  induction h with
  | nil => intro t id hh; simp [init, Pc.holds] at hh
  | @step ops st evs op st' evs' hr hs ih =>
    have hq : ∀ id, id ∈ queued evs → id ∈ queued (evs ++ evs') := fun id hid => by rw [queued_append]; exact List.mem_append_left _ hid
    -- nothing but the place of one thread changes
    have move : ∀ t0 pc0 pc1, st.pcs t0 = pc0 → (∀ id, pc1.holds = some id → pc0.holds = some id) → ∀ t id, ((st.goto t0 pc1).pcs t).holds = some id →
        id ∈ queued evs ∧ (id ∈ st.items ∨ Frame.running id ∈ st.stack ∨ id ∈ st.complete ∨ Ev.dropped id ∈ evs) := by
      intro t0 pc0 pc1 hp himp t id hh
      by_cases ht : t = t0
      · subst ht
        rw [goto_same] at hh
        exact ih t id (by rw [hp]; exact himp id hh)
      · rw [goto_other _ _ _ _ ht] at hh
        exact ih t id hh
    have lift : ∀ {id}, (id ∈ queued evs ∧ (id ∈ st.items ∨ Frame.running id ∈ st.stack ∨ id ∈ st.complete ∨ Ev.dropped id ∈ evs)) →
        (∀ id, id ∈ st.items → id ∈ st'.items ∨ Frame.running id ∈ st'.stack ∨ id ∈ st'.complete ∨ Ev.dropped id ∈ evs ++ evs') →
        (∀ id, Frame.running id ∈ st.stack → Frame.running id ∈ st'.stack ∨ id ∈ st'.complete) → (∀ id, id ∈ st.complete → id ∈ st'.complete) →
        id ∈ queued (evs ++ evs') ∧ (id ∈ st'.items ∨ Frame.running id ∈ st'.stack ∨ id ∈ st'.complete ∨ Ev.dropped id ∈ evs ++ evs') := by
      intro id hh h1 h2 h3
      refine ⟨hq id hh.1, ?_⟩
      rcases hh.2 with hx | hx | hx | hx
      · exact h1 id hx
      · rcases h2 id hx with hx | hx
        · exact Or.inr (Or.inl hx)
        · exact Or.inr (Or.inr (Or.inl hx))
      · exact Or.inr (Or.inr (Or.inl (h3 id hx)))
      · exact Or.inr (Or.inr (Or.inr (List.mem_append_left _ hx)))
    cases step_way hs with
    | refused _ hc =>
      intro t id hh
      exact lift (ih t id hh) (fun _ x => Or.inl x) (fun _ x => Or.inl x) (fun _ x => x)
    | call t0 w hp hc =>
      intro t id hh
      exact lift (move t0 _ _ hp (by simp [Pc.holds]) t id hh) (fun _ x => Or.inl x) (fun _ x => Or.inl x) (fun _ x => x)
    | push t0 w hp =>
      intro t id hh
      have hh : ((st.goto t0 (.pushed st.next w)).pcs t).holds = some id := hh
      by_cases ht : t = t0
      · subst ht
        rw [goto_same] at hh
        simp only [Pc.holds, Option.some.injEq] at hh
        subst hh
        refine ⟨by rw [queued_append]; simp [queued], Or.inl ?_⟩
        show st.next ∈ st.items ++ [st.next]
        simp
      · rw [goto_other _ _ _ _ ht] at hh
        refine lift (ih t id hh) (fun i x => Or.inl ?_) (fun _ x => Or.inl x) (fun _ x => x)
        exact List.mem_append_left _ x
    | seen t0 id0 w hp hsig =>
      intro t id hh
      exact lift (move t0 _ _ hp (fun i hi => by rw [holds_after _ _ _ hi]; rfl) t id hh) (fun _ x => Or.inl x) (fun _ x => Or.inl x) (fun _ x => x)
    | unseen t0 id0 w hp hsig =>
      intro t id hh
      exact lift (move t0 _ (.unsignaled id0 w) hp (fun i hi => hi) t id hh) (fun _ x => Or.inl x) (fun _ x => Or.inl x) (fun _ x => x)
    | signal t0 id0 w hp =>
      intro t id hh
      exact lift (move t0 _ (.writing id0 w) hp (fun i hi => hi) t id hh) (fun _ x => Or.inl x) (fun _ x => Or.inl x) (fun _ x => x)
    | write t0 id0 w hp =>
      intro t id hh
      exact lift (move t0 _ _ hp (fun i hi => by rw [holds_after _ _ _ hi]; rfl) t id hh) (fun _ x => Or.inl x) (fun _ x => Or.inl x) (fun _ x => x)
    | resume t0 id0 hp hc =>
      intro t id hh
      exact lift (move t0 _ _ hp (by simp [Pc.holds]) t id hh) (fun _ x => Or.inl x) (fun _ x => Or.inl x) (fun _ x => x)
    | wake hst hb hc =>
      intro t id hh
      exact lift (ih t id hh) (fun _ x => Or.inl x) (fun i x => by rw [hst] at x; simp at x) (fun _ x => x)
    | read s hst hb =>
      intro t id hh
      exact lift (ih t id hh) (fun _ x => Or.inl x) (fun i x => Or.inl (by rw [hst] at x; simpa using x)) (fun _ x => x)
    | drained s hst hi =>
      intro t id hh
      exact lift (ih t id hh) (fun _ x => Or.inl x) (fun i x => Or.inl (by rw [hst] at x; simpa using x)) (fun _ x => x)
    | drop s hst id0 l hi hc =>
      intro t id hh
      refine lift (ih t id hh) (fun i x => ?_) (fun _ x => Or.inl x) (fun _ x => x)
      rw [hi] at x
      rcases List.mem_cons.1 x with rfl | x
      · exact Or.inr (Or.inr (Or.inr (by simp)))
      · exact Or.inl x
    | fire s hst id0 l hi hc =>
      intro t id hh
      refine lift (ih t id hh) (fun i x => ?_) (fun i x => Or.inl ?_) (fun _ x => x)
      · rw [hi] at x
        rcases List.mem_cons.1 x with rfl | x
        · exact Or.inr (Or.inl (by simp))
        · exact Or.inl x
      · rw [hst] at x
        exact List.mem_cons_of_mem _ x
    | done id0 s hst =>
      intro t id hh
      refine lift (ih t id hh) (fun _ x => Or.inl x) (fun i x => ?_) (fun _ x => List.mem_cons_of_mem _ x)
      rw [hst] at x
      simp only [List.mem_cons, Frame.running.injEq] at x
      rcases x with rfl | x
      · exact Or.inr (by simp)
      · exact Or.inl x
    | doneDirect id0 s hst =>
      intro t id hh
      exact lift (ih t id hh) (fun _ x => Or.inl x) (fun i x => Or.inl (by rw [hst] at x; simpa using x)) (fun _ x => x)
    | performWait hf hc =>
      intro t id hh
      exact lift (ih t id hh) (fun _ x => Or.inl x) (fun i x => Or.inl (by simpa using x)) (fun _ x => x)
    | start id0 s hst =>
      intro t id hh
      exact lift (ih t id hh) (fun _ x => Or.inl x) (fun i x => Or.inl (by rw [hst] at x; simpa using x)) (fun _ x => x)
    | close hf hc =>
      intro t id hh
      exact lift (ih t id hh) (fun _ x => Or.inl x) (fun i x => Or.inl (by simpa using x)) (fun _ x => x)

/-! ## a task that was thrown away -/

/-- a thread waits for a task that is not going to run: it is not complete, not in the queue, and nothing is running it -/
structure Stuck (st : St) (t id : Nat) : Prop where
  waits : st.pcs t = .waiting id
  notComplete : id ∉ st.complete
  notQueued : id ∉ st.items
  notRunning : Frame.running id ∉ st.stack
  old : id < st.next

theorem Stuck.step {st : St} {t id : Nat} (h : Stuck st t id) {op : Op} {st' : St} {evs' : List Ev} (hs : Perf.step st op = some (st', evs')) :
    Stuck st' t id ∧ Ev.resumed t id ∉ evs' := by
  have other : ∀ t' pc, st.pcs t' = pc → pc ≠ .waiting id → t ≠ t' := by
    rintro t' pc hp hne rfl
    exact hne (by rw [← hp]; exact h.waits)
  have hgo : ∀ t' pc pc', st.pcs t' = pc → pc ≠ .waiting id → (st.goto t' pc').pcs t = .waiting id := by
    intro t' pc pc' hp hne
    rw [goto_other _ _ _ _ (other t' pc hp hne)]
    exact h.waits
  cases step_way hs with
  | refused _ hc => exact ⟨h, by simp⟩
  | call t' w hp hc => exact ⟨⟨hgo t' _ _ hp (by simp), h.notComplete, h.notQueued, h.notRunning, h.old⟩, by simp⟩
  | push t' w hp =>
    refine ⟨⟨hgo t' _ _ hp (by simp), h.notComplete, ?_, h.notRunning, Nat.lt_succ_of_lt h.old⟩, by simp⟩
    intro hh
    have hh : id ∈ st.items ++ [st.next] := hh
    rcases List.mem_append.1 hh with hh | hh
    · exact h.notQueued hh
    · rw [List.mem_singleton] at hh
      have := h.old
      omega
  | seen t' id' w hp hsig => exact ⟨⟨hgo t' _ _ hp (by simp), h.notComplete, h.notQueued, h.notRunning, h.old⟩, by simp⟩
  | unseen t' id' w hp hsig => exact ⟨⟨hgo t' _ _ hp (by simp), h.notComplete, h.notQueued, h.notRunning, h.old⟩, by simp⟩
  | signal t' id' w hp => exact ⟨⟨hgo t' _ _ hp (by simp), h.notComplete, h.notQueued, h.notRunning, h.old⟩, by simp⟩
  | write t' id' w hp => exact ⟨⟨hgo t' _ _ hp (by simp), h.notComplete, h.notQueued, h.notRunning, h.old⟩, by simp⟩
  | resume t' id' hp hc =>
    have hne : Pc.waiting id' ≠ .waiting id := by
      intro e
      simp only [Pc.waiting.injEq] at e
      rw [e] at hc
      exact h.notComplete hc
    refine ⟨⟨hgo t' _ _ hp hne, h.notComplete, h.notQueued, h.notRunning, h.old⟩, ?_⟩
    have := other t' _ hp hne
    simp [this]
  | wake hst hb hc => exact ⟨⟨h.waits, h.notComplete, h.notQueued, by simp, h.old⟩, by simp⟩
  | read s hst hb =>
    refine ⟨⟨h.waits, h.notComplete, h.notQueued, ?_, h.old⟩, by simp⟩
    have := h.notRunning
    rw [hst] at this
    simpa using this
  | drained s hst hi =>
    refine ⟨⟨h.waits, h.notComplete, h.notQueued, ?_, h.old⟩, by simp⟩
    have := h.notRunning
    rw [hst] at this
    simpa using this
  | drop s hst id' l hi hc =>
    refine ⟨⟨h.waits, h.notComplete, ?_, h.notRunning, h.old⟩, by simp⟩
    have := h.notQueued
    rw [hi] at this
    exact fun hh => this (List.mem_cons_of_mem _ hh)
  | fire s hst id' l hi hc =>
    have hq := h.notQueued
    rw [hi] at hq
    have hne : id' ≠ id := fun e => hq (by rw [e]; simp)
    refine ⟨⟨h.waits, h.notComplete, fun hh => hq (List.mem_cons_of_mem _ hh), ?_, h.old⟩, by simp⟩
    have := h.notRunning
    rw [hst] at this
    simp only [List.mem_cons, reduceCtorEq, false_or, Frame.running.injEq, not_or] at this ⊢
    exact ⟨fun e => hne e.symm, this⟩
  | done id' s hst =>
    have := h.notRunning
    rw [hst] at this
    simp only [List.mem_cons, Frame.running.injEq, not_or] at this
    refine ⟨⟨h.waits, ?_, h.notQueued, this.2, h.old⟩, by simp⟩
    simp only [List.mem_cons, not_or]
    exact ⟨this.1, h.notComplete⟩
  | doneDirect id' s hst =>
    have := h.notRunning
    rw [hst] at this
    exact ⟨⟨h.waits, h.notComplete, h.notQueued, by simpa using this, h.old⟩, by simp⟩
  | performWait hf hc => exact ⟨⟨h.waits, h.notComplete, h.notQueued, by simpa using h.notRunning, Nat.lt_succ_of_lt h.old⟩, by simp⟩
  | start id' s hst =>
    have := h.notRunning
    rw [hst] at this
    exact ⟨⟨h.waits, h.notComplete, h.notQueued, by simpa using this, h.old⟩, by simp⟩
  | close hf hc => exact ⟨⟨h.waits, h.notComplete, h.notQueued, by simpa using h.notRunning, h.old⟩, by simp⟩

theorem Stuck.run {st0 : St} {t id : Nat} (h : Stuck st0 t id) {ops : List Op} {st : St} {evs : List Ev} (hr : Run st0 ops st evs) :
    Stuck st t id ∧ Ev.resumed t id ∉ evs := by
  induction hr with
  | nil => exact ⟨h, by simp⟩
  | step _ hs ih =>
    have := ih.1.step hs
    refine ⟨this.1, ?_⟩
    simp only [List.mem_append, not_or]
    exact ⟨ih.2, this.2⟩

end Perf
end Rtmfp
