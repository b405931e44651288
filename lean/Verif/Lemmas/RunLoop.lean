import Verif.Spec.RunLoop
/-! # Run loops: what holds in every history -/
namespace Rtmfp
namespace RL
open Spec.RL

theorem queued_append (a b : List Ev) : queued (a ++ b) = queued a ++ queued b := by simp [queued]
theorem settled_append (a b : List Ev) : settled (a ++ b) = settled a ++ settled b := by simp [settled]
theorem ran_append (a b : List Ev) : ran (a ++ b) = ran a ++ ran b := by simp [ran]
theorem acted_append (a b : List Ev) : acted (a ++ b) = acted a ++ acted b := by simp [acted]

theorem settled_dropped (l : List Task) : settled (l.map (fun t => Ev.dropped t.id)) = l.map (·.id) := by
  induction l with
  | nil => rfl
  | cons t l ih => simpa [settled] using ih

theorem queued_dropped (l : List Task) : queued (l.map (fun t => Ev.dropped t.id)) = [] := by
  induction l with
  | nil => rfl
  | cons t l ih => simpa [queued] using ih

theorem settled_unregistered (l : List Item) : settled (l.map Ev.unregistered) = [] := by
  induction l with
  | nil => rfl
  | cons t l ih => simpa [settled] using ih

theorem queued_unregistered (l : List Item) : queued (l.map Ev.unregistered) = [] := by
  induction l with
  | nil => rfl
  | cons t l ih => simpa [queued] using ih

theorem acted_unregistered (l : List Item) : acted (l.map Ev.unregistered) = [] := by
  induction l with
  | nil => rfl
  | cons t l ih => simpa [acted] using ih

theorem acted_dropped (l : List Task) : acted (l.map (fun t => Ev.dropped t.id)) = [] := by
  induction l with
  | nil => rfl
  | cons t l ih => simpa [acted] using ih

/-- the ways a step can go -/
inductive Way (st : St) : Op → St → List Ev → Prop
  | later (op : Op) (g : Bool) : Way st op (RL.doLater st g) [.queued st.nextTask g]
  | closeAdapter : Way st .closeAdapter { st with isOpen := false } [.closed]
  | stop : Way st .stop { st with stopping := true } [.stopped]
  | clear : Way st .clear { st with doLaters := [], canceled := st.canceled ++ st.items.map (·.id), items := [] }
      (st.doLaters.map (fun t => .dropped t.id) ++ st.items.map .unregistered)
  | register (c : Cond) (fd : Nat) : Way st (.register c fd) (RL.register st c fd)
      ((registeredAt st c fd).map .unregistered ++ [.registered ⟨c, fd, st.nextItem⟩])
  | unregister (c : Cond) (fd : Nat) : Way st (.unregister c fd) (RL.unregister st c fd) ((registeredAt st c fd).map .unregistered)
  | run (h : st.pc = .outside) : Way st .run { st with pc := .top, stopping := false, activated := [] } [.began]
  | select (ready : Cond → Nat → Bool) (h : st.pc = .top) : Way st (.select ready)
      { st with pc := .acting, activated := st.activated ++ allActivated ready st.items }
      [.polled (!st.doLaters.isEmpty) (allActivated ready st.items)]
  | actEnd (h : st.pc = .acting) (h' : st.stopping = true ∨ st.activated = []) : Way st .act { st with pc := .tasks } []
  | actSkip (h : st.pc = .acting) (hs : st.stopping = false) (i : Item) (l : List Item) (ha : st.activated = i :: l)
      (hc : st.canceled.contains i.id = true) : Way st .act { st with activated := l } []
  | act (h : st.pc = .acting) (hs : st.stopping = false) (i : Item) (l : List Item) (ha : st.activated = i :: l)
      (hc : st.canceled.contains i.id = false) : Way st .act { st with activated := l } [.acted i]
  | taskStop (h : st.pc = .tasks) (hs : st.stopping = true) : Way st .task { st with pc := .late } []
  | taskEnd (h : st.pc = .tasks) (hs : st.stopping = false) (hd : st.doLaters = []) : Way st .task { st with pc := .late } [.timers]
  | task (h : st.pc = .tasks) (hs : st.stopping = false) (t : Task) (l : List Task) (hd : st.doLaters = t :: l) :
      Way st .task { st with doLaters := l } [runTask st t]
  | finish (h : st.pc = .late) (hs : st.stopping = true) : Way st .rest { st with pc := .outside } [.ended]
  | again (h : st.pc = .late) (hs : st.stopping = false) : Way st .rest { st with pc := .top } []

theorem step_way {st : St} {op : Op} {st' : St} {evs : List Ev} (h : step st op = some (st', evs)) : Way st op st' evs := by
  cases op with
  | doLater => simp only [step, Option.some.injEq, Prod.mk.injEq] at h; obtain ⟨rfl, rfl⟩ := h; exact .later _ _
  | perform => simp only [step, Option.some.injEq, Prod.mk.injEq] at h; obtain ⟨rfl, rfl⟩ := h; exact .later _ _
  | closeAdapter => simp only [step, Option.some.injEq, Prod.mk.injEq] at h; obtain ⟨rfl, rfl⟩ := h; exact .closeAdapter
  | stop => simp only [step, Option.some.injEq, Prod.mk.injEq] at h; obtain ⟨rfl, rfl⟩ := h; exact .stop
  | clear => simp only [step, Option.some.injEq, Prod.mk.injEq] at h; obtain ⟨rfl, rfl⟩ := h; exact .clear
  | register c fd => simp only [step, Option.some.injEq, Prod.mk.injEq] at h; obtain ⟨rfl, rfl⟩ := h; exact .register c fd
  | unregister c fd => simp only [step, Option.some.injEq, Prod.mk.injEq] at h; obtain ⟨rfl, rfl⟩ := h; exact .unregister c fd
  | run =>
    simp only [step] at h
    split at h
    · simp only [Option.some.injEq, Prod.mk.injEq] at h; obtain ⟨rfl, rfl⟩ := h; exact .run (by assumption)
    · cases h
  | select ready =>
    simp only [step] at h
    split at h
    · simp only [Option.some.injEq, Prod.mk.injEq] at h; obtain ⟨rfl, rfl⟩ := h; exact .select ready (by assumption)
    · cases h
  | act =>
    simp only [step] at h
    split at h
    next hp =>
      split at h
      next hs => simp only [Option.some.injEq, Prod.mk.injEq] at h; obtain ⟨rfl, rfl⟩ := h; exact .actEnd hp (Or.inl hs)
      next hs =>
        have hs : st.stopping = false := by simpa using hs
        split at h
        next ha => simp only [Option.some.injEq, Prod.mk.injEq] at h; obtain ⟨rfl, rfl⟩ := h; exact .actEnd hp (Or.inr ha)
        next i l ha =>
          simp only [Option.some.injEq, Prod.mk.injEq] at h
          obtain ⟨rfl, rfl⟩ := h
          by_cases hc : st.canceled.contains i.id = true
          · rw [if_pos hc]; exact .actSkip hp hs i l ha hc
          · rw [if_neg hc]; exact .act hp hs i l ha (by simpa using hc)
    next => cases h
  | task =>
    simp only [step] at h
    split at h
    next hp =>
      split at h
      next hs => simp only [Option.some.injEq, Prod.mk.injEq] at h; obtain ⟨rfl, rfl⟩ := h; exact .taskStop hp hs
      next hs =>
        have hs : st.stopping = false := by simpa using hs
        split at h
        next hd => simp only [Option.some.injEq, Prod.mk.injEq] at h; obtain ⟨rfl, rfl⟩ := h; exact .taskEnd hp hs hd
        next t l hd => simp only [Option.some.injEq, Prod.mk.injEq] at h; obtain ⟨rfl, rfl⟩ := h; exact .task hp hs t l hd
    next => cases h
  | rest =>
    simp only [step] at h
    split at h
    next hp =>
      split at h
      next hs => simp only [Option.some.injEq, Prod.mk.injEq] at h; obtain ⟨rfl, rfl⟩ := h; exact .finish hp hs
      next hs =>
        have hs : st.stopping = false := by simpa using hs
        simp only [Option.some.injEq, Prod.mk.injEq] at h; obtain ⟨rfl, rfl⟩ := h; exact .again hp hs
    next => cases h

/-! ## tasks -/

/-- the tasks in every state of a history -/
structure TInv (st : St) (evs : List Ev) : Prop where
  order : queued evs = settled evs ++ st.doLaters.map (·.id)
  inc : (queued evs).Pairwise (· < ·)
  lt : ∀ t ∈ queued evs, t < st.nextTask
  known : ∀ (t : Task), t ∈ st.doLaters → Ev.queued t.id t.guarded ∈ evs
  mem : ∀ (t : Nat) (g : Bool), Ev.queued t g ∈ evs → t ∈ queued evs
  uniq : ∀ (t : Nat) (g g' : Bool), Ev.queued t g ∈ evs → Ev.queued t g' ∈ evs → g = g'
  isOpen : st.isOpen = false ↔ Ev.closed ∈ evs
  going : st.pc ≠ .outside → st.stopping = false → Going evs

theorem going_append {evs evs' : List Ev} (h : Going evs) (hn : Ev.stopped ∉ evs') : Going (evs ++ evs') := by
  obtain ⟨e1, e2, rfl, he⟩ := h
  refine ⟨e1, e2 ++ evs', by simp, ?_⟩
  simp only [List.mem_append, not_or]
  exact ⟨he, hn⟩

theorem runTask_cases (st : St) (t : Task) : (runTask st t = .ran t.id ∧ ¬ (t.guarded = true ∧ st.isOpen = false)) ∨
    (runTask st t = .skipped t.id ∧ t.guarded = true ∧ st.isOpen = false) := by
  rw [runTask]
  by_cases h : (t.guarded && !st.isOpen) = true
  · rw [if_pos h]
    simp only [Bool.and_eq_true, Bool.not_eq_true'] at h
    exact Or.inr ⟨rfl, h⟩
  · rw [if_neg h]
    simp only [Bool.and_eq_true, Bool.not_eq_true'] at h
    exact Or.inl ⟨rfl, h⟩

theorem TInv.quiet {st : St} {evs : List Ev} (h : TInv st evs) {st' : St} {evs' : List Ev} (hd : st'.doLaters = st.doLaters)
    (hn : st'.nextTask = st.nextTask) (hq : ∀ t g, Ev.queued t g ∉ evs') (hq' : queued evs' = []) (hs : settled evs' = [])
    (ho : st'.isOpen = false ↔ st.isOpen = false ∨ Ev.closed ∈ evs') (hg : st'.pc ≠ .outside → st'.stopping = false → Going (evs ++ evs')) :
    TInv st' (evs ++ evs') := by
  refine ⟨?_, ?_, ?_, ?_, ?_, ?_, ?_, hg⟩
  · rw [queued_append, settled_append, hq', hs, List.append_nil, List.append_nil, hd]; exact h.order
  · rw [queued_append, hq', List.append_nil]; exact h.inc
  · rw [queued_append, hq', List.append_nil, hn]; exact h.lt
  · rw [hd]; exact fun t ht => List.mem_append_left _ (h.known t ht)
  · intro t g ht
    rw [queued_append]
    rcases List.mem_append.1 ht with ht | ht
    · exact List.mem_append_left _ (h.mem t g ht)
    · exact absurd ht (hq t g)
  · intro t g g' h1 h2
    rcases List.mem_append.1 h1 with h1 | h1
    · rcases List.mem_append.1 h2 with h2 | h2
      · exact h.uniq t g g' h1 h2
      · exact absurd h2 (hq t g')
    · exact absurd h1 (hq t g)
  · rw [ho, h.isOpen, List.mem_append]

theorem TInv.step {st : St} {evs : List Ev} (h : TInv st evs) {op : Op} {st' : St} {evs' : List Ev} (hs : RL.step st op = some (st', evs')) :
    TInv st' (evs ++ evs') := by
  cases step_way hs with
  | later _ g =>
    have hq : queued (evs ++ [.queued st.nextTask g]) = queued evs ++ [st.nextTask] := by rw [queued_append]; rfl
    refine ⟨?_, ?_, ?_, ?_, ?_, ?_, ?_, ?_⟩
    · rw [hq, settled_append, h.order]
      simp [settled, RL.doLater]
    · rw [hq, List.pairwise_append]
      refine ⟨h.inc, by simp, ?_⟩
      intro a ha b hb
      rw [List.mem_singleton] at hb
      subst hb
      exact h.lt a ha
    · rw [hq]
      intro t ht
      show t < st.nextTask + 1
      rcases List.mem_append.1 ht with ht | ht
      · have := h.lt t ht; omega
      · rw [List.mem_singleton] at ht; omega
    · intro t ht
      have ht : t ∈ st.doLaters ++ [⟨st.nextTask, g⟩] := ht
      rcases List.mem_append.1 ht with ht | ht
      · exact List.mem_append_left _ (h.known t ht)
      · rw [List.mem_singleton] at ht; subst ht; simp
    · intro t g' ht
      rw [hq]
      rcases List.mem_append.1 ht with ht | ht
      · exact List.mem_append_left _ (h.mem t g' ht)
      · simp only [List.mem_singleton, Ev.queued.injEq] at ht
        rw [ht.1]; simp
    · intro t g1 g2 h1 h2
      simp only [List.mem_append, List.mem_singleton, Ev.queued.injEq] at h1 h2
      rcases h1 with h1 | h1
      · rcases h2 with h2 | h2
        · exact h.uniq t g1 g2 h1 h2
        · have := h.lt t (h.mem t g1 h1); omega
      · rcases h2 with h2 | h2
        · have := h.lt t (h.mem t g2 h2); omega
        · rw [h1.2, h2.2]
    · show st.isOpen = false ↔ _
      rw [h.isOpen]; simp
    · intro hp hst
      exact going_append (h.going hp hst) (by simp)
  | closeAdapter =>
    exact h.quiet rfl rfl (by simp) rfl rfl (by simp) (fun hp hst => going_append (h.going hp hst) (by simp))
  | stop =>
    exact h.quiet rfl rfl (by simp) rfl rfl (by simp) (fun hp hst => by simp at hst)
  | clear =>
    refine ⟨?_, ?_, ?_, ?_, ?_, ?_, ?_, ?_⟩
    · rw [queued_append, queued_append, queued_dropped, queued_unregistered, settled_append, settled_append, settled_dropped, settled_unregistered]
      simpa using h.order
    · rw [queued_append, queued_append, queued_dropped, queued_unregistered]; simpa using h.inc
    · rw [queued_append, queued_append, queued_dropped, queued_unregistered]; simpa using h.lt
    · intro t ht; simp at ht
    · intro t g ht
      rw [queued_append]
      rcases List.mem_append.1 ht with ht | ht
      · exact List.mem_append_left _ (h.mem t g ht)
      · simp at ht
    · intro t g g' h1 h2
      rcases List.mem_append.1 h1 with h1 | h1
      · rcases List.mem_append.1 h2 with h2 | h2
        · exact h.uniq t g g' h1 h2
        · simp at h2
      · simp at h1
    · show st.isOpen = false ↔ _
      rw [h.isOpen]; simp
    · intro hp hst
      exact going_append (h.going hp hst) (by simp)
  | register c fd =>
    refine h.quiet rfl rfl (by simp) ?_ ?_ ?_ ?_
    · rw [queued_append, queued_unregistered]; rfl
    · rw [settled_append, settled_unregistered]; rfl
    · show st.isOpen = false ↔ _
      simp
    · intro hp hst
      exact going_append (h.going hp hst) (by simp)
  | unregister c fd =>
    refine h.quiet rfl rfl (by simp) ?_ ?_ ?_ ?_
    · rw [queued_unregistered]
    · rw [settled_unregistered]
    · show st.isOpen = false ↔ _
      simp
    · intro hp hst
      exact going_append (h.going hp hst) (by simp)
  | run hp =>
    exact h.quiet rfl rfl (by simp) rfl rfl (by simp) (fun _ _ => ⟨evs, [], rfl, by simp⟩)
  | select ready hp =>
    exact h.quiet rfl rfl (by simp) rfl rfl (by simp) (fun _ hst => going_append (h.going (by rw [hp]; decide) hst) (by simp))
  | actEnd hp _ =>
    exact h.quiet rfl rfl (by simp) rfl rfl (by simp) (fun _ hst => going_append (h.going (by rw [hp]; decide) hst) (by simp))
  | actSkip hp _ i l _ _ =>
    exact h.quiet rfl rfl (by simp) rfl rfl (by simp) (fun _ hst => going_append (h.going (by rw [hp]; decide) hst) (by simp))
  | act hp _ i l _ _ =>
    exact h.quiet rfl rfl (by simp) rfl rfl (by simp) (fun _ hst => going_append (h.going (by rw [hp]; decide) hst) (by simp))
  | taskStop hp _ =>
    exact h.quiet rfl rfl (by simp) rfl rfl (by simp) (fun _ hst => going_append (h.going (by rw [hp]; decide) hst) (by simp))
  | taskEnd hp _ _ =>
    exact h.quiet rfl rfl (by simp) rfl rfl (by simp) (fun _ hst => going_append (h.going (by rw [hp]; decide) hst) (by simp))
  | finish hp _ =>
    exact h.quiet rfl rfl (by simp) rfl rfl (by simp) (fun hp' _ => absurd rfl hp')
  | again hp _ =>
    exact h.quiet rfl rfl (by simp) rfl rfl (by simp) (fun _ hst => going_append (h.going (by rw [hp]; decide) hst) (by simp))
  | task hp hst t l hd =>
    have hw : queued [runTask st t] = [] ∧ settled [runTask st t] = [t.id] ∧ (∀ t' g, Ev.queued t' g ∉ [runTask st t]) ∧ Ev.closed ∉ [runTask st t]
        ∧ Ev.stopped ∉ [runTask st t] := by
      rcases runTask_cases st t with ⟨e, _⟩ | ⟨e, _⟩ <;> rw [e] <;> exact ⟨rfl, rfl, by simp, by simp, by simp⟩
    obtain ⟨w1, w2, w3, w4, w5⟩ := hw
    refine ⟨?_, ?_, ?_, ?_, ?_, ?_, ?_, ?_⟩
    · rw [queued_append, settled_append, w1, w2, h.order, hd]; simp
    · rw [queued_append, w1, List.append_nil]; exact h.inc
    · rw [queued_append, w1, List.append_nil]; exact h.lt
    · intro t' ht'
      exact List.mem_append_left _ (h.known t' (by rw [hd]; exact List.mem_cons_of_mem _ ht'))
    · intro t' g ht'
      rw [queued_append]
      rcases List.mem_append.1 ht' with ht' | ht'
      · exact List.mem_append_left _ (h.mem t' g ht')
      · exact absurd ht' (w3 t' g)
    · intro t' g g' h1 h2
      rcases List.mem_append.1 h1 with h1 | h1
      · rcases List.mem_append.1 h2 with h2 | h2
        · exact h.uniq t' g g' h1 h2
        · exact absurd h2 (w3 t' g')
      · exact absurd h1 (w3 t' g)
    · show st.isOpen = false ↔ _
      rw [h.isOpen, List.mem_append]
      exact ⟨Or.inl, fun h => h.resolve_right w4⟩
    · intro hp' hst'
      exact going_append (h.going hp' hst') w5

theorem tinv {ops : List Op} {st : St} {evs : List Ev} (h : Run init ops st evs) : TInv st evs := by
  induction h with
  | nil => exact ⟨rfl, by simp [queued], by simp [queued], by simp [init], by simp, by simp, by simp [init], by simp [init]⟩
  | step _ hs ih => exact ih.step hs

/-! ## registrations -/

/-- the registrations in every state of a history -/
structure RInv (st : St) (evs : List Ev) : Prop where
  items : ∀ (i : Item), i ∈ st.items ↔ Ev.registered i ∈ evs ∧ Ev.unregistered i ∉ evs
  canceled : ∀ (k : Nat), k ∈ st.canceled ↔ ∃ (i : Item), i.id = k ∧ Ev.unregistered i ∈ evs
  lt : ∀ (i : Item), Ev.registered i ∈ evs → i.id < st.nextItem
  known : ∀ (i : Item), Ev.unregistered i ∈ evs → Ev.registered i ∈ evs
  uniq : ∀ (i j : Item), Ev.registered i ∈ evs → Ev.registered j ∈ evs → i.id = j.id → i = j
  act : ∀ (i : Item), i ∈ st.activated → Ev.registered i ∈ evs
  sorted : st.items.Pairwise (fun i j => i.fd ≤ j.fd ∧ (i.cond = j.cond → i.fd ≠ j.fd))
  idle : st.pc = .top → st.activated = []
  rest : st.pc = .tasks ∨ st.pc = .late → st.stopping = true ∨ st.activated = []

theorem RInv.quiet {st : St} {evs : List Ev} (h : RInv st evs) {st' : St} {evs' : List Ev} (hi : st'.items = st.items)
    (hc : st'.canceled = st.canceled) (hn : st'.nextItem = st.nextItem) (hr : ∀ i, Ev.registered i ∉ evs') (hu : ∀ i, Ev.unregistered i ∉ evs')
    (ha : ∀ (i : Item), i ∈ st'.activated → i ∈ st.activated) (hidle : st'.pc = .top → st'.activated = [])
    (hrest : st'.pc = .tasks ∨ st'.pc = .late → st'.stopping = true ∨ st'.activated = []) :
    RInv st' (evs ++ evs') := by
  have e1 : ∀ i, Ev.registered i ∈ evs ++ evs' ↔ Ev.registered i ∈ evs := fun i => by
    rw [List.mem_append]; exact ⟨fun h => h.resolve_right (hr i), Or.inl⟩
  have e2 : ∀ i, Ev.unregistered i ∈ evs ++ evs' ↔ Ev.unregistered i ∈ evs := fun i => by
    rw [List.mem_append]; exact ⟨fun h => h.resolve_right (hu i), Or.inl⟩
  refine ⟨?_, ?_, ?_, ?_, ?_, ?_, ?_, hidle, hrest⟩
  · intro i; rw [hi, e1, e2]; exact h.items i
  · intro k; rw [hc, h.canceled k]; simp only [e2]
  · intro i hi; rw [hn]; exact h.lt i ((e1 i).1 hi)
  · intro i hi; exact (e1 i).2 (h.known i ((e2 i).1 hi))
  · intro i j hi hj; exact h.uniq i j ((e1 i).1 hi) ((e1 j).1 hj)
  · intro i hi; exact (e1 i).2 (h.act i (ha i hi))
  · rw [hi]; exact h.sorted

theorem mem_insertItem (x i : Item) (l : List Item) : x ∈ insertItem i l ↔ x = i ∨ x ∈ l := by
  induction l with
  | nil => simp [insertItem]
  | cons j l ih =>
    rw [insertItem]
    split
    · simp
    · rw [List.mem_cons, ih, List.mem_cons]
      constructor
      · rintro (h | h | h)
        · exact Or.inr (Or.inl h)
        · exact Or.inl h
        · exact Or.inr (Or.inr h)
      · rintro (h | h | h)
        · exact Or.inr (Or.inl h)
        · exact Or.inl h
        · exact Or.inr (Or.inr h)

theorem sorted_insertItem (i : Item) (l : List Item) (hs : l.Pairwise (fun i j => i.fd ≤ j.fd ∧ (i.cond = j.cond → i.fd ≠ j.fd)))
    (hi : ∀ (j : Item), j ∈ l → ¬ (j.cond = i.cond ∧ j.fd = i.fd)) :
    (insertItem i l).Pairwise (fun i j => i.fd ≤ j.fd ∧ (i.cond = j.cond → i.fd ≠ j.fd)) := by
  induction l with
  | nil => simp [insertItem]
  | cons j l ih =>
    rw [List.pairwise_cons] at hs
    rw [insertItem]
    split
    next hle =>
      rw [List.pairwise_cons]
      refine ⟨?_, List.pairwise_cons.2 hs⟩
      intro x hx
      refine ⟨?_, fun hc hf => hi x hx ⟨hc.symm, hf.symm⟩⟩
      rcases List.mem_cons.1 hx with rfl | hx
      · exact hle
      · exact Nat.le_trans hle (hs.1 x hx).1
    next hle =>
      rw [List.pairwise_cons]
      refine ⟨?_, ih hs.2 (fun x hx => hi x (List.mem_cons_of_mem _ hx))⟩
      intro x hx
      rcases (mem_insertItem x i l).1 hx with rfl | hx
      · exact ⟨by omega, fun hc hf => hi j (by simp) ⟨hc, hf⟩⟩
      · exact hs.1 x hx

theorem RInv.unregister {st : St} {evs : List Ev} (h : RInv st evs) (c : Cond) (fd : Nat) :
    RInv (RL.unregister st c fd) (evs ++ (registeredAt st c fd).map .unregistered) := by
  have hat : ∀ i, i ∈ registeredAt st c fd ↔ i ∈ st.items ∧ (i.cond = c ∧ i.fd = fd) := by
    intro i; simp [registeredAt]
  have e1 : ∀ i, Ev.registered i ∈ evs ++ (registeredAt st c fd).map .unregistered ↔ Ev.registered i ∈ evs := by
    intro i; simp
  have e2 : ∀ i, Ev.unregistered i ∈ evs ++ (registeredAt st c fd).map .unregistered ↔
      Ev.unregistered i ∈ evs ∨ i ∈ registeredAt st c fd := by
    intro i; simp
  refine ⟨?_, ?_, ?_, ?_, ?_, ?_, ?_, h.idle, h.rest⟩
  · intro i
    rw [e1, e2, hat]
    show i ∈ st.items.filter _ ↔ _
    rw [List.mem_filter, h.items i]
    simp only [Bool.not_eq_true', decide_eq_false_iff_not]
    constructor
    · rintro ⟨⟨a, b⟩, d⟩
      exact ⟨a, fun hh => hh.elim b (fun hh => d hh.2)⟩
    · rintro ⟨a, b⟩
      exact ⟨⟨a, fun hh => b (Or.inl hh)⟩, fun hh => b (Or.inr ⟨⟨a, fun hh => b (Or.inl hh)⟩, hh⟩)⟩
  · intro k
    show k ∈ st.canceled ++ _ ↔ _
    rw [List.mem_append, h.canceled k, List.mem_map]
    constructor
    · rintro (⟨i, a, b⟩ | ⟨i, a, b⟩)
      · exact ⟨i, a, (e2 i).2 (Or.inl b)⟩
      · exact ⟨i, b, (e2 i).2 (Or.inr (by rw [registeredAt]; exact a))⟩
    · rintro ⟨i, a, b⟩
      rcases (e2 i).1 b with b | b
      · exact Or.inl ⟨i, a, b⟩
      · exact Or.inr ⟨i, by rw [registeredAt] at b; exact b, a⟩
  · intro i hi; exact h.lt i ((e1 i).1 hi)
  · intro i hi
    rcases (e2 i).1 hi with hi | hi
    · exact (e1 i).2 (h.known i hi)
    · exact (e1 i).2 ((h.items i).1 ((hat i).1 hi).1).1
  · intro i j hi hj; exact h.uniq i j ((e1 i).1 hi) ((e1 j).1 hj)
  · intro i hi; exact (e1 i).2 (h.act i hi)
  · exact h.sorted.filter _

theorem mem_allActivated {ready : Cond → Nat → Bool} {items : List Item} {i : Item} :
    i ∈ allActivated ready items ↔ i ∈ items ∧ ready i.cond i.fd = true := by
  simp only [allActivated, activatedOf, List.mem_append, List.mem_filter, decide_eq_true_eq]
  constructor
  · rintro ((h | h) | h) <;> exact ⟨h.1, by rw [h.2.1]; exact h.2.2⟩
  · rintro ⟨h, hr⟩
    cases hc : i.cond with
    | readable => rw [hc] at hr; exact Or.inl (Or.inr ⟨h, rfl, hr⟩)
    | writable => rw [hc] at hr; exact Or.inr ⟨h, rfl, hr⟩
    | exception => rw [hc] at hr; exact Or.inl (Or.inl ⟨h, rfl, hr⟩)

theorem RInv.step {st : St} {evs : List Ev} (h : RInv st evs) {op : Op} {st' : St} {evs' : List Ev} (hs : RL.step st op = some (st', evs')) :
    RInv st' (evs ++ evs') := by
  cases step_way hs with
  | later _ g => exact h.quiet rfl rfl rfl (by simp) (by simp) (fun _ hi => hi) h.idle h.rest
  | closeAdapter => exact h.quiet rfl rfl rfl (by simp) (by simp) (fun _ hi => hi) h.idle h.rest
  | stop => exact h.quiet rfl rfl rfl (by simp) (by simp) (fun _ hi => hi) h.idle (fun _ => Or.inl rfl)
  | clear =>
    refine ⟨?_, ?_, ?_, ?_, ?_, ?_, by simp, h.idle, h.rest⟩
    · intro i
      constructor
      · intro hi; simp at hi
      · rintro ⟨a, b⟩
        simp only [List.mem_append, List.mem_map, reduceCtorEq, and_false, exists_false, or_false, false_or, Ev.unregistered.injEq,
          exists_eq_right, not_or] at a b
        exact absurd ((h.items i).2 ⟨a, b.1⟩) b.2
    · intro k
      simp only [List.mem_append, List.mem_map, reduceCtorEq, and_false, exists_false, false_or, Ev.unregistered.injEq, exists_eq_right, h.canceled k]
      constructor
      · rintro (⟨i, a, b⟩ | ⟨i, a, b⟩)
        · exact ⟨i, a, Or.inl b⟩
        · exact ⟨i, b, Or.inr a⟩
      · rintro ⟨i, a, b | b⟩
        · exact Or.inl ⟨i, a, b⟩
        · exact Or.inr ⟨i, b, a⟩
    · intro i hi
      simp only [List.mem_append, List.mem_map, reduceCtorEq, and_false, exists_false, or_false] at hi
      exact h.lt i hi
    · intro i hi
      simp only [List.mem_append, List.mem_map, reduceCtorEq, and_false, exists_false, or_false, false_or, Ev.unregistered.injEq, exists_eq_right] at hi ⊢
      rcases hi with hi | hi
      · exact h.known i hi
      · exact ((h.items i).1 hi).1
    · intro i j hi hj
      simp only [List.mem_append, List.mem_map, reduceCtorEq, and_false, exists_false, or_false] at hi hj
      exact h.uniq i j hi hj
    · intro i hi
      exact List.mem_append_left _ (h.act i hi)
  | unregister c fd => exact h.unregister c fd
  | register c fd =>
    have hu := h.unregister c fd
    rw [← List.append_assoc]
    generalize evs ++ (registeredAt st c fd).map Ev.unregistered = evs1 at hu
    have hnew : Ev.registered ⟨c, fd, st.nextItem⟩ ∉ evs1 := fun hh => absurd (hu.lt _ hh) (Nat.lt_irrefl _)
    have hnew' : Ev.unregistered ⟨c, fd, st.nextItem⟩ ∉ evs1 := fun hh => hnew (hu.known _ hh)
    refine ⟨?_, ?_, ?_, ?_, ?_, ?_, ?_, hu.idle, hu.rest⟩
    · intro i
      show i ∈ insertItem ⟨c, fd, st.nextItem⟩ (RL.unregister st c fd).items ↔ _
      rw [mem_insertItem, hu.items i]
      simp only [List.mem_append, List.mem_singleton, Ev.registered.injEq, reduceCtorEq, or_false]
      constructor
      · rintro (rfl | ⟨a, b⟩)
        · exact ⟨Or.inr rfl, hnew'⟩
        · exact ⟨Or.inl a, b⟩
      · rintro ⟨a | a, b⟩
        · exact Or.inr ⟨a, b⟩
        · exact Or.inl a
    · intro k
      show k ∈ (RL.unregister st c fd).canceled ↔ _
      rw [hu.canceled k]
      simp
    · intro i hi
      show i.id < st.nextItem + 1
      simp only [List.mem_append, List.mem_singleton, Ev.registered.injEq] at hi
      rcases hi with hi | rfl
      · exact Nat.lt_succ_of_lt (hu.lt i hi)
      · exact Nat.lt_succ_self _
    · intro i hi
      simp only [List.mem_append, List.mem_singleton, reduceCtorEq, or_false] at hi
      exact List.mem_append_left _ (hu.known i hi)
    · intro i j hi hj he
      simp only [List.mem_append, List.mem_singleton, Ev.registered.injEq] at hi hj
      rcases hi with hi | rfl
      · rcases hj with hj | rfl
        · exact hu.uniq i j hi hj he
        · have : i.id < st.nextItem := hu.lt i hi
          simp only at he
          omega
      · rcases hj with hj | rfl
        · have : j.id < st.nextItem := hu.lt j hj
          simp only at he
          omega
        · rfl
    · intro i hi
      exact List.mem_append_left _ (hu.act i hi)
    · refine sorted_insertItem _ _ hu.sorted ?_
      intro j hj hh
      have hj : j ∈ st.items.filter (fun i => !decide (i.cond = c ∧ i.fd = fd)) := hj
      rw [List.mem_filter] at hj
      simp only [Bool.not_eq_true', decide_eq_false_iff_not] at hj
      exact hj.2 hh
  | run hp => exact h.quiet rfl rfl rfl (by simp) (by simp) (by simp) (fun _ => rfl) (by simp)
  | select ready hp =>
    refine ⟨?_, ?_, ?_, ?_, ?_, ?_, h.sorted, by simp, by simp⟩
    · intro i
      simpa using h.items i
    · intro k; simpa using h.canceled k
    · intro i hi; exact h.lt i (by simpa using hi)
    · intro i hi
      exact List.mem_append_left _ (h.known i (by simpa using hi))
    · intro i j hi hj; exact h.uniq i j (by simpa using hi) (by simpa using hj)
    · intro i hi
      refine List.mem_append_left _ ?_
      have hi : i ∈ st.activated ++ allActivated ready st.items := hi
      rcases List.mem_append.1 hi with hi | hi
      · exact h.act i hi
      · exact ((h.items i).1 (mem_allActivated.1 hi).1).1
  | actEnd hp hh => exact h.quiet rfl rfl rfl (by simp) (by simp) (fun _ hi => hi) (by simp) (fun _ => hh)
  | actSkip hp hst i l ha _ =>
    exact h.quiet rfl rfl rfl (by simp) (by simp) (fun j hj => by rw [ha]; exact List.mem_cons_of_mem _ hj) (by simp [hp]) (by simp [hp])
  | act hp hst i l ha _ =>
    exact h.quiet rfl rfl rfl (by simp) (by simp) (fun j hj => by rw [ha]; exact List.mem_cons_of_mem _ hj) (by simp [hp]) (by simp [hp])
  | taskStop hp hst => exact h.quiet rfl rfl rfl (by simp) (by simp) (fun _ hi => hi) (by simp) (fun _ => Or.inl hst)
  | taskEnd hp _ _ => exact h.quiet rfl rfl rfl (by simp) (by simp) (fun _ hi => hi) (by simp) (fun _ => h.rest (Or.inl hp))
  | task hp hst t l hd =>
    refine h.quiet rfl rfl rfl ?_ ?_ (fun _ hi => hi) h.idle h.rest <;>
      rcases runTask_cases st t with ⟨e, _⟩ | ⟨e, _⟩ <;> rw [e] <;> simp
  | finish hp _ => exact h.quiet rfl rfl rfl (by simp) (by simp) (fun _ hi => hi) (by simp) (by simp)
  | again hp hst =>
    refine h.quiet rfl rfl rfl (by simp) (by simp) (fun _ hi => hi) (fun _ => ?_) (by simp)
    rcases h.rest (Or.inr hp) with hh | hh
    · rw [hst] at hh; cases hh
    · exact hh

theorem rinv {ops : List Op} {st : St} {evs : List Ev} (h : Run init ops st evs) : RInv st evs := by
  induction h with
  | nil => exact ⟨by simp [init], by simp [init], by simp, by simp, by simp, by simp [init], by simp [init], by simp [init], by simp [init]⟩
  | step _ hs ih => exact ih.step hs

/-! ## the moment of each event -/

/-- what holds for what was observed before an event -/
def Fine (e1 : List Ev) : Ev → Prop
  | .ran t => Going e1 ∧ t ∈ queued e1 ∧ t ∉ settled e1 ∧ ¬ (Ev.queued t true ∈ e1 ∧ Ev.closed ∈ e1)
  | .skipped t => Ev.queued t true ∈ e1 ∧ Ev.closed ∈ e1
  | .acted i => Going e1 ∧ Ev.registered i ∈ e1 ∧ Ev.unregistered i ∉ e1
  | .timers => Going e1 ∧ ∀ t, t ∈ queued e1 → t ∈ settled e1
  | .polled b l => (b = true ↔ ∃ t, t ∈ queued e1 ∧ t ∉ settled e1) ∧ ∀ (i : Item), i ∈ l → Ev.registered i ∈ e1 ∧ Ev.unregistered i ∉ e1
  | _ => True

theorem waiting {st : St} {evs : List Ev} (h : TInv st evs) (t : Nat) : (t ∈ queued evs ∧ t ∉ settled evs) ↔ t ∈ st.doLaters.map (·.id) := by
  have hn : (queued evs).Nodup := h.inc.imp (fun hlt => Nat.ne_of_lt hlt)
  rw [h.order, List.nodup_append] at hn
  rw [h.order, List.mem_append]
  constructor
  · rintro ⟨a | a, b⟩
    · exact absurd a b
    · exact a
  · intro a
    exact ⟨Or.inr a, fun b => hn.2.2 t b t a rfl⟩

theorem step_fine {st : St} {evs : List Ev} (h : TInv st evs) (hr : RInv st evs) {op : Op} {st' : St} {evs' : List Ev}
    (hs : RL.step st op = some (st', evs')) (e1 : List Ev) (x : Ev) (e2 : List Ev) (he : evs' = e1 ++ x :: e2) : Fine (evs ++ e1) x := by
  have one : ∀ (y : Ev), [y] = e1 ++ x :: e2 → Fine evs y → Fine (evs ++ e1) x := by
    intro y hy hf
    cases e1 with
    | nil =>
      simp only [List.nil_append, List.cons.injEq] at hy
      rw [← hy.1, List.append_nil]; exact hf
    | cons a l => simp at hy
  have many : x ∈ evs' := by rw [he]; simp
  cases step_way hs with
  | later _ g => exact one _ he trivial
  | closeAdapter => exact one _ he trivial
  | stop => exact one _ he trivial
  | clear =>
    rcases List.mem_append.1 many with hx | hx
    · obtain ⟨t, _, rfl⟩ := List.mem_map.1 hx; trivial
    · obtain ⟨t, _, rfl⟩ := List.mem_map.1 hx; trivial
  | register c fd =>
    rcases List.mem_append.1 many with hx | hx
    · obtain ⟨t, _, rfl⟩ := List.mem_map.1 hx; trivial
    · rw [List.mem_singleton] at hx; subst hx; trivial
  | unregister c fd => obtain ⟨t, _, rfl⟩ := List.mem_map.1 many; trivial
  | run hp => exact one _ he trivial
  | select ready hp =>
    refine one _ he ⟨?_, ?_⟩
    · simp only [Bool.not_eq_true', List.isEmpty_eq_false_iff]
      constructor
      · intro hne
        cases hd : st.doLaters with
        | nil => exact absurd hd hne
        | cons t l => exact ⟨t.id, (waiting h t.id).2 (by rw [hd]; simp)⟩
      · rintro ⟨t, ht⟩ hd
        have := (waiting h t).1 ht
        rw [hd] at this
        simp at this
    · intro i hi
      exact (hr.items i).1 (mem_allActivated.1 hi).1
  | actEnd _ _ => simp at many
  | actSkip _ _ _ _ _ _ => simp at many
  | act hp hst i l ha hc =>
    refine one _ he ⟨h.going (by rw [hp]; decide) hst, hr.act i (by rw [ha]; simp), ?_⟩
    intro hu
    have : i.id ∈ st.canceled := (hr.canceled i.id).2 ⟨i, rfl, hu⟩
    simp only [List.contains_eq_mem, decide_eq_false_iff_not] at hc
    exact hc this
  | taskStop _ _ => simp at many
  | taskEnd hp hst hd =>
    refine one _ he ⟨h.going (by rw [hp]; decide) hst, ?_⟩
    intro t ht
    refine Classical.byContradiction fun hn => ?_
    have := (waiting h t).1 ⟨ht, hn⟩
    rw [hd] at this
    simp at this
  | task hp hst t l hd =>
    have hw := (waiting h t.id).2 (by rw [hd]; simp)
    have hk := h.known t (by rw [hd]; simp)
    rcases runTask_cases st t with ⟨e, hg⟩ | ⟨e, hg⟩
    · rw [e] at he
      refine one _ he ⟨h.going (by rw [hp]; decide) hst, hw.1, hw.2, ?_⟩
      rintro ⟨a, b⟩
      refine hg ⟨(h.uniq _ _ _ a hk).symm, h.isOpen.2 b⟩
    · rw [e] at he
      rw [hg.1] at hk
      exact one _ he ⟨hk, h.isOpen.1 hg.2⟩
  | finish _ _ => exact one _ he trivial
  | again _ _ => simp at many

theorem fine {ops : List Op} {st : St} {evs : List Ev} (h : Run init ops st evs) :
    ∀ (e1 : List Ev) (x : Ev) (e2 : List Ev), evs = e1 ++ x :: e2 → Fine e1 x := by
  induction h with
  | nil => intro e1 x e2 he; simp at he
  | @step ops st evs op st' evs' hrun hs ih =>
    intro e1 x e2 he
    rcases List.append_eq_append_iff.1 he with ⟨a, ha, hb⟩ | ⟨a, ha, hb⟩
    · rw [ha]; exact step_fine (tinv hrun) (rinv hrun) hs a x e2 hb
    · cases a with
      | nil =>
        simp only [List.append_nil, List.nil_append] at ha hb
        rw [← ha, ← List.append_nil evs]
        exact step_fine (tinv hrun) (rinv hrun) hs [] x e2 hb.symm
      | cons y a =>
        simp only [List.cons_append, List.cons.injEq] at hb
        obtain ⟨rfl, _⟩ := hb
        exact ih e1 x a ha

/-! ## what is called between two calls of `select` -/

/-- since the last `select` -/
structure PInv (st : St) (evs : List Ev) : Prop where
  never : (∀ b l, Ev.polled b l ∉ evs) → acted evs = [] ∧ st.activated = []
  since : ∀ e1 b l e2, evs = e1 ++ Ev.polled b l :: e2 → (∀ b' l', Ev.polled b' l' ∉ e2) → (acted e2 ++ st.activated).Sublist l

theorem split_polled {evs evs' e1 e2 : List Ev} {b : Bool} {l : List Item} (he : evs ++ evs' = e1 ++ Ev.polled b l :: e2)
    (hn : ∀ b' l', Ev.polled b' l' ∉ evs') : ∃ a, evs = e1 ++ Ev.polled b l :: a ∧ e2 = a ++ evs' := by
  rcases List.append_eq_append_iff.1 he with ⟨a, ha, hb⟩ | ⟨a, ha, hb⟩
  · exact absurd (by rw [hb]; simp) (hn b l)
  · cases a with
    | nil =>
      simp only [List.nil_append] at hb
      exact absurd (by rw [← hb]; simp) (hn b l)
    | cons y a =>
      simp only [List.cons_append, List.cons.injEq] at hb
      obtain ⟨rfl, rfl⟩ := hb
      exact ⟨a, ha, rfl⟩

theorem PInv.quiet {st : St} {evs : List Ev} (h : PInv st evs) {st' : St} {evs' : List Ev} (hp : ∀ b l, Ev.polled b l ∉ evs')
    (ha : (acted evs' ++ st'.activated).Sublist st.activated) : PInv st' (evs ++ evs') := by
  constructor
  · intro hn
    have := h.never (fun b l hh => hn b l (List.mem_append_left _ hh))
    rw [this.2] at ha
    have := List.append_eq_nil_iff.1 (List.sublist_nil.1 ha)
    rw [acted_append, this.1]
    simp_all
  · intro e1 b l e2 he hn
    obtain ⟨a, rfl, rfl⟩ := split_polled he hp
    rw [acted_append, List.append_assoc]
    exact (ha.append_left _).trans (h.since e1 b l a rfl (fun b' l' hh => hn b' l' (List.mem_append_left _ hh)))

theorem PInv.step {st : St} {evs : List Ev} (h : PInv st evs) (hr : RInv st evs) {op : Op} {st' : St} {evs' : List Ev}
    (hs : RL.step st op = some (st', evs')) : PInv st' (evs ++ evs') := by
  cases step_way hs with
  | later _ g => exact h.quiet (by simp) (List.Sublist.refl _)
  | closeAdapter => exact h.quiet (by simp) (List.Sublist.refl _)
  | stop => exact h.quiet (by simp) (List.Sublist.refl _)
  | clear =>
    refine h.quiet (by simp) ?_
    rw [acted_append, acted_dropped, acted_unregistered]
    exact List.Sublist.refl _
  | register c fd =>
    refine h.quiet (by simp) ?_
    rw [acted_append, acted_unregistered]
    exact List.Sublist.refl _
  | unregister c fd =>
    refine h.quiet (by simp) ?_
    rw [acted_unregistered]
    exact List.Sublist.refl _
  | run hp => exact h.quiet (by simp) (List.nil_sublist _)
  | select ready hp =>
    constructor
    · intro hn
      exact absurd (List.mem_append_right _ (List.mem_singleton.2 rfl)) (hn _ _)
    · intro e1 b l e2 he hn
      have : e2 = [] ∧ l = allActivated ready st.items := by
        rcases List.append_eq_append_iff.1 he with ⟨a, ha, hb⟩ | ⟨a, ha, hb⟩
        · cases a with
          | nil =>
            simp only [List.nil_append, List.cons.injEq, Ev.polled.injEq] at hb
            exact ⟨hb.2.symm, hb.1.2.symm⟩
          | cons y a => simp at hb
        · cases a with
          | nil =>
            simp only [List.nil_append, List.cons.injEq, Ev.polled.injEq] at hb
            exact ⟨hb.2, hb.1.2⟩
          | cons y a =>
            simp only [List.cons_append, List.cons.injEq] at hb
            exact absurd (by rw [hb.2]; simp) (hn (!st.doLaters.isEmpty) (allActivated ready st.items))
      obtain ⟨rfl, rfl⟩ := this
      show (acted [] ++ (st.activated ++ allActivated ready st.items)).Sublist _
      rw [hr.idle hp]
      exact List.Sublist.refl _
  | actEnd _ _ => exact h.quiet (by simp) (List.Sublist.refl _)
  | actSkip _ _ i l ha _ =>
    refine h.quiet (by simp) ?_
    rw [ha]
    exact List.sublist_cons_self _ _
  | act hp hst i l ha hc =>
    refine h.quiet (by simp) ?_
    rw [ha]
    exact List.Sublist.refl _
  | taskStop _ _ => exact h.quiet (by simp) (List.Sublist.refl _)
  | taskEnd _ _ _ => exact h.quiet (by simp) (List.Sublist.refl _)
  | task hp hst t l hd =>
    rcases runTask_cases st t with ⟨e, _⟩ | ⟨e, _⟩ <;> rw [e] <;> exact h.quiet (by simp) (List.Sublist.refl _)
  | finish _ _ => exact h.quiet (by simp) (List.Sublist.refl _)
  | again _ _ => exact h.quiet (by simp) (List.Sublist.refl _)

theorem pinv {ops : List Op} {st : St} {evs : List Ev} (h : Run init ops st evs) : PInv st evs := by
  induction h with
  | nil => exact ⟨fun _ => ⟨rfl, rfl⟩, by simp⟩
  | step hrun hs ih => exact ih.step (rinv hrun) hs

end RL
end Rtmfp
