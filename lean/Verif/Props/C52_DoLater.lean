import Verif.Lemmas.RunLoop
import Verif.Lemmas.Performer
/-! # C52: deferred tasks run once in order; C69: actions of descriptors; C70: tasks handed to another thread -/
namespace Rtmfp

section
open RL Spec.RL

private def rlRuns : List RL.Op → RL.St → List RL.Ev → Option (RL.St × List RL.Ev)
  | [], st, evs => some (st, evs)
  | op :: ops, st, evs => (RL.step st op).bind (fun r => rlRuns ops r.1 (evs ++ r.2))

private theorem rlRuns_run (st0 : RL.St) (ops : List RL.Op) : ∀ (ops0 : List RL.Op) (st : RL.St) (evs : List RL.Ev) st' evs', RL.Run st0 ops0 st evs →
    rlRuns ops st evs = some (st', evs') → RL.Run st0 (ops0 ++ ops) st' evs' := by
  induction ops with
  | nil =>
    intro ops0 st evs st' evs' h hr
    simp only [rlRuns, Option.some.injEq, Prod.mk.injEq] at hr
    obtain ⟨rfl, rfl⟩ := hr
    simpa using h
  | cons op ops ih =>
    intro ops0 st evs st' evs' h hr
    simp only [rlRuns, Option.bind_eq_some_iff] at hr
    obtain ⟨⟨st1, evs1⟩, h1, h2⟩ := hr
    have := ih (ops0 ++ [op]) st1 (evs ++ evs1) st' evs' (RL.Run.step h h1) h2
    simpa using this

private theorem rl_demo (ops : List RL.Op) (evs : List RL.Ev) (h : (rlRuns ops RL.init []).map (·.2) = some evs) : ∃ st, RL.Run RL.init ops st evs := by
  cases hr : rlRuns ops RL.init [] with
  | none => rw [hr] at h; simp at h
  | some r =>
    rw [hr] at h
    simp only [Option.map_some, Option.some.injEq] at h
    refine ⟨r.1, ?_⟩
    rw [← h]
    simpa using rlRuns_run RL.init ops [] RL.init [] r.1 r.2 RL.Run.nil hr

/-- descriptors 4 and 5 are registered and a task queued; both are ready, and the action of 4 replaces that of 5 and queues a task through the adapter; the first
task queues a third and closes the adapter; the third one stops the loop -/
private def rlDemo : List RL.Op :=
  [.register .readable 5, .register .readable 4, .register .exception 9, .doLater, .run, .select (fun _ _ => true), .act, .act, .register .readable 5, .perform,
   .act, .act, .task, .doLater, .closeAdapter, .task, .task, .stop, .task, .rest]

private def i0 : Item := ⟨.readable, 5, 0⟩
private def i1 : Item := ⟨.readable, 4, 1⟩
private def i2 : Item := ⟨.exception, 9, 2⟩
private def i3 : Item := ⟨.readable, 5, 3⟩

private def rlDemoEvs : List RL.Ev :=
  [.registered i0, .registered i1, .registered i2, .queued 0 false, .began, .polled true [i2, i1, i0], .acted i2, .acted i1, .unregistered i0, .registered i3,
   .queued 1 true, .ran 0, .queued 2 false, .closed, .skipped 1, .ran 2, .stopped, .ended]

private theorem rl_demo_run : ∃ st, RL.Run RL.init rlDemo st rlDemoEvs := rl_demo rlDemo rlDemoEvs (by decide +kernel)

/-- **In order, each at most once.** Whatever is queued, by whomever and whenever: the tasks dealt with so far (run, or skipped or cleared) are the first of those
queued, in the order they were queued, and no task is queued or dealt with twice. -/
theorem C52_in_order (ops : List RL.Op) (st : RL.St) (evs : List RL.Ev) (h : RL.Run RL.init ops st evs) :
    settled evs <+: queued evs ∧ (settled evs).Nodup ∧ (queued evs).Nodup := by
  have hi := tinv h
  have hn : (queued evs).Nodup := hi.inc.imp (fun hlt => Nat.ne_of_lt hlt)
  refine ⟨⟨_, hi.order.symm⟩, ?_, hn⟩
  rw [hi.order, List.nodup_append] at hn
  exact hn.1

example : ∃ st evs, RL.Run RL.init rlDemo st evs ∧ settled evs = [0, 1, 2] ∧ queued evs = [0, 1, 2] := by
  obtain ⟨st, h⟩ := rl_demo_run
  exact ⟨st, _, h, by decide, by decide⟩

private theorem dropped_clear {ops : List RL.Op} {st : RL.St} {evs : List RL.Ev} (h : RL.Run RL.init ops st evs) :
    (∀ t, RL.Ev.dropped t ∈ evs → RL.Op.clear ∈ ops) ∧ (RL.Ev.closed ∈ evs → RL.Op.closeAdapter ∈ ops) := by
  induction h with
  | nil => exact ⟨by simp, by simp⟩
  | @step ops st evs op st' evs' _ hs ih =>
    have key : (∀ t, RL.Ev.dropped t ∈ evs' → op = .clear) ∧ (RL.Ev.closed ∈ evs' → op = .closeAdapter) := by
      cases RL.step_way hs with
      | clear => exact ⟨fun _ _ => rfl, by simp⟩
      | closeAdapter => exact ⟨by simp, fun _ => rfl⟩
      | task _ _ t l hd => rcases RL.runTask_cases st t with ⟨e, _⟩ | ⟨e, _⟩ <;> rw [e] <;> exact ⟨by simp, by simp⟩
      | _ => exact ⟨by simp, by simp⟩
    constructor
    · intro t ht
      rcases List.mem_append.1 ht with ht | ht
      · exact List.mem_append_left _ (ih.1 t ht)
      · rw [key.1 t ht]; simp
    · intro ht
      rcases List.mem_append.1 ht with ht | ht
      · exact List.mem_append_left _ (ih.2 ht)
      · rw [key.2 ht]; simp

private theorem settled_ran {evs : List RL.Ev} (hs : ∀ t, RL.Ev.skipped t ∉ evs) (hd : ∀ t, RL.Ev.dropped t ∉ evs) : settled evs = ran evs := by
  induction evs with
  | nil => rfl
  | cons x evs ih =>
    have hi := ih (fun t ht => hs t (List.mem_cons_of_mem _ ht)) (fun t ht => hd t (List.mem_cons_of_mem _ ht))
    cases x with
    | skipped t => exact absurd (List.mem_cons_self ..) (hs t)
    | dropped t => exact absurd (List.mem_cons_self ..) (hd t)
    | _ => simpa [settled, ran] using hi

/-- **Exactly once.** Unless the loop is cleared or the adapter closed, the tasks run so far are exactly the first of those queued: none is left out. -/
theorem C52_all_run (ops : List RL.Op) (st : RL.St) (evs : List RL.Ev) (h : RL.Run RL.init ops st evs) (hc : .clear ∉ ops) (ha : .closeAdapter ∉ ops) :
    ran evs <+: queued evs ∧ (queued evs).Nodup := by
  have hk := dropped_clear h
  have hs : ∀ t, RL.Ev.skipped t ∉ evs := by
    intro t ht
    obtain ⟨e1, e2, he⟩ := List.append_of_mem ht
    have hf : Ev.queued t true ∈ e1 ∧ Ev.closed ∈ e1 := RL.fine h e1 _ e2 he
    exact ha (hk.2 (by rw [he]; exact List.mem_append_left _ hf.2))
  rw [← settled_ran hs (fun t ht => hc (hk.1 t ht))]
  exact ⟨(C52_in_order ops st evs h).1, (C52_in_order ops st evs h).2.2⟩

example : ∃ (ops : List RL.Op) (st : RL.St) (evs : List RL.Ev), RL.Run RL.init ops st evs ∧ .clear ∉ ops ∧ .closeAdapter ∉ ops ∧ ran evs = [0, 1] ∧ queued evs = [0, 1, 2] := by
  obtain ⟨st, h⟩ := rl_demo [.doLater, .perform, .run, .select (fun _ _ => false), .act, .task, .doLater, .task] 
    [.queued 0 false, .queued 1 true, .began, .polled true [], .ran 0, .queued 2 false, .ran 1] (by decide +kernel)
  exact ⟨_, st, _, h, by simp, by simp, by decide, by decide⟩

/-- **What happens to each.** A task is skipped only if it came from the adapter's `perform` and the adapter has been closed; it is cleared only by `clear`. -/
theorem C52_skipped (ops : List RL.Op) (st : RL.St) (evs : List RL.Ev) (h : RL.Run RL.init ops st evs) :
    (∀ e1 t e2, evs = e1 ++ .skipped t :: e2 → .queued t true ∈ e1 ∧ .closed ∈ e1) ∧ (∀ t, .dropped t ∈ evs → .clear ∈ ops) :=
  ⟨fun e1 t e2 he => RL.fine h e1 _ e2 he, (dropped_clear h).1⟩

example : ∃ st evs e1 e2, RL.Run RL.init rlDemo st evs ∧ evs = e1 ++ .skipped 1 :: e2 := by
  obtain ⟨st, h⟩ := rl_demo_run
  exact ⟨st, _, rlDemoEvs.take 14, rlDemoEvs.drop 15, h, by decide⟩

/-- **None after the adapter was closed.** A task from the adapter's `perform` is not run once the adapter has been closed. -/
theorem C52_closed (ops : List RL.Op) (st : RL.St) (evs : List RL.Ev) (h : RL.Run RL.init ops st evs) (e1 : List RL.Ev) (t : Nat) (e2 : List RL.Ev)
    (he : evs = e1 ++ .ran t :: e2) : ¬ (.queued t true ∈ evs ∧ .closed ∈ e1) := by
  have hf := RL.fine h e1 _ e2 he
  rintro ⟨hq, hc⟩
  have hi := tinv h
  obtain ⟨_, hin, _, hno⟩ := (hf : _ ∧ _)
  have : ∃ g, Ev.queued t g ∈ e1 := by
    simp only [queued, List.mem_filterMap] at hin
    obtain ⟨x, hx, hxe⟩ := hin
    cases x with
    | queued t' g => simp only [Option.some.injEq] at hxe; subst hxe; exact ⟨g, hx⟩
    | _ => simp at hxe
  obtain ⟨g, hg⟩ := this
  have := hi.uniq t g true (by rw [he]; exact List.mem_append_left _ hg) hq
  rw [this] at hg
  exact hno ⟨hg, hc⟩

example : ∃ st evs e1 e2, RL.Run RL.init rlDemo st evs ∧ evs = e1 ++ .ran 2 :: e2 ∧ .closed ∈ e1 := by
  obtain ⟨st, h⟩ := rl_demo_run
  exact ⟨st, _, rlDemoEvs.take 15, rlDemoEvs.drop 16, h, by decide, by decide⟩

/-- **Soon.** When the timers get their turn, every task queued so far, also by other tasks, has been dealt with; and the loop sleeps only if that is so. -/
theorem C52_soon (ops : List RL.Op) (st : RL.St) (evs : List RL.Ev) (h : RL.Run RL.init ops st evs) (e1 e2 : List RL.Ev)
    (he : evs = e1 ++ .timers :: e2 ∨ ∃ l, evs = e1 ++ .polled false l :: e2) : ∀ t ∈ queued e1, t ∈ settled e1 := by
  rcases he with he | ⟨l, he⟩
  · have hf : Going e1 ∧ ∀ t, t ∈ queued e1 → t ∈ settled e1 := RL.fine h e1 _ e2 he
    exact hf.2
  · have hf : (false = true ↔ ∃ t, t ∈ queued e1 ∧ t ∉ settled e1) ∧ _ := RL.fine h e1 _ e2 he
    intro t ht
    refine Classical.byContradiction fun hn => ?_
    have := hf.1.2 ⟨t, ht, hn⟩
    cases this

example : ∃ ops st evs e1 e2, RL.Run RL.init ops st evs ∧ evs = e1 ++ .timers :: e2 ∧ queued e1 = [0, 1] := by
  obtain ⟨st, h⟩ := rl_demo [.doLater, .run, .select (fun _ _ => false), .act, .task, .perform, .task, .task]
    [.queued 0 false, .began, .polled true [], .ran 0, .queued 1 true, .ran 1, .timers] (by decide +kernel)
  exact ⟨_, st, _, [.queued 0 false, .began, .polled true [], .ran 0, .queued 1 true, .ran 1], [], h, rfl, by decide⟩

/-- **Only the action in force.** An action is called only if it is registered at that moment: not after having been unregistered, replaced or cleared, also if this
happens in the same turn. -/
theorem C69_registered (ops : List RL.Op) (st : RL.St) (evs : List RL.Ev) (h : RL.Run RL.init ops st evs) (e1 : List RL.Ev) (i : Item) (e2 : List RL.Ev)
    (he : evs = e1 ++ .acted i :: e2) : .registered i ∈ e1 ∧ .unregistered i ∉ e1 := by
  have hf : Going e1 ∧ Ev.registered i ∈ e1 ∧ Ev.unregistered i ∉ e1 := RL.fine h e1 _ e2 he
  exact hf.2

example : ∃ st evs e1 e2, RL.Run RL.init rlDemo st evs ∧ evs = e1 ++ .acted i1 :: e2 := by
  obtain ⟨st, h⟩ := rl_demo_run
  exact ⟨st, _, rlDemoEvs.take 7, rlDemoEvs.drop 8, h, by decide⟩

/-- **One at a time.** At most one action is in force for a descriptor and condition. -/
theorem C69_one (ops : List RL.Op) (st : RL.St) (evs : List RL.Ev) (h : RL.Run RL.init ops st evs) (i j : Item) (hi : .registered i ∈ evs)
    (hj : .registered j ∈ evs) (hc : i.cond = j.cond) (hf : i.fd = j.fd) : i = j ∨ .unregistered i ∈ evs ∨ .unregistered j ∈ evs := by
  have hr := rinv h
  by_cases h1 : Ev.unregistered i ∈ evs
  · exact Or.inr (Or.inl h1)
  by_cases h2 : Ev.unregistered j ∈ evs
  · exact Or.inr (Or.inr h2)
  left
  have m1 := (hr.items i).2 ⟨hi, h1⟩
  have m2 := (hr.items j).2 ⟨hj, h2⟩
  have hs := hr.sorted
  refine Classical.byContradiction fun hne => ?_
  have : ∀ (l : List Item), l.Pairwise (fun i j => i.fd ≤ j.fd ∧ (i.cond = j.cond → i.fd ≠ j.fd)) → i ∈ l → j ∈ l → False := by
    intro l hp
    induction hp with
    | nil => intro hh; simp at hh
    | @cons a l ha _ ih =>
      intro ha1 ha2
      rcases List.mem_cons.1 ha1 with hi | hi
      · rcases List.mem_cons.1 ha2 with hj | hj
        · exact hne (hi.trans hj.symm)
        · exact (ha j hj).2 (by rw [← hi]; exact hc) (by rw [← hi]; exact hf)
      · rcases List.mem_cons.1 ha2 with hj | hj
        · exact (ha i hi).2 (by rw [← hj]; exact hc.symm) (by rw [← hj]; exact hf.symm)
        · exact ih hi hj
  exact this _ hs m1 m2

example : ∃ st evs, RL.Run RL.init rlDemo st evs ∧ .registered i0 ∈ evs ∧ .registered i3 ∈ evs ∧ i0.cond = i3.cond ∧ i0.fd = i3.fd := by
  obtain ⟨st, h⟩ := rl_demo_run
  exact ⟨st, _, h, by decide, by decide, rfl, rfl⟩

/-- exceptions first, then readable, then writable -/
private def rank : Cond → Nat
  | .exception => 0
  | .readable => 1
  | .writable => 2

/-- **Only what is ready, once per turn, in order.** The actions called since a `select` are among those whose descriptors it found ready, in the same order; that
order is exceptions, readable, writable, and by descriptor; so none is called twice. Before any `select` none is called. -/
theorem C69_ready (ops : List RL.Op) (st : RL.St) (evs : List RL.Ev) (h : RL.Run RL.init ops st evs) :
    ((∀ b l, .polled b l ∉ evs) → acted evs = []) ∧
    ∀ e1 b l e2, evs = e1 ++ .polled b l :: e2 → (∀ b' l', .polled b' l' ∉ e2) → (acted e2).Sublist l ∧ (acted e2).Nodup ∧
      (acted e2).Pairwise (fun i j => rank i.cond < rank j.cond ∨ i.cond = j.cond ∧ i.fd < j.fd) := by
  have hp := pinv h
  refine ⟨fun hn => (hp.never hn).1, ?_⟩
  intro e1 b l e2 he hn
  have hsub : (acted e2).Sublist l := (List.sublist_append_left _ _).trans (hp.since e1 b l e2 he hn)
  have hall : ∀ {ops : List RL.Op} {st : RL.St} {evs : List RL.Ev}, RL.Run RL.init ops st evs → ∀ (b : Bool) (l : List Item), RL.Ev.polled b l ∈ evs →
      l.Pairwise (fun i j => rank i.cond < rank j.cond ∨ i.cond = j.cond ∧ i.fd < j.fd) := by
    intro ops st evs h
    induction h with
    | nil => intro b l hm; simp at hm
    | @step ops st evs op st' evs' hr hs ih =>
      intro b l hm
      rcases List.mem_append.1 hm with hm | hm
      · exact ih b l hm
      · cases RL.step_way hs with
        | select ready hp =>
          simp only [List.mem_singleton, Ev.polled.injEq] at hm
          rw [hm.2]
          have hsor := (rinv hr).sorted
          have hcond : ∀ c, (activatedOf ready st.items c).Pairwise (fun i j => rank i.cond < rank j.cond ∨ i.cond = j.cond ∧ i.fd < j.fd) := by
            intro c
            rw [activatedOf]
            refine List.Pairwise.imp_of_mem ?_ (hsor.filter _)
            intro i j hi hj hij
            have hi := (List.mem_filter.1 hi).2
            have hj := (List.mem_filter.1 hj).2
            simp only [decide_eq_true_eq] at hi hj
            have hcc : i.cond = j.cond := by rw [hi.1, hj.1]
            exact Or.inr ⟨hcc, Nat.lt_of_le_of_ne hij.1 (hij.2 hcc)⟩
          have hmem : ∀ c (i : Item), i ∈ activatedOf ready st.items c → i.cond = c := by
            intro c i hi
            have hi := (List.mem_filter.1 hi).2
            simp only [decide_eq_true_eq] at hi
            exact hi.1
          rw [allActivated, List.pairwise_append, List.pairwise_append]
          refine ⟨⟨hcond _, hcond _, ?_⟩, hcond _, ?_⟩
          · intro i hi j hj
            rw [hmem _ i hi, hmem _ j hj]
            exact Or.inl (by decide)
          · intro i hi j hj
            rw [hmem _ j hj]
            rcases List.mem_append.1 hi with hi | hi <;> rw [hmem _ i hi] <;> exact Or.inl (by decide)
        | clear => simp at hm
        | register c fd => simp at hm
        | unregister c fd => simp at hm
        | task _ _ t l' hd => rcases RL.runTask_cases st t with ⟨e, _⟩ | ⟨e, _⟩ <;> rw [e] at hm <;> simp at hm
        | _ => simp at hm
  have hl := (hall h b l (by rw [he]; simp)).sublist hsub
  refine ⟨hsub, hl.imp ?_, hl⟩
  rintro i j hij rfl
  rcases hij with hij | hij
  · exact absurd hij (Nat.lt_irrefl _)
  · exact absurd hij.2 (Nat.lt_irrefl _)

example : ∃ st evs e1 b l e2, RL.Run RL.init rlDemo st evs ∧ evs = e1 ++ .polled b l :: e2 ∧ (∀ b' l', .polled b' l' ∉ e2) ∧ acted e2 = [i2, i1] ∧ l = [i2, i1, i0] := by
  obtain ⟨st, h⟩ := rl_demo_run
  refine ⟨st, _, rlDemoEvs.take 5, true, [i2, i1, i0], rlDemoEvs.drop 6, h, by decide, ?_, by decide, rfl⟩
  intro b' l'
  simp [rlDemoEvs]

/-- **Only while running and not stopped.** Tasks are run, actions called and timers fired only if `run` was called and `stop` was not called since. -/
theorem C69_stopped (ops : List RL.Op) (st : RL.St) (evs : List RL.Ev) (h : RL.Run RL.init ops st evs) (e1 : List RL.Ev) (x : RL.Ev) (e2 : List RL.Ev)
    (he : evs = e1 ++ x :: e2) (hx : (∃ t, x = .ran t) ∨ (∃ i, x = .acted i) ∨ x = .timers) :
    ∃ a b, e1 = a ++ .began :: b ∧ .stopped ∉ b := by
  have hf := RL.fine h e1 _ e2 he
  rcases hx with ⟨t, rfl⟩ | ⟨i, rfl⟩ | rfl
  · exact (hf : _ ∧ _).1
  · exact (hf : _ ∧ _).1
  · exact (hf : _ ∧ _).1

example : ∃ st evs e1 e2, RL.Run RL.init rlDemo st evs ∧ evs = e1 ++ .ran 2 :: e2 := by
  obtain ⟨st, h⟩ := rl_demo_run
  exact ⟨st, _, rlDemoEvs.take 15, rlDemoEvs.drop 16, h, by decide⟩

end

section
open Perf Spec.Perf

private def pRuns : List Perf.Op → Perf.St → List Perf.Ev → Option (Perf.St × List Perf.Ev)
  | [], st, evs => some (st, evs)
  | op :: ops, st, evs => (Perf.step st op).bind (fun r => pRuns ops r.1 (evs ++ r.2))

private theorem pRuns_run (st0 : Perf.St) (ops : List Perf.Op) : ∀ (ops0 : List Perf.Op) (st : Perf.St) (evs : List Perf.Ev) st' evs',
    Perf.Run st0 ops0 st evs → pRuns ops st evs = some (st', evs') → Perf.Run st0 (ops0 ++ ops) st' evs' := by
  induction ops with
  | nil =>
    intro ops0 st evs st' evs' h hr
    simp only [pRuns, Option.some.injEq, Prod.mk.injEq] at hr
    obtain ⟨rfl, rfl⟩ := hr
    simpa using h
  | cons op ops ih =>
    intro ops0 st evs st' evs' h hr
    simp only [pRuns, Option.bind_eq_some_iff] at hr
    obtain ⟨⟨st1, evs1⟩, h1, h2⟩ := hr
    have := ih (ops0 ++ [op]) st1 (evs ++ evs1) st' evs' (Perf.Run.step h h1) h2
    simpa using this

private theorem p_demo (ops : List Perf.Op) (f : Perf.St × List Perf.Ev → Bool) (h : (pRuns ops Perf.init []).map f = some true) :
    ∃ st evs, Perf.Run Perf.init ops st evs ∧ f (st, evs) = true := by
  cases hr : pRuns ops Perf.init [] with
  | none => rw [hr] at h; simp at h
  | some r =>
    rw [hr] at h
    refine ⟨r.1, r.2, by simpa using pRuns_run Perf.init ops [] Perf.init [] r.1 r.2 Perf.Run.nil hr, by simpa using h⟩

/-- two threads push at the same time and both find that nothing was signaled; the loop's thread runs both tasks, the first of which waits for one of its own -/
private def pDemo : List Perf.Op :=
  [.call 1 true, .call 2 false, .push 1, .push 2, .look 1, .look 2, .signal 1, .write 1, .wake, .signal 2, .read, .fire, .performWait, .fire, .done, .fire, .start,
   .done, .done, .resume 1, .write 2, .fire]

/-- **In order, each at most once, none left out.** For all interleavings: the tasks handed over that were started (or thrown away after closing) are the first of
those handed over, in that order; no task is started twice; tasks are thrown away only after closing. -/
theorem C70_in_order (ops : List Perf.Op) (st : Perf.St) (evs : List Perf.Ev) (h : Perf.Run Perf.init ops st evs) :
    (taken evs).filter (fun t => t ∈ queued evs) <+: queued evs ∧ (queued evs).Nodup ∧ (taken evs).Nodup ∧
    ∀ e1 id e2, evs = e1 ++ .dropped id :: e2 → id ∈ queued e1 ∧ .closed ∈ e1 := by
  have hi := oinv h
  exact ⟨⟨_, hi.order.symm⟩, hi.inc.imp (fun hlt => Nat.ne_of_lt hlt), hi.once, fun e1 id e2 he => Perf.fine h e1 _ e2 he⟩

example : ∃ st evs, Perf.Run Perf.init pDemo st evs ∧ (queued evs = [0, 1] ∧ taken evs = [0, 1, 2]) := by
  obtain ⟨st, evs, h, hf⟩ := p_demo pDemo (fun r => decide (queued r.2 = [0, 1] ∧ taken r.2 = [0, 1, 2])) (by decide +kernel)
  exact ⟨st, evs, h, by simpa using hf⟩

/-- **No wakeup is lost.** Whenever a task is waiting, no thread is in the middle of handing one over and the loop's thread is not busy with the performer: the pipe
can be read (unless closed), and when the loop's thread is woken by it, it starts the task that has waited longest. -/
theorem C70_wakes (ops : List Perf.Op) (st : Perf.St) (evs : List Perf.Ev) (h : Perf.Run Perf.init ops st evs) (hs : st.stack = []) (hb : ∀ t, ¬ Busy (st.pcs t))
    (id : Nat) (hq : id ∈ queued evs) (hn : id ∉ taken evs) (hc : .closed ∉ evs) :
    ∃ first st', (first = id ∨ [first, id].Sublist (queued evs)) ∧ first ∉ taken evs ∧ Perf.Run st [.wake, .read, .fire] st' [.started first] := by
  have hw := winv h
  have hi := oinv h
  have hin : id ∈ st.items := by
    rw [hi.order] at hq
    rcases List.mem_append.1 hq with hq | hq
    · exact absurd (List.mem_filter.1 hq).1 hn
    · exact hq
  have hclosed : st.closed = false := by
    cases hcl : st.closed with
    | false => rfl
    | true => exact absurd ((closed_inv h).1 hcl) hc
  have hbytes : 0 < st.bytes := by
    rcases hw.items (List.ne_nil_of_mem hin) with h1 | h1 | h1 | ⟨t, h1⟩
    · rw [hs] at h1; simp at h1
    · rw [hs] at h1; simp at h1
    · exact h1
    · exact absurd h1 (hb t)
  cases hit : st.items with
  | nil => rw [hit] at hin; simp at hin
  | cons first l =>
    have hfq : first ∈ queued evs := by rw [hi.order, hit]; simp
    have hft : first ∉ taken evs := by
      intro hh
      have hnd : (queued evs).Nodup := hi.inc.imp (fun hlt => Nat.ne_of_lt hlt)
      have h2 := hi.order
      rw [h2, List.nodup_append] at hnd
      exact hnd.2.2 first (List.mem_filter.2 ⟨hh, by simpa using hfq⟩) first (by rw [hit]; simp) rfl
    refine ⟨first, { st with signaled := false, bytes := st.bytes - 1, items := l, stack := [.running first, .firing] }, ?_, hft, ?_⟩
    · rw [hit] at hin
      rcases List.mem_cons.1 hin with hin | hin
      · exact Or.inl hin.symm
      · right
        rw [hi.order, hit]
        refine List.Sublist.trans ?_ (List.sublist_append_right _ _)
        exact (List.singleton_sublist.2 hin).cons_cons _
    · have h1 : Perf.step st .wake = some ({ st with signaled := false, stack := [.reading] }, []) := by
        rw [Perf.step, if_pos ⟨hs, hbytes, hclosed⟩]
      have h2 : Perf.step { st with signaled := false, stack := [.reading] } .read = some ({ st with signaled := false, bytes := st.bytes - 1, stack := [.firing] }, []) := by
        simp only [Perf.step]
        rw [if_pos hbytes]
      have h3 : Perf.step { st with signaled := false, bytes := st.bytes - 1, stack := [.firing] } .fire =
          some ({ st with signaled := false, bytes := st.bytes - 1, items := l, stack := [.running first, .firing] }, [.started first]) := by
        simp only [Perf.step, hit, hclosed]
        rfl
      exact Perf.Run.step (Perf.Run.step (Perf.Run.step Perf.Run.nil h1) h2) h3

example : ∃ ops st evs, Perf.Run Perf.init ops st evs ∧ st.stack = [] ∧ (∀ t, ¬ Busy (st.pcs t)) ∧ 0 ∈ queued evs ∧ 0 ∉ taken evs ∧ .closed ∉ evs := by
  let ops : List Perf.Op := [.call 1 true, .call 2 false, .push 1, .push 2, .look 1, .signal 1, .look 2, .write 1]
  obtain ⟨st, evs, h, hf⟩ := p_demo ops (fun r => decide (r.1.stack = [] ∧ r.1.pcs 1 = .waiting 0 ∧ r.1.pcs 2 = .idle ∧ queued r.2 = [0, 1] ∧ taken r.2 = [] ∧ Perf.Ev.closed ∉ r.2)) (by decide +kernel)
  simp only [decide_eq_true_eq] at hf
  refine ⟨ops, st, evs, h, hf.1, ?_, by rw [hf.2.2.2.1]; simp, by rw [hf.2.2.2.2.1]; simp, hf.2.2.2.2.2⟩
  have other : ∀ {ops : List Perf.Op} {st : Perf.St} {evs : List Perf.Ev}, Perf.Run Perf.init ops st evs → ∀ t,
      (∀ op ∈ ops, op ∈ [.call 1 true, .call 2 false, .push 1, .push 2, .look 1, .signal 1, .look 2, .write 1]) → t ≠ 1 → t ≠ 2 → st.pcs t = .idle := by
    intro ops st evs h
    induction h with
    | nil => intros; rfl
    | @step ops st evs op st' evs' _ hs ih =>
      intro t hm h1 h2
      have := ih t (fun op ho => hm op (List.mem_append_left _ ho)) h1 h2
      have ho := hm op (by simp)
      cases Perf.step_way hs with
      | refused _ _ => exact this
      | call t' w hp hc => simp at ho; rw [← this]; exact goto_other _ _ _ _ (by omega)
      | push t' w hp => simp at ho; rw [← this]; exact goto_other _ _ _ _ (by omega)
      | seen t' id w hp hc => simp at ho; rw [← this]; exact goto_other _ _ _ _ (by omega)
      | unseen t' id w hp hc => simp at ho; rw [← this]; exact goto_other _ _ _ _ (by omega)
      | signal t' id w hp => simp at ho; rw [← this]; exact goto_other _ _ _ _ (by omega)
      | write t' id w hp => simp at ho; rw [← this]; exact goto_other _ _ _ _ (by omega)
      | _ => simp at ho
  intro t
  by_cases h1 : t = 1
  · subst h1; rw [hf.2.1]; exact fun x => x
  by_cases h2 : t = 2
  · subst h2; rw [hf.2.2.1]; exact fun x => x
  rw [other h t (fun op ho => ho) h1 h2]
  exact fun x => x

/-- **The loop's thread does not block.** When it is about to read from the pipe there is something to read. -/
theorem C70_reads (ops : List Perf.Op) (st : Perf.St) (evs : List Perf.Ev) (h : Perf.Run Perf.init ops st evs) (s : List Frame) (hs : st.stack = .reading :: s) :
    ∃ st', Perf.step st .read = some (st', []) := by
  have := (winv h).reading (by rw [hs]; simp)
  exact ⟨_, by rw [Perf.step, hs]; exact if_pos this.2⟩

example : ∃ ops st evs, Perf.Run Perf.init ops st evs ∧ st.stack = .reading :: [] := by
  obtain ⟨st, evs, h, hf⟩ := p_demo (pDemo.take 10) (fun r => decide (r.1.stack = [.reading])) (by decide +kernel)
  exact ⟨_, st, evs, h, by simpa using hf⟩

/-- **Waiting.** A call that waits goes on only after its task has finished. -/
theorem C70_waits (ops : List Perf.Op) (st : Perf.St) (evs : List Perf.Ev) (h : Perf.Run Perf.init ops st evs) (e1 : List Perf.Ev) (t id : Nat) (e2 : List Perf.Ev)
    (he : evs = e1 ++ .resumed t id :: e2) : .finished id ∈ e1 := Perf.fine h e1 _ e2 he

example : ∃ st evs e1 e2, Perf.Run Perf.init pDemo st evs ∧ evs = e1 ++ .resumed 1 0 :: e2 := by
  obtain ⟨st, evs, h, hf⟩ := p_demo pDemo (fun r => decide (Perf.Ev.resumed 1 0 ∈ r.2)) (by decide +kernel)
  obtain ⟨e1, e2, he⟩ := List.append_of_mem (by simpa using hf)
  exact ⟨st, evs, e1, e2, h, he⟩

/-- **Waiting in the loop's own thread.** The task of such a call is started only after all tasks that were handed over before the call; a task that was handed over
is started only if the performer was not closed. -/
theorem C70_started (ops : List Perf.Op) (st : Perf.St) (evs : List Perf.Ev) (h : Perf.Run Perf.init ops st evs) (e1 : List Perf.Ev) (id : Nat) (e2 : List Perf.Ev)
    (he : evs = e1 ++ .started id :: e2) :
    (id ∈ queued evs → .closed ∉ e1) ∧ (∀ a b, e1 = a ++ .asked id :: b → ∀ j ∈ queued a, j ∈ taken e1) := by
  have hf : id ∉ taken e1 ∧ ((id ∈ queued e1 ∧ Perf.Ev.closed ∉ e1) ∨ (Perf.Ev.asked id ∈ e1 ∧ ∀ j ∈ queued e1, j < id → j ∈ taken e1)) := Perf.fine h e1 _ e2 he
  have hi := oinv h
  rcases hf.2 with h1 | h1
  · refine ⟨fun _ => h1.2, fun a b hab => ?_⟩
    have := (hi.asked id (by rw [he, hab]; simp)).2
    exact absurd (by rw [he, Perf.queued_append]; exact List.mem_append_left _ h1.1) this
  · refine ⟨fun hq => absurd hq (hi.asked id (by rw [he]; exact List.mem_append_left _ h1.1)).2, fun a b hab j hj => ?_⟩
    have hlt : ∀ j ∈ queued a, j < id := Perf.fine h a (.asked id) (b ++ .started id :: e2) (by rw [he, hab]; simp)
    exact h1.2 j (by rw [hab, Perf.queued_append]; exact List.mem_append_left _ hj) (hlt j hj)

example : ∃ st evs e1 e2 a b, Perf.Run Perf.init pDemo st evs ∧ evs = e1 ++ .started 2 :: e2 ∧ e1 = a ++ .asked 2 :: b ∧ queued a = [0, 1] := by
  let E : List Perf.Ev := [.queued 0, .queued 1, .started 0, .asked 2, .started 1, .finished 1, .started 2, .finished 2, .finished 0, .resumed 1 0]
  obtain ⟨st, evs, h, hf⟩ := p_demo pDemo (fun r => decide (r.2 = E)) (by decide +kernel)
  have hf : evs = E := by simpa using hf
  subst hf
  exact ⟨st, _, E.take 6, E.drop 7, E.take 3, E.drop 4 |>.take 2, h, by decide, by decide, by decide⟩

example : ∃ st evs e1 e2, Perf.Run Perf.init pDemo st evs ∧ evs = e1 ++ .started 1 :: e2 ∧ 1 ∈ queued evs := by
  obtain ⟨st, evs, h, hf⟩ := p_demo pDemo (fun r => decide (Perf.Ev.started 1 ∈ r.2 ∧ 1 ∈ queued r.2)) (by decide +kernel)
  simp only [decide_eq_true_eq] at hf
  obtain ⟨e1, e2, he⟩ := List.append_of_mem hf.1
  exact ⟨st, evs, e1, e2, h, he, hf.2⟩

private theorem complete_started {ops : List Perf.Op} {st : Perf.St} {evs : List Perf.Ev} (h : Perf.Run Perf.init ops st evs) :
    ∀ id, id ∈ st.complete → .started id ∈ evs := by
  induction h with
  | nil => intro id hid; simp [Perf.init] at hid
  | @step ops st evs op st' evs' hr hs ih =>
    have hsame : st'.complete = st.complete → ∀ id, id ∈ st'.complete → .started id ∈ evs ++ evs' := by
      intro e id hid
      rw [e] at hid
      exact List.mem_append_left _ (ih id hid)
    cases Perf.step_way hs with
    | done id' s hst =>
      intro id hid
      rcases List.mem_cons.1 hid with rfl | hid
      · exact List.mem_append_left _ ((oinv hr).running id (by rw [hst]; simp))
      · exact List.mem_append_left _ (ih id hid)
    | _ => exact hsame rfl

private theorem taken_twice {evs : List Perf.Ev} {id : Nat} (h1 : Perf.Ev.started id ∈ evs) (h2 : Perf.Ev.dropped id ∈ evs) (hn : (taken evs).Nodup) : False := by
  induction evs with
  | nil => simp at h1
  | cons x evs ih =>
    have mem : ∀ x : Perf.Ev, (x = .started id ∨ x = .dropped id) → x ∈ evs → id ∈ taken evs := by
      intro x hx hm
      refine List.mem_filterMap.2 ⟨x, hm, ?_⟩
      rcases hx with rfl | rfl <;> rfl
    have hcons : taken (x :: evs) = taken [x] ++ taken evs := Perf.taken_append [x] evs
    rw [hcons, List.nodup_append] at hn
    rcases List.mem_cons.1 h1 with e1 | m1
    · rcases List.mem_cons.1 h2 with e2 | m2
      · rw [← e1] at e2; cases e2
      · subst e1
        exact hn.2.2 id (by simp [taken]) id (mem _ (Or.inr rfl) m2) rfl
    · rcases List.mem_cons.1 h2 with e2 | m2
      · subst e2
        exact hn.2.2 id (by simp [taken]) id (mem _ (Or.inl rfl) m1) rfl
      · exact ih m1 m2 hn.2.1

/-- **Waiting forever.** A call that waits for a task that was thrown away because of closing never returns, whatever happens afterwards. -/
theorem C70_never_returns (ops : List Perf.Op) (st : Perf.St) (evs : List Perf.Ev) (h : Perf.Run Perf.init ops st evs) (t id : Nat) (hw : st.pcs t = .waiting id)
    (hd : .dropped id ∈ evs) (ops' : List Perf.Op) (st' : Perf.St) (evs' : List Perf.Ev) (h' : Perf.Run st ops' st' evs') :
    st'.pcs t = .waiting id ∧ .resumed t id ∉ evs' := by
  have hi := oinv h
  obtain ⟨e1, e2, he⟩ := List.append_of_mem hd
  have hq : id ∈ queued evs := by
    have := (Perf.fine h e1 _ e2 he : id ∈ queued e1 ∧ _).1
    rw [he, Perf.queued_append]; exact List.mem_append_left _ this
  have htk : id ∈ taken evs := List.mem_filterMap.2 ⟨_, hd, rfl⟩
  have hs : Stuck st t id := by
    refine ⟨hw, fun hc => taken_twice (complete_started h id hc) hd hi.once, ?_, fun hr => taken_twice (hi.running id hr) hd hi.once, hi.lt id hq⟩
    intro hin
    have hnd : (queued evs).Nodup := hi.inc.imp (fun hlt => Nat.ne_of_lt hlt)
    have h2 := hi.order
    rw [h2, List.nodup_append] at hnd
    exact hnd.2.2 id (List.mem_filter.2 ⟨htk, by simpa using hq⟩) id hin rfl
  exact ⟨(hs.run h').1.waits, (hs.run h').2⟩

/-- a thread hands a task over and waits; before the loop's thread gets to it, it closes the performer -/
private def pStuck : List Perf.Op := [.call 1 true, .push 1, .look 1, .signal 1, .write 1, .close, .fire, .fire]

/-- **Such calls exist**: "it always returns" fails for the code. -/
theorem C70_waits_forever : ∃ ops st evs t id, Perf.Run Perf.init ops st evs ∧ st.pcs t = .waiting id ∧ .queued id ∈ evs ∧
    ∀ ops' st' evs', Perf.Run st ops' st' evs' → st'.pcs t = .waiting id ∧ .resumed t id ∉ evs' := by
  obtain ⟨st, evs, h, hf⟩ := p_demo pStuck (fun r => decide (r.1.pcs 1 = .waiting 0 ∧ Perf.Ev.dropped 0 ∈ r.2 ∧ Perf.Ev.queued 0 ∈ r.2)) (by decide +kernel)
  simp only [decide_eq_true_eq] at hf
  exact ⟨_, st, evs, 1, 0, h, hf.1, hf.2.2, fun ops' st' evs' h' => C70_never_returns _ st evs h 1 0 hf.1 hf.2.1 ops' st' evs' h'⟩

/-- **Nor is nothing started after closing**: a waiting call in the loop's own thread starts its task although one of the tasks it ran before closed the performer. -/
theorem C70_started_closed : ∃ ops st e1 id, Perf.Run Perf.init ops st (e1 ++ [.started id]) ∧ .closed ∈ e1 := by
  let ops : List Perf.Op := [.call 1 false, .push 1, .performWait, .fire, .close, .fire, .done, .fire, .start]
  let E : List Perf.Ev := [.queued 0, .asked 1, .started 0, .closed, .finished 0]
  obtain ⟨st, evs, h, hf⟩ := p_demo ops (fun r => decide (r.2 = E ++ [.started 1])) (by decide +kernel)
  have hf : evs = E ++ [.started 1] := by simpa using hf
  subst hf
  exact ⟨ops, st, E, 1, h, by decide⟩

/-- **A call that waits returns, unless closed.** As long as the performer is not closed, the task a call waits for is still waiting its turn (so `C70_wakes`
applies), or is running, or the call can go on as soon as its thread runs. -/
theorem C70_returns_partial (ops : List Perf.Op) (st : Perf.St) (evs : List Perf.Ev) (h : Perf.Run Perf.init ops st evs) (t id : Nat) (hw : st.pcs t = .waiting id)
    (hc : .closed ∉ evs) : id ∈ queued evs ∧
      (id ∉ taken evs ∨ .running id ∈ st.stack ∨ ∃ st', Perf.step st (.resume t) = some (st', [.resumed t id])) := by
  obtain ⟨hq, hx⟩ := holds_inv h t id (by rw [hw]; rfl)
  refine ⟨hq, ?_⟩
  rcases hx with hx | hx | hx | hx
  · left
    intro hh
    have hi := oinv h
    have hnd : (queued evs).Nodup := hi.inc.imp (fun hlt => Nat.ne_of_lt hlt)
    have h2 := hi.order
    rw [h2, List.nodup_append] at hnd
    exact hnd.2.2 id (List.mem_filter.2 ⟨hh, by simpa using hq⟩) id hx rfl
  · exact Or.inr (Or.inl hx)
  · exact Or.inr (Or.inr ⟨_, by simp only [Perf.step, hw]; exact if_pos (by simpa using hx)⟩)
  · obtain ⟨e1, e2, he⟩ := List.append_of_mem hx
    have := (Perf.fine h e1 _ e2 he : _ ∧ Perf.Ev.closed ∈ e1).2
    exact absurd (by rw [he]; exact List.mem_append_left _ this) hc

example : ∃ st evs, Perf.Run Perf.init (pDemo.take 19) st evs ∧ st.pcs 1 = .waiting 0 ∧ .closed ∉ evs ∧ 0 ∈ taken evs ∧ Frame.running 0 ∉ st.stack := by
  obtain ⟨st, evs, h, hf⟩ := p_demo (pDemo.take 19) (fun r => decide (r.1.pcs 1 = .waiting 0 ∧ Perf.Ev.closed ∉ r.2 ∧ 0 ∈ taken r.2 ∧ Frame.running 0 ∉ r.1.stack)) (by decide +kernel)
  exact ⟨st, evs, h, by simpa using hf⟩

end
end Rtmfp
