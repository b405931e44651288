import Verif.Lemmas.Interface
/-! # C56: sessions write in order of priority, take turns, and are not forgotten -/
namespace Rtmfp
open Iface

/-- the state and the sessions asked at the end of a history, for the examples -/
private def runs : List Iface.Op → St → List Asked → Option (St × List Asked)
  | [], st, tr => some (st, tr)
  | op :: ops, st, tr => (step st op).bind (fun r => runs ops r.1 (tr ++ r.2))

private theorem runs_run (st0 : St) (ops : List Iface.Op) : ∀ (ops0 : List Iface.Op) (st : St) (tr : List Asked) st' tr', Run st0 ops0 st tr →
    runs ops st tr = some (st', tr') → Run st0 (ops0 ++ ops) st' tr' := by
  induction ops with
  | nil =>
    intro ops0 st tr st' tr' h hr
    simp only [runs, Option.some.injEq, Prod.mk.injEq] at hr
    obtain ⟨rfl, rfl⟩ := hr
    simpa using h
  | cons op ops ih =>
    intro ops0 st tr st' tr' h hr
    simp only [runs, Option.bind_eq_some_iff] at hr
    obtain ⟨⟨st1, tr1⟩, h1, h2⟩ := hr
    have := ih (ops0 ++ [op]) st1 (tr ++ tr1) st' tr' (Run.step h h1) h2
    simpa using this

/-- 11 and 12 at priority 5 and 10 at 3; 12 has nothing to send, 11 schedules 13 and keeps sending -/
private def demoOps : List Iface.Op :=
  [.schedule 10 3, .schedule 11 5, .schedule 10 3, .schedule 12 5, .schedule 10 5,
   .writable [⟨[], true⟩], .writable [⟨[], false⟩, ⟨[(13, 2)], true⟩], .writable [⟨[], true⟩]]

private def show_ (r : Option (St × List Asked)) : Option (List (List Nat) × Bool × List (Nat × Nat × Bool)) :=
  r.map (fun r => ((List.range 8).map r.1.q, r.1.armed, r.2.map (fun e => (e.s, e.p, e.ans.ok))))

/-- **Who writes.** When the interface is writable, sessions are asked from the highest priority down, the first that has something to send is the last that is
asked, everyone that waited at a higher priority was asked before and had nothing to send, and so was everyone that waited at any priority if nobody sends. -/
theorem C56_priority (st st' : St) (as : List Ans) (tr : List Asked) (h : step st (.writable as) = some (st', tr)) :
    (tr.map (·.p)).Pairwise (· ≥ ·) ∧
    (∀ before e after, tr = before ++ e :: after → e.ans.ok = true → after = [] ∧ ∀ b ∈ before, b.ans.ok = false) ∧
    (∀ e ∈ tr, e.ans.ok = true → ∀ p, e.p < p → p < 8 → ∀ s ∈ st.q p, ∃ b ∈ tr, b.s = s ∧ b.p = p ∧ b.ans.ok = false) ∧
    ((∀ e ∈ tr, e.ans.ok = false) → ∀ p, p < 8 → ∀ s ∈ st.q p, ∃ b ∈ tr, b.s = s ∧ b.p = p) := by
  obtain ⟨-, ok, hw⟩ := step_writable h
  obtain ⟨⟨hl, hall, hlast⟩, hp, -, hex, hpw⟩ := scan_pass _ _ _ _ _ _ _ hw
  have key : ∀ before e after, tr = before ++ e :: after → e.ans.ok = true → after = [] ∧ ∀ b ∈ before, b.ans.ok = false := by
    intro before e after ht ho
    cases ok with
    | false =>
      have := hall rfl e (by rw [ht]; simp)
      rw [this] at ho; simp at ho
    | true =>
      obtain ⟨b, e', hb, he', hf⟩ := hlast rfl
      rw [hb] at ht
      rcases List.append_eq_append_iff.mp ht with ⟨c, h3, h4⟩ | ⟨c, h3, h4⟩
      · have hl : c = [] ∧ after = [] := by
          have := congrArg List.length h4
          simp at this
          exact ⟨List.length_eq_zero_iff.mp (by omega), List.length_eq_zero_iff.mp (by omega)⟩
        rw [hl.1, List.append_nil] at h3
        exact ⟨hl.2, by rw [h3]; exact hf⟩
      · cases c with
        | nil =>
          simp only [List.nil_append, List.cons.injEq] at h4
          rw [List.append_nil] at h3
          exact ⟨h4.2, by rw [← h3]; exact hf⟩
        | cons y c =>
          simp only [List.cons_append, List.cons.injEq] at h4
          have := hf e (by rw [h3, h4.1]; simp)
          rw [this] at ho; simp at ho
  refine ⟨hpw, key, ?_, ?_⟩
  · intro e he ho p hlt hp8 s hs
    obtain ⟨more, hm⟩ := hex p hp8 (Or.inr ⟨e, he, ho, hlt⟩)
    have : s ∈ askedAt p tr := by rw [← hm]; exact List.mem_append_left _ hs
    obtain ⟨b, hb, hbp, hbs⟩ := (mem_askedAt _ _ _).mp this
    refine ⟨b, hb, hbs, hbp, ?_⟩
    cases hbo : b.ans.ok with
    | false => rfl
    | true =>
      exfalso
      obtain ⟨x, y, hxy⟩ := List.append_of_mem he
      have h1 := key x e y hxy ho
      rw [hxy, h1.1] at hb
      rcases List.mem_append.mp hb with hb | hb
      · rw [h1.2 b hb] at hbo; simp at hbo
      · simp at hb; rw [hb] at hbp; omega
  · intro hf p hp8 s hs
    have hok : ok = false := by
      cases ok with
      | false => rfl
      | true =>
        obtain ⟨b, e', hb, he', -⟩ := hlast rfl
        have := hf e' (by rw [hb]; simp)
        rw [this] at he'; simp at he'
    obtain ⟨more, hm⟩ := hex p hp8 (Or.inl hok)
    have : s ∈ askedAt p tr := by rw [← hm]; exact List.mem_append_left _ hs
    obtain ⟨b, hb, hbp, hbs⟩ := (mem_askedAt _ _ _).mp this
    exact ⟨b, hb, hbs, hbp⟩

/-- a pass over two priorities, in which the second session asked sends -/
example : (step ((init |> (scheduleWrite · 11 5)) |> (scheduleWrite · 10 3)) (.writable [⟨[], false⟩, ⟨[], true⟩])).map (fun r => (r.2.map (fun e => (e.s, e.p, e.ans.ok)), r.1.q 3, r.1.q 5))
    = some ([(11, 5, false), (10, 3, true)], [10], []) := by decide +kernel

/-- **Turns.** At each priority sessions are asked in the order they came to wait, and one that sent goes to the end: until a session that waits is asked at that
priority, only the sessions that were ahead of it are asked there, in their order, each once; so it is asked after at most as many turns as there were sessions
ahead of it. It stays in the queue until then. -/
theorem C56_round_robin (st : St) (p s : Nat) (ahead behind : List Nat) (hq : st.q p = ahead ++ s :: behind)
    (ops : List Iface.Op) (st' : St) (tr : List Asked) (h : Run st ops st' tr) :
    (∃ more, askedAt p tr = ahead ++ s :: more) ∨
    (∃ ahead' behind', ahead = askedAt p tr ++ ahead' ∧ st'.q p = ahead' ++ s :: behind') := by
  induction h with
  | nil => exact Or.inr ⟨ahead, behind, by simp [askedAt], hq⟩
  | @step ops st1 tr op st' tr' _ hs ih =>
    rcases ih with ⟨more, hm⟩ | ⟨a', b', ha, hb⟩
    · exact Or.inl ⟨more ++ askedAt p tr', by rw [askedAt_append, hm]; simp⟩
    · obtain ⟨left, more, e1, q1⟩ := step_law hs p
      rw [hb, List.append_assoc, List.cons_append] at e1
      rcases List.append_eq_append_iff.mp e1 with ⟨c, h3, h4⟩ | ⟨c, h3, h4⟩
      · cases c with
        | nil =>
          simp only [List.nil_append] at h4
          rw [List.append_nil] at h3
          right
          refine ⟨[], b' ++ more ++ sentAt p tr', by rw [askedAt_append, h3, List.append_nil]; exact ha, ?_⟩
          rw [q1, ← h4]; simp
        | cons y c =>
          simp only [List.cons_append, List.cons.injEq] at h4
          obtain ⟨rfl, h4⟩ := h4
          exact Or.inl ⟨c, by rw [askedAt_append, h3, ← List.append_assoc, ← ha]⟩
      · right
        refine ⟨c, b' ++ more ++ sentAt p tr', by rw [askedAt_append, List.append_assoc, ← h3]; exact ha, ?_⟩
        rw [q1, h4]; simp

/-- the demonstration: at priority 5 the turns are 11, 12, 10, 11 -/
example : show_ (runs demoOps init []) = some ([[], [], [13], [10], [], [10, 11], [], []], true, [(11, 5, true), (12, 5, false), (10, 5, true), (11, 5, true)]) := by
  decide +kernel

/-- **At most once.** In every history a session is at most once in the queue of a priority, however often its writes are scheduled. -/
theorem C56_once (ops : List Iface.Op) (st : St) (tr : List Asked) (h : Run init ops st tr) : ∀ p, (st.q p).Nodup := by
  induction h with
  | nil => intro p; simp [init]
  | step _ hs ih => exact step_nodup hs ih

/-- the demonstration's history is one -/
example : ∃ st tr, Run init demoOps st tr ∧ st.q 5 = [10, 11] := by
  cases h : runs demoOps init [] with
  | none => exact absurd h (by decide +kernel)
  | some r =>
    refine ⟨r.1, r.2, by simpa using runs_run init demoOps [] init [] r.1 r.2 Run.nil h, ?_⟩
    have : (runs demoOps init []).map (fun r => r.1.q 5) = some [10, 11] := by decide +kernel
    rw [h] at this
    simpa using this

/-- **Only the idle leave.** A session stays in the queue of a priority until it is asked at that priority and has nothing to send; and who is asked at a
priority was in its queue, or was scheduled there meanwhile. -/
theorem C56_kept (st st' : St) (op : Iface.Op) (tr : List Asked) (h : step st op = some (st', tr)) :
    (∀ p, ∀ s ∈ st.q p, s ∈ st'.q p ∨ ∃ e ∈ tr, e.s = s ∧ e.p = p ∧ e.ans.ok = false) ∧
    (∀ e ∈ tr, e.s ∈ st.q e.p ∨ ∃ b ∈ tr, (e.s, e.p) ∈ b.ans.calls) := by
  refine ⟨?_, ?second⟩
  case second =>
    intro e he
    cases op with
    | schedule s p =>
      simp only [step, Option.some.injEq, Prod.mk.injEq] at h
      rw [← h.2] at he; simp at he
    | writable as =>
      obtain ⟨-, ok, hw⟩ := step_writable h
      obtain ⟨⟨hl, -, -⟩, -⟩ := scan_pass _ _ _ _ _ _ _ hw
      obtain ⟨l, m, e1, -, hc⟩ := hl e.p
      have : e.s ∈ st.q e.p ++ m := by
        rw [e1]; exact List.mem_append_left _ ((mem_askedAt _ _ _).mpr ⟨e, he, rfl, rfl⟩)
      rcases List.mem_append.mp this with h1 | h1
      · exact Or.inl h1
      · exact Or.inr (hc _ h1)
  intro p s hs
  obtain ⟨left, more, e1, q1⟩ := step_law h p
  have : s ∈ askedAt p tr ++ left := by rw [← e1]; exact List.mem_append_left _ hs
  rcases List.mem_append.mp this with h1 | h1
  · obtain ⟨e, he, hp, hss⟩ := (mem_askedAt _ _ _).mp h1
    cases ho : e.ans.ok with
    | false => exact Or.inr ⟨e, he, hss, hp, ho⟩
    | true =>
      left
      rw [q1]
      exact List.mem_append_right _ ((mem_sentAt _ _ _).mpr ⟨e, he, hp, hss, ho⟩)
  · left; rw [q1]; exact List.mem_append_left _ h1

/-- **Requests are heard.** After a write is scheduled for a session, the session waits at that priority; if that is done while the sessions are asked, it waits or
was asked since, unless it is the very session that is asked, at the same priority, and it answers that it has nothing to send. -/
theorem C56_heard (st st' : St) (tr : List Asked) :
    (∀ s p, step st (.schedule s p) = some (st', tr) → s ∈ st'.q p) ∧
    (∀ as, step st (.writable as) = some (st', tr) → ∀ before e after, tr = before ++ e :: after → ∀ s p, (s, p) ∈ e.ans.calls →
      ¬ (e.s = s ∧ e.p = p ∧ e.ans.ok = false) → s ∈ st'.q p ∨ ∃ b ∈ after, b.s = s ∧ b.p = p) := by
  constructor
  · intro s p h
    simp only [step, Option.some.injEq, Prod.mk.injEq] at h
    rw [← h.1]
    exact schedule_mem st s p
  · intro as h before e after ht s p hc hns
    obtain ⟨-, ok, hw⟩ := step_writable h
    rcases scan_heard _ _ _ _ _ _ _ hw before e after ht s p hc hns with h1 | h1
    · exact Or.inl h1
    · obtain ⟨b, hb, hp, hs⟩ := (mem_askedAt _ _ _).mp h1
      exact Or.inr ⟨b, hb, hs, hp⟩

/-- **Nobody waits in vain**, as far as it holds: if sessions that send nothing do not cause writes at higher priorities while they are asked, then in every
history, while anyone waits, the platform is going to say when the interface is writable. Missing: the same for all histories; `C56_waits_in_vain` shows that it
does not hold. -/
theorem C56_wakeup_partial (ops : List Iface.Op) (st : St) (tr : List Asked) (h : Run init ops st tr) (ht : Tame tr) (hw : Waiting st) : st.armed = true := by
  have key : st.writeScheduled = st.armed ∧ (Waiting st → st.armed = true) := by
    clear hw
    induction h with
    | nil => exact ⟨rfl, fun ⟨p, _, hp⟩ => absurd rfl hp⟩
    | @step ops st1 tr op st' tr' _ hs ih =>
      have ih := ih (fun e he => ht e (List.mem_append_left _ he))
      cases op with
      | schedule s p =>
        simp only [step, Option.some.injEq, Prod.mk.injEq] at hs
        obtain ⟨rfl, rfl⟩ := hs
        cases hws : st1.writeScheduled with
        | true =>
          have h1 := schedule_flag st1 s p hws
          rw [h1.1, h1.2, ← ih.1, hws]
          exact ⟨rfl, fun _ => rfl⟩
        | false =>
          rw [scheduleWrite]
          split
          · exact ih
          · simp [St.setQ, hws]
      | writable as =>
        obtain ⟨ha, ok, hw⟩ := step_writable hs
        have hf := scan_flag _ _ _ _ _ _ _ hw (by rw [ih.1]; exact ha) ha
        refine ⟨by rw [hf.1, hf.2], ?_⟩
        rintro ⟨p, hp, hq⟩
        rw [hf.2]
        cases ok with
        | true => rfl
        | false => exact absurd (scan_empties _ _ _ _ _ _ hw (fun e he => ht e (List.mem_append_right _ he)) (fun p h1 h2 => absurd h1 (by simp only [NUM_PRIORITIES]; omega)) p hp) hq
  exact key.2 hw

/-- the demonstration's history is tame, and someone waits -/
example : ∃ st tr, Run init demoOps st tr ∧ Tame tr ∧ Waiting st := by
  cases h : runs demoOps init [] with
  | none => exact absurd h (by decide +kernel)
  | some r =>
    refine ⟨r.1, r.2, by simpa using runs_run init demoOps [] init [] r.1 r.2 Run.nil h, ?_, 5, by decide, ?_⟩
    · have : (runs demoOps init []).map (fun r => r.2.all (fun e => e.ans.ok || e.ans.calls.all (fun c => decide (c.2 ≤ e.p)))) = some true := by decide +kernel
      rw [h] at this
      simp only [Option.map_some, Option.some.injEq, List.all_eq_true, Bool.or_eq_true, decide_eq_true_eq] at this
      intro e he ho c hc
      rcases this e he with h1 | h1
      · rw [ho] at h1; simp at h1
      · exact h1 c hc
    · have : (runs demoOps init []).map (fun r => r.1.q 5) = some [10, 11] := by decide +kernel
      rw [h] at this
      simp only [Option.map_some, Option.some.injEq] at this
      rw [this]; simp

/-- **It does not hold in general.** A session (1, at priority 3) that has nothing to send, while being asked, causes a write at a higher priority (of session 2, at
5): session 2 waits, the platform is not told, and scheduling its write again changes nothing. -/
theorem C56_waits_in_vain : ∃ st tr, Run init [.schedule 1 3, .writable [⟨[(2, 5)], false⟩]] st tr ∧ 2 ∈ st.q 5 ∧ st.armed = false ∧
    (∀ as, step st (.writable as) = none) ∧ scheduleWrite st 2 5 = st := by
  cases h : runs [.schedule 1 3, .writable [⟨[(2, 5)], false⟩]] init [] with
  | none => exact absurd h (by decide +kernel)
  | some r =>
    have h1 : (runs [.schedule 1 3, .writable [⟨[(2, 5)], false⟩]] init []).map (fun r => (r.1.q 5, r.1.armed)) = some ([2], false) := by decide +kernel
    rw [h] at h1
    simp only [Option.map_some, Option.some.injEq, Prod.mk.injEq] at h1
    refine ⟨r.1, r.2, by simpa using runs_run init _ [] init [] r.1 r.2 Run.nil h, by rw [h1.1]; simp, h1.2, ?_, ?_⟩
    · intro as; rw [step, h1.2]; simp
    · rw [scheduleWrite, h1.1]; simp

/-- **Nor are all requests heard.** A session that has nothing to send, while being asked, schedules its own write at the same priority: it does not wait. -/
theorem C56_unheard : ∃ st tr, Run init [.schedule 1 3, .writable [⟨[(1, 3)], false⟩]] st tr ∧ (∀ p, st.q p = []) ∧ st.armed = false := by
  refine ⟨_, _, Run.step (Run.step Run.nil rfl) (st' := ⟨fun p => if p = 3 then [] else if p = 3 then [1] else [], false, false⟩) (tr' := [⟨1, 3, ⟨[(1, 3)], false⟩⟩]) ?_, ?_, rfl⟩
  · rfl
  · intro p
    by_cases hp : p = 3 <;> simp [hp]

end Rtmfp
