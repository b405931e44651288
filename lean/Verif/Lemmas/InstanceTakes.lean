import Verif.Lemmas.InstanceAll
/-! # Instances: which calls and packets make it keep something -/
namespace Rtmfp
namespace Inst
open Spec.Inst

section
variable {C : Crypto} {st st' : St} {ev : List Ev} {op : Op}

/-- events by which an instance takes something on -/
def Ev.takes : Ev → Bool
  | .keyingAccepted | .flowOpened _ _ => true
  | _ => false

theorem sessClose_takes (s : Nat) (o : Bool) : (sessClose st s o).2.countP Ev.takes = 0 := by
  rw [sessClose.eq_def]
  repeat' split
  all_goals simp [Ev.takes]

theorem outside_takes (h : outside C st op = some (st', ev)) (hk : wellAsked op = false) : ev.countP Ev.takes = 0 := by
  rw [outside.eq_def] at h
  split at h
  all_goals (repeat' (split at h))
  all_goals simp only [Option.some.injEq, Prod.mk.injEq, reduceCtorEq] at h
  all_goals first
    | (obtain ⟨_, rfl⟩ := h; simp [Ev.takes]; done)
    | (have := sessClose_takes (st := st); grind)
    | (exfalso; simp [wellAsked] at hk; grind)

theorem runTask_takes {t : Task} {ok : Bool} : (runTask C st t ok).2.countP Ev.takes = 0 := by
  rw [runTask.eq_def]
  repeat' split
  all_goals first | (simp [Ev.takes]; done) | skip
  · rw [rhello.eq_def]
    repeat' split
    all_goals first | (simp [Ev.takes]; done) | skip
  · rw [setOpen.eq_def]
    repeat' split
    all_goals first | (simp [Ev.takes]; done) | skip
  · rw [iikeying.eq_def]
    repeat' split
    all_goals first | (simp [Ev.takes]; done) | skip

theorem appCall_takes (ho : opensFlow op = false) : (appCall C st op).2.countP Ev.takes = 0 := by
  rw [appCall.eq_def]
  split
  all_goals (repeat' split)
  all_goals first | (simp [Ev.takes]; done) | (simp [opensFlow] at ho; done)| exact sessClose_takes _ _

theorem way_takes (w : Way C st st' ev) : ev.countP Ev.takes ≤ 1 ∧ (ev.countP Ev.takes = 1 → appTurn st = true) := by
  cases w <;> (try simp only [List.countP_nil, List.countP_cons, Ev.takes]) <;> grind [appTurn, Ev.takes]

theorem step_takes (h : step C st op = some (st', ev)) : ev.countP Ev.takes ≤ if wellAsked op || opensFlow op then 1 else 0 := by
  have hw := way_takes (step_way h)
  rcases (step_kind h).1 with ⟨fr, rest, h1, h2, e⟩ | ⟨rest, h1, e, e'⟩ | ⟨ht, e⟩ | ⟨i, t, ok, hw', hi, e⟩ | ⟨i, t, ok, hw', h0, hi, e⟩ | ⟨h0, e⟩
  · have : appTurn st = false := by
      rw [appTurn, h1]; cases fr <;> simp_all
    have : ev.countP Ev.takes ≠ 1 := fun h => by simp_all
    omega
  · subst e'; simp
  · cases ho : opensFlow op
    · have := appCall_takes (C := C) (st := st) ho
      rw [← e] at this
      simp only at this
      omega
    · simp; omega
  · have := runTask_takes (C := C) (st := { st with tasks := st.tasks.eraseIdx i }) (t := t) (ok := ok)
    rw [← e] at this
    simp only at this
    omega
  · have := runTask_takes (C := C) (st := { st with tasks := st.tasks.eraseIdx i }) (t := t) (ok := ok)
    rw [← e] at this
    simp only at this
    omega
  · cases ho : wellAsked op
    · have := outside_takes e ho
      omega
    · simp; omega

theorem takes_split (ev : List Ev) : ev.countP Ev.takes = ev.count .keyingAccepted + ev.countP Ev.opensFlow := by
  induction ev with
  | nil => rfl
  | cons e l ih => 
    rw [List.countP_cons, List.count_cons, List.countP_cons, ih]
    cases e <;> simp [Ev.takes, Ev.opensFlow] <;> omega

theorem Run.takes {st0 : St} {ops : List Op} {evs : List Ev} (h : Run C st0 ops st evs) :
    evs.countP Ev.takes ≤ ops.countP (fun op => wellAsked op || opensFlow op) := by
  induction h with
  | nil => exact Nat.le_refl _
  | step h hs ih =>
    have := step_takes hs
    rw [List.countP_append, List.countP_append, List.countP_singleton]
    omega
end
end Inst
end Rtmfp
