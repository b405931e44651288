import Verif.Lemmas.InstanceFate
import Verif.Spec.Instance
/-! # Instances: what ends an open session -/
namespace Rtmfp
namespace Inst
open Spec.Inst (endsSession)
section
variable {C : Crypto} {st st' : St} {ev : List Ev}

/-- a frame that may end the session -/
@[grind] def Frame.threat (s : Nat) : Frame → Bool
  | .abort x => x = s
  | .sessClose x _ => x = s
  | .closeAll _ _ | .abortOpening | .abortAll _ => true
  | _ => false

/-- a session that is open, and nothing under way to end it -/
@[grind] structure Keeps (st : St) (s : Nat) : Prop where
  isOpen : (st.sess s).state = .opened
  made : s < st.nS
  frames : ∀ fr ∈ st.stack, fr.threat s = false

theorem Keeps.exec {s : Nat} {fr : Frame} {rest : List Frame} (h : Keeps st s) (hs : st.stack = fr :: rest) (hu : fr ≠ .user) :
    Keeps (exec C (setStack st rest) fr).1 s := by
  obtain ⟨h1, h2, h3⟩ := h
  have h5 := h3 fr (by rw [hs]; exact List.mem_cons_self)
  have h6 : ∀ fr ∈ rest, fr.threat s = false := fun x hx => h3 x (by rw [hs]; exact List.mem_cons_of_mem _ hx)
  clear h3
  cases fr with
  | user => exact absurd rfl hu
  | sessClose x o =>
    simp only [Inst.exec, Inst.sessClose]
    simp [Frame.threat] at h5
    repeat' split
    all_goals constructor <;> simp [setNearclose, setState] <;> grind
  | abort x =>
    simp only [Inst.exec]
    simp [Frame.threat] at h5
    repeat' split
    all_goals constructor <;> simp [setNearclose, setState] <;> grind
  | tellOpening x fs => cases fs <;> simp only [Inst.exec] <;> constructor <;> simp <;> grind
  | tellOpened x fs => 
    cases fs
    · simp only [Inst.exec] ; constructor <;> simp <;> grind
    · simp only [Inst.exec, flowDidOpen]
      repeat' split
      all_goals constructor <;> grind
  | tellWillOpen x fs => 
    cases fs
    · simp only [Inst.exec] ; constructor <;> simp <;> grind
    · simp only [Inst.exec, flowWillOpen]
      repeat' split
      all_goals constructor <;> first | grind | (simp; grind)
  | respond r => 
    simp only [Inst.exec, Inst.respond]
    repeat' split
    all_goals constructor <;> grind
  | closeAll x o => simp [Frame.threat] at h5
  | abortOpening => simp [Frame.threat] at h5
  | abortAll x => simp [Frame.threat] at h5
  | check =>
    simp only [Inst.exec, Inst.check]
    repeat' split
    all_goals constructor <;> grind
  | _ => 
    simp only [Inst.exec]
    repeat' split
    all_goals constructor <;> grind

/-- timers of an end belong to sessions that are ending -/
@[grind] def EndsLate (st : St) (s : Nat) : Prop :=
  (.near s ∈ st.timers ∨ .far s ∈ st.timers ∨ .nearTail s ∈ st.stack ∨ .farTail s ∈ st.stack) → 4 ≤ (st.sess s).state.rank

theorem EndsLate.way {s : Nat} (hi : Inv C st) (h : EndsLate st s) (w : Way C st st' ev) : EndsLate st' s := by
  have h1 := fwd_way hi.rng w s
  clear hi
  cases w <;> grind [SState.rank, List.mem_of_mem_eraseIdx]

theorem Run.endsLate {ops : List Op} {evs : List Ev} (h : Run C init ops st evs) (s : Nat) : EndsLate st s := by
  induction h with
  | nil => intro h; simp [init] at h
  | step hr hs ih => exact ih.way (hr.inv Inv.init) (step_way hs)

theorem Keeps.step {s : Nat} {op : Op} (hl : EndsLate st s) (h : Keeps st s) (hs : step C st op = some (st', ev)) (hc : ¬ endsSession C st s op) : Keeps st' s := by
  simp only [Inst.step] at hs
  split at hs
  · simp at hs
  cases op with
  | tick =>
    simp only [stepOk] at hs
    split at hs
    · simp at hs
    · simp at hs
    · rename_i fr rest hx hy
      simp only [Option.some.injEq, Prod.ext_iff] at hs
      rw [← hs.1]
      exact h.exec hy (by rintro rfl; exact hx rfl)
  | timer i late =>
    have h9 : .near s ∉ st.timers ∧ .far s ∉ st.timers := by
      have := h.isOpen
      constructor <;> (intro hx; have := hl (by simp [hx]); grind [SState.rank])
    simp only [stepOk, outside] at hs
    repeat' split at hs
    all_goals first | (simp at hs; done) | skip
    all_goals (rename_i hx; first | have hy := List.mem_of_getElem? hx | (rename_i hx2; have hy := List.mem_of_getElem? hx2))
    all_goals (simp only [Option.some.injEq, Prod.ext_iff] at hs; rw [← hs.1]; clear hs; constructor <;> first | grind | (simp; grind))
  | openFlow epd =>
    simp only [stepOk] at hs
    split at hs
    · simp only [Option.some.injEq, appCall, flowDidOpen] at hs
      repeat' split at hs
      all_goals (simp only [Prod.ext_iff] at hs; rw [← hs.1]; clear hs; constructor <;> first | grind | (simp [waitFor]; grind))
    · simp at hs
  | task i ok =>
    simp only [stepOk] at hs
    split at hs
    · rename_i t ht
      have hm := List.mem_of_getElem? ht
      have hr : Keeps (runTask C (setTasks st (st.tasks.eraseIdx i)) t ok).1 s := by
        obtain ⟨h1, h2, h3⟩ := h
        simp only [endsSession, ht] at hc
        cases t <;> simp only [runTask, rhello, iikeying, Option.any_eq_true, setTasks_sess, setTasks_byAddr] <;> repeat' split
        all_goals constructor <;> first | grind | (simp; grind)
      repeat' split at hs
      all_goals first | (simp at hs; done) | (simp only [Option.some.injEq, Prod.ext_iff] at hs; rw [← hs.1]; exact hr)
    · simp at hs
  | _ => 
    simp only [stepOk] at hs
    split at hs
    · simp only [Option.some.injEq, appCall, outside, flowDidOpen, Inst.sessClose] at hs
      try simp only [endsSession] at hc
      repeat' split at hs
      all_goals first | (simp at hs; done) | (simp only [Option.some.injEq, Prod.ext_iff] at hs; rw [← hs.1]; clear hs; constructor <;> first | grind | (simp [setNearclose, setFarclose, setState]; grind))
    · simp at hs

theorem opened_keeps {s : Nat} (hi : Inv C st) (w : Way C st st' ev) (h : .opened s ∈ ev) : Keeps st' s := by
  have h0 := hi.bottom
  have h1 := hi.rng
  clear hi
  cases w <;> first | (simp at h; done) | skip
  case respond r rest hs =>
    rw [hs] at h0
    have := h0.1 r rfl
    subst this
    simp at h
    subst h
    have h2 := h1.openingS
    constructor <;> grind
  case tOpen i x tx hi hs hk =>
    simp at h
    subst h
    have h2 : s < st.nS := h1.tasks _ (List.mem_of_getElem? hi) s (by simp [Task.sids])
    constructor <;> grind
  all_goals grind

theorem Run.keeps {ops : List Op} {evs : List Ev} {s : Nat} (h : Run C init ops st evs) (h0 : .opened s ∈ evs) :
    Keeps st s ∨ ∃ ops1 op ops2 st1 evs1, ops = ops1 ++ op :: ops2 ∧ Run C init ops1 st1 evs1 ∧ (st1.sess s).state = .opened ∧ endsSession C st1 s op := by
  induction h with
  | nil => simp at h0
  | @step ops3 st3 st4 evs3 ev op hr hs ih =>
    rcases List.mem_append.mp h0 with h1 | h1
    · rcases ih h1 with i1 | ⟨ops1, op1, ops2, st1, evs1, rfl, h2, h3, h4⟩
      · by_cases hc : endsSession C st3 s op
        · exact .inr ⟨ops3, op, [], st3, evs3, rfl, hr, i1.isOpen, hc⟩
        · exact .inl (i1.step (hr.endsLate s) hs hc)
      · exact .inr ⟨ops1, op1, ops2 ++ [op], st1, evs1, by simp, h2, h3, h4⟩
    · exact .inl (opened_keeps (hr.inv Inv.init) (step_way hs) h1)

end
end Inst
end Rtmfp
