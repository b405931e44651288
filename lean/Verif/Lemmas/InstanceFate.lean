import Verif.Lemmas.InstanceTakes
/-! # Instances: flows bound to sessions, flows that are forgotten, no sessions after shutdown -/
namespace Rtmfp
namespace Inst
open Spec.Inst

section
variable {C : Crypto} {st st' : St} {ev : List Ev}

/-- flows are bound to sessions that have opened -/
def Used (st : St) : Prop := ∀ f s : Nat, (st.flow f).sess = some s → 3 ≤ (st.sess s).state.rank

theorem Used.way (hi : Inv C st) (h : Used st) (w : Way C st st' ev) : Used st' := by
  have h1 := fwd_way hi.rng w
  have h2 : ∀ e s, st.byEpd e = some s → 3 ≤ (st.sess s).state.rank := fun e s he => Listed.rank hi.leaving (hi.maps.epd e s he).2.2
  have h3 : ∀ s f fs rest, st.stack = .tellOpened s (f :: fs) :: rest → (st.sess s).state = .opened := fun s f fs rest e => by
    have := hi.shape; rw [e] at this; exact this.2.1.1
  have key : ∀ f s : Nat, (st'.flow f).sess = some s → (st.flow f).sess = some s ∨ 3 ≤ (st.sess s).state.rank := by
    clear h1 h hi
    cases w <;> grind [SState.rank]
  intro f s hf
  rcases key f s hf with h' | h'
  · exact Nat.le_trans (h f s h') (h1 s)
  · exact Nat.le_trans h' (h1 s)

theorem Run.used {ops : List Op} {evs : List Ev} (h : Run C Inst.init ops st evs) : Used st := by
  induction h with
  | nil => intro f s hf; simp [Inst.init, SFlow.new] at hf
  | step hr hs ih => exact ih.way (hr.inv Inv.init) (step_way hs)

/-- a flow bound to a session that is gone, of which no frame knows any more -/
structure Forgotten (st : St) (f s : Nat) : Prop where
  bound : (st.flow f).sess = some s
  gone : (st.sess s).state = .closed
  waits : (st.flow f).state = .opened ∧ (st.flow f).isOpen = true ∧ f < st.nF
  loop : .sendLoop s ∉ st.stack
  told : .flowDidClose f s ∉ st.stack
  list : ∀ fs, .tellOpening s fs ∈ st.stack → f ∉ fs
  back : .callback f ∉ st.stack
  close : .flowClose f ∉ st.stack

set_option maxHeartbeats 2000000 in
theorem Forgotten.way {f s : Nat} (hi : Inv C st) (h : Forgotten st f s) (w : Way C st st' ev) (hc : .closeCalled f ∉ ev) : Forgotten st' f s ∧ .exception f ∉ ev := by
  obtain ⟨h1, h2, h3, h4, h5, h8, h6, h7⟩ := h
  have g1 := hi.uncrashed w
  have g2 := (hi.bnd.bound f (by simp [h1])).2
  have g3 : .linger f ∉ st.timers := fun h => by have := hi.bnd.linger f h; simp [h3.1] at this
  have g4 : ∀ x, f ∈ (st.sess x).sendFlows → x = s := fun x hx => by
    have := (hi.bnd.listed x f).mp hx; rw [h1] at this; injection this with this; exact this.symm
  have g5 : s ≠ st.nS := fun e => by rw [e, hi.rng.newS] at h2; simp [Sess.new] at h2
  have g6 : sessOpen st f = false := by simp [sessOpen, h1, h2]
  have g7 : ∀ i : Nat, st.timers[i]? ≠ some (Tm.linger f) := fun i h => g3 (mem_of_getElem? h)
  clear hi g3
  refine ⟨⟨?_, ?_, ?_, ?_, ?_, ?_, ?_, ?_⟩, ?_⟩
  · cases w <;> grind
  · cases w <;> grind
  · cases w <;> grind
  · cases w <;> grind
  · cases w <;> grind
  · intro fs
    replace h8 := h8
    cases w <;> grind
  · cases w <;> grind
  · cases w <;> grind
  · cases w <;> grind

/-- once the shutdown has begun and no request is being answered, no session is made -/
theorem sealed_way (hs : st.shutdown = true) (hr : ∀ r, .respond r ∉ st.stack) (w : Way C st st' ev) :
    st'.shutdown = true ∧ (∀ r, .respond r ∉ st'.stack) ∧ st'.nS = st.nS := by
  refine ⟨?_, ?_, ?_⟩
  · clear hr
    cases w <;> grind
  · intro r
    replace hr := hr r
    intro h
    cases w <;> grind
  · cases w <;> grind

theorem done_way (w : Way C st st' ev) (h : .shutdownDone ∈ ev) : st'.shutdown = true ∧ st'.table = [] ∧ st'.startup = 0 := by
  cases w <;> grind

/-- a flow without callback, and none about to be called -/
@[grind] def Silent (st : St) (f : Nat) : Prop := (st.flow f).handler = false ∧ .callback f ∉ st.stack ∧ f < st.nF

theorem Silent.way {f : Nat} (h : Silent st f) (w : Way C st st' ev) (hc : .handlerSet f ∉ ev) : Silent st' f ∧ .exception f ∉ ev := by
  cases w <;> grind

theorem Run.silent {st0 : St} {ops : List Op} {evs : List Ev} {f : Nat} (h0 : Silent st0 f) (h : Run C st0 ops st evs) (hc : .handlerSet f ∉ evs) :
    Silent st f ∧ .exception f ∉ evs := by
  induction h with
  | nil => exact ⟨h0, List.not_mem_nil⟩
  | step hr hs ih =>
    obtain ⟨i1, i2⟩ := ih (fun h => hc (List.mem_append_left _ h))
    obtain ⟨i3, i4⟩ := i1.way (step_way hs) (fun h => hc (List.mem_append_right _ h))
    exact ⟨i3, by simp [i2, i4]⟩

theorem closed_silent {f : Nat} (hs : st.stack = []) (hf : f < st.nF) (h : step C st (.close f) = some (st', ev)) : Silent st' f := by
  simp only [step, stepOk, appTurn, hs, appCall] at h
  split at h
  · simp at h
  · simp at h
    obtain ⟨rfl, rfl⟩ := h
    grind

end
end Inst
end Rtmfp
