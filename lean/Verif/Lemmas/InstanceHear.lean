import Verif.Lemmas.InstanceLimit
/-! # Instances: who hears what, and how often -/
namespace Rtmfp
namespace Inst

section
variable {C : Crypto} {st st' : St} {ev : List Ev}

/-- a flow that is open to its user is bound or waits -/
structure Alive (st : St) : Prop where
  live : ∀ f : Nat, f < st.nF → (st.flow f).isOpen = true → (st.flow f).state = .opened ∧ ((st.flow f).sess ≠ none ∨ (st.flow f).opening ≠ none)
  shut : ∀ f : Nat, .flowClose f ∈ st.stack → (st.flow f).isOpen = false

theorem Alive.way_live (hi : Inv C st) (h : Alive st) (w : Way C st st' ev) :
    ∀ f : Nat, f < st'.nF → (st'.flow f).isOpen = true → (st'.flow f).state = .opened ∧ ((st'.flow f).sess ≠ none ∨ (st'.flow f).opening ≠ none) := by
  have h1 := hi.bnd.late
  have h2 := hi.bnd.linger
  have h3 := hi.bnd.closed
  have h4 := h.shut
  replace h := h.live
  clear hi
  cases w <;> grind

theorem Alive.way_shut (hi : Inv C st) (h : Alive st) (w : Way C st st' ev) : ∀ f : Nat, .flowClose f ∈ st'.stack → (st'.flow f).isOpen = false := by
  have h3 := hi.rng.newF_stack
  have h4 := h.shut
  clear hi h
  cases w <;> grind

theorem Alive.way (hi : Inv C st) (h : Alive st) (w : Way C st st' ev) : Alive st' := ⟨h.way_live hi w, h.way_shut hi w⟩

/-- receiving flows of a session that is no longer open are being ended -/
def Drops (st : St) : Prop := ∀ s : Nat, 4 ≤ (st.sess s).state.rank → .sendLoop s ∈ st.stack ∨ .recvLoop s ∈ st.stack ∨ (st.sess s).recvFlows = []

theorem Drops.way (hi : Inv C st) (h : Drops st) (w : Way C st st' ev) : Drops st' := by
  have h1 := hi.uncrashed w
  have h2 := hi.rng.newS
  clear hi
  unfold Drops at h ⊢
  cases w <;> grind

/-- sending flows of a session that is no longer open are being ended, or came late -/
def Late (st : St) (evs : List Ev) : Prop := ∀ s : Nat, 4 ≤ (st.sess s).state.rank → .sendLoop s ∈ st.stack ∨ ∀ f ∈ (st.sess s).sendFlows, .bound f s false ∈ evs

theorem Late.way {evs : List Ev} (hi : Inv C st) (h : Late st evs) (w : Way C st st' ev) : Late st' (evs ++ ev) := by
  have h1 := hi.uncrashed w
  have h2 := hi.rng.newS
  clear hi
  unfold Late at h ⊢
  cases w
  case tellOpened s f fs rest h _ _ => by_cases h9 : (st.sess s).state = .opened <;> simp only [h9, decide_true, decide_false] <;> grind
  case openBound epd s h _ => by_cases h9 : (st.sess s).state = .opened <;> simp only [h9, decide_true, decide_false] <;> grind
  all_goals grind

/-- `onException` of a flow is called once for each time it was set, at most -/
def Heeds (st : St) (evs : List Ev) : Prop := ∀ f : Nat,
  evs.count (.exception f) + st.stack.count (.callback f) + (if (st.flow f).handler = true then 1 else 0) ≤ evs.count (.handlerSet f)

@[grind =] theorem count_abandoned {o : Option Nat} {f : Nat} : (abandoned st o).count (.callback f) = 0 := by
  rw [List.count_eq_zero]
  intro h
  obtain ⟨x, _, h, _⟩ := abandoned_mem.mp h
  cases h

@[grind =] theorem count_glared {r : Req} {f : Nat} : (glared C st r).count (.callback f) = 0 := by
  rw [List.count_eq_zero]
  intro h
  obtain ⟨x, h, _⟩ := glared_mem h
  cases h

theorem Heeds.way {evs : List Ev} (hi : Inv C st) (h : Heeds st evs) (w : Way C st st' ev) : Heeds st' (evs ++ ev) := by
  have h2 := hi.rng.newF
  have h3 := hi.uncrashed w
  clear hi
  unfold Heeds at h ⊢
  intro f
  replace h := h f
  cases w <;> grind

/-- `onComplete` of a receiving flow is called once for each time it was set, at most -/
def Completes (st : St) (evs : List Ev) : Prop := ∀ r : Nat,
  evs.count (.complete r true) + evs.count (.complete r false) + (if (st.rflow r).handler = true then 1 else 0) ≤ evs.count (.completeSet r)

theorem Completes.way {evs : List Ev} (h : Completes st evs) (w : Way C st st' ev) : Completes st' (evs ++ ev) := by
  unfold Completes at h ⊢
  intro r
  replace h := h r
  cases w <;> grind

@[grind] def Ev.binds (f : Nat) : Ev → Bool
  | .bound g _ _ => g = f
  | _ => false

/-- things that happen once -/
structure Once (st : St) (evs : List Ev) : Prop where
  released : ∀ s : Nat, evs.count (.released s) + (if s ∈ st.table ∨ st.nS ≤ s then 1 else 0) ≤ 1
  opened : ∀ s : Nat, evs.count (.opened s) + (if (st.sess s).state.rank < 3 then 1 else 0) ≤ 1
  done : evs.count .shutdownDone + (if st.done = true then 0 else 1) = 1
  cookie : ∀ s : Nat, evs.count (.cookieFollowed s) + (if (st.sess s).cookieChanged = true then 0 else 1) ≤ 1
  flows : ∀ f : Nat, evs.countP (Ev.binds f) + (if (st.flow f).sess = none ∧ (st.flow f).state ≠ .closed then 1 else 0) ≤ 1

theorem Once.way_released {evs : List Ev} (hi : Inv C st) (h : Once st evs) (w : Way C st st' ev) :
    ∀ s : Nat, (evs ++ ev).count (.released s) + (if s ∈ st'.table ∨ st'.nS ≤ s then 1 else 0) ≤ 1 := by
  have h1 := hi.rng.table
  intro s
  replace h := h.released s
  clear hi
  cases w <;> grind

theorem Once.way_opened {evs : List Ev} (hi : Inv C st) (h : Once st evs) (w : Way C st st' ev) :
    ∀ s : Nat, (evs ++ ev).count (.opened s) + (if (st'.sess s).state.rank < 3 then 1 else 0) ≤ 1 := by
  have h1 := hi.rng.newS
  have h2 := fwd_way hi.rng w
  intro s
  replace h := h.opened s
  replace h2 := h2 s
  clear hi
  cases w <;> grind

theorem Once.way_done {evs : List Ev} (h : Once st evs) (w : Way C st st' ev) : (evs ++ ev).count .shutdownDone + (if st'.done = true then 0 else 1) = 1 := by
  replace h := h.done
  cases w <;> grind

theorem Once.way_cookie {evs : List Ev} (hi : Inv C st) (h : Once st evs) (w : Way C st st' ev) :
    ∀ s : Nat, (evs ++ ev).count (.cookieFollowed s) + (if (st'.sess s).cookieChanged = true then 0 else 1) ≤ 1 := by
  have h1 := hi.rng.newS
  intro s
  replace h := h.cookie s
  clear hi
  cases w <;> grind

theorem Once.way_flows {evs : List Ev} (hi : Inv C st) (h : Once st evs) (w : Way C st st' ev) :
    ∀ f : Nat, (evs ++ ev).countP (Ev.binds f) + (if (st'.flow f).sess = none ∧ (st'.flow f).state ≠ .closed then 1 else 0) ≤ 1 := by
  have h1 := hi.rng.newF
  have h2 := hi.shape.heard
  have h3 := hi.bnd.waits
  intro f
  replace h := h.flows f
  clear hi
  cases w <;> grind [Heard]

theorem Once.way {evs : List Ev} (hi : Inv C st) (h : Once st evs) (w : Way C st st' ev) : Once st' (evs ++ ev) :=
  ⟨h.way_released hi w, h.way_opened hi w, h.way_done w, h.way_cookie hi w, h.way_flows hi w⟩

end
end Inst
end Rtmfp
