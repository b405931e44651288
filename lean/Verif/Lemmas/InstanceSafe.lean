import Verif.Lemmas.InstanceShape
/-! # Instances: the assertion of the closing loop holds; every invariant together -/
namespace Rtmfp
namespace Inst

/-- a flow that is told that its session closed is closed by the time the loop looks -/
def Chk (st : St) : Prop := ∀ s f : Nat, .sendCheck s f ∈ st.stack → (st.flow f).state = .closed ∨
  ((st.flow f).sess = some s ∧ (st.stack.head? = some (.flowDidClose f s) ∨ st.stack.head? = some (.flowClose f)))

section
variable {C : Crypto} {st st' : St} {ev : List Ev}

theorem Chk.way (hr : Rng st) (hb : Bnd st) (hl : Leaving st) (h : Chk st) (w : Way C st st' ev) : Chk st' := by
  have b1 : ∀ s, .sendCheck s st.nF ∉ st.stack := by
    intro s h'; have := hr.framesF _ h' st.nF (by simp [Frame.fids]); omega
  have b2 : ∀ s f, .sendCheck s f ∈ st.stack → (st.sess s).state ≠ .opened := by
    intro s f h'; have := hl _ h'; grind
  have b3 := hb.listed
  have b4 : st.stack.head? = some .user → appTurn st = true ∨ True := fun _ => .inr trivial
  have b5 : appTurn st = true → st.stack = [] ∨ ∃ rest, st.stack = .user :: rest := appTurn_stack
  unfold Chk at h ⊢
  clear hr hb hl b4
  cases w
  case sendNext s f l rest hs hl =>
    have := (b3 s f).mp (by simp [hl])
    grind
  all_goals grind

theorem Chk.safe (hb : Bnd st) (h : Chk st) (w : Way C st st' ev) : st'.crashed = st.crashed := by
  have b3 := hb.listed
  have b4 := hb.closed
  unfold Chk at h
  clear hb
  cases w
  all_goals grind

/-- everything that holds of an instance at all times -/
structure Inv (C : Crypto) (st : St) : Prop where
  rng : Rng st
  bnd : Bnd st
  counts : Counts st
  leaving : Leaving st
  maps : Maps C st
  early : Early st
  shape : Shape st st.stack
  bottom : Bottom st.stack
  chk : Chk st
  safe : st.crashed = false

theorem Inv.init : Inv C Inst.init where
  rng := Rng.init
  bnd := by constructor <;> simp [Inst.init, Sess.new, SFlow.new]
  counts := by intro s; exact ⟨[], by simp [Inst.init, Sess.new, SFlow.new]⟩
  leaving := by intro fr h; simp [Inst.init] at h
  maps := by constructor <;> simp [Inst.init, Sess.new, SState.rank]
  early := by intro s; simp [Inst.init, Sess.new]
  shape := trivial
  bottom := trivial
  chk := by intro s f h; simp [Inst.init] at h
  safe := rfl

theorem Inv.step {op : Op} (h : Inv C st) (hs : step C st op = some (st', ev)) : Inv C st' := by
  have w := step_way hs
  have hc : st'.crashed = false := by rw [h.chk.safe h.bnd w]; exact h.safe
  exact
  { rng := h.rng.step hs
    bnd := h.bnd.way h.rng w h.shape.heard hc
    counts := h.counts.way h.rng h.bnd w
    leaving := h.leaving.way h.rng w
    maps := h.maps.way h.rng h.leaving w hc
    early := h.early.way h.rng h.leaving h.maps h.shape w
    shape := h.shape.way h.bnd h.maps h.bottom h.counts h.early w
    bottom := h.bottom.way w
    chk := h.chk.way h.rng h.bnd h.leaving w
    safe := hc }

theorem Run.inv {st0 : St} {ops : List Op} {evs : List Ev} (h : Run C st0 ops st evs) (h0 : Inv C st0) : Inv C st := by
  induction h with
  | nil => exact h0
  | step _ hs ih => exact ih.step hs

end
end Inst
end Rtmfp
