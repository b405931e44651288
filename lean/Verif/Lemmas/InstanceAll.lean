import Verif.Lemmas.InstanceShut
import Verif.Spec.Instance
/-! # Instances: everything together, along histories -/
namespace Rtmfp
namespace Inst
open Spec.Inst

section
variable {C : Crypto} {st st' : St} {ev : List Ev}

theorem next_way (hi : Inv C st) (hh : Held st) (w : Way C st st' ev) (s : Nat) : (st'.sess s).state = (st.sess s).state ∨ Next (st.sess s).state (st'.sess s).state := by
  have h1 := hi.rng.newS
  have h2 : ∀ s, (st.sess s).state = .unknown → st.nS ≤ s := fun s h => by
    rcases Nat.lt_or_ge s st.nS with h' | h'
    · exact absurd h (hh.made s h')
    · exact h'
  have h3 : ∀ s rest, st.stack = .abort s :: rest → s < st.nS := fun s rest e => hi.rng.frames (.abort s) (by simp [e]) s (by simp [Frame.sids])
  clear hi hh
  have key : ∀ x y : SState, (y = x ∨ (x = .unknown ∧ (y = .ihello ∨ y = .opened)) ∨ (x = .ihello ∧ y = .keying) ∨ (x = .keying ∧ y = .opened) ∨
      (x = .opened ∧ (y = .nearclose ∨ y = .farclose)) ∨ (x ≠ .unknown ∧ x ≠ .closed ∧ y = .closed)) → y = x ∨ Next x y := by
    rintro x y (rfl | ⟨rfl, rfl | rfl⟩ | ⟨rfl, rfl⟩ | ⟨rfl, rfl⟩ | ⟨rfl, rfl | rfl⟩ | ⟨h1, h2, rfl⟩)
    · exact .inl rfl
    · exact .inr .asked
    · exact .inr .answered
    · exact .inr .keying
    · exact .inr .opens
    · exact .inr .near
    · exact .inr .far
    · exact .inr (.ends _ h1 h2)
  apply key
  clear key
  cases w <;> grind

/-- all that is known of an instance along its history -/
structure All (C : Crypto) (st : St) (evs : List Ev) : Prop where
  inv : Inv C st
  held : Held st
  waits : Waits st
  limit : Limit st
  alive : Alive st
  drops : Drops st
  late : Late st evs
  heeds : Heeds st evs
  completes : Completes st evs
  once : Once st evs
  certs : Certs C st
  bounds : Bounds st evs
  shuts : Shuts st

theorem All.init : All C Inst.init [] where
  inv := Inv.init
  held := Held.init
  waits := by intro f o h; simp [Inst.init, SFlow.new] at h
  limit := Limit.init
  alive := by constructor <;> simp [Inst.init]
  drops := by intro s h; simp [Inst.init, Sess.new, SState.rank] at h
  late := by intro s h; simp [Inst.init, Sess.new, SState.rank] at h
  heeds := by intro f; simp [Inst.init, SFlow.new]
  completes := by intro f; simp [Inst.init]
  once := by constructor <;> simp [Inst.init, Sess.new, SFlow.new, SState.rank]
  certs := by constructor <;> simp [Inst.init, Sess.new]
  bounds := by constructor <;> simp [Inst.init, Sess.new]
  shuts := Shuts.init

theorem All.step {evs : List Ev} {op : Op} (h : All C st evs) (hs : step C st op = some (st', ev)) : All C st' (evs ++ ev) := by
  have w := step_way hs
  have hi' := h.inv.step hs
  exact
  { inv := hi'
    held := h.held.way h.inv w
    waits := h.waits.way h.inv hi' h.held w
    limit := h.limit.way h.inv w
    alive := h.alive.way h.inv w
    drops := h.drops.way h.inv w
    late := h.late.way h.inv w
    heeds := h.heeds.way h.inv w
    completes := h.completes.way w
    once := h.once.way h.inv w
    certs := h.certs.way h.inv w
    bounds := h.bounds.way h.inv w
    shuts := h.shuts.way h.inv h.held w }

theorem Run.all {st0 : St} {ops : List Op} {evs0 evs : List Ev} (h0 : All C st0 evs0) (h : Run C st0 ops st evs) : All C st (evs0 ++ evs) := by
  induction h with
  | nil => simpa using h0
  | step _ hs ih => rw [← List.append_assoc]; exact ih.step hs

theorem Run.peer {ops : List Op} {evs : List Ev} (hC : ∀ c, C.sel c (C.canon c) = true) (h : Run C Inst.init ops st evs) : Peer C st evs := by
  induction h with
  | nil => constructor <;> simp [Inst.init, SFlow.new]
  | step hr hs ih =>
    have := Run.all All.init hr
    exact ih.way hC this.inv this.held this.certs (step_way hs)

theorem Run.trans {st0 st1 st2 : St} {ops1 ops2 : List Op} {evs1 evs2 : List Ev} (h1 : Run C st0 ops1 st1 evs1) (h2 : Run C st1 ops2 st2 evs2) :
    Run C st0 (ops1 ++ ops2) st2 (evs1 ++ evs2) := by
  induction h2 with
  | nil => simpa using h1
  | step _ hs ih => rw [← List.append_assoc, ← List.append_assoc]; exact .step ih hs

theorem Run.fwd {st0 : St} {ops : List Op} {evs : List Ev} (h0 : Inv C st0) (h : Run C st0 ops st evs) : Fwd st0 st := by
  induction h with
  | nil => exact fun _ => Nat.le_refl _
  | step hr hs ih => exact fun s => Nat.le_trans (ih s) (fwd_way (hr.inv h0).rng (step_way hs) s)

/-- nothing is heard of a session that is closed -/
theorem mute_way (hi : Inv C st) (w : Way C st st' ev) {s : Nat} (hs : (st.sess s).state = .closed) : .opened s ∉ ev ∧ (∀ f, .bound f s true ∉ ev) ∧ (∀ r, .recvFlow r s ∉ ev) := by
  have h1 := hi.rng.newS
  have h2 : ∀ s f fs rest, st.stack = .tellOpened s (f :: fs) :: rest → (st.sess s).state = .opened := fun s f fs rest e => by
    have := hi.shape; rw [e] at this; exact this.2.1.1
  clear hi
  cases w
  case openBound epd x h _ => by_cases h9 : (st.sess x).state = .opened <;> simp only [h9, decide_true, decide_false] <;> grind
  all_goals grind

/-- a flow that waits for nothing but its callback -/
@[grind] def Told (st : St) (evs : List Ev) (f : Nat) : Prop :=
  ((st.flow f).isOpen = true ∧ (st.flow f).handler = true) ∨ .callback f ∈ st.stack ∨ .exception f ∈ evs

theorem Told.way {evs : List Ev} {f : Nat} (hi : Inv C st) (hf : f < st.nF) (h : Told st evs f) (w : Way C st st' ev) (hc : .closeCalled f ∉ ev) :
    Told st' (evs ++ ev) f := by
  have h1 := hi.uncrashed w
  clear hi
  cases w <;> grind

theorem Run.told {st0 : St} {ops : List Op} {evs : List Ev} {f : Nat} (h0 : Inv C st0) (hf : f < st0.nF) (h1 : (st0.flow f).isOpen = true) (h2 : (st0.flow f).handler = true)
    (h : Run C st0 ops st evs) (hc : .closeCalled f ∉ evs) : Told st evs f ∧ st0.nF ≤ st.nF := by
  induction h with
  | nil => exact ⟨.inl ⟨h1, h2⟩, Nat.le_refl _⟩
  | step hr hs ih =>
    obtain ⟨i1, i2⟩ := ih (fun h => hc (List.mem_append_left _ h))
    refine ⟨i1.way (hr.inv h0) (Nat.lt_of_lt_of_le hf i2) (step_way hs) (fun h => hc (List.mem_append_right _ h)), Nat.le_trans i2 ?_⟩
    have w := step_way hs
    clear i1 i2 hs hr
    cases w <;> grind

end
end Inst
end Rtmfp
