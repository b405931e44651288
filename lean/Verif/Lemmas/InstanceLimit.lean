import Verif.Lemmas.InstanceHeld
/-! # Instances: timers that end sessions, flows that end with them -/
namespace Rtmfp
namespace Inst

/-- every session that is opening or closing has a limit -/
structure Limit (st : St) : Prop where
  ultimate : ∀ s : Nat, (st.sess s).state = .ihello ∨ (st.sess s).state = .keying → .ultimate s ∈ st.timers ∨ .abort s ∈ st.stack
  near : ∀ s : Nat, (st.sess s).state = .nearclose → .near s ∈ st.timers ∨ .nearTail s ∈ st.stack ∨ .abort s ∈ st.stack
  far : ∀ s : Nat, (st.sess s).state = .farclose → .far s ∈ st.timers ∨ .farTail s ∈ st.stack ∨ .abort s ∈ st.stack
  linger : ∀ f : Nat, (st.flow f).state = .linger → .linger f ∈ st.timers

section
variable {C : Crypto} {st st' : St} {ev : List Ev}

theorem mem_eraseIdx_or {α : Type} {l : List α} {i : Nat} {x y : α} (hi : l[i]? = some y) (hx : x ∈ l) : x = y ∨ x ∈ l.eraseIdx i := by
  induction l generalizing i with
  | nil => simp at hx
  | cons a l ih =>
    cases i with
    | zero => simp at hi hx ⊢; grind
    | succ i => simp at hi hx ⊢; grind

theorem Limit.way_ultimate (hi : Inv C st) (h : Limit st) (w : Way C st st' ev) :
    ∀ s : Nat, (st'.sess s).state = .ihello ∨ (st'.sess s).state = .keying → .ultimate s ∈ st'.timers ∨ .abort s ∈ st'.stack := by
  have h1 := h.ultimate
  have h2 := hi.uncrashed w
  clear hi h
  cases w <;> grind [mem_eraseIdx_or]

theorem Limit.way_near (hi : Inv C st) (h : Limit st) (w : Way C st st' ev) :
    ∀ s : Nat, (st'.sess s).state = .nearclose → .near s ∈ st'.timers ∨ .nearTail s ∈ st'.stack ∨ .abort s ∈ st'.stack := by
  have h1 := h.near
  have h2 := hi.uncrashed w
  clear hi h
  cases w <;> grind [mem_eraseIdx_or]

theorem Limit.way_far (hi : Inv C st) (h : Limit st) (w : Way C st st' ev) :
    ∀ s : Nat, (st'.sess s).state = .farclose → .far s ∈ st'.timers ∨ .farTail s ∈ st'.stack ∨ .abort s ∈ st'.stack := by
  have h1 := h.far
  have h2 := hi.uncrashed w
  clear hi h
  cases w <;> grind [mem_eraseIdx_or]

theorem Limit.way_linger (hi : Inv C st) (h : Limit st) (w : Way C st st' ev) :
    ∀ f : Nat, (st'.flow f).state = .linger → .linger f ∈ st'.timers := by
  have h1 := h.linger
  clear hi h
  cases w <;> grind [mem_eraseIdx_or]

theorem Limit.way (hi : Inv C st) (h : Limit st) (w : Way C st st' ev) : Limit st' :=
  ⟨h.way_ultimate hi w, h.way_near hi w, h.way_far hi w, h.way_linger hi w⟩

theorem Limit.init : Limit Inst.init := by
  constructor <;> simp [Inst.init, Sess.new, SFlow.new]
end
end Inst
end Rtmfp
