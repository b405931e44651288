import Verif.Lemmas.InstancePeer
/-! # Instances: shutting down -/
namespace Rtmfp
namespace Inst

section
variable {C : Crypto} {st st' : St} {ev : List Ev}

@[grind] def Task.shuts : Task → Bool
  | .shutdown _ => true
  | _ => false

/-- the frame closes the session -/
@[grind] def Frame.ends (s : Nat) : Frame → Prop
  | .closeAll ss _ => s ∈ ss
  | .sessClose t _ => t = s
  | .abort t => t = s
  | .abortAll ss => s ∈ ss
  | _ => False

def Ends (s : Nat) (l : List Frame) : Prop := ∃ fr ∈ l, fr.ends s

@[simp, grind =] theorem Ends.nil {s : Nat} : Ends s [] ↔ False := by simp [Ends]
@[simp, grind =] theorem Ends.cons {s : Nat} {fr : Frame} {l : List Frame} : Ends s (fr :: l) ↔ fr.ends s ∨ Ends s l := by simp [Ends]
@[simp, grind =] theorem Ends.append {s : Nat} {a l : List Frame} : Ends s (a ++ l) ↔ Ends s a ∨ Ends s l := by
  simp only [Ends, List.mem_append]; grind

/-- once asked for, a shutdown goes on -/
structure Shuts (st : St) : Prop where
  sending : st.startup = 0 ∨ st.scheduled = true
  late : ∀ r, .respond r ∈ st.stack → st.shutdown = true → st.tasks.any Task.shuts = true
  ends : st.shutdown = true → st.tasks.any Task.shuts = true ∨ ∀ s : Nat, s < st.nS → 4 ≤ (st.sess s).state.rank ∨ Ends s st.stack
  told : st.shutdown = true → st.table = [] → st.startup = 0 → st.done = true ∨ st.tasks.any Task.shuts = true ∨ .check ∈ st.stack ∨ st.scheduled = true

theorem any_eraseIdx {α : Type} {l : List α} {i : Nat} {t : α} (hi : l[i]? = some t) (p : α → Bool) (ht : p t = false) : (l.eraseIdx i).any p = l.any p := by
  induction l generalizing i with
  | nil => rfl
  | cons a l ih =>
    cases i with
    | zero => simp at hi; subst hi; simp [ht]
    | succ i => simp at hi; simp [ih hi]

theorem Shuts.way_sending (h : Shuts st) (w : Way C st st' ev) : st'.startup = 0 ∨ st'.scheduled = true := by
  replace h := h.sending
  cases w <;> grind

theorem Way.shuts (w : Way C st st' ev) (h : st.tasks.any Task.shuts = true) : st'.tasks.any Task.shuts = true ∨
    ∃ (i : Nat) (imm : Bool), st.stack = [] ∧ st' = push (setTasks st (st.tasks.eraseIdx i)) [.closeAll st.table (!imm), .abortOpening, .check] := by
  have h1 : ∀ (i : Nat) (t : Task), st.tasks[i]? = some t → t.shuts = false → (st.tasks.eraseIdx i).any Task.shuts = true := by
    intro i t hi ht
    rw [any_eraseIdx hi _ ht]
    exact h
  cases w
  case tShutdown i imm hi hs => exact .inr ⟨i, imm, hs, rfl⟩
  case tDrop i t hi hk hk2 =>
    refine .inl ?_
    have h2 : t.shuts = false := by cases t <;> first | rfl | exact absurd ⟨_, rfl⟩ hk2
    simpa using h1 i t hi h2
  case tNext i t t' hi hf =>
    left
    have : t.shuts = false := by cases hf <;> rfl
    have := h1 i t hi this
    grind
  all_goals (left; grind)

theorem Shuts.way_late (hi : Inv C st) (h : Shuts st) (w : Way C st st' ev) : ∀ r, .respond r ∈ st'.stack → st'.shutdown = true → st'.tasks.any Task.shuts = true := by
  have h1 := w.shuts
  replace h := h.late
  clear hi
  by_cases hs : st.tasks.any Task.shuts = true
  · rcases h1 hs with h1 | ⟨i, imm, h2, rfl⟩
    · intros; exact h1
    · simp [h2]
  · cases w <;> grind

theorem Shuts.way_ends (hi : Inv C st) (h : Shuts st) (hh : Held st) (w : Way C st st' ev) :
    st'.shutdown = true → st'.tasks.any Task.shuts = true ∨ ∀ s : Nat, s < st'.nS → 4 ≤ (st'.sess s).state.rank ∨ Ends s st'.stack := by
  have h1 := w.shuts
  have h2 := h.late
  replace h := h.ends
  have h3 := hh.kept
  have h4 := hi.uncrashed w
  clear hi hh
  by_cases hs : st.tasks.any Task.shuts = true
  · rcases h1 hs with h1 | ⟨i, imm, h1, rfl⟩
    · intros; exact .inl h1
    · intro _
      right
      intro s hs
      simp at hs
      have := h3 s hs
      grind
  · clear h1 h3
    by_cases hd : st.shutdown = true
    · have h := (h hd).resolve_left hs
      replace h2 : ∀ r, .respond r ∉ st.stack := fun r hr => hs (h2 r hr hd)
      intro _
      right
      clear hs
      cases w <;> grind
    · cases w <;> grind

theorem Shuts.way_told (hi : Inv C st) (h : Shuts st) (w : Way C st st' ev) :
    st'.shutdown = true → st'.table = [] → st'.startup = 0 → st'.done = true ∨ st'.tasks.any Task.shuts = true ∨ .check ∈ st'.stack ∨ st'.scheduled = true := by
  have h1 := w.shuts
  have h2 := h.sending
  have h3 := h.late
  replace h := h.told
  have h4 := hi.uncrashed w
  clear hi
  by_cases hs : st.tasks.any Task.shuts = true
  · rcases h1 hs with h1 | ⟨i, imm, h1, rfl⟩
    · intros; exact .inr (.inl h1)
    · simp
  · clear h1
    cases w <;> grind

theorem Shuts.way (hi : Inv C st) (hh : Held st) (h : Shuts st) (w : Way C st st' ev) : Shuts st' :=
  ⟨h.way_sending w, h.way_late hi w, h.way_ends hi hh w, h.way_told hi w⟩

theorem Shuts.init : Shuts Inst.init := by
  constructor <;> simp [Inst.init]

end
end Inst
end Rtmfp
