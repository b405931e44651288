import Verif.Model.Retainer
/-! # Reference counts: the invariant -/
namespace Rtmfp
namespace Refs

/-- one reference, if the retainer has one to the object that is counted -/
def ind (s : Slot) (o : Nat) : Nat := if s.ptr = some o ∧ s.counted = true then 1 else 0
/-- counted references of retainers -/
def held (st : St) (o : Nat) : Nat := st.slots.countP (fun s => decide (s.ptr = some o ∧ s.counted = true))
def isTo (d : Nat) : Frame → Bool
  | .retain _ _ x => x = d
  | _ => false
def frames (st : St) : List Frame := st.stacks.flatten
def rels (st : St) (o : Nat) : Nat := (frames st).countP (· = .release o)
def dels (st : St) (o : Nat) : Nat := (frames st).countP (· = .delete o)
def tos (st : St) (d : Nat) : Nat := (frames st).countP (isTo d)

theorem flatten_set_count {α : Type} (p : α → Bool) (L : List (List α)) (t : Nat) (l : List α) (h : t < L.length) :
    (L.set t l).flatten.countP p + (L.getD t []).countP p = L.flatten.countP p + l.countP p := by
  induction L generalizing t with
  | nil => simp at h
  | cons a L ih =>
    cases t with
    | zero => simp; omega
    | succ t =>
      have := ih t (by simpa using h)
      simp at this ⊢
      omega

theorem flatten_set_mem {α : Type} (L : List (List α)) (t : Nat) (l : List α) (x : α) (h : x ∈ (L.set t l).flatten) : x ∈ L.flatten ∨ x ∈ l := by
  simp only [List.mem_flatten] at h ⊢
  obtain ⟨m, hm, hx⟩ := h
  rcases List.mem_or_eq_of_mem_set hm with h1 | h1
  · exact .inl ⟨m, h1, hx⟩
  · subst h1; exact .inr hx

theorem mem_flatten_getD {α : Type} (L : List (List α)) (t : Nat) (x : α) (h : x ∈ L.getD t []) : x ∈ L.flatten := by
  rw [List.getD_eq_getElem?_getD] at h
  cases e : L[t]? with
  | none => simp [e] at h
  | some m =>
    simp [e] at h
    exact List.mem_flatten.mpr ⟨m, List.mem_of_getElem? e, h⟩

/-- the frames of `st'` are those of `st` with `new` put on a stack -/
structure Adds (st st' : St) (new : List Frame) : Prop where
  count : ∀ p : Frame → Bool, (frames st').countP p = (frames st).countP p + new.countP p
  mem : ∀ x ∈ frames st', x ∈ frames st ∨ x ∈ new

theorem Adds.push {st : St} {t : Nat} (ht : t < st.stacks.length) (new : List Frame) : Adds st (push st t new) new := by
  constructor
  · intro p
    have := flatten_set_count p st.stacks t (new ++ stack st t) ht
    simp only [frames, Refs.push, List.countP_append] at this ⊢
    simp only [stack] at this ⊢
    omega
  · intro x hx
    rcases flatten_set_mem _ _ _ _ hx with h | h
    · exact .inl h
    · rcases List.mem_append.mp h with h | h
      · exact .inr h
      · exact .inl (mem_flatten_getD _ _ _ h)

theorem Adds.pop {st : St} {t : Nat} {fr : Frame} {rest : List Frame} (ht : t < st.stacks.length) (h : stack st t = fr :: rest) : Adds (pop st t) st [fr] := by
  have hp : (Refs.pop st t).stacks = st.stacks.set t rest := by simp [Refs.pop, h]
  constructor
  · intro p
    have := flatten_set_count p st.stacks t rest ht
    simp only [frames, hp]
    rw [show st.stacks.getD t [] = fr :: rest from h, List.countP_cons] at this
    rw [List.countP_singleton]
    omega
  · intro x hx
    simp only [frames, hp]
    obtain ⟨m, hm, hx⟩ := List.mem_flatten.mp hx
    obtain ⟨i, hi, rfl⟩ := List.mem_iff_getElem.mp hm
    by_cases hit : i = t
    · subst hit
      have e : st.stacks[i] = fr :: rest := by
        rw [← h, stack, List.getD_eq_getElem?_getD, List.getElem?_eq_getElem hi]; rfl
      rw [e] at hx
      rcases List.mem_cons.mp hx with rfl | hx
      · exact .inr (by simp)
      · exact .inl (List.mem_flatten.mpr ⟨rest, List.mem_iff_getElem.mpr ⟨i, by simpa using hi, by simp⟩, hx⟩)
    · exact .inl (List.mem_flatten.mpr ⟨_, List.mem_iff_getElem.mpr ⟨i, by simpa using hi, List.getElem_set_ne (by omega) _⟩, hx⟩)

theorem pop_mem {st : St} {t : Nat} {x : Frame} (h : x ∈ frames (pop st t)) : x ∈ frames st := by
  rcases flatten_set_mem _ _ _ _ h with h | h
  · exact h
  · exact mem_flatten_getD _ _ _ (List.mem_of_mem_tail h)

theorem slot_of_lt {st : St} {i : Nat} (h : i < st.slots.length) : slot st i = st.slots[i] := by
  simp [slot, List.getD_eq_getElem?_getD, h]

theorem slot_of_ge {st : St} {i : Nat} (h : st.slots.length ≤ i) : slot st i = ⟨false, none, none, true⟩ := by
  simp [slot, List.getD_eq_getElem?_getD, List.getElem?_eq_none h]

theorem held_set {st : St} {i : Nat} (g : Slot → Slot) (o : Nat) (h : i < st.slots.length) :
    held (setSlot st i g) o + ind (slot st i) o = held st o + ind (g (slot st i)) o := by
  have h1 := flatten_set_count (fun s => decide (Slot.ptr s = some o ∧ s.counted = true)) (st.slots.map fun s => [s]) i [g (slot st i)] (by simpa using h)
  have e1 : ∀ l : List Slot, (l.map fun s => [s]).flatten = l := by
    intro l
    induction l with
    | nil => rfl
    | cons a l ih => simp [ih]
  have e2 : (st.slots.map fun s => [s]).set i [g (slot st i)] = (st.slots.set i (g (slot st i))).map fun s => [s] := by
    rw [List.map_set]
  have e3 : (st.slots.map fun s => [s]).getD i [] = [slot st i] := by
    simp [List.getD_eq_getElem?_getD, h, slot_of_lt h]
  rw [e2, e1, e1, e3] at h1
  simp only [List.countP_singleton, decide_eq_true_eq] at h1
  simpa only [held, setSlot, ind] using h1

theorem held_add {st : St} (x : Slot) (o : Nat) : held (addSlot st x) o = held st o + ind x o := by
  simp only [held, addSlot, ind, List.countP_append, List.countP_singleton, decide_eq_true_eq]

theorem held_pos {st : St} {i o : Nat} (h : (slot st i).ptr = some o) (hc : (slot st i).counted = true) : 0 < held st o := by
  by_cases hi : i < st.slots.length
  · rw [held, List.countP_pos_iff]
    exact ⟨slot st i, by rw [slot_of_lt hi]; exact List.getElem_mem hi, by simp [h, hc]⟩
  · rw [slot_of_ge (by omega)] at h; simp at h

theorem held_zero {st : St} {o : Nat} (h : held st o = 0) (i : Nat) : ¬ ((slot st i).ptr = some o ∧ (slot st i).counted = true) := by
  rintro ⟨h1, h2⟩
  have := held_pos h1 h2
  omega

theorem slot_set {st : St} {i : Nat} (g : Slot → Slot) (h : i < st.slots.length) (j : Nat) : slot (setSlot st i g) j = if j = i then g (slot st i) else slot st j := by
  by_cases hj : j = i
  · subst hj; rw [if_pos rfl, slot_of_lt (by simpa [setSlot] using h)]; simp [setSlot]
  · simp only [if_neg hj, slot, setSlot, List.getD_eq_getElem?_getD]
    rw [List.getElem?_set_ne (by omega)]

theorem slot_add {st : St} (x : Slot) (j : Nat) : slot (addSlot st x) j = if j = st.slots.length then x else slot st j := by
  simp only [slot, addSlot, List.getD_eq_getElem?_getD, List.getElem?_append]
  split
  · rw [if_neg (by omega)]
  · split
    · subst_vars; simp
    · have : j - st.slots.length ≠ 0 := by omega
      rw [List.getElem?_eq_none (l := st.slots) (by omega), List.getElem?_eq_none (by simp; omega)]

theorem writing_iff {st : St} {i : Nat} : writing st i = true ↔ ∃ o s, .retain o s i ∈ frames st := by
  simp only [writing, List.any_eq_true, frames]
  constructor
  · rintro ⟨fr, hm, h⟩
    cases fr <;> simp at h
    subst h
    exact ⟨_, _, hm⟩
  · rintro ⟨o, s, hm⟩
    exact ⟨_, hm, by simp⟩

theorem reading_iff {st : St} {i : Nat} : reading st i = true ↔ ∃ o d, .retain o (some i) d ∈ frames st := by
  simp only [reading, List.any_eq_true, frames]
  constructor
  · rintro ⟨fr, hm, h⟩
    cases fr <;> simp at h
    subst h
    exact ⟨_, _, hm⟩
  · rintro ⟨o, s, hm⟩
    exact ⟨_, hm, by simp⟩

/-- the counts are right -/
structure Inv (st : St) : Prop where
  cnt : ∀ o, st.rc o = (held st o + st.raw o + rels st o : Nat)
  to : ∀ d, tos st d = if (slot st d).counted = true then 0 else 1
  ret : ∀ o s d, .retain o s d ∈ frames st → (slot st d).ptr = some o ∧ ∃ i, s = some i ∧ (slot st i).ptr = some o ∧ (slot st i).counted = true
  gone : ∀ o, o < st.nO → dels st o + (if st.dead o = true then 1 else 0) = if st.rc o = 0 then 1 else 0
  fresh : ∀ o, st.nO ≤ o → st.rc o = 0 ∧ dels st o = 0 ∧ st.dead o = false
  off : ∀ i, (slot st i).alive = false → (slot st i).ptr = none
  sees : ∀ i o, (slot st i).ptr = some o → o < st.nO


theorem tos_pos {st : St} {o : Nat} {s : Option Nat} {d : Nat} (h : .retain o s d ∈ frames st) : 0 < tos st d := by
  rw [tos, List.countP_pos_iff]
  exact ⟨_, h, by simp [isTo]⟩

theorem Inv.uncounted {st : St} (h : Inv st) {o d : Nat} {s : Option Nat} (hm : .retain o s d ∈ frames st) : (slot st d).counted = false := by
  have h1 := h.to d
  have h2 := tos_pos hm
  cases e : (slot st d).counted with
  | false => rfl
  | true => rw [e] at h1; simp at h1; omega

theorem Inv.counted {st : St} (h : Inv st) {d : Nat} (hw : writing st d = false) : (slot st d).counted = true := by
  have h1 := h.to d
  cases e : (slot st d).counted with
  | true => rfl
  | false =>
    rw [e] at h1
    simp only [Bool.false_eq_true, if_false] at h1
    have : 0 < tos st d := by omega
    rw [tos, List.countP_pos_iff] at this
    obtain ⟨fr, hm, hf⟩ := this
    cases fr <;> simp [isTo] at hf
    subst hf
    have := writing_iff.mpr ⟨_, _, hm⟩
    simp [hw] at this

/-- what a retainer points to is there -/
theorem Inv.there {st : St} (h : Inv st) {i o : Nat} (hp : (slot st i).ptr = some o) : 0 < held st o := by
  cases e : (slot st i).counted with
  | true => exact held_pos hp e
  | false =>
    have h1 := h.to i
    rw [e] at h1
    simp only [Bool.false_eq_true, if_false] at h1
    have : 0 < tos st i := by omega
    rw [tos, List.countP_pos_iff] at this
    obtain ⟨fr, hm, hf⟩ := this
    cases fr <;> simp [isTo] at hf
    subst hf
    obtain ⟨h2, j, -, h3, h4⟩ := h.ret _ _ _ hm
    rw [hp] at h2
    cases h2
    exact held_pos h3 h4

theorem Inv.live {st : St} (h : Inv st) {o : Nat} (hr : 0 < held st o + st.raw o + rels st o) : o < st.nO ∧ dels st o = 0 ∧ st.dead o = false ∧ 1 ≤ st.rc o := by
  have h1 := h.cnt o
  have h2 : 1 ≤ st.rc o := by omega
  have h3 : o < st.nO := by
    rcases Nat.lt_or_ge o st.nO with h3 | h3
    · exact h3
    · have := (h.fresh o h3).1; omega
  have h4 := h.gone o h3
  rw [if_neg (show ¬ st.rc o = 0 by omega)] at h4
  refine ⟨h3, by omega, ?_, h2⟩
  cases e : st.dead o with
  | false => rfl
  | true => rw [e] at h4; simp at h4

end Refs
end Rtmfp
