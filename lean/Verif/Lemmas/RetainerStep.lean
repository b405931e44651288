import Verif.Lemmas.Retainer
/-! # Reference counts: every step keeps the invariant -/
namespace Rtmfp
namespace Refs

theorem Adds.rels {st st' : St} {new : List Frame} (h : Adds st st' new) (o : Nat) : Refs.rels st' o = Refs.rels st o + new.countP (· = .release o) := h.count _
theorem Adds.dels {st st' : St} {new : List Frame} (h : Adds st st' new) (o : Nat) : Refs.dels st' o = Refs.dels st o + new.countP (· = .delete o) := h.count _
theorem Adds.tos {st st' : St} {new : List Frame} (h : Adds st st' new) (d : Nat) : Refs.tos st' d = Refs.tos st d + new.countP (isTo d) := h.count _

theorem Adds.same {st st' : St} (h : st'.stacks = st.stacks) : Adds st st' [] := by
  constructor
  · intro p; simp [frames, h]
  · intro x hx; simp only [frames, h] at hx; exact .inl hx

theorem Adds.trans {st st1 st2 : St} {a b : List Frame} (h1 : Adds st st1 a) (h2 : Adds st1 st2 b) : Adds st st2 (a ++ b) := by
  constructor
  · intro p; rw [h2.count, h1.count, List.countP_append, Nat.add_assoc]
  · intro x hx
    rcases h2.mem x hx with h | h
    · rcases h1.mem x h with h | h
      · exact .inl h
      · exact .inr (by simp [h])
    · exact .inr (by simp [h])

theorem Adds.push' {st st1 : St} {t : Nat} (ht : t < st.stacks.length) (he : st1.stacks = st.stacks) (new : List Frame) : Adds st (Refs.push st1 t new) new := by
  have := Adds.trans (Adds.same he) (Adds.push (st := st1) (by rw [he]; exact ht) new)
  simpa using this

/-- retainers change hands: no count changes yet -/
theorem Inv.of {st st' : St} (h : Inv st) (new : List Frame) (hn : st'.nO = st.nO) (hrc : st'.rc = st.rc) (hd : st'.dead = st.dead) (ha : Adds st st' new)
    (hnd : ∀ o, new.countP (· = .delete o) = 0)
    (hcnt : ∀ o, held st' o + st'.raw o + new.countP (· = .release o) = held st o + st.raw o)
    (hto : ∀ d, (if (slot st d).counted = true then 0 else 1) + new.countP (isTo d) = if (slot st' d).counted = true then 0 else 1)
    (hkeep : ∀ j, writing st j = true ∨ reading st j = true → slot st' j = slot st j)
    (hnew : ∀ o s d, .retain o s d ∈ new → (slot st' d).ptr = some o ∧ ∃ i, s = some i ∧ (slot st' i).ptr = some o ∧ (slot st' i).counted = true)
    (hoff : ∀ i, (slot st' i).alive = false → (slot st' i).ptr = none) (hsees : ∀ i o, (slot st' i).ptr = some o → o < st.nO) : Inv st' where
  cnt := by
    intro o
    rw [hrc, h.cnt o, ha.rels o]
    have := hcnt o
    omega
  to := by
    intro d
    rw [ha.tos d, h.to d]
    exact hto d
  ret := by
    intro o s d hm
    rcases ha.mem _ hm with hm | hm
    · obtain ⟨h1, i, rfl, h2, h3⟩ := h.ret o s d hm
      have e1 := hkeep d (.inl (writing_iff.mpr ⟨_, _, hm⟩))
      have e2 := hkeep i (.inr (reading_iff.mpr ⟨_, _, hm⟩))
      exact ⟨by rw [e1]; exact h1, i, rfl, by rw [e2]; exact h2, by rw [e2]; exact h3⟩
    · exact hnew o s d hm
  gone := by
    intro o ho
    rw [hrc, hd, ha.dels o, hnd o]
    rw [hn] at ho
    exact h.gone o ho
  fresh := by
    intro o ho
    rw [hrc, hd, ha.dels o, hnd o]
    rw [hn] at ho
    exact h.fresh o ho
  off := hoff
  sees := by rw [hn]; exact hsees

theorem mayRead_iff {st : St} {i : Nat} : mayRead st i = true ↔ (slot st i).alive = true ∧ writing st i = false := by
  simp [mayRead]
theorem mayWrite_iff {st : St} {i : Nat} : mayWrite st i = true ↔ (slot st i).alive = true ∧ writing st i = false ∧ reading st i = false := by
  simp [mayWrite, and_assoc]

theorem alive_lt {st : St} {i : Nat} (h : (slot st i).alive = true) : i < st.slots.length := by
  rcases Nat.lt_or_ge i st.slots.length with h1 | h1
  · exact h1
  · rw [slot_of_ge h1] at h; simp at h

theorem Inv.busy_lt {st : St} (h : Inv st) {j : Nat} (hj : writing st j = true ∨ reading st j = true) : j < st.slots.length := by
  rcases Nat.lt_or_ge j st.slots.length with h1 | h1
  · exact h1
  · have e := slot_of_ge h1
    rcases hj with hj | hj
    · obtain ⟨o, s, hm⟩ := writing_iff.mp hj
      have := (h.ret _ _ _ hm).1
      rw [e] at this; simp at this
    · obtain ⟨o, d, hm⟩ := reading_iff.mp hj
      obtain ⟨-, i, hi, h2, -⟩ := h.ret _ _ _ hm
      cases hi
      rw [e] at h2; simp at h2

theorem releases_count (p : Option Nat) (o : Nat) : (releases p).countP (· = .release o) = if p = some o then 1 else 0 := by
  cases p with
  | none => simp [releases]
  | some x => simp [releases, List.countP_cons]

theorem releases_del (p : Option Nat) (o : Nat) : (releases p).countP (· = .delete o) = 0 := by cases p <;> simp [releases]
theorem releases_to (p : Option Nat) (o : Nat) : (releases p).countP (isTo o) = 0 := by cases p <;> simp [releases, isTo]
theorem releases_ret (p : Option Nat) (o : Nat) (s : Option Nat) (d : Nat) : .retain o s d ∉ releases p := by cases p <;> simp [releases]
theorem retains_count (p s : Option Nat) (d o : Nat) : (retains p s d).countP (· = .release o) = 0 := by cases p <;> simp [retains]
theorem retains_del (p s : Option Nat) (d o : Nat) : (retains p s d).countP (· = .delete o) = 0 := by cases p <;> simp [retains]
theorem retains_to (p s : Option Nat) (d x : Nat) : (retains p s d).countP (isTo x) = if p.isSome = true ∧ x = d then 1 else 0 := by
  cases p with
  | none => simp [retains]
  | some o => simp [retains, isTo, List.countP_cons, eq_comm]
theorem retains_ret (p s : Option Nat) (d o : Nat) (s' : Option Nat) (d' : Nat) : .retain o s' d' ∈ retains p s d ↔ p = some o ∧ s' = s ∧ d' = d := by
  cases p with
  | none => simp [retains]
  | some x => simp [retains, eq_comm]

section
variable {st st' : St} {t : Nat} {ev : List Ev}

@[simp] theorem push_slot (new : List Frame) (j : Nat) : slot (push st t new) j = slot st j := rfl
@[simp] theorem push_held (new : List Frame) (j : Nat) : held (push st t new) j = held st j := rfl
@[simp] theorem push_raw (new : List Frame) : (push st t new).raw = st.raw := rfl

/-- a retainer that may be written loses its pointer, which is to be released -/
theorem Inv.clear {i : Nat} (h : Inv st) (ht : t < st.stacks.length) (hw : mayWrite st i = true) (b : Bool) (hb : b = true ∨ b = false) :
    Inv (push (setSlot st i (fun s => { s with alive := b, ptr := none })) t (releases (slot st i).ptr)) := by
  obtain ⟨h1, h2, h3⟩ := mayWrite_iff.mp hw
  have hl := alive_lt h1
  have hc := h.counted h2
  have hs := slot_set (st := st) (fun s => { s with alive := b, ptr := none }) hl
  refine h.of (releases (slot st i).ptr) rfl rfl rfl (by apply Adds.push' ht; rfl) (releases_del _) ?_ ?_ ?_ ?_ ?_ ?_
  · intro o
    have := held_set (st := st) (fun s => { s with alive := b, ptr := none }) o hl
    rw [push_held, releases_count, push_raw]
    simp only [ind, hc] at this
    simp at this
    simp only [setSlot] at this ⊢
    grind
  · intro d
    rw [releases_to, push_slot, hs]
    grind
  · intro j hj
    rw [push_slot, hs]
    grind
  · intro o s d hm; exact absurd hm (releases_ret _ _ _ _)
  · intro j
    rw [push_slot, hs]
    have := h.off j
    grind
  · intro j o
    rw [push_slot, hs]
    have := h.sees j o
    grind

theorem Inv.reset {dst : Nat} (h : Inv st) (ht : t < st.stacks.length) (hw : mayWrite st dst = true) : Inv (basicAssign st t none none dst) := by
  rw [basicAssign]
  split
  · exact h
  · have h1 := h.clear ht hw true (.inl rfl)
    obtain ⟨h2, h3, h4⟩ := mayWrite_iff.mp hw
    have e : (setSlot st dst fun s => { s with alive := true, ptr := none }) = setSlot st dst fun s => { s with ptr := none, counted := (none : Option Nat).isNone } := by
      simp only [setSlot, h2, h.counted h3]; rfl
    rw [e] at h1
    exact h1

theorem Inv.assign {dst src : Nat} (h : Inv st) (ht : t < st.stacks.length) (hw : mayWrite st dst = true) (hr : mayRead st src = true) :
    Inv (basicAssign st t (slot st src).ptr (some src) dst) := by
  rw [basicAssign]
  split
  · exact h
  rename_i hne
  obtain ⟨h1, h2, h3⟩ := mayWrite_iff.mp hw
  obtain ⟨r1, r2⟩ := mayRead_iff.mp hr
  have hl := alive_lt h1
  have hc := h.counted h2
  have rc := h.counted r2
  have hs := slot_set (st := st) (fun s => { s with ptr := (slot st src).ptr, counted := (slot st src).ptr.isNone }) hl
  refine h.of (retains (slot st src).ptr (some src) dst ++ releases (slot st dst).ptr) rfl rfl rfl (by apply Adds.push' ht; rfl) ?_ ?_ ?_ ?_ ?_ ?_ ?_
  · intro o; rw [List.countP_append, retains_del, releases_del]
  · intro o
    have := held_set (st := st) (fun s => { s with ptr := (slot st src).ptr, counted := (slot st src).ptr.isNone }) o hl
    rw [push_held, List.countP_append, retains_count, releases_count, push_raw]
    simp only [ind, hc] at this
    simp only [setSlot] at this ⊢
    grind
  · intro d
    rw [List.countP_append, retains_to, releases_to, push_slot, hs]
    cases e : (slot st src).ptr <;> grind
  · intro j hj
    rw [push_slot, hs]
    grind
  · intro o s d hm
    rcases List.mem_append.mp hm with hm | hm
    · obtain ⟨e1, rfl, rfl⟩ := (retains_ret _ _ _ _ _ _).mp hm
      rw [push_slot, hs]
      refine ⟨by simp [e1], src, rfl, ?_⟩
      rw [push_slot, hs]
      grind
    · exact absurd hm (releases_ret _ _ _ _)
  · intro j
    rw [push_slot, hs]
    have := h.off j
    grind
  · intro j o
    rw [push_slot, hs]
    have := h.sees j o
    have := h.sees src o
    grind

theorem Inv.moveAssign {dst src : Nat} (h : Inv st) (ht : t < st.stacks.length) (hw : mayWrite st dst = true) (hr : mayWrite st src = true) :
    Inv (push (setSlot (setSlot st dst (fun s => { s with ptr := (slot st src).ptr })) src (fun s => { s with ptr := none })) t (releases (slot st dst).ptr)) := by
  obtain ⟨h1, h2, h3⟩ := mayWrite_iff.mp hw
  obtain ⟨r1, r2, r3⟩ := mayWrite_iff.mp hr
  have hl := alive_lt h1
  have rl := alive_lt r1
  have hc := h.counted h2
  have rc := h.counted r2
  have hs := slot_set (st := st) (fun s => { s with ptr := (slot st src).ptr }) hl
  have hs' := slot_set (st := setSlot st dst (fun s => { s with ptr := (slot st src).ptr })) (fun s => { s with ptr := none }) (i := src) (by simpa [setSlot] using rl)
  refine h.of (releases (slot st dst).ptr) rfl rfl rfl (by apply Adds.push' ht; rfl) (releases_del _) ?_ ?_ ?_ ?_ ?_ ?_
  · intro o
    have a1 := held_set (st := st) (fun s => { s with ptr := (slot st src).ptr }) o hl
    have a2 := held_set (st := setSlot st dst (fun s => { s with ptr := (slot st src).ptr })) (fun s => { s with ptr := none }) (i := src) o (by simpa [setSlot] using rl)
    rw [push_held, releases_count, push_raw]
    rw [hs src] at a2
    simp only [ind] at a1 a2
    show held (setSlot (setSlot st dst _) src _) o + st.raw o + _ = _
    grind
  · intro d
    rw [releases_to, push_slot, hs', hs, hs]
    grind
  · intro j hj
    rw [push_slot, hs', hs, hs]
    grind
  · intro o s d hm; exact absurd hm (releases_ret _ _ _ _)
  · intro j
    rw [push_slot, hs', hs, hs]
    have := h.off j
    grind
  · intro j o
    rw [push_slot, hs', hs, hs]
    have := h.sees j o
    have := h.sees src o
    grind

theorem Inv.swap {a b : Nat} (h : Inv st) (hw : mayWrite st a = true) (hr : mayWrite st b = true) :
    Inv (setSlot (setSlot st a (fun s => { s with ptr := (slot st b).ptr })) b (fun s => { s with ptr := (slot st a).ptr })) := by
  obtain ⟨h1, h2, h3⟩ := mayWrite_iff.mp hw
  obtain ⟨r1, r2, r3⟩ := mayWrite_iff.mp hr
  have hl := alive_lt h1
  have rl := alive_lt r1
  have hc := h.counted h2
  have rc := h.counted r2
  have hs := slot_set (st := st) (fun s => { s with ptr := (slot st b).ptr }) hl
  have hs' := slot_set (st := setSlot st a (fun s => { s with ptr := (slot st b).ptr })) (fun s => { s with ptr := (slot st a).ptr }) (i := b) (by simpa [setSlot] using rl)
  refine h.of [] rfl rfl rfl (Adds.same rfl) (by simp) ?_ ?_ ?_ ?_ ?_ ?_
  · intro o
    have a1 := held_set (st := st) (fun s => { s with ptr := (slot st b).ptr }) o hl
    have a2 := held_set (st := setSlot st a (fun s => { s with ptr := (slot st b).ptr })) (fun s => { s with ptr := (slot st a).ptr }) (i := b) o (by simpa [setSlot] using rl)
    rw [hs b] at a2
    simp only [ind] at a1 a2
    show held (setSlot (setSlot st a _) b _) o + st.raw o + _ = _
    grind
  · intro d
    rw [hs', hs, hs]
    grind
  · intro j hj
    rw [hs', hs, hs]
    grind
  · intro o s d hm; simp at hm
  · intro j
    rw [hs', hs, hs]
    have := h.off j
    grind
  · intro j o
    rw [hs', hs, hs]
    have := h.sees j o
    have := h.sees a o
    have := h.sees b o
    grind

theorem Inv.move {src : Nat} (h : Inv st) (hr : mayWrite st src = true) (w : Option Nat) :
    Inv (addSlot (setSlot st src (fun s => { s with ptr := none })) ⟨true, (slot st src).ptr, w, true⟩) := by
  obtain ⟨r1, r2, r3⟩ := mayWrite_iff.mp hr
  have rl := alive_lt r1
  have rc := h.counted r2
  have hs := slot_set (st := st) (fun s => { s with ptr := none }) rl
  have hs' := slot_add (st := setSlot st src (fun s => { s with ptr := none })) ⟨true, (slot st src).ptr, w, true⟩
  have e : (setSlot st src (fun s => { s with ptr := none })).slots.length = st.slots.length := by simp [setSlot]
  have hg := slot_of_ge (st := st) (Nat.le_refl _)
  refine h.of [] rfl rfl rfl (Adds.same rfl) (by simp) ?_ ?_ ?_ ?_ ?_ ?_
  · intro o
    have a1 := held_set (st := st) (fun s => { s with ptr := none }) o rl
    rw [held_add]
    simp only [ind] at a1 ⊢
    show held (setSlot st src _) o + _ + st.raw o + _ = _
    grind
  · intro d
    rw [hs', hs, e]
    grind
  · intro j hj
    rw [hs', hs, e]
    have := h.busy_lt hj
    grind
  · intro o s d hm; simp at hm
  · intro j
    rw [hs', hs, e]
    have := h.off j
    grind
  · intro j o
    rw [hs', hs, e]
    have := h.sees j o
    have := h.sees src o
    grind

theorem Inv.copy {src : Nat} (h : Inv st) (ht : t < st.stacks.length) (hr : mayRead st src = true) (w : Option Nat) :
    Inv (push (addSlot st ⟨true, (slot st src).ptr, w, (slot st src).ptr.isNone⟩) t (retains (slot st src).ptr (some src) st.slots.length)) := by
  obtain ⟨r1, r2⟩ := mayRead_iff.mp hr
  have rl := alive_lt r1
  have rc := h.counted r2
  have hs' := slot_add (st := st) ⟨true, (slot st src).ptr, w, (slot st src).ptr.isNone⟩
  have hg := slot_of_ge (st := st) (Nat.le_refl _)
  refine h.of (retains (slot st src).ptr (some src) st.slots.length) rfl rfl rfl (by apply Adds.push' ht; rfl) ?_ ?_ ?_ ?_ ?_ ?_ ?_
  · intro o; rw [retains_del]
  · intro o
    rw [push_held, held_add, retains_count, push_raw]
    simp only [ind]
    show held st o + _ + st.raw o + _ = _
    grind
  · intro d
    rw [retains_to, push_slot, hs']
    cases e : (slot st src).ptr <;> grind
  · intro j hj
    rw [push_slot, hs']
    have := h.busy_lt hj
    grind
  · intro o s d hm
    obtain ⟨e1, rfl, rfl⟩ := (retains_ret _ _ _ _ _ _).mp hm
    rw [push_slot, hs']
    refine ⟨by simp [e1], src, rfl, ?_⟩
    rw [push_slot, hs']
    grind
  · intro j
    rw [push_slot, hs']
    have := h.off j
    grind
  · intro j o
    rw [push_slot, hs']
    have := h.sees j o
    have := h.sees src o
    grind

theorem Inv.emptyOne (h : Inv st) (w : Option Nat) : Inv (addSlot st ⟨true, none, w, true⟩) := by
  have hs' := slot_add (st := st) ⟨true, none, w, true⟩
  have hg := slot_of_ge (st := st) (Nat.le_refl _)
  refine h.of [] rfl rfl rfl (Adds.same rfl) (by simp) ?_ ?_ ?_ ?_ ?_ ?_
  · intro o
    rw [held_add]
    simp [ind, addSlot]
  · intro d
    rw [hs']
    grind
  · intro j hj
    rw [hs']
    have := h.busy_lt hj
    grind
  · intro o s d hm; simp at hm
  · intro j
    rw [hs']
    have := h.off j
    grind
  · intro j o
    rw [hs']
    have := h.sees j o
    grind

theorem Inv.claim {x : Nat} (h : Inv st) (w : Option Nat) (hx : st.raw x > 0) : Inv (addSlot { st with raw := upd st.raw x (st.raw x - 1) } ⟨true, some x, w, true⟩) := by
  have hs' := slot_add (st := { st with raw := upd st.raw x (st.raw x - 1) }) ⟨true, some x, w, true⟩
  have hg := slot_of_ge (st := st) (Nat.le_refl _)
  have e : ∀ j, slot { st with raw := upd st.raw x (st.raw x - 1) } j = slot st j := fun _ => rfl
  have hl := (h.live (o := x) (by omega)).1
  refine h.of [] rfl rfl rfl (Adds.same rfl) (by simp) ?_ ?_ ?_ ?_ ?_ ?_
  · intro o
    rw [held_add]
    show held st o + _ + upd st.raw x (st.raw x - 1) o + _ = _
    simp only [ind, upd]
    grind
  · intro d
    rw [hs', e]
    grind
  · intro j hj
    rw [hs', e]
    have := h.busy_lt hj
    grind
  · intro o s d hm; simp at hm
  · intro j
    rw [hs', e]
    have := h.off j
    grind
  · intro j o
    rw [hs', e]
    have := h.sees j o
    grind

theorem Inv.letGo {x : Nat} (h : Inv st) (ht : t < st.stacks.length) (hx : st.raw x > 0) : Inv (push { st with raw := upd st.raw x (st.raw x - 1) } t [.release x]) := by
  refine h.of [.release x] rfl rfl rfl (by apply Adds.push' ht; rfl) (by simp) ?_ ?_ ?_ ?_ ?_ ?_
  · intro o
    show held st o + upd st.raw x (st.raw x - 1) o + _ = _
    simp only [upd, List.countP_cons, List.countP_nil]
    grind
  · intro d
    simp [isTo, List.countP_cons]
    rfl
  · intro j hj; rfl
  · intro o s d hm; simp at hm
  · exact h.off
  · exact h.sees

theorem Inv.make (h : Inv st) : Inv { st with nO := st.nO + 1, rc := upd st.rc st.nO 1, raw := upd st.raw st.nO 1 } := by
  obtain ⟨f1, f2, f3⟩ := h.fresh st.nO (Nat.le_refl _)
  have f4 := h.cnt st.nO
  constructor
  · intro o
    have := h.cnt o
    show upd st.rc st.nO 1 o = ((held st o + upd st.raw st.nO 1 o + rels st o : Nat) : Int)
    simp only [upd]
    grind
  · exact h.to
  · exact h.ret
  · intro o ho
    show dels st o + (if st.dead o = true then 1 else 0) = if upd st.rc st.nO 1 o = 0 then 1 else 0
    have := h.gone o
    simp only [upd]
    grind
  · intro o ho
    have ho' : st.nO + 1 ≤ o := ho
    have := h.fresh o (by omega)
    show upd st.rc st.nO 1 o = 0 ∧ dels st o = 0 ∧ st.dead o = false
    simp only [upd]
    grind
  · exact h.off
  · intro i o hi
    have := h.sees i o hi
    simp; omega

theorem Inv.keep {o : Nat} (h : Inv st) (hp : 0 < held st o) : Inv { (incr st o).1 with raw := upd st.raw o (st.raw o + 1) } := by
  obtain ⟨l1, l2, l3, l4⟩ := h.live (o := o) (by omega)
  constructor
  · intro x
    have := h.cnt x
    show upd st.rc o (st.rc o + 1) x = ((held st x + upd st.raw o (st.raw o + 1) x + rels st x : Nat) : Int)
    simp only [upd]
    grind
  · exact h.to
  · exact h.ret
  · intro x hx
    have := h.gone x hx
    show dels st x + (if st.dead x = true then 1 else 0) = if upd st.rc o (st.rc o + 1) x = 0 then 1 else 0
    simp only [upd]
    grind
  · intro x hx
    have := h.fresh x hx
    have : st.nO ≤ x := hx
    show upd st.rc o (st.rc o + 1) x = 0 ∧ dels st x = 0 ∧ st.dead x = false
    simp only [upd]
    grind
  · exact h.off
  · exact h.sees

/-- a pending `retain` is carried out -/
theorem Inv.retained {o d : Nat} {s : Option Nat} {rest : List Frame} (h : Inv st) (ht : t < st.stacks.length) (hs : stack st t = .retain o s d :: rest) :
    Inv (setSlot (incr (pop st t) o).1 d (fun s => { s with counted := true })) ∧ st.dead o = false := by
  have ha := Adds.pop ht hs
  have hm : .retain o s d ∈ frames st := mem_flatten_getD _ t _ (by rw [show st.stacks.getD t [] = _ from hs]; simp)
  obtain ⟨r1, i, rfl, r2, r3⟩ := h.ret _ _ _ hm
  have hu := h.uncounted hm
  have hp := held_pos r2 r3
  obtain ⟨l1, l2, l3, l4⟩ := h.live (o := o) (by omega)
  have hl : d < st.slots.length := h.busy_lt (.inl (writing_iff.mpr ⟨_, _, hm⟩))
  have hg := slot_set (st := st) (fun s => { s with counted := true }) hl
  have hh := fun x => held_set (st := st) (fun s => { s with counted := true }) x hl
  have hto : tos st d = 1 := by rw [h.to d, hu]; rfl
  refine ⟨?_, l3⟩
  have hf : frames (setSlot (incr (pop st t) o).1 d (fun s => { s with counted := true })) = frames (pop st t) := rfl
  have hno : ∀ o' s', .retain o' s' d ∉ frames (pop st t) := by
    intro o' s' hm'
    have h1 := ha.tos d
    have h2 := tos_pos hm'
    simp [List.countP_cons, isTo] at h1
    omega
  constructor
  · intro x
    have := h.cnt x
    have h1 := hh x
    have h2 := ha.rels x
    simp [List.countP_cons] at h2
    simp only [ind, hu, r1] at h1
    show upd st.rc o (st.rc o + 1) x = ((held (setSlot st d (fun s => { s with counted := true })) x + st.raw x + rels (pop st t) x : Nat) : Int)
    simp only [upd]
    grind
  · intro x
    have h1 := ha.tos x
    have h2 := h.to x
    show tos (pop st t) x = if (slot (setSlot st d (fun s => { s with counted := true })) x).counted = true then 0 else 1
    rw [hg]
    simp only [List.countP_cons, List.countP_nil, isTo] at h1
    grind
  · intro o' s' d' hm'
    rw [hf] at hm'
    obtain ⟨q1, j, rfl, q2, q3⟩ := h.ret _ _ _ (pop_mem hm')
    show (slot (setSlot st d (fun s => { s with counted := true })) d').ptr = some o' ∧ ∃ i, some j = some i ∧
      (slot (setSlot st d (fun s => { s with counted := true })) i).ptr = some o' ∧ (slot (setSlot st d (fun s => { s with counted := true })) i).counted = true
    refine ⟨?_, j, rfl, ?_⟩
    · rw [hg]; grind
    · rw [hg]; grind
  · intro x hx
    have := h.gone x hx
    have h2 := ha.dels x
    simp [List.countP_cons] at h2
    show dels (pop st t) x + (if st.dead x = true then 1 else 0) = if upd st.rc o (st.rc o + 1) x = 0 then 1 else 0
    simp only [upd]
    grind
  · intro x hx
    have hx' : st.nO ≤ x := hx
    have := h.fresh x hx
    have h2 := ha.dels x
    simp [List.countP_cons] at h2
    show upd st.rc o (st.rc o + 1) x = 0 ∧ dels (pop st t) x = 0 ∧ st.dead x = false
    simp only [upd]
    grind
  · intro j
    show (slot (setSlot st d (fun s => { s with counted := true })) j).alive = false → (slot (setSlot st d (fun s => { s with counted := true })) j).ptr = none
    rw [hg]
    have := h.off j
    grind
  · intro j x
    show (slot (setSlot st d (fun s => { s with counted := true })) j).ptr = some x → x < st.nO
    rw [hg]
    have := h.sees j x
    grind

/-- a pending `release` is carried out -/
theorem Inv.released {o : Nat} {rest : List Frame} (h : Inv st) (ht : t < st.stacks.length) (hs : stack st t = .release o :: rest) :
    Inv (decr (pop st t) t o).1 ∧ st.dead o = false := by
  have ha := Adds.pop ht hs
  have hr : ∀ x, rels st x = rels (pop st t) x + if x = o then 1 else 0 := by
    intro x; have := ha.rels x; simp only [List.countP_cons, List.countP_nil] at this; grind
  have hd : ∀ x, dels st x = dels (pop st t) x := by intro x; have := ha.dels x; simpa using this
  have hq : ∀ x, tos st x = tos (pop st t) x := by intro x; have := ha.tos x; simpa [isTo] using this
  obtain ⟨l1, l2, l3, l4⟩ := h.live (o := o) (by have := hr o; simp at this; omega)
  refine ⟨?_, l3⟩
  have htp : t < (pop st t).stacks.length := by simpa [pop] using ht
  simp only [decr]
  split <;> rename_i hz
  · have hb : Adds (pop st t) (push { pop st t with rc := upd (pop st t).rc o ((pop st t).rc o - 1) } t [.delete o]) [.delete o] := by
      apply Adds.push' htp; rfl
    have hz' : st.rc o - 1 = 0 := hz
    constructor
    · intro x
      have h1 := h.cnt x
      have h2 := hb.rels x
      have h3 := hr x
      simp at h2
      show upd st.rc o (st.rc o - 1) x = ((held st x + st.raw x + rels (push _ t [.delete o]) x : Nat) : Int)
      simp only [upd]
      grind
    · intro x
      have h2 := hb.tos x
      simp [isTo] at h2
      rw [h2, ← hq x]
      exact h.to x
    · intro o' s' d' hm
      rcases hb.mem _ hm with hm | hm
      · exact h.ret _ _ _ (pop_mem hm)
      · simp at hm
    · intro x hx
      have h1 := h.gone x hx
      have h2 := hb.dels x
      have h3 := hd x
      simp only [List.countP_cons, List.countP_nil] at h2
      show dels (push _ t [.delete o]) x + (if st.dead x = true then 1 else 0) = if upd st.rc o (st.rc o - 1) x = 0 then 1 else 0
      simp only [upd]
      grind
    · intro x hx
      have hx' : st.nO ≤ x := hx
      have h1 := h.fresh x hx
      have h2 := hb.dels x
      have h3 := hd x
      simp only [List.countP_cons, List.countP_nil] at h2
      show upd st.rc o (st.rc o - 1) x = 0 ∧ dels (push _ t [.delete o]) x = 0 ∧ st.dead x = false
      simp only [upd]
      grind
    · exact h.off
    · exact h.sees
  · have hz' : ¬ st.rc o - 1 = 0 := hz
    constructor
    · intro x
      have h1 := h.cnt x
      have h3 := hr x
      show upd st.rc o (st.rc o - 1) x = ((held st x + st.raw x + rels (pop st t) x : Nat) : Int)
      simp only [upd]
      grind
    · intro x
      show tos (pop st t) x = _
      rw [← hq x]
      exact h.to x
    · intro o' s' d' hm
      exact h.ret _ _ _ (pop_mem hm)
    · intro x hx
      have h1 := h.gone x hx
      have h3 := hd x
      show dels (pop st t) x + (if st.dead x = true then 1 else 0) = if upd st.rc o (st.rc o - 1) x = 0 then 1 else 0
      simp only [upd]
      grind
    · intro x hx
      have hx' : st.nO ≤ x := hx
      have h1 := h.fresh x hx
      have h3 := hd x
      show upd st.rc o (st.rc o - 1) x = 0 ∧ dels (pop st t) x = 0 ∧ st.dead x = false
      simp only [upd]
      grind
    · exact h.off
    · exact h.sees

/-- frames that only concern what comes next go -/
theorem Inv.popped {fr : Frame} {rest : List Frame} (h : Inv st) (ht : t < st.stacks.length) (hs : stack st t = fr :: rest)
    (hf : (∃ o, fr = .user o) ∨ ∃ o, fr = .members o) : Inv (pop st t) := by
  have ha := Adds.pop ht hs
  have hr : ∀ x, rels st x = rels (pop st t) x := by intro x; have := ha.rels x; rcases hf with ⟨o, rfl⟩ | ⟨o, rfl⟩ <;> simpa using this
  have hd : ∀ x, dels st x = dels (pop st t) x := by intro x; have := ha.dels x; rcases hf with ⟨o, rfl⟩ | ⟨o, rfl⟩ <;> simpa using this
  have hq : ∀ x, tos st x = tos (pop st t) x := by intro x; have := ha.tos x; rcases hf with ⟨o, rfl⟩ | ⟨o, rfl⟩ <;> simpa [isTo] using this
  constructor
  · intro x; rw [← hr x]; exact h.cnt x
  · intro x; rw [← hq x]; exact h.to x
  · intro o' s' d' hm; exact h.ret _ _ _ (pop_mem hm)
  · intro x hx; rw [← hd x]; exact h.gone x hx
  · intro x hx; rw [← hd x]; exact h.fresh x hx
  · exact h.off
  · exact h.sees

theorem Inv.deleted {o : Nat} {rest : List Frame} (h : Inv st) (ht : t < st.stacks.length) (hs : stack st t = .delete o :: rest) :
    Inv (push { pop st t with dead := upd (pop st t).dead o true } t [.user o, .members o]) ∧ st.dead o = false ∧ st.rc o = 0 ∧ o < st.nO := by
  have ha := Adds.pop ht hs
  have hr : ∀ x, rels st x = rels (pop st t) x := by intro x; have := ha.rels x; simpa using this
  have hd : ∀ x, dels st x = dels (pop st t) x + if x = o then 1 else 0 := by
    intro x; have := ha.dels x; simp only [List.countP_cons, List.countP_nil] at this; grind
  have hq : ∀ x, tos st x = tos (pop st t) x := by intro x; have := ha.tos x; simpa [isTo] using this
  have h5 := hd o
  have hO : o < st.nO := by
    rcases Nat.lt_or_ge o st.nO with h1 | h1
    · exact h1
    · have := (h.fresh o h1).2.1; simp at h5; omega
  have h6 := h.gone o hO
  have htp : t < (pop st t).stacks.length := by simpa [pop] using ht
  have hb : Adds (pop st t) (push { pop st t with dead := upd (pop st t).dead o true } t [.user o, .members o]) [.user o, .members o] := by
    apply Adds.push' htp; rfl
  have h7 : st.dead o = false ∧ st.rc o = 0 ∧ dels (pop st t) o = 0 := by grind
  refine ⟨?_, h7.1, h7.2.1, hO⟩
  constructor
  · intro x
    have h1 := h.cnt x
    have h2 := hb.rels x
    have h3 := hr x
    simp at h2
    show st.rc x = ((held st x + st.raw x + rels (push _ t _) x : Nat) : Int)
    rw [h1, h2, h3]
  · intro x
    have h2 := hb.tos x
    simp [isTo] at h2
    rw [h2, ← hq x]
    exact h.to x
  · intro o' s' d' hm
    rcases hb.mem _ hm with hm | hm
    · exact h.ret _ _ _ (pop_mem hm)
    · simp at hm
  · intro x hx
    have h1 := h.gone x hx
    have h2 := hb.dels x
    have h3 := hd x
    simp at h2
    show dels (push _ t _) x + (if upd st.dead o true x = true then 1 else 0) = if st.rc x = 0 then 1 else 0
    simp only [upd]
    grind
  · intro x hx
    have hx' : st.nO ≤ x := hx
    have h1 := h.fresh x hx
    have h2 := hb.dels x
    have h3 := hd x
    simp at h2
    show st.rc x = 0 ∧ dels (push _ t _) x = 0 ∧ upd st.dead o true x = false
    simp only [upd]
    grind
  · exact h.off
  · exact h.sees

theorem Inv.pushed {new : List Frame} (h : Inv st) (ht : t < st.stacks.length) (hn : ∀ fr ∈ new, (∃ o, fr = .user o) ∨ ∃ o, fr = .members o) : Inv (push st t new) := by
  refine h.of new rfl rfl rfl (Adds.push ht new) ?_ ?_ ?_ (fun _ _ => rfl) ?_ h.off h.sees
  · intro o
    rw [List.countP_eq_zero]
    intro fr hfr
    rcases hn fr hfr with ⟨x, rfl⟩ | ⟨x, rfl⟩ <;> simp
  · intro o
    have : new.countP (· = .release o) = 0 := by
      rw [List.countP_eq_zero]
      intro fr hfr
      rcases hn fr hfr with ⟨x, rfl⟩ | ⟨x, rfl⟩ <;> simp
    rw [this]; rfl
  · intro d
    have : new.countP (isTo d) = 0 := by
      rw [List.countP_eq_zero]
      intro fr hfr
      rcases hn fr hfr with ⟨x, rfl⟩ | ⟨x, rfl⟩ <;> simp [isTo]
    rw [this]; rfl
  · intro o s d hm
    rcases hn _ hm with ⟨x, hx⟩ | ⟨x, hx⟩ <;> simp at hx

/-- what a step that keeps the rules does -/
structure Good (st st' : St) (ev : List Ev) : Prop where
  inv : Inv st'
  len : st'.stacks.length = st.stacks.length
  made : st.nO ≤ st'.nO
  never : ∀ o, .usedAfter o ∉ ev
  once : ∀ o, ev.count (.destroyed o) + (if st.dead o = true then 1 else 0) = if st'.dead o = true then 1 else 0

theorem Good.quiet (h : Inv st') (hl : st'.stacks.length = st.stacks.length) (hn : st.nO ≤ st'.nO) (hd : st'.dead = st.dead) : Good st st' [] :=
  ⟨h, hl, hn, by simp, by intro o; rw [hd]; simp⟩

theorem Good.ofExec {fr : Frame} {rest : List Frame} (h : Inv st) (ht : t < st.stacks.length) (hs : stack st t = fr :: rest)
    (he : exec (pop st t) t fr = some (st', ev)) : Good st st' ev := by
  cases fr with
  | user o => simp [exec] at he
  | retain o s d =>
    simp only [exec, Option.some.injEq, Prod.mk.injEq] at he
    obtain ⟨rfl, rfl⟩ := he
    obtain ⟨h1, h2⟩ := h.retained ht hs
    have h3 : (incr (pop st t) o).2 = [] := by simp [incr, pop, h2]
    rw [h3]
    exact .quiet h1 (by simp [incr, pop, setSlot]) (Nat.le_refl _) rfl
  | release o =>
    simp only [exec, Option.some.injEq, decr, Prod.mk.injEq] at he
    obtain ⟨rfl, rfl⟩ := he
    obtain ⟨h1, h2⟩ := h.released ht hs
    rw [decr] at h1
    have h3 : (if (pop st t).dead o = true then [Ev.usedAfter o] else []) = [] := by simp [pop, h2]
    rw [h3]
    refine .quiet h1 ?_ ?_ ?_
    · split <;> simp [pop, push]
    · split <;> exact Nat.le_refl _
    · split <;> rfl
  | delete o =>
    simp only [exec, Option.some.injEq, Prod.mk.injEq] at he
    obtain ⟨rfl, rfl⟩ := he
    obtain ⟨h1, h2, h3, h4⟩ := h.deleted ht hs
    refine ⟨h1, by simp [pop, push], Nat.le_refl _, by simp, ?_⟩
    intro x
    show _ = if upd st.dead o true x = true then 1 else 0
    simp only [upd]
    by_cases hx : x = o
    · subst hx; simp [h2]
    · have : (Ev.destroyed o == Ev.destroyed x) = false := by simp; omega
      simp [hx, List.count_cons, this]
  | members o =>
    simp only [exec] at he
    have h1 := h.popped ht hs (.inr ⟨o, rfl⟩)
    have htp : t < (pop st t).stacks.length := by simpa [pop] using ht
    split at he
    · rename_i i hi
      split at he
      · rename_i hw
        simp only [Option.some.injEq, Prod.mk.injEq] at he
        obtain ⟨rfl, rfl⟩ := he
        have h2 := h1.pushed htp (new := [.members o]) (by simp)
        have hw2 : mayWrite (push (pop st t) t [.members o]) i = true := by
          have ha := Adds.push htp [.members o]
          obtain ⟨w1, w2, w3⟩ := mayWrite_iff.mp hw
          refine mayWrite_iff.mpr ⟨w1, ?_, ?_⟩
          · rw [Bool.eq_false_iff]
            intro hx
            obtain ⟨a, b, hm⟩ := writing_iff.mp hx
            rcases ha.mem _ hm with hm | hm
            · have := writing_iff.mpr ⟨a, b, hm⟩; rw [w2] at this; cases this
            · simp at hm
          · rw [Bool.eq_false_iff]
            intro hx
            obtain ⟨a, b, hm⟩ := reading_iff.mp hx
            rcases ha.mem _ hm with hm | hm
            · have := reading_iff.mpr ⟨a, b, hm⟩; rw [w3] at this; cases this
            · simp at hm
        have h3 := h2.clear (t := t) (by simpa [push] using htp) hw2 false (.inr rfl)
        refine .quiet h3 ?_ ?_ ?_
        · simp [dropSlot, push, pop, setSlot]
        · exact Nat.le_refl _
        · rfl
      · simp at he
    · simp only [Option.some.injEq, Prod.mk.injEq] at he
      obtain ⟨rfl, rfl⟩ := he
      exact .quiet h1 (by simp [pop]) (Nat.le_refl _) rfl

theorem Good.ofApp {op : Op} (h : Inv st) (ht : t < st.stacks.length) (ho : op ≠ .resurrect) (he : app st t op = some (st', ev)) : Good st st' ev := by
  cases op with
  | tick => simp [app] at he
  | ret => simp [app] at he
  | resurrect => exact absurd rfl ho
  | make =>
    simp only [app, Option.some.injEq, Prod.mk.injEq] at he
    obtain ⟨rfl, rfl⟩ := he
    exact .quiet h.make rfl (Nat.le_succ _) rfl
  | claim o w =>
    simp only [app] at he
    split at he
    · rename_i hx
      simp only [Option.some.injEq, Prod.mk.injEq] at he
      obtain ⟨rfl, rfl⟩ := he
      exact .quiet (h.claim w hx) rfl (Nat.le_refl _) rfl
    · simp at he
  | empty w =>
    simp only [app, Option.some.injEq, Prod.mk.injEq] at he
    obtain ⟨rfl, rfl⟩ := he
    exact .quiet (h.emptyOne w) rfl (Nat.le_refl _) rfl
  | copy src w =>
    simp only [app] at he
    split at he
    · rename_i hx
      simp only [Option.some.injEq, Prod.mk.injEq] at he
      obtain ⟨rfl, rfl⟩ := he
      exact .quiet (h.copy ht hx w) (by simp [push, addSlot]) (Nat.le_refl _) rfl
    · simp at he
  | move src w =>
    simp only [app] at he
    split at he
    · rename_i hx
      simp only [Option.some.injEq, Prod.mk.injEq] at he
      obtain ⟨rfl, rfl⟩ := he
      exact .quiet (h.move hx w) rfl (Nat.le_refl _) rfl
    · simp at he
  | assign dst src =>
    simp only [app] at he
    split at he
    · rename_i hx
      simp only [Option.some.injEq, Prod.mk.injEq] at he
      obtain ⟨rfl, rfl⟩ := he
      refine .quiet (h.assign ht hx.1 hx.2) ?_ ?_ ?_
      · simp only [basicAssign]; split <;> simp [push, setSlot]
      · simp only [basicAssign]; split <;> exact Nat.le_refl _
      · simp only [basicAssign]; split <;> rfl
    · simp at he
  | moveAssign dst src =>
    simp only [app] at he
    split at he
    · rename_i hx
      simp only [Option.some.injEq, Prod.mk.injEq] at he
      obtain ⟨rfl, rfl⟩ := he
      exact .quiet (h.moveAssign ht hx.1 hx.2) (by simp [push, setSlot]) (Nat.le_refl _) rfl
    · simp at he
  | swap a b =>
    simp only [app] at he
    split at he
    · rename_i hx
      simp only [Option.some.injEq, Prod.mk.injEq] at he
      obtain ⟨rfl, rfl⟩ := he
      exact .quiet (h.swap hx.1 hx.2) rfl (Nat.le_refl _) rfl
    · simp at he
  | reset dst =>
    simp only [app] at he
    split at he
    · rename_i hx
      simp only [Option.some.injEq, Prod.mk.injEq] at he
      obtain ⟨rfl, rfl⟩ := he
      refine .quiet (h.reset ht hx) ?_ ?_ ?_
      · simp only [basicAssign]; split <;> simp [push, setSlot]
      · simp only [basicAssign]; split <;> exact Nat.le_refl _
      · simp only [basicAssign]; split <;> rfl
    · simp at he
  | drop i =>
    simp only [app] at he
    split at he
    · rename_i hx
      simp only [Option.some.injEq, Prod.mk.injEq] at he
      obtain ⟨rfl, rfl⟩ := he
      exact .quiet (h.clear ht hx false (.inr rfl)) (by simp [dropSlot, push, setSlot]) (Nat.le_refl _) rfl
    · simp at he
  | retain src =>
    simp only [app] at he
    split at he
    · rename_i hx
      split at he
      · rename_i o hp
        simp only [Option.some.injEq, Prod.mk.injEq] at he
        obtain ⟨rfl, rfl⟩ := he
        have h1 := h.there hp
        have h2 := (h.live (o := o) (by omega)).2.2.1
        have h3 : (incr st o).2 = [] := by simp [incr, h2]
        rw [h3]
        exact .quiet (h.keep h1) rfl (Nat.le_refl _) rfl
      · simp only [Option.some.injEq, Prod.mk.injEq] at he
        obtain ⟨rfl, rfl⟩ := he
        exact .quiet h rfl (Nat.le_refl _) rfl
    · simp at he
  | release o =>
    simp only [app] at he
    split at he
    · rename_i hx
      simp only [Option.some.injEq, Prod.mk.injEq] at he
      obtain ⟨rfl, rfl⟩ := he
      exact .quiet (h.letGo ht hx) (by simp [push]) (Nat.le_refl _) rfl
    · simp at he

theorem Good.ofStep {op : Op} (h : Inv st) (ho : op ≠ .resurrect) (he : step st t op = some (st', ev)) : Good st st' ev := by
  simp only [step] at he
  split at he
  · rename_i ht
    split at he
    · split at he
      · simp at he
      · rename_i fr rest hs
        exact .ofExec h ht hs he
    · split at he
      · rename_i o rest hs
        simp only [Option.some.injEq, Prod.mk.injEq] at he
        obtain ⟨rfl, rfl⟩ := he
        exact .quiet (h.popped ht hs (.inl ⟨o, rfl⟩)) (by simp [pop]) (Nat.le_refl _) rfl
      · simp at he
    · split at he
      · exact .ofApp h ht ho he
      · simp at he
  · simp at he

theorem Inv.init (n : Nat) : Inv (init n) := by
  have hf : frames (Refs.init n) = [] := by simp [frames, Refs.init]
  have hs : ∀ i, slot (Refs.init n) i = ⟨false, none, none, true⟩ := fun i => slot_of_ge (by simp [Refs.init])
  constructor
  · intro o; simp [held, rels, hf]; simp [Refs.init]
  · intro d; simp [tos, hf, hs]
  · intro o s d hm; rw [hf] at hm; simp at hm
  · intro o ho; simp [Refs.init] at ho
  · intro o _; simp [dels, hf]; simp [Refs.init]
  · intro i _; simp [hs]
  · intro i o hi; simp [hs] at hi

/-- histories without `resurrect` -/
theorem Run.good {n : Nat} {ops : List (Nat × Op)} {evs : List Ev} (h : Run (Refs.init n) ops st evs) (ho : ∀ p ∈ ops, p.2 ≠ .resurrect) : Good (Refs.init n) st evs := by
  induction h with
  | nil => exact .quiet (.init n) rfl (Nat.le_refl _) rfl
  | @step ops st1 st2 evs1 ev t op hr hs ih =>
    have i1 := ih (fun p hp => ho p (by simp [hp]))
    have i2 := Good.ofStep i1.inv (ho (t, op) (by simp)) hs
    refine ⟨i2.inv, i2.len.trans i1.len, Nat.le_trans i1.made i2.made, ?_, ?_⟩
    · intro o hm
      rcases List.mem_append.mp hm with hm | hm
      · exact i1.never o hm
      · exact i2.never o hm
    · intro o
      have h1 := i1.once o
      have h2 := i2.once o
      rw [List.count_append]
      omega
end
end Refs
end Rtmfp
