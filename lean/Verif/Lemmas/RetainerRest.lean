import Verif.Lemmas.RetainerStep
/-! # Reference counts: threads left to run on come to rest -/
namespace Rtmfp
namespace Refs
section
variable {st st' : St} {t : Nat} {ev : List Ev}

/-- how much a frame may still lead to -/
def weight : Frame → Nat
  | .user _ => 1
  | .members _ => 1
  | .retain _ _ _ => 1
  | .delete _ => 3
  | .release _ => 4

def weigh (l : List Frame) : Nat := (l.map weight).sum
def living (st : St) : Nat := st.slots.countP (·.alive)
/-- bounds what can still happen without the application -/
def left (st : St) : Nat := weigh st.stacks.flatten + 5 * living st

theorem weigh_set (L : List (List Frame)) (t : Nat) (l : List Frame) (h : t < L.length) :
    weigh (L.set t l).flatten + weigh (L.getD t []) = weigh L.flatten + weigh l := by
  induction L generalizing t with
  | nil => simp at h
  | cons a L ih =>
    cases t with
    | zero => simp [weigh]; omega
    | succ t =>
      have := ih t (by simpa using h)
      simp [weigh] at this ⊢
      omega

theorem weigh_push (ht : t < st.stacks.length) (new : List Frame) : weigh (push st t new).stacks.flatten = weigh st.stacks.flatten + weigh new := by
  have := weigh_set st.stacks t (new ++ stack st t) ht
  simp only [push, stack, weigh, List.map_append, List.sum_append] at this ⊢
  omega

theorem weigh_pop {fr : Frame} {rest : List Frame} (ht : t < st.stacks.length) (h : stack st t = fr :: rest) :
    weigh (pop st t).stacks.flatten + weight fr = weigh st.stacks.flatten := by
  have h1 := weigh_set st.stacks t rest ht
  have h2 : st.stacks.getD t [] = fr :: rest := h
  rw [h2] at h1
  simp only [pop, h, List.tail_cons]
  have : weigh (fr :: rest) = weight fr + weigh rest := by simp [weigh]
  omega

theorem living_set {i : Nat} (g : Slot → Slot) (h : i < st.slots.length) :
    living (setSlot st i g) + (if (slot st i).alive = true then 1 else 0) = living st + (if (g (slot st i)).alive = true then 1 else 0) := by
  have e : ∀ (l : List Slot) (i : Nat) (x d : Slot), i < l.length →
      (l.set i x).countP (·.alive) + (if (l.getD i d).alive = true then 1 else 0) = l.countP (·.alive) + (if x.alive = true then 1 else 0) := by
    intro l
    induction l with
    | nil => intro i x d h; simp at h
    | cons a l ih =>
      intro i x d h
      cases i with
      | zero => simp [List.countP_cons]; omega
      | succ i =>
        have := ih i x d (by simpa using h)
        simp [List.countP_cons] at this ⊢
        omega
  exact e st.slots i _ _ h

theorem memberOf_some {o i : Nat} (h : memberOf st o = some i) : i < st.slots.length ∧ (slot st i).alive = true := by
  have h1 := List.find?_some h
  have h2 := List.mem_of_find?_eq_some h
  simp at h1 h2
  exact ⟨h2, h1.1⟩

theorem exec_left {fr : Frame} {rest : List Frame} (ht : t < st.stacks.length) (hs : stack st t = fr :: rest)
    (he : exec (pop st t) t fr = some (st', ev)) : left st' < left st := by
  have hw := weigh_pop ht hs
  have htp : t < (pop st t).stacks.length := by simpa [pop] using ht
  have hl : living (pop st t) = living st := rfl
  cases fr with
  | user o => simp [exec] at he
  | retain o s d =>
    simp only [exec, Option.some.injEq, Prod.mk.injEq] at he
    obtain ⟨rfl, -⟩ := he
    have : living (setSlot (incr (pop st t) o).1 d (fun s => { s with counted := true })) = living st := by
      by_cases hd : d < st.slots.length
      · have h1 := living_set (st := (incr (pop st t) o).1) (i := d) (fun s => { s with counted := true }) hd
        have h2 : living (incr (pop st t) o).1 = living st := rfl
        simp only [] at h1
        omega
      · simp only [living, setSlot]
        rw [List.set_eq_of_length_le (by simpa [incr, pop] using hd)]
        rfl
    simp only [left, this]
    have h3 : (setSlot (incr (pop st t) o).1 d (fun s => { s with counted := true })).stacks = (pop st t).stacks := rfl
    rw [h3]
    simp [weight] at hw
    omega
  | release o =>
    simp only [exec, Option.some.injEq, decr, Prod.mk.injEq] at he
    obtain ⟨rfl, -⟩ := he
    simp [weight] at hw
    split
    · simp only [left]
      rw [weigh_push (by exact htp)]
      have h3 : living (push { pop st t with rc := upd (pop st t).rc o ((pop st t).rc o - 1) } t [.delete o]) = living st := rfl
      rw [h3]
      simp [weigh, weight] at hw ⊢
      omega
    · simp only [left]
      have h3 : living { pop st t with rc := upd (pop st t).rc o ((pop st t).rc o - 1) } = living st := rfl
      rw [h3]
      simp [weigh, weight] at hw ⊢
      omega
  | delete o =>
    simp only [exec, Option.some.injEq, Prod.mk.injEq] at he
    obtain ⟨rfl, -⟩ := he
    simp only [left]
    rw [weigh_push (by exact htp)]
    have h3 : living (push { pop st t with dead := upd (pop st t).dead o true } t [.user o, .members o]) = living st := rfl
    rw [h3]
    simp [weigh, weight] at hw ⊢
    omega
  | members o =>
    simp only [exec] at he
    split at he
    · rename_i i hi
      split at he
      · simp only [Option.some.injEq, Prod.mk.injEq] at he
        obtain ⟨rfl, -⟩ := he
        obtain ⟨h1, h2⟩ := memberOf_some hi
        have h4 := living_set (st := push (pop st t) t [.members o]) (i := i) (fun s => { s with alive := false, ptr := none }) h1
        have h5 : slot (push (pop st t) t [.members o]) i = slot (pop st t) i := rfl
        have h6 : living (push (pop st t) t [.members o]) = living st := rfl
        rw [h5, h2, h6] at h4
        simp only [left, dropSlot]
        rw [weigh_push (by simpa [setSlot, push] using htp)]
        have h7 : (setSlot (push (pop st t) t [.members o]) i (fun s => { s with alive := false, ptr := none })).stacks = (push (pop st t) t [.members o]).stacks := rfl
        rw [h7, weigh_push htp]
        have h8 : ∀ p, weigh (releases p) ≤ 4 := by intro p; cases p <;> simp [weigh, releases, weight]
        have h9 := h8 (slot (push (pop st t) t [.members o]) i).ptr
        have h10 : ∀ x y, living (push x t y) = living x := fun _ _ => rfl
        rw [h10]
        simp at h4
        simp [weigh, weight] at hw h9 ⊢
        omega
      · simp at he
    · simp only [Option.some.injEq, Prod.mk.injEq] at he
      obtain ⟨rfl, -⟩ := he
      simp only [left]
      simp [weigh, weight] at hw ⊢
      omega

/-- steps of the library, and returns of destructors -/
def runsOn (op : Op) : Prop := op = .tick ∨ op = .ret

theorem step_left {op : Op} (ho : runsOn op) (he : step st t op = some (st', ev)) : left st' < left st := by
  simp only [step] at he
  split at he
  · rename_i ht
    rcases ho with rfl | rfl
    · simp only [] at he
      split at he
      · simp at he
      · rename_i fr rest hs
        exact exec_left ht hs he
    · simp only [] at he
      split at he
      · rename_i o rest hs
        simp only [Option.some.injEq, Prod.mk.injEq] at he
        obtain ⟨rfl, -⟩ := he
        have := weigh_pop ht hs
        simp only [left]
        have h3 : living (pop st t) = living st := rfl
        rw [h3]
        simp [weight] at this
        omega
      · simp at he
  · simp at he

theorem run_left {st0 : St} {ops : List (Nat × Op)} {evs : List Ev} (h : Run st0 ops st evs) (ho : ∀ p ∈ ops, runsOn p.2) : ops.length + left st ≤ left st0 := by
  induction h with
  | nil => simp
  | @step ops st1 st2 evs1 ev1 t op hr hs ih =>
    have h1 := ih (fun p hp => ho p (by simp [hp]))
    have h2 := step_left (ho (t, op) (by simp)) hs
    simp
    omega

/-- `retain` frames are on top -/
def isRetain : Frame → Bool
  | .retain _ _ _ => true
  | _ => false

def Tops (st : St) : Prop := ∀ l ∈ st.stacks, ∀ fr ∈ l.tail, isRetain fr = false

theorem Tops.at (h : Tops st) (t : Nat) : ∀ fr ∈ (stack st t).tail, isRetain fr = false := by
  intro fr hf
  simp only [stack, List.getD_eq_getElem?_getD] at hf
  cases e : st.stacks[t]? with
  | none => simp [e] at hf
  | some l => simp [e] at hf; exact h l (List.mem_of_getElem? e) fr hf

theorem Tops.set {l : List Frame} (h : Tops st) (e : st'.stacks = st.stacks.set t l) (hl : ∀ fr ∈ l.tail, isRetain fr = false) : Tops st' := by
  intro m hm
  rw [e] at hm
  rcases List.mem_or_eq_of_mem_set hm with h1 | h1
  · exact h m h1
  · subst h1; exact hl

theorem Tops.app {op : Op} (h : Tops st) (ha : appTurn st t = true) (he : app st t op = some (st', ev)) : Tops st' := by
  have hn : ∀ fr ∈ stack st t, isRetain fr = false := by
    have h1 := h.at t
    simp only [appTurn] at ha
    split at ha <;> rename_i hs
    · simp [hs]
    · rw [hs] at h1 ⊢
      intro fr hf
      rcases List.mem_cons.mp hf with rfl | hf
      · rfl
      · exact h1 fr hf
    · simp at ha
  have key : ∀ (p : Option Nat) (s : Option Nat) (d : Nat) (q : Option Nat), ∀ fr ∈ (retains p s d ++ releases q ++ stack st t).tail, isRetain fr = false := by
    intro p s d q fr hf
    cases p <;> cases q <;> simp [retains, releases] at hf
    · exact hn fr (List.mem_of_mem_tail hf)
    · exact hn fr hf
    · exact hn fr hf
    · rcases hf with rfl | hf
      · rfl
      · exact hn fr hf
  have key2 : ∀ (q : Option Nat), ∀ fr ∈ (releases q ++ stack st t).tail, isRetain fr = false := by
    intro q fr hf; exact key none none 0 q fr (by simpa [retains] using hf)
  have key3 : ∀ (p : Option Nat) (s : Option Nat) (d : Nat), ∀ fr ∈ (retains p s d ++ stack st t).tail, isRetain fr = false := by
    intro p s d fr hf; exact key p s d none fr (by simpa [releases] using hf)
  have assign : ∀ p s d, Tops (basicAssign st t p s d) := by
    intro p s d
    simp only [basicAssign]
    split
    · exact h
    · exact h.set (t := t) rfl (key _ _ _ _)
  cases op <;> simp only [Refs.app] at he
  all_goals try (simp at he; done)
  all_goals repeat' split at he
  all_goals try (simp at he; done)
  all_goals simp only [Option.some.injEq, Prod.mk.injEq] at he
  all_goals obtain ⟨rfl, -⟩ := he
  all_goals first
    | exact h
    | exact assign _ _ _
    | exact h.set (t := t) rfl (key3 _ _ _)
    | exact h.set (t := t) rfl (key2 _)
    | exact h.set (t := t) rfl (key2 (some _))
    | exact h.set (t := t) rfl (key3 (some _) _ _)

theorem Tops.step {op : Op} (h : Tops st) (he : step st t op = some (st', ev)) : Tops st' := by
  simp only [Refs.step] at he
  split at he
  · rename_i ht
    have hp : Tops (pop st t) := by
      refine h.set (t := t) rfl ?_
      intro fr hf
      exact h.at t fr (List.mem_of_mem_tail hf)
    have hsp : ∀ fr ∈ stack (pop st t) t, isRetain fr = false := by
      intro fr hf
      have : stack (pop st t) t = (stack st t).tail := by
        simp [stack, pop, List.getD_eq_getElem?_getD, ht]
      rw [this] at hf
      exact h.at t fr hf
    split at he
    · split at he
      · simp at he
      · rename_i fr rest hs
        cases fr <;> simp only [exec] at he
        · simp at he
        · simp only [Option.some.injEq, Prod.mk.injEq] at he
          obtain ⟨rfl, -⟩ := he
          exact hp
        · simp only [Option.some.injEq, decr, Prod.mk.injEq] at he
          obtain ⟨rfl, -⟩ := he
          split
          · exact hp.set (t := t) rfl hsp
          · exact hp
        · simp only [Option.some.injEq, Prod.mk.injEq] at he
          obtain ⟨rfl, -⟩ := he
          refine hp.set (t := t) rfl ?_
          intro fr hf
          simp at hf
          rcases hf with rfl | hf
          · rfl
          · exact hsp fr hf
        · split at he
          · split at he
            · simp only [Option.some.injEq, Prod.mk.injEq] at he
              obtain ⟨rfl, -⟩ := he
              rename_i o _ i hi _
              have h1 : Tops (push (pop st t) t [.members o]) := hp.set (t := t) rfl (by simpa using hsp)
              have h2 : ∀ fr ∈ stack (push (pop st t) t [.members o]) t, isRetain fr = false := by
                intro fr hf
                have : stack (push (pop st t) t [.members o]) t = .members o :: stack (pop st t) t := by
                  simp [stack, push, pop, List.getD_eq_getElem?_getD, ht]
                rw [this] at hf
                rcases List.mem_cons.mp hf with rfl | hf
                · rfl
                · exact hsp fr hf
              refine h1.set (t := t) (l := releases (slot (push (pop st t) t [.members o]) i).ptr ++ stack (push (pop st t) t [.members o]) t) rfl ?_
              intro fr hf
              cases e : (slot (push (pop st t) t [.members o]) i).ptr with
              | none => rw [e] at hf; simp [releases] at hf; exact h2 fr (List.mem_of_mem_tail hf)
              | some x => rw [e] at hf; simp [releases] at hf; exact h2 fr hf
            · simp at he
          · simp only [Option.some.injEq, Prod.mk.injEq] at he
            obtain ⟨rfl, -⟩ := he
            exact hp
    · split at he
      · simp only [Option.some.injEq, Prod.mk.injEq] at he
        obtain ⟨rfl, -⟩ := he
        exact hp
      · simp at he
    · split at he
      · rename_i ha
        exact h.app ha he
      · simp at he
  · simp at he

theorem Run.tops {n : Nat} {ops : List (Nat × Op)} {evs : List Ev} (h : Run (Refs.init n) ops st evs) : Tops st := by
  induction h with
  | nil => intro l hl; simp [Refs.init] at hl; simp [hl.2]
  | step _ hs ih => exact ih.step hs

/-- while there's something left, some thread can run on -/
theorem Tops.goes (h : Tops st) {l : List Frame} (hl : l ∈ st.stacks) (hne : l ≠ []) : ∃ t op r, runsOn op ∧ Refs.step st t op = some r := by
  -- a thread with a `retain` on top goes first
  have top : ∀ t fr rest, t < st.stacks.length → stack st t = fr :: rest → (∀ o, fr ≠ .members o) → ∃ t op r, runsOn op ∧ Refs.step st t op = some r := by
    intro t fr rest ht hs hm
    cases fr with
    | user o => exact ⟨t, .ret, _, .inr rfl, by simp only [Refs.step, if_pos ht, hs]; rfl⟩
    | members o => exact absurd rfl (hm o)
    | retain o s d => exact ⟨t, .tick, _, .inl rfl, by simp only [Refs.step, if_pos ht, hs, exec]; rfl⟩
    | release o => exact ⟨t, .tick, _, .inl rfl, by simp only [Refs.step, if_pos ht, hs, exec]; rfl⟩
    | delete o => exact ⟨t, .tick, _, .inl rfl, by simp only [Refs.step, if_pos ht, hs, exec]; rfl⟩
  have held : ∀ o s d, .retain o s d ∈ frames st → ∃ t op r, runsOn op ∧ Refs.step st t op = some r := by
    intro o s d hm
    obtain ⟨m, hm, hx⟩ := List.mem_flatten.mp hm
    obtain ⟨i, hi, rfl⟩ := List.mem_iff_getElem.mp hm
    have e : stack st i = st.stacks[i] := by simp [stack, List.getD_eq_getElem?_getD, hi]
    cases hs : st.stacks[i] with
    | nil => rw [hs] at hx; simp at hx
    | cons fr rest =>
      have h1 := h.at i
      rw [e, hs] at h1
      rw [hs] at hx
      rcases List.mem_cons.mp hx with rfl | hx
      · exact top i _ rest hi (by rw [e, hs]) (by simp)
      · have := h1 _ hx; simp [isRetain] at this
  obtain ⟨i, hi, rfl⟩ := List.mem_iff_getElem.mp hl
  have e : stack st i = st.stacks[i] := by simp [stack, List.getD_eq_getElem?_getD, hi]
  cases hs : st.stacks[i] with
  | nil => exact absurd hs hne
  | cons fr rest =>
    rw [hs] at e
    by_cases hm : ∃ o, fr = .members o
    · obtain ⟨o, rfl⟩ := hm
      cases hq : memberOf (pop st i) o with
      | none => exact ⟨i, .tick, _, .inl rfl, by simp only [Refs.step, if_pos hi, e, exec, hq]; rfl⟩
      | some j =>
        cases hw : mayWrite (pop st i) j with
        | true => exact ⟨i, .tick, _, .inl rfl, by simp only [Refs.step, if_pos hi, e, exec, hq, hw]; rfl⟩
        | false =>
          obtain ⟨-, ha⟩ := memberOf_some hq
          simp only [mayWrite, ha, Bool.true_and] at hw
          by_cases h1 : writing (pop st i) j = true
          · obtain ⟨a, b, hm⟩ := writing_iff.mp h1
            exact held _ _ _ (pop_mem hm)
          · by_cases h2 : reading (pop st i) j = true
            · obtain ⟨a, b, hm⟩ := reading_iff.mp h2
              exact held _ _ _ (pop_mem hm)
            · simp [h1, h2] at hw
    · exact top i fr rest hi e (by intro o ho; exact hm ⟨o, ho⟩)

theorem Run.trans {st0 st1 : St} {ops ops2 : List (Nat × Op)} {evs evs2 : List Ev} (h : Run st0 ops st1 evs) (h2 : Run st1 ops2 st evs2) : Run st0 (ops ++ ops2) st (evs ++ evs2) := by
  induction h2 with
  | nil => simpa using h
  | step _ hs ih => rw [← List.append_assoc, ← List.append_assoc]; exact .step ih hs

/-- and comes to rest -/
theorem Tops.rests (h : Tops st) : ∃ ops st' evs, (∀ p ∈ ops, runsOn p.2) ∧ Run st ops st' evs ∧ ∀ l ∈ st'.stacks, l = [] := by
  generalize hk : left st = k
  induction k using Nat.strongRecOn generalizing st with
  | _ k ih =>
    by_cases hq : ∀ l ∈ st.stacks, l = []
    · exact ⟨[], st, [], by simp, .nil, hq⟩
    · simp only [Classical.not_forall] at hq
      obtain ⟨l, hl, hne⟩ := hq
      obtain ⟨t, op, ⟨st1, ev1⟩, ho, hs⟩ := h.goes hl hne
      have h1 := step_left ho hs
      obtain ⟨ops, st', evs, h2, h3, h4⟩ := ih (left st1) (by omega) (h.step hs) rfl
      refine ⟨(t, op) :: ops, st', [] ++ ev1 ++ evs, ?_, ?_, h4⟩
      · intro p hp
        rcases List.mem_cons.mp hp with rfl | hp
        · exact ho
        · exact h2 p hp
      · exact (Run.step Run.nil hs).trans h3

/-! members go with their object -/

/-- no retainer changes its owner or comes back -/
def Keep (st st' : St) : Prop := ∀ i, i < st.slots.length → i < st'.slots.length ∧ (slot st' i).owner = (slot st i).owner ∧ ((slot st' i).alive = true → (slot st i).alive = true)

theorem Keep.refl (e : st'.slots = st.slots) : Keep st st' := by
  intro i hi
  have h : slot st' i = slot st i := by simp only [slot, e]
  exact ⟨by rw [e]; exact hi, by rw [h], by rw [h]; exact id⟩
theorem Keep.trans {st1 : St} (h : Keep st st1) (h2 : Keep st1 st') : Keep st st' := by
  intro i hi
  obtain ⟨a, b, c⟩ := h i hi
  obtain ⟨a', b', c'⟩ := h2 i a
  exact ⟨a', b'.trans b, fun x => c (c' x)⟩
theorem Keep.add (x : Slot) : Keep st (addSlot st x) := by
  intro i hi
  rw [slot_add, if_neg (by omega)]
  exact ⟨by simp [addSlot]; omega, rfl, id⟩
theorem Keep.set (j : Nat) (g : Slot → Slot) (h1 : ∀ x, (g x).owner = x.owner) (h2 : ∀ x, (g x).alive = true → x.alive = true) : Keep st (setSlot st j g) := by
  intro i hi
  refine ⟨by simpa [setSlot] using hi, ?_⟩
  by_cases hj : j < st.slots.length
  · rw [slot_set g hj]
    split
    · subst_vars; exact ⟨h1 _, h2 _⟩
    · exact ⟨rfl, id⟩
  · simp only [slot, setSlot]
    rw [List.set_eq_of_length_le (by omega)]
    exact ⟨rfl, id⟩
theorem Keep.push (l : List Frame) : Keep st (push st t l) := .refl rfl

theorem Keep.app {op : Op} (he : app st t op = some (st', ev)) : Keep st st' := by
  have hs : ∀ (x : St) j p (c : Bool), Keep x (setSlot x j (fun s => { s with ptr := p, counted := c })) := fun x j p c => .set j _ (fun _ => rfl) (fun _ => id)
  have hs2 : ∀ (x : St) j p, Keep x (setSlot x j (fun s => { s with ptr := p })) := fun x j p => .set j _ (fun _ => rfl) (fun _ => id)
  cases op <;> simp only [Refs.app] at he
  all_goals try (simp at he; done)
  all_goals repeat' split at he
  all_goals try (simp at he; done)
  all_goals simp only [Option.some.injEq, Prod.mk.injEq] at he
  all_goals obtain ⟨rfl, -⟩ := he
  all_goals first
    | exact .refl rfl
    | exact .add _
    | exact (Keep.add _).trans (.push _)
    | exact (hs2 _ _ _).trans (.add _)
    | exact ((hs2 _ _ _).trans (hs2 _ _ _)).trans (.push _)
    | exact (hs2 _ _ _).trans (hs2 _ _ _)
    | (simp only [basicAssign]; split <;> first | exact .refl rfl | exact (hs _ _ _ _).trans (.push _))
    | (simp only [dropSlot]; exact (Keep.set _ (fun s => { s with alive := false, ptr := none }) (fun _ => rfl) (by intro x hx; simp at hx)).trans (.push _))
    | exact (Keep.refl (st := st) (st' := { st with raw := _ }) rfl).trans (.add _)

theorem push_mem {fr : Frame} {l : List Frame} (ht : t < st.stacks.length) (h : fr ∈ frames st ∨ fr ∈ l) : fr ∈ frames (push st t l) := by
  have := (Adds.push ht l).count (fun x => decide (x = fr))
  have h2 : 0 < (frames st).countP (fun x => decide (x = fr)) + l.countP (fun x => decide (x = fr)) := by
    rcases h with h | h
    · have := List.countP_pos_iff (p := fun x => decide (x = fr)).mpr ⟨fr, h, by simp⟩; omega
    · have := List.countP_pos_iff (p := fun x => decide (x = fr)).mpr ⟨fr, h, by simp⟩; omega
  rw [← this, List.countP_pos_iff] at h2
  obtain ⟨x, hx, e⟩ := h2
  simp at e
  subst e
  exact hx

theorem pop_mem' {fr fr0 : Frame} {rest : List Frame} (ht : t < st.stacks.length) (hs : stack st t = fr0 :: rest) (h : fr ∈ frames st) : fr ∈ frames (pop st t) ∨ fr = fr0 := by
  rcases (Adds.pop ht hs).mem fr h with h | h
  · exact .inl h
  · exact .inr (by simpa using h)

/-- o's members are being destroyed, or there are none -/
def Going (st : St) (o : Nat) : Prop := .members o ∈ frames st ∨ ∀ j, (slot st j).alive = true → (slot st j).owner ≠ some o

/-- a step of the library, or an application's on retainers that aren't o's members -/
theorem members_app {op : Op} {o : Nat} (ht : t < st.stacks.length) (he : app st t op = some (st', ev)) (h : .members o ∈ frames st) : .members o ∈ frames st' := by
  have key : ∀ (x : St) l, x.stacks = st.stacks → .members o ∈ frames (push x t l) := by
    intro x l e
    exact push_mem (by rw [e]; exact ht) (.inl (by rw [frames, e]; exact h))
  cases op <;> simp only [Refs.app] at he
  all_goals try (simp at he; done)
  all_goals repeat' split at he
  all_goals try (simp at he; done)
  all_goals simp only [Option.some.injEq, Prod.mk.injEq] at he
  all_goals obtain ⟨rfl, -⟩ := he
  all_goals first
    | exact h
    | exact key _ _ rfl
    | (simp only [basicAssign]; split <;> first | exact h | exact key _ _ rfl)

theorem members_exec {fr : Frame} {rest : List Frame} {o : Nat} (ht : t < st.stacks.length) (hs : stack st t = fr :: rest) (he : exec (pop st t) t fr = some (st', ev)) :
    Keep st st' ∧ (.members o ∈ frames st ∨ .destroyed o ∈ ev → Going st' o) := by
  have htp : t < (pop st t).stacks.length := by simpa [pop] using ht
  cases fr with
  | user x => simp [exec] at he
  | retain x s d =>
    simp only [exec, Option.some.injEq, Prod.mk.injEq] at he
    obtain ⟨rfl, rfl⟩ := he
    refine ⟨(Keep.refl (st := st) (st' := (incr (pop st t) x).1) rfl).trans (.set d _ (fun _ => rfl) (fun _ => id)), ?_⟩
    rintro (h | h)
    · rcases pop_mem' ht hs h with h | h
      · exact .inl h
      · simp at h
    · simp [incr] at h
  | release x =>
    simp only [exec, Option.some.injEq, decr, Prod.mk.injEq] at he
    obtain ⟨rfl, rfl⟩ := he
    refine ⟨by split <;> exact .refl rfl, ?_⟩
    rintro (h | h)
    · rcases pop_mem' ht hs h with h | h
      · left
        split
        · exact push_mem (by exact htp) (.inl h)
        · exact h
      · simp at h
    · simp at h
  | delete x =>
    simp only [exec, Option.some.injEq, Prod.mk.injEq] at he
    obtain ⟨rfl, rfl⟩ := he
    refine ⟨.refl rfl, ?_⟩
    rintro (h | h)
    · rcases pop_mem' ht hs h with h | h
      · exact .inl (push_mem (by exact htp) (.inl h))
      · simp at h
    · simp at h
      subst h
      exact .inl (push_mem (by exact htp) (.inr (by simp)))
  | members x =>
    simp only [exec] at he
    split at he
    · rename_i i hi
      split at he
      · simp only [Option.some.injEq, Prod.mk.injEq] at he
        obtain ⟨rfl, rfl⟩ := he
        refine ⟨(Keep.refl (st := st) (st' := push (pop st t) t [.members x]) rfl).trans ((Keep.set i (fun s => { s with alive := false, ptr := none }) (fun _ => rfl) (by intro x hx; simp at hx)).trans (.push _)), ?_⟩
        rintro (h | h)
        · left
          simp only [dropSlot]
          refine push_mem (by simpa [setSlot, push] using htp) (.inl ?_)
          show .members o ∈ frames (push (pop st t) t [.members x])
          rcases pop_mem' ht hs h with h | h
          · exact push_mem htp (.inl h)
          · exact push_mem htp (.inr (by simp [h]))
        · simp at h
      · simp at he
    · rename_i hi
      simp only [Option.some.injEq, Prod.mk.injEq] at he
      obtain ⟨rfl, rfl⟩ := he
      refine ⟨.refl rfl, ?_⟩
      rintro (h | h)
      · rcases pop_mem' ht hs h with h | h
        · exact .inl h
        · right
          cases h
          intro j ha hw
          have hj := alive_lt ha
          have := List.find?_eq_none.mp hi j (by simpa using hj)
          simp [ha, hw] at this
      · simp at h

theorem members_step {op : Op} {o : Nat} (he : step st t op = some (st', ev)) : Keep st st' ∧ (.members o ∈ frames st ∨ .destroyed o ∈ ev → Going st' o) := by
  simp only [Refs.step] at he
  split at he
  · rename_i ht
    split at he
    · split at he
      · simp at he
      · rename_i fr rest hs
        exact members_exec ht hs he
    · split at he
      · rename_i x rest hs
        simp only [Option.some.injEq, Prod.mk.injEq] at he
        obtain ⟨rfl, rfl⟩ := he
        refine ⟨.refl rfl, ?_⟩
        rintro (h | h)
        · rcases pop_mem' ht hs h with h | h
          · exact .inl h
          · simp at h
        · simp at h
      · simp at he
    · split at he
      · refine ⟨Keep.app he, ?_⟩
        rintro (h | h)
        · exact .inl (members_app ht he h)
        · exfalso
          revert h
          cases op <;> simp only [Refs.app] at he
          all_goals try (simp at he; done)
          all_goals repeat' split at he
          all_goals try (simp at he; done)
          all_goals simp only [Option.some.injEq, Prod.mk.injEq] at he
          all_goals obtain ⟨-, rfl⟩ := he
          all_goals simp [incr]
      · simp at he
  · simp at he

/-- a member of an object that is destroyed afterwards -/
theorem Run.members {st0 : St} {ops : List (Nat × Op)} {evs : List Ev} {i o : Nat} (h : Run st0 ops st evs) (hi : i < st0.slots.length) (hw : (slot st0 i).owner = some o) :
    i < st.slots.length ∧ (slot st i).owner = some o ∧ (.destroyed o ∈ evs → .members o ∈ frames st ∨ (slot st i).alive = false) := by
  induction h with
  | nil => exact ⟨hi, hw, by simp⟩
  | @step ops st1 st2 evs1 ev1 t op hr hs ih =>
    obtain ⟨i1, i2, i3⟩ := ih
    obtain ⟨k, g⟩ := members_step (o := o) hs
    obtain ⟨k1, k2, k3⟩ := k i i1
    refine ⟨k1, k2.trans i2, ?_⟩
    intro hd
    have done : Going st2 o → .members o ∈ frames st2 ∨ (slot st2 i).alive = false := by
      rintro (h | h)
      · exact .inl h
      · cases ha : (slot st2 i).alive with
        | false => exact .inr rfl
        | true => exact absurd (k2.trans i2) (h i ha)
    rcases List.mem_append.mp hd with hd | hd
    · rcases i3 hd with h | h
      · exact done (g (.inl h))
      · right
        cases ha : (slot st2 i).alive with
        | false => rfl
        | true => rw [k3 ha] at h; cases h
    · exact done (g (.inr hd))
end
end Refs
end Rtmfp
