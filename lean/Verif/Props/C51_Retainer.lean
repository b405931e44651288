import Verif.Spec.Retainer
import Verif.Lemmas.RetainerRest
/-! # C51: reference counted objects are destroyed once, when the last reference goes, and not used afterwards -/
namespace Rtmfp
section
open Refs Spec.Refs

private def refRuns : List (Nat × Refs.Op) → Refs.St → List Refs.Ev → Option (Refs.St × List Refs.Ev)
  | [], st, evs => some (st, evs)
  | (t, op) :: ops, st, evs => (Refs.step st t op).bind (fun r => refRuns ops r.1 (evs ++ r.2))

private theorem refRuns_run (st0 : Refs.St) (ops : List (Nat × Refs.Op)) : ∀ (ops0 : List (Nat × Refs.Op)) (st : Refs.St) (evs : List Refs.Ev) st' evs',
    Refs.Run st0 ops0 st evs → refRuns ops st evs = some (st', evs') → Refs.Run st0 (ops0 ++ ops) st' evs' := by
  induction ops with
  | nil =>
    intro ops0 st evs st' evs' h hr
    simp only [refRuns, Option.some.injEq, Prod.mk.injEq] at hr
    obtain ⟨rfl, rfl⟩ := hr
    simpa using h
  | cons op ops ih =>
    intro ops0 st evs st' evs' h hr
    obtain ⟨t, op⟩ := op
    simp only [refRuns, Option.bind_eq_some_iff] at hr
    obtain ⟨⟨st1, evs1⟩, h1, h2⟩ := hr
    have := ih (ops0 ++ [(t, op)]) st1 (evs ++ evs1) st' evs' (Refs.Run.step h h1) h2
    simpa using this

private theorem ref_demo {α : Type} (n : Nat) (v : Refs.St → α) (ops : List (Nat × Refs.Op)) (x : α) (evs : List Refs.Ev)
    (h : (refRuns ops (Refs.init n) []).map (fun r => (v r.1, r.2)) = some (x, evs)) : ∃ st, Refs.Run (Refs.init n) ops st evs ∧ v st = x := by
  cases hr : refRuns ops (Refs.init n) [] with
  | none => rw [hr] at h; simp at h
  | some r =>
    rw [hr] at h
    simp only [Option.map_some, Option.some.injEq, Prod.mk.injEq] at h
    refine ⟨r.1, ?_, h.1⟩
    rw [← h.2]
    simpa using refRuns_run (Refs.init n) ops [] (Refs.init n) [] r.1 r.2 Refs.Run.nil hr

/-- Thread 0 makes objects 0 and 1 and has retainers 0 and 1 for them; object 0 has a member, retainer 2, for object 1. Thread 1 copies retainer 1 (retainer 3) and
is interrupted before it has counted. Retainer 1 is assigned retainer 0; thread 1 goes on. Retainers 0 and 1 are emptied: object 0 goes, whose destructor's body drops
retainer 3, and then its member goes, and object 1 with it. -/
private def refDemo : List (Nat × Refs.Op) :=
  [(0, .make), (0, .claim 0 none), (0, .make), (0, .claim 1 none), (0, .copy 1 (some 0)), (0, .tick), (1, .copy 1 none), (1, .tick), (0, .assign 1 0), (0, .tick),
   (0, .tick), (0, .reset 0), (0, .tick), (0, .drop 1), (0, .tick), (0, .tick), (0, .drop 3), (0, .tick), (0, .ret), (0, .tick), (0, .tick), (0, .tick), (0, .ret), (0, .tick),
   (0, .tick)]

set_option synthInstance.maxSize 1000 in
private theorem ref_demo_run : ∃ st, Refs.Run (Refs.init 2) refDemo st [.destroyed 0, .destroyed 1] ∧ (st.stacks, st.slots.map (·.ptr), st.nO, st.raw 0, st.raw 1) =
    ([[], []], [none, none, none, none], 2, 0, 0) := ref_demo 2 (fun st => (st.stacks, st.slots.map (·.ptr), st.nO, st.raw 0, st.raw 1)) refDemo _ _ (by decide +kernel)

private theorem refDemo_noSelf : NoSelf refDemo := by unfold NoSelf; decide

private theorem dead_iff {n : Nat} {ops : List (Nat × Refs.Op)} {st : Refs.St} {evs : List Refs.Ev} (h : Refs.Run (Refs.init n) ops st evs) (hn : NoSelf ops) (o : Nat) :
    .destroyed o ∈ evs ↔ st.dead o = true := by
  have h1 := (h.good hn).once o
  have h2 : (Refs.init n).dead o = false := rfl
  rw [h2] at h1
  simp only [Bool.false_eq_true, if_false, Nat.add_zero] at h1
  rw [← List.count_pos_iff, h1]
  cases st.dead o <;> simp

private theorem referred_iff {st : Refs.St} (h : Refs.Inv st) (o : Nat) : Referred st o ↔ 0 < Refs.held st o + st.raw o := by
  constructor
  · rintro (⟨i, -, hp⟩ | hr)
    · have := h.there hp; omega
    · omega
  · intro hp
    by_cases hr : 0 < st.raw o
    · exact .inr hr
    · have h1 : 0 < Refs.held st o := by omega
      rw [Refs.held, List.countP_pos_iff] at h1
      obtain ⟨s, hs, h2⟩ := h1
      obtain ⟨i, hi, rfl⟩ := List.mem_iff_getElem.mp hs
      have e := Refs.slot_of_lt hi
      simp only [decide_eq_true_eq] at h2
      rw [← e] at h2
      refine .inl ⟨i, ?_, h2.1⟩
      cases ha : (Refs.slot st i).alive with
      | true => rfl
      | false => rw [h.off i ha] at h2; simp at h2

/-- **Destroyed at most once.** However many threads make, copy, move, assign, swap, empty and drop retainers, and whatever destructors do with retainers (short of
making one for the object they destroy), no object is destroyed twice. -/
theorem C51_once (n : Nat) (ops : List (Nat × Refs.Op)) (st : Refs.St) (evs : List Refs.Ev) (h : Refs.Run (Refs.init n) ops st evs) (hn : NoSelf ops) (o : Nat) :
    evs.count (.destroyed o) ≤ 1 := by
  have h1 := (h.good hn).once o
  have h2 : (if st.dead o = true then 1 else 0) ≤ 1 := by split <;> omega
  omega

example : ∃ st, Refs.Run (Refs.init 2) refDemo st [.destroyed 0, .destroyed 1] ∧ ([Refs.Ev.destroyed 0, .destroyed 1].count (.destroyed 1)) ≤ 1 := by
  obtain ⟨st, h, -⟩ := ref_demo_run
  exact ⟨st, h, C51_once _ _ _ _ h refDemo_noSelf 1⟩

/-- **Not used afterwards.** No function of an object is called by the library once its destructor has been called, and what a retainer points to, or somebody has a reference to,
has never been destroyed. -/
theorem C51_not_used (n : Nat) (ops : List (Nat × Refs.Op)) (st : Refs.St) (evs : List Refs.Ev) (h : Refs.Run (Refs.init n) ops st evs) (hn : NoSelf ops) (o : Nat) :
    .usedAfter o ∉ evs ∧ (Referred st o → .destroyed o ∉ evs ∧ o < st.nO) := by
  have hg := h.good hn
  refine ⟨hg.never o, ?_⟩
  intro hr
  have h1 := (referred_iff hg.inv o).mp hr
  obtain ⟨h2, -, h3, -⟩ := hg.inv.live (o := o) (by omega)
  refine ⟨?_, h2⟩
  rw [dead_iff h hn o, h3]
  simp

example : ∃ st, Refs.Run (Refs.init 2) (refDemo.take 16) st [.destroyed 0] ∧ Refs.Ev.destroyed 1 ∉ [Refs.Ev.destroyed 0] := by
  obtain ⟨st, h, hv⟩ := ref_demo 2 (fun st => (Refs.slot st 2).ptr) (refDemo.take 16) (some 1) [.destroyed 0] (by decide +kernel)
  obtain ⟨st2, h2, hv2⟩ := ref_demo 2 (fun st => (Refs.slot st 2)) (refDemo.take 16) ⟨true, some 1, some 0, true⟩ [.destroyed 0] (by decide +kernel)
  exact ⟨st2, h2, ((C51_not_used _ _ _ _ h2 (by unfold NoSelf; decide) 1).2 (.inl ⟨2, by rw [hv2], by rw [pointee, hv2]⟩)).1⟩

/-- **When the last reference goes.** At every moment, an object that was made and to which nobody refers has been destroyed, or some thread is about to release it or destroy it. -/
theorem C51_prompt (n : Nat) (ops : List (Nat × Refs.Op)) (st : Refs.St) (evs : List Refs.Ev) (h : Refs.Run (Refs.init n) ops st evs) (hn : NoSelf ops) (o : Nat) (ho : o < st.nO)
    (hr : ¬ Referred st o) : .destroyed o ∈ evs ∨ ∃ l ∈ st.stacks, .release o ∈ l ∨ .delete o ∈ l := by
  have hg := h.good hn
  rw [referred_iff hg.inv o] at hr
  by_cases h1 : 0 < Refs.rels st o
  · rw [Refs.rels, List.countP_pos_iff] at h1
    obtain ⟨fr, hm, hf⟩ := h1
    simp only [decide_eq_true_eq] at hf
    subst hf
    obtain ⟨l, hl, hx⟩ := List.mem_flatten.mp hm
    exact .inr ⟨l, hl, .inl hx⟩
  · have h2 := hg.inv.cnt o
    have h3 := hg.inv.gone o ho
    rw [if_pos (show st.rc o = 0 by omega)] at h3
    by_cases h4 : 0 < Refs.dels st o
    · rw [Refs.dels, List.countP_pos_iff] at h4
      obtain ⟨fr, hm, hf⟩ := h4
      simp only [decide_eq_true_eq] at hf
      subst hf
      obtain ⟨l, hl, hx⟩ := List.mem_flatten.mp hm
      exact .inr ⟨l, hl, .inr hx⟩
    · refine .inl ((dead_iff h hn o).mpr ?_)
      cases e : st.dead o with
      | true => rfl
      | false => rw [e] at h3; simp at h3; omega

example : ∃ st, Refs.Run (Refs.init 2) (refDemo.take 14) st [] ∧ (Refs.Ev.destroyed 0 ∈ ([] : List Refs.Ev) ∨ ∃ l ∈ st.stacks, .release 0 ∈ l ∨ .delete 0 ∈ l) := by
  obtain ⟨st, h, hv⟩ := ref_demo 2 (fun st => (st.slots, st.raw 0, st.nO)) (refDemo.take 14)
    ([⟨true, none, none, true⟩, ⟨false, none, none, true⟩, ⟨true, some 1, some 0, true⟩, ⟨true, some 1, none, true⟩], 0, 2) [] (by decide +kernel)
  simp only [Prod.mk.injEq] at hv
  refine ⟨st, h, C51_prompt _ _ _ _ h (by unfold NoSelf; decide) 0 (by omega) ?_⟩
  rintro (⟨i, -, hp⟩ | hr)
  · simp only [pointee, Refs.slot, hv.1] at hp
    match i, hp with
    | 0, hp => simp at hp
    | 1, hp => simp at hp
    | 2, hp => simp at hp
    | 3, hp => simp at hp
    | i + 4, hp => simp at hp
  · omega

/-- **Exactly when.** When all threads are at rest, the objects that were made and destroyed are exactly those to which nobody refers. -/
theorem C51_exact (n : Nat) (ops : List (Nat × Refs.Op)) (st : Refs.St) (evs : List Refs.Ev) (h : Refs.Run (Refs.init n) ops st evs) (hn : NoSelf ops) (hq : AtRest st) (o : Nat)
    (ho : o < st.nO) : .destroyed o ∈ evs ↔ ¬ Referred st o := by
  constructor
  · intro hd hr
    exact ((C51_not_used n ops st evs h hn o).2 hr).1 hd
  · intro hr
    rcases C51_prompt n ops st evs h hn o ho hr with h1 | ⟨l, hl, h1⟩
    · exact h1
    · rw [hq l hl] at h1
      simp at h1

example : ∃ st, Refs.Run (Refs.init 2) refDemo st [.destroyed 0, .destroyed 1] ∧ ¬ Referred st 1 := by
  obtain ⟨st, h, hv⟩ := ref_demo_run
  simp only [Prod.mk.injEq] at hv
  exact ⟨st, h, (C51_exact _ _ _ _ h refDemo_noSelf (by intro l hl; rw [hv.1] at hl; simpa using hl) 1 (by omega)).mp (by decide)⟩

/-- **Members go with their object.** A retainer that is a member of an object is gone when the object has been destroyed and all threads are at rest (so that what it
pointed to has been released). -/
theorem C51_members (n : Nat) (ops0 ops : List (Nat × Refs.Op)) (st0 st : Refs.St) (evs0 evs : List Refs.Ev) (_h0 : Refs.Run (Refs.init n) ops0 st0 evs0) (h : Refs.Run st0 ops st evs)
    (hq : AtRest st) (i o : Nat) (hi : i < st0.slots.length) (hw : (Refs.slot st0 i).owner = some o) (hd : .destroyed o ∈ evs) : (Refs.slot st i).alive = false := by
  rcases (h.members hi hw).2.2 hd with h1 | h1
  · obtain ⟨l, hl, hx⟩ := List.mem_flatten.mp h1
    rw [hq l hl] at hx
    simp at hx
  · exact h1

set_option synthInstance.maxSize 1000 in
example : ∃ st0 st, Refs.Run (Refs.init 2) (refDemo.take 10) st0 [] ∧ Refs.Run st0 (refDemo.drop 10) st [.destroyed 0, .destroyed 1] ∧ (Refs.slot st0 2).owner = some 0 ∧
    (Refs.slot st0 2).alive = true ∧ AtRest st ∧ (Refs.slot st 2).alive = false := by
  cases hr : refRuns (refDemo.take 10) (Refs.init 2) [] with
  | none => exact absurd hr (by decide +kernel)
  | some r =>
    have e1 : (refRuns (refDemo.take 10) (Refs.init 2) []).map (fun r => (r.2, r.1.slots.length, Refs.slot r.1 2,
        (refRuns (refDemo.drop 10) r.1 []).map (fun r => (r.2, r.1.stacks)))) = some ([], 4, ⟨true, some 1, some 0, true⟩, some ([.destroyed 0, .destroyed 1], [[], []])) := by decide +kernel
    rw [hr] at e1
    simp only [Option.map_some, Option.some.injEq, Prod.mk.injEq] at e1
    obtain ⟨a, b, c, d⟩ := e1
    cases hr2 : refRuns (refDemo.drop 10) r.1 [] with
    | none => rw [hr2] at d; simp at d
    | some q =>
      rw [hr2] at d
      simp only [Option.map_some, Option.some.injEq, Prod.mk.injEq] at d
      have h1 : Refs.Run (Refs.init 2) (refDemo.take 10) r.1 [] := by
        have := refRuns_run (Refs.init 2) (refDemo.take 10) [] (Refs.init 2) [] r.1 r.2 Refs.Run.nil hr
        rw [a] at this
        simpa using this
      have h2 : Refs.Run r.1 (refDemo.drop 10) q.1 [.destroyed 0, .destroyed 1] := by
        have := refRuns_run r.1 (refDemo.drop 10) [] r.1 [] q.1 q.2 Refs.Run.nil hr2
        rw [d.1] at this
        simpa using this
      have hq : AtRest q.1 := by intro l hl; rw [d.2] at hl; simpa using hl
      refine ⟨r.1, q.1, h1, h2, by rw [c], by rw [c], hq, ?_⟩
      exact C51_members 2 _ _ _ _ _ _ h1 h2 hq 2 0 (by omega) (by rw [c]) (by decide)

/-- **It doesn't take forever.** From any state, threads that only finish what they are doing (the application adding nothing) can take no more than a certain number of
steps, and as long as one of them isn't at rest some thread can go on: all come to rest, the chains of destructions of members included. -/
theorem C51_comes_to_rest (n : Nat) (ops : List (Nat × Refs.Op)) (st : Refs.St) (evs : List Refs.Ev) (h : Refs.Run (Refs.init n) ops st evs) :
    (∃ N, ∀ ops' st' evs', Refs.Run st ops' st' evs' → (∀ p ∈ ops', GoesOn p.2) →
      ops'.length ≤ N ∧ (AtRest st' ∨ ∃ t op r, GoesOn op ∧ Refs.step st' t op = some r)) ∧
    ∃ ops' st' evs', Refs.Run st ops' st' evs' ∧ (∀ p ∈ ops', GoesOn p.2) ∧ AtRest st' := by
  refine ⟨⟨Refs.left st, ?_⟩, ?_⟩
  · intro ops' st' evs' hr ho
    refine ⟨?_, ?_⟩
    · have := Refs.run_left hr ho; omega
    · by_cases hq : AtRest st'
      · exact .inl hq
      · simp only [AtRest, Classical.not_forall] at hq
        obtain ⟨l, hl, hne⟩ := hq
        exact .inr ((h.trans hr).tops.goes hl hne)
  · obtain ⟨ops', st', evs', h1, h2, h3⟩ := h.tops.rests
    exact ⟨ops', st', evs', h2, h1, h3⟩

example : ∃ st, Refs.Run (Refs.init 2) (refDemo.take 14) st [] ∧ st.stacks = [[.release 0], []] ∧ ∃ ops' st' evs', Refs.Run st ops' st' evs' ∧ (∀ p ∈ ops', GoesOn p.2) ∧ AtRest st' := by
  obtain ⟨st, h, hv⟩ := ref_demo 2 (fun st => st.stacks) (refDemo.take 14) [[.release 0], []] [] (by decide +kernel)
  exact ⟨st, h, hv, (C51_comes_to_rest _ _ _ _ h).2⟩

private theorem slot_ge {st : Refs.St} {i : Nat} (h : st.slots.length ≤ i) : (Refs.slot st i).ptr = none := by rw [Refs.slot_of_ge h]

private theorem ptr_set {st : Refs.St} {i : Nat} (g : Refs.Slot → Refs.Slot) (ha : (Refs.slot st i).alive = true) (j : Nat) :
    (Refs.slot (Refs.setSlot st i g) j).ptr = if j = i then (g (Refs.slot st i)).ptr else (Refs.slot st j).ptr := by
  have hi : i < st.slots.length := by
    rcases Nat.lt_or_ge i st.slots.length with h | h
    · exact h
    · rw [Refs.slot_of_ge h] at ha; simp at ha
  rw [Refs.slot_set g hi]
  split <;> rfl

private theorem slot_push (st : Refs.St) (t : Nat) (l : List Refs.Frame) (j : Nat) : Refs.slot (Refs.push st t l) j = Refs.slot st j := rfl

/-- **What retainers point to.** Assigning, moving, swapping, copying, emptying retainers makes them point to what is expected, and changes no others; moving a retainer to itself
empties it. -/
theorem C51_pointers (st st' : Refs.St) (t : Nat) (op : Refs.Op) (ev : List Refs.Ev) (hs : Refs.step st t op = some (st', ev)) :
    Moves (pointee st) (pointee st') st.slots.length op := by
  simp only [Refs.step] at hs
  split at hs
  · cases op with
    | tick =>
      simp only [] at hs
      split at hs
      · simp at hs
      · rename_i fr rest hst
        intro j
        cases fr <;> simp only [Refs.exec] at hs
        · simp at hs
        · simp only [Option.some.injEq, Prod.mk.injEq] at hs
          obtain ⟨rfl, -⟩ := hs
          rename_i o s d
          left
          simp only [pointee]
          by_cases hd : d < st.slots.length
          · rw [Refs.slot_set _ (by exact hd)]
            split
            · subst_vars; rfl
            · rfl
          · simp only [Refs.slot, Refs.setSlot]
            rw [List.set_eq_of_length_le (by simpa [Refs.incr, Refs.pop] using hd)]
            rfl
        · simp only [Option.some.injEq, Refs.decr, Prod.mk.injEq] at hs
          obtain ⟨rfl, -⟩ := hs
          left
          split <;> rfl
        · simp only [Option.some.injEq, Prod.mk.injEq] at hs
          obtain ⟨rfl, -⟩ := hs
          exact .inl rfl
        · split at hs
          · split at hs
            · simp only [Option.some.injEq, Prod.mk.injEq] at hs
              obtain ⟨rfl, -⟩ := hs
              rename_i o _ i hi _
              obtain ⟨h1, h2⟩ := Refs.memberOf_some hi
              have := ptr_set (st := Refs.push (Refs.pop st t) t [.members o]) (i := i) (fun s => { s with alive := false, ptr := none }) h2 j
              simp only [pointee, Refs.dropSlot]
              by_cases hj : j = i
              · right; rw [if_pos hj] at this; exact this
              · left; rw [if_neg hj] at this; exact this
            · simp at hs
          · simp only [Option.some.injEq, Prod.mk.injEq] at hs
            obtain ⟨rfl, -⟩ := hs
            exact .inl rfl
    | ret =>
      simp only [] at hs
      split at hs
      · simp only [Option.some.injEq, Prod.mk.injEq] at hs
        obtain ⟨rfl, -⟩ := hs
        intro j; rfl
      · simp at hs
    | resurrect => trivial
    | make =>
      simp only [Refs.app] at hs
      split at hs
      · simp only [Option.some.injEq, Prod.mk.injEq] at hs
        obtain ⟨rfl, -⟩ := hs
        intro j; rfl
      · simp at hs
    | claim o w =>
      simp only [Refs.app] at hs
      repeat' split at hs
      all_goals try (simp at hs; done)
      simp only [Option.some.injEq, Prod.mk.injEq] at hs
      obtain ⟨rfl, -⟩ := hs
      refine ⟨?_, ?_⟩
      · simp only [pointee, Refs.slot_add, if_true]
      · intro j hj; simp only [pointee, Refs.slot_add]; rw [if_neg hj]; rfl
    | empty w =>
      simp only [Refs.app] at hs
      split at hs
      · simp only [Option.some.injEq, Prod.mk.injEq] at hs
        obtain ⟨rfl, -⟩ := hs
        intro j
        simp only [pointee, Refs.slot_add]
        split
        · rename_i hj; rw [slot_ge (by omega)]
        · rfl
      · simp at hs
    | copy s w =>
      simp only [Refs.app] at hs
      repeat' split at hs
      all_goals try (simp at hs; done)
      simp only [Option.some.injEq, Prod.mk.injEq] at hs
      obtain ⟨rfl, -⟩ := hs
      have e : ∀ x l j, Refs.slot (Refs.push x t l) j = Refs.slot x j := fun _ _ _ => rfl
      refine ⟨?_, ?_⟩
      · simp only [pointee, e, Refs.slot_add, if_true]
      · intro j hj; simp only [pointee, e, Refs.slot_add]; rw [if_neg hj]
    | move s w =>
      simp only [Refs.app] at hs
      repeat' split at hs
      all_goals try (simp at hs; done)
      rename_i hw
      simp only [Option.some.injEq, Prod.mk.injEq] at hs
      obtain ⟨rfl, -⟩ := hs
      obtain ⟨ha, -, -⟩ := Refs.mayWrite_iff.mp hw
      have hl : s ≠ st.slots.length := by
        intro e; rw [e, Refs.slot_of_ge (Nat.le_refl _)] at ha; simp at ha
      have e : (Refs.setSlot st s (fun s => { s with ptr := none })).slots.length = st.slots.length := by simp [Refs.setSlot]
      refine ⟨?_, ?_, ?_⟩
      · simp only [pointee, Refs.slot_add]; rw [if_pos (by rw [e])]
      · simp only [pointee, Refs.slot_add]; rw [if_neg (by rw [e]; exact hl), ptr_set _ ha, if_pos rfl]
      · intro j hj hj2; simp only [pointee, Refs.slot_add]; rw [if_neg (by rw [e]; exact hj), ptr_set _ ha, if_neg hj2]
    | assign d s =>
      simp only [Refs.app] at hs
      repeat' split at hs
      all_goals try (simp at hs; done)
      rename_i hw
      simp only [Option.some.injEq, Prod.mk.injEq] at hs
      obtain ⟨rfl, -⟩ := hs
      obtain ⟨ha, -, -⟩ := Refs.mayWrite_iff.mp hw.1
      simp only [Refs.basicAssign, Moves, pointee]
      split
      · rename_i he; exact ⟨he, fun _ _ => rfl⟩
      · refine ⟨?_, ?_⟩
        · simp only [pointee, Refs.dropSlot, slot_push]; exact (ptr_set _ ha d).trans (if_pos rfl)
        · intro j hj; simp only [pointee, Refs.dropSlot, slot_push]; exact (ptr_set _ ha j).trans (if_neg hj)
    | moveAssign d s =>
      simp only [Refs.app] at hs
      repeat' split at hs
      all_goals try (simp at hs; done)
      rename_i hw
      simp only [Option.some.injEq, Prod.mk.injEq] at hs
      obtain ⟨rfl, -⟩ := hs
      obtain ⟨ha, -, -⟩ := Refs.mayWrite_iff.mp hw.1
      obtain ⟨hb, -, -⟩ := Refs.mayWrite_iff.mp hw.2
      have hb' : (Refs.slot (Refs.setSlot st d (fun x => { x with ptr := (Refs.slot st s).ptr })) s).alive = true := by
        have hd : d < st.slots.length := Refs.alive_lt ha
        rw [Refs.slot_set _ hd]
        split
        · exact ha
        · exact hb
      refine ⟨?_, ?_, ?_⟩
      · intro hne
        simp only [pointee, Refs.dropSlot, slot_push]; exact (ptr_set _ hb' d).trans ((if_neg hne).trans ((ptr_set _ ha d).trans (if_pos rfl)))
      · simp only [pointee, Refs.dropSlot, slot_push]; exact (ptr_set _ hb' s).trans (if_pos rfl)
      · intro j h1 h2
        simp only [pointee, Refs.dropSlot, slot_push]; exact (ptr_set _ hb' j).trans ((if_neg h2).trans ((ptr_set _ ha j).trans (if_neg h1)))
    | swap a b =>
      simp only [Refs.app] at hs
      repeat' split at hs
      all_goals try (simp at hs; done)
      rename_i hw
      simp only [Option.some.injEq, Prod.mk.injEq] at hs
      obtain ⟨rfl, -⟩ := hs
      obtain ⟨ha, -, -⟩ := Refs.mayWrite_iff.mp hw.1
      obtain ⟨hb, -, -⟩ := Refs.mayWrite_iff.mp hw.2
      have hb' : (Refs.slot (Refs.setSlot st a (fun x => { x with ptr := (Refs.slot st b).ptr })) b).alive = true := by
        have hd : a < st.slots.length := Refs.alive_lt ha
        rw [Refs.slot_set _ hd]
        split
        · exact ha
        · exact hb
      refine ⟨?_, ?_, ?_⟩
      · by_cases hab : a = b
        · subst hab; simp only [pointee, Refs.dropSlot, slot_push]; exact (ptr_set _ hb' a).trans (if_pos rfl)
        · simp only [pointee, Refs.dropSlot, slot_push]; exact (ptr_set _ hb' a).trans ((if_neg hab).trans ((ptr_set _ ha a).trans (if_pos rfl)))
      · simp only [pointee, Refs.dropSlot, slot_push]; exact (ptr_set _ hb' b).trans (if_pos rfl)
      · intro j h1 h2
        simp only [pointee, Refs.dropSlot, slot_push]; exact (ptr_set _ hb' j).trans ((if_neg h2).trans ((ptr_set _ ha j).trans (if_neg h1)))
    | reset d =>
      simp only [Refs.app] at hs
      repeat' split at hs
      all_goals try (simp at hs; done)
      rename_i hw
      simp only [Option.some.injEq, Prod.mk.injEq] at hs
      obtain ⟨rfl, -⟩ := hs
      obtain ⟨ha, -, -⟩ := Refs.mayWrite_iff.mp hw
      simp only [Refs.basicAssign, Moves, pointee]
      split
      · rename_i he; exact ⟨he, fun _ _ => rfl⟩
      · refine ⟨?_, ?_⟩
        · simp only [pointee, Refs.dropSlot, slot_push]; exact (ptr_set _ ha d).trans (if_pos rfl)
        · intro j hj; simp only [pointee, Refs.dropSlot, slot_push]; exact (ptr_set _ ha j).trans (if_neg hj)
    | drop d =>
      simp only [Refs.app] at hs
      repeat' split at hs
      all_goals try (simp at hs; done)
      rename_i hw
      simp only [Option.some.injEq, Prod.mk.injEq] at hs
      obtain ⟨rfl, -⟩ := hs
      obtain ⟨ha, -, -⟩ := Refs.mayWrite_iff.mp hw
      refine ⟨?_, ?_⟩
      · simp only [pointee, Refs.dropSlot, slot_push]; exact (ptr_set _ ha d).trans (if_pos rfl)
      · intro j hj; simp only [pointee, Refs.dropSlot, slot_push]; exact (ptr_set _ ha j).trans (if_neg hj)
    | retain s =>
      simp only [Refs.app] at hs
      repeat' split at hs
      all_goals try (simp at hs; done)
      all_goals simp only [Option.some.injEq, Prod.mk.injEq] at hs
      all_goals obtain ⟨rfl, -⟩ := hs
      all_goals intro j; rfl
    | release o =>
      simp only [Refs.app] at hs
      repeat' split at hs
      all_goals try (simp at hs; done)
      simp only [Option.some.injEq, Prod.mk.injEq] at hs
      obtain ⟨rfl, -⟩ := hs
      intro j; rfl
  · simp at hs

example : ∃ st, Refs.Run (Refs.init 2) (refDemo.take 8) st [] ∧ (Refs.step st 0 (.assign 1 0)).isSome = true ∧ pointee st 0 = some 0 ∧ pointee st 1 = some 1 := by
  obtain ⟨st, h, hv⟩ := ref_demo 2 (fun st => ((Refs.step st 0 (.assign 1 0)).isSome, pointee st 0, pointee st 1)) (refDemo.take 8) (true, some 0, some 1) [] (by decide +kernel)
  simp only [Prod.mk.injEq] at hv
  exact ⟨st, h, hv.1, hv.2.1, hv.2.2⟩

/-- Object 0's destructor makes a retainer for its own object, which goes when the body ends. -/
private def againDemo : List (Nat × Refs.Op) :=
  [(0, .make), (0, .claim 0 none), (0, .drop 0), (0, .tick), (0, .tick), (0, .resurrect), (0, .tick), (0, .drop 1), (0, .tick), (0, .tick)]

/-- **Not so for a destructor that makes a retainer for its own object** (for example by handing `this` to a function that retains its argument): the object is destroyed again from
inside its destructor. -/
theorem C51_resurrected : ∃ n ops st evs o, Refs.Run (Refs.init n) ops st evs ∧ evs.count (.destroyed o) = 2 ∧ .usedAfter o ∈ evs := by
  obtain ⟨st, h, -⟩ := ref_demo 1 (fun _ => ()) againDemo () [.destroyed 0, .usedAfter 0, .usedAfter 0, .destroyed 0] (by decide +kernel)
  exact ⟨1, againDemo, st, _, 0, h, by decide, by decide⟩

end
end Rtmfp
