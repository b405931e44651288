import Verif.Lemmas.List

/-!
# C09, C10: List and SumList
-/

namespace Rtmfp
open LS

/-- Specification of one call on a sequence of named values: the permitted answers and the resulting
sequence.  `n` is usable for adding if it is 0 (the position before the first / after the last) or the name
of an element. -/
def listSpec {α : Type} (blank : α) (q : Spec.Seq α) : Op α → Out → Spec.Seq α → Prop
  | .addAfter n, out, q' =>
    if n = 0 ∨ n ∈ q.names then ∃ f, out = .name f ∧ 0 < f ∧ f ∉ q.names ∧ q' = q.insAfter n (f, blank)
    else out = .name (-1) ∧ q' = q
  | .addBefore n, out, q' =>
    if n = 0 ∨ n ∈ q.names then ∃ f, out = .name f ∧ 0 < f ∧ f ∉ q.names ∧ q' = q.insBefore n (f, blank)
    else out = .name (-1) ∧ q' = q
  | .addValueAfter v n, out, q' =>
    if n = 0 ∨ n ∈ q.names then ∃ f, out = .name f ∧ 0 < f ∧ f ∉ q.names ∧ q' = q.insAfter n (f, v)
    else out = .threw ∧ q' = q
  | .addValueBefore v n, out, q' =>
    if n = 0 ∨ n ∈ q.names then ∃ f, out = .name f ∧ 0 < f ∧ f ∉ q.names ∧ q' = q.insBefore n (f, v)
    else out = .threw ∧ q' = q
  | .set n v, out, q' => if n ∈ q.names then out = .unit ∧ q' = q.set n v else out = .threw ∧ q' = q
  | .rotateToHead n, out, q' =>
    if n ∈ q.names then out = .bool true ∧ q' = q.upto n ++ q.before n else out = .bool (decide (n = 0)) ∧ q' = q
  | .rotateToTail n, out, q' =>
    if n ∈ q.names then out = .bool true ∧ q' = (q.upto n).tail ++ q.before n ++ q.only n
    else out = .bool (decide (n = 0)) ∧ q' = q
  | .moveToHead n, out, q' =>
    if n ∈ q.names then out = .bool true ∧ q' = q.only n ++ q.del n else out = .bool (decide (n = 0)) ∧ q' = q
  | .moveToTail n, out, q' =>
    if n ∈ q.names then out = .bool true ∧ q' = q.del n ++ q.only n else out = .bool (decide (n = 0)) ∧ q' = q
  | .remove n, out, q' => out = .bool (decide (n ∈ q.names)) ∧ q' = q.del n
  | .removeFirst, out, q' => out = .bool (!q.isEmpty) ∧ q' = q.tail
  | .removeLast, out, q' => out = .bool (!q.isEmpty) ∧ q' = q.dropLast

/-- A history (call, answer) is permitted and ends with the given sequence. -/
inductive ListHistory {α : Type} (blank : α) : List (Op α × Out) → Spec.Seq α → Prop
  | nil : ListHistory blank [] []
  | snoc {hist q op out q'} : ListHistory blank hist q → listSpec blank q op out q' →
      ListHistory blank (hist ++ [(op, out)]) q'

/-- The state and the calls with their answers. -/
def listRun {α : Type} (s : LS α) : List (Op α) → LS α × List (Op α × Out)
  | [] => (s, [])
  | op :: ops => ((listRun (s.step op).1 ops).1, (op, (s.step op).2) :: (listRun (s.step op).1 ops).2)

/-- the sequence denoted by live slots -/
def seqOf {α : Type} (s : LS α) (live : List Nat) : Spec.Seq α := live.map (fun i : Nat => ((i : Int), s.val i))

theorem names_seqOf {α : Type} (s : LS α) (live : List Nat) :
    (seqOf s live).names = live.map (fun i : Nat => (i : Int)) := by
  simp [seqOf, Spec.Seq.names]

theorem mem_names {α : Type} (s : LS α) (live : List Nat) (n : Int) :
    n ∈ (seqOf s live).names ↔ ∃ i ∈ live, n = (i : Nat) := by
  rw [names_seqOf]; simp [eq_comm]

theorem seqOf_congr {α : Type} (s t : LS α) (live : List Nat) (h : ∀ i ∈ live, t.val i = s.val i) :
    seqOf t live = seqOf s live := by
  unfold seqOf
  apply List.map_congr_left
  intro i hi; rw [h i hi]

theorem seqOf_append {α : Type} (s : LS α) (p q : List Nat) : seqOf s (p ++ q) = seqOf s p ++ seqOf s q := by
  simp [seqOf]
theorem seqOf_cons {α : Type} (s : LS α) (n : Nat) (q : List Nat) :
    seqOf s (n :: q) = ((n : Int), s.val n) :: seqOf s q := by
  simp [seqOf]

section specfacts
variable {α : Type}

theorem flatMap_id_of (l : Spec.Seq α) (n : Int) (g : Int × α → List (Int × α)) (h : n ∉ l.names) :
    l.flatMap (fun x => if x.1 = n then g x else [x]) = l := by
  induction l with
  | nil => rfl
  | cons x l ih =>
    simp [Spec.Seq.names] at h
    have hx : x.1 ≠ n := fun e => h.1 e.symm
    simp only [List.flatMap_cons, if_neg hx]
    rw [ih (by simp [Spec.Seq.names]; exact h.2)]
    rfl

theorem filter_ne (l : Spec.Seq α) (n : Int) (h : n ∉ l.names) : l.filter (fun x => decide (x.1 ≠ n)) = l := by
  rw [List.filter_eq_self]
  intro x hx
  simp
  rintro rfl
  exact h (List.mem_map.mpr ⟨x, hx, rfl⟩)

theorem filter_eq (l : Spec.Seq α) (n : Int) (h : n ∉ l.names) : l.filter (fun x => decide (x.1 = n)) = [] := by
  rw [List.filter_eq_nil_iff]
  intro x hx
  simp
  rintro rfl
  exact h (List.mem_map.mpr ⟨x, hx, rfl⟩)

theorem takeWhile_split (l r : Spec.Seq α) (n : Int) (v : α) (h : n ∉ l.names) :
    Spec.Seq.before n (l ++ (n, v) :: r) = l ∧ Spec.Seq.upto n (l ++ (n, v) :: r) = (n, v) :: r := by
  induction l with
  | nil => simp [Spec.Seq.before, Spec.Seq.upto]
  | cons x l ih =>
    simp [Spec.Seq.names] at h
    have hx : x.1 ≠ n := fun e => h.1 e.symm
    have := ih (by simp [Spec.Seq.names]; exact h.2)
    simp only [Spec.Seq.before, Spec.Seq.upto] at this ⊢
    simp [hx]
    simp at this
    exact this

theorem split_facts (l r : Spec.Seq α) (n : Int) (v : α) (h1 : n ∉ l.names) (h2 : n ∉ r.names) (hn : n ≠ 0) :
    Spec.Seq.del n (l ++ (n, v) :: r) = l ++ r ∧ Spec.Seq.only n (l ++ (n, v) :: r) = [(n, v)] ∧
    (∀ e, Spec.Seq.insAfter n e (l ++ (n, v) :: r) = l ++ (n, v) :: e :: r) ∧
    (∀ e, Spec.Seq.insBefore n e (l ++ (n, v) :: r) = l ++ e :: (n, v) :: r) ∧
    (∀ w, Spec.Seq.set n w (l ++ (n, v) :: r) = l ++ (n, w) :: r) := by
  refine ⟨?_, ?_, ?_, ?_, ?_⟩
  · simp only [Spec.Seq.del, List.filter_append, List.filter_cons]
    rw [filter_ne l n h1, filter_ne r n h2]; simp
  · simp only [Spec.Seq.only, List.filter_append, List.filter_cons]
    rw [filter_eq l n h1, filter_eq r n h2]; simp
  · intro e
    simp only [Spec.Seq.insAfter, if_neg hn, List.flatMap_append, List.flatMap_cons]
    rw [flatMap_id_of l n (fun x => [x, e]) h1, flatMap_id_of r n (fun x => [x, e]) h2]; simp
  · intro e
    simp only [Spec.Seq.insBefore, if_neg hn, List.flatMap_append, List.flatMap_cons]
    rw [flatMap_id_of l n (fun x => [e, x]) h1, flatMap_id_of r n (fun x => [e, x]) h2]; simp
  · intro w
    have aux : ∀ l : Spec.Seq α, n ∉ l.names → l.map (fun x => if x.1 = n then (n, w) else x) = l := by
      intro l h
      conv => rhs; rw [← List.map_id l]
      apply List.map_congr_left
      intro x hx
      rw [if_neg]; rfl
      rintro rfl
      exact h (List.mem_map.mpr ⟨x, hx, rfl⟩)
    simp only [Spec.Seq.set, List.map_append, List.map_cons]
    rw [aux l h1, aux r h2]; simp

end specfacts

theorem rep_split_names {α : Type} {s : LS α} {p q free : List Nat} {n : Nat} (h : Rep s (p ++ n :: q) free) :
    (n : Int) ∉ (seqOf s p).names ∧ (n : Int) ∉ (seqOf s q).names ∧ (n : Int) ≠ 0 := by
  have h1 := h.split.1
  simp at h1
  refine ⟨?_, ?_, h.ne_zero (by simp)⟩
  · rw [mem_names]; rintro ⟨i, hi, e⟩
    have : n = i := by omega
    subst this; exact h1.2.1 hi
  · rw [mem_names]; rintro ⟨i, hi, e⟩
    have : n = i := by omega
    subst this; exact h1.2.2 hi

/-- `basicAdd` refines insertion -/
theorem basicAdd_refines {α : Type} {s : LS α} {live free : List Nat} (h : Rep s live free) (name : Int) (after : Bool) :
    if name = 0 ∨ name ∈ (seqOf s live).names then
      ∃ (f : Nat) (live' free' : List Nat), Rep (s.basicAdd name after).1 live' free' ∧ (s.basicAdd name after).2 = (f : Nat) ∧ f ≠ 0 ∧
        f ∈ live' ∧ f ∉ live ∧ (s.basicAdd name after).1.blank = s.blank ∧
        (∀ v, seqOf ((s.basicAdd name after).1.setAt f v) live' =
          if after then (seqOf s live).insAfter name ((f : Int), v) else (seqOf s live).insBefore name ((f : Int), v)) ∧
        seqOf ((s.basicAdd name after).1) live' =
          if after then (seqOf s live).insAfter name ((f : Int), s.blank) else (seqOf s live).insBefore name ((f : Int), s.blank)
    else s.basicAdd name after = (s, -1) := by
  split
  · next hcond =>
    obtain ⟨n, p, q, rfl, hl, hp⟩ : ∃ (n : Nat) (p q : List Nat), name = n ∧ live = (if n = 0 then q else p ++ n :: q) ∧ (n = 0 → p = []) := by
      rcases hcond with rfl | hc
      · exact ⟨0, [], live, rfl, by simp, fun _ => rfl⟩
      · rw [mem_names] at hc
        obtain ⟨i, hi, rfl⟩ := hc
        obtain ⟨p, q, hpq⟩ := List.append_of_mem hi
        have hi0 : i ≠ 0 := by have := h.ne_zero hi; omega
        exact ⟨i, p, q, rfl, by rw [if_neg hi0]; exact hpq, fun e => absurd e hi0⟩
    obtain ⟨f, free', r1, r2, r3, r4, r5, r6⟩ := h.basicAdd after hl hp
    have hf0 : f ≠ 0 := by rintro rfl; simp at r3
    have hfl : f ∉ live := by simp at r3; exact r3.2
    -- generic calculation
    have calc' : ∀ (t : LS α) (v : α), (∀ i ∈ live, t.val i = s.val i) → t.val f = v →
        seqOf t (if n = 0 then (if after then f :: q else q ++ [f]) else if after then p ++ n :: f :: q else p ++ f :: n :: q) =
          if after then (seqOf s live).insAfter (n : Int) ((f : Int), v) else (seqOf s live).insBefore (n : Int) ((f : Int), v) := by
      intro t v hv hvf
      by_cases hn : n = 0
      · subst hn
        simp only [if_true] at hl ⊢
        subst hl
        have e := seqOf_congr s t live hv
        cases after
        · simp [seqOf_append, seqOf_cons, hvf, e, Spec.Seq.insBefore, seqOf]
          intro a ha; exact hv a ha
        · simp [seqOf_cons, hvf, e, Spec.Seq.insAfter]
      · simp only [if_neg hn] at hl ⊢
        subst hl
        obtain ⟨x1, x2, x3⟩ := rep_split_names h
        obtain ⟨-, -, y3, y4, -⟩ := split_facts (seqOf s p) (seqOf s q) n (s.val n) x1 x2 x3
        have ep := seqOf_congr s t p (fun i hi => hv i (by simp [hi]))
        have eq := seqOf_congr s t q (fun i hi => hv i (by simp [hi]))
        have en := hv n (by simp)
        cases after
        · simp [seqOf_append, seqOf_cons, hvf, ep, eq, en, y4]
        · simp [seqOf_append, seqOf_cons, hvf, ep, eq, en, y3]
    refine ⟨f, _, free', r1, r2, hf0, ?_, hfl, r6, ?_, ?_⟩
    · by_cases hn : n = 0 <;> cases after <;> simp [hn]
    · intro v
      apply calc'
      · intro i hi
        have : i ≠ f := by rintro rfl; exact hfl hi
        simp only [setAt, fset, Int.toNat_natCast, if_neg this]
        exact r4 i hi
      · simp [setAt, fset]
    · exact calc' _ _ r4 r5
  · next hcond =>
    have hu : s.isUsing name = false := by
      cases hb : s.isUsing name with
      | false => rfl
      | true =>
        exfalso
        rw [h.isUsing_iff] at hb
        obtain ⟨n, hn, rfl⟩ := hb
        apply hcond
        simp at hn
        rcases hn with rfl | hn
        · left; rfl
        · right; rw [mem_names]; exact ⟨n, hn, rfl⟩
    simp [LS.basicAdd, hu]

theorem setAt_rep {α : Type} {s : LS α} {live free : List Nat} (h : Rep s live free) {n : Nat} (hn : n ∈ live) (v : α) :
    Rep (s.setAt n v) live free := by
  refine ⟨h.ring0, h.ring1, h.nodup, h.bound, h.used, h.size, ?_⟩
  intro i hi
  have : i ≠ n := by
    rintro rfl
    exact h.disj i (by simp [hi]) (by simp [hn])
  show fset s.val _ v i = s.blank
  simp only [fset, Int.toNat_natCast, if_neg this]
  exact h.blank i hi

theorem has_names {α : Type} {s : LS α} {live free : List Nat} (h : Rep s live free) (name : Int) :
    s.has name = decide (name ∈ (seqOf s live).names) := by
  rw [Bool.eq_iff_iff, h.has_iff, decide_eq_true_eq, mem_names]

theorem remove_refines {α : Type} {s : LS α} {live free : List Nat} (h : Rep s live free) (name : Int) :
    ∃ live' free', Rep (s.remove name).1 live' free' ∧ (s.remove name).1.blank = s.blank ∧
      (s.remove name).2 = decide (name ∈ (seqOf s live).names) ∧
      seqOf (s.remove name).1 live' = (seqOf s live).del name := by
  by_cases hc : name ∈ (seqOf s live).names
  · have hc' := hc
    rw [mem_names] at hc'
    obtain ⟨n, hn, rfl⟩ := hc'
    obtain ⟨p, q, rfl⟩ := List.append_of_mem hn
    obtain ⟨r1, r2, r3, r4⟩ := h.remove
    obtain ⟨x1, x2, x3⟩ := rep_split_names h
    obtain ⟨y1, -⟩ := split_facts (seqOf s p) (seqOf s q) n (s.val n) x1 x2 x3
    refine ⟨_, _, r1, r4, by rw [r2]; simp [hc], ?_⟩
    rw [seqOf_append s p (n :: q), seqOf_cons, y1, ← seqOf_append]
    apply seqOf_congr
    intro i hi
    have : i ≠ n := by
      rintro rfl
      have := h.split.1
      simp at this hi
      tauto
    rw [r3]
    simp [fset, this]
  · have hh : s.has name = false := by rw [has_names h]; simpa using hc
    have : s.remove name = (s, false) := by simp [LS.remove, hh]
    rw [this]
    refine ⟨live, free, h, rfl, by simpa using hc, ?_⟩
    exact (filter_ne _ _ hc).symm

theorem first_eq {α : Type} {s : LS α} {live free : List Nat} (h : Rep s live free) :
    s.first = ((live ++ [0]).head (by simp) : Nat) ∧ s.last = ((0 :: live).getLast (by simp) : Nat) := by
  obtain ⟨e1, e2⟩ := ring_ends _ _ _ _ h.ring0
  constructor
  · simp only [first, next, isUsing]; simp [e1]
  · simp only [last, prev, isUsing]; simp [e2]

/-- one call refines the specification -/
theorem step_refines {α : Type} {s : LS α} {live free : List Nat} (h : Rep s live free) (op : Op α) :
    ∃ live' free', Rep (s.step op).1 live' free' ∧ (s.step op).1.blank = s.blank ∧
      listSpec s.blank (seqOf s live) op (s.step op).2 (seqOf (s.step op).1 live') := by
  have addv : ∀ (v : α) (name : Int) (after : Bool), ∃ live' free', Rep (s.addValue v name after).1 live' free' ∧
      (s.addValue v name after).1.blank = s.blank ∧
      (if name = 0 ∨ name ∈ (seqOf s live).names then
        ∃ f, (s.addValue v name after).2 = .name f ∧ 0 < f ∧ f ∉ (seqOf s live).names ∧
          seqOf (s.addValue v name after).1 live' =
            if after then (seqOf s live).insAfter name (f, v) else (seqOf s live).insBefore name (f, v)
       else (s.addValue v name after).2 = .threw ∧ seqOf (s.addValue v name after).1 live' = seqOf s live) := by
    intro v name after
    have hb := basicAdd_refines h name after
    by_cases hc : name = 0 ∨ name ∈ (seqOf s live).names
    · rw [if_pos hc] at hb
      obtain ⟨f, live', free', r1, r2, r3, r4, r5, r6, r7, -⟩ := hb
      have hh : (s.basicAdd name after).1.has (s.basicAdd name after).2 = true := by
        rw [r2]; exact (r1.has_iff _).mpr ⟨f, r4, rfl⟩
      have e : s.addValue v name after = ((s.basicAdd name after).1.setAt f v, .name f) := by
        simp only [LS.addValue, hh, if_true]; rw [r2]
      rw [e]; simp only [if_pos hc]
      refine ⟨live', free', setAt_rep r1 r4 v, r6, f, rfl, by omega, ?_, r7 v⟩
      rw [mem_names]; rintro ⟨i, hi, e⟩
      have : f = i := by omega
      subst this; exact r5 hi
    · rw [if_neg hc] at hb
      have e : s.addValue v name after = (s, .threw) := by
        have : s.has (-1) = false := by simp [LS.has]
        simp only [LS.addValue, hb, this]; simp
      rw [e]; simp only [if_neg hc]
      exact ⟨live, free, h, by simp⟩
  have addb : ∀ (name : Int) (after : Bool), ∃ live' free', Rep (s.basicAdd name after).1 live' free' ∧
      (s.basicAdd name after).1.blank = s.blank ∧
      (if name = 0 ∨ name ∈ (seqOf s live).names then
        ∃ f, Out.name (s.basicAdd name after).2 = .name f ∧ 0 < f ∧ f ∉ (seqOf s live).names ∧
          seqOf (s.basicAdd name after).1 live' =
            if after then (seqOf s live).insAfter name (f, s.blank) else (seqOf s live).insBefore name (f, s.blank)
       else Out.name (s.basicAdd name after).2 = .name (-1) ∧ seqOf (s.basicAdd name after).1 live' = seqOf s live) := by
    intro name after
    have hb := basicAdd_refines h name after
    by_cases hc : name = 0 ∨ name ∈ (seqOf s live).names
    · rw [if_pos hc] at hb
      obtain ⟨f, live', free', r1, r2, r3, r4, r5, r6, -, r7⟩ := hb
      simp only [if_pos hc]
      refine ⟨live', free', r1, r6, f, by rw [r2], by omega, ?_, r7⟩
      rw [mem_names]; rintro ⟨i, hi, e⟩
      have : f = i := by omega
      subst this; exact r5 hi
    · rw [if_neg hc] at hb
      rw [hb]; simp only [if_neg hc]
      exact ⟨live, free, h, by simp⟩
  have hdead : ∀ n, n ∉ (seqOf s live).names → s.has n = false := by
    intro n hc; rw [has_names h]; simpa using hc
  cases op with
  | addAfter n =>
    obtain ⟨l, f, a, b, c⟩ := addb n true
    exact ⟨l, f, a, b, by simpa [listSpec, LS.step] using c⟩
  | addBefore n =>
    obtain ⟨l, f, a, b, c⟩ := addb n false
    exact ⟨l, f, a, b, by simpa [listSpec, LS.step] using c⟩
  | addValueAfter v n =>
    obtain ⟨l, f, a, b, c⟩ := addv v n true
    exact ⟨l, f, a, b, by simpa [listSpec, LS.step] using c⟩
  | addValueBefore v n =>
    obtain ⟨l, f, a, b, c⟩ := addv v n false
    exact ⟨l, f, a, b, by simpa [listSpec, LS.step] using c⟩
  | set n v =>
    have hh := has_names h n
    by_cases hc : n ∈ (seqOf s live).names
    · have hc' := hc
      rw [mem_names] at hc'
      obtain ⟨i, hi, rfl⟩ := hc'
      have e : s.step (.set i v) = (s.setAt i v, .unit) := by
        simp only [LS.step, hh, hc]; simp
      rw [e]
      refine ⟨live, free, setAt_rep h hi v, rfl, ?_⟩
      simp only [listSpec, if_pos hc, true_and]
      obtain ⟨p, q, rfl⟩ := List.append_of_mem hi
      obtain ⟨x1, x2, x3⟩ := rep_split_names h
      obtain ⟨-, -, -, -, y5⟩ := split_facts (seqOf s p) (seqOf s q) i (s.val i) x1 x2 x3
      rw [seqOf_append s, seqOf_cons s, y5, seqOf_append, seqOf_cons]
      have e1 : seqOf (s.setAt i v) p = seqOf s p := by
        apply seqOf_congr; intro j hj
        have : j ≠ i := by rintro rfl; exact x1 (by rw [mem_names]; exact ⟨j, hj, rfl⟩)
        simp [setAt, fset, this]
      have e2 : seqOf (s.setAt i v) q = seqOf s q := by
        apply seqOf_congr; intro j hj
        have : j ≠ i := by rintro rfl; exact x2 (by rw [mem_names]; exact ⟨j, hj, rfl⟩)
        simp [setAt, fset, this]
      rw [e1, e2]; simp [setAt, fset]
    · have e : s.step (.set n v) = (s, .threw) := by
        simp only [LS.step, hh, hc]; simp
      rw [e]
      exact ⟨live, free, h, rfl, by simp [listSpec, hc]⟩
  | rotateToHead n =>
    by_cases hc : n ∈ (seqOf s live).names
    · have hc' := hc
      rw [mem_names] at hc'
      obtain ⟨i, hi, rfl⟩ := hc'
      obtain ⟨p, q, rfl⟩ := List.append_of_mem hi
      obtain ⟨r1, r2, r3⟩ := h.rotateToHead
      refine ⟨_, _, r1, r3.blank, ?_⟩
      simp only [listSpec, if_pos hc, LS.step, r2, true_and]
      obtain ⟨x1, x2, x3⟩ := rep_split_names h
      obtain ⟨y1, y2⟩ := takeWhile_split (seqOf s p) (seqOf s q) i (s.val i) x1
      rw [seqOf_congr s _ _ (fun j _ => by rw [r3.val])]
      rw [seqOf_append s p, seqOf_cons, y1, y2, seqOf_append, seqOf_cons]
    · have e : s.rotateToHead n = (s, decide (n = 0)) := by
        simp only [LS.rotateToHead, hdead n hc]
        by_cases hn : n = 0 <;> simp [hn]
      refine ⟨live, free, ?_, ?_, ?_⟩
      · simp only [LS.step, e]; exact h
      · simp only [LS.step, e]
      · simp [LS.step, e, listSpec, if_neg hc]
  | rotateToTail n =>
    by_cases hc : n ∈ (seqOf s live).names
    · have hc' := hc
      rw [mem_names] at hc'
      obtain ⟨i, hi, rfl⟩ := hc'
      obtain ⟨p, q, rfl⟩ := List.append_of_mem hi
      obtain ⟨r1, r2, r3⟩ := h.rotateToTail
      refine ⟨_, _, r1, r3.blank, ?_⟩
      simp only [listSpec, if_pos hc, LS.step, r2, true_and]
      obtain ⟨x1, x2, x3⟩ := rep_split_names h
      obtain ⟨y1, y2⟩ := takeWhile_split (seqOf s p) (seqOf s q) i (s.val i) x1
      obtain ⟨-, z2, -⟩ := split_facts (seqOf s p) (seqOf s q) i (s.val i) x1 x2 x3
      rw [seqOf_congr s _ _ (fun j _ => by rw [r3.val])]
      rw [seqOf_append s p, seqOf_cons, y1, y2, z2, seqOf_append, seqOf_append]
      simp [seqOf]
    · have e : s.rotateToTail n = (s, decide (n = 0)) := by
        simp only [LS.rotateToTail, hdead n hc]
        by_cases hn : n = 0 <;> simp [hn]
      refine ⟨live, free, ?_, ?_, ?_⟩
      · simp only [LS.step, e]; exact h
      · simp only [LS.step, e]
      · simp [LS.step, e, listSpec, if_neg hc]
  | moveToHead n =>
    by_cases hc : n ∈ (seqOf s live).names
    · have hc' := hc
      rw [mem_names] at hc'
      obtain ⟨i, hi, rfl⟩ := hc'
      obtain ⟨p, q, rfl⟩ := List.append_of_mem hi
      obtain ⟨r1, r2, r3⟩ := h.moveToHead
      refine ⟨_, _, r1, r3.blank, ?_⟩
      simp only [listSpec, if_pos hc, LS.step, r2, true_and]
      obtain ⟨x1, x2, x3⟩ := rep_split_names h
      obtain ⟨z1, z2, -⟩ := split_facts (seqOf s p) (seqOf s q) i (s.val i) x1 x2 x3
      rw [seqOf_congr s _ _ (fun j _ => by rw [r3.val])]
      rw [seqOf_append s p (i :: q), seqOf_cons s i q, z1, z2, seqOf_cons, seqOf_append]
      simp
    · have e : s.moveToHead n = (s, decide (n = 0)) := by
        simp only [LS.moveToHead, hdead n hc]
        by_cases hn : n = 0 <;> simp [hn]
      refine ⟨live, free, ?_, ?_, ?_⟩
      · simp only [LS.step, e]; exact h
      · simp only [LS.step, e]
      · simp [LS.step, e, listSpec, if_neg hc]
  | moveToTail n =>
    by_cases hc : n ∈ (seqOf s live).names
    · have hc' := hc
      rw [mem_names] at hc'
      obtain ⟨i, hi, rfl⟩ := hc'
      obtain ⟨p, q, rfl⟩ := List.append_of_mem hi
      obtain ⟨r1, r2, r3⟩ := h.moveToTail
      refine ⟨_, _, r1, r3.blank, ?_⟩
      simp only [listSpec, if_pos hc, LS.step, r2, true_and]
      obtain ⟨x1, x2, x3⟩ := rep_split_names h
      obtain ⟨z1, z2, -⟩ := split_facts (seqOf s p) (seqOf s q) i (s.val i) x1 x2 x3
      rw [seqOf_congr s _ _ (fun j _ => by rw [r3.val])]
      rw [seqOf_append s p, seqOf_cons, z1, z2, seqOf_append, seqOf_append]
      simp [seqOf]
    · have e : s.moveToTail n = (s, decide (n = 0)) := by
        simp only [LS.moveToTail, hdead n hc]
        by_cases hn : n = 0 <;> simp [hn]
      refine ⟨live, free, ?_, ?_, ?_⟩
      · simp only [LS.step, e]; exact h
      · simp only [LS.step, e]
      · simp [LS.step, e, listSpec, if_neg hc]
  | remove n =>
    obtain ⟨l, f, a, b, c, d⟩ := remove_refines h n
    exact ⟨l, f, a, b, by simp only [LS.step, c], d⟩
  | removeFirst =>
    obtain ⟨l, f, a, b, c, d⟩ := remove_refines h s.first
    refine ⟨l, f, a, b, ?_⟩
    simp only [listSpec, LS.step]
    cases live with
    | nil =>
      rw [(first_eq h).1] at c d ⊢
      refine ⟨by rw [c]; simp [seqOf, Spec.Seq.names], ?_⟩
      rw [d]; rfl
    | cons i q =>
      have hf : s.first = (i : Nat) := by rw [(first_eq h).1]; simp
      obtain ⟨x1, x2, x3⟩ := rep_split_names (p := []) h
      obtain ⟨z1, -⟩ := split_facts (seqOf s []) (seqOf s q) i (s.val i) x1 x2 x3
      rw [hf] at c d ⊢
      refine ⟨by rw [c]; simp [seqOf, Spec.Seq.names], ?_⟩
      rw [d, seqOf_cons]
      have e0 : seqOf s [] = [] := rfl
      rw [e0] at z1
      simpa using z1
  | removeLast =>
    obtain ⟨l, f, a, b, c, d⟩ := remove_refines h s.last
    refine ⟨l, f, a, b, ?_⟩
    simp only [listSpec, LS.step]
    rcases List.eq_nil_or_concat live with rfl | ⟨p, i, rfl⟩
    · rw [(first_eq h).2] at c d ⊢
      refine ⟨by rw [c]; simp [seqOf, Spec.Seq.names], ?_⟩
      rw [d]; rfl
    · have h' : Rep s (p ++ i :: []) free := by simpa using h
      have hf : s.last = (i : Nat) := by rw [(first_eq h').2, List.getLast_cons (by simp)]; simp
      obtain ⟨x1, x2, x3⟩ := rep_split_names h'
      obtain ⟨z1, -⟩ := split_facts (seqOf s p) (seqOf s []) i (s.val i) x1 x2 x3
      rw [hf] at c d ⊢
      refine ⟨by rw [c]; simp [seqOf, Spec.Seq.names], ?_⟩
      rw [d]
      have e : seqOf s (p.concat i) = seqOf s p ++ ((i : Int), s.val i) :: seqOf s [] := by simp [seqOf]
      rw [e, z1]
      simp [seqOf]

/-- What a client can observe of a list. -/
structure Observes {α : Type} (s : LS α) (q : Spec.Seq α) : Prop where
  forward : ∃ fuel, s.forwardFrom fuel s.first = some q.names
  backward : ∃ fuel, s.backwardFrom fuel s.last = some q.names.reverse
  at? : ∀ n v, s.at? n = some v ↔ (n, v) ∈ q
  dead : ∀ n, s.at? n = none ↔ n ∉ q.names
  has : ∀ n, s.has n = true ↔ n ∈ q.names
  size : s.size = q.length
  empty : s.empty = true ↔ q = []
  distinct : q.names.Nodup
  positive : ∀ n ∈ q.names, 0 < n

theorem forward_from {α : Type} {s : LS α} {live free : List Nat} (h : Rep s live free) :
    ∀ (q p : List Nat), live = p ++ q →
      s.forwardFrom (q.length + 1) ((q ++ [0]).head (by simp) : Nat) = some (q.map (fun i : Nat => (i : Int))) := by
  intro q
  induction q with
  | nil => intro p _; simp [LS.forwardFrom]
  | cons x q ih =>
    intro p hl
    have hx : x ∈ live := by rw [hl]; simp
    have hx0 := h.ne_zero hx
    have hu : s.isUsing x = true := (h.isUsing_iff _).mpr ⟨x, by simp [hx], rfl⟩
    have hnx : s.nx x = (q ++ [0]).head (by simp) := by
      have hr := h.ring0
      rw [hl] at hr
      have : Path s.nx s.pv ((0 :: p) ++ x :: (q ++ [0])) := by simpa [Ring] using hr
      rw [path_split] at this
      have h2 := this.2
      cases q with
      | nil => exact h2.1.1
      | cons y q => exact h2.1.1
    have hhead : ((x :: q ++ [0]).head (by simp)) = x := by simp
    simp only [hhead, List.length_cons]
    rw [LS.forwardFrom, if_pos (by omega)]
    have hn : s.next x = ((q ++ [0]).head (by simp) : Nat) := by
      simp only [LS.next, hu, if_true, Int.toNat_natCast, hnx]
    rw [hn, ih (p ++ [x]) (by simp [hl])]
    simp

theorem backward_from {α : Type} {s : LS α} {live free : List Nat} (h : Rep s live free) :
    ∀ (q p : List Nat), live = q.reverse ++ p →
      s.backwardFrom (q.length + 1) ((q ++ [0]).head (by simp) : Nat) = some (q.map (fun i : Nat => (i : Int))) := by
  intro q
  induction q with
  | nil => intro p _; simp [LS.backwardFrom]
  | cons x q ih =>
    intro p hl
    have hx : x ∈ live := by rw [hl]; simp
    have hx0 := h.ne_zero hx
    have hu : s.isUsing x = true := (h.isUsing_iff _).mpr ⟨x, by simp [hx], rfl⟩
    have hpv : s.pv x = (q ++ [0]).head (by simp) := by
      have hr := h.ring0
      rw [hl] at hr
      have hp0 : Path s.nx s.pv ((0 :: q.reverse) ++ x :: (p ++ [0])) := by simpa [Ring] using hr
      rw [path_split] at hp0
      have h2 := hp0.1
      cases q with
      | nil => exact h2.1.2
      | cons y q =>
        have h3 : Path s.nx s.pv ((0 :: q.reverse) ++ y :: [x]) := by simpa using h2
        rw [path_split] at h3
        simpa using h3.2.1.2
    have hhead : ((x :: q ++ [0]).head (by simp)) = x := by simp
    simp only [hhead, List.length_cons]
    rw [LS.backwardFrom, if_pos (by omega)]
    have hn : s.prev x = ((q ++ [0]).head (by simp) : Nat) := by
      simp only [LS.prev, hu, if_true, Int.toNat_natCast, hpv]
    rw [hn, ih (x :: p) (by simp [hl])]
    simp

theorem rep_observes {α : Type} {s : LS α} {live free : List Nat} (h : Rep s live free) :
    Observes s (seqOf s live) := by
  have hnd : (live.map (fun i : Nat => (i : Int))).Nodup := by
    have := (List.nodup_cons.mp h.nodup_live).2
    exact List.Pairwise.map (fun i : Nat => (i : Int)) (fun a b (e : a ≠ b) => by show (a : Int) ≠ b; omega) this
  refine ⟨?_, ?_, ?_, ?_, ?_, ?_, ?_, ?_, ?_⟩
  · refine ⟨live.length + 1, ?_⟩
    rw [(first_eq h).1, forward_from h live [] rfl, names_seqOf]
  · refine ⟨live.reverse.length + 1, ?_⟩
    have e := backward_from h live.reverse [] (by simp)
    have el : ((live.reverse ++ [0]).head (by simp)) = (0 :: live).getLast (by simp) := by
      rw [List.getLast_eq_head_reverse]; simp
    rw [(first_eq h).2, ← el, e, names_seqOf]
    simp
  · intro n v
    simp only [LS.at?, has_names h]
    by_cases hc : n ∈ (seqOf s live).names
    · simp only [hc, decide_true, if_true, Option.some.injEq]
      have hc' := hc
      rw [mem_names] at hc'
      obtain ⟨i, hi, rfl⟩ := hc'
      simp only [Int.toNat_natCast, seqOf, List.mem_map, Prod.mk.injEq]
      constructor
      · rintro rfl; exact ⟨i, hi, rfl, rfl⟩
      · rintro ⟨j, hj, e1, e2⟩
        have : j = i := by omega
        subst this; exact e2
    · simp [hc]
      intro hm
      exact hc (List.mem_map.mpr ⟨(n, v), hm, rfl⟩)
  · intro n
    simp only [LS.at?, has_names h]
    by_cases hc : n ∈ (seqOf s live).names <;> simp [hc]
  · intro n; rw [has_names h]; simp
  · rw [h.size]; simp [seqOf]
  · simp only [LS.empty, decide_eq_true_eq]
    rw [(ring_ends _ _ _ _ h.ring0).1]
    cases live with
    | nil => simp [seqOf]
    | cons i q =>
      have := h.ne_zero (n := i) (by simp)
      simp [seqOf]
      omega
  · rw [names_seqOf]; exact hnd
  · intro n hn
    rw [mem_names] at hn
    obtain ⟨i, hi, rfl⟩ := hn
    have := h.ne_zero hi
    omega

theorem run_refines {α : Type} (ops : List (Op α)) : ∀ (s : LS α) (live free : List Nat) (hist : List (Op α × Out)),
    Rep s live free → ListHistory s.blank hist (seqOf s live) →
    ∃ q, ListHistory s.blank (hist ++ (listRun s ops).2) q ∧ Observes (listRun s ops).1 q := by
  induction ops with
  | nil =>
    intro s live free hist h hh
    exact ⟨_, by simpa [listRun] using hh, rep_observes h⟩
  | cons op ops ih =>
    intro s live free hist h hh
    obtain ⟨live', free', a, b, c⟩ := step_refines h op
    have := ih _ live' free' (hist ++ [(op, (s.step op).2)]) a (by rw [b]; exact .snoc hh c)
    rw [b] at this
    simpa [listRun] using this

/-- C09: for every history of calls on a fresh list there is a run of the specification with the same
answers, and what can be observed of the list is exactly the sequence of that run. -/
theorem C09_list_is_sequence {α : Type} (blank : α) (ops : List (Op α)) :
    ∃ q, ListHistory blank (listRun (LS.init blank) ops).2 q ∧ Observes (listRun (LS.init blank) ops).1 q := by
  obtain ⟨free, h⟩ := Rep.init blank
  exact run_refines ops (LS.init blank) [] free [] h .nil

/-- C09: a name keeps denoting its element: a call that does not name it (and is not removeFirst or
removeLast) does not change what its name denotes. -/
theorem C09_names_are_stable {α : Type} (blank : α) (ops : List (Op α)) (op : Op α) (n : Int) (v : α)
    (hat : (listRun (LS.init blank) ops).1.at? n = some v)
    (hop : ∀ w, op ≠ .remove n ∧ op ≠ .set n w ∧ op ≠ .removeFirst ∧ op ≠ .removeLast) :
    ((listRun (LS.init blank) ops).1.step op).1.at? n = some v := by
  have hinv : ∀ (ops : List (Op α)) (s : LS α), (∃ live free, Rep s live free) → ∃ live free, Rep (listRun s ops).1 live free := by
    intro ops
    induction ops with
    | nil => intro s h; exact h
    | cons op ops ih =>
      rintro s ⟨live, free, h⟩
      obtain ⟨l, f, a, -⟩ := step_refines h op
      exact ih _ ⟨l, f, a⟩
  obtain ⟨free0, h0⟩ := Rep.init blank
  obtain ⟨live, free, h⟩ := hinv ops _ ⟨_, _, h0⟩
  generalize (listRun (LS.init blank) ops).1 = s at *
  obtain ⟨l, f, a, -, c⟩ := step_refines h op
  have o1 := rep_observes h
  have o2 := rep_observes a
  rw [o2.at?]
  rw [o1.at?] at hat
  generalize seqOf (s.step op).1 l = q' at *
  generalize seqOf s live = q at *
  generalize (s.step op).2 = out at *
  have insA : ∀ k e, (n, v) ∈ q.insAfter k e := by
    intro k e
    simp only [Spec.Seq.insAfter]
    split
    · simp [hat]
    · rw [List.mem_flatMap]
      refine ⟨_, hat, ?_⟩
      split <;> simp
  have insB : ∀ k e, (n, v) ∈ q.insBefore k e := by
    intro k e
    simp only [Spec.Seq.insBefore]
    split
    · simp [hat]
    · rw [List.mem_flatMap]
      refine ⟨_, hat, ?_⟩
      split <;> simp
  have hsplit : ∀ k, (n, v) ∈ q.only k ++ q.del k ∧ (n, v) ∈ q.before k ++ q.upto k := by
    intro k
    constructor
    · by_cases e : n = k
      · subst e; simp [Spec.Seq.only, hat]
      · simp [Spec.Seq.del, hat, e]
    · have : q.before k ++ q.upto k = q := List.takeWhile_append_dropWhile
      rw [this]; exact hat
  have hop' := hop v
  cases op with
  | addAfter k =>
    simp only [listSpec] at c; split at c
    · obtain ⟨f, -, -, -, rfl⟩ := c; exact insA _ _
    · rw [c.2]; exact hat
  | addBefore k =>
    simp only [listSpec] at c; split at c
    · obtain ⟨f, -, -, -, rfl⟩ := c; exact insB _ _
    · rw [c.2]; exact hat
  | addValueAfter w k =>
    simp only [listSpec] at c; split at c
    · obtain ⟨f, -, -, -, rfl⟩ := c; exact insA _ _
    · rw [c.2]; exact hat
  | addValueBefore w k =>
    simp only [listSpec] at c; split at c
    · obtain ⟨f, -, -, -, rfl⟩ := c; exact insB _ _
    · rw [c.2]; exact hat
  | set k w =>
    have hk : n ≠ k := by rintro rfl; exact (hop w).2.1 rfl
    simp only [listSpec] at c; split at c
    · rw [c.2]; simp only [Spec.Seq.set, List.mem_map]
      exact ⟨_, hat, by simp [hk]⟩
    · rw [c.2]; exact hat
  | rotateToHead k =>
    simp only [listSpec] at c; split at c
    · rw [c.2]; have := (hsplit k).2; rw [List.mem_append] at this ⊢; tauto
    · rw [c.2]; exact hat
  | rotateToTail k =>
    simp only [listSpec] at c; split at c
    · next hk =>
      rw [c.2]
      by_cases e : n = k
      · subst e; simp [Spec.Seq.only, hat]
      · have := (hsplit k).2
        rw [List.mem_append] at this
        rw [List.mem_append, List.mem_append]
        rcases this with h1 | h1
        · tauto
        · left; left
          cases hd : q.upto k with
          | nil => rw [hd] at h1; simp at h1
          | cons x r =>
            rw [hd] at h1
            have hx : x.1 = k := by
              have := List.head?_dropWhile_not (fun x : Int × α => decide (x.1 ≠ k)) q
              simp only [Spec.Seq.upto] at hd
              rw [hd] at this
              simpa using this
            simp only [List.mem_cons] at h1
            rcases h1 with rfl | h1
            · exact absurd hx e
            · simpa using h1
    · rw [c.2]; exact hat
  | moveToHead k =>
    simp only [listSpec] at c; split at c
    · rw [c.2]; exact (hsplit k).1
    · rw [c.2]; exact hat
  | moveToTail k =>
    simp only [listSpec] at c; split at c
    · rw [c.2]; have := (hsplit k).1; rw [List.mem_append] at this ⊢; tauto
    · rw [c.2]; exact hat
  | remove k =>
    have hk : n ≠ k := by rintro rfl; exact hop'.1 rfl
    rw [c.2]; simp [Spec.Seq.del, hat, hk]
  | removeFirst => exact absurd rfl hop'.2.2.1
  | removeLast => exact absurd rfl hop'.2.2.2

/-- a list of ten values with removals: names are reused only after other free names -/
example : (listRun (LS.init 0) [.addValueBefore 5 0, .addValueBefore 6 0, .addValueAfter 7 2, .remove 3, .moveToTail 2,
    .addValueBefore 8 3, .rotateToHead 2]).2.map (·.2) =
    [.name 2, .name 3, .name 4, .bool true, .bool true, .threw, .bool true] ∧
  ((listRun (LS.init 0) [.addValueBefore 5 0, .addValueBefore 6 0, .addValueAfter 7 2, .remove 3, .moveToTail 2,
    .addValueBefore 8 3, .rotateToHead 2]).1).forwardFrom 10 2 = some [2, 4] := by decide

/-- the hypotheses of `C09_names_are_stable` -/
example : (listRun (LS.init 0) [.addValueBefore 5 0, .addValueBefore 6 0]).1.at? 3 = some 6 ∧
    (∀ w : Nat, (Op.rotateToHead 2 : Op Nat) ≠ .remove 3 ∧ (Op.rotateToHead 2 : Op Nat) ≠ .set 3 w ∧
      (Op.rotateToHead 2 : Op Nat) ≠ .removeFirst ∧ (Op.rotateToHead 2 : Op Nat) ≠ .removeLast) := by
  refine ⟨by decide, fun w => ⟨?_, ?_, ?_, ?_⟩⟩ <;> exact fun h => by cases h

/-- every reachable state satisfies the representation invariant -/
theorem list_reachable {α : Type} (blank : α) (ops : List (Op α)) :
    ∃ live free, Rep (listRun (LS.init blank) ops).1 live free := by
  have hinv : ∀ (ops : List (Op α)) (s : LS α), (∃ live free, Rep s live free) → ∃ live free, Rep (listRun s ops).1 live free := by
    intro ops
    induction ops with
    | nil => intro s h; exact h
    | cons op ops ih =>
      rintro s ⟨live, free, h⟩
      obtain ⟨l, f, a, -⟩ := step_refines h op
      exact ih _ ⟨l, f, a⟩
  obtain ⟨free0, h0⟩ := Rep.init blank
  exact hinv ops _ ⟨_, _, h0⟩

/-- C09: the slots touched are always inside of the node vector: after any history every link of a node that is
the sentinel, the free list head, a live or a free node leads to such a node, below the vector's size. -/
theorem C09_links_in_bounds {α : Type} (blank : α) (ops : List (Op α)) :
    ∃ nodes : List Nat, 0 ∈ nodes ∧ 1 ∈ nodes ∧ (∀ n, (listRun (LS.init blank) ops).1.has n = true → n.toNat ∈ nodes) ∧
      ∀ i ∈ nodes, i < (listRun (LS.init blank) ops).1.cap ∧
        (listRun (LS.init blank) ops).1.nx i ∈ nodes ∧ (listRun (LS.init blank) ops).1.pv i ∈ nodes := by
  obtain ⟨live, free, h⟩ := list_reachable blank ops
  generalize (listRun (LS.init blank) ops).1 = s at *
  have ringmem : ∀ (c : List Nat), Ring s.nx s.pv c → ∀ i ∈ c, s.nx i ∈ c ∧ s.pv i ∈ c := by
    intro c hc i hi
    obtain ⟨p, q, rfl⟩ := List.append_of_mem hi
    rw [ring_rotate] at hc
    obtain ⟨e1, e2⟩ := ring_ends _ _ i (q ++ p) hc
    constructor
    · rw [e1]
      have := List.head_mem (l := q ++ p ++ [i]) (by simp)
      simp only [List.mem_append, List.mem_cons, List.not_mem_nil, or_false] at this ⊢
      tauto
    · rw [e2]
      have := List.getLast_mem (l := i :: (q ++ p)) (by simp)
      simp only [List.mem_cons, List.mem_append] at this ⊢
      tauto
  refine ⟨0 :: 1 :: (live ++ free), by simp, by simp, ?_, ?_⟩
  · intro n hn
    rw [h.has_iff] at hn
    obtain ⟨i, hi, rfl⟩ := hn
    simp [hi]
  · intro i hi
    refine ⟨h.bound i hi, ?_⟩
    simp only [List.mem_cons, List.mem_append] at hi
    have hi' : i ∈ 0 :: live ∨ i ∈ 1 :: free := by simp only [List.mem_cons]; tauto
    rcases hi' with hi' | hi'
    · have := ringmem _ h.ring0 i hi'
      simp only [List.mem_cons, List.mem_append] at this ⊢
      tauto
    · have := ringmem _ h.ring1 i hi'
      simp only [List.mem_cons, List.mem_append] at this ⊢
      tauto

theorem clear_ends {α : Type} (n : Nat) : ∀ (s : LS α) (live free : List Nat), Rep s live free → live.length = n →
    ∃ t free', s.clearLoop (n + 1) = some t ∧ Rep t [] free' := by
  induction n with
  | zero =>
    intro s live free h hl
    have : live = [] := List.length_eq_zero_iff.mp hl
    subst this
    have hf : s.first = 0 := by rw [(first_eq h).1]; simp
    have e : s.remove s.first = (s, false) := by rw [hf]; simp [LS.remove, LS.has]
    exact ⟨s, free, by simp [LS.clearLoop, e], h⟩
  | succ n ih =>
    intro s live free h hl
    obtain ⟨i, q, rfl⟩ : ∃ i q, live = i :: q := by
      cases live with
      | nil => simp at hl
      | cons i q => exact ⟨i, q, rfl⟩
    have hf : s.first = (i : Nat) := by rw [(first_eq h).1]; simp
    obtain ⟨r1, r2, -⟩ := Rep.remove (p := []) h
    obtain ⟨t, free', e, ht⟩ := ih _ _ _ r1 (by simpa using hl)
    refine ⟨t, free', ?_, ht⟩
    rw [LS.clearLoop, hf]
    have : s.remove i = ((s.remove i).1, true) := by rw [← r2]
    rw [this]
    exact e

/-- C09: `clear()` ends and leaves an empty list. -/
theorem C09_clear {α : Type} (blank : α) (ops : List (Op α)) :
    ∃ fuel t, (listRun (LS.init blank) ops).1.clearLoop fuel = some t ∧ Observes t [] := by
  obtain ⟨live, free, h⟩ := list_reachable blank ops
  obtain ⟨t, free', e, ht⟩ := clear_ends _ _ _ _ h rfl
  exact ⟨_, t, e, rep_observes ht⟩

/-- C09: `find` answers the first name carrying the value, or 0. -/
theorem C09_find {α : Type} [DecidableEq α] (blank : α) (ops : List (Op α)) (v : α) :
    ∃ fuel q, Observes (listRun (LS.init blank) ops).1 q ∧
      (listRun (LS.init blank) ops).1.findFrom v fuel (listRun (LS.init blank) ops).1.first =
        some (match q.find? (fun x => decide (x.2 = v)) with | some x => x.1 | none => 0) := by
  obtain ⟨live, free, h⟩ := list_reachable blank ops
  generalize (listRun (LS.init blank) ops).1 = s at *
  refine ⟨live.length + 1, seqOf s live, rep_observes h, ?_⟩
  have key : ∀ (q p : List Nat), live = p ++ q →
      s.findFrom v (q.length + 1) ((q ++ [0]).head (by simp) : Nat) =
        some (match (seqOf s q).find? (fun x => decide (x.2 = v)) with | some x => x.1 | none => 0) := by
    intro q
    induction q with
    | nil => intro p _; simp [LS.findFrom, seqOf]
    | cons x q ih =>
      intro p hl
      have hx : x ∈ live := by rw [hl]; simp
      have hx0 := h.ne_zero hx
      have hhas : s.has x = true := (h.has_iff _).mpr ⟨x, hx, rfl⟩
      have hu : s.isUsing x = true := (h.isUsing_iff _).mpr ⟨x, by simp [hx], rfl⟩
      have hnx : s.nx x = (q ++ [0]).head (by simp) := by
        have hr := h.ring0
        rw [hl] at hr
        have : Path s.nx s.pv ((0 :: p) ++ x :: (q ++ [0])) := by simpa [Ring] using hr
        rw [path_split] at this
        have h2 := this.2
        cases q with
        | nil => exact h2.1.1
        | cons y q => exact h2.1.1
      have hhead : ((x :: q ++ [0]).head (by simp)) = x := by simp
      simp only [hhead, List.length_cons]
      rw [LS.findFrom, if_pos (by omega)]
      have hn : s.next x = ((q ++ [0]).head (by simp) : Nat) := by
        simp only [LS.next, hu, if_true, Int.toNat_natCast, hnx]
      have hat : s.at? x = some (s.val x) := by simp [LS.at?, hhas]
      rw [hn, hat, seqOf_cons]
      by_cases e : s.val x = v
      · simp [e]
      · simp only [Option.some.injEq, if_neg e]
        rw [ih (p ++ [x]) (by simp [hl])]
        simp [e]
  rw [(first_eq h).1]
  exact key live [] rfl

/-! ## C10 -/

/-- Calls that add values and remove or reorder elements; not a valueless add (whose element is not counted by
`SumList`, List.hpp:216-219) and not a write through `at()`. -/
def sumOpAllowed {α : Type} : Op α → Prop
  | .addAfter _ => False
  | .addBefore _ => False
  | .set _ _ => False
  | _ => True

def sumRun {α : Type} (sz : α → Nat) (s : SumLS α) : List (Op α) → SumLS α × List (Op α × Out)
  | [] => (s, [])
  | op :: ops => ((sumRun sz (s.step sz op).1 ops).1, (op, (s.step sz op).2) :: (sumRun sz (s.step sz op).1 ops).2)

theorem sum_step_list {α : Type} (sz : α → Nat) (s : SumLS α) (op : Op α) :
    (s.step sz op).1.list = (s.list.step op).1 ∧ (s.step sz op).2 = (s.list.step op).2 := by
  have hrem : ∀ n, (s.remove sz n).1.list = (s.list.remove n).1 ∧ (s.remove sz n).2 = (s.list.remove n).2 := by
    intro n
    simp only [SumLS.remove]
    cases hh : s.list.has n with
    | true => simp
    | false => simp [LS.remove, hh]
  have hadd : ∀ v n a, (s.addValue sz v n a).1.list = (s.list.addValue v n a).1 ∧
      (s.addValue sz v n a).2 = (s.list.addValue v n a).2 := by
    intro v n a
    simp only [SumLS.addValue]
    split <;> simp
  cases op <;> simp [SumLS.step, LS.step, hrem, hadd]

theorem sum_run_list {α : Type} (sz : α → Nat) (ops : List (Op α)) : ∀ (s : SumLS α),
    (sumRun sz s ops).1.list = (listRun s.list ops).1 ∧ (sumRun sz s ops).2 = (listRun s.list ops).2 := by
  induction ops with
  | nil => intro s; exact ⟨rfl, rfl⟩
  | cons op ops ih =>
    intro s
    obtain ⟨a, b⟩ := sum_step_list sz s op
    obtain ⟨c, d⟩ := ih (s.step sz op).1
    simp only [sumRun, listRun, c, d, a, b, and_self]

/-- total size of a sequence -/
def seqTotal {α : Type} (sz : α → Nat) (q : Spec.Seq α) : Nat := (q.map (fun x => sz x.2)).sum

theorem seqTotal_append {α : Type} (sz : α → Nat) (q r : Spec.Seq α) :
    seqTotal sz (q ++ r) = seqTotal sz q + seqTotal sz r := by simp [seqTotal]

theorem seqTotal_perm {α : Type} (sz : α → Nat) {q r : Spec.Seq α} (h : q.Perm r) : seqTotal sz q = seqTotal sz r :=
  (h.map _).sum_nat

theorem insAfter_perm {α : Type} (q : Spec.Seq α) (n : Int) (e : Int × α) (hn : n = 0 ∨ n ∈ q.names) (hd : q.names.Nodup)
    (h0 : 0 ∉ q.names) : (q.insAfter n e).Perm (e :: q) ∧ (q.insBefore n e).Perm (e :: q) := by
  rcases hn with rfl | hn
  · simp only [Spec.Seq.insAfter, Spec.Seq.insBefore, if_true]
    exact ⟨List.Perm.refl _, List.perm_append_singleton e q⟩
  · obtain ⟨x, hx, hxn⟩ := List.mem_map.mp hn
    obtain ⟨l, r, rfl⟩ := List.append_of_mem hx
    obtain ⟨xn, xv⟩ := x
    simp only at hxn
    subst hxn
    have hn0 : xn ≠ 0 := by rintro rfl; exact h0 hn
    simp only [Spec.Seq.names, List.map_append, List.map_cons, List.nodup_append, List.nodup_cons] at hd
    obtain ⟨d1, ⟨d2, d3⟩, d4⟩ := hd
    have hl : xn ∉ Spec.Seq.names l := fun hh => d4 xn hh xn (by simp) rfl
    obtain ⟨-, -, y3, y4, -⟩ := split_facts l r xn xv hl d2 hn0
    rw [y3, y4]
    constructor
    · have := List.perm_middle (a := e) (l₁ := l ++ [(xn, xv)]) (l₂ := r)
      simpa using this
    · exact List.perm_middle

theorem del_total {α : Type} (sz : α → Nat) (q : Spec.Seq α) (n : Int) (hd : q.names.Nodup) (v : α) (hv : (n, v) ∈ q) :
    seqTotal sz q = sz v + seqTotal sz (q.del n) := by
  obtain ⟨l, r, rfl⟩ := List.append_of_mem hv
  simp only [Spec.Seq.names, List.map_append, List.map_cons, List.nodup_append, List.nodup_cons] at hd
  obtain ⟨d1, ⟨d2, d3⟩, d4⟩ := hd
  have hl : n ∉ Spec.Seq.names l := fun hh => d4 n hh n (by simp) rfl
  have : Spec.Seq.del n (l ++ (n, v) :: r) = l ++ r := by
    simp only [Spec.Seq.del, List.filter_append, List.filter_cons]
    rw [filter_ne l n hl, filter_ne r n d2]; simp
  rw [this]
  simp [seqTotal]
  omega

theorem only_del_perm {α : Type} (q : Spec.Seq α) (n : Int) : (q.only n ++ q.del n).Perm q := by
  have := List.filter_append_perm (fun x : Int × α => decide (x.1 = n)) q
  simpa [Spec.Seq.only, Spec.Seq.del] using this

theorem sum_step {α : Type} (sz : α → Nat) (s : SumLS α) (live free : List Nat) (h : Rep s.list live free)
    (hs : s.sum = seqTotal sz (seqOf s.list live) % W64) (op : Op α) (hop : sumOpAllowed op) :
    ∃ live' free', Rep (s.step sz op).1.list live' free' ∧
      (s.step sz op).1.sum = seqTotal sz (seqOf (s.step sz op).1.list live') % W64 := by
  obtain ⟨e1, e2⟩ := sum_step_list sz s op
  obtain ⟨live', free', a, b, c⟩ := step_refines h op
  refine ⟨live', free', by rw [e1]; exact a, ?_⟩
  have o := rep_observes h
  rw [e1]
  generalize seqOf (s.list.step op).1 live' = q' at *
  have h0 : (0 : Int) ∉ (seqOf s.list live).names := fun hh => by have := o.positive 0 hh; omega
  have hrem : ∀ n, (s.remove sz n).1.sum = seqTotal sz ((seqOf s.list live).del n) % W64 := by
    intro n
    simp only [SumLS.remove, has_names h]
    by_cases hc : n ∈ (seqOf s.list live).names
    · simp only [hc, decide_true, Bool.not_true, Bool.false_eq_true, if_false]
      have hc' := hc
      rw [mem_names] at hc'
      obtain ⟨i, hi, rfl⟩ := hc'
      have hm : ((i : Int), s.list.val i) ∈ seqOf s.list live := List.mem_map.mpr ⟨i, hi, rfl⟩
      have ht := del_total sz _ _ o.distinct _ hm
      simp only [Int.toNat_natCast]
      rw [hs, ht]
      generalize sz (s.list.val i) = x
      generalize seqTotal sz _ = y
      split <;> omega
    · simp only [hc, decide_false, Bool.not_false, if_true]
      rw [hs]
      congr 2
      exact (filter_ne _ _ hc).symm
  have hadd : ∀ v n (after : Bool), (if n = 0 ∨ n ∈ (seqOf s.list live).names then
        ∃ f, (s.list.addValue v n after).2 = .name f ∧
          (q' = if after then (seqOf s.list live).insAfter n (f, v) else (seqOf s.list live).insBefore n (f, v))
      else (s.list.addValue v n after).2 = .threw ∧ q' = seqOf s.list live) →
      (s.addValue sz v n after).1.sum = seqTotal sz q' % W64 := by
    intro v n after hc
    split at hc
    · next hn =>
      obtain ⟨f, hf, hq⟩ := hc
      have hp : q'.Perm ((f, v) :: seqOf s.list live) := by
        have := insAfter_perm (seqOf s.list live) n (f, v) hn o.distinct h0
        rw [hq]; cases after
        · exact this.2
        · exact this.1
      rw [seqTotal_perm sz hp]
      simp only [SumLS.addValue, hf]
      simp [seqTotal, hs]
      omega
    · obtain ⟨hf, rfl⟩ := hc
      simp only [SumLS.addValue, hf, if_true, hs]
  have hperm : ∀ (n : Int) (q1 : Spec.Seq α), q1.Perm (seqOf s.list live) → seqTotal sz q1 % W64 = s.sum := by
    intro n q1 hp; rw [seqTotal_perm sz hp, hs]
  cases op with
  | addAfter n => exact absurd hop (by simp [sumOpAllowed])
  | addBefore n => exact absurd hop (by simp [sumOpAllowed])
  | set n v => exact absurd hop (by simp [sumOpAllowed])
  | addValueAfter v n =>
    apply hadd v n true
    simp only [listSpec, LS.step] at c
    split
    · next hc => rw [if_pos hc] at c; obtain ⟨f, x, -, -, y⟩ := c; exact ⟨f, x, by simpa using y⟩
    · next hc => rw [if_neg hc] at c; exact c
  | addValueBefore v n =>
    apply hadd v n false
    simp only [listSpec, LS.step] at c
    split
    · next hc => rw [if_pos hc] at c; obtain ⟨f, x, -, -, y⟩ := c; exact ⟨f, x, by simpa using y⟩
    · next hc => rw [if_neg hc] at c; exact c
  | remove n => rw [c.2]; exact hrem n
  | removeFirst =>
    obtain ⟨l, f, x1, x2, x3, x4⟩ := remove_refines h s.list.first
    have : q' = (seqOf s.list live).del s.list.first := by
      rw [c.2]
      cases live with
      | nil => rfl
      | cons i q =>
        have hf : s.list.first = (i : Nat) := by rw [(first_eq h).1]; simp
        obtain ⟨y1, y2, y3⟩ := rep_split_names (p := []) h
        obtain ⟨z1, -⟩ := split_facts (seqOf s.list []) (seqOf s.list q) i (s.list.val i) y1 y2 y3
        have e0 : seqOf s.list [] = [] := rfl
        rw [e0] at z1
        rw [hf, seqOf_cons]
        simpa using z1.symm
    rw [this]; exact hrem _
  | removeLast =>
    have : q' = (seqOf s.list live).del s.list.last := by
      rw [c.2]
      rcases List.eq_nil_or_concat live with rfl | ⟨p, i, rfl⟩
      · rfl
      · have h' : Rep s.list (p ++ i :: []) free := by simpa using h
        have hf : s.list.last = (i : Nat) := by rw [(first_eq h').2, List.getLast_cons (by simp)]; simp
        obtain ⟨x1, x2, x3⟩ := rep_split_names h'
        obtain ⟨z1, -⟩ := split_facts (seqOf s.list p) (seqOf s.list []) i (s.list.val i) x1 x2 x3
        have e : seqOf s.list (p.concat i) = seqOf s.list p ++ ((i : Int), s.list.val i) :: seqOf s.list [] := by simp [seqOf]
        rw [hf, e, z1]
        simp [seqOf]
    rw [this]; exact hrem _
  | rotateToHead n =>
    show s.sum = _
    simp only [listSpec, LS.step] at c
    split at c
    · rw [hperm n]; rw [c.2]
      have : (seqOf s.list live).before n ++ (seqOf s.list live).upto n = seqOf s.list live := List.takeWhile_append_dropWhile
      conv => rhs; rw [← this]
      exact List.perm_append_comm
    · rw [c.2, hs]
  | rotateToTail n =>
    show s.sum = _
    simp only [listSpec, LS.step] at c
    split at c
    · next hn =>
      rw [hperm n]; rw [c.2]
      rw [mem_names] at hn
      obtain ⟨i, hi, rfl⟩ := hn
      obtain ⟨p, q, rfl⟩ := List.append_of_mem hi
      obtain ⟨x1, x2, x3⟩ := rep_split_names h
      obtain ⟨y1, y2⟩ := takeWhile_split (seqOf s.list p) (seqOf s.list q) i (s.list.val i) x1
      obtain ⟨-, z2, -⟩ := split_facts (seqOf s.list p) (seqOf s.list q) i (s.list.val i) x1 x2 x3
      rw [seqOf_append s.list p, seqOf_cons, y1, y2, z2]
      simp only [List.tail_cons]
      refine (List.perm_append_singleton _ _).trans ?_
      exact List.perm_append_comm (l₁ := _ :: seqOf s.list q)
    · rw [c.2, hs]
  | moveToHead n =>
    show s.sum = _
    simp only [listSpec, LS.step] at c
    split at c
    · rw [hperm n]; rw [c.2]; exact only_del_perm _ _
    · rw [c.2, hs]
  | moveToTail n =>
    show s.sum = _
    simp only [listSpec, LS.step] at c
    split at c
    · rw [hperm n]; rw [c.2]; exact List.perm_append_comm.trans (only_del_perm _ _)
    · rw [c.2, hs]

/-- C10: for every history of adding values, removing and reordering, the running sum is the sum of the sizes of
the current elements modulo 2^64 (where the current elements are those given by the specification of C09). -/
theorem C10_sum_exact {α : Type} (sz : α → Nat) (blank : α) (ops : List (Op α)) (hops : ∀ op ∈ ops, sumOpAllowed op) :
    ∃ q, ListHistory blank (sumRun sz (SumLS.init blank) ops).2 q ∧
      Observes (sumRun sz (SumLS.init blank) ops).1.list q ∧
      (sumRun sz (SumLS.init blank) ops).1.sum = (q.map (fun x => sz x.2)).sum % 2 ^ 64 := by
  have inv : ∀ (ops : List (Op α)) (s : SumLS α) (live free : List Nat) (hist : List (Op α × Out)), (∀ op ∈ ops, sumOpAllowed op) →
      Rep s.list live free → s.sum = seqTotal sz (seqOf s.list live) % W64 → ListHistory s.list.blank hist (seqOf s.list live) →
      ∃ q, ListHistory s.list.blank (hist ++ (sumRun sz s ops).2) q ∧ Observes (sumRun sz s ops).1.list q ∧
        (sumRun sz s ops).1.sum = seqTotal sz q % W64 := by
    intro ops
    induction ops with
    | nil =>
      intro s live free hist _ h hs hh
      exact ⟨_, by simpa [sumRun] using hh, rep_observes h, hs⟩
    | cons op ops ih =>
      intro s live free hist hall h hs hh
      obtain ⟨live', free', a, b⟩ := sum_step sz s live free h hs op (hall op (by simp))
      obtain ⟨l2, f2, a2, b2, c2⟩ := step_refines h op
      obtain ⟨e1, e2⟩ := sum_step_list sz s op
      -- the live names are determined by the state
      have hq : seqOf (s.step sz op).1.list live' = seqOf (s.list.step op).1 l2 := by
        have o1 := rep_observes a
        have o2 := rep_observes a2
        rw [← e1] at o2
        obtain ⟨f1, g1⟩ := o1.forward
        have w1 := forward_from a live' [] rfl
        rw [← (first_eq a).1] at w1
        have a2' := a2; rw [← e1] at a2'
        have w2 := forward_from a2' l2 [] rfl
        rw [← (first_eq a2').1] at w2
        have hlen : live'.length = l2.length := by rw [← a.size, ← a2'.size]
        rw [hlen, w2] at w1
        have : l2 = live' := by
          have := Option.some.inj w1
          exact (List.map_inj_right (fun a b e => by omega)).mp this
        rw [this, e1]
      have := ih (s.step sz op).1 live' free' (hist ++ [(op, (s.step sz op).2)]) (fun o ho => hall o (by simp [ho])) a b (by
        rw [e1, b2, e2, ← e1, hq]
        exact .snoc hh c2)
      rw [e1, b2] at this
      simpa [sumRun] using this
  obtain ⟨free, h⟩ := Rep.init blank
  exact inv ops (SumLS.init blank) [] free [] hops h (by simp [seqTotal, seqOf, SumLS.init]) .nil

example : (∀ op ∈ [Op.addValueBefore 5 0, .addValueBefore 6 0, .remove 2, .addValueAfter 9 0, .moveToTail 4], sumOpAllowed (α := Nat) op) ∧
    (sumRun id (SumLS.init 0) [Op.addValueBefore 5 0, .addValueBefore 6 0, .remove 2, .addValueAfter 9 0, .moveToTail 4]).1.sum = 15 := by
  refine ⟨?_, by decide⟩
  intro op hop
  simp at hop
  rcases hop with rfl | rfl | rfl | rfl | rfl <;> trivial

/-- C10: the restriction is needed: a valueless add of a list whose blank has a size is not counted, and removing
that element makes the sum wrap. -/
theorem C10_valueless_add_wrong :
    (sumRun id (SumLS.init 7) [.addAfter 0]).1.sum = 0 ∧
    (sumRun id (SumLS.init 7) [.addAfter 0, .remove 2]).1.sum = 2 ^ 64 - 7 := by decide

end Rtmfp
