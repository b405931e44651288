import Verif.Lemmas.IndexSet

/-!
# C07, C08: IndexSet
-/

namespace Rtmfp
open IndexSet

/-- The call made for an operation of the specification. -/
def idxOp : Spec.SetOp → IndexSet.Op
  | .add a b => .add a b
  | .remove a b => .remove a b
  | .addAll l => .addSet l
  | .removeAll l => .removeSet l
  | .clear => .clear

/-- The model's state after a history starting from the empty set. -/
def idxAfter (ops : List Spec.SetOp) : IndexSet := ops.foldl (fun s o => IndexSet.step s (idxOp o)) []

theorem idx_refines (ops : List Spec.SetOp) (h : ∀ o ∈ ops, o.is64) :
    (∀ i, Mem (idxAfter ops) i ↔ Spec.setAfter ops i) ∧ Canon (idxAfter ops) := by
  have key : ∀ (ops : List Spec.SetOp) (s : IndexSet) (S : Nat → Prop), (∀ o ∈ ops, o.is64) →
      Canon s → (∀ i, Mem s i ↔ S i) →
      (∀ i, Mem (ops.foldl (fun s o => IndexSet.step s (idxOp o)) s) i ↔ (ops.foldl Spec.SetOp.apply S) i) ∧
      Canon (ops.foldl (fun s o => IndexSet.step s (idxOp o)) s) := by
    intro ops
    induction ops with
    | nil => intro s S _ hc hm; exact ⟨hm, hc⟩
    | cons o ops ih =>
      intro s S h hc hm
      simp only [List.foldl_cons]
      have ho := h o (by simp)
      have hstep : Canon (IndexSet.step s (idxOp o)) ∧ ∀ i, Mem (IndexSet.step s (idxOp o)) i ↔ Spec.SetOp.apply S o i := by
        cases o with
        | add a b =>
          obtain ⟨x, y⟩ := add_mem s a b ho.2 hc
          exact ⟨y, fun i => by simp only [idxOp, IndexSet.step, Spec.SetOp.apply]; rw [x, hm]⟩
        | remove a b =>
          obtain ⟨x, y⟩ := remove_mem s a b ho.2 hc
          exact ⟨y, fun i => by simp only [idxOp, IndexSet.step, Spec.SetOp.apply]; rw [x, hm]⟩
        | addAll l =>
          obtain ⟨x, y⟩ := foldl_add_mem l (fun r hr => (ho r hr).2) [] trivial
          obtain ⟨z, w⟩ := addSet_mem s _ hc y
          exact ⟨w, fun i => by simp only [idxOp, IndexSet.step, Spec.SetOp.apply]; rw [z, hm, x]; simp⟩
        | removeAll l =>
          obtain ⟨x, y⟩ := foldl_add_mem l (fun r hr => (ho r hr).2) [] trivial
          obtain ⟨z, w⟩ := removeSet_mem s _ hc y
          exact ⟨w, fun i => by simp only [idxOp, IndexSet.step, Spec.SetOp.apply]; rw [z, hm, x]; simp⟩
        | clear => exact ⟨trivial, fun i => by simp [idxOp, IndexSet.step, Spec.SetOp.apply]⟩
      exact ih _ _ (fun o' ho' => h o' (by simp [ho'])) hstep.1 hstep.2
  exact key ops [] _ h trivial (fun i => by simp)

/-! ## C07 -/

/-- C07: after any history membership is exactly that of the mathematical set. -/
theorem C07_contains (ops : List Spec.SetOp) (h : ∀ o ∈ ops, o.is64) (i : Nat) :
    (idxAfter ops).contains i = true ↔ Spec.setAfter ops i := by
  rw [contains_iff, (idx_refines ops h).1]

/-- C07: emptiness. -/
theorem C07_empty (ops : List Spec.SetOp) (h : ∀ o ∈ ops, o.is64) :
    (idxAfter ops).empty = true ↔ ∀ i, ¬ Spec.setAfter ops i := by
  obtain ⟨hm, hc⟩ := idx_refines ops h
  constructor
  · intro he i hi
    rw [← hm] at hi
    simp [IndexSet.empty] at he
    rw [he] at hi; simp at hi
  · intro hn
    cases hs : idxAfter ops with
    | nil => rfl
    | cons r rest =>
      exfalso
      rw [hs] at hc hm
      exact hn r.start ((hm _).mp (by simp [hc.1]))

theorem lowest_spec (s : IndexSet) (hc : Canon s) (hne : s ≠ []) :
    Mem s s.lowestIndex ∧ ∀ j, Mem s j → s.lowestIndex ≤ j := by
  cases s with
  | nil => exact absurd rfl hne
  | cons r rest =>
    obtain ⟨r1, r2, r3, r4⟩ := hc
    simp only [lowestIndex, List.head?_cons]
    refine ⟨by simp [r1], ?_⟩
    intro j hj
    simp at hj
    rcases hj with h | ⟨q, hq, h1, h2⟩
    · omega
    · have := r3 q hq; omega

theorem highest_spec (s : IndexSet) (hc : Canon s) (hne : s ≠ []) :
    Mem s s.highestIndex ∧ ∀ j, Mem s j → j ≤ s.highestIndex := by
  induction s with
  | nil => exact absurd rfl hne
  | cons r rest ih =>
    obtain ⟨r1, r2, r3, r4⟩ := hc
    cases rest with
    | nil => simp [highestIndex, r1]
    | cons q rest =>
      obtain ⟨a, b⟩ := ih r4 (by simp)
      have he : IndexSet.highestIndex (r :: q :: rest) = IndexSet.highestIndex (q :: rest) := by
        simp [highestIndex]
      rw [he]
      refine ⟨by rw [Mem_cons]; exact Or.inr a, ?_⟩
      intro j hj
      rw [Mem_cons] at hj
      rcases hj with h | h
      · have h1 := r3 q (by simp)
        have h2 := b q.start (by simp [r4.1])
        omega
      · exact b j h

/-- C07: lowest and highest index of a non-empty set (both are 0 for the empty set). -/
theorem C07_lowest_highest (ops : List Spec.SetOp) (h : ∀ o ∈ ops, o.is64)
    (hne : ∃ i, Spec.setAfter ops i) :
    (Spec.setAfter ops (idxAfter ops).lowestIndex ∧ ∀ j, Spec.setAfter ops j → (idxAfter ops).lowestIndex ≤ j) ∧
    (Spec.setAfter ops (idxAfter ops).highestIndex ∧ ∀ j, Spec.setAfter ops j → j ≤ (idxAfter ops).highestIndex) := by
  obtain ⟨hm, hc⟩ := idx_refines ops h
  have hn : idxAfter ops ≠ [] := by
    intro he
    obtain ⟨i, hi⟩ := hne
    rw [← hm, he] at hi
    simp at hi
  obtain ⟨a, b⟩ := lowest_spec _ hc hn
  obtain ⟨c, d⟩ := highest_spec _ hc hn
  exact ⟨⟨(hm _).mp a, fun j hj => b j ((hm j).mpr hj)⟩, ⟨(hm _).mp c, fun j hj => d j ((hm j).mpr hj)⟩⟩

/-- the indices of a list of ranges in order -/
def enumerate (s : IndexSet) : List Nat := s.flatMap (fun r => List.range' r.start (r.stop - r.start + 1))

theorem enumerate_spec (s : IndexSet) (hc : Canon s) :
    (enumerate s).Pairwise (· < ·) ∧ ∀ i, i ∈ enumerate s ↔ Mem s i := by
  induction s with
  | nil => simp [enumerate]
  | cons r rest ih =>
    obtain ⟨r1, r2, r3, r4⟩ := hc
    obtain ⟨a, b⟩ := ih r4
    have he : enumerate (r :: rest) = List.range' r.start (r.stop - r.start + 1) ++ enumerate rest := by
      simp [enumerate]
    rw [he]
    refine ⟨?_, ?_⟩
    · rw [List.pairwise_append]
      refine ⟨List.pairwise_lt_range', a, ?_⟩
      intro x hx y hy
      rw [List.mem_range'_1] at hx
      rw [b] at hy
      have := Canon_mono rest _ r3 y hy
      omega
    · intro i
      rw [List.mem_append, b, Mem_cons, List.mem_range'_1]
      constructor
      · rintro (h | h)
        · left; omega
        · right; exact h
      · rintro (h | h)
        · left; omega
        · right; exact h

theorem range_size (r : Range) (h1 : r.start ≤ r.stop) (h2 : r.stop < W64) :
    r.size = if r.start = 0 ∧ r.stop = U64MAX then U64MAX else r.stop - r.start + 1 := by
  simp only [Range.size]
  split <;> split <;> omega

theorem size_enumerate (s : IndexSet) (hc : Canon s) : s.size = min (enumerate s).length U64MAX := by
  have hlen : ∀ s : IndexSet, (enumerate s).length = (s.map (fun r => r.stop - r.start + 1)).sum := by
    intro s; simp [enumerate, List.length_flatMap]
  -- the sum of the lengths of ranges above `lo` is bounded
  have hbound : ∀ (s : IndexSet) (lo : Nat), Canon s → (∀ q ∈ s, lo ≤ q.start) → lo ≤ W64 →
      (enumerate s).length ≤ W64 - lo := by
    intro s
    induction s with
    | nil => simp [enumerate]
    | cons r rest ih =>
      intro lo hc hlo hw
      obtain ⟨r1, r2, r3, r4⟩ := hc
      have := hlo r (by simp)
      have := ih (r.stop + 1) r4 (fun q hq => by have := r3 q hq; omega) (by omega)
      have he : (enumerate (r :: rest)).length = r.stop - r.start + 1 + (enumerate rest).length := by
        simp [enumerate]
      omega
  have hfold : ∀ (s : IndexSet) (acc lo : Nat), Canon s → (∀ q ∈ s, lo ≤ q.start) → 0 < lo → lo ≤ W64 →
      acc + (enumerate s).length < W64 →
      s.foldl (fun rv r => (rv + r.size) % W64) acc = acc + (enumerate s).length := by
    intro s
    induction s with
    | nil => simp [enumerate]
    | cons r rest ih =>
      intro acc lo hc hlo hpos hw hlt
      obtain ⟨r1, r2, r3, r4⟩ := hc
      have h0 := hlo r (by simp)
      have he : (enumerate (r :: rest)).length = r.stop - r.start + 1 + (enumerate rest).length := by
        simp [enumerate]
      simp only [List.foldl_cons]
      rw [range_size r r1 r2, if_neg (by omega)]
      rw [he] at hlt ⊢
      rw [ih _ (r.stop + 1) r4 (fun q hq => by have := r3 q hq; omega) (by omega) (by omega) (by omega)]
      omega
  cases s with
  | nil => simp [size, enumerate]
  | cons r rest =>
    obtain ⟨r1, r2, r3, r4⟩ := hc
    have he : (enumerate (r :: rest)).length = r.stop - r.start + 1 + (enumerate rest).length := by
      simp [enumerate]
    have hb := hbound rest (r.stop + 1) r4 (fun q hq => by have := r3 q hq; omega) (by omega)
    simp only [size, List.foldl_cons]
    rw [range_size r r1 r2]
    by_cases hfull : r.start = 0 ∧ r.stop = U64MAX
    · rw [if_pos hfull]
      have hnil : rest = [] := by
        cases rest with
        | nil => rfl
        | cons q l =>
          have h1 := r3 q (by simp)
          have h2 := (Canon_stop _ r4 q (by simp))
          omega
      subst hnil
      simp [enumerate]
      omega
    · rw [if_neg hfull]
      by_cases hr0 : r.start = 0
      · -- then rest lies strictly above r.stop + 1
        by_cases hnil : rest = []
        · subst hnil; simp [enumerate]; omega
        · have hb2 : (enumerate rest).length ≤ W64 - (r.stop + 2) := by
            apply hbound rest (r.stop + 2) r4 (fun q hq => by have := r3 q hq; omega)
            cases rest with
            | nil => exact absurd rfl hnil
            | cons q l =>
              have h1 := r3 q (by simp)
              have h2 := (Canon_stop _ r4 q (by simp))
              omega
          rw [hfold rest _ (r.stop + 1) r4 (fun q hq => by have := r3 q hq; omega) (by omega) (by omega) (by omega)]
          have : 1 ≤ (enumerate rest).length := by
            cases rest with
            | nil => exact absurd rfl hnil
            | cons q l => simp [enumerate]; omega
          omega
      · rw [hfold rest _ (r.stop + 1) r4 (fun q hq => by have := r3 q hq; omega) (by omega) (by omega) (by omega)]
        omega

/-- C07: `size` is the number of members, saturated at the largest 64-bit value. -/
theorem C07_size (ops : List Spec.SetOp) (h : ∀ o ∈ ops, o.is64) :
    ∃ l : List Nat, l.Nodup ∧ (∀ i, i ∈ l ↔ Spec.setAfter ops i) ∧
      (idxAfter ops).size = min l.length (2 ^ 64 - 1) := by
  obtain ⟨hm, hc⟩ := idx_refines ops h
  obtain ⟨a, b⟩ := enumerate_spec _ hc
  refine ⟨enumerate (idxAfter ops), ?_, fun i => by rw [b, hm], ?_⟩
  · exact a.imp (fun h => Nat.ne_of_lt h)
  · exact size_enumerate _ hc

/-- every history reaches sizes: e.g. the full range saturates -/
example : (idxAfter [.add 0 (2 ^ 64 - 1)]).size = 2 ^ 64 - 1 ∧ (idxAfter [.add 3 5, .add 9 9, .remove 4 4]).size = 3 := by
  decide

theorem indexLoop_ok (t : Nat) (ht : t < U64MAX) (fuel f : Nat) (hf : f ≤ t + 1) (hfuel : t + 1 - f < fuel) :
    indexLoop t fuel f = some (List.range' f (t + 1 - f)) := by
  induction fuel generalizing f with
  | zero => omega
  | succ k ih =>
    simp only [indexLoop]
    split
    · next h =>
      have hm : (f + 1) % W64 = f + 1 := by omega
      rw [hm, ih (f + 1) (by omega) (by omega)]
      have : t + 1 - f = (t + 1 - (f + 1)) + 1 := by omega
      rw [this, List.range'_succ]
      simp
    · next h =>
      have : t + 1 - f = 0 := by omega
      simp [this]

theorem indicesDo_ok (s : IndexSet) (hc : Canon s) (hmax : ∀ r ∈ s, r.stop < U64MAX) (fuel : Nat)
    (hfuel : ∀ r ∈ s, r.stop - r.start + 1 < fuel) : indicesDo fuel s = some (enumerate s) := by
  induction s with
  | nil => simp [indicesDo, enumerate]
  | cons r rest ih =>
    obtain ⟨r1, r2, r3, r4⟩ := hc
    have h1 := hmax r (by simp)
    have h2 := hfuel r (by simp)
    simp only [indicesDo]
    rw [indexLoop_ok r.stop h1 fuel r.start (by omega) (by omega),
      ih r4 (fun q hq => hmax q (by simp [hq])) (fun q hq => hfuel q (by simp [hq]))]
    have : r.stop + 1 - r.start = r.stop - r.start + 1 := by omega
    simp [enumerate, this]

/-- C07 (part): iteration visits exactly the members, each once, in increasing order, provided the
largest 64-bit value is not a member.  Missing: that case, see `C07_iteration_diverges_at_max`. -/
theorem C07_iteration_partial (ops : List Spec.SetOp) (h : ∀ o ∈ ops, o.is64)
    (hmax : ¬ Spec.setAfter ops (2 ^ 64 - 1)) :
    ∃ fuel l, indicesDo fuel (idxAfter ops) = some l ∧ l.Pairwise (· < ·) ∧
      ∀ i, i ∈ l ↔ Spec.setAfter ops i := by
  obtain ⟨hm, hc⟩ := idx_refines ops h
  obtain ⟨a, b⟩ := enumerate_spec _ hc
  refine ⟨2 ^ 64 + 1, enumerate (idxAfter ops), ?_, a, fun i => by rw [b, hm]⟩
  apply indicesDo_ok _ hc
  · intro r hr
    have := Canon_stop _ hc r hr
    rcases Nat.lt_or_ge r.stop U64MAX with h | h
    · exact h
    · exfalso
      apply hmax
      rw [← hm]
      exact ⟨r, hr, by omega, by omega⟩
  · intro r hr
    have := Canon_stop _ hc r hr
    omega

example : ¬ Spec.setAfter [.add 3 5, .add 9 9] (2 ^ 64 - 1) := by
  simp [Spec.setAfter, Spec.SetOp.apply]

/-- C07, negation: the iteration over a set containing the largest 64-bit value never ends (src/IndexSet.cpp:155:
`eachIndex++` wraps to 0 which is again `<= toIndex`). -/
theorem C07_iteration_diverges_at_max (fuel : Nat) :
    indicesDo fuel (idxAfter [.add (2 ^ 64 - 1) (2 ^ 64 - 1)]) = none := by
  have key : ∀ (fuel f : Nat), f ≤ U64MAX → indexLoop U64MAX fuel f = none := by
    intro fuel
    induction fuel with
    | zero => simp [indexLoop]
    | succ k ih =>
      intro f hf
      simp only [indexLoop, if_pos hf]
      rw [ih _ (by omega)]
      rfl
  have h : idxAfter [.add (2 ^ 64 - 1) (2 ^ 64 - 1)] = [⟨U64MAX, U64MAX⟩] := by decide
  rw [h]
  simp only [indicesDo]
  rw [key fuel U64MAX (Nat.le_refl _)]

/-! ## C08 -/

/-- C08: the stored ranges are non-empty and each ends strictly more than one below the start of every
later one (ascending, disjoint, not adjacent). -/
theorem C08_canonical (ops : List Spec.SetOp) (h : ∀ o ∈ ops, o.is64) :
    (∀ r ∈ idxAfter ops, r.start ≤ r.stop ∧ r.stop < 2 ^ 64) ∧
    (idxAfter ops).Pairwise (fun a b => a.stop + 1 < b.start) := by
  have hc := (idx_refines ops h).2
  refine ⟨fun r hr => ⟨(Canon_stop _ hc r hr).2, (Canon_stop _ hc r hr).1⟩, ?_⟩
  generalize idxAfter ops = s at hc
  induction s with
  | nil => simp
  | cons r rest ih => exact List.pairwise_cons.mpr ⟨hc.2.2.1, ih hc.2.2.2⟩

theorem Canon_unique (s t : IndexSet) (hs : Canon s) (ht : Canon t) (h : ∀ i, Mem s i ↔ Mem t i) : s = t := by
  induction s generalizing t with
  | nil =>
    cases t with
    | nil => rfl
    | cons r rest =>
      have := (h r.start).mpr (by simp [ht.1])
      simp at this
  | cons r rest ih =>
    cases t with
    | nil =>
      have := (h r.start).mp (by simp [hs.1])
      simp at this
    | cons q rest' =>
      obtain ⟨r1, r2, r3, r4⟩ := hs
      obtain ⟨q1, q2, q3, q4⟩ := ht
      have gr : ∀ i, Mem rest i → r.stop + 1 < i := fun i hi => Canon_mono rest _ r3 i hi
      have gq : ∀ i, Mem rest' i → q.stop + 1 < i := fun i hi => Canon_mono rest' _ q3 i hi
      have e1 : r.start = q.start := by
        have h1 := (h r.start).mp (by simp [r1])
        have h2 := (h q.start).mpr (by simp [q1])
        rw [Mem_cons] at h1 h2
        have h1' : q.start ≤ r.start := by
          rcases h1 with h1 | h1
          · omega
          · have := gq _ h1; omega
        have h2' : r.start ≤ q.start := by
          rcases h2 with h2 | h2
          · omega
          · have := gr _ h2; omega
        omega
      have e2 : r.stop = q.stop := by
        rcases Nat.lt_trichotomy r.stop q.stop with hlt | heq | hgt
        · exfalso
          have := (h (r.stop + 1)).mpr (by rw [Mem_cons]; left; omega)
          rw [Mem_cons] at this
          rcases this with h1 | h1
          · omega
          · have := gr _ h1; omega
        · exact heq
        · exfalso
          have := (h (q.stop + 1)).mp (by rw [Mem_cons]; left; omega)
          rw [Mem_cons] at this
          rcases this with h1 | h1
          · omega
          · have := gq _ h1; omega
      have e : r = q := by cases r; cases q; simp_all
      subst e
      congr 1
      apply ih _ r4 q4
      intro i
      have hi := h i
      rw [Mem_cons, Mem_cons] at hi
      constructor
      · intro hm
        rcases hi.mp (Or.inr hm) with h1 | h1
        · have := gr _ hm; omega
        · exact h1
      · intro hm
        rcases hi.mpr (Or.inr hm) with h1 | h1
        · have := gq _ hm; omega
        · exact h1

/-- C08: the representation depends only on the set: two histories that give the same set give the
same ranges. -/
theorem C08_representation_unique (ops ops' : List Spec.SetOp) (h : ∀ o ∈ ops, o.is64)
    (h' : ∀ o ∈ ops', o.is64) (hS : ∀ i, Spec.setAfter ops i ↔ Spec.setAfter ops' i) :
    idxAfter ops = idxAfter ops' := by
  obtain ⟨a, b⟩ := idx_refines ops h
  obtain ⟨c, d⟩ := idx_refines ops' h'
  exact Canon_unique _ _ b d (fun i => by rw [a, c, hS])

/-- C08: no list of ranges denoting the same set is shorter. -/
theorem C08_minimal (ops : List Spec.SetOp) (h : ∀ o ∈ ops, o.is64) (other : List (Nat × Nat))
    (hS : ∀ i, Spec.setAfter ops i ↔ ∃ r ∈ other, r.1 ≤ i ∧ i ≤ r.2) :
    (idxAfter ops).length ≤ other.length := by
  obtain ⟨hm, hc⟩ := idx_refines ops h
  have hmo : ∀ i, Mem (idxAfter ops) i ↔ ∃ r ∈ other, r.1 ≤ i ∧ i ≤ r.2 := fun i => by rw [hm, hS]
  clear hm hS h
  generalize idxAfter ops = s at hc hmo
  -- induction on s: the range of `other` covering the first start ends within the first range
  have key : ∀ (s : IndexSet) (other : List (Nat × Nat)), Canon s →
      (∀ r ∈ s, ∃ p ∈ other, p.1 ≤ r.start ∧ r.start ≤ p.2) →
      (∀ i, (∃ p ∈ other, p.1 ≤ i ∧ i ≤ p.2) → ∀ a ∈ s, i ≠ a.stop + 1) → s.length ≤ other.length := by
    intro s
    induction s with
    | nil => simp
    | cons r rest ih =>
      intro other hc hcov hgap
      obtain ⟨r1, r2, r3, r4⟩ := hc
      obtain ⟨p, hp, hp1, hp2⟩ := hcov r (by simp)
      have hpe : p.2 ≤ r.stop := by
        rcases Nat.lt_or_ge r.stop p.2 with hlt | hge
        · exfalso
          exact hgap (r.stop + 1) ⟨p, hp, by omega, by omega⟩ r (by simp) rfl
        · exact hge
      have hlen : (other.erase p).length = other.length - 1 := List.length_erase_of_mem hp
      have hpos : 0 < other.length := List.length_pos_of_mem hp
      have := ih (other.erase p) r4 ?_ ?_
      · simp only [List.length_cons]; omega
      · intro q hq
        obtain ⟨p', hp', h1, h2⟩ := hcov q (by simp [hq])
        have := r3 q hq
        have hne : p' ≠ p := by rintro rfl; omega
        exact ⟨p', (List.mem_erase_of_ne hne).mpr hp', h1, h2⟩
      · rintro i ⟨p', hp', h1, h2⟩ a ha
        exact hgap i ⟨p', List.mem_of_mem_erase hp', h1, h2⟩ a (by simp [ha])
  apply key s other hc
  · intro r hr
    exact (hmo r.start).mp ⟨r, hr, Nat.le_refl _, (Canon_stop s hc r hr).2⟩
  · intro i hi a ha
    have hmem := (hmo i).mpr hi
    clear hmo hi key
    induction s with
    | nil => simp at ha
    | cons r rest ih =>
      obtain ⟨r1, r2, r3, r4⟩ := hc
      rw [Mem_cons] at hmem
      simp at ha
      rcases ha with rfl | ha
      · rcases hmem with h1 | h1
        · omega
        · have := Canon_mono rest _ r3 i h1; omega
      · rcases hmem with h1 | h1
        · have := r3 a ha
          have := (Canon_stop _ r4 a ha).2
          omega
        · exact ih r4 ha h1

/-- histories with 64-bit boundary values, merging and splitting -/
example : (∀ o ∈ [Spec.SetOp.add 5 9, .add 0 3, .add 4 4, .add (2 ^ 64 - 1) (2 ^ 64 - 1), .remove 2 6], o.is64) ∧
    idxAfter [.add 5 9, .add 0 3, .add 4 4, .add (2 ^ 64 - 1) (2 ^ 64 - 1), .remove 2 6] =
      [⟨0, 1⟩, ⟨7, 9⟩, ⟨2 ^ 64 - 1, 2 ^ 64 - 1⟩] := by
  refine ⟨?_, by decide⟩
  intro o ho
  simp at ho
  rcases ho with rfl | rfl | rfl | rfl | rfl <;> simp [Spec.SetOp.is64]

end Rtmfp
