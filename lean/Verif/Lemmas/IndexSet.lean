import Verif.Model.IndexSet
import Verif.Spec.IndexSet

namespace Rtmfp
namespace IndexSet

/-- membership -/
def Mem (s : List Range) (i : Nat) : Prop := ∃ r ∈ s, r.start ≤ i ∧ i ≤ r.stop

/-- non-empty 64-bit ranges, ascending with a gap between neighbours -/
def Canon : List Range → Prop
  | [] => True
  | r :: rest => r.start ≤ r.stop ∧ r.stop < W64 ∧ (∀ q ∈ rest, r.stop + 1 < q.start) ∧ Canon rest

@[simp] theorem Mem_nil (i : Nat) : Mem [] i ↔ False := by simp [Mem]
@[simp] theorem Mem_cons (r : Range) (s : List Range) (i : Nat) :
    Mem (r :: s) i ↔ (r.start ≤ i ∧ i ≤ r.stop) ∨ Mem s i := by simp [Mem]

theorem contig_iff (r : Range) (f t : Nat) (ht : t < W64) (hr : r.stop < W64) :
    r.contiguousWith f t = true ↔ f ≤ r.stop + 1 ∧ r.start ≤ t + 1 ∧ (t + 1 = W64 → r.start ≤ t) := by
  simp only [Range.contiguousWith, Range.intersects, Bool.and_eq_true, decide_eq_true_eq]
  by_cases h : t < (t + 1) % W64
  · rw [if_pos h]; by_cases hf : f > 0
    · rw [if_pos hf]; omega
    · rw [if_neg hf]; omega
  · rw [if_neg h]; by_cases hf : f > 0
    · rw [if_pos hf]; omega
    · rw [if_neg hf]; omega

theorem extend_eq (r : Range) (f t : Nat) (h : f ≤ t) :
    r.extend f t = ⟨min f r.start, max t r.stop⟩ := by
  simp only [Range.extend, if_pos h, Range.mk.injEq]
  constructor <;> split <;> omega

theorem mergeLoop_mem (each : Range) (rest : List Range) (h : each.start ≤ each.stop) (hw : each.stop < W64)
    (hc : Canon rest) (hlow : ∀ q ∈ rest, each.start ≤ q.start) :
    (∀ i, Mem (mergeLoop each rest) i ↔ (each.start ≤ i ∧ i ≤ each.stop) ∨ Mem rest i) ∧
    Canon (mergeLoop each rest) ∧ (∀ q ∈ mergeLoop each rest, each.start ≤ q.start) := by
  induction rest generalizing each with
  | nil => simp [mergeLoop, Canon, h, hw]
  | cons m rest ih =>
    obtain ⟨m1, m2, m3, m4⟩ := hc
    have hm := hlow m (by simp)
    simp only [mergeLoop]
    split
    next hcontig =>
      rw [contig_iff _ _ _ m2 hw] at hcontig
      have he : each.extend m.start m.stop = ⟨each.start, max m.stop each.stop⟩ := by
        rw [extend_eq _ _ _ m1]; congr 1; omega
      rw [he]
      have hq : ∀ q ∈ rest, each.start ≤ q.start := fun q hq => hlow q (by simp [hq])
      obtain ⟨a, b, c⟩ := ih ⟨each.start, max m.stop each.stop⟩ (by simp only; omega) (by simp only; omega) m4 hq
      refine ⟨?_, b, c⟩
      intro i
      rw [a, Mem_cons]
      simp only
      constructor
      · rintro (h | h)
        · by_cases hi : i ≤ each.stop
          · left; omega
          · right; left; omega
        · right; right; exact h
      · rintro (h | h | h)
        · left; omega
        · left; omega
        · right; exact h
    next hn =>
      rw [contig_iff _ _ _ m2 hw] at hn
      refine ⟨by intro i; simp, ⟨h, hw, ?_, m1, m2, m3, m4⟩, ?_⟩
      · intro q hq
        simp at hq
        have : each.stop + 1 < m.start := by omega
        rcases hq with rfl | hq
        · exact this
        · have := m3 q hq; omega
      · intro q hq
        simp at hq
        rcases hq with rfl | rfl | hq
        · omega
        · omega
        · exact hlow q (by simp [hq])

theorem addLoop_mem (f t : Nat) (hft : f ≤ t) (ht : t < W64) (s : List Range) (hc : Canon s) :
    (∀ i, Mem (addLoop f t s) i ↔ Mem s i ∨ (f ≤ i ∧ i ≤ t)) ∧ Canon (addLoop f t s) ∧
    (∀ x, (∀ q ∈ s, x ≤ q.start) → x ≤ f → ∀ q ∈ addLoop f t s, x ≤ q.start) := by
  induction s with
  | nil => simp [addLoop, Canon, hft, ht]
  | cons r rest ih =>
    obtain ⟨r1, r2, r3, r4⟩ := hc
    simp only [addLoop]
    split
    next hcontig =>
      rw [contig_iff _ _ _ ht r2] at hcontig
      rw [extend_eq _ _ _ hft]
      have hlow : ∀ q ∈ rest, (⟨min f r.start, max t r.stop⟩ : Range).start ≤ q.start := by
        intro q hq; have := r3 q hq; simp only; omega
      obtain ⟨a, b, c⟩ := mergeLoop_mem ⟨min f r.start, max t r.stop⟩ rest (by simp only; omega)
        (by simp only; omega) r4 hlow
      refine ⟨?_, b, ?_⟩
      · intro i
        rw [a, Mem_cons]
        simp only
        constructor
        · rintro (h | h)
          · by_cases hi : r.start ≤ i ∧ i ≤ r.stop
            · left; left; exact hi
            · right; omega
          · left; right; exact h
        · rintro ((h | h) | h)
          · left; omega
          · right; exact h
          · left; omega
      · intro x hx hxf q hq
        have h1 := hx r (by simp)
        have h2 := c q hq
        simp only at h2
        omega
    next hn =>
      rw [contig_iff _ _ _ ht r2] at hn
      split
      next hgt =>
        refine ⟨by intro i; simp only [Mem_cons]; constructor <;> rintro (h | h) <;> simp [h], ?_, ?_⟩
        · refine ⟨hft, ht, ?_, r1, r2, r3, r4⟩
          intro q hq
          simp at hq
          rcases hq with rfl | hq
          · simp only; omega
          · have := r3 q hq; simp only; omega
        · intro x hx hxf q hq
          simp at hq
          rcases hq with rfl | hq
          · exact hxf
          · exact hx q (by simpa using hq)
      next hle =>
        obtain ⟨a, b, c⟩ := ih r4
        refine ⟨?_, ?_, ?_⟩
        · intro i
          simp only [Mem_cons, a]
          constructor
          · rintro (h | h | h) <;> simp [h]
          · rintro ((h | h) | h) <;> simp [h]
        · refine ⟨r1, r2, ?_, b⟩
          intro q hq
          have := c (r.stop + 2) (fun q hq => by have := r3 q hq; omega) (by omega) q hq
          omega
        · intro x hx hxf q hq
          simp at hq
          rcases hq with rfl | hq
          · exact hx q (by simp)
          · exact c x (fun q hq => hx q (by simp [hq])) hxf q hq

theorem Canon_mono (s : List Range) (x : Nat) (h : ∀ q ∈ s, x < q.start) (i : Nat) (hm : Mem s i) : x < i := by
  obtain ⟨r, hr, h1, h2⟩ := hm
  have := h r hr; omega

theorem removeLoop_mem (f t : Nat) (hft : f ≤ t) (ht : t < W64) (s : List Range) (hc : Canon s) :
    (∀ i, Mem (removeLoop f t s) i ↔ Mem s i ∧ ¬ (f ≤ i ∧ i ≤ t)) ∧ Canon (removeLoop f t s) ∧
    (∀ x, (∀ q ∈ s, x ≤ q.start) → ∀ q ∈ removeLoop f t s, x ≤ q.start) := by
  induction s with
  | nil => simp [removeLoop, Canon]
  | cons r rest ih =>
    obtain ⟨r1, r2, r3, r4⟩ := hc
    have hgt : ∀ i, Mem rest i → r.stop + 1 < i := fun i hi => Canon_mono rest _ r3 i hi
    simp only [removeLoop]
    split
    next h =>
      refine ⟨?_, ⟨r1, r2, r3, r4⟩, fun x hx => hx⟩
      intro i
      simp only [Mem_cons]
      constructor
      · rintro (h | h)
        · exact ⟨Or.inl h, by omega⟩
        · have := hgt i h
          exact ⟨Or.inr h, by omega⟩
      · exact fun h => h.1
    next h1 =>
      obtain ⟨a, b, c⟩ := ih r4
      split
      next h2 =>
        simp only [Range.intersects, Bool.not_eq_true', Bool.and_eq_false_iff, decide_eq_false_iff_not] at h2
        refine ⟨?_, ⟨r1, r2, ?_, b⟩, ?_⟩
        · intro i
          simp only [Mem_cons, a]
          constructor
          · rintro (h | h)
            · exact ⟨Or.inl h, by omega⟩
            · exact ⟨Or.inr h.1, h.2⟩
          · rintro ⟨h | h, h'⟩
            · exact Or.inl h
            · exact Or.inr ⟨h, h'⟩
        · intro q hq
          have := c (r.stop + 2) (fun q hq => by have := r3 q hq; omega) q hq
          omega
        · intro x hx q hq
          simp at hq
          rcases hq with rfl | hq
          · exact hx q (by simp)
          · exact c x (fun q hq => hx q (by simp [hq])) q hq
      next h2 =>
        simp only [Range.intersects, Bool.not_eq_true', Bool.and_eq_false_iff, decide_eq_false_iff_not,
          not_or, Decidable.not_not] at h2
        split
        next h3 =>
          split
          next h4 =>
            refine ⟨?_, ?_, ?_⟩
            · intro i
              simp only [Mem_cons]
              constructor
              · rintro (h | h | h)
                · exact ⟨Or.inl (by omega), by omega⟩
                · exact ⟨Or.inl (by omega), by omega⟩
                · have := hgt i h; exact ⟨Or.inr h, by omega⟩
              · rintro ⟨h | h, h'⟩
                · by_cases hi : i < f
                  · left; omega
                  · right; left; omega
                · right; right; exact h
            · refine ⟨by simp only; omega, by simp only; omega, ?_, by simp only; omega, r2, r3, r4⟩
              intro q hq
              simp at hq
              rcases hq with rfl | hq
              · simp only; omega
              · have := r3 q hq; simp only; omega
            · intro x hx q hq
              have h0 := hx r (by simp)
              simp at hq
              rcases hq with rfl | rfl | hq
              · exact h0
              · simp only; omega
              · exact hx q (by simp [hq])
          next h4 =>
            refine ⟨?_, ?_, ?_⟩
            · intro i
              simp only [Mem_cons, a]
              constructor
              · rintro (h | h)
                · exact ⟨Or.inl (by omega), by omega⟩
                · exact ⟨Or.inr h.1, h.2⟩
              · rintro ⟨h | h, h'⟩
                · left; omega
                · right; exact ⟨h, h'⟩
            · refine ⟨by simp only; omega, by simp only; omega, ?_, b⟩
              intro q hq
              have := c (r.stop + 2) (fun q hq => by have := r3 q hq; omega) q hq
              simp only; omega
            · intro x hx q hq
              simp at hq
              rcases hq with rfl | hq
              · exact hx r (by simp)
              · exact c x (fun q hq => hx q (by simp [hq])) q hq
        next h3 =>
          split
          next h4 =>
            refine ⟨?_, ?_, ?_⟩
            · intro i
              simp only [Mem_cons]
              constructor
              · rintro (h | h)
                · exact ⟨Or.inl (by omega), by omega⟩
                · have := hgt i h; exact ⟨Or.inr h, by omega⟩
              · rintro ⟨h | h, h'⟩
                · left; omega
                · right; exact h
            · exact ⟨by simp only; omega, r2, r3, r4⟩
            · intro x hx q hq
              have h0 := hx r (by simp)
              simp at hq
              rcases hq with rfl | hq
              · simp only; omega
              · exact hx q (by simp [hq])
          next h4 =>
            refine ⟨?_, b, fun x hx => c x (fun q hq => hx q (by simp [hq]))⟩
            intro i
            simp only [Mem_cons, a]
            constructor
            · rintro ⟨h, h'⟩; exact ⟨Or.inr h, h'⟩
            · rintro ⟨h | h, h'⟩
              · omega
              · exact ⟨h, h'⟩

theorem add_mem (s : IndexSet) (f t : Nat) (ht : t < W64) (hc : Canon s) :
    (∀ i, Mem (s.add f t) i ↔ Mem s i ∨ (f ≤ i ∧ i ≤ t)) ∧ Canon (s.add f t) := by
  unfold add
  split
  · exact ⟨by intro i; constructor; · exact Or.inl
              · rintro (h | h); · exact h
                · omega, hc⟩
  · have := addLoop_mem f t (by omega) ht s hc
    exact ⟨this.1, this.2.1⟩

theorem remove_mem (s : IndexSet) (f t : Nat) (ht : t < W64) (hc : Canon s) :
    (∀ i, Mem (s.remove f t) i ↔ Mem s i ∧ ¬ (f ≤ i ∧ i ≤ t)) ∧ Canon (s.remove f t) := by
  unfold remove
  split
  · exact ⟨by intro i; constructor
              · intro h; exact ⟨h, by omega⟩
              · exact fun h => h.1, hc⟩
  · have := removeLoop_mem f t (by omega) ht s hc
    exact ⟨this.1, this.2.1⟩

theorem foldl_add_mem (l : List (Nat × Nat)) (hl : ∀ r ∈ l, r.2 < W64) (s : IndexSet) (hc : Canon s) :
    (∀ i, Mem (l.foldl (fun s r => IndexSet.add s r.1 r.2) s) i ↔ Mem s i ∨ ∃ r ∈ l, r.1 ≤ i ∧ i ≤ r.2) ∧
    Canon (l.foldl (fun s r => IndexSet.add s r.1 r.2) s) := by
  induction l generalizing s with
  | nil => simp [hc]
  | cons r l ih =>
    simp only [List.foldl_cons]
    obtain ⟨a, b⟩ := add_mem s r.1 r.2 (hl r (by simp)) hc
    obtain ⟨c, d⟩ := ih (fun q hq => hl q (by simp [hq])) _ b
    refine ⟨?_, d⟩
    intro i
    rw [c, a]
    simp [or_assoc]

theorem Canon_stop (s : List Range) (hc : Canon s) : ∀ r ∈ s, r.stop < W64 ∧ r.start ≤ r.stop := by
  induction s with
  | nil => simp
  | cons r s ih =>
    obtain ⟨r1, r2, r3, r4⟩ := hc
    intro q hq
    simp at hq
    rcases hq with rfl | hq
    · exact ⟨r2, r1⟩
    · exact ih r4 q hq

theorem addSet_mem (s other : IndexSet) (hc : Canon s) (ho : Canon other) :
    (∀ i, Mem (s.addSet other) i ↔ Mem s i ∨ Mem other i) ∧ Canon (s.addSet other) := by
  have h := foldl_add_mem (other.map (fun r => (r.start, r.stop)))
    (by intro r hr; simp at hr; obtain ⟨a, ha, rfl⟩ := hr; exact (Canon_stop _ ho a ha).1) s hc
  simp only [List.foldl_map] at h
  refine ⟨?_, h.2⟩
  intro i
  rw [addSet, h.1]
  have : (∃ r, r ∈ List.map (fun r : Range => (r.start, r.stop)) other ∧ r.1 ≤ i ∧ i ≤ r.2) ↔ Mem other i := by
    constructor
    · rintro ⟨r, hr, h1, h2⟩
      rw [List.mem_map] at hr
      obtain ⟨a, ha, rfl⟩ := hr
      exact ⟨a, ha, h1, h2⟩
    · rintro ⟨r, hr, h1, h2⟩
      exact ⟨(r.start, r.stop), List.mem_map.mpr ⟨r, hr, rfl⟩, h1, h2⟩
  rw [this]

theorem removeSet_mem (s other : IndexSet) (hc : Canon s) (ho : Canon other) :
    (∀ i, Mem (s.removeSet other) i ↔ Mem s i ∧ ¬ Mem other i) ∧ Canon (s.removeSet other) := by
  unfold removeSet
  induction other generalizing s with
  | nil => simp [hc]
  | cons r l ih =>
    simp only [List.foldl_cons]
    obtain ⟨r1, r2, r3, r4⟩ := ho
    obtain ⟨a, b⟩ := remove_mem s r.start r.stop r2 hc
    obtain ⟨c, d⟩ := ih _ b r4
    refine ⟨?_, d⟩
    intro i
    rw [c, a, Mem_cons, not_or, and_assoc]

theorem contains_iff (s : IndexSet) (i : Nat) : s.contains i = true ↔ Mem s i := by
  simp [contains, Mem, Range.contains, and_comm]

theorem mem_lt (s : IndexSet) (hc : Canon s) (i : Nat) (h : Mem s i) : i < W64 := by
  obtain ⟨r, hr, h1, h2⟩ := h
  have := (Canon_stop s hc r hr).1
  omega

end IndexSet
end Rtmfp
