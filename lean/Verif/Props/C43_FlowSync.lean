import Verif.Model.FlowSync

/-! # C43: flow synchronization barriers (the messages are in `C39_C40_TCMessage`) -/

namespace Rtmfp
namespace FlowSync
open TC (RO)

/-- who waits on a barrier, from the calls and their answers alone: everyone who was told to wait since the last time the
barrier was reached or reset -/
def waiting (id : Nat) : List (Op × Bool) → List (Option Nat) :=
  List.foldl (fun w e => match e with
    | (.sync i _ f, false) => if i = id then w ++ [f] else w
    | (.sync i _ _, true) => if i = id then [] else w
    | (.reset i, _) => if i = id then [] else w
    | (.user _ _, _) => w) []

theorem waiting_snoc (id : Nat) (tr : List (Op × Bool)) (op : Op) (r : Bool) : waiting id (tr ++ [(op, r)]) =
    (match (op, r) with
    | (.sync i _ f, false) => if i = id then waiting id tr ++ [f] else waiting id tr
    | (.sync i _ _, true) => if i = id then [] else waiting id tr
    | (.reset i, _) => if i = id then [] else waiting id tr
    | (.user _ _, _) => waiting id tr) := by
  rw [waiting, List.foldl_append]; rfl

theorem barriers_waiting {o tr s} (h : Exec o tr s) (id : Nat) : s.barriers id = waiting id tr := by
  induction h with
  | nil => rfl
  | @snoc tr s op s' r _ hs ih =>
    rw [waiting_snoc]
    cases op with
    | sync i c f =>
      rw [step, sync] at hs
      split at hs
      · cases hs
        simp only [reset]
        by_cases e : i = id
        · subst e; simp
        · rw [if_neg e, if_neg (fun x => e x.symm), ih]
      · cases hs
        simp only
        by_cases e : i = id
        · subst e; simp [ih]
        · rw [if_neg e, if_neg (fun x => e x.symm), ih]
    | reset i =>
      cases hs
      simp only [reset]
      by_cases e : i = id
      · subst e; simp
      · rw [if_neg e, if_neg (fun x => e x.symm), ih]
    | user f o' => cases hs; exact ih

theorem release1_spec (order : Nat → RO) (x : Option Nat) (g : Nat) :
    release1 order x g = if x = some g ∧ order g = .hold then .sequence else order g := by
  cases x with
  | none => simp [release1]
  | some f =>
    rw [release1]
    by_cases e : f = g
    · subst e
      by_cases h : order f = .hold <;> simp [h, setOrder]
    · by_cases h : order f = .hold <;> simp [h, setOrder, e, Ne.symm e]

theorem releaseFold_spec (l : List (Option Nat)) (g : Nat) : ∀ order : Nat → RO,
    l.foldl release1 order g = if some g ∈ l ∧ order g = .hold then .sequence else order g := by
  induction l with
  | nil => intro order; simp
  | cons x l ih =>
    intro order
    rw [List.foldl_cons, ih, release1_spec]
    by_cases e : x = some g
    · subst e
      by_cases h : order g = .hold <;> simp [h]
    · have : some g ≠ x := fun y => e y.symm
      simp [e, this]

theorem releaseAll_spec (order : Nat → RO) (l : List (Option Nat)) (g : Nat) :
    releaseAll order l g = if some g ∈ l ∧ order g = .hold then .sequence else order g := by
  rw [releaseAll, releaseFold_spec]; simp

theorem hold_spec (order : Nat → RO) (x : Option Nat) (g : Nat) :
    hold order x g = if x = some g ∧ order g = .sequence then .hold else order g := by
  cases x with
  | none => simp [hold]
  | some f =>
    rw [hold]
    by_cases e : f = g
    · subst e
      by_cases h : order f = .sequence <;> simp [h, setOrder]
    · by_cases h : order f = .sequence <;> simp [h, setOrder, e, Ne.symm e]

/-- The manager is used as intended: nobody else changes the receive orders, no flow starts on hold, and a flow that is held
(so that it receives nothing) isn't synchronized again while it is. -/
inductive Intended : (Nat → RO) → List (Op × Bool) → State → Prop
  | nil {o} : (∀ f, o f ≠ .hold) → Intended o [] (init o)
  | sync {o tr s i c f s' r} : Intended o tr s → (∀ g, f = some g → s.order g ≠ .hold) → sync s i c f = (s', r) →
      Intended o (tr ++ [(.sync i c f, r)]) s'
  | reset {o tr s i} : Intended o tr s → Intended o (tr ++ [(.reset i, false)]) (reset s i)

theorem Intended.exec {o tr s} (h : Intended o tr s) : Exec o tr s := by
  induction h with
  | nil => exact .nil
  | sync _ _ hs ih => exact .snoc ih hs
  | reset _ ih => exact .snoc ih rfl

theorem intended_inv {o tr s} (h : Intended o tr s) : ∀ g,
    (o g = .sequence → (s.order g = .sequence ∧ ∀ i, some g ∉ s.barriers i) ∨
      (s.order g = .hold ∧ ∃ i, some g ∈ s.barriers i ∧ ∀ j, j ≠ i → some g ∉ s.barriers j)) ∧
    (o g = .network → s.order g = .network) := by
  induction h with
  | nil h => intro g; exact ⟨fun e => .inl ⟨e, fun i => by simp [init]⟩, fun e => e⟩
  | @sync tr s i c f s' r _ hf hs ih =>
    intro g
    obtain ⟨i1, i2⟩ := ih g
    rw [sync] at hs
    split at hs
    · cases hs
      refine ⟨fun e => ?_, fun e => ?_⟩
      · rcases i1 e with ⟨a, b⟩ | ⟨a, j, b, d⟩
        · refine .inl ⟨?_, fun k => ?_⟩
          · simp only [reset]; rw [releaseAll_spec, if_neg (by simp [a])]; exact a
          · simp only [reset]; split
            · simp
            · exact b k
        · simp only [reset]
          by_cases ej : j = i
          · subst ej
            refine .inl ⟨?_, fun k => ?_⟩
            · rw [releaseAll_spec, if_pos ⟨b, a⟩]
            · split
              · simp
              · next hk => exact d k hk
          · refine .inr ⟨?_, j, ?_, fun k hk => ?_⟩
            · rw [releaseAll_spec, if_neg (fun x => d i (fun y => ej y.symm) x.1)]; exact a
            · rw [if_neg ej]; exact b
            · split
              · simp
              · exact d k hk
      · simp only [reset]; rw [releaseAll_spec, if_neg (by simp [i2 e])]; exact i2 e
    · cases hs
      refine ⟨fun e => ?_, fun e => ?_⟩
      · simp only
        by_cases ef : f = some g
        · subst ef
          rcases i1 e with ⟨a, b⟩ | ⟨a, _⟩
          · refine .inr ⟨?_, i, ?_, fun k hk => ?_⟩
            · rw [hold_spec, if_pos ⟨rfl, a⟩]
            · simp
            · rw [if_neg hk]; exact b k
          · exact absurd a (hf g rfl)
        · have hm : ∀ k, some g ∈ (if k = i then s.barriers i ++ [f] else s.barriers k) ↔ some g ∈ s.barriers k := by
            intro k
            have : some g ≠ f := fun y => ef y.symm
            split
            · next hk => subst hk; simp [this]
            · exact Iff.rfl
          have ho : hold s.order f g = s.order g := by rw [hold_spec, if_neg (fun x => ef x.1)]
          simp only [ho, hm]
          exact i1 e
      · simp only; rw [hold_spec, if_neg (by simp [i2 e])]; exact i2 e
  | @reset tr s i _ ih =>
    intro g
    obtain ⟨i1, i2⟩ := ih g
    refine ⟨fun e => ?_, fun e => ?_⟩
    · rcases i1 e with ⟨a, b⟩ | ⟨a, j, b, d⟩
      · refine .inl ⟨?_, fun k => ?_⟩
        · simp only [reset]; rw [releaseAll_spec, if_neg (by simp [a])]; exact a
        · simp only [reset]; split
          · simp
          · exact b k
      · simp only [reset]
        by_cases ej : j = i
        · subst ej
          refine .inl ⟨?_, fun k => ?_⟩
          · rw [releaseAll_spec, if_pos ⟨b, a⟩]
          · split
            · simp
            · next hk => exact d k hk
        · refine .inr ⟨?_, j, ?_, fun k hk => ?_⟩
          · rw [releaseAll_spec, if_neg (fun x => d i (fun y => ej y.symm) x.1)]; exact a
          · rw [if_neg ej]; exact b
          · split
            · simp
            · exact d k hk
    · simp only [reset]; rw [releaseAll_spec, if_neg (by simp [i2 e])]; exact i2 e

theorem intended_start {o tr s} (h : Intended o tr s) : ∀ f, o f ≠ .hold := by
  induction h with
  | nil h => exact h
  | sync _ _ _ ih => exact ih
  | reset _ ih => exact ih

end FlowSync
open FlowSync
open TC (RO)

/-- **C43** a call of `sync` answers that the barrier is reached exactly when, with the caller, `count` or more have called
since the barrier was last reached or reset; after any history of calls. -/
theorem C43_reached_iff {o tr s} (h : Exec o tr s) (id count : Nat) (flow : Option Nat) :
    (sync s id count flow).2 = true ↔ count ≤ (waiting id tr).length + 1 := by
  rw [← barriers_waiting h id, sync]
  split <;> simp_all

/-- **C43** used as intended, a flow is on hold exactly when it started in original order and is waiting on a barrier: it is
held from the call that told it to wait until the barrier is reached or reset, at every moment, for all orders of arrival. -/
theorem C43_held_iff {o tr s} (h : Intended o tr s) (g : Nat) :
    s.order g = .hold ↔ o g = .sequence ∧ ∃ id, some g ∈ waiting id tr := by
  simp only [← barriers_waiting h.exec]
  obtain ⟨i1, i2⟩ := intended_inv h g
  cases e : o g with
  | sequence =>
    rcases i1 e with ⟨a, b⟩ | ⟨a, j, b, _⟩
    · simp [a, b]
    · simp only [a, true_and, true_iff]; exact ⟨j, b⟩
  | network => simp [i2 e]
  | hold => exact absurd e (intended_start h g)

/-- **C43** and when it isn't on hold it is in the order it started with. -/
theorem C43_otherwise_unchanged {o tr s} (h : Intended o tr s) (g : Nat) (hn : s.order g ≠ .hold) : s.order g = o g := by
  obtain ⟨i1, i2⟩ := intended_inv h g
  cases e : o g with
  | sequence =>
    rcases i1 e with ⟨a, _⟩ | ⟨a, _⟩
    · exact a
    · exact absurd a hn
  | network => exact i2 e
  | hold => exact absurd e (intended_start h g)

/-- **C43** a flow in network order is never held, nor otherwise changed, by any call in any state. -/
theorem C43_network_never_held (s : State) (op : Op) (g : Nat) (hg : s.order g = .network) (ho : ∀ o, op ≠ .user g o) :
    (step s op).1.order g = .network := by
  cases op with
  | sync i c f =>
    rw [step, sync]
    split
    · simp only [reset]; rw [releaseAll_spec, if_neg (by simp [hg])]; exact hg
    · simp only; rw [hold_spec, if_neg (by simp [hg])]; exact hg
  | reset i => simp only [step, reset]; rw [releaseAll_spec, if_neg (by simp [hg])]; exact hg
  | user f o =>
    have : g ≠ f := fun e => ho o (by rw [e])
    simp [step, setOrder, this, hg]

/-- **C43** whatever was done to the flows before, none that waited on a barrier is left on hold when the barrier is reset or
reached, and flows that didn't wait on it are left alone. -/
theorem C43_release {o tr s} (h : Exec o tr s) (id g : Nat) :
    (some g ∈ waiting id tr → (reset s id).order g ≠ .hold) ∧ (some g ∉ waiting id tr → (reset s id).order g = s.order g) := by
  rw [← barriers_waiting h id]
  simp only [reset]
  rw [releaseAll_spec]
  constructor
  · intro hm
    by_cases e : s.order g = .hold <;> simp [hm, e]
  · intro hm; simp [hm]

/-- three flows, one of them in network order, on a barrier of three: the first two wait, the third releases them -/
example : ∃ s2 s3, Intended (fun f => if f = 2 then .network else .sequence)
      [(.sync 7 3 (some 1), false), (.sync 7 3 (some 2), false)] s2 ∧ s2.order 1 = .hold ∧ s2.order 2 = .network ∧ s2.order 3 = .sequence ∧
    sync s2 7 3 (some 3) = (s3, true) ∧ s3.order 1 = .sequence ∧ s3.order 2 = .network ∧ s3.order 3 = .sequence := by
  refine ⟨_, _, .sync (tr := [_]) (.sync (tr := []) (.nil ?_) ?_ rfl) ?_ rfl, rfl, rfl, rfl, rfl, rfl, rfl, rfl⟩
  · intro f; split <;> simp
  · intro g hg; cases hg; decide
  · intro g hg; cases hg; decide

end Rtmfp
