import Verif.Base

/-! # Specification: a set of natural numbers changed by ranges -/

namespace Rtmfp.Spec

/-- A history of set operations on inclusive ranges. -/
inductive SetOp where
  | add (a b : Nat)
  | remove (a b : Nat)
  | addAll (l : List (Nat × Nat))
  | removeAll (l : List (Nat × Nat))
  | clear

/-- Effect on a mathematical set. -/
def SetOp.apply (S : Nat → Prop) : SetOp → (Nat → Prop)
  | .add a b => fun i => S i ∨ (a ≤ i ∧ i ≤ b)
  | .remove a b => fun i => S i ∧ ¬ (a ≤ i ∧ i ≤ b)
  | .addAll l => fun i => S i ∨ ∃ r ∈ l, r.1 ≤ i ∧ i ≤ r.2
  | .removeAll l => fun i => S i ∧ ¬ ∃ r ∈ l, r.1 ≤ i ∧ i ≤ r.2
  | .clear => fun _ => False

/-- The set after a history. -/
def setAfter (ops : List SetOp) : Nat → Prop := ops.foldl SetOp.apply (fun _ => False)

/-- All indices in the operation are 64-bit values. -/
def SetOp.is64 : SetOp → Prop
  | .add a b => a < 2 ^ 64 ∧ b < 2 ^ 64
  | .remove a b => a < 2 ^ 64 ∧ b < 2 ^ 64
  | .addAll l => ∀ r ∈ l, r.1 < 2 ^ 64 ∧ r.2 < 2 ^ 64
  | .removeAll l => ∀ r ∈ l, r.1 < 2 ^ 64 ∧ r.2 < 2 ^ 64
  | .clear => True

end Rtmfp.Spec
