import Verif.Model.Retainer
/-! # What is said about reference counting -/
namespace Rtmfp
namespace Spec
namespace Refs
open Rtmfp.Refs

/-- what a retainer points to -/
def pointee (st : St) (i : Nat) : Option Nat := (slot st i).ptr

/-- somebody refers to the object: a retainer that exists, or who made it or called `retain` and hasn't called `release` yet -/
def Referred (st : St) (o : Nat) : Prop := (∃ i, (slot st i).alive = true ∧ pointee st i = some o) ∨ 0 < st.raw o

/-- no thread is inside a function of the library or a destructor -/
def AtRest (st : St) : Prop := ∀ l ∈ st.stacks, l = []

/-- no destructor makes a retainer for its own object -/
def NoSelf (ops : List (Nat × Op)) : Prop := ∀ p ∈ ops, p.2 ≠ .resurrect

/-- the library goes on, or a destructor's body ends: nothing new from the application -/
def GoesOn (op : Op) : Prop := op = .tick ∨ op = .ret

/-- what an operation on retainers does to what they point to -/
def Moves (p p' : Nat → Option Nat) (new : Nat) : Op → Prop
  | .assign d s => p' d = p s ∧ ∀ j, j ≠ d → p' j = p j
  | .moveAssign d s => (d ≠ s → p' d = p s) ∧ p' s = none ∧ ∀ j, j ≠ d → j ≠ s → p' j = p j
  | .swap a b => p' a = p b ∧ p' b = p a ∧ ∀ j, j ≠ a → j ≠ b → p' j = p j
  | .copy s _ => p' new = p s ∧ ∀ j, j ≠ new → p' j = p j
  | .move s _ => p' new = p s ∧ p' s = none ∧ ∀ j, j ≠ new → j ≠ s → p' j = p j
  | .claim o _ => p' new = some o ∧ ∀ j, j ≠ new → p' j = p j
  | .reset d => p' d = none ∧ ∀ j, j ≠ d → p' j = p j
  | .drop d => p' d = none ∧ ∀ j, j ≠ d → p' j = p j
  | .tick => ∀ j, p' j = p j ∨ p' j = none
  | .resurrect => True
  | _ => ∀ j, p' j = p j

end Refs
end Spec
end Rtmfp
