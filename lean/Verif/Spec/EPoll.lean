import Verif.Model.EPoll
/-! # Specification of a run loop with descriptors: over what is observed -/
namespace Rtmfp
namespace Spec.EP
open Rtmfp.EP
open RL (Item)

/-- the action is in force: registered, and not unregistered or replaced since -/
def InForce (evs : List Ev) (i : Item) : Prop := .registered i ∈ evs ∧ .unregistered i ∉ evs

/-- what happens to a number: it is given out for a file, or closed -/
def fate (fd : Nat) : Ev → Option (Option Nat)
  | .opened n file => if n = fd then some (some file) else none
  | .closed n => if n = fd then some none else none
  | _ => none

/-- the file behind a number: since it was last given out, unless it was closed since -/
def fileAt (evs : List Ev) (fd : Nat) : Option Nat := ((evs.filterMap (fate fd)).getLast?).join

/-- the actions called, in order -/
def acted : List Ev → List Item := List.filterMap (fun | .acted i => some i | _ => none)

/-- no stop since `run` began -/
def Going (evs : List Ev) : Prop := ∃ e1 e2, evs = e1 ++ .began :: e2 ∧ .stopped ∉ e2

/-- descriptors are closed only after their actions have been unregistered, unless that closes the file for good -/
def Careful (evs : List Ev) : Prop :=
  ∀ e1 fd e2, evs = e1 ++ .closed fd :: e2 →
    (∀ i, InForce e1 i → i.fd ≠ fd) ∨ (∀ fd', fd' ≠ fd → fileAt e1 fd' = fileAt e1 fd → fileAt e1 fd = none)

/-- descriptors are open when registered, and are closed only after their actions have been unregistered -/
def Tidy (evs : List Ev) : Prop :=
  (∀ e1 fd e2, evs = e1 ++ .closed fd :: e2 → ∀ i, InForce e1 i → i.fd ≠ fd) ∧
    (∀ e1 i e2, evs = e1 ++ .registered i :: e2 → (fileAt e1 i.fd).isSome)

/-- exceptions first, then what can be read, then what can be written -/
def rank : RL.Cond → Nat
  | .exception => 0
  | .readable => 1
  | .writable => 2

end Spec.EP
end Rtmfp
