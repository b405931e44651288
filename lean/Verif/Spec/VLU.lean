import Verif.Base

/-!
# Specification: variable-length unsigned integers (RFC 7016 section 2.1.2)

Big-endian base 128; all bytes but the last have the most significant bit set.
Unbounded integers, no reference to the model.
-/

namespace Rtmfp.Spec

/-- A byte that is not the last of a VLU. -/
def continues (b : UInt8) : Prop := 128 ≤ b.toNat

instance (b : UInt8) : Decidable (continues b) := inferInstanceAs (Decidable (_ ≤ _))

/-- The base-128 value of a byte string, ignoring the continuation bits. -/
def base128 (bs : Bytes) : Nat := bs.foldl (fun a b => a * 128 + b.toNat % 128) 0

/-- `bs` is a complete VLU: non-empty, exactly the last byte is terminal. -/
def IsVLU (bs : Bytes) : Prop :=
  ∃ init last, bs = init ++ [last] ∧ (∀ b ∈ init, continues b) ∧ ¬ continues last

/-- An option as seen by the user of the option API: a value with a type, or a marker. -/
inductive Opt where
  | typed (type : Nat) (value : Bytes)
  | marker
deriving DecidableEq, Repr

end Rtmfp.Spec
