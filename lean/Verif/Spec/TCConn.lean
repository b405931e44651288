import Verif.Model.TCConn
/-! # What is asked of transactions, in terms of what is observed -/
namespace Rtmfp
namespace TCConn
open AMF (Val)

/-- the requests queued -/
def sents (evs : List Ev) : List Tx := evs.filterMap (fun e => match e with | .sent t h k => some ⟨t, h, k⟩ | _ => none)

/-- the handlers invoked -/
def invs (evs : List Ev) : List Tx := evs.filterMap (fun e => match e with | .invoked t h k _ _ => some ⟨t, h, k⟩ | _ => none)

/-- the requests that were queued and whose handler was not invoked yet -/
def unanswered (evs : List Ev) : List Tx := (sents evs).filter (fun t => decide (t ∉ invs evs))

/-- the value of a `double` is the whole number `n`, that is: it is finite and positive, and (1 + m / 2^52) * 2^(e - 1023) = n (whole numbers other than 0 are not
subnormal) -/
def IsWhole (b : UInt64) (n : Nat) : Prop :=
  b.toNat < 2 ^ 63 ∧ b.toNat / 2 ^ 52 ≠ 0 ∧ b.toNat / 2 ^ 52 ≠ 2047 ∧ (2 ^ 52 + b.toNat % 2 ^ 52) * 2 ^ (b.toNat / 2 ^ 52) = n * 2 ^ 1075

/-- not a number -/
def IsNaN (b : UInt64) : Prop := b.toNat / 2 ^ 52 % 2048 = 2047 ∧ b.toNat % 2 ^ 52 ≠ 0

/-- how often the end of the connection was reported, and how often `onClose` was invoked -/
def nStatus (evs : List Ev) : Nat := evs.countP (fun e => match e with | .status _ => true | _ => false)
def nClosed (evs : List Ev) : Nat := evs.countP (fun e => match e with | .closed => true | _ => false)

/-- the streams that were opened, with their ids -/
def opens (evs : List Ev) : List (Nat × Nat) := evs.filterMap (fun e => match e with | .opened i id => some (i, id) | _ => none)

end TCConn
end Rtmfp
