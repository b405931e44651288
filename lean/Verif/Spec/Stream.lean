import Verif.Model.RecvFlow

/-!
# Specification: messages as a stream of numbered fragments

A message is given by the pieces it is cut into (at least one). The fragments of a list of messages are numbered
consecutively from 1.
-/

namespace Rtmfp.Spec

/-- The pieces after the first. -/
def laterFrags : List Bytes → List (Fra × Bytes)
  | [] => []
  | [p] => [(.end, p)]
  | p :: ps => (.middle, p) :: laterFrags ps

/-- How the pieces of one message are marked. -/
def fragsOfPieces : List Bytes → List (Fra × Bytes)
  | [] => []
  | [p] => [(.whole, p)]
  | p :: ps => (.begin, p) :: laterFrags ps

/-- The fragments of a list of messages. -/
def stream (ms : List (List Bytes)) : List (Fra × Bytes) := ms.flatMap fragsOfPieces

/-- The fragment with a sequence number. -/
def fragAt (ms : List (List Bytes)) (sn : Nat) : Option (Fra × Bytes) :=
  if sn = 0 then none else (stream ms)[sn - 1]?

/-- A message as the user sees it: contents, first sequence number, number of fragments. -/
structure Msg where
  data : Bytes
  sn : Nat
  count : Nat
deriving DecidableEq, Repr

/-- The messages with their sequence numbers, starting at `sn`. -/
def numbered : Nat → List (List Bytes) → List Msg
  | _, [] => []
  | sn, m :: ms => ⟨m.flatten, sn, m.length⟩ :: numbered (sn + m.length) ms

/-- The messages of a stream. -/
def messages (ms : List (List Bytes)) : List Msg := numbered 1 ms

/-- Last sequence number of a message. -/
def Msg.last (m : Msg) : Nat := m.sn + m.count - 1

/-! ## What a history of arriving chunks means -/

/-- An arriving data chunk: flags, sequence number and forward sequence number. -/
structure DataChunk where
  flags : UInt8
  sn : Nat
  fsn : Nat

/-- Number `k` arrived or was skipped. -/
def Covered (h : List DataChunk) (k : Nat) : Prop := ∃ c ∈ h, c.sn = k ∨ k ≤ c.fsn

/-- The fragment with number `k` arrived (not as an abandonment notice), and before that the number had neither arrived nor been
skipped. -/
def InTime (h : List DataChunk) (k : Nat) : Prop :=
  ∃ pre c post, h = pre ++ c :: post ∧ c.sn = k ∧ c.flags &&& USERDATA_FLAG_ABN = 0 ∧ ¬ Covered pre k

/-- The first final mark on a number that had neither arrived nor been skipped was on number `k`. -/
def FinalIs (h : List DataChunk) (k : Nat) : Prop :=
  ∃ pre c post, h = pre ++ c :: post ∧ c.sn = k ∧ c.flags &&& USERDATA_FLAG_FIN ≠ 0 ∧ ¬ Covered pre k ∧
    ∀ pre' c' post', pre = pre' ++ c' :: post' → c'.flags &&& USERDATA_FLAG_FIN ≠ 0 → Covered pre' c'.sn

/-- Number `k` arrived. -/
def Arrived (h : List DataChunk) (k : Nat) : Prop := ∃ c ∈ h, c.sn = k

/-- Nothing is abandoned and every forward sequence number only covers what has arrived. -/
def NothingSkipped (h : List DataChunk) : Prop :=
  ∀ pre c post, h = pre ++ c :: post → c.flags &&& USERDATA_FLAG_ABN = 0 ∧ ∀ k, 1 ≤ k → k ≤ c.fsn → k = c.sn ∨ Arrived pre k

end Rtmfp.Spec
