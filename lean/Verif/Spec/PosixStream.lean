import Verif.Model.PosixStream
/-! # What a stream adapter is to do: read off the log of what happened, without the adapter's members -/
namespace Rtmfp
namespace Spec
namespace StreamAdapter
open PosixStream (Ev Call)

/-- the bytes given to `writeBytes` before the socket was closed -/
def written : Bool → List Ev → Bytes
  | _, [] => []
  | _, .closed :: l => written false l
  | up, .did (.write b) :: l => (if up then b else []) ++ written up l
  | up, _ :: l => written up l

/-- the bytes the kernel took -/
def sent : List Ev → Bytes
  | [] => []
  | .sent b :: l => b ++ sent l
  | _ :: l => sent l

/-- the bytes the kernel gave -/
def received : List Ev → Bytes
  | [] => []
  | .recv b :: l => b ++ received l
  | _ :: l => received l

/-- the bytes given to the client -/
def given : List Ev → Bytes
  | [] => []
  | .data _ b :: l => b ++ given l
  | _ :: l => given l

/-- the client said that it is done -/
def Left (l : List Ev) : Prop := .did .leave ∈ l

/-- the callback, of those the client gave for writing, that it gave last since it was there and did not take back by leaving -/
def asked (l : List Ev) : Option Nat :=
  l.foldl (fun a e => match e with | .did (.notify f) => some f | .did .leave => none | _ => a) none

/-- likewise for the end of the stream -/
def toTell (l : List Ev) : Option Nat :=
  l.foldl (fun a e => match e with | .did (.whenLost f) => some f | .did .leave => none | _ => a) none

/-- likewise for the bytes -/
def toGive (l : List Ev) : Option Nat :=
  l.foldl (fun a e => match e with | .did (.receive f) => some f | .did .leave => none | _ => a) none

/-- what may be called back, after that: what was asked for last, and not after the client left or after the stream was closed; the end of the stream is told once, and
after the socket was closed; bytes are given only while the socket is open -/
def May (l : List Ev) : Ev → Prop
  | .writable f => asked l = some f
  | .data f _ => toGive l = some f ∧ ¬ Left l ∧ .closed ∉ l
  | .lost f => toTell l = some f ∧ .closed ∈ l ∧ ∀ g, .lost g ∉ l
  | .task t => .did (.later t) ∈ l ∧ ¬ Left l ∧ .closed ∉ l
  | .ended => .closed ∈ l ∧ .ended ∉ l
  | .recv _ => .closed ∉ l
  | .sent b => .closed ∉ l ∧ sent l ++ b <+: written true l
  | .shutWr => Left l ∧ .closed ∉ l ∧ .shutWr ∉ l ∧ sent l = written true l
  | .closed => .closed ∉ l
  | .did _ => True

/-- everything in the log was in place when it happened -/
def Right (log : List Ev) : Prop := ∀ l e r, log = l ++ e :: r → May l e

end StreamAdapter
end Spec
end Rtmfp
