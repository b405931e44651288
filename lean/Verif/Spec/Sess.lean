import Verif.Model.Sess
import Verif.Lemmas.SendExec

/-! # What can happen to a session -/

namespace Rtmfp
namespace Sess

/-- the calls that open flows and issue receipts, among what happened -/
def used (ops : List Op) : List SS.Op :=
  ops.filterMap fun
    | .flow op => some op
    | .chunk (.exception i rid names) => some (.exceptionReport i 0 rid names)
    | _ => none

/-- what is up to the user and to the library's tasks for a flow; priorities are below 8 -/
def Calls : SS.Op → Prop
  | .openFlow _ _ _ p => p < 8
  | .setPriority _ p => p < 8
  | .bind _ _ | .write _ _ _ _ _ _ _ | .close _ _ _ _ | .setOnException _ | .receipt _ | .trim _ _ | .lingerAlarm _ | .openingFailed _ _ => True
  | _ => False

/-- the time given with it is the time -/
def AtTime (now : Int) : SS.Op → Prop
  | .write _ _ n _ _ _ _ | .close _ n _ _ | .trim _ n | .openingFailed _ n => n = now
  | _ => True

/-- a packet with nothing but its header (src/Session.cpp:1495-1496), as in C13: front margins of the encryption are at most 12 -/
def HeaderOnly (p : PA) : Prop := ∃ buf fm flags ts tse, p = PA.initHeader buf fm 1200 flags ts tse ∧ 1200 ≤ buf.length ∧ fm ≤ 12

/-- the chunks that can be in a packet -/
def AllowedChunk (ops : List Op) (s : Sess) : Chunk → Prop
  | .ack i _ _ => (s.ss.flow i).bound = true
  | .exception i rid names => SS.Allowed (used ops) s.ss (.exceptionReport i s.now rid names)
  | .data r _ | .probe r => r ∈ s.recvFlows
  | _ => True

/-- What can happen after `ops`, in the state `s`.
* Time doesn't go back. The session opens once.
* The library is single-threaded: while a packet is processed, nothing else happens but what the user does in callbacks.
* An interface asks the session for a packet if it is in line there. As in C13, ids of flows and sequence numbers are below 2^42. If acknowledgements are to be sent at once,
  there is room for one in an empty packet (src/RecvFlow.cpp:427-486 truncates it).
* The congestion window is never 0 (C23), and a round-trip estimate not negative; its timeout includes the time the other end may wait (C60).
* Timers fire when they are due. -/
def Allowed (ops : List Op) (s : Sess) : Op → Prop
  | .advance t => s.now ≤ t
  | .opened _ _ _ => s.ss.isOpen = false ∧ s.mid = false ∧ ∀ a b c, Op.opened a b c ∉ ops
  | .flow op => Calls op ∧ AtTime s.now op ∧ SS.Allowed (used ops) s.ss op
  | .writable x pri packet _ k _ => s.mid = false ∧ pri < 8 ∧ s.listed x pri = true ∧ HeaderOnly packet ∧
      (∀ i ∈ s.ss.sendFlows, (s.ss.flow i).flowId < 2 ^ 42 ∧ (s.ss.flow i).nextSn ≤ 2 ^ 42) ∧ (s.ackNow = true → s.ackFlows ≠ [] → 0 < k)
  | .header sample => s.mid = false ∧ s.ss.isOpen = true ∧ ∀ x, sample = some x → 0 ≤ x.1 ∧ DELACK ≤ x.2
  | .chunk c => s.mid = true ∧ s.ss.isOpen = true ∧ AllowedChunk ops s c
  | .after _ w => s.mid = true ∧ 0 < w
  | .moved _ => s.mid = true ∧ s.ss.isOpen = true
  | .recvAck r _ => r ∈ s.recvFlows
  | .recvOpen r => s.ss.isOpen = true ∧ r ∉ s.recvFlows
  | .recvClose r => r ∈ s.recvFlows
  | .setPeriod _ | .setLimit _ | .setIdle _ => True
  | .alarm => s.mid = false ∧ ∃ f, s.alarm = some f ∧ f ≤ s.now
  | .keepalive => s.mid = false ∧ ∃ f, s.kaTimer = some f ∧ f ≤ s.now
  | .idle => s.mid = false ∧ ∃ f, s.idleTimer = some f ∧ f ≤ s.now
  | .burst => s.mid = false ∧ ∃ f, s.burstAlarm = some f ∧ f ≤ s.now
  | .delack => s.mid = false ∧ ∃ f, s.delack = some f ∧ f ≤ s.now
  | .persist i => s.mid = false ∧ ∃ f e, s.persist i = some (f, e) ∧ f ≤ s.now
  | .close => s.ss.isOpen = true

/-- What happened to a session, its state and what was observed. -/
inductive Run (responder : Bool) (dest : Nat) : List Op → Sess → List SOut → Prop
  | nil : Run responder dest [] (init responder dest) []
  | snoc {ops s out op t os} : Run responder dest ops s out → Allowed ops s op → step s op = some (t, os) → Run responder dest (ops ++ [op]) t (out ++ os)

/-- What happened next, with `P` all the time. -/
inductive Next (P : Sess → Prop) (ops : List Op) (s : Sess) : List Op → Sess → List SOut → Prop
  | nil : P s → Next P ops s ops s []
  | snoc {ops' t out op u os} : Next P ops s ops' t out → Allowed ops' t op → step t op = some (u, os) → P u → Next P ops s (ops' ++ [op]) u (out ++ os)

/-- What happened next, each as `A` permits. -/
inductive Steps (A : Sess → Op → Prop) (ops : List Op) (s : Sess) : List Op → Sess → List SOut → Prop
  | nil : Steps A ops s ops s []
  | snoc {ops' t out op u os} : Steps A ops s ops' t out → A t op → Allowed ops' t op → step t op = some (u, os) → Steps A ops s (ops' ++ [op]) u (out ++ os)

/-- Nothing arrives and the user leaves the settings alone. The timeout alarm isn't late, and while it isn't set (everything was lost) an interface sends something at once. -/
def Silence (u : Sess) : Op → Prop
  | .header _ | .setPeriod _ | .setLimit _ => False
  | .advance x => ∃ f, u.alarm = some f ∧ x ≤ f
  | _ => True

/-- Time passes, interfaces ask for packets, timers fire and tasks run; the other end and the user do nothing. -/
def Alone (_ : Sess) : Op → Prop
  | .advance _ | .writable _ _ _ _ _ _ | .alarm | .keepalive | .idle | .burst | .delack | .persist _ | .flow (.trim _ _) => True
  | _ => False

/-- The other end answers, or the session opens. -/
def Answered : Op → Prop
  | .opened _ _ _ | .chunk (.ack _ _ _) | .chunk .pingReply => True
  | _ => False

/-- the receive flows that are acknowledged -/
def acked (out : List SOut) : List Nat := out.flatMap fun | .acks rs => rs | _ => []

/-- counts packets received with data: whether the packet that is being processed has data, and how many were processed -/
def countData (c : Bool × Nat) : Op → Bool × Nat
  | .header _ => (false, c.2)
  | .chunk (.data _ _) => (true, c.2)
  | .after _ _ => (false, if c.1 then c.2 + 1 else c.2)
  | _ => c

/-- all packets with data -/
def packets (out : List SOut) : Nat := (out.filter fun | .data _ => true | _ => false).length

/-- a flow of the session has data that wasn't sent yet, or was lost -/
def HasData (s : Sess) (i : Nat) : Prop := (s.ss.flow i).bound = true ∧ ∃ x ∈ (s.ss.flow i).queue, x.inFlight = false

/-- and the other end has room for more -/
def CanSend (s : Sess) (i : Nat) : Prop := (s.ss.flow i).bound = true ∧ (∃ x ∈ (s.ss.flow i).queue, x.inFlight = false) ∧ (s.ss.flow i).outstanding < (s.ss.flow i).rxBuffer

/-- the session has flows -/
def Busy (s : Sess) : Prop := (∃ i, (s.ss.flow i).bound = true) ∨ ∃ r, r ∈ s.recvFlows

/-- packets with data of a flow -/
def packetsOf (j : Nat) (out : List SOut) : Nat := (out.filter fun | .data k => k == j | _ => false).length

end Sess
end Rtmfp
