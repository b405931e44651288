import Verif.Model.Redirector

/-! # What a user of the redirector client expects -/

namespace Rtmfp
namespace Redir

/-- when connections were attempted -/
def attempts (evs : List Ev) : List Int := evs.filterMap fun e => match e with | .attempt t => some t | _ => none

/-- the messages written to flow `k` -/
def msgs (k : Nat) (evs : List Ev) : List Bytes := evs.filterMap fun e => match e with | .wrote j m => if j = k then some m else none | _ => none

/-- the statuses reported -/
def statuses (evs : List Ev) : List Status := evs.filterMap fun e => match e with | .status st => some st | _ => none

/-- what the redirector takes from a message: a load factor (a byte 15 and a VLU) -/
def readLoad : Bytes → Option Nat
  | 0x0f :: rest => (VLU.parse rest).map (·.1)
  | _ => none

/-- what the redirector takes from a message: a registration, or that the client is draining -/
inductive Reg where
  | draining
  /-- whether to include the reflexive address, and the additional addresses -/
  | settings (reflexive : Bool) (addrs : List Bytes)
deriving DecidableEq, Repr

/-- the options of a registration -/
def readOpts (os : List OptItem) : Reg :=
  .settings (os.any fun o => decide (o.type = 0x0d)) (os.filterMap fun o => if o.type = 0x0a then o.value else none)

def readReg : Bytes → Option Reg
  | 0x00 :: _ => some .draining
  | 0x05 :: rest => (Opt.parseAll rest.length rest).map readOpts
  | _ => none

/-- the last thing read from messages -/
def lastOf {α : Type} (read : Bytes → Option α) (ms : List Bytes) : Option α := (ms.filterMap read).getLast?

/-- An execution: what happened, and the state (with what was observed). -/
inductive Run (hmac : Bytes → Bytes → Bytes) (valid : Bytes → Bool) (now : Int) : List Op → RC → Prop
  | nil : Run hmac valid now [] (init now)
  | snoc {ops s op} : Run hmac valid now ops s → allowed s op = true → Run hmac valid now (ops ++ [op]) (step hmac valid s op)

/-- what happens after some state -/
inductive After (hmac : Bytes → Bytes → Bytes) (valid : Bytes → Bool) (s : RC) : List Op → RC → Prop
  | nil : After hmac valid s [] s
  | snoc {ops t op} : After hmac valid s ops t → allowed t op = true → After hmac valid s (ops ++ [op]) (step hmac valid t op)

/-- which statuses may follow which: a connection that opens, and then fails; or fails at once -/
def Follows : Status → Status → Prop
  | .idle, .connecting | .idle, .disconnected => True
  | .connecting, .connected | .connecting, .disconnected | .connecting, .badAuth => True
  | .connected, .disconnected | .connected, .badAuth => True
  | .disconnected, .connecting | .disconnected, .disconnected => True
  | .badAuth, .connecting | .badAuth, .disconnected => True
  | _, _ => False

/-- the reports so far, beginning with some status, are in order -/
def Chain : Status → List Status → Prop
  | _, [] => True
  | a, b :: l => Follows a b ∧ Chain b l

/-- what the user set last: the load factor -/
def wantLoad (ops : List Op) : Nat := ops.foldl (fun b op => match op with | .setLoadFactor n => n | _ => b) 0
/-- whether the client is active; closing makes it inactive -/
def wantActive (ops : List Op) : Bool := ops.foldl (fun b op => match op with | .setActive n => n | .close => false | _ => b) true
def wantPaused (ops : List Op) : Bool := ops.foldl (fun b op => match op with | .setPaused n => n | _ => b) false
def wantReflexive (ops : List Op) : Bool := ops.foldl (fun b op => match op with | .setAdvertise n => n | _ => b) true
/-- whether an address was added and not removed since -/
def wantAddr (a : Bytes) (ops : List Op) : Bool :=
  ops.foldl (fun b op => match op with | .addAddress x => b || decide (x = a) | .removeAddress x => b && decide (x ≠ a) | .clearAddresses => false | _ => b) false
/-- the password set last for a key -/
def wantAuth (k : Bytes) (ops : List Op) : Option Bytes := ops.foldl (fun b op => match op with | .addAuth x p => if x = k then some p else b | _ => b) none

/-- exactly the addresses wanted, each once -/
def Wanted (ops : List Op) (l : List Bytes) : Prop := l.Nodup ∧ ∀ a, a ∈ l ↔ wantAddr a ops = true

/-- what the redirector should be told of the client's registration: nothing new while it is paused -/
def Registered (ops : List Op) (r : Option Reg) : Prop :=
  (wantActive ops = false → r = some .draining) ∧
  (wantActive ops = true → wantPaused ops = false → ∃ l, r = some (.settings (wantReflexive ops) l) ∧ Wanted ops l)

end Redir
end Rtmfp
