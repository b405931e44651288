import Verif.Base

/-!
# Specification: the frames of RFC 6455 and what a sequence of them says

No reference to the model.
-/

namespace Rtmfp.Spec.Web

/-- how the length of the payload is written: in 7 bits, in 16 or in 64 (section 5.2) -/
inductive Form
  | short
  | mid
  | long
deriving DecidableEq, Repr

/-- a masking key -/
structure Key where
  k0 : UInt8
  k1 : UInt8
  k2 : UInt8
  k3 : UInt8
deriving DecidableEq, Repr

/-- A frame: FIN, the three reserved bits, the opcode, the masking key (if masked), the form of the length and the payload (not masked). -/
structure Frame where
  fin : Bool
  rsv : Nat
  op : Nat
  key : Option Key
  form : Form
  payload : Bytes
deriving DecidableEq, Repr

/-- the fields fit in their bits -/
def Frame.Fits (f : Frame) : Prop :=
  f.rsv < 8 ∧ f.op < 16 ∧
    match f.form with
    | .short => f.payload.length < 126
    | .mid => f.payload.length < 2 ^ 16
    | .long => f.payload.length < 2 ^ 64

/-- `v` in `n` bytes, the most significant first -/
def be : (n : Nat) → (v : Nat) → Bytes
  | 0, _ => []
  | n + 1, v => UInt8.ofNat (v / 256 ^ n) :: be n v

/-- each byte exclusive-or the next byte of the key, over and over (section 5.3) -/
def applyKey : Key → Bytes → Bytes
  | _, [] => []
  | k, c :: s => (c ^^^ k.k0) :: applyKey ⟨k.k1, k.k2, k.k3, k.k0⟩ s

/-- A frame on the wire (section 5.2). -/
def Frame.wire (f : Frame) : Bytes :=
  [UInt8.ofNat ((if f.fin then 128 else 0) + 16 * f.rsv + f.op),
   UInt8.ofNat ((if f.key.isSome then 128 else 0) +
     (match f.form with | .short => f.payload.length | .mid => 126 | .long => 127))] ++
  (match f.form with | .short => [] | .mid => be 2 f.payload.length | .long => be 8 f.payload.length) ++
  (match f.key with | none => f.payload | some k => [k.k0, k.k1, k.k2, k.k3] ++ applyKey k f.payload)

/-- what arrives: messages and control frames -/
inductive Sig
  | text (b : Bytes)
  | binary (b : Bytes)
  | ping (b : Bytes)
  | pong (b : Bytes)
  | close
deriving DecidableEq, Repr

/-- a whole message of some kind; those of unknown kinds aren't anything -/
def deliver (op : Nat) (b : Bytes) : List Sig :=
  if op = 1 then [.text b] else if op = 2 then [.binary b] else []

/-- What a sequence of frames says, up to a Close or until it breaks the rules of fragmentation (section 5.4). `p` is the message begun but
not ended: its kind and what there is of it. -/
def meaning : (p : Option (Nat × Bytes)) → List Frame → List Sig
  | _, [] => []
  | p, f :: fs =>
    if f.op = 8 then [.close]
    else if f.op = 9 then .ping f.payload :: meaning p fs
    else if f.op = 10 then .pong f.payload :: meaning p fs
    else if f.op = 0 then
      match p with
      | none => []
      | some (op, b) => if f.fin then deliver op (b ++ f.payload) ++ meaning none fs else meaning (some (op, b ++ f.payload)) fs
    else
      match p with
      | some _ => []
      | none => if f.fin then deliver f.op f.payload ++ meaning none fs else meaning (some (f.op, f.payload)) fs

/-- The rules of fragmentation are broken: a continuation of nothing, or a new message within another (not after a Close). -/
def broken : (p : Option (Nat × Bytes)) → List Frame → Bool
  | _, [] => false
  | p, f :: fs =>
    if f.op = 8 then false
    else if f.op = 9 then broken p fs
    else if f.op = 10 then broken p fs
    else if f.op = 0 then
      match p with
      | none => true
      | some (op, b) => if f.fin then broken none fs else broken (some (op, b ++ f.payload)) fs
    else
      match p with
      | some _ => true
      | none => if f.fin then broken none fs else broken (some (f.op, f.payload)) fs

/-- nothing comes after a Close -/
def closeLast : List Frame → Prop
  | [] => True
  | f :: fs => (f.op = 8 → fs = []) ∧ closeLast fs

/-- The bytes of an HTTP header: they end with the first newline (10) that follows another, where carriage returns (13) don't count. -/
def HeaderBlock (h : Bytes) : Prop :=
  ∃ t, h = t ++ [10] ∧ [10] <:+ t.filter (· ≠ 13) ∧ ∀ q, q <+: t → ¬ [10, 10] <:+ q.filter (· ≠ 13)

/-- a frame of a server: final, not masked, its length in the shortest form -/
def serverFrame (op : Nat) (b : Bytes) : Frame :=
  ⟨true, 0, op, none, if b.length < 126 then .short else if b.length < 2 ^ 16 then .mid else .long, b⟩

/-- a frame of a server that says something -/
def Sig.frame : Sig → Frame
  | .text b => serverFrame 1 b
  | .binary b => serverFrame 2 b
  | .ping b => serverFrame 9 b
  | .pong b => serverFrame 10 b
  | .close => serverFrame 8 []

end Rtmfp.Spec.Web
