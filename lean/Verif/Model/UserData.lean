import Verif.Model.SendFlow

/-!
# Model of `Session::onUserDataChunk` (src/Session.cpp:1866-1966)

What a session makes of the data chunks of a packet, up to the call of `onUserData`.
-/

namespace Rtmfp

/-- src/Session.hpp:182-185: what is remembered from the previous data chunk of the packet (reset by `onPacketHeader`, 1577) -/
structure Parsing where
  seen : Bool
  flowId : Nat
  sn : Nat
  fsn : Nat
deriving DecidableEq, Repr

/-- src/Session.cpp:1577: at the beginning of a packet; the other members are not read before they are set -/
def Parsing.init : Parsing := ⟨false, 0, 0, 0⟩

/-- The arguments of `onUserData` (src/Session.cpp:1965): `none` for null pointers. -/
structure UserData where
  flags : UInt8
  flowId : Nat
  sn : Nat
  fsn : Nat
  assoc : Option Nat
  metadata : Option Bytes
  data : Bytes
  mustReject : Bool
deriving DecidableEq, Repr

/-- src/Session.cpp:1875-1878, 1881: what the options say -/
structure OptState where
  assoc : Option Nat
  metadata : Option Bytes
  mustReject : Bool
deriving DecidableEq, Repr

/-- src/Session.cpp:1936-1953: one option; `none`: return -/
def OptState.take (o : OptState) (type : Nat) (value : Bytes) : Option OptState :=
  if type = USERDATA_OPTION_METADATA then some { o with metadata := some value }
  else if type = USERDATA_OPTION_RETURN_ASSOCIATION then
    (VLU.parse value).map fun x => { o with assoc := some x.1 }
  else if type < USERDATA_OPTION_MANDATORY_CUTOFF then some { o with mustReject := true }
  else some o

/-- src/Session.cpp:1920-1954: the option list up to its marker: what the options say and the rest of the chunk; `none`: return (also out of
fuel, which does not happen: every option takes at least one byte). -/
def parseOptions : Nat → OptState → Bytes → Option (OptState × Bytes)
  | 0, _, _ => none
  | fuel + 1, o, src =>
    match Opt.parse src with
    | none => none
    | some (item, n) =>
      match item.value with
      | none => some (o, src.drop n)
      | some v =>
        match o.take item.type v with
        | none => none
        | some o => parseOptions fuel o (src.drop n)

/-- src/Session.cpp:1918-1955: the options, if there are any -/
def optionsIf (flags : UInt8) (src : Bytes) : Option (OptState × Bytes) :=
  if flags &&& USERDATA_FLAG_OPT ≠ 0 then parseOptions (src.length + 1) ⟨none, none, false⟩ src else some (⟨none, none, false⟩, src)

/-- src/Session.cpp:1887-1905: flow id, number and forward number of a full chunk, and the rest -/
def fullHeader (src : Bytes) : Option ((Nat × Nat × Nat) × Bytes) :=
  match VLU.parse src with
  | none => none
  | some (flowId, n1) =>
    match VLU.parse (src.drop n1) with
    | none => none
    | some (sn, n2) =>
      match VLU.parse ((src.drop n1).drop n2) with
      | none => none
      | some (off, n3) => if off > sn then none else some ((flowId, sn, sn - off), ((src.drop n1).drop n2).drop n3)

/-- src/Session.cpp:1906-1916: those of a chunk that continues the previous one -/
def nextHeader (st : Parsing) (src : Bytes) : Option ((Nat × Nat × Nat) × Bytes) :=
  if st.seen then some ((st.flowId, (st.sn + 1) % W64, st.fsn), src) else none

/-- src/Session.cpp:1887-1916 -/
def dataHeader (st : Parsing) (type : UInt8) (src : Bytes) : Option ((Nat × Nat × Nat) × Bytes) :=
  if type = CHUNK_USERDATA then fullHeader src else if type = CHUNK_NEXT_USERDATA then nextHeader st src else none

/-- src/Session.cpp:1883-1965: the arguments of `onUserData`; `none`: return -/
def parseUserData (st : Parsing) (type : UInt8) : Bytes → Option UserData
  | [] => none
  | flags :: src =>
    match dataHeader st type src with
    | none => none
    | some ((flowId, sn, fsn), rest) =>
      match optionsIf flags rest with
      | none => none
      | some (o, data) => some ⟨flags, flowId, sn, fsn, o.assoc, o.metadata, data, o.mustReject⟩

/-- src/Session.cpp:1960-1963: what is remembered for the next chunk -/
def Parsing.after (st : Parsing) : Option UserData → Parsing
  | none => st
  | some u => ⟨true, u.flowId, u.sn, u.fsn⟩

/-- src/Session.cpp:1680-1683: the data chunks of a packet; other chunks don't concern what is remembered -/
def userDatas : Parsing → List (UInt8 × Bytes) → List UserData
  | _, [] => []
  | st, (t, pl) :: rest =>
    if t = CHUNK_USERDATA ∨ t = CHUNK_NEXT_USERDATA then
      let u := parseUserData st t pl
      u.toList ++ userDatas (st.after u) rest
    else userDatas st rest

end Rtmfp
