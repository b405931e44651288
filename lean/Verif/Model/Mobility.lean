import Verif.Model.Cookie

/-!
# Model of how sessions follow a peer to another address (`src/Session.cpp`)

All the sessions of an instance, which share its secret and its clock. The hash function (`CryptoAdapter::cryptoHash256`) and the secret are parameters. Times are
the instance's age in whole seconds, which is all that this code uses of it. Interface ids are natural numbers: they are names in a list of interfaces
(src/RTMFP.cpp `addInterface`). Addresses are those of packets received, of an IP family. What else happens to sessions is left out.
-/

namespace Rtmfp
namespace Mobility

open Address

/-- include/rtmfp/params.hpp:65 `MAX_MOBILITY_LIFETIME` -/
abbrev MAX_LIFETIME : Nat := 120

/-- include/rtmfp/packet.hpp:68 `PING_MARKING_MOBILITY` -/
abbrev MARK : UInt8 := 0x4d

/-- src/Session.hpp: `m_state` as far as it is `S_OPEN`, `m_destInterfaceID`, `m_destAddr`, `m_mob_tx_ts`, `m_mob_rx_ts`; and whether the session ever opened -/
structure Mob where
  isOpen : Bool
  ever : Bool
  ifc : Nat
  addr : Address
  txTs : Nat
  rxTs : Nat

/-- an instance: its age (src/RTMFP.cpp:197-200 in whole seconds) and its sessions -/
structure State where
  age : Nat
  sess : Nat → Mob

/-- src/Session.cpp:335-390 the constructor (379-380: no check was sent or answered) -/
def init : State := { age := 0, sess := fun _ => { isOpen := false, ever := false, ifc := 0, addr := Address.init, txTs := 0, rxTs := 0 } }

/-- What happens. `addr` is where a packet came from, `ifc` the interface it came by. -/
inductive Op where
  | advance (age : Nat)
  /-- a session opens to an address -/
  | opened (k ifc : Nat) (addr : Address)
  | closed (k : Nat)
  /-- a packet of a session has a ping reply chunk with some contents -/
  | reply (k ifc : Nat) (addr : Sockaddr) (bytes : Bytes)
  /-- the chunks of a packet of a session were processed -/
  | after (k ifc : Nat) (addr : Sockaddr)

/-- What is seen of it: a ping with some contents was sent to an address in a packet of a session, a session has moved to an address (`onFarAddressDidChange`). -/
inductive Out where
  | check (k ifc : Nat) (addr : Sockaddr) (bytes : Bytes)
  | moved (k ifc : Nat) (addr : Sockaddr)

/-- src/Session.cpp:690-705 what is hashed -/
def dough (secret : Bytes) (ts ifc : Nat) (addr : Sockaddr) : Bytes := VLU.append ifc (VLU.append ts [MARK]) ++ Cookie.encodedAddr (some addr) ++ secret

/-- src/Session.cpp:688-711 `makeMobilityCheck` -/
def make (hash : Bytes → Bytes) (secret : Bytes) (ts ifc : Nat) (addr : Sockaddr) : Bytes := VLU.append ts [MARK] ++ hash (dough secret ts ifc addr)

/-- changes a session -/
def upd (s : State) (k : Nat) (m : Mob) : State := { s with sess := fun j => if j = k then m else s.sess j }

/-- src/Session.cpp:1443-1476 `onMobilityCheckReply`; the sum on line 1445 is modulo 2^64 -/
def onReply (hash : Bytes → Bytes) (secret : Bytes) (s : State) (k ifc : Nat) (addr : Sockaddr) (bytes : Bytes) (ts : Nat) : State × List Out :=
  let m := s.sess k
  if ts ≤ m.rxTs ∨ (ts + MAX_LIFETIME) % W64 < s.age then (s, [])
  else if bytes ≠ make hash secret ts ifc addr then (s, [])
  else (upd s k { m with rxTs := ts, ifc := ifc, addr := (setSockaddr m.addr (some addr)).1 }, [.moved k ifc addr])

/-- src/Session.cpp:2012-2032 `onPingReplyChunk` as far as it is about mobility, of an open session (1644-1721 `onChunk`) -/
def onPingReply (hash : Bytes → Bytes) (secret : Bytes) (s : State) (k ifc : Nat) (addr : Sockaddr) (bytes : Bytes) : State × List Out :=
  match bytes with
  | [] => (s, [])
  | marking :: cursor =>
    if marking = MARK then
      match VLU.parse cursor with
      | none => (s, [])
      | some (ts, _) => onReply hash secret s k ifc addr bytes ts
    else (s, [])

/-- src/Session.cpp:1784-1790 the end of `onPacketAfterChunks`, with 713-724 `sendMobilityCheck` (a check, of at most 43 bytes, always fits a ping) -/
def onAfter (hash : Bytes → Bytes) (secret : Bytes) (s : State) (k ifc : Nat) (addr : Sockaddr) : State × List Out :=
  let m := s.sess k
  if m.isOpen = true ∧ ¬ (ifc = m.ifc ∧ Address.eq (ofSockaddr (some addr) 0) m.addr = true) ∧ s.age > m.txTs then
    (upd s k { m with txTs := s.age }, [.check k ifc addr (make hash secret s.age ifc addr)])
  else (s, [])

/-- One thing that happens. Time doesn't run backwards; a session opens once. -/
def step (hash : Bytes → Bytes) (secret : Bytes) (s : State) : Op → Option (State × List Out)
  | .advance age => if s.age ≤ age then some ({ s with age := age }, []) else none
  | .opened k ifc addr => if (s.sess k).ever = true then none else some (upd s k { isOpen := true, ever := true, ifc := ifc, addr := addr, txTs := 0, rxTs := 0 }, [])
  | .closed k => some (upd s k { s.sess k with isOpen := false }, [])
  | .reply k ifc addr bytes => if (s.sess k).isOpen = true then some (onPingReply hash secret s k ifc addr bytes) else none
  | .after k ifc addr => some (onAfter hash secret s k ifc addr)

end Mobility
end Rtmfp
