import Verif.Base

/-!
# Model of `src/Address.cpp`

The union `in_sockaddr` is represented by what the class reads from it: the family, the port (`sin_port` and `sin6_port` are the same two
bytes), the IP address of the active member and the origin. The numbers of the families are those of Linux (`AF_INET` 2, `AF_INET6` 10), any
other number is no IP family. `sin6_flowinfo` and `sin6_scope_id` (set only by `setSockaddr`, never read by the class), the presentation
functions (they use `inet_ntop`, `inet_pton` and `sscanf`) and `lookup` (`getaddrinfo`) are not modelled. `memcmp` and `memmove` of no bytes
from a null pointer (an address without a family) are taken to do nothing.
-/

namespace Rtmfp

/-- include/rtmfp/Address.hpp:86-88 the members of `Address` -/
structure Address where
  family : Nat
  ip : Bytes
  port : Nat
  origin : Nat
deriving DecidableEq, Repr

namespace Address

/-- `AF_INET` of Linux's <sys/socket.h> -/
abbrev AF_INET : Nat := 2
/-- `AF_INET6` of Linux's <sys/socket.h> -/
abbrev AF_INET6 : Nat := 10

/-- src/Address.cpp:20-23, 34-37: a new address is all zeros. -/
def init : Address := { family := 0, ip := [], port := 0, origin := 0 }

/-- src/Address.cpp:116-125 `getIPAddressLength` -/
def ipLength (a : Address) : Nat := if a.family = AF_INET then 4 else if a.family = AF_INET6 then 16 else 0

/-- src/Address.cpp:138-150 `getIPAddress`: the `ipLength` bytes at `getIPAddressPtr`. -/
def getIP (a : Address) : Bytes := a.ip.take (ipLength a)

/-- src/Address.cpp:106-114 `getPort` -/
def getPort (a : Address) : Nat := if a.family = AF_INET ∨ a.family = AF_INET6 then a.port else 0

/-- src/Address.cpp:91-104 `setPort`: `htons` keeps 16 bits. -/
def setPort (a : Address) (port : Nat) : Address := if a.family = AF_INET ∨ a.family = AF_INET6 then { a with port := port % 65536 } else a

/-- src/Address.cpp:71 -/
def mapPrefix : Bytes := [0, 0, 0, 0, 0, 0, 0, 0, 0, 0, 0xff, 0xff]

/-- src/Address.cpp:69-89 `canMapToFamily` -/
def canMap (a : Address) (family : Nat) : Bool :=
  if a.family = family then true
  else if a.family = AF_INET then decide (family = AF_INET6)
  else if a.family = AF_INET6 then decide (family = AF_INET) && decide (a.ip.take 12 = mapPrefix)
  else false

/-- src/Address.cpp:39-67 `setFamily`: the address afterwards and the answer. `saved` is `savedAddress` with `getIPAddress` copied over its
first 16 or last 4 bytes; a fresh `sockaddr` of the family has the address zero. -/
def setFamily (a : Address) (family : Nat) : Address × Bool :=
  if family ≠ AF_INET ∧ family ≠ AF_INET6 then (a, false)
  else if a.family = family then (a, true)
  else
    let savedPort := getPort a
    let saved := if canMap a family then (if family = AF_INET6 then mapPrefix ++ getIP a else getIP a) else []
    let fresh : Address := { family := family, ip := List.replicate (if family = AF_INET then 4 else 16) 0, port := 0, origin := a.origin }
    let b := setPort fresh savedPort
    if canMap a family ∧ getIP a ≠ [] then
      ({ b with ip := if family = AF_INET then saved.drop 12 else saved }, true)
    else (b, true)

/-- src/Address.cpp:152-168 `setIPAddress` -/
def setIP (a : Address) (src : Bytes) : Address × Bool :=
  if src.length = 4 then ({ (setFamily a AF_INET).1 with ip := src }, true)
  else if src.length = 16 then ({ (setFamily a AF_INET6).1 with ip := src }, true)
  else (a, false)

/-- src/Address.cpp:170-196 `setFromEncoding` of the bytes from `src` to `limit`: the address afterwards and the number of bytes used. -/
def setFromEncoding (a : Address) (src : Bytes) : Address × Nat :=
  match src with
  | [] => (a, 0)
  | flags :: rest =>
    let is6 := decide (flags &&& 0x80 ≠ 0)
    let origin := (flags &&& 0x03).toNat
    let addressLength := if is6 then 16 else 4
    let encodedLength := 1 + addressLength + 2
    if src.length < encodedLength then (a, 0)
    else
      let b := (setIP a (rest.take addressLength)).1
      let tail := rest.drop addressLength
      let b := setPort b ((tail.getD 0 0).toNat * 256 + (tail.getD 1 0).toNat)
      ({ b with origin := origin }, encodedLength)

/-- src/Address.cpp:209-234 `encode`. -/
def encode (a : Address) : Bytes :=
  if ipLength a = 0 then []
  else (((if a.family = AF_INET6 then 0x80 else 0) ||| UInt8.ofNat a.origin) :: getIP a) ++ [UInt8.ofNat (getPort a >>> 8), UInt8.ofNat (getPort a &&& 0xff)]

/-- src/Address.cpp:198-207 `getEncodedLength` -/
def encodedLength (a : Address) : Nat := if a.family = AF_INET then 1 + 4 + 2 else if a.family = AF_INET6 then 1 + 16 + 2 else 0

/-- The contents of a `struct sockaddr`: its family, address and port; `ip` has as many bytes as its family has. -/
structure Sockaddr where
  family : Nat
  ip : Bytes
  port : Nat

/-- src/Address.cpp:236-250 `setSockaddr`; a null pointer is `none`. -/
def setSockaddr (a : Address) (addr : Option Sockaddr) : Address × Bool :=
  match addr with
  | none => (a, false)
  | some s => if s.family = AF_INET ∨ s.family = AF_INET6 then ({ a with family := s.family, ip := s.ip, port := s.port }, true) else (a, false)

/-- src/Address.cpp:28-32: the constructor from a `sockaddr`. -/
def ofSockaddr (addr : Option Sockaddr) (origin : Nat) : Address := (setSockaddr { init with origin := origin } addr).1

/-- `memcmp`: the sign of the difference of the first bytes that differ. -/
def memcmp : Bytes → Bytes → Int
  | a :: as, b :: bs => if a < b then -1 else if b < a then 1 else memcmp as bs
  | _, _ => 0

/-- src/Address.cpp:275-295 `operator<` -/
def lt (a b : Address) : Bool :=
  if a.family < b.family then true
  else if b.family < a.family then false
  else
    let cmp := memcmp (getIP a) (getIP b)
    if cmp < 0 then true
    else if cmp > 0 then false
    else decide (getPort a < getPort b)

/-- src/Address.cpp:297-303 `operator==` -/
def eq (a b : Address) : Bool := decide (a.family = b.family) && decide (memcmp (getIP a) (getIP b) = 0) && decide (getPort a = getPort b)

/-- The calls that change an address. -/
inductive Op
  | setOrigin (o : Fin 4)
  | setFamily (family : Nat)
  | setPort (port : Nat)
  | setIP (src : Bytes)
  | setFromEncoding (src : Bytes)
  | setSockaddr (addr : Option Sockaddr)
  | erase

/-- One call. include/rtmfp/Address.hpp:46 `setOrigin`; src/Address.cpp:34-37 `erase` keeps the origin. -/
def step (a : Address) : Op → Address
  | .setOrigin o => { a with origin := o.val }
  | .setFamily f => (setFamily a f).1
  | .setPort p => setPort a p
  | .setIP src => (setIP a src).1
  | .setFromEncoding src => (setFromEncoding a src).1
  | .setSockaddr s => (setSockaddr a s).1
  | .erase => { init with origin := a.origin }

end Address
end Rtmfp
