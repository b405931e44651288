import Verif.Model.Address
import Verif.Model.VLU
import Mathlib.Data.Rat.Floor
import Mathlib.Algebra.Order.Ring.Rat
import Mathlib.Algebra.Field.Rat

/-!
# Model of the startup cookies of `src/RTMFP.cpp`

The hash function (`CryptoAdapter::cryptoHash256`, of 256 bits) and the secret are parameters. The instance age (a double number of seconds
since the instance was made) is a rational number.
-/

namespace Rtmfp
namespace Cookie

/-- include/rtmfp/RTMFP.hpp `CookieCheck` -/
inductive Check
  | bad
  | mismatch
  | ok
deriving DecidableEq, Repr

/-- include/rtmfp/params.hpp:18 `MAX_COOKIE_LIFETIME` -/
def maxLifetime : Nat := 95

/-- src/RTMFP.cpp:273, 304 `uintmax_t(getInstanceAge())` -/
def seconds (age : Rat) : Nat := ⌊age⌋.toNat

/-- src/RTMFP.cpp:283-285, 316-318: the encoded form of an address given as a `sockaddr`. -/
def encodedAddr (addr : Option Address.Sockaddr) : Bytes := Address.encode (Address.ofSockaddr addr 0)

/-- src/RTMFP.cpp:269-293 `makeCookie` -/
def make (hash : Bytes → Bytes) (secret : Bytes) (age : Rat) (addr : Option Address.Sockaddr) : Bytes :=
  let secs := seconds age
  let dough := VLU.append secs secret
  let cookie := VLU.append secs []
  let cookie := cookie ++ hash dough
  let dough := dough ++ encodedAddr addr
  cookie ++ hash dough

/-- src/RTMFP.cpp:295-326 `checkCookie` -/
def check (hash : Bytes → Bytes) (secret : Bytes) (age : Rat) (cookie : Bytes) (addr : Option Address.Sockaddr) : Check :=
  match VLU.parse cookie with
  | none => .bad
  | some (secs, rv) =>
    if cookie.length ≠ rv + 32 + 32 then .bad
    else
      let now := seconds age
      if secs > now ∨ now - secs > maxLifetime then .bad
      else
        let dough := secret ++ cookie.take rv
        if (cookie.drop rv).take 32 ≠ hash dough then .bad
        else
          let dough := dough ++ encodedAddr addr
          if (cookie.drop (rv + 32)).take 32 ≠ hash dough then .mismatch
          else .ok

end Cookie
end Rtmfp
