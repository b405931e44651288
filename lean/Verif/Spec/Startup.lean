import Verif.Spec.VLU
import Verif.Model.Address
import Verif.Model.SessionId

/-!
# Specification: the startup messages on the wire (RFC 7016, 2.3.2 to 2.3.8)

What the payload of a chunk says. No reference to the parser; an address is that of `Model/Address.lean` (its members), a session id has the byte order of
the host that made it.
-/

namespace Rtmfp.Spec.Startup

/-- a length and as many bytes -/
def Field (w v : Bytes) : Prop := ∃ l, IsVLU l ∧ base128 l = v.length ∧ w = l ++ v

/-- 2.1.5: flags (the top bit is set for IPv6, the lowest two are the origin, the others mean nothing), the IP address, the port -/
def Addr (w : Bytes) (a : Address) : Prop :=
  ∃ (flags : UInt8) (ip : Bytes) (hi lo : UInt8), w = flags :: (ip ++ [hi, lo]) ∧ ip.length = (if flags.toNat < 128 then 4 else 16) ∧
    a = { family := if flags.toNat < 128 then 2 else 10, ip := ip, port := hi.toNat * 256 + lo.toNat, origin := flags.toNat % 4 }

/-- 2.3.2 Initiator Hello: whom it is for, and a tag -/
def IHello (w epd tag : Bytes) : Prop := ∃ f, Field f epd ∧ w = f ++ tag

/-- 2.3.3 Forwarded Initiator Hello: whom it is for, where to answer, and the tag -/
def FIHello (w epd : Bytes) (reply : Address) (tag : Bytes) : Prop := ∃ f a, Field f epd ∧ Addr a reply ∧ w = f ++ a ++ tag

/-- 2.3.4 Responder Hello: the tag, a cookie, the certificate -/
def RHello (w tag cookie cert : Bytes) : Prop := ∃ f g, Field f tag ∧ Field g cookie ∧ w = f ++ g ++ cert

/-- addresses one after the other -/
def Addrs : Bytes → List Address → Prop
  | w, [] => w = []
  | w, a :: as => ∃ u v, Addr u a ∧ Addrs v as ∧ w = u ++ v

/-- 2.3.5 Responder Redirect: the tag, where to ask -/
def Redirect (w tag : Bytes) (dests : List Address) : Prop := ∃ f v, Field f tag ∧ Addrs v dests ∧ w = f ++ v

/-- 2.3.6 Cookie Change: the old and the new cookie -/
def CookieChange (w old new : Bytes) : Prop := ∃ f, Field f old ∧ w = f ++ new

/-- four bytes that are a session id -/
def Sid (e : SessionId.Endian) (w : Bytes) (n : Nat) : Prop := ∃ a b c d, w = [a, b, c, d] ∧ n = SessionId.load e a b c d

/-- 2.3.7 Initiator Initial Keying: the session id, the cookie, the certificate and the keying component are what is signed -/
def IIKeying (e : SessionId.Endian) (w : Bytes) (isid : Nat) (cookie cert skic signedPart sig : Bytes) : Prop :=
  ∃ s f g k, Sid e s isid ∧ Field f cookie ∧ Field g cert ∧ Field k skic ∧ signedPart = s ++ f ++ g ++ k ∧ w = signedPart ++ sig

/-- 2.3.8 Responder Initial Keying: the session id and the keying component (and the other side's, which is not sent back) are what is signed -/
def RIKeying (e : SessionId.Endian) (w : Bytes) (rsid : Nat) (skrc signedPart sig : Bytes) : Prop :=
  ∃ s f, Sid e s rsid ∧ Field f skrc ∧ signedPart = s ++ f ∧ w = signedPart ++ sig

end Rtmfp.Spec.Startup
