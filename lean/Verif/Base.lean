/-!
# Shared vocabulary

Bytes are `UInt8`, a C++ `(pointer, limit)` pair is the list of the bytes between them.
-/

namespace Rtmfp

/-- A byte string. -/
abbrev Bytes := List UInt8

/-! `W64` is `UINTMAX_MAX + 1 = 2^64`: `uintmax_t` and `size_t` are taken to be 64 bits wide. -/

/-- 2^64 -/
notation "W64" => (18446744073709551616 : Nat)

/-- `UINTMAX_MAX` = 2^64 - 1 -/
notation "U64MAX" => (18446744073709551615 : Nat)

end Rtmfp
