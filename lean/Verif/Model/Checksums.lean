import Verif.Base

/-! # Model of `src/Checksums.cpp` -/

namespace Rtmfp
namespace Checksums

/-- src/Checksums.cpp:15-22: the inner loop of `crc32_le`, `n` rounds left. -/
def leByte : Nat → UInt32 → UInt8 → UInt32
  | 0, crc, _ => crc
  | n + 1, crc, c =>
    let bit : UInt32 := (c.toUInt32 ^^^ crc) &&& 0x01
    let crc := crc >>> 1
    let crc := if bit ≠ 0 then crc ^^^ 0xEDB88320 else crc
    leByte n crc (c >>> 1)

/-- src/Checksums.cpp:8-26 `crc32_le(crc, buf, len)`. -/
def crc32_le (crc : UInt32) : Bytes → UInt32
  | [] => crc
  | c :: rest => crc32_le (leByte 8 crc c) rest

/-- src/Checksums.cpp:28-31 `crc32_le(buf, len)`; `~0L` is narrowed to 32 bits. -/
def crc32_le0 (buf : Bytes) : UInt32 := crc32_le 0xffffffff buf

/-- src/Checksums.cpp:40-47: the inner loop of `crc32_be`. -/
def beByte : Nat → UInt32 → UInt8 → UInt32
  | 0, crc, _ => crc
  | n + 1, crc, c =>
    let bit : UInt32 := (c.toUInt32 ^^^ (crc >>> 24)) &&& 0x80
    let crc := crc <<< 1
    let crc := if bit ≠ 0 then crc ^^^ 0x04C11DB7 else crc
    beByte n crc (c <<< 1)

/-- src/Checksums.cpp:33-51 `crc32_be(crc, buf, len)`. -/
def crc32_be (crc : UInt32) : Bytes → UInt32
  | [] => crc
  | c :: rest => crc32_be (beByte 8 crc c) rest

/-- src/Checksums.cpp:53-56. -/
def crc32_be0 (buf : Bytes) : UInt32 := crc32_be 0xffffffff buf

/-- src/Checksums.cpp:73-82: the loop of `in_cksum` and the odd byte; `sum` is 32 bits wide. -/
def sumLoop (sum : Nat) : Bytes → Nat
  | a :: b :: rest => sumLoop (((sum + (a.toNat <<< 8)) % 4294967296 + b.toNat) % 4294967296) rest
  | [a] => (sum + a.toNat) % 4294967296
  | [] => sum

/-- src/Checksums.cpp:90-92. -/
def fold (sum : Nat) : Nat :=
  let sum := ((sum >>> 16) + (sum &&& 0xffff)) % 4294967296
  let sum := (sum + (sum >>> 16)) % 4294967296
  65535 - sum % 65536

/-- src/Checksums.cpp:61-95 `in_cksum`. -/
def in_cksum (buf : Bytes) : Nat := fold (sumLoop 0 buf)

end Checksums
end Rtmfp
