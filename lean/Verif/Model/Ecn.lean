import Verif.Base

/-! # Model of the ECN counters of `src/Session.cpp`

`m_ecn_ce_count` is a `size_t`; it is a natural number here (2^64 is a multiple of 256, so its overflow doesn't show).
`m_rx_ece_count` is a `uint8_t`. -/

namespace Rtmfp
namespace Ecn

/-- src/Session.cpp:1632-1638 in `onPacketHeader` of an open session: the ECN bits of a received packet -/
def onPacket (ceCount : Nat) (tos : Nat) : Nat := if tos &&& 0x03 = 0x03 then ceCount + 1 else ceCount

/-- src/Session.cpp:925 in `assembleEcnReport`: the byte reported -/
def report (ceCount : Nat) : UInt8 := UInt8.ofNat (ceCount &&& 0xff)

/-- src/Session.cpp:2069-2083 `onEcnReportChunk` of a report with at least one byte: the new `m_rx_ece_count`, and whether
congestion is notified -/
def onReport (rxEceCount eceCount : UInt8) : UInt8 × Bool :=
  let delta := eceCount - rxEceCount
  if delta ≠ 0 ∧ delta < 0xe0 then (eceCount, true) else (rxEceCount, false)

/-- reports as they arrive: which of them notify congestion -/
def onReports : UInt8 → List UInt8 → UInt8 × List Bool
  | rx, [] => (rx, [])
  | rx, e :: es =>
    let (rx, n) := onReport rx e
    let (rx, ns) := onReports rx es
    (rx, n :: ns)

end Ecn
end Rtmfp
