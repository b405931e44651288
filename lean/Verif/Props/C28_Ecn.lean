import Verif.Model.Ecn

/-! # C28: congestion-experienced counting

The reports that arrive carry the low 8 bits of counts `c₁, c₂, …` (unbounded numbers of marks seen by the peer), in any order
of arrival, with any of them lost or duplicated. The promise is for reports that are not absurdly far from the highest one
seen: at most 32 marks behind it, less than 224 ahead of it. -/

namespace Rtmfp
namespace Ecn

/-- every count is at most 32 behind and less than 224 ahead of the highest before it -/
def Plausible : Nat → List Nat → Prop
  | _, [] => True
  | m, c :: cs => m ≤ c + 32 ∧ c < m + 224 ∧ Plausible (max m c) cs

/-- which counts are higher than all before them -/
def records : Nat → List Nat → List Bool
  | _, [] => []
  | m, c :: cs => decide (m < c) :: records (max m c) cs

theorem report_toNat (c : Nat) : (report c).toNat = c % 256 := by
  rw [report, show c &&& 0xff = c % 256 from Nat.and_two_pow_sub_one_eq_mod c 8, UInt8.toNat_ofNat']; omega

theorem onReport_spec (m c : Nat) (h1 : m ≤ c + 32) (h2 : c < m + 224) :
    onReport (report m) (report c) = (report (max m c), decide (m < c)) := by
  have hd : (report c - report m).toNat = (c + 256 * m - m) % 256 := by
    rw [UInt8.toNat_sub, report_toNat, report_toNat]; omega
  have h0 : report c - report m ≠ 0 ↔ (c + 256 * m - m) % 256 ≠ 0 := by
    rw [ne_eq, ← UInt8.toNat_inj, hd]; rfl
  have hl : report c - report m < 0xe0 ↔ (c + 256 * m - m) % 256 < 224 := by
    rw [UInt8.lt_iff_toNat_lt, hd]; rfl
  rw [onReport]
  simp only [h0, hl]
  rcases Nat.lt_or_ge m c with h | h
  · rw [if_pos (by omega)]
    simp [h, Nat.max_eq_right (Nat.le_of_lt h)]
  · rw [if_neg (by omega), Nat.max_eq_left h]
    simp; omega

end Ecn
open Ecn

/-- **C28** congestion is notified by exactly the reports of a count higher than all of those before it; what is remembered is
the highest count modulo 256. Any starting count, any number of reports. -/
theorem C28_signals_exact (m : Nat) (cs : List Nat) (h : Plausible m cs) :
    onReports (report m) (cs.map report) = (report (cs.foldl max m), records m cs) := by
  induction cs generalizing m with
  | nil => rfl
  | cons c cs ih =>
    obtain ⟨h1, h2, h3⟩ := h
    rw [List.map_cons, onReports, onReport_spec m c h1 h2, List.foldl_cons]
    simp only [ih _ h3, records]

/-- marks 250, 300 (the byte wraps), then an old report of 299, a duplicate, and 301 -/
example : Plausible 249 [250, 300, 299, 300, 301] ∧ (onReports (report 249) ([250, 300, 299, 300, 301].map report)).2 = [true, true, false, false, true] :=
  ⟨by simp [Plausible], by decide⟩

/-- **C28** the bounds can't be improved: a report 224 marks ahead is taken for an old one, and 33 behind for a new one. -/
theorem C28_bounds_tight : (onReport (report 0) (report 224)).2 = false ∧ (onReport (report 33) (report 0)).2 = true := by decide

/-- **C28** the byte reported after a sequence of packets is the number of them marked congestion-experienced, modulo 256. -/
theorem C28_report_counts (tos : List Nat) :
    (report (tos.foldl onPacket 0)).toNat = (tos.filter fun t => t % 4 = 3).length % 256 := by
  have : ∀ (tos : List Nat) (n : Nat), tos.foldl onPacket n = n + (tos.filter fun t => t % 4 = 3).length := by
    intro tos
    induction tos with
    | nil => intro n; rfl
    | cons t tos ih =>
      intro n
      rw [List.foldl_cons, ih, onPacket, show t &&& 0x03 = t % 4 from Nat.and_two_pow_sub_one_eq_mod t 2, List.filter_cons]
      by_cases h : t % 4 = 3 <;> simp [h]
      omega
  rw [this, report_toNat, Nat.zero_add]

example : (report ([3, 0, 2, 0xff, 1].foldl onPacket 0)).toNat = 2 := by decide

end Rtmfp
