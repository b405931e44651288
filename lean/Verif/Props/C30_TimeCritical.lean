import Verif.Model.TimeCritical
import Mathlib.Tactic.Linarith
import Mathlib.Tactic.NormNum

/-! # C30: time-critical reporting -/

namespace Rtmfp
namespace TimeCritical

/-- A packet with the time-critical flag, received by a session at a time. -/
structure Reception where
  session : Nat
  time : Rat

/-- the state after a history of receptions -/
def after (h : List Reception) : State := h.foldl (fun s r => receivedTC s r.session r.time) init

/-- the clock does not go backward -/
def InOrder (h : List Reception) : Prop := h.Pairwise (fun a b => a.time ≤ b.time)

/-- the time of the last reception by a session other than the given one -/
def lastOther (session : Nat) (h : List Reception) : Option Rat := ((h.filter (fun r => r.session ≠ session)).map (·.time)).getLast?

theorem after_snoc (h : List Reception) (r : Reception) : after (h ++ [r]) = receivedTC (after h) r.session r.time := by
  simp [after]

theorem reverse_induct {p : List Reception → Prop} (h0 : p []) (h1 : ∀ h r, p h → p (h ++ [r])) (h : List Reception) : p h := by
  have : ∀ l : List Reception, p l.reverse := by
    intro l
    induction l with
    | nil => exact h0
    | cons a l ih => rw [List.reverse_cons]; exact h1 _ _ ih
  have := this h.reverse
  rwa [List.reverse_reverse] at this

theorem lastOther_snoc (s : Nat) (h : List Reception) (r : Reception) :
    lastOther s (h ++ [r]) = if r.session ≠ s then some r.time else lastOther s h := by
  simp only [lastOther, List.filter_append]
  by_cases hr : r.session = s
  · simp [hr]
  · simp [hr]

/-- What the two times are. -/
theorem tracked (h : List Reception) (hpos : ∀ r ∈ h, r.session ≠ 0) :
    lastOther (after h).reporting h = (after h).previous ∧
    (∀ s, s ≠ 0 → s ≠ (after h).reporting → lastOther s h = (after h).tcTime) ∧ (after h).tcTime = (h.map (·.time)).getLast? := by
  induction h using reverse_induct with
  | h0 => exact ⟨rfl, fun _ _ _ => rfl, rfl⟩
  | h1 h r ih =>
    have ih := ih (fun r hr => hpos r (by simp [hr]))
    have hr0 := hpos r (by simp)
    rw [after_snoc]
    simp only [receivedTC]
    by_cases he : r.session = (after h).reporting
    · have hc : ¬ r.session ≠ (after h).reporting := fun h => h he
      simp only [if_neg hc]
      refine ⟨?_, ?_, by simp⟩
      · rw [lastOther_snoc, if_neg (fun h => h he)]; exact ih.1
      · intro s hs hne
        rw [lastOther_snoc, if_pos (by rw [he]; exact fun h => hne h.symm)]
    · simp only [if_pos he]
      refine ⟨?_, ?_, by simp⟩
      · rw [lastOther_snoc, if_neg (fun h => h rfl)]
        exact ih.2.1 _ hr0 he
      · intro s hs hne
        rw [lastOther_snoc, if_pos (fun h => hne h.symm)]

theorem last_ge {l : List Rat} (hl : l.Pairwise (· ≤ ·)) {t : Rat} (ht : l.getLast? = some t) : ∀ u ∈ l, u ≤ t := by
  rw [List.getLast?_eq_some_iff] at ht
  obtain ⟨k, rfl⟩ := ht
  rw [List.pairwise_append] at hl
  intro u hu
  rcases List.mem_append.mp hu with hu | hu
  · exact hl.2.2 u hu t (by simp)
  · rw [List.mem_singleton.mp hu]

end TimeCritical

open TimeCritical

/-- A session says so to its peer exactly when some other session received time-critical data less than 0.8 seconds ago, whatever the
receptions, of any number of sessions, were. -/
theorem C30_report_iff (h : List Reception) (hord : InOrder h) (hpos : ∀ r ∈ h, r.session ≠ 0) (session : Nat) (hs : session ≠ 0) (now : Rat) :
    shouldReport (after h) session now = true ↔ ∃ r ∈ h, r.session ≠ session ∧ now - r.time < 4 / 5 := by
  have ht := tracked h hpos
  have key : (if session = (after h).reporting then (after h).previous else (after h).tcTime) = lastOther session h := by
    by_cases he : session = (after h).reporting
    · rw [if_pos he, he]; exact ht.1.symm
    · rw [if_neg he]; exact (ht.2.1 session hs he).symm
  simp only [shouldReport, key]
  have hsub : ((h.filter (fun r => r.session ≠ session)).map (·.time)).Pairwise (· ≤ ·) := by
    rw [List.pairwise_map]
    exact List.Pairwise.sublist List.filter_sublist hord
  constructor
  · intro hr
    cases hl : lastOther session h with
    | none => rw [hl] at hr; cases hr
    | some t =>
      rw [hl] at hr
      have hmem := List.mem_of_getLast? hl
      obtain ⟨r, hr1, rfl⟩ := List.mem_map.mp hmem
      obtain ⟨hr2, hr3⟩ := List.mem_filter.mp hr1
      refine ⟨r, hr2, by simpa using hr3, ?_⟩
      have := of_decide_eq_true hr
      simp only [timeout] at this
      linarith
  · rintro ⟨r, hr, hne, hlt⟩
    have hmem : r.time ∈ (h.filter (fun r => r.session ≠ session)).map (·.time) :=
      List.mem_map.mpr ⟨r, List.mem_filter.mpr ⟨hr, by simpa using hne⟩, rfl⟩
    cases hl : lastOther session h with
    | none =>
      rw [lastOther, List.getLast?_eq_none_iff] at hl
      rw [hl] at hmem; cases hmem
    | some t =>
      have := last_ge hsub hl _ hmem
      simp only [timeout]
      exact decide_eq_true (by linarith)

/-- three sessions; the first two have received time-critical data -/
def demoReceptions : List Reception := [⟨1, 1⟩, ⟨2, 3 / 2⟩, ⟨2, 8 / 5⟩]

example : InOrder demoReceptions ∧ (∀ r ∈ demoReceptions, r.session ≠ 0) ∧
    shouldReport (after demoReceptions) 2 (17 / 10) = true ∧ shouldReport (after demoReceptions) 2 (19 / 10) = false ∧
    shouldReport (after demoReceptions) 3 (19 / 10) = true := by
  refine ⟨by simp [InOrder, demoReceptions]; norm_num, by simp [demoReceptions], ?_, ?_, ?_⟩ <;>
    simp [demoReceptions, after, receivedTC, shouldReport, timeout, TimeCritical.init] <;> norm_num

/-- Time-critical data received by one session alone is never reported to that session's own peer. -/
theorem C30_not_to_self (h : List Reception) (hpos : ∀ r ∈ h, r.session ≠ 0) (session : Nat) (hs : session ≠ 0)
    (hall : ∀ r ∈ h, r.session = session) (now : Rat) : shouldReport (after h) session now = false := by
  have ht := tracked h hpos
  have key : (if session = (after h).reporting then (after h).previous else (after h).tcTime) = lastOther session h := by
    by_cases he : session = (after h).reporting
    · rw [if_pos he, he]; exact ht.1.symm
    · rw [if_neg he]; exact (ht.2.1 session hs he).symm
  have hl : lastOther session h = none := by
    rw [lastOther, List.getLast?_eq_none_iff, List.map_eq_nil_iff, List.filter_eq_nil_iff]
    intro r hr
    simp [hall r hr]
  simp only [shouldReport, key, hl]

example : (∀ r ∈ [(⟨1, 1⟩ : Reception), ⟨1, 2⟩], r.session ≠ 0) ∧ (∀ r ∈ [(⟨1, 1⟩ : Reception), ⟨1, 2⟩], r.session = 1) := by simp

end Rtmfp
