import Verif.Model.RateTracker
import Mathlib.Tactic.Linarith
import Mathlib.Tactic.FieldSimp
import Mathlib.Tactic.Positivity

/-! # C59: rate tracker -/

namespace Rtmfp
namespace RateTracker

/-- the total counted by a history -/
def total : List Op → Nat
  | [] => 0
  | .update n _ :: ops => n + total ops
  | _ :: ops => total ops

/-- every window period set in the history is at least `w` -/
def PeriodsAtLeast (w : Rat) (ops : List Op) : Prop := ∀ p, Op.period p ∈ ops → w ≤ p

theorem total_append (a b : List Op) : total (a ++ b) = total a + total b := by
  induction a with
  | nil => simp [total]
  | cons x a ih => cases x <;> simp [total, ih]; omega

theorem rateAt_pos (r : RateTracker) (d : Rat) (hd : 0 ≤ d) : rateAt r d =
    if d ≥ r.windowPeriod * 2 then 0
    else if d ≥ r.windowPeriod then r.count * ((r.windowPeriod * 2 - d) / r.windowPeriod) / r.windowPeriod
    else if r.previousRate > 0 then (r.count / r.windowPeriod) + (r.previousRate * (1 - d / r.windowPeriod))
    else r.count / r.windowPeriod := by
  simp only [rateAt]
  rw [if_neg (c := d < 0) (by linarith)]

theorem rateAt_nonneg (r : RateTracker) (d : Rat) (hw : 0 < r.windowPeriod) (hp : 0 ≤ r.previousRate) : 0 ≤ rateAt r d := by
  simp only [rateAt]
  generalize hd : (if d < 0 then 0 else d) = e
  have he : 0 ≤ e := by rw [← hd]; split <;> linarith
  have hc : (0 : Rat) ≤ r.count := by positivity
  split
  · exact le_refl _
  · split
    · have : 0 ≤ (r.windowPeriod * 2 - e) / r.windowPeriod := div_nonneg (by linarith) hw.le
      positivity
    · split
      · have h1 : e / r.windowPeriod ≤ 1 := by rw [div_le_one hw]; linarith
        have : 0 ≤ r.previousRate * (1 - e / r.windowPeriod) := mul_nonneg hp (by linarith)
        have : 0 ≤ r.count / r.windowPeriod := div_nonneg hc hw.le
        linarith
      · exact div_nonneg hc hw.le

theorem rateAt_le (r : RateTracker) (d : Rat) (w0 T : Rat) (h0 : 0 < w0) (hw : w0 ≤ r.windowPeriod) (hp : 0 ≤ r.previousRate)
    (hT : r.previousRate * w0 + r.count ≤ T) : rateAt r d * w0 ≤ T := by
  have hw' : 0 < r.windowPeriod := by linarith
  have hc : (0 : Rat) ≤ r.count := by positivity
  have hpw : 0 ≤ r.previousRate * w0 := mul_nonneg hp h0.le
  have hcw : (r.count : Rat) / r.windowPeriod * w0 ≤ r.count := by
    rw [div_mul_eq_mul_div, div_le_iff₀ hw']
    exact mul_le_mul_of_nonneg_left hw hc
  simp only [rateAt]
  generalize hd : (if d < 0 then 0 else d) = e
  have he : 0 ≤ e := by rw [← hd]; split <;> linarith
  split
  · simp; linarith
  · split
    · next h1 h2 =>
      have hdec : (r.windowPeriod * 2 - e) / r.windowPeriod ≤ 1 := by rw [div_le_one hw']; linarith
      have hdec0 : 0 ≤ (r.windowPeriod * 2 - e) / r.windowPeriod := div_nonneg (by linarith) hw'.le
      have : (r.count : Rat) * ((r.windowPeriod * 2 - e) / r.windowPeriod) ≤ r.count := by
        calc (r.count : Rat) * ((r.windowPeriod * 2 - e) / r.windowPeriod) ≤ r.count * 1 := mul_le_mul_of_nonneg_left hdec hc
          _ = r.count := mul_one _
      have h3 : (r.count : Rat) * ((r.windowPeriod * 2 - e) / r.windowPeriod) / r.windowPeriod * w0 ≤ r.count / r.windowPeriod * w0 :=
        mul_le_mul_of_nonneg_right (div_le_div_of_nonneg_right this hw'.le) h0.le
      linarith
    · split
      · have h1 : 0 ≤ e / r.windowPeriod := div_nonneg he hw'.le
        have h2 : r.previousRate * (1 - e / r.windowPeriod) ≤ r.previousRate := by
          have := mul_nonneg hp h1
          linarith
        have h3 := mul_le_mul_of_nonneg_right h2 h0.le
        rw [add_mul]
        linarith
      · linarith

/-- what holds at all times: `w0` a lower bound of the windows, `T` of the total, `times` the times of the updates -/
structure Inv (w0 T : Rat) (times : List Rat) (r : RateTracker) : Prop where
  window : w0 ≤ r.windowPeriod
  prev : 0 ≤ r.previousRate
  sum : r.previousRate * w0 + r.count ≤ T
  begin : ∀ b, r.windowBegin = some b → b ∈ times

theorem getRate_nonneg {w0 T ts r} (h0 : 0 < w0) (h : Inv w0 T ts r) (now : Rat) : 0 ≤ r.getRate now := by
  rw [getRate]
  cases r.windowBegin with
  | none => exact le_refl _
  | some b => exact rateAt_nonneg r _ (by linarith [h.window]) h.prev

theorem getRate_le {w0 T ts r} (h0 : 0 < w0) (hT : 0 ≤ T) (h : Inv w0 T ts r) (now : Rat) : r.getRate now * w0 ≤ T := by
  rw [getRate]
  cases r.windowBegin with
  | none => simpa using hT
  | some b => exact rateAt_le r _ w0 T h0 h.window h.prev h.sum

theorem Inv.roll {w0 T ts r} (h0 : 0 < w0) (hT : 0 ≤ T) (h : Inv w0 T ts r) (now : Rat) (n : Nat) :
    Inv w0 (T + n) (now :: ts) ((r.roll now).add n) := by
  refine ⟨h.window, getRate_nonneg h0 h now, ?_, ?_⟩
  · have := getRate_le h0 hT h now
    simp only [RateTracker.roll, RateTracker.add, Nat.zero_add]
    linarith
  · intro b hb
    simp only [RateTracker.roll, RateTracker.add, Option.some.injEq] at hb
    subst hb; exact List.mem_cons_self

theorem Inv.update {w0 T ts r} (h0 : 0 < w0) (hT : 0 ≤ T) (h : Inv w0 T ts r) (now : Rat) (n : Nat) :
    Inv w0 (T + n) (now :: ts) (r.update n now) := by
  have hn : (0 : Rat) ≤ n := by positivity
  rw [RateTracker.update]
  split
  · exact h.roll h0 hT now n
  · next b hb =>
    simp only []
    split
    · exact ⟨h.window, h.prev, by linarith [h.sum], fun b hb => List.mem_cons_of_mem _ (h.begin b hb)⟩
    · split
      · exact h.roll h0 hT now n
      · refine ⟨h.window, h.prev, ?_, fun b hb => List.mem_cons_of_mem _ (h.begin b hb)⟩
        simp only [RateTracker.add, Nat.cast_add]
        linarith [h.sum]

/-- the times of the updates of a history -/
def times : List Op → List Rat
  | [] => []
  | .update _ t :: ops => t :: times ops
  | _ :: ops => times ops

theorem Inv.run {w0 : Rat} (h0 : 0 < w0) (ops : List Op) (hp : PeriodsAtLeast w0 ops) : ∀ (T : Rat) (ts : List Rat) (r : RateTracker),
    0 ≤ T → Inv w0 T ts r → ∃ ts', Inv w0 (T + total ops) ts' (r.run ops) ∧ ∀ t ∈ ts', t ∈ ts ∨ t ∈ times ops := by
  induction ops with
  | nil => intro T ts r _ h; exact ⟨ts, by simpa [total, RateTracker.run] using h, fun t ht => .inl ht⟩
  | cons op ops ih =>
    intro T ts r hT h
    have hp' : PeriodsAtLeast w0 ops := fun p hm => hp p (List.mem_cons_of_mem _ hm)
    cases op with
    | update n t =>
      obtain ⟨ts', h1, h2⟩ := ih hp' (T + n) (t :: ts) (r.update n t) (by positivity) (h.update h0 hT t n)
      refine ⟨ts', ?_, fun x hx => ?_⟩
      · rw [total, Nat.cast_add, ← add_assoc]; exact h1
      · rcases h2 x hx with h3 | h3
        · rcases List.mem_cons.mp h3 with h3 | h3
          · subst h3; exact .inr List.mem_cons_self
          · exact .inl h3
        · exact .inr (List.mem_cons_of_mem _ h3)
    | period w =>
      have := hp w List.mem_cons_self
      obtain ⟨ts', h1, h2⟩ := ih hp' T ts (r.setWindowPeriod w) hT
        ⟨le_trans this (le_max_left _ _), h.prev, h.sum, h.begin⟩
      exact ⟨ts', h1, h2⟩
    | reset =>
      obtain ⟨ts', h1, h2⟩ := ih hp' T ts r.reset hT
        ⟨h.window, le_refl _, by simpa [RateTracker.reset] using hT, fun b hb => by simp [RateTracker.reset] at hb⟩
      exact ⟨ts', h1, h2⟩

theorem inv_init (w : Rat) (w0 : Rat) (h : w0 ≤ w) : Inv w0 0 [] (init w) :=
  ⟨h, le_refl _, by simp [init], fun b hb => by simp [init] at hb⟩

/-- a positive count not longer than a window ago, at non-decreasing times, with an unchanging window -/
theorem update_count (r : RateTracker) (n : Nat) (t : Rat) : (r.update n t).windowPeriod = r.windowPeriod := by
  rw [update]; split
  · rfl
  · simp only []; split
    · rfl
    · split <;> rfl

end RateTracker
open RateTracker

/-- **C59** the rate is never negative: any history of updates at any times (the clock may go backwards), changes of the
window, and resets; any moment. -/
theorem C59_nonneg (w : Rat) (hw : 0 < w) (ops : List Op) (hp : ∀ p, .period p ∈ ops → 0 < p) (now : Rat) :
    0 ≤ ((init w).run ops).getRate now := by
  -- the smallest of the windows used
  have hmin : ∃ w0, 0 < w0 ∧ w0 ≤ w ∧ PeriodsAtLeast w0 ops := by
    clear now
    induction ops with
    | nil => exact ⟨w, hw, le_refl _, fun p h => by simp at h⟩
    | cons op ops ih =>
      obtain ⟨w0, h1, h2, h3⟩ := ih (fun p h => hp p (List.mem_cons_of_mem _ h))
      cases op with
      | period p =>
        have hpp := hp p List.mem_cons_self
        refine ⟨min w0 p, lt_min h1 hpp, le_trans (min_le_left _ _) h2, fun q hq => ?_⟩
        rcases List.mem_cons.mp hq with hq | hq
        · cases hq; exact min_le_right _ _
        · exact le_trans (min_le_left _ _) (h3 q hq)
      | update n t =>
        refine ⟨w0, h1, h2, fun q hq => ?_⟩
        rcases List.mem_cons.mp hq with hq | hq
        · cases hq
        · exact h3 q hq
      | reset =>
        refine ⟨w0, h1, h2, fun q hq => ?_⟩
        rcases List.mem_cons.mp hq with hq | hq
        · cases hq
        · exact h3 q hq
  obtain ⟨w0, h1, h2, h3⟩ := hmin
  obtain ⟨ts, hi, _⟩ := Inv.run h1 ops h3 0 [] _ (le_refl _) (inv_init w w0 h2)
  exact getRate_nonneg h1 hi now

/-- **C59** the rate never exceeds the counted total divided by the (smallest) window: `w0` is any positive lower bound of
the windows used, and with a single window it is that window. -/
theorem C59_bounded (w w0 : Rat) (h0 : 0 < w0) (hw : w0 ≤ w) (ops : List Op) (hp : ∀ p, .period p ∈ ops → w0 ≤ p) (now : Rat) :
    ((init w).run ops).getRate now ≤ (total ops : Rat) / w0 := by
  obtain ⟨ts, hi, _⟩ := Inv.run h0 ops hp 0 [] _ (le_refl _) (inv_init w w0 hw)
  rw [le_div_iff₀ h0]
  have := getRate_le h0 (by positivity) hi now
  linarith

/-- **C59** the rate is zero when all of the updates are two (current) windows ago or more. -/
theorem C59_zero_after_two_windows (w : Rat) (ops : List Op) (now : Rat)
    (hn : ∀ n t, .update n t ∈ ops → t + 2 * ((init w).run ops).windowPeriod ≤ now)
    (hpos : 0 < ((init w).run ops).windowPeriod) : ((init w).run ops).getRate now = 0 := by
  have hmem : ∀ (ops : List Op) (r : RateTracker) b, (r.run ops).windowBegin = some b →
      r.windowBegin = some b ∨ ∃ n, Op.update n b ∈ ops := by
    intro ops
    induction ops with
    | nil => intro r b h; exact .inl h
    | cons op ops ih =>
      intro r b h
      rcases ih (r.step op) b h with h1 | ⟨n, h1⟩
      · cases op with
        | update n t =>
          rw [step, update] at h1
          split at h1
          · simp only [roll, add, Option.some.injEq] at h1; subst h1; exact .inr ⟨n, List.mem_cons_self⟩
          · next b' hb =>
            dsimp only at h1
            split at h1
            · exact .inl h1
            · split at h1
              · simp only [roll, add, Option.some.injEq] at h1; subst h1; exact .inr ⟨n, List.mem_cons_self⟩
              · exact .inl h1
        | period p => exact .inl h1
        | reset => simp [step, RateTracker.reset] at h1
      · exact .inr ⟨n, List.mem_cons_of_mem _ h1⟩
  rw [getRate]
  cases hb : ((init w).run ops).windowBegin with
  | none => rfl
  | some b =>
    rcases hmem ops (init w) b hb with h | ⟨n, h⟩
    · simp [init] at h
    · have := hn n b h
      dsimp only
      rw [rateAt_pos _ _ (by linarith)]
      rw [if_pos (by linarith)]

/-- **C59** a count recorded less than a window ago shows: the rate is positive, if the clock doesn't go backwards after it
and the window is left alone. (Right after an update `r` of any history, and any updates later.) -/
theorem C59_recent_positive (r : RateTracker) (n : Nat) (hn : 0 < n) (t : Rat) (hw : 0 < r.windowPeriod) (hp : 0 ≤ r.previousRate)
    (hb : ∀ b, r.windowBegin = some b → b ≤ t) (later : List (Nat × Rat)) (now : Rat) (hnow : now < t + r.windowPeriod)
    (ht : t ≤ now) (hl : ∀ x ∈ later, t ≤ x.2 ∧ x.2 ≤ now) :
    0 < ((r.update n t).run (later.map fun x => .update x.1 x.2)).getRate now := by
  -- either the count is in a window that began less than a window before `t`, or a later window remembers its rate
  have key : ∀ (later : List (Nat × Rat)) (q : RateTracker), q.windowPeriod = r.windowPeriod →
      (∀ x ∈ later, t ≤ x.2 ∧ x.2 ≤ now) →
      ((∃ b, q.windowBegin = some b ∧ b ≤ t ∧ t < b + q.windowPeriod ∧ 0 < q.count ∧ 0 ≤ q.previousRate) ∨
       (∃ b, q.windowBegin = some b ∧ t ≤ b ∧ b ≤ now ∧ 0 < q.previousRate)) →
      0 < (q.run (later.map fun x => .update x.1 x.2)).getRate now := by
    intro later
    induction later with
    | nil =>
      intro q hq _ h
      have hqp : 0 < q.windowPeriod := by rw [hq]; exact hw
      simp only [List.map_nil, RateTracker.run, List.foldl_nil]
      rcases h with ⟨b, e, h1, h2, h3, h4⟩ | ⟨b, e, h1, h2, h4⟩
      · rw [getRate, e]
        have hc : (0 : Rat) < q.count := by exact_mod_cast h3
        dsimp only
        rw [rateAt_pos _ _ (by linarith)]
        rw [if_neg (by linarith)]
        split
        · have : 0 < (q.windowPeriod * 2 - (now - b)) / q.windowPeriod := div_pos (by linarith) hqp
          positivity
        · next hlt =>
          have hcw : 0 < (q.count : Rat) / q.windowPeriod := div_pos hc hqp
          split
          · have h5 : (now - b) / q.windowPeriod ≤ 1 := by rw [div_le_one hqp]; linarith
            have : 0 ≤ q.previousRate * (1 - (now - b) / q.windowPeriod) := mul_nonneg h4 (by linarith)
            linarith
          · exact hcw
      · rw [getRate, e]
        have hc : (0 : Rat) ≤ q.count := by positivity
        dsimp only
        rw [rateAt_pos _ _ (by linarith)]
        rw [if_neg (by linarith), if_neg (by linarith), if_pos h4]
        have h5 : (now - b) / q.windowPeriod < 1 := by rw [div_lt_one hqp]; linarith
        have : 0 < q.previousRate * (1 - (now - b) / q.windowPeriod) := mul_pos h4 (by linarith)
        have : 0 ≤ (q.count : Rat) / q.windowPeriod := div_nonneg hc hqp.le
        linarith
    | cons x later ih =>
      intro q hq hl h
      have hqp : 0 < q.windowPeriod := by rw [hq]; exact hw
      obtain ⟨hx1, hx2⟩ := hl x List.mem_cons_self
      refine ih (q.update x.1 x.2) (by rw [update_count, hq]) (fun y hy => hl y (List.mem_cons_of_mem _ hy)) ?_
      rcases h with ⟨b, e, h1, h2, h3, h4⟩ | ⟨b, e, h1, h2, h4⟩
      · rw [update, e]
        simp only []
        rw [if_neg (by linarith)]
        split
        · next hge =>
          -- the window rolls over: its rate is positive because its count is
          refine .inr ⟨x.2, rfl, hx1, hx2, ?_⟩
          show 0 < q.getRate x.2
          rw [getRate, e]
          have hc : (0 : Rat) < q.count := by exact_mod_cast h3
          dsimp only
          rw [rateAt_pos _ _ (by linarith)]
          rw [if_neg (by linarith), if_pos hge]
          have : 0 < (q.windowPeriod * 2 - (x.2 - b)) / q.windowPeriod := div_pos (by linarith) hqp
          positivity
        · exact .inl ⟨b, e, h1, h2, by simp only [add]; omega, h4⟩
      · rw [update, e]
        simp only []
        split
        · exact .inr ⟨b, e, h1, h2, h4⟩
        · rw [if_neg (by linarith)]
          exact .inr ⟨b, e, h1, h2, h4⟩
  refine key later (r.update n t) (update_count r n t) hl ?_
  rw [update]
  split
  · next e =>
    refine .inl ⟨t, rfl, le_refl _, by show t < t + r.windowPeriod; linarith, ?_, ?_⟩
    · simp only [roll, add]; omega
    · show 0 ≤ r.getRate t; rw [getRate, e]
  · next b e =>
    have := hb b e
    simp only []
    rw [if_neg (by linarith)]
    split
    · refine .inl ⟨t, rfl, le_refl _, by show t < t + r.windowPeriod; linarith, ?_, ?_⟩
      · simp only [roll, add]; omega
      · show 0 ≤ r.getRate t; rw [getRate, e]; exact rateAt_nonneg r _ hw hp
    · refine .inl ⟨b, e, this, by show t < b + r.windowPeriod; linarith, ?_, hp⟩
      simp only [add]; omega

/-- a concrete history: 100 at time 0, 50 at time 1 (a second window begins), window of one second -/
example : ((init 1).run [.update 100 0, .update 50 1]).getRate 1 = 150 ∧
    ((init 1).run [.update 100 0, .update 50 1]).getRate (3 / 2) = 100 ∧
    ((init 1).run [.update 100 0, .update 50 1]).getRate 3 = 0 ∧ total [.update 100 0, .update 50 1] = 150 := by
  refine ⟨?_, ?_, ?_, rfl⟩ <;> norm_num [init, run, step, update, roll, add, getRate, rateAt]

end Rtmfp
