import Verif.Model.Cwnd

/-! # C23: the congestion window -/

namespace Rtmfp
namespace Cwnd

/-- The environment's numbers belong together and no more than `B` bytes are outstanding: what is acknowledged and lost was outstanding. -/
def OkEnv (B : Nat) (e : Env) : Prop := e.acked + e.lost + e.sum = e.preAck ∧ e.preAck ≤ B

def OkOp (B : Nat) : Op → Prop
  | .acks e => OkEnv B e
  | .timeout _ _ _ => True

structure Inv (B : Nat) (s : State) : Prop where
  low : 2 * 1161 ≤ s.cwnd
  high : s.cwnd ≤ 2 * B + 4 * 1161
  sync : s.recovery ≠ 0 → s.ssthresh = s.cwnd
  acc : s.acc < 9600
  thresh : s.ssthresh < 2 ^ 64
  recov : s.recovery < 2 ^ 64

theorem add_some {a b : Nat} (h : a + b < 2 ^ 64) : add a b = some (a + b) := by
  rw [add, if_pos (by omega)]

theorem mul_some {a b : Nat} (h : a * b < 2 ^ 64) : mul a b = some (a * b) := by
  rw [mul, if_pos (by omega)]

theorem sub_some {a b : Nat} (h : b ≤ a) : sub a b = some (a - b) := by
  rw [sub, if_pos h]

theorem aiLoop_some (t by_ : Nat) (ht : 64 ≤ t) (fuel acc inc : Nat) (hf : acc < fuel) (hb : by_ ≤ 96) (h : 96 * acc + inc < 2 ^ 64) :
    ∃ a i, aiLoop t by_ fuel acc inc = some (a, i) ∧ a < t := by
  induction fuel generalizing acc inc with
  | zero => omega
  | succ fuel ih =>
    rw [aiLoop]
    by_cases hc : acc ≥ t
    · rw [if_pos hc, sub_some hc]
      simp only [Option.bind_eq_bind, Option.bind_some]
      rw [add_some (by omega)]
      simp only [Option.bind_some]
      exact ih (acc - t) (inc + by_) (by omega) (by omega)
    · rw [if_neg hc]
      exact ⟨acc, inc, rfl, by omega⟩

theorem lossCost_some {lost : Nat} (h : lost ≤ 2 ^ 60) : ∃ c, lossCost lost = some c ∧ c = (if lost = 0 then 0 else lost + (lost + 1) / 2) := by
  rw [lossCost]
  by_cases hl : lost = 0
  · rw [if_neg (by omega), if_pos hl]; exact ⟨0, rfl, rfl⟩
  · rw [if_pos hl, add_some (by omega)]
    simp only [Option.bind_eq_bind, Option.bind_some]
    rw [add_some (by omega), if_neg hl]
    exact ⟨_, rfl, rfl⟩

/-- the size of a step that grows the window -/
theorem grow_spec {B : Nat} (hB : B ≤ 2 ^ 57) {s : State} (h : Inv B s) (hr : s.recovery = 0) {e : Env} (he : OkEnv B e) (hu : e.preAck > s.cwnd * 63 / 64) :
    ∃ s', grow s e = some s' ∧ Inv B s' ∧ s'.cwnd ≤ max (s.cwnd + 1161) (3 * 1161) ∧ s.cwnd ≤ s'.cwnd ∧ s'.recovery = 0 := by
  obtain ⟨he1, he2⟩ := he
  have h1 := h.low
  have h2 := h.acc
  have h3 := h.high
  have fin : ∀ acc inc, acc < 9600 → ∃ s' : State,
      ((add s.cwnd (min inc mss)).bind fun grown => some { s with acc := acc, cwnd := max grown cwndInit }) = some s' ∧
        Inv B s' ∧ s'.cwnd ≤ max (s.cwnd + 1161) (3 * 1161) ∧ s.cwnd ≤ s'.cwnd ∧ s'.recovery = 0 := by
    intro acc inc ha
    have hm : min inc mss ≤ 1161 := Nat.min_le_right _ _
    rw [add_some (by omega)]
    refine ⟨_, rfl, ⟨?_, ?_, ?_, ha, h.thresh, h.recov⟩, ?_, ?_, hr⟩ <;> dsimp only [cwndInit]
    · omega
    · omega
    · intro hh; exact absurd hr hh
    · omega
    · omega
  have ai : ∀ t by_, 64 ≤ t → t ≤ 9600 → by_ ≤ 96 →
      ∃ a i, aiLoop t by_ (s.acc + e.acked + 1) (s.acc + e.acked) 0 = some (a, i) ∧ a < 9600 := by
    intro t by_ ht ht' hb
    obtain ⟨a, i, h1, h2⟩ := aiLoop_some t by_ ht (s.acc + e.acked + 1) (s.acc + e.acked) 0 (by omega) hb (by omega)
    exact ⟨a, i, h1, by omega⟩
  rw [grow]
  simp only [Option.bind_eq_bind]
  by_cases hf : e.fastgrow = true
  · simp only [hf, if_true]
    by_cases hs : s.cwnd < s.ssthresh
    · simp only [if_pos hs, Option.bind_some]
      exact fin 0 e.acked (by omega)
    · simp only [if_neg hs]
      obtain ⟨a, i, k1, k2⟩ := ai (min (max (s.cwnd / 16) 64) 9600) 96 (by omega) (by omega) (by omega)
      rw [add_some (by omega)]
      simp only [Option.bind_some]
      rw [k1]
      simp only [Option.bind_some]
      exact fin a i k2
  · simp only [hf, Bool.false_eq_true, if_false]
    by_cases hs : (e.tcSent && decide (s.cwnd < s.ssthresh)) = true
    · simp only [if_pos hs]
      rw [add_some (by omega)]
      simp only [Option.bind_some]
      exact fin 0 _ (by omega)
    · simp only [if_neg hs]
      obtain ⟨a, i, k1, k2⟩ := ai (min (max (s.cwnd / 16) 64) 4800) (if e.tcSent = true then 48 else 24) (by omega) (by omega) (by split <;> omega)
      rw [add_some (by omega)]
      simp only [Option.bind_some]
      rw [k1]
      simp only [Option.bind_some]
      exact fin a i k2

/-- the cut after a loss -/
theorem onLoss_spec {B : Nat} {s : State} (h : Inv B s) {e : Env} (he : OkEnv B e) (cost : Nat) (hB : B ≤ 2 ^ 57) :
    ∃ s', onLoss s e cost = some s' ∧ Inv B s' ∧ s'.recovery = e.sum ∧
      s'.cwnd = max (min s.cwnd e.preAck - max (min s.cwnd e.preAck / (if e.tcSent = true ∨ (e.preAck > 67200 ∧ e.fastgrow = true) then 8 else 2)) cost) (3 * 1161) := by
  obtain ⟨he1, he2⟩ := he
  have h1 := h.low
  have h2 := h.high
  have e1 : (if (e.tcSent || (decide (e.preAck > 67200) && e.fastgrow)) = true then min s.cwnd e.preAck / 8 else min s.cwnd e.preAck / 2) =
      min s.cwnd e.preAck / (if e.tcSent = true ∨ (e.preAck > 67200 ∧ e.fastgrow = true) then 8 else 2) := by
    by_cases hc : e.tcSent = true ∨ (e.preAck > 67200 ∧ e.fastgrow = true)
    · rw [if_pos hc, if_pos (by simpa using hc)]
    · rw [if_neg hc, if_neg (by simpa using hc)]
  rw [onLoss, e1]
  generalize (if e.tcSent = true ∨ (e.preAck > 67200 ∧ e.fastgrow = true) then 8 else 2) = d
  dsimp only
  generalize min s.cwnd e.preAck / d = q
  rw [sub_some (Nat.min_le_left _ _)]
  refine ⟨_, rfl, ⟨?_, ?_, fun _ => rfl, by dsimp only; omega, ?_, by dsimp only; omega⟩, rfl, ?_⟩ <;> dsimp only [cwndInit] <;> omega

theorem recovery_spec {B : Nat} {s : State} (h : Inv B s) {drained cost : Nat} (hd : s.recovery > drained) (hB : B ≤ 2 ^ 57) :
    ∃ s', inRecovery s drained cost = some s' ∧ Inv B s' ∧
      s'.cwnd = (if cost ≤ s.allowance then s.cwnd else max (s.cwnd - (cost - s.allowance)) (3 * 1161)) ∧
      (cost ≤ s.allowance → s'.allowance = s.allowance - cost) := by
  have h1 := h.low
  have h2 := h.high
  have hs := h.sync (by omega)
  rw [inRecovery, sub_some (by omega)]
  simp only [Option.bind_eq_bind, Option.bind_some]
  by_cases hc : cost = 0
  · rw [if_neg (by omega), if_pos (by omega)]
    refine ⟨_, rfl, ⟨h1, h2, fun _ => hs, h.acc, h.thresh, ?_⟩, rfl, fun _ => by dsimp only; omega⟩
    dsimp only; have := h.recov; omega
  · rw [if_pos hc]
    by_cases ha : cost ≤ s.allowance
    · rw [if_pos ha, if_pos ha, sub_some ha]
      refine ⟨_, rfl, ⟨h1, h2, fun _ => hs, h.acc, h.thresh, ?_⟩, rfl, fun _ => rfl⟩
      dsimp only; have := h.recov; omega
    · rw [if_neg ha, if_neg ha, sub_some (by omega)]
      simp only [Option.bind_some]
      rw [sub_some (Nat.min_le_left _ _)]
      refine ⟨_, rfl, ⟨?_, ?_, fun _ => rfl, h.acc, ?_, Nat.mod_lt _ (by decide)⟩, ?_, fun h => absurd h ha⟩ <;> dsimp only [cwndInit] <;> omega

theorem react_spec {B : Nat} (hB : B ≤ 2 ^ 57) {s : State} (h : Inv B s) (hr : s.recovery = 0) {e : Env} (he : OkEnv B e) (anyLoss : Bool) (cost : Nat) :
    ∃ s', react s e anyLoss cost = some s' ∧ Inv B s' ∧
      (anyLoss = true → s'.recovery = e.sum ∧ s'.cwnd = max (min s.cwnd e.preAck - max (min s.cwnd e.preAck / (if e.tcSent = true ∨ (e.preAck > 67200 ∧ e.fastgrow = true) then 8 else 2)) cost) (3 * 1161)) ∧
      (anyLoss = false → s'.cwnd ≤ max (s.cwnd + 1161) (3 * 1161) ∧ s.cwnd ≤ s'.cwnd + 1 ∧
        ((e.anyNaks = true ∨ e.preAck ≤ s.cwnd * 63 / 64) → s'.cwnd ≤ s.cwnd)) := by
  have h1 := h.low
  have h2 := h.high
  obtain ⟨he1, he2⟩ := he
  rw [react]
  by_cases hl : anyLoss = true
  · rw [if_pos hl]
    obtain ⟨s', g1, g2, g0, g3⟩ := onLoss_spec h ⟨he1, he2⟩ cost hB
    exact ⟨s', g1, g2, fun _ => ⟨g0, g3⟩, fun h => by rw [hl] at h; cases h⟩
  · rw [if_neg hl, mul_some (by omega)]
    simp only [Option.bind_eq_bind, Option.bind_some]
    by_cases hg : (!e.anyNaks && decide (e.preAck > s.cwnd * 63 / 64)) = true
    · rw [if_pos hg]
      have hg' : e.anyNaks = false ∧ e.preAck > s.cwnd * 63 / 64 := by simpa using hg
      obtain ⟨s', g1, g2, g3, g4, _⟩ := grow_spec hB h hr ⟨he1, he2⟩ hg'.2
      refine ⟨s', g1, g2, fun h => absurd h hl, fun _ => ⟨g3, by omega, ?_⟩⟩
      rintro (k | k)
      · rw [hg'.1] at k; cases k
      · omega
    · rw [if_neg hg, add_some (by simp only [decayMargin]; omega)]
      simp only [Option.bind_some]
      by_cases hd : (!e.anyNaks && decide (s.cwnd > e.preAck + decayMargin)) = true
      · rw [if_pos hd]
        have hd' : e.anyNaks = false ∧ s.cwnd > e.preAck + decayMargin := by simpa using hd
        have hd2 := hd'.2
        simp only [decayMargin] at hd2
        rw [sub_some (by simp only [decaySize]; omega)]
        refine ⟨_, rfl, ⟨?_, ?_, fun hh => absurd hr hh, h.acc, h.thresh, h.recov⟩, fun h => absurd h hl, fun _ => ⟨?_, ?_, fun _ => ?_⟩⟩ <;>
          dsimp only [decaySize] <;> omega
      · rw [if_neg hd]
        exact ⟨s, rfl, h, fun h => absurd h hl, fun _ => ⟨by omega, by omega, fun _ => Nat.le_refl _⟩⟩

/-- 1.5 times the bytes lost, rounded up -/
def costOf (lost : Nat) : Nat := if lost = 0 then 0 else lost + (lost + 1) / 2

theorem update_spec {B : Nat} (hB : B ≤ 2 ^ 57) {s : State} (h : Inv B s) {e : Env} (he : OkEnv B e) :
    ∃ s', update s e = some s' ∧ Inv B s' ∧
      (s.recovery > e.acked + e.lost →
        s'.cwnd = (if costOf e.lost ≤ s.allowance then s.cwnd else max (s.cwnd - (costOf e.lost - s.allowance)) (3 * 1161))) ∧
      (s.recovery ≤ e.acked + e.lost → e.anyLoss = true ∨ (e.delay = true ∧ e.high = true) →
        s'.recovery = e.sum ∧ s'.cwnd = max (min s.cwnd e.preAck - max (min s.cwnd e.preAck / (if e.tcSent = true ∨ (e.preAck > 67200 ∧ e.fastgrow = true) then 8 else 2)) (costOf e.lost)) (3 * 1161)) ∧
      (s.recovery ≤ e.acked + e.lost → ¬ (e.anyLoss = true ∨ (e.delay = true ∧ e.high = true)) →
        s'.cwnd ≤ max (s.cwnd + 1161) (max e.preAck (3 * 1161)) ∧ ((e.anyNaks = true ∨ e.preAck ≤ s.cwnd * 63 / 64) → s'.cwnd ≤ s.cwnd)) := by
  obtain ⟨he1, he2⟩ := he
  have h1 := h.low
  have h2 := h.high
  obtain ⟨c, hc, hc'⟩ := lossCost_some (lost := e.lost) (by omega)
  have hcost : c = costOf e.lost := hc'
  rw [update, hc]
  simp only [Option.bind_eq_bind, Option.bind_some]
  rw [add_some (by omega)]
  simp only [Option.bind_some]
  by_cases hr : s.recovery > e.acked + e.lost
  · rw [if_pos hr]
    obtain ⟨s', g1, g2, g3, _⟩ := recovery_spec h (cost := c) hr hB
    refine ⟨s', g1, g2, fun _ => by rw [← hcost]; exact g3, fun h => absurd hr (by omega), fun h => absurd hr (by omega)⟩
  · rw [if_neg hr]
    have h0 : Inv B { s with recovery := 0 } := ⟨h1, h2, fun hh => absurd rfl hh, h.acc, h.thresh, (by decide : 0 < 2 ^ 64)⟩
    by_cases hdel : e.delay = true
    · rw [if_pos hdel]
      by_cases hh : e.high = true
      · rw [if_pos hh]
        obtain ⟨s', g1, g2, g3, g4⟩ := react_spec hB h0 rfl ⟨he1, he2⟩ true c
        refine ⟨s', g1, g2, fun h => absurd h hr, fun _ _ => ?_, fun _ hn => absurd (.inr ⟨hdel, hh⟩) hn⟩
        rw [← hcost]; exact g3 rfl
      · rw [if_neg hh]
        by_cases hp : (!e.anyLoss && !e.anyNaks && e.probe && decide ({ s with recovery := 0 }.cwnd > 4 * mss) && decide ({ s with recovery := 0 }.cwnd > { s with recovery := 0 }.ssthresh) && decide (e.preAck > { s with recovery := 0 }.cwnd / 2)) = true
        · rw [if_pos hp, mul_some (by omega)]
          have hp' : (((((e.anyLoss = false ∧ e.anyNaks = false) ∧ e.probe = true) ∧ s.cwnd > 4 * mss) ∧ s.cwnd > s.ssthresh) ∧ e.preAck > s.cwnd / 2) := by simpa using hp
          refine ⟨_, rfl, ⟨?_, ?_, fun hh => absurd rfl hh, h.acc, ?_, by dsimp only; omega⟩, fun h => absurd h hr, fun _ hx => ?_, fun _ _ => ⟨?_, ?_⟩⟩
          · dsimp only [cwndInit]; omega
          · dsimp only [cwndInit]; omega
          · dsimp only; omega
          · rcases hx with hx | hx
            · rw [hp'.1.1.1.1.1] at hx; cases hx
            · exact absurd hx.2 hh
          · dsimp only [cwndInit]; omega
          · have hm := hp'.1.1.2
            simp only [mss] at hm
            rintro (k | k)
            · rw [hp'.1.1.1.1.2] at k; cases k
            · dsimp only [cwndInit]; omega
        · rw [if_neg hp]
          obtain ⟨s', g1, g2, g3, g4⟩ := react_spec hB h0 rfl ⟨he1, he2⟩ e.anyLoss c
          refine ⟨s', g1, g2, fun h => absurd h hr, fun _ hx => ?_, fun _ hn => ?_⟩
          · rw [← hcost]; exact g3 (hx.elim id (fun k => absurd k.2 hh))
          · have hf : e.anyLoss = false := by
              cases hq : e.anyLoss with
              | false => rfl
              | true => exact absurd (.inl hq) hn
            exact ⟨by have := (g4 hf).1; dsimp only at this; omega, (g4 hf).2.2⟩
    · rw [if_neg hdel]
      obtain ⟨s', g1, g2, g3, g4⟩ := react_spec hB h0 rfl ⟨he1, he2⟩ e.anyLoss c
      refine ⟨s', g1, g2, fun h => absurd h hr, fun _ hx => ?_, fun _ hn => ?_⟩
      · rw [← hcost]; exact g3 (hx.elim id (fun k => absurd k.1 hdel))
      · have hf : e.anyLoss = false := by
          cases hq : e.anyLoss with
          | false => rfl
          | true => exact absurd (.inl hq) hn
        exact ⟨by have := (g4 hf).1; dsimp only at this; omega, (g4 hf).2.2⟩

theorem timeout_spec {B : Nat} (hB : B ≤ 2 ^ 57) {s : State} (h : Inv B s) (a b c : Bool) :
    ∃ s', timeout s a b c = some s' ∧ Inv B s' ∧ s'.recovery = 0 ∧
      s'.cwnd = (if a = true ∧ b = true then 3 * 1161 else if a = true ∧ c = false then 2 * 1161 else s.cwnd) := by
  have h1 := h.low
  have h2 := h.high
  have h3 := h.thresh
  rw [timeout, mul_some (by omega)]
  simp only [Option.bind_eq_bind, Option.bind_some]
  cases a <;> cases b <;> cases c <;> simp only [Bool.not_true, Bool.not_false, if_true, if_false, Bool.false_eq_true, true_and, false_and] <;>
    refine ⟨_, rfl, ⟨?_, ?_, fun hh => absurd rfl hh, (by decide : 0 < 9600), ?_, (by decide : 0 < 2 ^ 64)⟩, rfl, rfl⟩ <;>
    dsimp only [cwndInit, cwndTimedout] <;> omega

theorem init_inv (B : Nat) : Inv B init :=
  ⟨by decide, by simp only [init, cwndInit]; omega, fun h => absurd rfl h, by decide, by decide, by decide⟩

theorem step_spec {B : Nat} (hB : B ≤ 2 ^ 57) {s : State} (h : Inv B s) (o : Op) (ho : OkOp B o) : ∃ s', step s o = some s' ∧ Inv B s' := by
  cases o with
  | acks e =>
    obtain ⟨s', g1, g2, _⟩ := update_spec hB h ho
    exact ⟨s', g1, g2⟩
  | timeout a b c =>
    obtain ⟨s', g1, g2, _⟩ := timeout_spec hB h a b c
    exact ⟨s', g1, g2⟩

theorem run_spec {B : Nat} (hB : B ≤ 2 ^ 57) (ops : List Op) {s : State} (h : Inv B s) (hops : ∀ o ∈ ops, OkOp B o) : ∃ s', run s ops = some s' ∧ Inv B s' := by
  induction ops generalizing s with
  | nil => exact ⟨s, rfl, h⟩
  | cons o ops ih =>
    obtain ⟨s', g1, g2⟩ := step_spec hB h o (hops o List.mem_cons_self)
    rw [run, g1]
    exact ih g2 (fun o' ho => hops o' (List.mem_cons_of_mem _ ho))

/-- a connection that grows, loses, recovers, loses more, and times out -/
def demo : List Op :=
  let e : Env := { preAck := 3483, acked := 1161, lost := 0, sum := 2322, anyLoss := false, anyNaks := false, fastgrow := true, tcSent := false, delay := false, high := false, probe := false }
  let f : Env := { e with preAck := 70000, acked := 1161, lost := 1161, sum := 67678, anyLoss := true }
  [.acks e, .acks { e with preAck := 4644, sum := 3483 }, .acks f, .acks { f with preAck := 67678, acked := 0, lost := 4000, sum := 63678 },
    .timeout true false false, .acks { e with preAck := 2322, sum := 1161 }]

theorem demo_ok : ∀ o ∈ demo, OkOp 70000 o := by
  simp only [demo, List.mem_cons, List.not_mem_nil, or_false, forall_eq_or_imp, forall_eq, OkOp, OkEnv]
  decide

example : (run init demo).map (·.cwnd) = some 3483 := by decide +kernel

end Cwnd

open Cwnd

/-- **C23.** As long as no more than `B ≤ 2^57` bytes are ever outstanding, whatever is acknowledged, lost or timed out, in whatever order: no
computation of the window wraps around, the window is never less than two segments, so that a sender with nothing outstanding may always send,
and it is never more than twice what was ever outstanding, plus four segments. -/
theorem C23_window_bounds (B : Nat) (hB : B ≤ 2 ^ 57) (ops : List Op) (hops : ∀ o ∈ ops, OkOp B o) :
    ∃ s, run init ops = some s ∧ 2 * 1161 ≤ s.cwnd ∧ s.cwnd ≤ 2 * B + 4 * 1161 := by
  obtain ⟨s, g1, g2⟩ := run_spec hB ops (init_inv B) hops
  exact ⟨s, g1, g2.low, g2.high⟩

example : ∃ s, run init demo = some s ∧ 2 * 1161 ≤ s.cwnd ∧ s.cwnd ≤ 2 * 70000 + 4 * 1161 :=
  C23_window_bounds 70000 (by decide) demo demo_ok

/-- **C23.** After any history, while not recovering from an earlier loss and without a sign of congestion, one packet's acknowledgements grow the
window by at most one segment (or up to the initial window, or to what was in use); and not at all when fragments were negatively acknowledged or
the window was not in use up to 63/64. -/
theorem C23_growth (B : Nat) (hB : B ≤ 2 ^ 57) (ops : List Op) (hops : ∀ o ∈ ops, OkOp B o) (s : State) (hs : run init ops = some s)
    (e : Env) (he : OkEnv B e) (hr : s.recovery ≤ e.acked + e.lost) (hq : ¬ (e.anyLoss = true ∨ (e.delay = true ∧ e.high = true))) :
    ∃ s', step s (.acks e) = some s' ∧ s'.cwnd ≤ max (s.cwnd + 1161) (max e.preAck (3 * 1161)) ∧
      ((e.anyNaks = true ∨ e.preAck ≤ s.cwnd * 63 / 64) → s'.cwnd ≤ s.cwnd) := by
  obtain ⟨s1, g1, g2⟩ := run_spec hB ops (init_inv B) hops
  rw [hs] at g1; cases g1
  obtain ⟨s', k1, _, _, _, k2⟩ := update_spec hB g2 he
  exact ⟨s', k1, k2 hr hq⟩

example : (step init (.acks { preAck := 3483, acked := 1161, lost := 0, sum := 2322, anyLoss := false, anyNaks := false, fastgrow := true, tcSent := false, delay := false, high := false, probe := false })).map (·.cwnd) = some (4 * 1161) := by decide +kernel

/-- **C23.** After any history, a loss (or congestion by delay) when not recovering from an earlier one sets the window to the part of it that was
in use, less an eighth or half of that and no less than one and a half times the bytes lost, but not below the initial window; recovery lasts until as many bytes as are now outstanding have drained. -/
theorem C23_cut (B : Nat) (hB : B ≤ 2 ^ 57) (ops : List Op) (hops : ∀ o ∈ ops, OkOp B o) (s : State) (hs : run init ops = some s)
    (e : Env) (he : OkEnv B e) (hr : s.recovery ≤ e.acked + e.lost) (hq : e.anyLoss = true ∨ (e.delay = true ∧ e.high = true)) :
    ∃ s', step s (.acks e) = some s' ∧ s'.recovery = e.sum ∧ 3 * 1161 ≤ s'.cwnd ∧
      (s'.cwnd = 3 * 1161 ∨ (8 * s'.cwnd ≤ 7 * min s.cwnd e.preAck + 8 ∧ 2 * s'.cwnd + 3 * e.lost ≤ 2 * min s.cwnd e.preAck)) ∧
      ((e.tcSent = false ∧ (e.preAck ≤ 67200 ∨ e.fastgrow = false)) → s'.cwnd = 3 * 1161 ∨ 2 * s'.cwnd ≤ min s.cwnd e.preAck + 2) := by
  obtain ⟨s1, g1, g2⟩ := run_spec hB ops (init_inv B) hops
  rw [hs] at g1; cases g1
  obtain ⟨s', k1, _, _, k2, _⟩ := update_spec hB g2 he
  obtain ⟨k0, k2⟩ := k2 hr hq
  refine ⟨s', k1, k0, by omega, ?_, ?_⟩
  · have hc : 2 * costOf e.lost ≥ 3 * e.lost := by rw [costOf]; split <;> omega
    rw [k2]
    by_cases hd : e.tcSent = true ∨ (e.preAck > 67200 ∧ e.fastgrow = true)
    · rw [if_pos hd]; omega
    · rw [if_neg hd]; omega
  · rintro ⟨ht, hf⟩
    have hd : ¬ (e.tcSent = true ∨ (e.preAck > 67200 ∧ e.fastgrow = true)) := by
      rintro (k | ⟨k1, k2⟩)
      · rw [ht] at k; cases k
      · rcases hf with hf | hf
        · omega
        · rw [hf] at k2; cases k2
    rw [if_neg hd] at k2
    rw [k2]; omega

example : (run init (demo.take 2)).map (fun s => (s.recovery, s.cwnd)) = some (0, 5805) ∧ (run init (demo.take 3)).map (·.cwnd) = some 4063 := by decide +kernel

/-- **C23.** One round trip's losses cut the window once: after any history, while what was outstanding at an earlier loss has not drained, further
losses leave the window alone as long as one and a half times their bytes is within what the cut allowed for, and otherwise reduce it by the excess,
but not below the initial window. -/
theorem C23_one_cut (B : Nat) (hB : B ≤ 2 ^ 57) (ops : List Op) (hops : ∀ o ∈ ops, OkOp B o) (s : State) (hs : run init ops = some s)
    (e : Env) (he : OkEnv B e) (hr : e.acked + e.lost < s.recovery) :
    ∃ s', step s (.acks e) = some s' ∧
      (3 * e.lost + 1 ≤ 2 * s.allowance → s'.cwnd = s.cwnd) ∧ s'.cwnd ≤ max s.cwnd (3 * 1161) ∧
      (s'.cwnd = s.cwnd ∨ s'.cwnd = 3 * 1161 ∨ 2 * s'.cwnd + 3 * e.lost ≤ 2 * (s.cwnd + s.allowance)) := by
  obtain ⟨s1, g1, g2⟩ := run_spec hB ops (init_inv B) hops
  rw [hs] at g1; cases g1
  obtain ⟨s', k1, _, k2, _, _⟩ := update_spec hB g2 he
  have k2 := k2 hr
  have hc : 2 * costOf e.lost ≥ 3 * e.lost := by rw [costOf]; split <;> omega
  have hc' : 2 * costOf e.lost ≤ 3 * e.lost + 1 := by rw [costOf]; split <;> omega
  refine ⟨s', k1, ?_, ?_, ?_⟩ <;> rw [k2] <;> split <;> omega

example : (run init (demo.take 3)).map (fun s => (s.recovery, s.cwnd)) = some (67678, 4063) := by decide +kernel

/-- **C23.** A timeout after any history leaves an idle open session with the initial window, a session with data outstanding (that goes on) with two
segments, and any other window as it was. -/
theorem C23_timeout (B : Nat) (hB : B ≤ 2 ^ 57) (ops : List Op) (hops : ∀ o ∈ ops, OkOp B o) (s : State) (hs : run init ops = some s) (isOpen idle giveUp : Bool) :
    ∃ s', step s (.timeout isOpen idle giveUp) = some s' ∧ s'.recovery = 0 ∧
      s'.cwnd = (if isOpen = true ∧ idle = true then 3 * 1161 else if isOpen = true ∧ giveUp = false then 2 * 1161 else s.cwnd) := by
  obtain ⟨s1, g1, g2⟩ := run_spec hB ops (init_inv B) hops
  rw [hs] at g1; cases g1
  obtain ⟨s', k1, _, k2, k3⟩ := timeout_spec hB g2 isOpen idle giveUp
  exact ⟨s', k1, k2, k3⟩

example : (run init (demo.take 5)).map (·.cwnd) = some 2322 := by decide +kernel

end Rtmfp
