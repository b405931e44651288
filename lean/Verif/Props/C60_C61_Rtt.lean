import Verif.Model.SessionClock
import Mathlib.Tactic.Linarith
import Mathlib.Tactic.NormNum
import Mathlib.Tactic.Positivity

/-! # C60: the retransmission timeout; C61: the base round-trip time -/

namespace Rtmfp
namespace SessionClock

/-! ## C60 -/

/-- what moves the timers: a round-trip sample, or a retransmission timeout -/
inductive RtoOp where
  | sample (rtt : Rat)
  | timeout

/-- one operation -/
def rtoStep (r : Rto) : RtoOp → Rto
  | .sample x => onSample r x
  | .timeout => onTimeout r

/-- a run from a new session -/
def rtoRun (ops : List RtoOp) : Rto := ops.foldl rtoStep {}

/-- the samples among the operations -/
def samples (ops : List RtoOp) : List Rat := ops.filterMap fun | .sample x => some x | .timeout => none

theorem rtoRun_snoc (ops : List RtoOp) (o : RtoOp) : rtoRun (ops ++ [o]) = rtoStep (rtoRun ops) o := by
  simp [rtoRun]

theorem samples_snoc (ops : List RtoOp) (o : RtoOp) : samples (ops ++ [o]) = samples ops ++ samples [o] := by
  simp [samples]

theorem reverse_ind {α : Type} {P : List α → Prop} (h0 : P []) (h1 : ∀ l a, P l → P (l ++ [a])) (l : List α) : P l := by
  have : P l.reverse.reverse := by
    generalize l.reverse = r
    induction r with
    | nil => exact h0
    | cons a r ih => rw [List.reverse_cons]; exact h1 _ _ ih
  rwa [List.reverse_reverse] at this

structure RtoInv (lo hi : Rat) (ops : List RtoOp) (r : Rto) : Prop where
  none : samples ops = [] → r.srtt = none ∧ r.mrto = 1 / 4
  some : samples ops ≠ [] → ∃ s, r.srtt = some s ∧ lo ≤ s ∧ s ≤ hi ∧ r.mrto = s + 4 * r.rttvar + 1 / 5
  var : 0 ≤ r.rttvar ∧ r.rttvar ≤ hi
  low : 1 / 4 ≤ r.erto
  mrto : r.mrto ≤ r.erto
  high : r.erto ≤ max 10 r.mrto

theorem rto_inv {lo hi : Rat} (h0 : 0 ≤ lo) (hlh : lo ≤ hi) (ops : List RtoOp) (h : ∀ x ∈ samples ops, lo ≤ x ∧ x ≤ hi) :
    RtoInv lo hi ops (rtoRun ops) := by
  revert h
  induction ops using reverse_ind with
  | h0 =>
    intro _
    refine ⟨fun _ => ⟨rfl, rfl⟩, fun h => absurd rfl h, ⟨le_refl _, le_trans h0 hlh⟩, ?_, ?_, ?_⟩
    · simp only [rtoRun, List.foldl_nil]; norm_num
    · simp only [rtoRun, List.foldl_nil]; norm_num
    · simp only [rtoRun, List.foldl_nil]; exact le_max_of_le_left (by norm_num)
  | h1 ops o ih =>
    intro h
    have ih := ih (fun x hx => h x (by rw [samples_snoc]; exact List.mem_append_left _ hx))
    rw [rtoRun_snoc]
    generalize rtoRun ops = r at *
    cases o with
    | timeout =>
      have hs : samples (ops ++ [.timeout]) = samples ops := by rw [samples_snoc]; simp [samples]
      refine ⟨?_, ?_, ih.var, ?_, ?_, ?_⟩
      · rw [hs]; exact ih.none
      · rw [hs]; exact ih.some
      · have := ih.low
        exact le_max_of_le_left (le_min (by linarith) (by norm_num))
      · exact le_max_right _ _
      · simp only [rtoStep, onTimeout]
        exact max_le (le_max_of_le_left (min_le_right _ _)) (le_max_right _ _)
    | sample x =>
      have hx := h x (by rw [samples_snoc]; simp [samples])
      have hne : samples (ops ++ [.sample x]) ≠ [] := by rw [samples_snoc]; simp [samples]
      simp only [rtoStep, onSample, smooth]
      have key : lo ≤ (smooth r x).1 ∧ (smooth r x).1 ≤ hi ∧ 0 ≤ (smooth r x).2 ∧ (smooth r x).2 ≤ hi := by
        rw [smooth]
        by_cases hsm : samples ops = []
        · rw [(ih.none hsm).1]
          exact ⟨hx.1, hx.2, by simp only; linarith, by simp only; linarith⟩
        · obtain ⟨s, e, s1, s2, _⟩ := ih.some hsm
          rw [e]
          have v := ih.var
          dsimp only
          refine ⟨by linarith, by linarith, ?_, ?_⟩ <;> split <;> linarith
      rw [smooth] at key
      refine ⟨fun h => absurd h hne, fun _ => ⟨_, rfl, key.1, key.2.1, rfl⟩, key.2.2, le_max_right _ _, le_max_left _ _, ?_⟩
      exact max_le (le_max_right _ _) (le_max_of_le_left (by norm_num))

/-! ## C61 -/

/-- what moves the base round-trip time: a sample at a time, or a change of address that makes earlier samples meaningless -/
inductive BaseOp where
  | sample (t rtt : Rat)
  | reset

/-- executions, with the samples since the last reset (time and value, newest first). Time doesn't go backwards. -/
inductive BaseExec : List (Rat × Rat) → Base → Rat → Prop
  | nil {t} : BaseExec [] {} t
  | sample {l b t0 t rtt} : BaseExec l b t0 → t0 ≤ t → BaseExec ((t, rtt) :: l) (checkBase b rtt t) t
  | reset {l b t0} : BaseExec l b t0 → BaseExec [] (resetBase b) t0

/-- the least of the entries -/
def Least (l : List (Rat × Rat)) (v : Rat) : Prop := (∃ e ∈ l, e.1 = v) ∧ ∀ e ∈ l, v ≤ e.1

theorem minOver_go (l : List (Rat × Rat)) (a : Rat) :
    ∃ v, l.foldl (fun b e => some (minInf b e.1)) (some a) = some v ∧ (v = a ∨ ∃ e ∈ l, e.1 = v) ∧ v ≤ a ∧ ∀ e ∈ l, v ≤ e.1 := by
  induction l generalizing a with
  | nil => exact ⟨a, rfl, .inl rfl, le_refl _, by simp⟩
  | cons x l ih =>
    obtain ⟨v, h1, h2, h3, h4⟩ := ih (min a x.1)
    refine ⟨v, by rw [List.foldl_cons]; exact h1, ?_, le_trans h3 (min_le_left _ _), ?_⟩
    · rcases h2 with h2 | ⟨e, he, h2⟩
      · rcases min_choice a x.1 with hm | hm
        · exact .inl (h2.trans hm)
        · exact .inr ⟨x, List.mem_cons_self, (h2.trans hm).symm⟩
      · exact .inr ⟨e, List.mem_cons_of_mem _ he, h2⟩
    · intro e he
      rcases List.mem_cons.mp he with rfl | he
      · exact le_trans h3 (min_le_right _ _)
      · exact h4 e he

theorem minOver_least {l : List (Rat × Rat)} (h : l ≠ []) : ∃ v, minOver l = some v ∧ Least l v := by
  cases l with
  | nil => exact absurd rfl h
  | cons x l =>
    obtain ⟨v, h1, h2, h3, h4⟩ := minOver_go l x.1
    refine ⟨v, by rw [minOver, List.foldl_cons]; exact h1, ?_, ?_⟩
    · rcases h2 with h2 | ⟨e, he, h2⟩
      · exact ⟨x, List.mem_cons_self, h2.symm⟩
      · exact ⟨e, List.mem_cons_of_mem _ he, h2⟩
    · intro e he
      rcases List.mem_cons.mp he with rfl | he
      · exact h3
      · exact h4 e he

theorem mem_dropWhile {α : Type} (p : α → Bool) (l : List α) : ∀ e ∈ l, e ∈ l.dropWhile p ∨ p e = true := by
  induction l with
  | nil => simp
  | cons x l ih =>
    intro e he
    rw [List.dropWhile_cons]
    by_cases hx : p x = true
    · rw [if_pos hx]
      rcases List.mem_cons.mp he with rfl | he
      · exact .inr hx
      · exact ih e he
    · rw [if_neg hx]; exact .inl he

theorem dropWhile_sorted {now : Rat} {l : List (Rat × Rat)} (h : l.Pairwise fun a b => a.2 ≤ b.2) :
    ∀ e ∈ l.dropWhile fun e => decide (now - e.2 > 30 * 6), now - e.2 ≤ 180 := by
  induction l with
  | nil => simp
  | cons x l ih =>
    rw [List.pairwise_cons] at h
    rw [List.dropWhile_cons]
    by_cases hx : now - x.2 > 30 * 6
    · rw [if_pos (by simpa using hx)]; exact ih h.2
    · rw [if_neg (by simpa using hx)]
      intro e he
      rcases List.mem_cons.mp he with rfl | he
      · linarith
      · have := h.1 e he; linarith

theorem popOld_mem {now : Rat} {l : List (Rat × Rat)} {e} (h : e ∈ popOld now l) : e ∈ l := by
  rw [popOld, List.mem_reverse] at h
  exact List.mem_reverse.mp ((List.dropWhile_suffix _).subset h)

theorem popOld_keeps {now : Rat} {l : List (Rat × Rat)} {e} (h : e ∈ l) : e ∈ popOld now l ∨ 180 < now - e.2 := by
  rcases mem_dropWhile (fun e : Rat × Rat => decide (now - e.2 > 30 * 6)) l.reverse e (List.mem_reverse.mpr h) with h | h
  · exact .inl (by rw [popOld]; exact List.mem_reverse.mpr h)
  · right; have := of_decide_eq_true h; linarith

theorem popOld_young {now : Rat} {l : List (Rat × Rat)} (h : l.Pairwise fun a b => b.2 ≤ a.2) {e} (he : e ∈ popOld now l) :
    now - e.2 ≤ 180 := by
  rw [popOld, List.mem_reverse] at he
  exact dropWhile_sorted (List.pairwise_reverse.mpr h) e he

theorem popOld_sorted {now : Rat} {l : List (Rat × Rat)} (h : l.Pairwise fun a b => b.2 ≤ a.2) :
    (popOld now l).Pairwise fun a b => b.2 ≤ a.2 := by
  rw [popOld, List.pairwise_reverse]
  exact (List.pairwise_reverse.mpr h).sublist (List.dropWhile_suffix _).sublist

structure BaseInv (l : List (Rat × Rat)) (b : Base) (now : Rat) : Prop where
  times : ∀ s ∈ l, s.1 ≤ now
  empty : b.hist = [] ↔ l = []
  sound : ∀ e ∈ b.hist, e.2 ≤ now ∧ ∃ s ∈ l, s.2 = e.1 ∧ e.2 ≤ s.1
  complete : ∀ s ∈ l, (∃ e ∈ b.hist, e.1 ≤ s.2 ∧ s.1 ≤ e.2 + 30) ∨ s.1 < now - 150
  sorted : b.hist.Pairwise fun a c => c.2 ≤ a.2
  young : ∀ f ∈ b.hist.head?, ∀ e ∈ b.hist, f.2 - e.2 ≤ 180
  base : b.hist ≠ [] → ∃ v, b.base = some v ∧ Least b.hist v
  /-- right after a sample the newest entry is at most 30 s old -/
  fresh : ∀ s ∈ l.head?, ∃ f, b.hist.head? = some f ∧ s.1 - f.2 ≤ 30

theorem push_inv {l : List (Rat × Rat)} {b : Base} {t0 t rtt : Rat} (ih : BaseInv l b t0) (ht : t0 ≤ t) :
    BaseInv ((t, rtt) :: l)
      { hist := popOld t ((rtt, t) :: b.hist), base := some (minInf (minOver (popOld t ((rtt, t) :: b.hist))) rtt) } t := by
  have hsort : ((rtt, t) :: b.hist).Pairwise fun a c => c.2 ≤ a.2 :=
    List.pairwise_cons.mpr ⟨fun e he => le_trans (ih.sound e he).1 ht, ih.sorted⟩
  have hmem : (rtt, t) ∈ popOld t ((rtt, t) :: b.hist) := by
    rcases popOld_keeps (now := t) (l := (rtt, t) :: b.hist) List.mem_cons_self with h | h
    · exact h
    · simp only at h; linarith
  have hhead : (popOld t ((rtt, t) :: b.hist)).head? = some (rtt, t) := by
    have hpre : popOld t ((rtt, t) :: b.hist) <+: (rtt, t) :: b.hist := by
      rw [popOld, ← List.reverse_suffix, List.reverse_reverse]
      exact List.dropWhile_suffix _
    obtain ⟨u, hu⟩ := hpre
    cases hp : popOld t ((rtt, t) :: b.hist) with
    | nil => rw [hp] at hmem; simp at hmem
    | cons x xs => rw [hp] at hu; simp at hu; simp [hu.1]
  have hyoung := @popOld_young t ((rtt, t) :: b.hist) hsort
  have hs2 := popOld_sorted (now := t) hsort
  have hkeep := @popOld_keeps t ((rtt, t) :: b.hist)
  have hsub := @popOld_mem t ((rtt, t) :: b.hist)
  generalize popOld t ((rtt, t) :: b.hist) = p at *
  have hne : p ≠ [] := by intro h; rw [h] at hmem; simp at hmem
  refine ⟨?_, ?_, ?_, ?_, hs2, ?_, ?_, ?_⟩
  · intro s hs
    rcases List.mem_cons.mp hs with rfl | hs
    · exact le_refl _
    · exact le_trans (ih.times s hs) ht
  · exact ⟨fun h => absurd h hne, fun h => by simp at h⟩
  · intro e he
    rcases List.mem_cons.mp (hsub he) with rfl | he
    · exact ⟨le_refl _, _, List.mem_cons_self, rfl, le_refl _⟩
    · obtain ⟨h1, s, h2, h3⟩ := ih.sound e he
      exact ⟨le_trans h1 ht, s, List.mem_cons_of_mem _ h2, h3⟩
  · intro s hs
    rcases List.mem_cons.mp hs with rfl | hs
    · exact .inl ⟨_, hmem, le_refl _, by simp only; linarith⟩
    · rcases ih.complete s hs with ⟨e, he, h1, h2⟩ | h
      · rcases hkeep (List.mem_cons_of_mem _ he) with hk | hk
        · exact .inl ⟨e, hk, h1, h2⟩
        · right; linarith
      · right; linarith
  · intro f hf e he
    rw [hhead] at hf
    simp at hf
    subst hf
    exact hyoung he
  · intro _
    obtain ⟨v, h1, h2⟩ := minOver_least hne
    refine ⟨v, ?_, h2⟩
    simp only [h1, minInf]
    rw [min_eq_left (h2.2 _ hmem)]
  · intro s hs
    simp at hs
    subst hs
    exact ⟨_, hhead, by simp⟩

theorem base_inv {l b now} (h : BaseExec l b now) : BaseInv l b now := by
  induction h with
  | nil => refine ⟨?_, ?_, ?_, ?_, ?_, ?_, ?_, ?_⟩ <;> simp
  | reset h ih => refine ⟨?_, ?_, ?_, ?_, ?_, ?_, ?_, ?_⟩ <;> simp [resetBase]
  | @sample l b t0 t rtt h ht ih =>
    have hp := push_inv (rtt := rtt) ih ht
    rw [checkBase]
    cases hb : b.hist with
    | nil => rw [hb] at hp; exact hp
    | cons e rest =>
      obtain ⟨m, o⟩ := e
      dsimp only
      by_cases hgt : t - o > 30
      · rw [if_pos hgt, ← hb]; exact hp
      · rw [if_neg hgt]
        have hs := ih.sound
        have hso := ih.sorted
        have hy := ih.young
        have hc := ih.complete
        have hbase := ih.base (by rw [hb]; simp)
        rw [hb] at hs hso hy hc hbase
        have hlne : l ≠ [] := fun hl => by have := ih.empty.mpr hl; rw [hb] at this; simp at this
        have hm := hs (m, o) List.mem_cons_self
        refine ⟨?_, ?_, ?_, ?_, ?_, ?_, ?_, ?_⟩
        · intro s hs
          rcases List.mem_cons.mp hs with rfl | hs
          · exact le_refl _
          · exact le_trans (ih.times s hs) ht
        · simp
        · intro e he
          rcases List.mem_cons.mp he with rfl | he
          · refine ⟨le_trans hm.1 ht, ?_⟩
            rcases min_choice m rtt with h | h
            · obtain ⟨s, h1, h2, h3⟩ := hm.2
              exact ⟨s, List.mem_cons_of_mem _ h1, by simp only [h]; exact h2, h3⟩
            · exact ⟨_, List.mem_cons_self, by simp only [h], le_trans hm.1 ht⟩
          · obtain ⟨h1, s, h2, h3⟩ := hs e (List.mem_cons_of_mem _ he)
            exact ⟨le_trans h1 ht, s, List.mem_cons_of_mem _ h2, h3⟩
        · intro s hs
          rcases List.mem_cons.mp hs with rfl | hs
          · exact .inl ⟨_, List.mem_cons_self, min_le_right _ _, by simp only; linarith⟩
          · rcases hc s hs with ⟨e, he, h1, h2⟩ | h
            · rcases List.mem_cons.mp he with rfl | he
              · exact .inl ⟨_, List.mem_cons_self, le_trans (min_le_left _ _) h1, h2⟩
              · exact .inl ⟨e, List.mem_cons_of_mem _ he, h1, h2⟩
            · right; linarith
        · rw [List.pairwise_cons] at hso ⊢
          exact ⟨fun e he => hso.1 e he, hso.2⟩
        · intro f hf e he
          simp at hf
          subst hf
          have hy := hy (m, o) (by simp)
          rcases List.mem_cons.mp he with rfl | he
          · simp
          · exact hy e (List.mem_cons_of_mem _ he)
        · intro _
          obtain ⟨v, h1, ⟨e, he, hev⟩, h3⟩ := hbase
          refine ⟨min v rtt, by simp only [h1, minInf], ?_, ?_⟩
          · rcases le_total v rtt with hle | hle
            · rw [min_eq_left hle]
              rcases List.mem_cons.mp he with rfl | he
              · simp only at hev; subst hev
                exact ⟨_, List.mem_cons_self, by simp only [min_eq_left hle]⟩
              · exact ⟨e, List.mem_cons_of_mem _ he, hev⟩
            · rw [min_eq_right hle]
              have hvm := h3 (m, o) List.mem_cons_self
              exact ⟨_, List.mem_cons_self, min_eq_right (le_trans hle hvm)⟩
          · intro e he
            rcases List.mem_cons.mp he with rfl | he
            · exact min_le_min_right _ (h3 _ List.mem_cons_self)
            · exact le_trans (min_le_left _ _) (h3 e (List.mem_cons_of_mem _ he))
        · intro s hs
          simp at hs
          subst hs
          exact ⟨_, rfl, by simp only; linarith⟩

end SessionClock
open SessionClock

/-- **C60** after any sequence of round-trip samples (not negative) and timeouts, the smoothed round-trip time is within the range of
the samples, the measured timeout is the smoothed time plus four times a variation that is neither negative nor more than the
largest sample, plus 0.2 s; the effective timeout is at least that, at least 0.25 s, and at most the larger of it and 10 s. -/
theorem C60_bounds (ops : List RtoOp) (lo hi : Rat) (h0 : 0 ≤ lo) (hlh : lo ≤ hi) (h : ∀ x, .sample x ∈ ops → lo ≤ x ∧ x ≤ hi) :
    (∀ s, (rtoRun ops).srtt = some s → lo ≤ s ∧ s ≤ hi ∧ s + 1 / 5 ≤ (rtoRun ops).mrto ∧ (rtoRun ops).mrto ≤ s + 4 * hi + 1 / 5) ∧
    1 / 4 ≤ (rtoRun ops).erto ∧ (rtoRun ops).mrto ≤ (rtoRun ops).erto ∧ (rtoRun ops).erto ≤ max 10 (rtoRun ops).mrto := by
  have hi := rto_inv h0 hlh ops (fun x hx => by
    simp only [samples, List.mem_filterMap] at hx
    obtain ⟨o, ho, hx⟩ := hx
    cases o with
    | sample y => simp at hx; subst hx; exact h _ ho
    | timeout => simp at hx)
  refine ⟨fun s hs => ?_, hi.low, hi.mrto, hi.high⟩
  by_cases hsm : samples ops = []
  · rw [(hi.none hsm).1] at hs; simp at hs
  · obtain ⟨s', e, s1, s2, s3⟩ := hi.some hsm
    rw [e] at hs; simp at hs; subst hs
    have v := hi.var
    exact ⟨s1, s2, by linarith, by linarith⟩

/-- **C60** a sample sets the timeout from the measurements, whatever it had been backed off to. -/
theorem C60_sample_restores (ops : List RtoOp) (x : Rat) :
    (rtoRun (ops ++ [.sample x])).erto = max (rtoRun (ops ++ [.sample x])).mrto (1 / 4) := by
  rw [rtoRun_snoc]; rfl

/-- the backoff of k timeouts, from `e`, with minimum `m` -/
theorem backoff (r : Rto) (h : 1 / 4 ≤ r.erto) (k : Nat) :
    ((List.replicate k RtoOp.timeout).foldl rtoStep r).mrto = r.mrto ∧
    min (1 / 4 * (1414214 / 1000000) ^ k) 10 ≤ ((List.replicate k RtoOp.timeout).foldl rtoStep r).erto := by
  induction k generalizing r with
  | zero => exact ⟨rfl, by simp only [List.replicate_zero, List.foldl_nil, pow_zero, mul_one]; exact le_trans (min_le_left _ _) h⟩
  | succ k ih =>
    have hg : ∀ k, ((List.replicate k RtoOp.timeout).foldl rtoStep r).mrto = r.mrto ∧
        min (1 / 4 * (1414214 / 1000000 : Rat) ^ k) 10 ≤ ((List.replicate k RtoOp.timeout).foldl rtoStep r).erto := by
      intro k
      induction k with
      | zero => exact ⟨rfl, by simp only [List.replicate_zero, List.foldl_nil, pow_zero, mul_one]; exact le_trans (min_le_left _ _) h⟩
      | succ k ih =>
        rw [List.replicate_succ', List.foldl_append, List.foldl_cons, List.foldl_nil]
        generalize (List.replicate k RtoOp.timeout).foldl rtoStep r = q at *
        refine ⟨ih.1, ?_⟩
        simp only [rtoStep, onTimeout]
        refine le_max_of_le_left (le_min ?_ (min_le_right _ _))
        rw [pow_succ]
        rcases min_le_iff.mp ih.2 with h | h
        · exact le_trans (min_le_left _ _) (by linarith)
        · exact le_trans (min_le_right _ _) (by linarith)
    exact hg (k + 1)

/-- **C60** with no samples, eleven timeouts in a row bring the timeout to its limit, the larger of 10 s and the measured timeout. -/
theorem C60_backs_off (ops : List RtoOp) (k : Nat) (hk : 11 ≤ k) (h : ∀ y, .sample y ∈ ops → 0 ≤ y) :
    (rtoRun (ops ++ List.replicate k .timeout)).erto = max 10 (rtoRun ops).mrto := by
  obtain ⟨hi, hhi⟩ : ∃ hi : Rat, 0 ≤ hi ∧ ∀ x, .sample x ∈ ops → 0 ≤ x ∧ x ≤ hi := by
    clear hk
    induction ops with
    | nil => exact ⟨0, le_refl _, by simp⟩
    | cons o ops ih =>
      obtain ⟨hi, h1, h2⟩ := ih (fun y hy => h y (List.mem_cons_of_mem _ hy))
      cases o with
      | timeout => exact ⟨hi, h1, fun x hx => h2 x (by simpa using hx)⟩
      | sample y =>
        refine ⟨max hi y, le_max_of_le_left h1, fun x hx => ?_⟩
        rcases List.mem_cons.mp hx with he | hx
        · cases he; exact ⟨h _ List.mem_cons_self, le_max_right _ _⟩
        · exact ⟨(h2 x hx).1, le_max_of_le_left (h2 x hx).2⟩
  have hb := C60_bounds (ops ++ List.replicate k .timeout) 0 hi (le_refl _) hhi.1 (fun x hx => by
    rcases List.mem_append.mp hx with hx | hx
    · exact hhi.2 x hx
    · have := List.eq_of_mem_replicate hx; cases this)
  have hl := (C60_bounds ops 0 hi (le_refl _) hhi.1 hhi.2).2.1
  have hrun : rtoRun (ops ++ List.replicate k .timeout) = (List.replicate k RtoOp.timeout).foldl rtoStep (rtoRun ops) := by
    simp [rtoRun]
  rw [hrun] at hb ⊢
  obtain ⟨b1, b2⟩ := backoff (rtoRun ops) hl k
  obtain ⟨_, _, c1, c2⟩ := hb
  rw [b1] at c1 c2
  refine le_antisymm c2 (max_le ?_ c1)
  refine le_trans ?_ b2
  refine le_min ?_ (le_refl _)
  have : (1414214 / 1000000 : Rat) ^ 11 ≤ (1414214 / 1000000) ^ k := pow_le_pow_right₀ (by norm_num) hk
  have h2 : (40 : Rat) ≤ (1414214 / 1000000) ^ 11 := by norm_num
  linarith

/-- samples of 100 and 200 ms, then a timeout -/
example : (rtoRun [.sample (1 / 10), .sample (1 / 5), .timeout]).srtt = some (9 / 80) ∧
    ∀ x, .sample x ∈ [RtoOp.sample (1 / 10), .sample (1 / 5), .timeout] → (1 / 10 : Rat) ≤ x ∧ x ≤ 1 / 5 := by
  refine ⟨by decide +kernel, fun x hx => ?_⟩
  simp at hx
  rcases hx with rfl | rfl <;> norm_num

/-- **C61** once a sample is taken (since the path last changed), the base round-trip time is one of the samples taken since then, and
since 210 s ago, and no sample of the last 150 s is less. -/
theorem C61_base_is_recent_minimum {l b now} (h : BaseExec l b now) (s : Rat × Rat) (hs : l.head? = some s) :
    ∃ v, b.base = some v ∧ (∃ x ∈ l, x.2 = v ∧ s.1 - 210 ≤ x.1) ∧ ∀ x ∈ l, now - 150 ≤ x.1 → v ≤ x.2 := by
  have hi := base_inv h
  obtain ⟨f, hf, hff⟩ := hi.fresh s (by rw [hs]; exact rfl)
  have hne : b.hist ≠ [] := by intro h; rw [h] at hf; simp at hf
  obtain ⟨v, h1, ⟨e, he, hev⟩, h3⟩ := hi.base hne
  refine ⟨v, h1, ?_, fun x hx hage => ?_⟩
  · obtain ⟨_, x, hx, h4, h5⟩ := hi.sound e he
    have := hi.young f (by rw [hf]; exact rfl) e he
    exact ⟨x, hx, by rw [h4, hev], by linarith⟩
  · rcases hi.complete x hx with ⟨e, he, h4, _⟩ | h4
    · exact le_trans (h3 e he) h4
    · linarith

/-- the least of three samples, then a reset after which the base is what is measured then -/
example : ∃ b, BaseExec [(3, 3 / 10)] b 3 ∧ b.base = some (3 / 10) := by
  have h1 : BaseExec [(0, 1 / 10)] _ 0 := .sample (t0 := 0) .nil (le_refl _)
  have h2 := (BaseExec.sample (t := 1) (rtt := 1 / 20) h1 (by norm_num)).sample (t := 2) (rtt := 1 / 5) (by norm_num)
  exact ⟨_, h2.reset.sample (t := 3) (rtt := 3 / 10) (by norm_num), by decide +kernel⟩

end Rtmfp
