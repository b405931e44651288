import Verif.Model.SessionClock
import Mathlib.Tactic.Linarith
import Mathlib.Tactic.NormNum

/-! # C27: packet timestamps and round-trip samples

Two hosts (`true` and `false`) whose instances were started at times `epoch p`, connected by a network that can lose, duplicate,
delay and reorder packets. What happened is a list of events: packets sent (with their two timestamp fields) and received
(naming the packet by its position in the list, and the sample taken in ticks of 4 ms, if one was). -/

namespace Rtmfp
namespace SessionClock

inductive Ev where
  | sent (p : Bool) (t : Rat) (ts tse : Int)
  | received (p : Bool) (t : Rat) (packet : Nat) (sample : Option Int)

/-- the executions of the two hosts: times don't decrease -/
inductive Exec (epoch : Bool → Rat) : List Ev → (Bool → State) → Rat → Prop
  | nil {t0} : (∀ p, epoch p ≤ t0) → Exec epoch [] (fun _ => {}) t0
  | sent {es st t0 p t s' ts tse} : Exec epoch es st t0 → t0 ≤ t → send (st p) (t - epoch p) t = (s', ts, tse) →
      Exec epoch (es ++ [.sent p t ts tse]) (fun q => if q = p then s' else st q) t
  | received {es st t0 p t i ts tse s' smp u} : Exec epoch es st t0 → t0 ≤ t → es[i]? = some (.sent (!p) u ts tse) →
      recv (st p) (t - epoch p) t ts tse = (s', smp) →
      Exec epoch (es ++ [.received p t i smp]) (fun q => if q = p then s' else st q) t

/-- `p` sent a timestamp at `t1`, and the other host received it at `t2` -/
def Delivered (es : List Ev) (p : Bool) (t1 t2 : Rat) : Prop :=
  ∃ i ts tse smp, es[i]? = some (Ev.sent p t1 ts tse) ∧ 0 ≤ ts ∧ Ev.received (!p) t2 i smp ∈ es

/-- ticks of `p`'s clock at `t` -/
def tick (epoch : Bool → Rat) (p : Bool) (t : Rat) : Int := ⌊(t - epoch p) * scale⌋

/-- the value of an echo sent by `p` at `t3`, of what the other host sent at `t1` and arrived at `t2` -/
def EchoOf (epoch : Bool → Rat) (es : List Ev) (p : Bool) (t3 : Rat) (tse : Int) : Prop :=
  ∃ t1 t2, t1 ≤ t2 ∧ t2 ≤ t3 ∧ Delivered es (!p) t1 t2 ∧ tse = (tick epoch (!p) t1 + ⌊(t3 - t2) * scale⌋) % 65536

structure Inv (epoch : Bool → Rat) (es : List Ev) (st : Bool → State) (now : Rat) : Prop where
  epochs : ∀ p, epoch p ≤ now
  sentTs : ∀ (i : Nat) p t ts tse, es[i]? = some (Ev.sent p t ts tse) → t ≤ now ∧ -1 ≤ ts ∧ (0 ≤ ts → ts = tick epoch p t % 65536) ∧
    (0 ≤ tse → EchoOf epoch es p t tse)
  rx : ∀ p t, (st p).tsRxTime = some t → t ≤ now ∧ ((st p).tsRx = -1 → 128 < now - t) ∧
    ((st p).tsRx ≠ -1 → ∃ t1, t1 ≤ t ∧ Delivered es (!p) t1 t ∧ (st p).tsRx = tick epoch (!p) t1 % 65536)

theorem Delivered.mono {es es' p t1 t2} (h : Delivered es p t1 t2) : Delivered (es ++ es') p t1 t2 := by
  obtain ⟨i, ts, tse, smp, h1, h2, h3⟩ := h
  have : i < es.length := (List.getElem?_eq_some_iff.mp h1).1
  exact ⟨i, ts, tse, smp, by rw [List.getElem?_append_left this]; exact h1, h2, List.mem_append_left _ h3⟩

theorem EchoOf.mono {epoch es es' p t3 tse} (h : EchoOf epoch es p t3 tse) : EchoOf epoch (es ++ es') p t3 tse := by
  obtain ⟨t1, t2, h1, h2, h3, h4⟩ := h
  exact ⟨t1, t2, h1, h2, h3.mono, h4⟩

theorem get_snoc {es : List Ev} {e : Ev} {i : Nat} {x : Ev} (h : (es ++ [e])[i]? = some x) :
    es[i]? = some x ∨ (i = es.length ∧ x = e) := by
  rcases Nat.lt_or_ge i es.length with hi | hi
  · rw [List.getElem?_append_left hi] at h; exact .inl h
  · rw [List.getElem?_append_right hi] at h
    right
    cases hk : i - es.length with
    | zero => rw [hk] at h; simp at h; exact ⟨by omega, h.symm⟩
    | succ k => rw [hk] at h; simp at h

theorem mod_nonneg (x : Int) : 0 ≤ x % 65536 := Int.emod_nonneg _ (by decide)

theorem dropEcho_rx (s : State) : (dropEcho s).1.tsRxTime = s.tsRxTime ∧ (dropEcho s).1.tsRx = -1 := ⟨rfl, rfl⟩

/-- what `getTimestampEcho` does -/
theorem timestampEcho_cases (s : State) (now : Rat) :
    (∃ t, s.tsRxTime = some t ∧ now - t ≤ 128 ∧ (timestampEcho s now).1 = s ∧
      ((timestampEcho s now).2 = -1 ∨ (timestampEcho s now).2 = (s.tsRx + ⌊(now - t) * scale⌋) % 65536)) ∨
    ((∀ t, s.tsRxTime = some t → 128 < now - t) ∧ timestampEcho s now = dropEcho s) := by
  rw [timestampEcho]
  cases h : s.tsRxTime with
  | none => right; exact ⟨fun t ht => by simp at ht, rfl⟩
  | some t =>
    dsimp only
    by_cases hgt : now - t > 128
    · right; rw [if_pos hgt]; exact ⟨fun t' ht => by simp at ht; subst ht; exact hgt, rfl⟩
    · left
      rw [if_neg hgt]
      refine ⟨t, rfl, by linarith, rfl, ?_⟩
      dsimp only
      split
      · exact .inr rfl
      · exact .inl rfl

theorem send_spec {s s' : State} {age now : Rat} {ts tse : Int} (h : send s age now = (s', ts, tse)) :
    (ts = -1 ∨ ts = currentTimestamp age) ∧ tse = (timestampEcho s now).2 ∧
    s'.tsRx = (timestampEcho s now).1.tsRx ∧ s'.tsRxTime = (timestampEcho s now).1.tsRxTime ∧ s'.tsEchoRx = (timestampEcho s now).1.tsEchoRx := by
  rw [send] at h
  dsimp only at h
  simp only [Prod.mk.injEq] at h
  obtain ⟨rfl, rfl, rfl⟩ := h
  refine ⟨?_, rfl, ?_, ?_, ?_⟩
  · rw [timestampIfNew]; split
    · exact .inr rfl
    · exact .inl rfl
  all_goals (split <;> split <;> rfl)

theorem exec_inv {epoch es st now} (h : Exec epoch es st now) : Inv epoch es st now := by
  induction h with
  | nil h => exact ⟨h, fun i p t ts tse h => by simp at h, fun p t h => by simp at h⟩
  | @sent es st t0 p t s' ts tse _ ht hs ih =>
    obtain ⟨h1, h2, h3, h4, h5⟩ := send_spec hs
    refine ⟨fun q => le_trans (ih.epochs q) ht, ?_, ?_⟩
    · intro i q u us use hi
      rcases get_snoc hi with hi | ⟨_, he⟩
      · obtain ⟨g1, g2, g3, g4⟩ := ih.sentTs i q u us use hi
        exact ⟨le_trans g1 ht, g2, g3, fun h => (g4 h).mono⟩
      · cases he
        refine ⟨le_refl _, ?_, ?_, ?_⟩
        · rcases h1 with h1 | h1
          · rw [h1]
          · rw [h1, currentTimestamp]; have := mod_nonneg ⌊(t - epoch p) * scale⌋; omega
        · intro h0
          rcases h1 with h1 | h1
          · omega
          · rw [h1]; rfl
        · intro h0
          rcases timestampEcho_cases (st p) t with ⟨u, e1, e2, e3, e4⟩ | ⟨e1, e2⟩
          · obtain ⟨r1, r2, r3⟩ := ih.rx p u e1
            rcases e4 with e4 | e4
            · omega
            · by_cases hm : (st p).tsRx = -1
              · have := r2 hm; linarith
              · obtain ⟨t1, k1, k2, k3⟩ := r3 hm
                refine ⟨t1, u, k1, le_trans r1 ht, k2.mono, ?_⟩
                rw [h2, e4, k3, Int.emod_add_emod]
          · rw [h2, e2] at h0; simp [dropEcho] at h0
    · intro q u hu
      by_cases hq : q = p
      · subst hq
        simp only [if_true] at hu ⊢
        rcases timestampEcho_cases (st q) t with ⟨w, e1, e2, e3, e4⟩ | ⟨e1, e2⟩
        · rw [h4, e3] at hu
          obtain ⟨r1, r2, r3⟩ := ih.rx q u hu
          rw [h3, e3]
          refine ⟨le_trans r1 ht, fun h => ?_, fun h => ?_⟩
          · have := r2 h; linarith
          · obtain ⟨t1, k1, k2, k3⟩ := r3 h
            exact ⟨t1, k1, k2.mono, k3⟩
        · rw [h4, e2, (dropEcho_rx _).1] at hu
          rw [h3, e2, (dropEcho_rx _).2]
          obtain ⟨r1, _, _⟩ := ih.rx q u hu
          exact ⟨le_trans r1 ht, fun _ => e1 u hu, fun h => absurd rfl h⟩
      · rw [if_neg hq] at hu ⊢
        obtain ⟨r1, r2, r3⟩ := ih.rx q u hu
        refine ⟨le_trans r1 ht, fun h => ?_, fun h => ?_⟩
        · have := r2 h; linarith
        · obtain ⟨t1, k1, k2, k3⟩ := r3 h
          exact ⟨t1, k1, k2.mono, k3⟩
  | @received es st t0 p t i ts tse s' smp u _ ht hi hs ih =>
    have hfields : s'.tsRx = (recvTimestamp (st p) t ts).tsRx ∧ s'.tsRxTime = (recvTimestamp (st p) t ts).tsRxTime := by
      rw [recv, recvEcho] at hs
      split at hs <;> cases hs <;> exact ⟨rfl, rfl⟩
    refine ⟨fun q => le_trans (ih.epochs q) ht, ?_, ?_⟩
    · intro j q v us use hj
      rcases get_snoc hj with hj | ⟨_, he⟩
      · obtain ⟨g1, g2, g3, g4⟩ := ih.sentTs j q v us use hj
        exact ⟨le_trans g1 ht, g2, g3, fun h => (g4 h).mono⟩
      · cases he
    · intro q v hv
      by_cases hq : q = p
      · subst hq
        simp only [if_true] at hv ⊢
        rw [hfields.2] at hv
        rw [hfields.1]
        rw [recvTimestamp] at hv ⊢
        by_cases hc : ts ≥ 0 ∧ ts ≠ (st q).tsRx
        · rw [if_pos hc] at hv ⊢
          simp only [Option.some.injEq] at hv
          subst hv
          obtain ⟨g1, g2, g3, _⟩ := ih.sentTs i _ _ _ _ hi
          refine ⟨le_refl _, fun h => ?_, fun _ => ?_⟩
          · simp only at h; omega
          · refine ⟨u, le_trans g1 ht, ⟨i, ts, tse, smp, ?_, hc.1, ?_⟩, g3 hc.1⟩
            · rw [List.getElem?_append_left (List.getElem?_eq_some_iff.mp hi).1]; exact hi
            · simp
        · rw [if_neg hc] at hv ⊢
          obtain ⟨r1, r2, r3⟩ := ih.rx q v hv
          refine ⟨le_trans r1 ht, fun h => ?_, fun h => ?_⟩
          · have := r2 h; linarith
          · obtain ⟨t1, k1, k2, k3⟩ := r3 h
            exact ⟨t1, k1, k2.mono, k3⟩
      · rw [if_neg hq] at hv ⊢
        obtain ⟨r1, r2, r3⟩ := ih.rx q v hv
        refine ⟨le_trans r1 ht, fun h => ?_, fun h => ?_⟩
        · have := r2 h; linarith
        · obtain ⟨t1, k1, k2, k3⟩ := r3 h
          exact ⟨t1, k1, k2.mono, k3⟩

/-- the true round trip in ticks: the two transits -/
def transit (t1 t2 t3 t4 : Rat) : Rat := ((t2 - t1) + (t4 - t3)) * scale

theorem sample_value (epoch : Bool → Rat) (p : Bool) (t1 t2 t3 t4 : Rat) (h12 : t1 ≤ t2) (h34 : t3 ≤ t4) :
    let v := tick epoch p t4 - tick epoch p t1 - ⌊(t3 - t2) * scale⌋
    transit t1 t2 t3 t4 - 1 < v ∧ v < transit t1 t2 t3 t4 + 2 ∧ 0 ≤ v := by
  intro v
  have a1 := Int.floor_le ((t4 - epoch p) * scale)
  have a2 := Int.lt_floor_add_one ((t4 - epoch p) * scale)
  have b1 := Int.floor_le ((t1 - epoch p) * scale)
  have b2 := Int.lt_floor_add_one ((t1 - epoch p) * scale)
  have c1 := Int.floor_le ((t3 - t2) * scale)
  have c2 := Int.lt_floor_add_one ((t3 - t2) * scale)
  have hv : (v : Rat) = (tick epoch p t4 : Rat) - tick epoch p t1 - (⌊(t3 - t2) * scale⌋ : Int) := by
    simp only [v]; push_cast; ring
  simp only [tick] at hv
  have h1 : transit t1 t2 t3 t4 - 1 < v := by rw [hv]; simp only [transit, scale] at *; linarith
  have h2 : (v : Rat) < transit t1 t2 t3 t4 + 2 := by rw [hv]; simp only [transit, scale] at *; linarith
  refine ⟨h1, h2, ?_⟩
  have h0 : 0 ≤ transit t1 t2 t3 t4 := by simp only [transit, scale]; linarith
  have : (-1 : Rat) < v := by linarith
  have : (-1 : Int) < v := by exact_mod_cast this
  omega

end SessionClock
open SessionClock

/-- **C27** every sample is the measured round trip of a timestamp that was really sent, received, and echoed: there are times
`t1 ≤ t2 ≤ t3 ≤ t4` (sent, received by the peer, echo sent, echo received) of events that happened such that, if the two
transits together took less than the wrap period of the timestamps (65536 ticks of 4 ms, 262 s; 2 ticks less), the sample is
the time spent in transit to within two ticks (more than it less one tick, less than it plus two). In all executions. -/
theorem C27_samples_true {epoch es st now} (h : Exec epoch es st now) (p : Bool) (t4 : Rat) (i : Nat) (n : Int)
    (hr : Ev.received p t4 i (some n) ∈ es) :
    0 ≤ n ∧ n < 32768 ∧ ∃ t1 t2 t3 ts tse, t1 ≤ t2 ∧ t2 ≤ t3 ∧ t3 ≤ t4 ∧ Delivered es p t1 t2 ∧ es[i]? = some (.sent (!p) t3 ts tse) ∧
      (((t2 - t1) + (t4 - t3)) * 250 ≤ 65534 →
        ((t2 - t1) + (t4 - t3)) * 250 - 1 < n ∧ n < ((t2 - t1) + (t4 - t3)) * 250 + 2) := by
  induction h with
  | nil => simp at hr
  | @sent es st t0 q t s' ts tse _ ht hs ih =>
    rcases List.mem_append.mp hr with hr | hr
    · obtain ⟨a, b, t1, t2, t3, ts', tse', h1, h2, h3, h4, h5, h6⟩ := ih hr
      exact ⟨a, b, t1, t2, t3, ts', tse', h1, h2, h3, h4.mono, by rw [List.getElem?_append_left (List.getElem?_eq_some_iff.mp h5).1]; exact h5, h6⟩
    · simp at hr
  | @received es st t0 q t j ts tse s' smp u hex ht hi hs ih =>
    rcases List.mem_append.mp hr with hr | hr
    · obtain ⟨a, b, t1, t2, t3, ts', tse', h1, h2, h3, h4, h5, h6⟩ := ih hr
      exact ⟨a, b, t1, t2, t3, ts', tse', h1, h2, h3, h4.mono, by rw [List.getElem?_append_left (List.getElem?_eq_some_iff.mp h5).1]; exact h5, h6⟩
    · simp only [List.mem_singleton, Ev.received.injEq] at hr
      obtain ⟨rfl, rfl, rfl, rfl⟩ := hr
      obtain ⟨g1, _, _, g4⟩ := (exec_inv hex).sentTs _ _ _ _ _ hi
      rw [recv, recvEcho] at hs
      split at hs
      · next hc =>
        simp only [Prod.mk.injEq] at hs
        obtain ⟨_, hs⟩ := hs
        split at hs
        · next hlt =>
          simp only [Option.some.injEq] at hs
          rw [hs] at hlt
          obtain ⟨t1, t2, k1, k2, k3, k4⟩ := g4 hc.1
          rw [Bool.not_not] at k3 k4
          have hn0 : 0 ≤ n := by rw [← hs]; exact mod_nonneg _
          refine ⟨hn0, hlt, t1, t2, u, ts, tse, k1, k2, le_trans g1 ht, k3.mono,
            by rw [List.getElem?_append_left (List.getElem?_eq_some_iff.mp hi).1]; exact hi, fun hw => ?_⟩
          obtain ⟨v1, v2, v3⟩ := sample_value epoch p t1 t2 u t4 k1 (le_trans g1 ht)
          have hv : n = (tick epoch p t4 - tick epoch p t1 - ⌊(u - t2) * scale⌋) % 65536 := by
            rw [← hs, k4, currentTimestamp]
            show (tick epoch p t4 % 65536 - _) % 65536 = _
            omega
          generalize tick epoch p t4 - tick epoch p t1 - ⌊(u - t2) * scale⌋ = v at *
          simp only [transit, scale] at v1 v2
          have hv2 : (v : Rat) < 65536 := by linarith
          have hv2' : v < 65536 := by exact_mod_cast hv2
          have : n = v := by omega
          rw [this]
          exact ⟨v1, v2⟩
        · simp at hs
      · simp at hs

/-- **C27** no sample is lost below half of the wrap period: if the echo is not the same as the last one received and the transits
together took at most 32766 ticks (131 s), a sample is taken. -/
theorem C27_sample_taken {epoch es st now} (h : Exec epoch es st now) (p : Bool) (t4 : Rat) (ht : now ≤ t4) (i : Nat) (t3 : Rat) (ts tse : Int)
    (hi : es[i]? = some (.sent (!p) t3 ts tse)) (h0 : 0 ≤ tse) (hnew : tse ≠ (st p).tsEchoRx) :
    ∃ t1 t2, t1 ≤ t2 ∧ t2 ≤ t3 ∧ Delivered es p t1 t2 ∧
      (((t2 - t1) + (t4 - t3)) * 250 ≤ 32766 → ∃ n, (recv (st p) (t4 - epoch p) t4 ts tse).2 = some n) := by
  obtain ⟨g1, _, _, g4⟩ := (exec_inv h).sentTs _ _ _ _ _ hi
  obtain ⟨t1, t2, k1, k2, k3, k4⟩ := g4 h0
  rw [Bool.not_not] at k3 k4
  refine ⟨t1, t2, k1, k2, k3, fun hw => ?_⟩
  have he : (recvTimestamp (st p) t4 ts).tsEchoRx = (st p).tsEchoRx := by rw [recvTimestamp]; split <;> rfl
  rw [recv, recvEcho, he, if_pos ⟨h0, hnew⟩]
  obtain ⟨v1, v2, v3⟩ := sample_value epoch p t1 t2 t3 t4 k1 (le_trans g1 ht)
  have hv : (currentTimestamp (t4 - epoch p) - tse) % 65536 = (tick epoch p t4 - tick epoch p t1 - ⌊(t3 - t2) * scale⌋) % 65536 := by
    rw [k4, currentTimestamp]
    show (tick epoch p t4 % 65536 - _) % 65536 = _
    omega
  dsimp only
  rw [hv]
  generalize tick epoch p t4 - tick epoch p t1 - ⌊(t3 - t2) * scale⌋ = v at *
  simp only [transit, scale] at v1 v2
  have hv2 : (v : Rat) < 32768 := by linarith
  have hv2' : v < 32768 := by exact_mod_cast hv2
  rw [if_pos (by omega)]
  exact ⟨_, rfl⟩

theorem SessionClock.Exec.sent' {epoch es st t0} (p t ts tse) (h : Exec epoch es st t0) (ht : t0 ≤ t)
    (hs : (send (st p) (t - epoch p) t).2 = (ts, tse)) :
    Exec epoch (es ++ [.sent p t ts tse]) (fun q => if q = p then (send (st p) (t - epoch p) t).1 else st q) t :=
  .sent h ht (Prod.ext rfl hs)

theorem SessionClock.Exec.received' {epoch es st t0 u} (p t i ts tse smp) (h : Exec epoch es st t0) (ht : t0 ≤ t)
    (hi : es[i]? = some (.sent (!p) u ts tse)) (hs : (recv (st p) (t - epoch p) t ts tse).2 = smp) :
    Exec epoch (es ++ [.received p t i smp]) (fun q => if q = p then (recv (st p) (t - epoch p) t ts tse).1 else st q) t :=
  .received h ht hi (Prod.ext rfl hs)

/-- a round trip of 100 ms with the peer taking one second to answer, across the wrap of the clock -/
example : ∃ st, Exec (fun p => if p then 0 else 100) [.sent true (262143 / 1000) 65535 (-1), .received false (262193 / 1000) 0 none,
      .sent false (263193 / 1000) 40798 249, .received true (263243 / 1000) 2 (some 25)] st (263243 / 1000) := by
  have h0 : Exec (fun p => if p then 0 else 100) [] (fun _ => {}) 200 := .nil (fun p => by cases p <;> norm_num)
  have h1 := h0.sent' true (262143 / 1000) 65535 (-1) (by norm_num) (by decide +kernel)
  have h2 := h1.received' false (262193 / 1000) 0 65535 (-1) none (by norm_num) rfl (by decide +kernel)
  have h3 := h2.sent' false (263193 / 1000) 40798 249 (by norm_num) (by decide +kernel)
  exact ⟨_, h3.received' true (263243 / 1000) 2 40798 249 (some 25) (by norm_num) rfl (by decide +kernel)⟩

end Rtmfp
