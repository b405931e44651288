import Verif.Lemmas.Reorder
/-! # C32: the reorder buffer delivers each message once, in order, in time -/
namespace Rtmfp
namespace Reorder

/-- a buffer's life: what happens to it and when -/
def run : RB → List (Int × Op) → Option (RB × List Ev)
  | b, [] => some (b, [])
  | b, o :: os =>
    match b.step o.1 o.2 with
    | none => none
    | some (b', ev) => (run b' os).map (fun r => (r.1, ev ++ r.2))

/-- the message inserted by an operation, with the time -/
def inserted1 : Int × Op → List Msg
  | (t, .insert payload sn count) => [⟨payload, sn, count, t⟩]
  | _ => []

/-- the messages inserted -/
def inserted (ops : List (Int × Op)) : List Msg := ops.flatMap inserted1

/-- the numbers used are in range (2^64 - 1 isn't), and the buffer isn't closed -/
def OkOp : Op → Prop
  | .insert _ sn count => sn + count < 2 ^ 64 - 1
  | .deliverThrough sn => sn < 2 ^ 64 - 1
  | .close => False
  | _ => True

/-- the clock doesn't go back, the numbers are in range, no number is used for two messages -/
def OkOps (ops : List (Int × Op)) : Prop :=
  ops.Pairwise (fun x y => x.1 ≤ y.1) ∧ (∀ o ∈ ops, OkOp o.2) ∧ (inserted ops).Pairwise (fun x y => x.sn ≠ y.sn)

theorem step_rest {J J' : Nat → Prop} {hist evs t b} (h : Rest J hist evs t b) (now : Int) (ht : t ≤ now) (op : Op) (hok : OkOp op)
    (hnew : ∀ m ∈ inserted1 (now, op), ∀ x ∈ hist, x.sn ≠ m.sn) (hJ : ∀ n, J n → J' n)
    (hthrough : ∀ n, op = .deliverThrough n → J' n) (hflush : op = .flush → J' b.highest)
    (hexp : ∀ m ∈ hist ++ inserted1 (now, op), expired b.period now m.rx = true → J' m.last) :
    ∃ b' ev, b.step now op = some (b', ev) ∧ Rest J' (hist ++ inserted1 (now, op)) (evs ++ ev) now b' ∧
      ((∀ p, op ≠ .setPeriod p) → b'.period = b.period) ∧
      (op = .fire → ∀ w, b'.timer = some w → now < w) ∧ (op = .flush → b'.bySeq = []) := by
  have hm := h.mid.weaken hJ ht
  have hr : Rest J' hist evs now b := ⟨hm, h.held, h.same, h.armed⟩
  have thr : ∀ n, J' n → n < 2 ^ 64 - 1 → (∀ m ∈ hist, expired b.period now m.rx = true → J' m.last) →
      ∃ b' ev, b.deliverThrough now n = some (b', ev) ∧ Rest J' hist (evs ++ ev) now b' ∧ b'.period = b.period ∧ (∀ m ∈ b'.bySeq, n + 1 < m.sn) := by
    intro n hn hlt hexp
    rw [RB.deliverThrough]
    by_cases hc : n > b.csn
    · rw [if_pos hc]
      have hraise := hm.raise n (by omega) hlt hn
      obtain ⟨b', ev, h1, h2, h3, h4, h5⟩ := tryDeliver_rest now _ hraise hexp
      refine ⟨b', ev, h1, h2, h4, fun m hm' => ?_⟩
      have h6 := h2.held m hm'
      -- the number has been reached
      have : n ≤ b'.csn := by
        rw [RB.tryDeliver] at h1
        have f := findCSN_mid now _ hraise hexp
        have f0 : n ≤ (RB.findCSN { b with csn := n } now).csn := f.2.2.1
        generalize RB.findCSN { b with csn := n } now = b1 at f f0 h1
        have d := deliverLoop_mid b1.bySeq evs b1 f.1 rfl
        have d0 := d.2.2.2.2.2.1
        have d1 := d.1
        have d2 := d.2.2.2.1
        have hp1 : b1.period = b.period := by
          have := d2
          have h7 := h4
          simp only [Option.ite_none_right_eq_some, Option.some.injEq, Prod.mk.injEq] at h1
          rw [← h1.2.1, (schedule_fields _).1] at h7
          rw [← d2]; exact h7
        generalize deliverLoop b1.bySeq b1 = r at h1 d0 d1 d2
        have g := findCSN_mid now r.1 d1 (by rw [d2, hp1]; exact hexp)
        have g0 := g.2.2.1
        simp only [Option.ite_none_right_eq_some, Option.some.injEq, Prod.mk.injEq] at h1
        rw [← h1.2.1, (schedule_fields _).2.1]
        omega
      omega
    · rw [if_neg hc]
      refine ⟨b, [], rfl, by rw [List.append_nil]; exact hr, rfl, fun m hm' => ?_⟩
      have := h.held m hm'
      omega
  have hexp' : ∀ m ∈ hist, expired b.period now m.rx = true → J' m.last := fun m hm => hexp m (List.mem_append_left _ hm)
  cases op with
  | close => exact hok.elim
  | insert payload sn count =>
    have hf : sn + count < 2 ^ 64 - 1 := hok
    have hq := hm.queue ⟨payload, sn, count, now⟩ hf (hnew _ (List.mem_singleton.mpr rfl)) rfl
    have hl : lastSN sn count = lastOf sn count := lastSN_eq hf
    have hlt := hm.csn_lt
    rw [RB.step, RB.insert]
    dsimp only
    rw [RB.shouldDeliverNow, not_wrap (by exact hlt)]
    by_cases hc : sn ≤ b.csn + 1
    · rw [if_pos (decide_eq_true (by exact hc))]
      have hfirst : mapPut b.bySeq ⟨payload, sn, count, now⟩ = ⟨payload, sn, count, now⟩ :: b.bySeq :=
        mapPut_first _ _ (fun x hx => by have := h.held x hx; show sn < x.sn; omega)
      rw [hfirst] at hq
      have hd := (hq.hand rfl (by exact hc)).dropTime b.byTime (List.sublist_append_left _ _) (fun m hm' => by
        rcases List.mem_append.mp hm' with hm' | hm'
        · exact .inl hm'
        · rw [List.mem_singleton] at hm'
          rw [hm']
          exact .inr (Nat.le_max_right _ _))
      obtain ⟨b', ev, h1, h2, h3, h4, h5⟩ := tryDeliver_rest now _ hd hexp
      have hopen := h.mid.open_
      refine ⟨b', [⟨payload, sn, count, decide (lastOf sn count < b.delivered)⟩] ++ ev, ?_, ?_, fun _ => h4, fun e => (by cases e), fun e => (by cases e)⟩
      · rw [RB.deliverMessage]
        dsimp only
        rw [hl, RB.isLate, if_pos hopen]
        dsimp only
        exact congrArg (Option.map _) h1
      · rw [← List.append_assoc]; exact h2
    · rw [if_neg (by simp only [decide_eq_true_iff]; exact hc), RB.queueMessage]
      dsimp only
      have hm4 := schedule_mid hq
      rw [hl]
      obtain ⟨k1, k2, k3, k4⟩ := schedule_fields ({ b with highest := max b.highest (lastOf sn count), bySeq := mapPut b.bySeq ⟨payload, sn, count, now⟩, byTime := b.byTime ++ [⟨payload, sn, count, now⟩] } : RB)
      refine ⟨_, [], rfl, ?_, fun _ => k1, fun e => (by cases e), fun e => (by cases e)⟩
      rw [List.append_nil]
      refine ⟨hm4, ?_, ?_, schedule_armed _⟩
      · rw [k2, k3]
        intro m hm'
        rcases (mapPut_mem _ _ (fun x hx => hnew _ (List.mem_singleton.mpr rfl) x (h.mid.sub x hx)) m).mp hm' with rfl | hm'
        · show b.csn + 1 < sn
          omega
        · exact h.held m hm'
      · rw [k3, k4]
        have : ∀ (l : List Msg) x, (mapPut l x).isEmpty = false := by
          intro l x
          cases l with
          | nil => rfl
          | cons y ys => rw [mapPut]; split; rfl; split <;> rfl
        show (mapPut b.bySeq ⟨payload, sn, count, now⟩).isEmpty = (b.byTime ++ [_]).isEmpty
        rw [this]; cases b.byTime <;> rfl
  | deliverThrough n =>
    obtain ⟨b', ev, h1, h2, h3, h4⟩ := thr n (hthrough n rfl) hok hexp'
    simp only [inserted1, List.append_nil]
    exact ⟨b', ev, h1, h2, fun _ => h3, fun e => (by cases e), fun e => (by cases e)⟩
  | flush =>
    obtain ⟨b', ev, h1, h2, h3, h4⟩ := thr b.highest (hflush rfl) h.mid.high_lt hexp'
    simp only [inserted1, List.append_nil]
    refine ⟨b', ev, h1, h2, fun _ => h3, fun e => (by cases e), fun _ => ?_⟩
    cases hb : b'.bySeq with
    | nil => rfl
    | cons m ms =>
      have hmem : m ∈ b'.bySeq := by rw [hb]; exact List.mem_cons_self
      have a1 := h4 m hmem
      have a2 := hm.high m (h2.mid.sub m hmem)
      have a3 := sn_le_last m.sn m.count
      rw [Msg.last] at a2
      omega
  | fire =>
    simp only [inserted1, List.append_nil]
    rw [RB.step]
    cases htm : b.timer with
    | none =>
      dsimp only
      refine ⟨b, [], rfl, by rw [List.append_nil]; exact hr, fun _ => rfl, fun _ w hw => ?_, fun e => (by cases e)⟩
      rw [htm] at hw; cases hw
    | some w =>
      dsimp only
      by_cases hw : w ≤ now
      · rw [if_pos hw, RB.fire]
        have hm0 : Mid J' hist evs now { b with timer := none } := by
          refine ⟨hm.open_, hm.zero, hm.csn_lt, hm.high_lt, hm.fits, hm.sorted, hm.sub, hm.timeSub, hm.timeSorted, hm.past, hm.known, hm.waiting, hm.perm,
            hm.through, hm.reached, hm.behind, hm.late, hm.high, hm.gap, hm.gaps, ?_, fun _ => rfl⟩
          intro p hp
          exact ⟨(hm.timer p hp).1, fun w hw => (by cases (hw : none = some w))⟩
        obtain ⟨b', ev, h1, h2, h3, h4, h5⟩ := tryDeliver_rest now _ hm0 hexp'
        exact ⟨b', ev, h1, h2, fun _ => h4, fun _ => h5 rfl, fun e => (by cases e)⟩
      · rw [if_neg hw]
        refine ⟨b, [], rfl, by rw [List.append_nil]; exact hr, fun _ => rfl, fun _ w' hw' => ?_, fun e => (by cases e)⟩
        rw [htm] at hw'
        obtain rfl : w = w' := Option.some.inj hw'
        omega
  | setPeriod p =>
    simp only [inserted1, List.append_nil]
    rw [RB.step]
    refine ⟨_, [], rfl, ?_, fun hne => absurd rfl (hne p), fun e => (by cases e), fun e => (by cases e)⟩
    rw [List.append_nil, RB.setPeriod]
    by_cases hp : b.period ≠ clampPeriod p
    · rw [if_pos hp]
      have hm0 : Mid J' hist evs now { b with period := clampPeriod p, timer := none } := by
        refine ⟨hm.open_, hm.zero, hm.csn_lt, hm.high_lt, hm.fits, hm.sorted, hm.sub, hm.timeSub, hm.timeSorted, hm.past, hm.known, hm.waiting, hm.perm,
          hm.through, hm.reached, hm.behind, hm.late, hm.high, hm.gap, hm.gaps, ?_, fun _ => rfl⟩
        intro q hq
        refine ⟨?_, fun w hw => (by cases (hw : none = some w))⟩
        change clampPeriod p = some q at hq
        cases p with
        | none => cases hq
        | some x =>
          have hq := Option.some.inj hq
          dsimp only at hq
          split at hq <;> omega
      obtain ⟨k1, k2, k3, k4⟩ := schedule_fields { b with period := clampPeriod p, timer := none }
      exact ⟨schedule_mid hm0, by rw [k2, k3]; exact h.held, by rw [k3, k4]; exact h.same, schedule_armed _⟩
    · rw [if_neg hp]; exact hr

theorem init_rest (p : Option Int) (garbage : Nat) (hg : garbage < 2 ^ 64 - 1) (J : Nat → Prop) (hJ : J 0) (t : Int) : Rest J [] [] t (init p garbage) := by
  refine ⟨⟨rfl, hJ, by show 0 < _; decide, hg, ?_, List.Pairwise.nil, ?_, ?_, List.Pairwise.nil, ?_, ?_, ?_, List.Perm.refl _, ?_, .inl rfl, Nat.le_refl _, ?_, ?_, ?_, ?_, ?_, fun _ => rfl⟩,
    ?_, rfl, ?_⟩
  · exact fun m hm => (by cases hm)
  · exact fun m hm => (by cases hm)
  · exact fun m hm => (by cases hm)
  · exact fun m hm => (by cases hm)
  · exact fun m hm => (by cases hm)
  · exact fun m hm => (by cases hm)
  · exact fun m hm => (by cases hm)
  · intro pre e post he; simp at he
  · exact fun m hm => (by cases hm)
  · intro x hx
    exact ⟨0, hx, .inl hJ⟩
  · intro pre e post he; simp at he
  · intro q hq
    refine ⟨?_, fun w hw => (by cases (hw : none = some w))⟩
    change clampPeriod p = some q at hq
    cases p with
    | none => cases hq
    | some x =>
      have hq := Option.some.inj hq
      dsimp only at hq
      split at hq <;> omega
  · exact fun m hm => (by cases hm)
  · exact fun h => absurd rfl h

/-- every execution keeps the invariant -/
theorem run_rest (ops : List (Int × Op)) : ∀ (b : RB) (hist : List Msg) (evs : List Ev) (t : Int), Rest (fun _ => True) hist evs t b →
    ops.Pairwise (fun x y => x.1 ≤ y.1) → (∀ o ∈ ops, t ≤ o.1) → (∀ o ∈ ops, OkOp o.2) → (hist ++ inserted ops).Pairwise (fun x y => x.sn ≠ y.sn) →
    ∃ b' ev t', run b ops = some (b', ev) ∧ Rest (fun _ => True) (hist ++ inserted ops) (evs ++ ev) t' b' ∧ (∀ o ∈ ops, o.1 ≤ t') ∧ t ≤ t' ∧
      (∀ u, (∀ o ∈ ops, o.1 ≤ u) → t ≤ u → t' ≤ u) := by
  induction ops with
  | nil =>
    intro b hist evs t h _ _ _ _
    refine ⟨b, [], t, rfl, ?_, fun o ho => (by cases ho), Int.le_refl _, fun u _ hu => hu⟩
    simp only [inserted, List.flatMap_nil, List.append_nil]
    exact h
  | cons o os ih =>
    intro b hist evs t h hp ht hok hd
    obtain ⟨p1, p2⟩ := List.pairwise_cons.mp hp
    have hins : inserted (o :: os) = inserted1 o ++ inserted os := rfl
    rw [hins, ← List.append_assoc] at hd
    obtain ⟨b1, ev1, s1, s2, s3, s4⟩ := step_rest h o.1 (ht o List.mem_cons_self) o.2 (hok o List.mem_cons_self) (by
      intro m hm x hx
      have := (List.pairwise_append.mp (List.pairwise_append.mp hd).1).2.2
      exact this x hx m hm) (fun _ x => x) (fun _ _ => trivial) (fun _ => trivial) (fun _ _ _ => trivial)
    obtain ⟨b2, ev2, t2, r1, r2, r3, r4, r5⟩ := ih b1 (hist ++ inserted1 o) (evs ++ ev1) o.1 s2 p2 p1 (fun x hx => hok x (List.mem_cons_of_mem _ hx)) hd
    refine ⟨b2, ev1 ++ ev2, t2, ?_, ?_, ?_, ?_, ?_⟩
    · rw [run, s1]
      dsimp only
      rw [r1]; rfl
    · rw [hins, ← List.append_assoc, ← List.append_assoc]; exact r2
    · intro x hx
      rcases List.mem_cons.mp hx with rfl | hx
      · exact r4
      · exact r3 x hx
    · exact Int.le_trans (ht o List.mem_cons_self) r4
    · intro u hu htu
      exact r5 u (fun x hx => hu x (List.mem_cons_of_mem _ hx)) (hu o List.mem_cons_self)

/-- from a new buffer -/
theorem run_init (p : Option Int) (garbage : Nat) (hg : garbage < 2 ^ 64 - 1) (ops : List (Int × Op)) (hok : OkOps ops) :
    ∃ b ev t, run (init p garbage) ops = some (b, ev) ∧ Rest (fun _ => True) (inserted ops) ev t b ∧ (∀ u, ops ≠ [] → (∀ o ∈ ops, o.1 ≤ u) → t ≤ u) := by
  cases ops with
  | nil =>
    exact ⟨_, _, 0, rfl, init_rest p garbage hg _ trivial 0, fun u h => absurd rfl h⟩
  | cons o os =>
    obtain ⟨b, ev, t, h1, h2, h3, h4, h5⟩ := run_rest (o :: os) (init p garbage) [] [] o.1 (init_rest p garbage hg _ trivial _) hok.1 (by
      intro x hx
      rcases List.mem_cons.mp hx with rfl | hx
      · exact Int.le_refl _
      · exact (List.pairwise_cons.mp hok.1).1 x hx) hok.2.1 (by rw [List.nil_append]; exact hok.2.2)
    rw [List.nil_append, List.nil_append] at h2
    exact ⟨b, ev, t, h1, h2, fun u _ hu => h5 u hu (hu o List.mem_cons_self)⟩

/-- two messages have no fragment in common -/
def Disjoint (x y : Msg) : Prop := x.last < y.sn ∨ y.last < x.sn

end Reorder

open Reorder

/-- **C32**: no sequence of calls, timers and times makes the buffer abort. -/
theorem C32_never_aborts (p : Option Int) (garbage : Nat) (hg : garbage < 2 ^ 64 - 1) (ops : List (Int × Op)) (hok : OkOps ops) :
    ∃ r, run (init p garbage) ops = some r := by
  obtain ⟨b, ev, t, h, _⟩ := run_init p garbage hg ops hok
  exact ⟨_, h⟩

/-- **C32**: at any time, the messages delivered and those still held are together the messages inserted, each once. -/
theorem C32_exactly_once_partial (p : Option Int) (garbage : Nat) (hg : garbage < 2 ^ 64 - 1) (ops : List (Int × Op)) (hok : OkOps ops) (b : RB) (ev : List Ev)
    (h : run (init p garbage) ops = some (b, ev)) :
    (ev.map Ev.key ++ b.bySeq.map Msg.key).Perm ((inserted ops).map Msg.key) := by
  obtain ⟨b', ev', t, h', hr, _⟩ := run_init p garbage hg ops hok
  rw [h'] at h
  obtain ⟨rfl, rfl⟩ := Prod.mk.inj (Option.some.inj h)
  exact hr.mid.perm

/-- **C32**: after a flush nothing is held. -/
theorem C32_flush_partial (p : Option Int) (garbage : Nat) (hg : garbage < 2 ^ 64 - 1) (ops : List (Int × Op)) (now : Int) (hok : OkOps (ops ++ [(now, .flush)]))
    (b : RB) (ev : List Ev) (h : run (init p garbage) (ops ++ [(now, .flush)]) = some (b, ev)) :
    b.bySeq = [] ∧ (ev.map Ev.key).Perm ((inserted ops).map Msg.key) := by
  have hok' : OkOps ops := by
    refine ⟨(List.pairwise_append.mp hok.1).1, fun o ho => hok.2.1 o (List.mem_append_left _ ho), ?_⟩
    have := hok.2.2
    rw [inserted, List.flatMap_append] at this
    exact (List.pairwise_append.mp this).1
  obtain ⟨b', ev', t, h', hr, hu⟩ := run_init p garbage hg ops hok'
  have happ : ∀ (l : List (Int × Op)) (b0 : RB) o b1 e1, run b0 l = some (b1, e1) → run b0 (l ++ [o]) = (b1.step o.1 o.2).map (fun r => (r.1, e1 ++ r.2)) := by
    intro l
    induction l with
    | nil =>
      intro b0 o b1 e1 h
      obtain ⟨rfl, rfl⟩ := Prod.mk.inj (Option.some.inj h)
      rw [List.nil_append, run]
      cases hs : b0.step o.1 o.2 with
      | none => rfl
      | some r => simp [run]
    | cons x xs ih =>
      intro b0 o b1 e1 h
      rw [List.cons_append, run]
      rw [run] at h
      cases hs : b0.step x.1 x.2 with
      | none => rw [hs] at h; cases h
      | some r =>
        obtain ⟨b2, e2⟩ := r
        rw [hs] at h
        dsimp only at h ⊢
        cases hx : run b2 xs with
        | none => rw [hx] at h; cases h
        | some q =>
          obtain ⟨b3, e3⟩ := q
          rw [hx] at h
          obtain ⟨rfl, rfl⟩ := Prod.mk.inj (Option.some.inj h)
          rw [ih b2 o _ _ hx]
          cases b3.step o.1 o.2 <;> simp
  rw [happ ops _ _ _ _ h'] at h
  have hr' : Rest (fun _ => True) (inserted ops) ev' (if ops = [] then now else t) b' := by
    split
    · next hnil =>
      subst hnil
      obtain ⟨rfl, rfl⟩ := Prod.mk.inj (Option.some.inj h')
      exact init_rest p garbage hg _ trivial _
    · exact hr
  obtain ⟨b1, e1, s1, s2, _, _, s5⟩ := step_rest hr' now (by
    split
    · exact Int.le_refl _
    · next hne => exact hu now hne (fun o ho => (List.pairwise_append.mp hok.1).2.2 o ho _ (List.mem_singleton.mpr rfl)))
    .flush trivial (fun m hm => (by cases hm)) (fun _ x => x) (fun _ _ => trivial) (fun _ => trivial) (fun _ _ _ => trivial)
  rw [s1] at h
  obtain ⟨rfl, rfl⟩ := Prod.mk.inj (Option.some.inj h)
  have hnil := s5 rfl
  refine ⟨hnil, ?_⟩
  have := s2.mid.perm
  rw [hnil] at this
  simpa [inserted1] using this

/-- **C32**: a message is held no longer than the period: whenever the buffer's timer isn't due, nothing held has been there for that long (and it was inserted
when its record says). -/
theorem C32_in_time (p : Option Int) (garbage : Nat) (hg : garbage < 2 ^ 64 - 1) (ops : List (Int × Op)) (hok : OkOps ops) (b : RB) (ev : List Ev)
    (h : run (init p garbage) ops = some (b, ev)) (now : Int) (hserved : ∀ w, b.timer = some w → now < w) (q : Int) (hq : b.period = some q) :
    ∀ m ∈ b.bySeq, m ∈ inserted ops ∧ now < m.rx + q := by
  obtain ⟨b', ev', t, h', hr, _⟩ := run_init p garbage hg ops hok
  rw [h'] at h
  obtain ⟨rfl, rfl⟩ := Prod.mk.inj (Option.some.inj h)
  intro m hm
  have hw := hr.waits m hm
  refine ⟨hr.mid.sub m hm, ?_⟩
  cases ht : b'.timer with
  | none => exact absurd ht (hr.armed (List.ne_nil_of_mem hw) (by rw [hq]; exact fun e => (by cases e)))
  | some w =>
    have h1 := hserved w ht
    have h2 := ((hr.mid.timer q hq).2 w ht).2 m hw
    omega

/-- **C32**: running the timer's action when the timer is due leaves no timer due. -/
theorem C32_timer_serves (p : Option Int) (garbage : Nat) (hg : garbage < 2 ^ 64 - 1) (ops : List (Int × Op)) (hok : OkOps ops) (b : RB) (ev : List Ev)
    (h : run (init p garbage) ops = some (b, ev)) (now : Int) (hlater : ∀ o ∈ ops, o.1 ≤ now) (w : Int) (hw : b.timer = some w) (_hdue : w ≤ now) :
    ∃ b' ev', b.step now .fire = some (b', ev') ∧ ∀ w', b'.timer = some w' → now < w' := by
  obtain ⟨b', ev', t, h', hr, hu⟩ := run_init p garbage hg ops hok
  rw [h'] at h
  obtain ⟨rfl, rfl⟩ := Prod.mk.inj (Option.some.inj h)
  have hne : ops ≠ [] := by
    intro e
    subst e
    obtain ⟨rfl, rfl⟩ := Prod.mk.inj (Option.some.inj h')
    cases (hw : none = some w)
  obtain ⟨b1, e1, s1, s2, _, s4, _⟩ := step_rest hr now (hu now hne hlater) .fire trivial (fun m hm => (by cases hm)) (fun _ x => x) (fun _ _ => trivial) (fun _ => trivial) (fun _ _ _ => trivial)
  exact ⟨b1, e1, s1, s4 rfl⟩

/-- **C32**: a message is flagged late exactly if a later one has been delivered before. -/
theorem C32_late_iff (p : Option Int) (garbage : Nat) (hg : garbage < 2 ^ 64 - 1) (ops : List (Int × Op)) (hok : OkOps ops) (b : RB) (ev : List Ev)
    (h : run (init p garbage) ops = some (b, ev)) (pre : List Ev) (e : Ev) (post : List Ev) (he : ev = pre ++ e :: post) :
    e.late = true ↔ ∃ x ∈ pre, e.last < x.last := by
  obtain ⟨b', ev', t, h', hr, _⟩ := run_init p garbage hg ops hok
  rw [h'] at h
  obtain ⟨rfl, rfl⟩ := Prod.mk.inj (Option.some.inj h)
  exact hr.mid.late pre e post he

/-- **C32**: messages without a common fragment are delivered in order unless they are flagged late. -/
theorem C32_in_order (p : Option Int) (garbage : Nat) (hg : garbage < 2 ^ 64 - 1) (ops : List (Int × Op)) (hok : OkOps ops) (b : RB) (ev : List Ev)
    (h : run (init p garbage) ops = some (b, ev)) (hdis : (inserted ops).Pairwise Disjoint) :
    (ev.filter (fun e => !e.late)).Pairwise (fun x y => x.last < y.sn) := by
  have hperm := C32_exactly_once_partial p garbage hg ops hok b ev h
  have hlate := C32_late_iff p garbage hg ops hok b ev h
  -- deliveries are pairwise disjoint
  have hd : ((inserted ops).map Msg.key).Pairwise (fun x y => lastOf x.2.1 x.2.2 < y.2.1 ∨ lastOf y.2.1 y.2.2 < x.2.1) := by
    rw [List.pairwise_map]; exact hdis
  have hd2 := (hperm.symm.pairwise hd (fun hxy => hxy.symm))
  have hd3 := (List.pairwise_append.mp hd2).1
  rw [List.pairwise_map] at hd3
  -- pairs, with the position of the later one
  have key : ∀ (pre rest : List Ev), ev = pre ++ rest → rest.Pairwise (fun x y => x.last < y.sn ∨ y.last < x.sn) →
      (rest.filter (fun e => !e.late)).Pairwise (fun x y => x.last < y.sn) := by
    intro pre rest
    induction rest generalizing pre with
    | nil => intro _ _; exact List.Pairwise.nil
    | cons x xs ih =>
      intro he hpw
      obtain ⟨q1, q2⟩ := List.pairwise_cons.mp hpw
      have hrec := ih (pre ++ [x]) (by rw [he]; simp) q2
      rw [List.filter_cons]
      split
      · refine List.pairwise_cons.mpr ⟨?_, hrec⟩
        intro y hy
        obtain ⟨hy1, hy2⟩ := List.mem_filter.mp hy
        obtain ⟨a, c, rfl⟩ := List.append_of_mem hy1
        have hl := hlate (pre ++ x :: a) y c (by rw [he]; simp)
        rcases q1 y hy1 with hq | hq
        · exact hq
        · exfalso
          have : y.late = true := hl.mpr ⟨x, by simp, Nat.lt_of_lt_of_le hq (sn_le_last _ _)⟩
          rw [this] at hy2
          cases hy2
      · exact hrec
  exact key [] ev rfl hd3

/-! Nothing is handed over before what precedes it without a reason. -/
namespace Reorder

/-- numbers that need not be waited for: those told to deliver through, those flushed, and those of messages that came a period ago -/
def Released (p : Option Int) (ops : List (Int × Op)) (now : Int) (n : Nat) : Prop :=
  n = 0 ∨ (∃ t, (t, Op.deliverThrough n) ∈ ops) ∨ (∃ pre t post, ops = pre ++ (t, Op.flush) :: post ∧ ∃ m ∈ inserted pre, m.last = n) ∨
    (∃ m ∈ inserted ops, m.last = n ∧ ∃ q, clampPeriod p = some q ∧ m.rx + q ≤ now)

theorem Released.mono {p ops now n} (h : Released p ops now n) (o : Int × Op) (ho : now ≤ o.1) : Released p (ops ++ [o]) o.1 n := by
  rcases h with h | ⟨t, h⟩ | ⟨pre, t, post, h, hm⟩ | ⟨m, hm, h, q, h1, h2⟩
  · exact .inl h
  · exact .inr (.inl ⟨t, List.mem_append_left _ h⟩)
  · exact .inr (.inr (.inl ⟨pre, t, post ++ [o], by rw [h]; simp, hm⟩))
  · refine .inr (.inr (.inr ⟨m, ?_, h, q, h1, by omega⟩))
    rw [inserted, List.flatMap_append]
    exact List.mem_append_left _ hm

theorem highest_step (b : RB) (now : Int) (op : Op) (b' : RB) (ev : List Ev) (h : b.step now op = some (b', ev)) (hok : OkOp op) :
    b'.highest = match inserted1 (now, op) with | [m] => max b.highest m.last | _ => b.highest := by
  have sch : ∀ b : RB, b.scheduleDelivery.highest = b.highest := by intro b; rw [RB.scheduleDelivery]; split <;> rfl
  have loop : ∀ (l : List Msg) (b : RB), (deliverLoop l b).1.highest = b.highest := by
    intro l
    induction l with
    | nil => intro b; rfl
    | cons m ms ih =>
      intro b
      rw [deliverLoop]
      split
      · dsimp only; rw [ih]; rfl
      · rfl
  have try_ : ∀ (b : RB) (b' : RB) ev, b.tryDeliver now = some (b', ev) → b'.highest = b.highest := by
    intro b b' ev h
    rw [RB.tryDeliver] at h
    simp only [Option.ite_none_right_eq_some, Option.some.injEq, Prod.mk.injEq] at h
    rw [← h.2.1, sch]
    show (deliverLoop _ _).1.highest = _
    rw [loop]; rfl
  have thr : ∀ (b : RB) n (b' : RB) ev, b.deliverThrough now n = some (b', ev) → b'.highest = b.highest := by
    intro b n b' ev h
    rw [RB.deliverThrough] at h
    split at h
    · exact try_ { b with csn := n } _ _ h
    · obtain ⟨rfl, rfl⟩ := Prod.mk.inj (Option.some.inj h); rfl
  cases op with
  | close => exact hok.elim
  | insert payload sn count =>
    rw [RB.step, RB.insert] at h
    have hl : lastSN sn count = lastOf sn count := lastSN_eq hok
    dsimp only [inserted1]
    show _ = max b.highest (lastOf sn count)
    rw [← hl]
    dsimp only at h
    split at h
    · cases ht : RB.tryDeliver (RB.deliverMessage { b with highest := max b.highest (lastSN sn count) } payload sn count).1 now with
      | none => rw [ht] at h; cases h
      | some r =>
        rw [ht] at h
        obtain ⟨rfl, rfl⟩ := Prod.mk.inj (Option.some.inj h)
        exact try_ _ _ _ ht
    · obtain ⟨rfl, rfl⟩ := Prod.mk.inj (Option.some.inj h)
      rw [RB.queueMessage, sch]
  | deliverThrough n => exact thr _ _ _ _ h
  | flush => exact thr _ _ _ _ h
  | fire =>
    rw [RB.step] at h
    dsimp only [inserted1]
    split at h
    · split at h
      · exact try_ { b with timer := none } _ _ h
      · obtain ⟨rfl, rfl⟩ := Prod.mk.inj (Option.some.inj h); rfl
    · obtain ⟨rfl, rfl⟩ := Prod.mk.inj (Option.some.inj h); rfl
  | setPeriod p =>
    rw [RB.step] at h
    obtain ⟨rfl, rfl⟩ := Prod.mk.inj (Option.some.inj h)
    rw [RB.setPeriod]
    dsimp only [inserted1]
    split
    · rw [sch]
    · rfl

theorem run_released (p : Option Int) (ops : List (Int × Op)) : ∀ (done : List (Int × Op)) (b : RB) (evs : List Ev) (t : Int),
    Rest (Released p done t) (inserted done) evs t b → b.period = clampPeriod p → (b.highest = 0 ∨ ∃ m ∈ inserted done, m.last = b.highest) →
    ops.Pairwise (fun x y => x.1 ≤ y.1) → (∀ o ∈ ops, t ≤ o.1) → (∀ o ∈ ops, OkOp o.2) → (∀ o ∈ ops, ∀ q, o.2 ≠ .setPeriod q) →
    (inserted (done ++ ops)).Pairwise (fun x y => x.sn ≠ y.sn) →
    ∃ b' ev t', run b ops = some (b', ev) ∧ Rest (Released p (done ++ ops) t') (inserted (done ++ ops)) (evs ++ ev) t' b' ∧
      (ops.getLast?.map (·.1)).getD t = t' := by
  induction ops with
  | nil =>
    intro done b evs t h _ _ _ _ _ _ _
    refine ⟨b, [], t, rfl, ?_, rfl⟩
    simp only [List.append_nil]
    exact h
  | cons o os ih =>
    intro done b evs t h hper hhigh hp ht hok hset hd
    obtain ⟨p1, p2⟩ := List.pairwise_cons.mp hp
    have hto := ht o List.mem_cons_self
    have hins : inserted (done ++ [o]) = inserted done ++ inserted1 o := by rw [inserted, List.flatMap_append]; simp [inserted]
    have hd' : (inserted (done ++ [o] ++ os)).Pairwise (fun x y => x.sn ≠ y.sn) := by simpa using hd
    have hd1 : (inserted done ++ inserted1 o).Pairwise (fun x y => x.sn ≠ y.sn) := by
      rw [inserted, List.flatMap_append] at hd'
      rw [← hins]; exact (List.pairwise_append.mp hd').1
    obtain ⟨b1, ev1, s1, s2, s3, s4⟩ := step_rest (J' := Released p (done ++ [o]) o.1) h o.1 hto o.2 (hok o List.mem_cons_self)
      (fun m hm x hx => (List.pairwise_append.mp hd1).2.2 x hx m hm)
      (fun n hn => hn.mono o hto)
      (fun n hn => .inr (.inl ⟨o.1, List.mem_append_right _ (by rw [List.mem_singleton, ← hn])⟩))
      (fun hf => by
        rcases hhigh with h0 | ⟨m, hm, hl⟩
        · exact .inl h0
        · exact .inr (.inr (.inl ⟨done, o.1, [], by rw [← hf], m, hm, hl⟩)))
      (fun m hm he => by
        refine .inr (.inr (.inr ⟨m, by rw [hins]; exact hm, rfl, ?_⟩))
        rw [hper] at he
        cases hc : clampPeriod p with
        | none => rw [hc] at he; cases he
        | some q =>
          rw [hc] at he
          simp only [expired, decide_eq_true_iff] at he
          exact ⟨q, rfl, by omega⟩)
    have hper1 : b1.period = clampPeriod p := by rw [s3 (fun q => hset o List.mem_cons_self q), hper]
    have hhigh1 : b1.highest = 0 ∨ ∃ m ∈ inserted (done ++ [o]), m.last = b1.highest := by
      have := highest_step b o.1 o.2 b1 ev1 s1 (hok o List.mem_cons_self)
      have hold : b.highest = 0 ∨ ∃ m ∈ inserted (done ++ [o]), m.last = b.highest :=
        hhigh.imp id (fun ⟨m, hm, hl⟩ => ⟨m, by rw [hins]; exact List.mem_append_left _ hm, hl⟩)
      split at this
      · next m he =>
        by_cases hx : m.last ≤ b.highest
        · rw [this, Nat.max_eq_left hx]; exact hold
        · rw [this, Nat.max_eq_right (by omega)]
          exact .inr ⟨m, by rw [hins]; refine List.mem_append_right _ ?_; rw [show inserted1 o = [m] from he]; exact List.mem_singleton.mpr rfl, rfl⟩
      · rw [this]; exact hold
    obtain ⟨b2, ev2, t2, r1, r2, r3⟩ := ih (done ++ [o]) b1 (evs ++ ev1) o.1 (by rw [hins]; exact s2) hper1 hhigh1 p2 p1 (fun x hx => hok x (List.mem_cons_of_mem _ hx))
      (fun x hx => hset x (List.mem_cons_of_mem _ hx)) hd'
    refine ⟨b2, ev1 ++ ev2, t2, ?_, ?_, ?_⟩
    · rw [run, s1]
      dsimp only
      rw [r1]; rfl
    · rw [← List.append_assoc]
      have : done ++ o :: os = done ++ [o] ++ os := by simp
      rw [this]; exact r2
    · rw [← r3]
      cases os with
      | nil => rfl
      | cons y ys => rw [List.getLast?_cons_cons, List.getLast?_eq_some_getLast (List.cons_ne_nil y ys)]; rfl

end Reorder

/-- **C32**: a message isn't delivered before the one with the number preceding it without a reason: that number isn't waited for any more
(`Released`, at the time of the last operation), or the message with it was delivered before. -/
theorem C32_no_gap_partial (p : Option Int) (ops : List (Int × Op)) (hok : OkOps ops) (hset : ∀ o ∈ ops, ∀ q, o.2 ≠ .setPeriod q) (b : RB) (ev : List Ev)
    (h : run (init p 0) ops = some (b, ev)) (now : Int) (hnow : ops.getLast?.map (·.1) = some now) (pre : List Ev) (e : Ev) (post : List Ev)
    (he : ev = pre ++ e :: post) :
    ∃ n, e.sn ≤ n + 1 ∧ (Released p ops now n ∨ ∃ x ∈ pre, x.last = n) := by
  cases ops with
  | nil => cases hnow
  | cons o os =>
    obtain ⟨b', ev', t', h1, h2, h3⟩ := run_released p (o :: os) [] (init p 0) [] o.1 (init_rest p 0 (by decide) _ (.inl rfl) _) rfl (.inl rfl) hok.1 (by
      intro x hx
      rcases List.mem_cons.mp hx with rfl | hx
      · exact Int.le_refl _
      · exact (List.pairwise_cons.mp hok.1).1 x hx) hok.2.1 hset hok.2.2
    rw [h1] at h
    obtain ⟨rfl, rfl⟩ := Prod.mk.inj (Option.some.inj h)
    rw [hnow] at h3
    obtain rfl : now = t' := h3
    exact h2.mid.gaps pre e post he

/-- **C32**: nothing is delivered after the buffer was closed, whatever is done with it. -/
theorem C32_closed (b : RB) (ops : List (Int × Op)) (b' : RB) (ev : List Ev) (h : run b.close ops = some (b', ev)) : ev = [] := by
  have sch : ∀ b : RB, b.scheduleDelivery.open_ = b.open_ := by intro b; rw [RB.scheduleDelivery]; split <;> rfl
  have msg : ∀ (b : RB) p s c, b.open_ = false → (b.deliverMessage p s c).2 = [] ∧ (b.deliverMessage p s c).1.open_ = false := by
    intro b p s c hb
    rw [RB.deliverMessage]; dsimp only; rw [if_neg (by rw [hb]; exact Bool.false_ne_true)]; exact ⟨rfl, hb⟩
  have loop : ∀ (l : List Msg) (b : RB), b.open_ = false → (deliverLoop l b).2 = [] ∧ (deliverLoop l b).1.open_ = false := by
    intro l
    induction l with
    | nil => intro b hb; exact ⟨rfl, hb⟩
    | cons m ms ih =>
      intro b hb
      rw [deliverLoop]
      split
      · dsimp only
        obtain ⟨h1, h2⟩ := msg b m.payload m.sn m.count hb
        rw [h1]; exact ih _ h2
      · exact ⟨rfl, hb⟩
  have try_ : ∀ (b : RB) now (b' : RB) ev, b.open_ = false → b.tryDeliver now = some (b', ev) → ev = [] ∧ b'.open_ = false := by
    intro b now b' ev hb h
    rw [RB.tryDeliver] at h
    simp only [Option.ite_none_right_eq_some, Option.some.injEq, Prod.mk.injEq] at h
    obtain ⟨h1, h2⟩ := loop (b.findCSN now).bySeq (b.findCSN now) hb
    rw [← h.2.1, ← h.2.2, sch]
    exact ⟨h1, h2⟩
  have thr : ∀ (b : RB) now n (b' : RB) ev, b.open_ = false → b.deliverThrough now n = some (b', ev) → ev = [] ∧ b'.open_ = false := by
    intro b now n b' ev hb h
    rw [RB.deliverThrough] at h
    split at h
    · exact try_ { b with csn := n } _ _ _ hb h
    · obtain ⟨rfl, rfl⟩ := Prod.mk.inj (Option.some.inj h); exact ⟨rfl, hb⟩
  have step : ∀ (b : RB) now op (b' : RB) ev, b.open_ = false → b.step now op = some (b', ev) → ev = [] ∧ b'.open_ = false := by
    intro b now op b' ev hb h
    cases op with
    | insert payload sn count =>
      rw [RB.step, RB.insert] at h
      dsimp only at h
      obtain ⟨h1, h2⟩ := msg { b with highest := max b.highest (lastSN sn count) } payload sn count hb
      split at h
      · cases ht : RB.tryDeliver (RB.deliverMessage { b with highest := max b.highest (lastSN sn count) } payload sn count).1 now with
        | none => rw [ht] at h; cases h
        | some r =>
          rw [ht] at h
          obtain ⟨rfl, rfl⟩ := Prod.mk.inj (Option.some.inj h)
          obtain ⟨h3, h4⟩ := try_ _ _ _ _ h2 ht
          exact ⟨by rw [h1, h3]; rfl, h4⟩
      · obtain ⟨rfl, rfl⟩ := Prod.mk.inj (Option.some.inj h)
        refine ⟨rfl, ?_⟩
        rw [RB.queueMessage, sch]; exact hb
    | deliverThrough n => exact thr _ _ _ _ _ hb h
    | flush => exact thr _ _ _ _ _ hb h
    | fire =>
      rw [RB.step] at h
      split at h
      · split at h
        · exact try_ { b with timer := none } _ _ _ hb h
        · obtain ⟨rfl, rfl⟩ := Prod.mk.inj (Option.some.inj h); exact ⟨rfl, hb⟩
      · obtain ⟨rfl, rfl⟩ := Prod.mk.inj (Option.some.inj h); exact ⟨rfl, hb⟩
    | setPeriod p =>
      rw [RB.step] at h
      obtain ⟨rfl, rfl⟩ := Prod.mk.inj (Option.some.inj h)
      refine ⟨rfl, ?_⟩
      rw [RB.setPeriod]
      split
      · rw [sch]; exact hb
      · exact hb
    | close =>
      rw [RB.step] at h
      obtain ⟨rfl, rfl⟩ := Prod.mk.inj (Option.some.inj h)
      exact ⟨rfl, rfl⟩
  have all : ∀ (l : List (Int × Op)) (b : RB) (b' : RB) ev, b.open_ = false → run b l = some (b', ev) → ev = [] := by
    intro l
    induction l with
    | nil =>
      intro b b' ev _ h
      obtain ⟨rfl, rfl⟩ := Prod.mk.inj (Option.some.inj h); rfl
    | cons o os ih =>
      intro b b' ev hb h
      rw [run] at h
      cases hs : b.step o.1 o.2 with
      | none => rw [hs] at h; cases h
      | some r =>
        obtain ⟨b1, e1⟩ := r
        obtain ⟨h1, h2⟩ := step b o.1 o.2 b1 e1 hb hs
        rw [hs] at h
        dsimp only at h
        cases hx : run b1 os with
        | none => rw [hx] at h; cases h
        | some q =>
          obtain ⟨b2, e2⟩ := q
          rw [hx] at h
          obtain ⟨rfl, rfl⟩ := Prod.mk.inj (Option.some.inj h)
          rw [h1, ih b1 b2 e2 h2 hx]; rfl
  exact all ops b.close b' ev rfl h

/-- **C32 fails** for a new buffer: `m_highestSeen` is not initialized. If 2^64 - 1 happens to be there, a flush delivers nothing that is held, and the buffer
aborts when the period of the held message ends. -/
theorem C32_flush_uninitialized :
    (run (init (some 10) (2 ^ 64 - 1)) [(0, .insert [1] 5 1), (1, .flush)]).map (fun r => (r.1.bySeq.length, r.2.length)) = some (1, 0) ∧
    run (init (some 10) (2 ^ 64 - 1)) [(0, .insert [1] 5 1), (1, .flush), (10, .fire)] = none := by decide +kernel

/-- If some other number is there, a flush makes the buffer stop putting messages in order until that number is reached. -/
theorem C32_flush_uninitialized_order :
    (run (init none 1000) [(0, .flush), (0, .insert [2] 2 1), (0, .insert [1] 1 1)]).map (fun r => r.2.map (fun e => (e.sn, e.late))) =
      some [(2, false), (1, true)] := by decide +kernel

/-- **C32 fails** if a number is used twice: the message that came first is lost. -/
theorem C32_same_number_lost :
    (run (init none 0) [(0, .insert [1] 5 1), (0, .insert [2] 5 1), (0, .flush)]).map (fun r => r.2.map (·.payload)) = some [[2]] := by decide +kernel

/-- messages 1, 3 (of two fragments), 5 and 2, held for 10 at most -/
def Reorder.demo : List (Int × Op) :=
  [(0, .insert [1] 1 1), (1, .insert [3] 3 2), (2, .insert [6] 6 1), (3, .insert [8] 8 1), (11, .fire), (12, .insert [2] 2 1), (12, .fire), (13, .insert [7] 7 1), (14, .flush)]

example : OkOps Reorder.demo ∧ (inserted Reorder.demo).Pairwise Disjoint := by
  refine ⟨⟨by decide, ?_, by decide⟩, ?_⟩
  · intro o ho
    simp only [Reorder.demo, List.mem_cons, List.not_mem_nil, or_false] at ho
    rcases ho with rfl | rfl | rfl | rfl | rfl | rfl | rfl | rfl | rfl <;> first | trivial | (show (_ : Nat) < _; decide)
  · simp [inserted, Reorder.demo, inserted1, Disjoint, Msg.last, lastOf]

example : (run (init (some 10) 0) Reorder.demo).map (fun r => r.2.map (fun e => (e.sn, e.late))) =
    some [(1, false), (3, false), (2, true), (6, false), (7, false), (8, false)] := by decide +kernel
example : (run (init (some 10) 0) (Reorder.demo.take 4)).map (fun r => (r.1.bySeq.map (·.sn), r.1.timer)) = some ([3, 6, 8], some 11) := by decide +kernel

end Rtmfp
