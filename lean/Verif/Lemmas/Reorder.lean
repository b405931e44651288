import Verif.Model.Reorder
/-! # Invariant of the reorder buffer -/
namespace Rtmfp
namespace Reorder

/-- the last sequence number of a message -/
def lastOf (sn count : Nat) : Nat := if count = 0 then sn else sn + count - 1

theorem lastSN_eq {sn count : Nat} (h : sn + count < 2 ^ 64 - 1) : lastSN sn count = lastOf sn count := by
  rw [lastSN, lastOf]
  by_cases hc : count = 0
  · rw [if_pos hc, if_neg (by omega)]; omega
  · rw [if_neg hc, if_pos hc]; omega

theorem sn_le_last (sn count : Nat) : sn ≤ lastOf sn count := by rw [lastOf]; split <;> omega
theorem last_lt {sn count : Nat} (h : sn + count < 2 ^ 64 - 1) : lastOf sn count < 2 ^ 64 - 1 := by rw [lastOf]; split <;> omega

def Msg.last (m : Msg) : Nat := lastOf m.sn m.count
def Ev.last (e : Ev) : Nat := lastOf e.sn e.count
def Msg.key (m : Msg) : Bytes × Nat × Nat := (m.payload, m.sn, m.count)
def Ev.key (e : Ev) : Bytes × Nat × Nat := (e.payload, e.sn, e.count)

/-- the state in the middle of a call: `hist` is what has been inserted, `evs` what has been delivered -/
structure Mid (J : Nat → Prop) (hist : List Msg) (evs : List Ev) (t : Int) (b : RB) : Prop where
  open_ : b.open_ = true
  zero : J 0
  csn_lt : b.csn < 2 ^ 64 - 1
  high_lt : b.highest < 2 ^ 64 - 1
  fits : ∀ m ∈ hist, m.sn + m.count < 2 ^ 64 - 1
  sorted : b.bySeq.Pairwise (fun x y => x.sn < y.sn)
  sub : ∀ m ∈ b.bySeq, m ∈ hist
  timeSub : ∀ m ∈ b.byTime, m ∈ hist
  timeSorted : b.byTime.Pairwise (fun x y => x.rx ≤ y.rx)
  past : ∀ m ∈ b.byTime, m.rx ≤ t
  known : ∀ m ∈ b.byTime, m ∈ b.bySeq ∨ m.last ≤ b.csn
  waiting : ∀ m ∈ b.bySeq, m ∈ b.byTime ∨ m.last ≤ b.csn
  perm : (evs.map Ev.key ++ b.bySeq.map Msg.key).Perm (hist.map Msg.key)
  through : ∀ e ∈ evs, e.last ≤ b.delivered
  reached : b.delivered = 0 ∨ ∃ e ∈ evs, e.last = b.delivered
  behind : b.delivered ≤ b.csn
  late : ∀ pre e post, evs = pre ++ e :: post → (e.late = true ↔ ∃ x ∈ pre, e.last < x.last)
  high : ∀ m ∈ hist, m.last ≤ b.highest
  gap : ∀ x, x ≤ b.csn + 1 → ∃ n, x ≤ n + 1 ∧
    (J n ∨ (∃ e ∈ evs, e.last = n ∧ e.sn < x) ∨ (∃ m ∈ b.bySeq, m.last = n ∧ m.sn < x))
  gaps : ∀ pre e post, evs = pre ++ e :: post → ∃ n, e.sn ≤ n + 1 ∧ (J n ∨ ∃ x ∈ pre, x.last = n)
  timer : ∀ p, b.period = some p → 0 ≤ p ∧ (∀ w, b.timer = some w → w ≤ t + p ∧ ∀ m ∈ b.byTime, w ≤ m.rx + p)
  noPeriod : b.period = none → b.timer = none

theorem Mid.weaken {J J' hist evs t t' b} (h : Mid J hist evs t b) (hJ : ∀ n, J n → J' n) (ht : t ≤ t') : Mid J' hist evs t' b := by
  refine ⟨h.open_, hJ _ h.zero, h.csn_lt, h.high_lt, h.fits, h.sorted, h.sub, h.timeSub, h.timeSorted, fun m hm => ?_, h.known, h.waiting, h.perm,
    h.through, h.reached, h.behind, h.late, h.high, ?_, ?_, ?_, h.noPeriod⟩
  · have := h.past m hm; omega
  · intro x hx
    obtain ⟨n, hn, hc | hc | hc⟩ := h.gap x hx
    · exact ⟨n, hn, .inl (hJ _ hc)⟩
    · exact ⟨n, hn, .inr (.inl hc)⟩
    · exact ⟨n, hn, .inr (.inr hc)⟩
  · intro pre e post he
    obtain ⟨n, hn, hc | hc⟩ := h.gaps pre e post he
    · exact ⟨n, hn, .inl (hJ _ hc)⟩
    · exact ⟨n, hn, .inr hc⟩
  · intro p hp
    obtain ⟨h0, h1⟩ := h.timer p hp
    refine ⟨h0, fun w hw => ⟨?_, (h1 w hw).2⟩⟩
    have := (h1 w hw).1; omega

/-- moving `csn` to a justified number -/
theorem Mid.raise {J hist evs t b} (h : Mid J hist evs t b) (c : Nat) (hc : b.csn ≤ c) (hlt : c < 2 ^ 64 - 1) (hJ : J c) :
    Mid J hist evs t { b with csn := c } := by
  refine ⟨h.open_, h.zero, hlt, h.high_lt, h.fits, h.sorted, h.sub, h.timeSub, h.timeSorted, h.past, fun m hm => ?_, fun m hm => ?_, h.perm,
    h.through, h.reached, Nat.le_trans h.behind hc, h.late, h.high, ?_, h.gaps, h.timer, h.noPeriod⟩
  · exact (h.known m hm).imp id (fun x => Nat.le_trans x hc)
  · exact (h.waiting m hm).imp id (fun x => Nat.le_trans x hc)
  · intro x hx
    exact ⟨c, hx, .inl hJ⟩

/-- the messages by time, after the first was dropped -/
theorem Mid.pop {J hist evs t b m ms} (h : Mid J hist evs t b) (hb : b.byTime = m :: ms)
    (hJ : m.sn ≤ b.csn + 1 ∨ J m.last) : Mid J hist evs t { b with csn := max b.csn m.last, byTime := ms } := by
  have hmem : m ∈ hist := h.timeSub m (by rw [hb]; exact List.mem_cons_self)
  have hlast := last_lt (h.fits m hmem)
  have hsrt := h.timeSorted
  rw [hb] at hsrt
  have hsub : ∀ x ∈ ms, x ∈ b.byTime := fun x hx => by rw [hb]; exact List.mem_cons_of_mem _ hx
  refine ⟨h.open_, h.zero, (by show max b.csn m.last < _; rw [Msg.last]; have := h.csn_lt; omega), h.high_lt, h.fits, h.sorted, h.sub, fun x hx => h.timeSub x (hsub x hx), (List.pairwise_cons.mp hsrt).2,
    fun x hx => h.past x (hsub x hx), fun x hx => ?_, fun x hx => ?_, h.perm,
    h.through, h.reached, Nat.le_trans h.behind (Nat.le_max_left _ _), h.late, h.high, ?_, h.gaps, ?_, h.noPeriod⟩
  · exact (h.known x (hsub x hx)).imp id (fun y => Nat.le_trans y (Nat.le_max_left _ _))
  · rcases h.waiting x hx with hw | hw
    · rw [hb] at hw
      rcases List.mem_cons.mp hw with rfl | hw
      · exact .inr (Nat.le_max_right _ _)
      · exact .inl hw
    · exact .inr (Nat.le_trans hw (Nat.le_max_left _ _))
  · intro x hx
    change x ≤ max b.csn m.last + 1 at hx
    by_cases hx1 : x ≤ b.csn + 1
    · exact h.gap x hx1
    · have hxl : x ≤ m.last + 1 := by omega
      rcases hJ with hj | hj
      · rcases h.known m (by rw [hb]; exact List.mem_cons_self) with hk | hk
        · exact ⟨m.last, hxl, .inr (.inr ⟨m, hk, rfl, by omega⟩)⟩
        · omega
      · exact ⟨m.last, hxl, .inl hj⟩
  · intro p hp
    obtain ⟨h0, h1⟩ := h.timer p hp
    exact ⟨h0, fun w hw => ⟨(h1 w hw).1, fun x hx => (h1 w hw).2 x (hsub x hx)⟩⟩

theorem not_wrap {c : Nat} (h : c < 2 ^ 64 - 1) : (c + 1) % W64 = c + 1 := Nat.mod_eq_of_lt (by omega)

/-- what `findCSN` does, and what it leaves -/
theorem findCSN_mid {J hist evs t} (now : Int) (b : RB) (h : Mid J hist evs t b) (hJ : ∀ m ∈ hist, expired b.period now m.rx = true → J m.last) :
    Mid J hist evs t (b.findCSN now) ∧
    (∀ m ms, (b.findCSN now).byTime = m :: ms → expired b.period now m.rx = false ∧ (b.findCSN now).csn + 1 < m.sn) ∧
    b.csn ≤ (b.findCSN now).csn ∧ (∀ m ∈ (b.findCSN now).byTime, m ∈ b.byTime) := by
  obtain ⟨period, csn, delivered, highest, timer, bySeq, byTime, open_⟩ := b
  rw [RB.findCSN]
  dsimp only at hJ ⊢
  induction byTime generalizing csn with
  | nil => exact ⟨h, (fun m ms e => by cases (e : ([] : List Msg) = _)), Nat.le_refl _, fun m hm => hm⟩
  | cons m ms ih =>
    have hlt := h.csn_lt
    dsimp only at hlt
    rw [findLoop, not_wrap hlt]
    by_cases hc : (decide (m.sn ≤ csn + 1) || expired period now m.rx) = true
    · rw [if_pos hc]
      have hmem : m ∈ hist := h.timeSub m List.mem_cons_self
      have hp := h.pop (m := m) (ms := ms) rfl (by
        rcases Bool.or_eq_true_iff.mp hc with hc | hc
        · exact .inl (of_decide_eq_true hc)
        · exact .inr (hJ m hmem hc))
      have hl : lastSN m.sn m.count = m.last := lastSN_eq (h.fits m hmem)
      rw [hl]
      obtain ⟨i1, i2, i3, i4⟩ := ih (max csn m.last) hp
      exact ⟨i1, i2, Nat.le_trans (Nat.le_max_left _ _) i3, fun x hx => List.mem_cons_of_mem _ (i4 x hx)⟩
    · rw [if_neg hc]
      refine ⟨h, ?_, Nat.le_refl _, fun m hm => hm⟩
      intro m' ms' e
      obtain ⟨rfl, rfl⟩ := List.cons.inj e
      rw [Bool.not_eq_true, Bool.or_eq_false_iff] at hc
      exact ⟨hc.2, by have := of_decide_eq_false hc.1; omega⟩

/-- handing over the first message -/
theorem Mid.hand {J hist evs t b m rest} (h : Mid J hist evs t b) (hb : b.bySeq = m :: rest) (hs : m.sn ≤ b.csn + 1) :
    Mid J hist (evs ++ [⟨m.payload, m.sn, m.count, decide (m.last < b.delivered)⟩]) t
      { b with csn := max b.csn m.last, delivered := max b.delivered m.last, bySeq := rest } := by
  have hmem : m ∈ b.bySeq := by rw [hb]; exact List.mem_cons_self
  have hhist := h.sub m hmem
  have hlast := last_lt (h.fits m hhist)
  have hsrt := h.sorted
  rw [hb] at hsrt
  have hsub : ∀ x ∈ rest, x ∈ b.bySeq := fun x hx => by rw [hb]; exact List.mem_cons_of_mem _ hx
  generalize he : (⟨m.payload, m.sn, m.count, decide (m.last < b.delivered)⟩ : Ev) = e
  have hel : e.last = m.last := by rw [← he]; rfl
  have hes : e.sn = m.sn := by rw [← he]
  have hek : e.key = m.key := by rw [← he]; rfl
  have split : ∀ (pre : List Ev) x post, evs ++ [e] = pre ++ x :: post → (∃ post', evs = pre ++ x :: post') ∨ (pre = evs ∧ x = e) := by
    intro pre x post hp
    rcases List.eq_nil_or_concat post with rfl | ⟨q, y, rfl⟩
    · obtain ⟨h1, h2⟩ := List.append_inj' hp rfl
      exact .inr ⟨h1.symm, (List.cons.inj h2).1.symm⟩
    · have h3 : evs ++ [e] = (pre ++ x :: q) ++ [y] := by rw [hp]; simp
      obtain ⟨h1, h2⟩ := List.append_inj' h3 rfl
      exact .inl ⟨q, h1⟩
  refine ⟨h.open_, h.zero, (by show max b.csn m.last < _; rw [Msg.last]; have := h.csn_lt; omega), h.high_lt, h.fits, (List.pairwise_cons.mp hsrt).2,
    fun x hx => h.sub x (hsub x hx), h.timeSub, h.timeSorted, h.past, fun x hx => ?_, fun x hx => ?_, ?_, ?_, ?_, ?_, ?_, h.high, ?_, ?_, h.timer, h.noPeriod⟩
  · rcases h.known x hx with hk | hk
    · rw [hb] at hk
      rcases List.mem_cons.mp hk with rfl | hk
      · exact .inr (Nat.le_max_right _ _)
      · exact .inl hk
    · exact .inr (Nat.le_trans hk (Nat.le_max_left _ _))
  · exact (h.waiting x (hsub x hx)).imp id (fun y => Nat.le_trans y (Nat.le_max_left _ _))
  · have := h.perm
    rw [hb] at this
    simpa only [List.map_append, List.map_cons, List.map_nil, List.append_assoc, List.singleton_append, hek] using this
  · intro x hx
    rcases List.mem_append.mp hx with hx | hx
    · exact Nat.le_trans (h.through x hx) (Nat.le_max_left _ _)
    · rw [List.mem_singleton] at hx
      rw [hx, hel]; exact Nat.le_max_right _ _
  · show max b.delivered m.last = 0 ∨ _
    by_cases hd : m.last < b.delivered
    · rw [Nat.max_eq_left (Nat.le_of_lt hd)]
      refine h.reached.imp id (fun ⟨x, hx, e⟩ => ⟨x, List.mem_append_left _ hx, e⟩)
    · rw [Nat.max_eq_right (by omega)]
      exact .inr ⟨e, List.mem_append_right _ (List.mem_singleton.mpr rfl), hel⟩
  · show max b.delivered m.last ≤ max b.csn m.last
    have := h.behind
    omega
  · intro pre x post hp
    rcases split pre x post hp with ⟨q, hq⟩ | ⟨rfl, rfl⟩
    · exact h.late pre x q hq
    · have : x.late = decide (m.last < b.delivered) := by rw [← he]
      rw [this, decide_eq_true_iff, hel]
      constructor
      · intro hlt
        rcases h.reached with h0 | ⟨y, hy, hyl⟩
        · omega
        · exact ⟨y, hy, by omega⟩
      · intro ⟨y, hy, hyl⟩
        exact Nat.lt_of_lt_of_le hyl (h.through y hy)
  · intro x hx
    change x ≤ max b.csn m.last + 1 at hx
    by_cases hx1 : x ≤ b.csn + 1
    · obtain ⟨n, hn, hc | ⟨y, hy, h1, h2⟩ | ⟨y, hy, h1, h2⟩⟩ := h.gap x hx1
      · exact ⟨n, hn, .inl hc⟩
      · exact ⟨n, hn, .inr (.inl ⟨y, List.mem_append_left _ hy, h1, h2⟩)⟩
      · rw [hb] at hy
        rcases List.mem_cons.mp hy with rfl | hy
        · exact ⟨n, hn, .inr (.inl ⟨e, List.mem_append_right _ (List.mem_singleton.mpr rfl), by rw [hel, h1], by rw [hes]; exact h2⟩)⟩
        · exact ⟨n, hn, .inr (.inr ⟨y, hy, h1, h2⟩)⟩
    · exact ⟨m.last, by omega, .inr (.inl ⟨e, List.mem_append_right _ (List.mem_singleton.mpr rfl), hel, by omega⟩)⟩
  · intro pre x post hp
    rcases split pre x post hp with ⟨q, hq⟩ | ⟨rfl, rfl⟩
    · exact h.gaps pre x q hq
    · obtain ⟨n, hn, hc | ⟨y, hy, h1, h2⟩ | ⟨y, hy, h1, h2⟩⟩ := h.gap m.sn hs
      · exact ⟨n, by omega, .inl hc⟩
      · exact ⟨n, by omega, .inr ⟨y, hy, h1⟩⟩
      · exfalso
        rw [hb] at hy
        rcases List.mem_cons.mp hy with rfl | hy
        · omega
        · have := (List.pairwise_cons.mp hsrt).1 y hy
          omega

/-- the loop of `tryDeliver` -/
theorem deliverLoop_mid {J hist t} (todo : List Msg) : ∀ (evs : List Ev) (b : RB), Mid J hist evs t b → b.bySeq = todo →
    Mid J hist (evs ++ (deliverLoop todo b).2) t (deliverLoop todo b).1 ∧
    (∀ m ∈ (deliverLoop todo b).1.bySeq, (deliverLoop todo b).1.csn + 1 < m.sn) ∧
    (deliverLoop todo b).1.byTime = b.byTime ∧ (deliverLoop todo b).1.period = b.period ∧ (deliverLoop todo b).1.timer = b.timer ∧
    b.csn ≤ (deliverLoop todo b).1.csn ∧ (∀ m ∈ (deliverLoop todo b).1.bySeq, m ∈ todo) := by
  induction todo with
  | nil =>
    intro evs b h hb
    obtain ⟨period, csn, delivered, highest, timer, bySeq, byTime, open_⟩ := b
    dsimp only at hb
    subst hb
    simp only [deliverLoop, List.append_nil]
    exact ⟨h, fun m hm => (by cases hm), trivial, trivial, trivial, Nat.le_refl _, fun m hm => (by cases hm)⟩
  | cons m ms ih =>
    intro evs b h hb
    have hlt := h.csn_lt
    have hopen := h.open_
    have hl : lastSN m.sn m.count = m.last := lastSN_eq (h.fits m (h.sub m (by rw [hb]; exact List.mem_cons_self)))
    rw [deliverLoop, RB.shouldDeliverNow, not_wrap hlt]
    by_cases hc : m.sn ≤ b.csn + 1
    · rw [if_pos (decide_eq_true hc)]
      have hh := h.hand hb hc
      obtain ⟨i1, i2, i3, i4, i5, i6, i7⟩ := ih _ _ hh rfl
      simp only [RB.deliverMessage, hl, RB.isLate]
      rw [if_pos hopen, ← List.append_assoc]
      exact ⟨i1, i2, i3, i4, i5, Nat.le_trans (Nat.le_max_left _ _) i6, fun x hx => List.mem_cons_of_mem _ (i7 x hx)⟩
    · rw [if_neg (by simp only [decide_eq_true_iff]; exact hc)]
      obtain ⟨period, csn, delivered, highest, timer, bySeq, byTime, open_⟩ := b
      dsimp only at hb hc
      subst hb
      rw [List.append_nil]
      refine ⟨h, ?_, rfl, rfl, rfl, Nat.le_refl _, fun m hm => hm⟩
      intro x hx
      have := h.sorted
      rcases List.mem_cons.mp hx with rfl | hx
      · show csn + 1 < _
        omega
      · have := (List.pairwise_cons.mp this).1 x hx
        show csn + 1 < _
        omega

/-- between calls -/
structure Rest (J : Nat → Prop) (hist : List Msg) (evs : List Ev) (t : Int) (b : RB) : Prop where
  mid : Mid J hist evs t b
  held : ∀ m ∈ b.bySeq, b.csn + 1 < m.sn
  same : b.bySeq.isEmpty = b.byTime.isEmpty
  armed : b.byTime ≠ [] → b.period ≠ none → b.timer ≠ none

theorem Rest.waits {J hist evs t b} (h : Rest J hist evs t b) : ∀ m ∈ b.bySeq, m ∈ b.byTime := by
  intro m hm
  rcases h.mid.waiting m hm with hw | hw
  · exact hw
  · have := h.held m hm
    have h2 := sn_le_last m.sn m.count
    rw [Msg.last] at hw
    omega

theorem schedule_fields (b : RB) : b.scheduleDelivery.period = b.period ∧ b.scheduleDelivery.csn = b.csn ∧ b.scheduleDelivery.bySeq = b.bySeq ∧
    b.scheduleDelivery.byTime = b.byTime := by
  rw [RB.scheduleDelivery]; split <;> exact ⟨rfl, rfl, rfl, rfl⟩

theorem schedule_armed (b : RB) : b.scheduleDelivery.byTime ≠ [] → b.scheduleDelivery.period ≠ none → b.scheduleDelivery.timer ≠ none := by
  obtain ⟨period, csn, delivered, highest, timer, bySeq, byTime, open_⟩ := b
  cases byTime <;> cases period <;> cases timer <;> simp [RB.scheduleDelivery]

theorem schedule_mid {J hist evs t b} (h : Mid J hist evs t b) : Mid J hist evs t b.scheduleDelivery := by
  obtain ⟨period, csn, delivered, highest, timer, bySeq, byTime, open_⟩ := b
  cases byTime with
  | nil => cases period <;> cases timer <;> exact h
  | cons m ms =>
    cases period with
    | none => cases timer <;> exact h
    | some p =>
      cases timer with
      | some w => exact h
      | none =>
        have hp := h.past m List.mem_cons_self
        have h0 := (h.timer p rfl).1
        refine ⟨h.open_, h.zero, h.csn_lt, h.high_lt, h.fits, h.sorted, h.sub, h.timeSub, h.timeSorted, h.past, h.known, h.waiting, h.perm,
          h.through, h.reached, h.behind, h.late, h.high, h.gap, h.gaps, ?_, (fun e => by cases (e : some p = none))⟩
        intro p' hp'
        obtain rfl : p = p' := Option.some.inj hp'
        refine ⟨h0, fun w hw => ?_⟩
        obtain rfl : m.rx + p = w := Option.some.inj hw
        refine ⟨by omega, fun x hx => ?_⟩
        rcases List.mem_cons.mp hx with rfl | hx
        · omega
        · have : m.rx ≤ x.rx := (List.pairwise_cons.mp h.timeSorted).1 x hx
          omega

theorem expired_mono {period now} {x y : Msg} (hxy : x.rx ≤ y.rx) (h : expired period now x.rx = false) : expired period now y.rx = false := by
  cases period with
  | none => rfl
  | some p =>
    simp only [expired, decide_eq_false_iff_not] at h ⊢
    omega

/-- `tryDeliver` puts the state in order again -/
theorem tryDeliver_rest {J hist evs t} (now : Int) (b : RB) (h : Mid J hist evs t b)
    (hJ : ∀ m ∈ hist, expired b.period now m.rx = true → J m.last) :
    ∃ b' ev, b.tryDeliver now = some (b', ev) ∧ Rest J hist (evs ++ ev) t b' ∧ (∀ m ∈ b'.bySeq, expired b.period now m.rx = false) ∧ b'.period = b.period ∧
      (b.timer = none → ∀ w, b'.timer = some w → now < w) := by
  rw [RB.tryDeliver]
  obtain ⟨m1, f1, c1, s1⟩ := findCSN_mid now b h hJ
  have hp1 : (b.findCSN now).period = b.period := rfl
  have ht1 : (b.findCSN now).timer = b.timer := rfl
  generalize b.findCSN now = b1 at *
  obtain ⟨m2, f2, e2, p2, t2, c2, s2⟩ := deliverLoop_mid b1.bySeq evs b1 m1 rfl
  generalize hdl : deliverLoop b1.bySeq b1 = r at *
  obtain ⟨b2, ev⟩ := r
  dsimp only at *
  -- nothing expired is left in the first place
  have fresh1 : ∀ m ∈ b1.byTime, expired b.period now m.rx = false := by
    cases hb : b1.byTime with
    | nil => exact fun m hm => (by cases hm)
    | cons x xs =>
      have hx := (f1 x xs hb).1
      intro m hm
      rcases List.mem_cons.mp hm with rfl | hm
      · exact hx
      · have := m1.timeSorted
        rw [hb] at this
        exact expired_mono ((List.pairwise_cons.mp this).1 m hm) hx
  have hJ2 : ∀ m ∈ hist, expired b2.period now m.rx = true → J m.last := by rw [p2, hp1]; exact hJ
  obtain ⟨m3, f3, c3, s3⟩ := findCSN_mid now b2 m2 hJ2
  have hq3 : (b2.findCSN now).bySeq = b2.bySeq := rfl
  have hp3 : (b2.findCSN now).period = b2.period := rfl
  have ht3 : (b2.findCSN now).timer = b2.timer := rfl
  -- the second search doesn't move anything on
  have stay : ∀ (l : List Msg) (csn : Nat), csn < 2 ^ 64 - 1 → (∀ m ∈ l, m ∈ hist) → (∀ m ∈ l, expired b2.period now m.rx = false) →
      (∀ m ∈ l, csn + 1 < m.sn ∨ m.last ≤ csn) → (findLoop b2.period now csn l).1 = csn ∧
      (∀ m ∈ l, csn + 1 < m.sn → m ∈ (findLoop b2.period now csn l).2) := by
    intro l
    induction l with
    | nil => intro csn _ _ _ _; exact ⟨rfl, fun m hm => (by cases hm)⟩
    | cons x xs ih =>
      intro csn hlt hh he hk
      rw [findLoop, not_wrap hlt, he x List.mem_cons_self, Bool.or_false]
      by_cases hc : x.sn ≤ csn + 1
      · rw [if_pos (decide_eq_true hc), lastSN_eq (h.fits x (hh x List.mem_cons_self))]
        have hxl : lastOf x.sn x.count ≤ csn := by
          rcases hk x List.mem_cons_self with hk | hk
          · omega
          · exact hk
        rw [Nat.max_eq_left hxl]
        obtain ⟨i1, i2⟩ := ih csn hlt (fun m hm => hh m (List.mem_cons_of_mem _ hm)) (fun m hm => he m (List.mem_cons_of_mem _ hm)) (fun m hm => hk m (List.mem_cons_of_mem _ hm))
        refine ⟨i1, fun m hm hs => ?_⟩
        rcases List.mem_cons.mp hm with rfl | hm
        · omega
        · exact i2 m hm hs
      · rw [if_neg (by simp only [decide_eq_true_iff]; exact hc)]
        exact ⟨rfl, fun m hm _ => hm⟩
  obtain ⟨g1, g2⟩ := stay b2.byTime b2.csn m2.csn_lt m2.timeSub (by rw [p2, hp1, e2]; exact fresh1) (by
    intro m hm
    rcases m2.known m hm with hk | hk
    · exact .inl (f2 m hk)
    · exact .inr hk)
  have hcsn : (b2.findCSN now).csn = b2.csn := g1
  have hkeep : ∀ m ∈ b2.byTime, b2.csn + 1 < m.sn → m ∈ (b2.findCSN now).byTime := g2
  generalize b2.findCSN now = b3 at *
  have held3 : ∀ m ∈ b3.bySeq, b3.csn + 1 < m.sn := by rw [hq3, hcsn]; exact f2
  have waits3 : ∀ m ∈ b3.bySeq, m ∈ b3.byTime := by
    intro m hm
    rw [hq3] at hm
    refine hkeep m ?_ (f2 m hm)
    rcases m2.waiting m hm with hw | hw
    · exact hw
    · have := f2 m hm
      have h2 := sn_le_last m.sn m.count
      rw [Msg.last] at hw
      omega
  have same3 : b3.bySeq.isEmpty = b3.byTime.isEmpty := by
    cases hb : b3.byTime with
    | nil =>
      cases hs : b3.bySeq with
      | nil => rfl
      | cons x xs =>
        have := waits3 x (by rw [hs]; exact List.mem_cons_self)
        rw [hb] at this
        cases this
    | cons y ys =>
      have h1 := (f3 y ys hb).2
      rcases m3.known y (by rw [hb]; exact List.mem_cons_self) with hk | hk
      · cases hs : b3.bySeq with
        | nil => rw [hs] at hk; cases hk
        | cons x xs => rfl
      · have h2 := sn_le_last y.sn y.count
        rw [Msg.last] at hk
        omega
  obtain ⟨k1, k2, k3, k4⟩ := schedule_fields b3
  have m4 := schedule_mid m3
  have hcond : b3.scheduleDelivery.bySeq.isEmpty = b3.scheduleDelivery.byTime.isEmpty := by rw [k3, k4]; exact same3
  refine ⟨b3.scheduleDelivery, ev, if_pos hcond, ⟨m4, by rw [k3, k2]; exact held3, hcond, schedule_armed b3⟩, ?_, ?_, ?_⟩
  · intro m hm
    rw [k3] at hm
    have := s3 m (waits3 m hm)
    rw [e2] at this
    exact fresh1 m this
  · rw [k1, hp3, p2, hp1]
  · intro hnone w hw
    rw [RB.scheduleDelivery] at hw
    have htn : b3.timer = none := by rw [ht3, t2, ht1, hnone]
    rw [htn] at hw
    cases hb : b3.byTime with
    | nil => rw [hb] at hw; dsimp only at hw; rw [htn] at hw; cases hw
    | cons x xs =>
      rw [hb] at hw
      cases hpp : b3.period with
      | none => rw [hpp] at hw; dsimp only at hw; rw [htn] at hw; cases hw
      | some p =>
        rw [hpp] at hw
        obtain rfl : x.rx + p = w := Option.some.inj hw
        have := (f3 x xs hb).1
        rw [← hp3, hpp] at this
        simp only [expired, decide_eq_false_iff_not] at this
        omega

theorem mapPut_mem (l : List Msg) (m : Msg) (hn : ∀ x ∈ l, x.sn ≠ m.sn) (x : Msg) : x ∈ mapPut l m ↔ x = m ∨ x ∈ l := by
  induction l with
  | nil => simp [mapPut]
  | cons y ys ih =>
    rw [mapPut]
    have hy := hn y List.mem_cons_self
    by_cases h1 : m.sn < y.sn
    · rw [if_pos h1]; simp
    · rw [if_neg h1, if_neg (fun e => hy e.symm), List.mem_cons, ih (fun z hz => hn z (List.mem_cons_of_mem _ hz)), List.mem_cons]
      constructor
      · rintro (h | h | h) <;> simp [h]
      · rintro (h | h | h) <;> simp [h]

theorem mapPut_sorted (l : List Msg) (m : Msg) (hn : ∀ x ∈ l, x.sn ≠ m.sn) (hs : l.Pairwise (fun x y => x.sn < y.sn)) :
    (mapPut l m).Pairwise (fun x y => x.sn < y.sn) := by
  induction l with
  | nil => simp [mapPut]
  | cons y ys ih =>
    rw [mapPut]
    have hy := hn y List.mem_cons_self
    obtain ⟨p1, p2⟩ := List.pairwise_cons.mp hs
    by_cases h1 : m.sn < y.sn
    · rw [if_pos h1]
      refine List.pairwise_cons.mpr ⟨fun z hz => ?_, hs⟩
      rcases List.mem_cons.mp hz with rfl | hz
      · exact h1
      · have := p1 z hz; omega
    · rw [if_neg h1, if_neg (fun e => hy e.symm)]
      have hn' : ∀ z ∈ ys, z.sn ≠ m.sn := fun z hz => hn z (List.mem_cons_of_mem _ hz)
      refine List.pairwise_cons.mpr ⟨fun z hz => ?_, ih hn' p2⟩
      rcases (mapPut_mem ys m hn' z).mp hz with rfl | hz
      · omega
      · exact p1 z hz

theorem mapPut_perm (l : List Msg) (m : Msg) (hn : ∀ x ∈ l, x.sn ≠ m.sn) : (mapPut l m).Perm (m :: l) := by
  induction l with
  | nil => exact List.Perm.refl _
  | cons y ys ih =>
    rw [mapPut]
    have hy := hn y List.mem_cons_self
    by_cases h1 : m.sn < y.sn
    · rw [if_pos h1]
    · rw [if_neg h1, if_neg (fun e => hy e.symm)]
      exact (List.Perm.cons y (ih (fun z hz => hn z (List.mem_cons_of_mem _ hz)))).trans (List.Perm.swap m y ys)

theorem mapPut_first (l : List Msg) (m : Msg) (hn : ∀ x ∈ l, m.sn < x.sn) : mapPut l m = m :: l := by
  cases l with
  | nil => rfl
  | cons y ys => rw [mapPut, if_pos (hn y List.mem_cons_self)]

/-- a new message among those waiting -/
theorem Mid.queue {J hist evs t b} (h : Mid J hist evs t b) (m : Msg) (hf : m.sn + m.count < 2 ^ 64 - 1) (hn : ∀ x ∈ hist, x.sn ≠ m.sn) (hrx : m.rx = t) :
    Mid J (hist ++ [m]) evs t { b with highest := max b.highest m.last, bySeq := mapPut b.bySeq m, byTime := b.byTime ++ [m] } := by
  have hn' : ∀ x ∈ b.bySeq, x.sn ≠ m.sn := fun x hx => hn x (h.sub x hx)
  have hl := last_lt hf
  refine ⟨h.open_, h.zero, h.csn_lt, (by show max b.highest m.last < _; have := h.high_lt; rw [Msg.last]; omega), ?_, mapPut_sorted _ _ hn' h.sorted, ?_, ?_, ?_, ?_, ?_, ?_, ?_,
    h.through, h.reached, h.behind, h.late, ?_, ?_, h.gaps, ?_, h.noPeriod⟩
  · intro x hx
    rcases List.mem_append.mp hx with hx | hx
    · exact h.fits x hx
    · rw [List.mem_singleton] at hx; rw [hx]; exact hf
  · intro x hx
    rcases (mapPut_mem _ _ hn' x).mp hx with rfl | hx
    · exact List.mem_append_right _ (List.mem_singleton.mpr rfl)
    · exact List.mem_append_left _ (h.sub x hx)
  · intro x hx
    rcases List.mem_append.mp hx with hx | hx
    · exact List.mem_append_left _ (h.timeSub x hx)
    · exact List.mem_append_right _ hx
  · refine List.pairwise_append.mpr ⟨h.timeSorted, List.pairwise_singleton _ _, fun x hx y hy => ?_⟩
    rw [List.mem_singleton] at hy
    rw [hy, hrx]; exact h.past x hx
  · intro x hx
    rcases List.mem_append.mp hx with hx | hx
    · exact h.past x hx
    · rw [List.mem_singleton] at hx; rw [hx, hrx]; exact Int.le_refl _
  · intro x hx
    rcases List.mem_append.mp hx with hx | hx
    · exact (h.known x hx).imp (fun y => (mapPut_mem _ _ hn' x).mpr (.inr y)) id
    · rw [List.mem_singleton] at hx; exact .inl ((mapPut_mem _ _ hn' x).mpr (.inl hx))
  · intro x hx
    rcases (mapPut_mem _ _ hn' x).mp hx with rfl | hx
    · exact .inl (List.mem_append_right _ (List.mem_singleton.mpr rfl))
    · exact (h.waiting x hx).imp (fun y => List.mem_append_left _ y) id
  · have h1 := (mapPut_perm b.bySeq m hn').map Msg.key
    rw [List.map_append, List.map_cons, List.map_nil]
    refine (List.Perm.append_left _ h1).trans ?_
    rw [List.map_cons]
    refine List.perm_middle.trans ?_
    exact ((List.Perm.cons _ h.perm)).trans (List.perm_append_singleton _ _).symm
  · intro x hx
    rcases List.mem_append.mp hx with hx | hx
    · exact Nat.le_trans (h.high x hx) (Nat.le_max_left _ _)
    · rw [List.mem_singleton] at hx; rw [hx]; exact Nat.le_max_right _ _
  · intro x hx
    obtain ⟨n, hn1, hc | hc | ⟨y, hy, h1⟩⟩ := h.gap x hx
    · exact ⟨n, hn1, .inl hc⟩
    · exact ⟨n, hn1, .inr (.inl hc)⟩
    · exact ⟨n, hn1, .inr (.inr ⟨y, (mapPut_mem _ _ hn' y).mpr (.inr hy), h1⟩)⟩
  · intro p hp
    obtain ⟨h0, h1⟩ := h.timer p hp
    refine ⟨h0, fun w hw => ⟨(h1 w hw).1, fun x hx => ?_⟩⟩
    rcases List.mem_append.mp hx with hx | hx
    · exact (h1 w hw).2 x hx
    · rw [List.mem_singleton] at hx; rw [hx, hrx]; exact (h1 w hw).1

/-- forgetting when delivered messages came -/
theorem Mid.dropTime {J hist evs t b} (h : Mid J hist evs t b) (l : List Msg) (hl : l.Sublist b.byTime) (hd : ∀ m ∈ b.byTime, m ∈ l ∨ m.last ≤ b.csn) :
    Mid J hist evs t { b with byTime := l } := by
  refine ⟨h.open_, h.zero, h.csn_lt, h.high_lt, h.fits, h.sorted, h.sub, fun m hm => h.timeSub m (hl.subset hm), h.timeSorted.sublist hl,
    fun m hm => h.past m (hl.subset hm), fun m hm => h.known m (hl.subset hm), fun m hm => ?_, h.perm,
    h.through, h.reached, h.behind, h.late, h.high, h.gap, h.gaps, ?_, h.noPeriod⟩
  · rcases h.waiting m hm with hw | hw
    · exact hd m hw
    · exact .inr hw
  · intro p hp
    obtain ⟨h0, h1⟩ := h.timer p hp
    exact ⟨h0, fun w hw => ⟨(h1 w hw).1, fun x hx => (h1 w hw).2 x (hl.subset hx)⟩⟩

end Reorder
end Rtmfp
