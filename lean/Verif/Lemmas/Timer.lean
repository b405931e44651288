import Verif.Model.Timer
/-! # Facts about the timer list -/
namespace Rtmfp
namespace Timers

/-- different timers are in different places; times count in units of at most 1 µs -/
structure Env.Ok (E : Env) : Prop where
  inj : ∀ x y, E.addr x = E.addr y → x = y
  pos : 0 < E.minRecur

theorem before_iff (E : Env) (tm : Nat → Timer) (x y : Nat) : before E tm x y = true ↔
    (tm x).when_ < (tm y).when_ ∨ ((tm x).when_ = (tm y).when_ ∧ E.addr x < E.addr y) := by
  rw [before]
  split
  · next h => rw [decide_eq_true_iff]; constructor
              · exact fun a => .inr ⟨h, a⟩
              · rintro (a | a)
                · omega
                · exact a.2
  · next h => rw [decide_eq_true_iff]; constructor
              · exact .inl
              · rintro (a | a)
                · exact a
                · exact absurd a.1 h

theorem before_total (E : Env) (hE : E.Ok) (tm : Nat → Timer) (x y : Nat) : before E tm x y = true ∨ before E tm y x = true ∨ x = y := by
  rw [before_iff, before_iff]
  by_cases h : x = y
  · exact .inr (.inr h)
  · have : E.addr x ≠ E.addr y := fun e => h (hE.inj _ _ e)
    omega

theorem before_irrefl (E : Env) (tm : Nat → Timer) (x : Nat) : before E tm x x = false := by
  rw [← Bool.not_eq_true, before_iff]; omega

theorem before_trans (E : Env) (tm : Nat → Timer) {x y z : Nat} (h : before E tm x y = true) (h' : before E tm y z = true) : before E tm x z = true := by
  rw [before_iff] at h h' ⊢; omega

/-- the order of the set -/
def Sorted (E : Env) (tm : Nat → Timer) (l : List Nat) : Prop := l.Pairwise (fun x y => before E tm x y = true)

theorem Sorted.nodup {E tm l} (h : Sorted E tm l) : l.Nodup := by
  refine List.Pairwise.imp ?_ h
  intro a b hab e
  subst e
  rw [before_irrefl] at hab; cases hab

theorem sorted_congr {E : Env} {tm tm' : Nat → Timer} {l : List Nat} (h : Sorted E tm l) (hw : ∀ x ∈ l, (tm' x).when_ = (tm x).when_) : Sorted E tm' l := by
  induction l with
  | nil => exact List.Pairwise.nil
  | cons y ys ih =>
    obtain ⟨h1, h2⟩ := List.pairwise_cons.mp h
    refine List.pairwise_cons.mpr ⟨fun z hz => ?_, ih h2 (fun x hx => hw x (List.mem_cons_of_mem _ hx))⟩
    have := h1 z hz
    rw [before_iff] at this ⊢
    rw [hw y List.mem_cons_self, hw z (List.mem_cons_of_mem _ hz)]
    exact this

theorem setInsert_mem (E : Env) (hE : E.Ok) (tm : Nat → Timer) (l : List Nat) (x z : Nat) : z ∈ setInsert E tm l x ↔ z = x ∨ z ∈ l := by
  induction l with
  | nil => simp [setInsert]
  | cons y ys ih =>
    rw [setInsert]
    split
    · simp
    · next h1 =>
      split
      · simp only [List.mem_cons, ih]
        constructor
        · rintro (h | h | h) <;> simp [h]
        · rintro (h | h | h) <;> simp [h]
      · next h2 =>
        have : x = y := by
          rcases before_total E hE tm x y with h | h | h
          · exact absurd h h1
          · exact absurd h h2
          · exact h
        subst this
        simp

theorem setInsert_sorted (E : Env) (hE : E.Ok) (tm : Nat → Timer) (l : List Nat) (x : Nat) (h : Sorted E tm l) : Sorted E tm (setInsert E tm l x) := by
  induction l with
  | nil => exact List.pairwise_singleton _ _
  | cons y ys ih =>
    obtain ⟨p1, p2⟩ := List.pairwise_cons.mp h
    rw [setInsert]
    split
    · next h1 =>
      refine List.pairwise_cons.mpr ⟨fun z hz => ?_, h⟩
      rcases List.mem_cons.mp hz with rfl | hz
      · exact h1
      · exact before_trans E tm h1 (p1 z hz)
    · split
      · next h2 =>
        refine List.pairwise_cons.mpr ⟨fun z hz => ?_, ih p2⟩
        rcases (setInsert_mem E hE tm ys x z).mp hz with rfl | hz
        · exact h2
        · exact p1 z hz
      · exact h

theorem setErase_mem (E : Env) (hE : E.Ok) (tm : Nat → Timer) (l : List Nat) (x z : Nat) : z ∈ setErase E tm l x ↔ z ∈ l ∧ z ≠ x := by
  rw [setErase, List.mem_filter, Bool.or_eq_true_iff]
  constructor
  · rintro ⟨h, h' | h'⟩
    · exact ⟨h, fun e => by subst e; rw [before_irrefl] at h'; cases h'⟩
    · exact ⟨h, fun e => by subst e; rw [before_irrefl] at h'; cases h'⟩
  · rintro ⟨h, h'⟩
    refine ⟨h, ?_⟩
    rcases before_total E hE tm x z with a | a | a
    · exact .inl a
    · exact .inr a
    · exact absurd a.symm h'

theorem setErase_sorted {E : Env} {tm : Nat → Timer} {l : List Nat} (x : Nat) (h : Sorted E tm l) : Sorted E tm (setErase E tm l x) :=
  List.Pairwise.sublist List.filter_sublist h

/-- between commands -/
structure WF (E : Env) (s : TL) : Prop where
  sorted : Sorted E s.tm s.set
  known : ∀ x ∈ s.set, x < s.next
  owned : ∀ x ∈ s.set, (s.tm x).listed = true ∨ (s.tm x).canceled = true
  recur : ∀ x, (s.tm x).recur ≤ 0 ∨ E.minRecur ≤ (s.tm x).recur

/-- commands that concern a timer's place in the list -/
def touches (x : Nat) : Ev → Bool
  | .cmd (.setNext y _) => decide (y = x)
  | .cmd (.cancel y) => decide (y = x)
  | .cmd (.remove y) => decide (y = x)
  | .cmd .clear => true
  | _ => false

/-- a command that changes when a timer is due -/
def moves (x : Nat) : Ev → Bool
  | .cmd (.setNext y _) => decide (y = x)
  | _ => false

/-- what a command (or several) does to the state -/
structure Frame (s s' : TL) (ev : List Ev) : Prop where
  next_le : s.next ≤ s'.next
  when_ : ∀ x < s.next, (s'.tm x).when_ = (s.tm x).when_ ∨ ∃ w, Ev.cmd (.setNext x w) ∈ ev
  canceled : ∀ x < s.next, (s.tm x).canceled = true → (s'.tm x).canceled = true
  catchup : ∀ x < s.next, (s'.tm x).catchup = (s.tm x).catchup
  firing : ∀ x < s.next, (s'.tm x).firing = (s.tm x).firing
  rescheduled : ∀ x < s.next, (s.tm x).rescheduled = true → (s'.tm x).rescheduled = true
  moved : ∀ x < s.next, (s'.tm x).rescheduled = true → (s.tm x).rescheduled = true ∨ ∃ w, Ev.cmd (.setNext x w) ∈ ev
  cancels : ∀ x, Ev.cmd (.cancel x) ∈ ev → (s'.tm x).canceled = true
  quiet : ∀ x d n, Ev.fire x d n ∉ ev
  stays : ∀ x ∈ s.set, (∀ e ∈ ev, touches x e = false) → x ∈ s'.set
  enters : ∀ x < s.next, x ∈ s'.set → x ∈ s.set ∨ (s'.tm x).rescheduled = true ∨ (s.tm x).firing = false
  running : s'.running = s.running
  recur : ∀ x < s.next, (s'.tm x).recur = (s.tm x).recur ∨ ∃ r, Ev.cmd (.setRecur x r) ∈ ev
  shifted : ∀ x < s.next, (s'.tm x).when_ = (s.tm x).when_ ∨ (s'.tm x).rescheduled = true

theorem Frame.refl (s : TL) : Frame s s [] :=
  ⟨Nat.le_refl _, fun _ _ => .inl rfl, fun _ _ h => h, fun _ _ => rfl, fun _ _ => rfl, fun _ _ h => h, fun _ _ h => .inl h, fun _ h => (by cases h),
   fun _ _ _ h => (by cases h), fun _ h _ => h, fun _ _ h => .inl h, rfl, fun _ _ => .inl rfl, fun _ _ => .inl rfl⟩

theorem Frame.trans {s1 s2 s3 : TL} {e1 e2 : List Ev} (h : Frame s1 s2 e1) (h' : Frame s2 s3 e2) (hk : ∀ x, Ev.cmd (.cancel x) ∈ e1 → x < s2.next) :
    Frame s1 s3 (e1 ++ e2) := by
  have lt : ∀ x < s1.next, x < s2.next := fun x hx => Nat.lt_of_lt_of_le hx h.next_le
  refine ⟨Nat.le_trans h.next_le h'.next_le, ?_, ?_, ?_, ?_, ?_, ?_, ?_, ?_, ?_, ?_, by rw [h'.running, h.running], ?_, ?_⟩
  · intro x hx
    rcases h.when_ x hx with a | ⟨w, a⟩
    · rcases h'.when_ x (lt x hx) with b | ⟨w, b⟩
      · exact .inl (by rw [b, a])
      · exact .inr ⟨w, List.mem_append_right _ b⟩
    · exact .inr ⟨w, List.mem_append_left _ a⟩
  · exact fun x hx a => h'.canceled x (lt x hx) (h.canceled x hx a)
  · exact fun x hx => by rw [h'.catchup x (lt x hx), h.catchup x hx]
  · exact fun x hx => by rw [h'.firing x (lt x hx), h.firing x hx]
  · exact fun x hx a => h'.rescheduled x (lt x hx) (h.rescheduled x hx a)
  · intro x hx a
    rcases h'.moved x (lt x hx) a with b | ⟨w, b⟩
    · rcases h.moved x hx b with c | ⟨w, c⟩
      · exact .inl c
      · exact .inr ⟨w, List.mem_append_left _ c⟩
    · exact .inr ⟨w, List.mem_append_right _ b⟩
  · intro x hx
    rcases List.mem_append.mp hx with a | a
    · exact h'.canceled x (hk x a) (h.cancels x a)
    · exact h'.cancels x a
  · intro x d n hx
    rcases List.mem_append.mp hx with a | a
    · exact h.quiet x d n a
    · exact h'.quiet x d n a
  · intro x hx ht
    exact h'.stays x (h.stays x hx (fun e he => ht e (List.mem_append_left _ he))) (fun e he => ht e (List.mem_append_right _ he))
  · intro x hx a
    rcases h'.enters x (lt x hx) a with b | b | b
    · rcases h.enters x hx b with c | c | c
      · exact .inl c
      · exact .inr (.inl (h'.rescheduled x (lt x hx) c))
      · exact .inr (.inr c)
    · exact .inr (.inl b)
    · rw [h.firing x hx] at b
      exact .inr (.inr b)
  · intro x hx
    rcases h.recur x hx with a | ⟨w, a⟩
    · rcases h'.recur x (lt x hx) with b | ⟨w, b⟩
      · exact .inl (by rw [b, a])
      · exact .inr ⟨w, List.mem_append_right _ b⟩
    · exact .inr ⟨w, List.mem_append_left _ a⟩
  · intro x hx
    rcases h'.shifted x (lt x hx) with b | b
    · rcases h.shifted x hx with a | a
      · exact .inl (by rw [b, a])
      · exact .inr (h'.rescheduled x (lt x hx) a)
    · exact .inr b

theorem upd_self (s : TL) (x : Nat) (f : Timer → Timer) : (s.upd x f).tm x = f (s.tm x) := by rw [TL.upd]; exact if_pos rfl
theorem upd_other (s : TL) {x y : Nat} (f : Timer → Timer) (h : y ≠ x) : (s.upd x f).tm y = s.tm y := by rw [TL.upd]; exact if_neg h
theorem upd_set (s : TL) (x : Nat) (f : Timer → Timer) : (s.upd x f).set = s.set := rfl
theorem upd_next (s : TL) (x : Nat) (f : Timer → Timer) : (s.upd x f).next = s.next := rfl
theorem upd_running (s : TL) (x : Nat) (f : Timer → Timer) : (s.upd x f).running = s.running := rfl

/-- changing members other than those that matter -/
theorem WF.upd {E s} (h : WF E s) (x : Nat) (f : Timer → Timer) (hw : x ∈ s.set → (f (s.tm x)).when_ = (s.tm x).when_)
    (ho : x ∈ s.set → (f (s.tm x)).listed = true ∨ (f (s.tm x)).canceled = true)
    (hr : (f (s.tm x)).recur ≤ 0 ∨ E.minRecur ≤ (f (s.tm x)).recur) : WF E (s.upd x f) := by
  refine ⟨sorted_congr h.sorted (fun y hy => ?_), h.known, fun y hy => ?_, fun y => ?_⟩
  · by_cases e : y = x
    · subst e; rw [upd_self]; exact hw hy
    · rw [upd_other s f e]
  · by_cases e : y = x
    · subst e; rw [upd_self]; exact ho hy
    · rw [upd_other s f e]; exact h.owned y hy
  · by_cases e : y = x
    · subst e; rw [upd_self]; exact hr
    · rw [upd_other s f e]; exact h.recur y

theorem addTimer_eq (E : Env) (s : TL) (x : Nat) : (addTimer E s x).1 =
    { s.upd x (fun t => { t with listed := true }) with set := setInsert E (s.upd x (fun t => { t with listed := true })).tm s.set x } := rfl

theorem addTimer_wf {E s} (hE : E.Ok) (h : WF E s) (x : Nat) (hx : x < s.next) : WF E (addTimer E s x).1 := by
  rw [addTimer_eq]
  have h1 : WF E (s.upd x (fun t => { t with listed := true })) := h.upd x _ (fun _ => rfl) (fun _ => .inl rfl) (h.recur x)
  generalize hs : s.upd x (fun t => { t with listed := true }) = s1 at h1
  have hset : s.set = s1.set := by rw [← hs]; rfl
  have hn : s.next = s1.next := by rw [← hs]; rfl
  rw [hset]
  refine ⟨setInsert_sorted E hE _ _ _ h1.sorted, fun y hy => ?_, fun y hy => ?_, h1.recur⟩
  · rcases (setInsert_mem E hE _ _ _ _).mp hy with rfl | hy
    · rw [← hn]; exact hx
    · exact h1.known y hy
  · rcases (setInsert_mem E hE _ _ _ _).mp hy with rfl | hy
    · left
      show (s1.tm y).listed = true
      rw [← hs, upd_self]
    · exact h1.owned y hy

theorem removeTimer_eq (E : Env) (s : TL) (x : Nat) : removeTimer E s x =
    { s.upd x (fun t => { t with listed := false }) with set := setErase E (s.upd x (fun t => { t with listed := false })).tm s.set x } := rfl

theorem removeTimer_tm (E : Env) (s : TL) (x y : Nat) : (removeTimer E s x).tm y = if y = x then { s.tm y with listed := false } else s.tm y := rfl

theorem removeTimer_mem {E} (hE : E.Ok) (s : TL) (x y : Nat) : y ∈ (removeTimer E s x).set ↔ y ∈ s.set ∧ y ≠ x := setErase_mem E hE _ _ _ _

theorem removeTimer_wf {E s} (hE : E.Ok) (h : WF E s) (x : Nat) : WF E (removeTimer E s x) ∧ x ∉ (removeTimer E s x).set := by
  have hsrt : Sorted E (removeTimer E s x).tm s.set := sorted_congr h.sorted (fun y _ => by
    rw [removeTimer_tm]; split <;> rfl)
  refine ⟨⟨setErase_sorted x hsrt, fun y hy => ?_, fun y hy => ?_, fun y => ?_⟩, ?_⟩
  · exact h.known y ((removeTimer_mem hE _ _ _).mp hy).1
  · obtain ⟨h1, h2⟩ := (removeTimer_mem hE _ _ _).mp hy
    rw [removeTimer_tm, if_neg h2]; exact h.owned y h1
  · rw [removeTimer_tm]
    split <;> exact h.recur y
  · intro hx
    exact ((removeTimer_mem hE _ _ _).mp hx).2 rfl

theorem cancel_wf {E s} (hE : E.Ok) (h : WF E s) (x : Nat) : WF E (cancel E s x) := by
  rw [cancel]
  have h1 : WF E (s.upd x (fun t => { t with canceled := true })) := h.upd x _ (fun _ => rfl) (fun _ => .inr rfl) (h.recur x)
  have hcan : ((s.upd x (fun t => { t with canceled := true })).tm x).canceled = true := by rw [upd_self]
  generalize s.upd x (fun t => { t with canceled := true }) = s1 at h1 hcan
  by_cases hl : (s1.tm x).listed = true
  · rw [if_pos hl]
    obtain ⟨h2, h3⟩ := removeTimer_wf hE h1 x
    exact h2.upd x _ (fun hx => absurd hx h3) (fun hx => absurd hx h3) (h2.recur x)
  · rw [if_neg hl]
    exact h1.upd x _ (fun _ => rfl) (fun _ => .inr hcan) (h1.recur x)

theorem setNext_wf {E s} (hE : E.Ok) (h : WF E s) (x : Nat) (hx : x < s.next) (w : Int) : WF E (setNext E s x w).1 := by
  rw [setNext]
  by_cases hc : (s.tm x).canceled = true
  · rw [if_pos hc]; exact h
  · rw [if_neg hc]
    dsimp only
    have key : ∀ r : TL × List Ev, WF E r.1 → WF E (r.1.upd x (fun t => { t with rescheduled := true })) := by
      intro r hr
      refine hr.upd x _ (fun _ => rfl) (fun hx => hr.owned x hx) (hr.recur x)
    apply key
    by_cases hl : (s.tm x).listed = true
    · rw [if_pos hl]
      obtain ⟨h2, h3⟩ := removeTimer_wf hE h x
      have h4 : WF E ((removeTimer E s x).upd x (fun t => { t with when_ := w })) :=
        h2.upd x _ (fun hx => absurd hx h3) (fun hx => absurd hx h3) (h2.recur x)
      exact addTimer_wf hE h4 x hx
    · rw [if_neg hl]
      have hn : x ∉ s.set := fun hx => by
        rcases h.owned x hx with a | a
        · exact hl a
        · exact hc a
      exact h.upd x (fun t => { t with when_ := w }) (fun hx => absurd hx hn) (fun hx => absurd hx hn) (h.recur x)

theorem clamp_ok {E : Env} (hE : E.Ok) (r : Int) : clampRecur E r ≤ 0 ∨ E.minRecur ≤ clampRecur E r := by
  rw [clampRecur]
  have := hE.pos
  split <;> omega

/-- the list with a new timer that isn't in it yet -/
def made (E : Env) (s : TL) (w r : Int) (c : Bool) : TL :=
  { s with next := s.next + 1, tm := fun y => if y = s.next then ⟨w, clampRecur E r, false, false, false, c, false⟩ else s.tm y }

theorem made_other (E : Env) (s : TL) (w r : Int) (c : Bool) {y : Nat} (h : y ≠ s.next) : (made E s w r c).tm y = s.tm y := by rw [made]; exact if_neg h

theorem made_wf {E s} (hE : E.Ok) (h : WF E s) (w r : Int) (c : Bool) : WF E (made E s w r c) := by
  have lt : ∀ y ∈ s.set, y ≠ s.next := fun y hy => by have := h.known y hy; omega
  refine ⟨sorted_congr h.sorted (fun y hy => by rw [made_other _ _ _ _ _ (lt y hy)]), fun y hy => ?_, fun y hy => ?_, fun y => ?_⟩
  · have := h.known y hy
    show y < s.next + 1
    omega
  · rw [made_other _ _ _ _ _ (lt y hy)]; exact h.owned y hy
  · by_cases e : y = s.next
    · rw [made]
      dsimp only
      rw [if_pos e]; exact clamp_ok hE r
    · rw [made_other _ _ _ _ _ e]; exact h.recur y

theorem schedule_eq (E : Env) (s : TL) (w r : Int) (c : Bool) : schedule E s w r c = addTimer E (made E s w r c) s.next := rfl

theorem exec_wf {E s} (hE : E.Ok) (h : WF E s) (c : Cmd) : WF E (exec E s c).1 := by
  cases c with
  | schedule w r c =>
    rw [exec]
    dsimp only
    rw [schedule_eq]
    exact addTimer_wf hE (made_wf hE h w r c) _ (Nat.lt_succ_self _)
  | setNext x w =>
    rw [exec]
    by_cases hx : x < s.next
    · rw [if_pos hx]; exact setNext_wf hE h x hx w
    · rw [if_neg hx]; exact h
  | setRecur x r =>
    rw [exec]
    by_cases hx : x < s.next
    · rw [if_pos hx]; exact h.upd x (fun t => { t with recur := clampRecur E r }) (fun _ => rfl) (fun hx => h.owned x hx) (clamp_ok hE r)
    · rw [if_neg hx]; exact h
  | cancel x =>
    rw [exec]
    by_cases hx : x < s.next
    · rw [if_pos hx]; exact cancel_wf hE h x
    · rw [if_neg hx]; exact h
  | add x =>
    rw [exec]
    by_cases hx : x < s.next ∧ (s.tm x).firing = false
    · rw [if_pos hx]; exact addTimer_wf hE h x hx.1
    · rw [if_neg hx]; exact h
  | remove x =>
    rw [exec]
    by_cases hx : x < s.next
    · rw [if_pos hx]; exact (removeTimer_wf hE h x).1
    · rw [if_neg hx]; exact h
  | clear => exact ⟨List.Pairwise.nil, fun x hx => (by cases hx), fun x hx => (by cases hx), h.recur⟩

theorem execs_wf {E} (hE : E.Ok) (cs : List Cmd) : ∀ s, WF E s → WF E (execs E s cs).1 := by
  induction cs with
  | nil => intro s h; exact h
  | cons c cs ih => intro s h; exact ih _ (exec_wf hE h c)

theorem wakes_only (E : Env) (s : TL) (x : Nat) (e : Ev) (h : e ∈ (addTimer E s x).2) : e = .wake := by
  rw [addTimer] at h
  by_cases hq : (earlier s x && !s.running) = true
  · rw [if_pos hq] at h
    exact List.mem_singleton.mp h
  · rw [if_neg hq] at h
    cases h

theorem wakes_setNext (E : Env) (s : TL) (x : Nat) (w : Int) (e : Ev) (h : e ∈ (setNext E s x w).2) : e = .wake := by
  rw [setNext] at h
  split at h
  · cases h
  · dsimp only at h
    split at h
    · exact wakes_only _ _ _ _ h
    · cases h

/-- the timers after `addTimer` -/
theorem addTimer_tm (E : Env) (s : TL) (x y : Nat) : (addTimer E s x).1.tm y = if y = x then { s.tm y with listed := true } else s.tm y := rfl

/-- the timers after `cancel` -/
theorem cancel_tm (E : Env) (s : TL) (x y : Nat) : (cancel E s x).tm y = if y = x then { s.tm y with canceled := true, listed := false } else s.tm y := by
  rw [cancel]
  by_cases hl : ((s.upd x (fun t => { t with canceled := true })).tm x).listed = true
  · rw [if_pos hl]
    by_cases e : y = x
    · subst e
      rw [upd_self, removeTimer_tm, if_pos rfl, if_pos rfl, upd_self]
    · rw [upd_other _ _ e, removeTimer_tm, if_neg e, if_neg e, upd_other _ _ e]
  · rw [if_neg hl]
    by_cases e : y = x
    · subst e
      rw [upd_self, upd_self, if_pos rfl]
    · rw [upd_other _ _ e, upd_other _ _ e, if_neg e]

theorem cancel_set {E} (hE : E.Ok) (s : TL) (x y : Nat) : (y ∈ (cancel E s x).set → y ∈ s.set) ∧ (y ∈ s.set → y ≠ x → y ∈ (cancel E s x).set) := by
  rw [cancel]
  by_cases hl : ((s.upd x (fun t => { t with canceled := true })).tm x).listed = true
  · rw [if_pos hl, upd_set, removeTimer_eq]
    dsimp only
    exact ⟨fun h => ((setErase_mem E hE _ _ _ _).mp h).1, fun h h' => (setErase_mem E hE _ _ _ _).mpr ⟨h, h'⟩⟩
  · rw [if_neg hl]
    exact ⟨fun h => h, fun h _ => h⟩

theorem cancel_next (E : Env) (s : TL) (x : Nat) : (cancel E s x).next = s.next ∧ (cancel E s x).running = s.running := by
  rw [cancel]
  split <;> exact ⟨rfl, rfl⟩

/-- the timers after `setNext` -/
theorem setNext_tm (E : Env) (s : TL) (x y : Nat) (w : Int) : (setNext E s x w).1.tm y =
    if y = x then (if (s.tm x).canceled then s.tm y else { s.tm y with when_ := w, rescheduled := true }) else s.tm y := by
  rw [setNext]
  by_cases hc : (s.tm x).canceled = true
  · rw [if_pos hc, if_pos hc]; simp
  · rw [if_neg hc, if_neg hc]
    dsimp only
    by_cases hl : (s.tm x).listed = true
    · rw [if_pos hl]
      by_cases e : y = x
      · subst e
        rw [if_pos rfl, upd_self, addTimer_tm, if_pos rfl, upd_self, removeTimer_tm, if_pos rfl, ← hl]
      · rw [if_neg e, upd_other _ _ e, addTimer_tm, if_neg e, upd_other _ _ e, removeTimer_tm, if_neg e]
    · rw [if_neg hl]
      by_cases e : y = x
      · subst e
        rw [if_pos rfl, upd_self, upd_self]
      · rw [if_neg e, upd_other _ _ e, upd_other _ _ e]

theorem setNext_set {E} (hE : E.Ok) (s : TL) (x y : Nat) (w : Int) : (y ∈ (setNext E s x w).1.set → y ∈ s.set ∨ y = x ∧ (s.tm x).canceled = false) ∧ (y ∈ s.set → y ≠ x → y ∈ (setNext E s x w).1.set) := by
  rw [setNext]
  by_cases hc : (s.tm x).canceled = true
  · rw [if_pos hc]; exact ⟨.inl, fun h _ => h⟩
  · rw [if_neg hc]
    dsimp only
    by_cases hl : (s.tm x).listed = true
    · rw [if_pos hl, upd_set, addTimer_eq]
      dsimp only
      rw [setInsert_mem E hE, upd_set, removeTimer_eq]
      dsimp only
      rw [setErase_mem E hE]
      constructor
      · rintro (rfl | h)
        · exact .inr ⟨rfl, by simpa using hc⟩
        · exact .inl h.1
      · exact fun h h' => .inr ⟨h, h'⟩
    · rw [if_neg hl]
      exact ⟨.inl, fun h _ => h⟩

theorem setNext_next (E : Env) (s : TL) (x : Nat) (w : Int) : (setNext E s x w).1.next = s.next ∧ (setNext E s x w).1.running = s.running := by
  rw [setNext]
  split
  · exact ⟨rfl, rfl⟩
  · dsimp only
    split <;> exact ⟨rfl, rfl⟩

theorem exec_frame {E s} (hE : E.Ok) (h : WF E s) (c : Cmd) : Frame s (exec E s c).1 (exec E s c).2 ∧ ∀ x, Ev.cmd (.cancel x) ∈ (exec E s c).2 → x < (exec E s c).1.next := by
  cases c with
  | schedule w r c =>
    rw [exec]
    dsimp only
    rw [schedule_eq]
    have hw := wakes_only E (made E s w r c) s.next
    have htm : ∀ x < s.next, (addTimer E (made E s w r c) s.next).1.tm x = s.tm x := fun x hx => by
      have : x ≠ s.next := by omega
      rw [addTimer_tm, if_neg this, made_other _ _ _ _ _ this]
    have hset : ∀ x, x ∈ (addTimer E (made E s w r c) s.next).1.set ↔ x = s.next ∨ x ∈ s.set := by
      intro x; rw [addTimer_eq]; exact setInsert_mem E hE _ _ _ _
    refine ⟨⟨Nat.le_succ _, fun x hx => .inl (by rw [htm x hx]), fun x hx a => by rw [htm x hx]; exact a, fun x hx => by rw [htm x hx], fun x hx => by rw [htm x hx],
      fun x hx a => by rw [htm x hx]; exact a, fun x hx a => .inl (by rw [htm x hx] at a; exact a), ?_, ?_, fun x hx _ => (hset x).mpr (.inr hx), ?_, rfl, fun x hx => .inl (by rw [htm x hx]), fun x hx => .inl (by rw [htm x hx])⟩, ?_⟩
    · intro x hx
      rcases List.mem_cons.mp hx with a | a
      · cases a
      · cases hw _ a
    · intro x d n hx
      rcases List.mem_cons.mp hx with a | a
      · cases a
      · cases hw _ a
    · intro x hx a
      rcases (hset x).mp a with b | b
      · omega
      · exact .inl b
    · intro x hx
      rcases List.mem_cons.mp hx with a | a
      · cases a
      · cases hw _ a
  | setNext x w =>
    rw [exec]
    by_cases hx : x < s.next
    · rw [if_pos hx]
      dsimp only
      have hw := wakes_setNext E s x w
      obtain ⟨n1, n2⟩ := setNext_next E s x w
      have htm := fun y => setNext_tm E s x y w
      have hset := fun y => setNext_set hE s x y w
      refine ⟨⟨by rw [n1]; exact Nat.le_refl _, fun y hy => ?_, fun y hy a => ?_, fun y hy => ?_, fun y hy => ?_, fun y hy a => ?_, fun y hy a => ?_, ?_, ?_, fun y hy ht => ?_, fun y hy a => ?_, n2, fun y hy => .inl (by rw [htm]; split; (split <;> rfl); rfl), fun y hy => ?_⟩, ?_⟩
      · by_cases e : y = x
        · subst e; exact .inr ⟨w, List.mem_cons_self⟩
        · left; rw [htm, if_neg e]
      · rw [htm]
        split
        · split <;> exact a
        · exact a
      · rw [htm]; split
        · split <;> rfl
        · rfl
      · rw [htm]; split
        · split <;> rfl
        · rfl
      · rw [htm]; split
        · split
          · exact a
          · rfl
        · exact a
      · by_cases e : y = x
        · subst e; exact .inr ⟨w, List.mem_cons_self⟩
        · left; rw [htm, if_neg e] at a; exact a
      · intro y hy
        rcases List.mem_cons.mp hy with a | a
        · cases a
        · cases hw _ a
      · intro y d n hy
        rcases List.mem_cons.mp hy with a | a
        · cases a
        · cases hw _ a
      · have := ht _ List.mem_cons_self
        simp only [touches, decide_eq_false_iff_not] at this
        exact (hset y).2 hy (fun e => this e.symm)
      · rcases (hset y).1 a with b | ⟨rfl, b⟩
        · exact .inl b
        · right; left
          rw [htm, if_pos rfl, if_neg (by rw [b]; exact Bool.false_ne_true)]
      · rw [htm]; split
        · split
          · exact .inl rfl
          · exact .inr rfl
        · exact .inl rfl
      · intro y hy
        rcases List.mem_cons.mp hy with a | a
        · cases a
        · cases hw _ a
    · rw [if_neg hx]; exact ⟨Frame.refl s, fun _ h => (by cases h)⟩
  | setRecur x r =>
    rw [exec]
    by_cases hx : x < s.next
    · rw [if_pos hx]
      dsimp only
      have htm : ∀ y, ((s.upd x (fun t => { t with recur := clampRecur E r })).tm y) = if y = x then { s.tm y with recur := clampRecur E r } else s.tm y := fun y => rfl
      refine ⟨⟨Nat.le_refl _, fun y hy => .inl ?_, fun y hy a => ?_, fun y hy => ?_, fun y hy => ?_, fun y hy a => ?_, fun y hy a => .inl ?_, ?_, ?_, fun y hy _ => hy, fun y hy a => .inl a, rfl, fun y hy => ?_, fun y hy => .inl (by rw [htm]; split <;> rfl)⟩, ?_⟩
      · rw [htm]; split <;> rfl
      · rw [htm]; split <;> exact a
      · rw [htm]; split <;> rfl
      · rw [htm]; split <;> rfl
      · rw [htm]; split <;> exact a
      · rw [htm] at a; split at a <;> exact a
      · intro y hy; simp at hy
      · intro y d n hy; simp at hy
      · by_cases e : y = x
        · subst e; exact .inr ⟨r, List.mem_singleton.mpr rfl⟩
        · left; rw [htm, if_neg e]
      · intro y hy; simp at hy
    · rw [if_neg hx]; exact ⟨Frame.refl s, fun _ h => (by cases h)⟩
  | cancel x =>
    rw [exec]
    by_cases hx : x < s.next
    · rw [if_pos hx]
      dsimp only
      have htm := fun y => cancel_tm E s x y
      have hset := fun y => cancel_set hE s x y
      obtain ⟨n1, n2⟩ := cancel_next E s x
      refine ⟨⟨by rw [n1]; exact Nat.le_refl _, fun y hy => .inl ?_, fun y hy a => ?_, fun y hy => ?_, fun y hy => ?_, fun y hy a => ?_, fun y hy a => .inl ?_, ?_, ?_, fun y hy ht => ?_, fun y hy a => .inl ((hset y).1 a), n2, fun y hy => .inl (by rw [htm]; split <;> rfl), fun y hy => .inl (by rw [htm]; split <;> rfl)⟩, ?_⟩
      · rw [htm]; split <;> rfl
      · rw [htm]; split
        · rfl
        · exact a
      · rw [htm]; split <;> rfl
      · rw [htm]; split <;> rfl
      · rw [htm]; split <;> exact a
      · rw [htm] at a; split at a <;> exact a
      · intro y hy
        simp only [List.mem_singleton, Ev.cmd.injEq, Cmd.cancel.injEq] at hy
        rw [htm, if_pos hy]
      · intro y d n hy; simp at hy
      · have := ht _ (List.mem_singleton.mpr rfl)
        simp only [touches, decide_eq_false_iff_not] at this
        exact (hset y).2 hy (fun e => this e.symm)
      · intro y hy
        simp only [List.mem_singleton, Ev.cmd.injEq, Cmd.cancel.injEq] at hy
        rw [n1, hy]; exact hx
    · rw [if_neg hx]; exact ⟨Frame.refl s, fun _ h => (by cases h)⟩
  | add x =>
    rw [exec]
    by_cases hx : x < s.next ∧ (s.tm x).firing = false
    · rw [if_pos hx]
      dsimp only
      have hw := wakes_only E s x
      have htm := fun y => addTimer_tm E s x y
      have hset : ∀ y, y ∈ (addTimer E s x).1.set ↔ y = x ∨ y ∈ s.set := by
        intro x; rw [addTimer_eq]; exact setInsert_mem E hE _ _ _ _
      refine ⟨⟨Nat.le_refl _, fun y hy => .inl ?_, fun y hy a => ?_, fun y hy => ?_, fun y hy => ?_, fun y hy a => ?_, fun y hy a => .inl ?_, ?_, ?_, fun y hy _ => (hset y).mpr (.inr hy), fun y hy a => ?_, rfl, fun y hy => .inl (by rw [htm]; split <;> rfl), fun y hy => .inl (by rw [htm]; split <;> rfl)⟩, ?_⟩
      · rw [htm]; split <;> rfl
      · rw [htm]; split <;> exact a
      · rw [htm]; split <;> rfl
      · rw [htm]; split <;> rfl
      · rw [htm]; split <;> exact a
      · rw [htm] at a; split at a <;> exact a
      · intro y hy
        rcases List.mem_cons.mp hy with a | a
        · cases a
        · cases hw _ a
      · intro y d n hy
        rcases List.mem_cons.mp hy with a | a
        · cases a
        · cases hw _ a
      · rcases (hset y).mp a with b | b
        · rw [b]; exact .inr (.inr hx.2)
        · exact .inl b
      · intro y hy
        rcases List.mem_cons.mp hy with a | a
        · cases a
        · cases hw _ a
    · rw [if_neg hx]; exact ⟨Frame.refl s, fun _ h => (by cases h)⟩
  | remove x =>
    rw [exec]
    by_cases hx : x < s.next
    · rw [if_pos hx]
      dsimp only
      have htm := fun y => removeTimer_tm E s x y
      have hset : ∀ y, y ∈ (removeTimer E s x).set ↔ y ∈ s.set ∧ y ≠ x := by
        intro y; rw [removeTimer_eq]; exact setErase_mem E hE _ _ _ _
      refine ⟨⟨Nat.le_refl _, fun y hy => .inl ?_, fun y hy a => ?_, fun y hy => ?_, fun y hy => ?_, fun y hy a => ?_, fun y hy a => .inl ?_, ?_, ?_, fun y hy ht => ?_, fun y hy a => .inl ((hset y).mp a).1, rfl, fun y hy => .inl (by rw [htm]; split <;> rfl), fun y hy => .inl (by rw [htm]; split <;> rfl)⟩, ?_⟩
      · rw [htm]; split <;> rfl
      · rw [htm]; split <;> exact a
      · rw [htm]; split <;> rfl
      · rw [htm]; split <;> rfl
      · rw [htm]; split <;> exact a
      · rw [htm] at a; split at a <;> exact a
      · intro y hy; simp at hy
      · intro y d n hy; simp at hy
      · have := ht _ (List.mem_singleton.mpr rfl)
        simp only [touches, decide_eq_false_iff_not] at this
        exact (hset y).mpr ⟨hy, fun e => this e.symm⟩
      · intro y hy; simp at hy
    · rw [if_neg hx]; exact ⟨Frame.refl s, fun _ h => (by cases h)⟩
  | clear =>
    rw [exec]
    refine ⟨⟨Nat.le_refl _, fun y hy => .inl rfl, fun y hy a => a, fun y hy => rfl, fun y hy => rfl, fun y hy a => a, fun y hy a => .inl a, ?_, ?_, fun y hy ht => ?_, fun y hy a => (by cases a), rfl, fun y hy => .inl rfl, fun y hy => .inl rfl⟩, ?_⟩
    · intro y hy; simp at hy
    · intro y d n hy; simp at hy
    · have := ht _ (List.mem_singleton.mpr rfl)
      cases this
    · intro y hy; simp at hy

theorem execs_frame {E} (hE : E.Ok) (cs : List Cmd) : ∀ s, WF E s → Frame s (execs E s cs).1 (execs E s cs).2 ∧ ∀ x, Ev.cmd (.cancel x) ∈ (execs E s cs).2 → x < (execs E s cs).1.next := by
  induction cs with
  | nil => intro s h; exact ⟨Frame.refl s, fun _ h => (by cases h)⟩
  | cons c cs ih =>
    intro s h
    obtain ⟨f1, k1⟩ := exec_frame hE h c
    obtain ⟨f2, k2⟩ := ih _ (exec_wf hE h c)
    refine ⟨f1.trans f2 k1, fun x hx => ?_⟩
    rcases List.mem_append.mp hx with a | a
    · exact Nat.lt_of_lt_of_le (k1 x a) f2.next_le
    · exact k2 x a

/-- commands that put timers into the list only for times with `P`, and don't put back any -/
def CmdOk (P : Int → Prop) : Cmd → Prop
  | .schedule w _ _ => P w
  | .setNext _ w => P w
  | .add _ => False
  | _ => True

theorem exec_entries {E s} (hE : E.Ok) (h : WF E s) (P : Int → Prop) (c : Cmd) (hc : CmdOk P c) :
    ∀ y ∈ (exec E s c).1.set, (y ∈ s.set ∧ ((exec E s c).1.tm y).when_ = (s.tm y).when_) ∨ P ((exec E s c).1.tm y).when_ := by
  intro y hy
  cases c with
  | schedule w r c =>
    rw [exec] at hy ⊢
    dsimp only at hy ⊢
    rw [schedule_eq] at hy ⊢
    rw [addTimer_tm]
    rcases (setInsert_mem E hE _ _ _ _).mp (show y ∈ setInsert E _ s.set s.next from hy) with e | hy
    · rw [if_pos e]
      right
      have : ((made E s w r c).tm y).when_ = w := by
        show (if y = s.next then _ else _ : Timer).when_ = w
        rw [if_pos e]
      rw [← this] at hc
      exact hc
    · have := h.known y hy
      rw [if_neg (by omega), made_other _ _ _ _ _ (by omega)]
      exact .inl ⟨hy, rfl⟩
  | setNext x w =>
    rw [exec] at hy ⊢
    by_cases hx : x < s.next
    · rw [if_pos hx] at hy ⊢
      dsimp only at hy ⊢
      rw [setNext_tm]
      by_cases e : y = x
      · rw [if_pos e]
        by_cases hcan : (s.tm x).canceled = true
        · rw [if_pos hcan]
          rcases (setNext_set hE s x y w).1 hy with a | a
          · exact .inl ⟨a, rfl⟩
          · rw [a.2] at hcan; cases hcan
        · rw [if_neg hcan]; exact .inr hc
      · rw [if_neg e]
        rcases (setNext_set hE s x y w).1 hy with a | a
        · exact .inl ⟨a, rfl⟩
        · exact absurd a.1 e
    · rw [if_neg hx] at hy ⊢
      exact .inl ⟨hy, rfl⟩
  | setRecur x r =>
    rw [exec] at hy ⊢
    by_cases hx : x < s.next
    · rw [if_pos hx] at hy ⊢
      refine .inl ⟨hy, ?_⟩
      by_cases e : y = x
      · subst e; dsimp only; rw [upd_self]
      · dsimp only; rw [upd_other _ _ e]
    · rw [if_neg hx] at hy ⊢
      exact .inl ⟨hy, rfl⟩
  | cancel x =>
    rw [exec] at hy ⊢
    by_cases hx : x < s.next
    · rw [if_pos hx] at hy ⊢
      refine .inl ⟨(cancel_set hE s x y).1 hy, ?_⟩
      dsimp only
      rw [cancel_tm]; split <;> rfl
    · rw [if_neg hx] at hy ⊢
      exact .inl ⟨hy, rfl⟩
  | add x => exact hc.elim
  | remove x =>
    rw [exec] at hy ⊢
    by_cases hx : x < s.next
    · rw [if_pos hx] at hy ⊢
      refine .inl ⟨((removeTimer_mem hE s x y).mp hy).1, ?_⟩
      dsimp only
      rw [removeTimer_tm]; split <;> rfl
    · rw [if_neg hx] at hy ⊢
      exact .inl ⟨hy, rfl⟩
  | clear => cases hy

theorem execs_entries {E} (hE : E.Ok) (P : Int → Prop) (cs : List Cmd) : ∀ s, WF E s → (∀ c ∈ cs, CmdOk P c) →
    ∀ y ∈ (execs E s cs).1.set, (y ∈ s.set ∧ ((execs E s cs).1.tm y).when_ = (s.tm y).when_) ∨ P ((execs E s cs).1.tm y).when_ := by
  induction cs with
  | nil => intro s _ _ y hy; exact .inl ⟨hy, rfl⟩
  | cons c cs ih =>
    intro s h hc y hy
    rcases ih _ (exec_wf hE h c) (fun c hc' => hc c (List.mem_cons_of_mem _ hc')) y hy with ⟨a, b⟩ | a
    · rcases exec_entries hE h P c (hc c List.mem_cons_self) y a with ⟨a', b'⟩ | a'
      · exact .inl ⟨a', by rw [← b']; exact b⟩
      · right
        rw [← b] at a'
        exact a'
    · exact .inr a

theorem canceled_kept {E s c x} (hE : E.Ok) (h : WF E s) (hx : x < s.next) (hq : ∀ e ∈ (exec E s c).2, touches x e = false)
    (hc : (s.tm x).canceled = false) : ((exec E s c).1.tm x).canceled = false := by
  cases c with
  | schedule w r c =>
    rw [exec]; dsimp only
    have : x ≠ s.next := by omega
    rw [schedule_eq, addTimer_tm, if_neg this, made_other _ _ _ _ _ this]; exact hc
  | setNext y w =>
    rw [exec]
    split
    · dsimp only; rw [setNext_tm]
      split
      · split <;> exact hc
      · exact hc
    · exact hc
  | setRecur y r =>
    rw [exec]
    split
    · show (if x = y then _ else _ : Timer).canceled = false
      split <;> exact hc
    · exact hc
  | cancel y =>
    rw [exec] at hq ⊢
    split
    · rename_i hy
      rw [if_pos hy] at hq
      dsimp only; rw [cancel_tm]
      have := hq _ List.mem_cons_self
      simp only [touches, decide_eq_false_iff_not] at this
      rw [if_neg (fun e => this e.symm)]
      exact hc
    · exact hc
  | add y =>
    rw [exec]
    split
    · dsimp only; rw [addTimer_tm]; split <;> exact hc
    · exact hc
  | remove y =>
    rw [exec]
    split
    · dsimp only; rw [removeTimer_tm]; split <;> exact hc
    · exact hc
  | clear => exact hc

theorem canceled_kepts {E x} (hE : E.Ok) (cs : List Cmd) : ∀ s, WF E s → x < s.next → (∀ e ∈ (execs E s cs).2, touches x e = false) →
    (s.tm x).canceled = false → ((execs E s cs).1.tm x).canceled = false := by
  induction cs with
  | nil => intro s _ _ _ h; exact h
  | cons c cs ih =>
    intro s h hx hq hc
    rw [execs] at hq
    dsimp only at hq
    exact ih _ (exec_wf hE h c) (Nat.lt_of_lt_of_le hx (exec_frame hE h c).1.next_le) (fun e he => hq e (List.mem_append_right _ he))
      (canceled_kept hE h hx (fun e he => hq e (List.mem_append_left _ he)) hc)

theorem listed_kept {E s c x} (hE : E.Ok) (h : WF E s) (hx : x < s.next) (hq : ∀ e ∈ (exec E s c).2, touches x e = false)
    (hc : (s.tm x).listed = true) : ((exec E s c).1.tm x).listed = true := by
  cases c with
  | schedule w r c =>
    rw [exec]; dsimp only
    have : x ≠ s.next := by omega
    rw [schedule_eq, addTimer_tm, if_neg this, made_other _ _ _ _ _ this]; exact hc
  | setNext y w =>
    rw [exec]
    split
    · dsimp only; rw [setNext_tm]
      split
      · split
        · exact hc
        · first | exact hc | rfl
      · exact hc
    · exact hc
  | setRecur y r =>
    rw [exec]
    split
    · show (if x = y then _ else _ : Timer).listed = true
      split <;> exact hc
    · exact hc
  | cancel y =>
    rw [exec] at hq ⊢
    split
    · rename_i hy
      rw [if_pos hy] at hq
      dsimp only; rw [cancel_tm]
      have := hq _ List.mem_cons_self
      simp only [touches, decide_eq_false_iff_not] at this
      rw [if_neg (fun e => this e.symm)]
      exact hc
    · exact hc
  | add y =>
    rw [exec]
    split
    · dsimp only; rw [addTimer_tm]; split <;> first | rfl | exact hc
    · exact hc
  | remove y =>
    rw [exec] at hq ⊢
    split
    · rename_i hy
      rw [if_pos hy] at hq
      dsimp only; rw [removeTimer_tm]
      have := hq _ List.mem_cons_self
      simp only [touches, decide_eq_false_iff_not] at this
      rw [if_neg (fun e => this e.symm)]
      exact hc
    · exact hc
  | clear => exact hc

theorem listed_kepts {E x} (hE : E.Ok) (cs : List Cmd) : ∀ s, WF E s → x < s.next → (∀ e ∈ (execs E s cs).2, touches x e = false) →
    (s.tm x).listed = true → ((execs E s cs).1.tm x).listed = true := by
  induction cs with
  | nil => intro s _ _ _ h; exact h
  | cons c cs ih =>
    intro s h hx hq hc
    rw [execs] at hq
    dsimp only at hq
    exact ih _ (exec_wf hE h c) (Nat.lt_of_lt_of_le hx (exec_frame hE h c).1.next_le) (fun e he => hq e (List.mem_append_right _ he))
      (listed_kept hE h hx (fun e he => hq e (List.mem_append_left _ he)) hc)

/-- what a timer's run does -/
structure Fired (E : Env) (act : List Cmd) (s s' : TL) (x : Nat) (now : Int) (ev : List Ev) : Prop where
  wf : WF E s'
  due : (s.tm x).when_ ≤ now
  alive : (s.tm x).canceled = false
  next_le : s.next ≤ s'.next
  when_ : ∀ y < s.next, y ≠ x → (s'.tm y).when_ = (s.tm y).when_ ∨ ∃ w, Ev.cmd (.setNext y w) ∈ ev
  canceled : ∀ y < s.next, (s.tm y).canceled = true → (s'.tm y).canceled = true
  catchup : ∀ y < s.next, (s'.tm y).catchup = (s.tm y).catchup
  recur : ∀ y < s.next, (s'.tm y).recur = (s.tm y).recur ∨ ∃ r, Ev.cmd (.setRecur y r) ∈ ev
  cancels : ∀ y, Ev.cmd (.cancel y) ∈ ev → (s'.tm y).canceled = true ∧ y < s'.next
  quiet : ∀ y d n, Ev.fire y d n ∉ ev
  live : ∀ y < s.next, y ≠ x → (∀ e ∈ ev, touches y e = false) → (s.tm y).canceled = false → (s'.tm y).canceled = false
  stays : ∀ y ∈ s.set, y ≠ x → (∀ e ∈ ev, touches y e = false) → y ∈ s'.set
  again : (s'.tm x).canceled = true ∨ (∃ w, Ev.cmd (.setNext x w) ∈ ev) ∨
    (0 < (s'.tm x).recur ∧ (s.tm x).when_ < (s'.tm x).when_ ∧ ((s.tm x).catchup = true → now ≤ (s'.tm x).when_))
  requeued : (s.tm x).listed = true → (∀ e ∈ ev, touches x e = false) → 0 < (s'.tm x).recur → x ∈ s'.set ∧ (s'.tm x).canceled = false
  running : s'.running = s.running
  entries : ∀ P : Int → Prop, (∀ c ∈ act, CmdOk P c) → ∀ y ∈ s'.set,
    (y ∈ s.set ∧ y ≠ x ∧ (s'.tm y).when_ = (s.tm y).when_) ∨ P (s'.tm y).when_ ∨ (y = x ∧ (s.tm x).when_ < (s'.tm x).when_)

theorem nextDue_later (t : Timer) (now : Int) (hr : 0 < t.recur) : t.when_ < nextDue t now ∧ (t.catchup = true → now ≤ nextDue t now) := by
  rw [nextDue]
  by_cases h : now > t.when_ ∧ t.catchup = true
  · rw [if_pos h]
    have h1 : 0 < now - t.when_ := by omega
    generalize hg : now - t.when_ = g at h1 ⊢
    have hmod := Int.emod_add_mul_ediv (g + t.recur - 1) t.recur
    have hlt := Int.emod_lt_of_pos (g + t.recur - 1) hr
    have hnn := Int.emod_nonneg (g + t.recur - 1) (show t.recur ≠ 0 by omega)
    rw [Int.mul_comm] at hmod
    constructor <;> omega
  · rw [if_neg h]
    constructor
    · omega
    · intro hc
      have : ¬ now > t.when_ := fun hn => h ⟨hn, hc⟩
      omega

theorem basicFire_spec {E s} (hE : E.Ok) (h : WF E s) (act : List Ev → List Cmd) (tr : List Ev) (x : Nat) (xs : List Nat) (hset : s.set = x :: xs) (now : Int)
    (hdue : (s.tm x).when_ ≤ now) (hal : (s.tm x).canceled = false) :
    ∃ s' ev, basicFire E act { s with set := xs } tr x now = (s', tr ++ Ev.fire x (s.tm x).when_ now :: ev) ∧
      Fired E (act (tr ++ [.fire x (s.tm x).when_ now])) s s' x now ev := by
  have hxn : x < s.next := h.known x (by rw [hset]; exact List.mem_cons_self)
  have hsrt := h.sorted
  rw [hset] at hsrt
  have hnd := hsrt.nodup
  have hnot : x ∉ xs := (List.nodup_cons.mp hnd).1
  have sub : ∀ y ∈ xs, y ∈ s.set := fun y hy => by rw [hset]; exact List.mem_cons_of_mem _ hy
  have w0 : WF E { s with set := xs } := ⟨(List.pairwise_cons.mp hsrt).2, fun y hy => h.known y (sub y hy), fun y hy => h.owned y (sub y hy), h.recur⟩
  rw [basicFire, if_neg (by show ¬ (s.tm x).canceled = true; rw [hal]; exact Bool.false_ne_true)]
  dsimp only
  have w1 : WF E (TL.upd { s with set := xs } x (fun t => { t with rescheduled := false, firing := true })) :=
    w0.upd x _ (fun hx => absurd hx hnot) (fun hx => absurd hx hnot) (h.recur x)
  have t1 : ∀ y, (TL.upd { s with set := xs } x (fun t => { t with rescheduled := false, firing := true })).tm y =
      if y = x then { s.tm y with rescheduled := false, firing := true } else s.tm y := fun y => rfl
  have n1 : (TL.upd { s with set := xs } x (fun t => { t with rescheduled := false, firing := true })).next = s.next := rfl
  have e1 : (TL.upd { s with set := xs } x (fun t => { t with rescheduled := false, firing := true })).set = xs := rfl
  have r1 : (TL.upd { s with set := xs } x (fun t => { t with rescheduled := false, firing := true })).running = s.running := rfl
  generalize TL.upd { s with set := xs } x (fun t => { t with rescheduled := false, firing := true }) = s1 at w1 t1 n1 e1 r1
  generalize hcs : act (tr ++ [Ev.fire x (s.tm x).when_ now]) = cs
  obtain ⟨F, K⟩ := execs_frame hE cs s1 w1
  have w2 := execs_wf hE cs s1 w1
  have en := fun P => execs_entries hE P cs s1 w1
  have lv := fun y => canceled_kepts (x := y) hE cs s1 w1
  have ll := listed_kepts (x := x) hE cs s1 w1
  generalize execs E s1 cs = q at F K w2 en lv ll
  obtain ⟨s2, ev⟩ := q
  dsimp only at F K w2 en lv ll ⊢
  have hxn1 : x < s1.next := by rw [n1]; exact hxn
  -- after the action
  have hout : (s2.tm x).rescheduled = false → x ∉ s2.set := by
    intro hr hx
    rcases F.enters x hxn1 hx with a | a | a
    · rw [e1] at a; exact hnot a
    · rw [hr] at a; cases a
    · rw [t1, if_pos rfl] at a; cases a
  have fin : ∃ s3 ev3, afterAction E s2 x now = (s3, ev3) ∧ WF E s3 ∧ s3.next = s2.next ∧ s3.running = s2.running ∧ (∀ e ∈ ev3, e = Ev.wake) ∧
      (∀ y, y ≠ x → s3.tm y = s2.tm y) ∧ (s3.tm x).catchup = (s2.tm x).catchup ∧ (s3.tm x).recur = (s2.tm x).recur ∧
      ((s2.tm x).canceled = true → (s3.tm x).canceled = true) ∧ (∀ y ∈ s2.set, y ≠ x → y ∈ s3.set) ∧ (∀ y ∈ s3.set, y ≠ x → y ∈ s2.set) ∧
      ((s2.tm x).rescheduled = false → 0 < (s2.tm x).recur → (s2.tm x).canceled = false → (s2.tm x).listed = true → x ∈ s3.set ∧ (s3.tm x).canceled = false) ∧
      (((s2.tm x).rescheduled = true ∧ (s3.tm x).when_ = (s2.tm x).when_ ∧ (x ∈ s3.set → x ∈ s2.set)) ∨ ((s3.tm x).canceled = true ∧ x ∉ s3.set) ∨
        ((s2.tm x).rescheduled = false ∧ 0 < (s2.tm x).recur ∧ (s3.tm x).when_ = nextDue { s2.tm x with firing := false } now)) := by
    rw [afterAction]
    have w3 : WF E (s2.upd x (fun t => { t with firing := false })) := w2.upd x _ (fun _ => rfl) (fun hx => w2.owned x hx) (w2.recur x)
    have t3 : ∀ y, (s2.upd x (fun t => { t with firing := false })).tm y = if y = x then { s2.tm y with firing := false } else s2.tm y := fun y => rfl
    have n3 : (s2.upd x (fun t => { t with firing := false })).next = s2.next := rfl
    have e3 : (s2.upd x (fun t => { t with firing := false })).set = s2.set := rfl
    have r3 : (s2.upd x (fun t => { t with firing := false })).running = s2.running := rfl
    generalize s2.upd x (fun t => { t with firing := false }) = s3 at w3 t3 n3 e3 r3
    have t3x : s3.tm x = { s2.tm x with firing := false } := by rw [t3, if_pos rfl]
    dsimp only
    by_cases hc : (decide ((s3.tm x).recur > 0) && !(s3.tm x).canceled || (s3.tm x).rescheduled) = true
    · rw [if_pos hc]
      by_cases hr : (s3.tm x).rescheduled = true
      · have hr2 : (s2.tm x).rescheduled = true := by rw [t3x] at hr; exact hr
        rw [if_neg (by rw [hr]; decide)]
        exact ⟨s3, [], rfl, w3, n3, r3, fun e he => (by cases he), fun y hy => by rw [t3, if_neg hy], by rw [t3x], by rw [t3x], fun a => by rw [t3x]; exact a,
          fun y hy _ => by rw [e3]; exact hy, fun y hy _ => by rw [e3] at hy; exact hy, fun q => (by rw [hr2] at q; cases q), .inl ⟨hr2, by rw [t3x], fun a => by rw [e3] at a; exact a⟩⟩
      · rw [if_pos (by rw [Bool.not_eq_true] at hr; rw [hr]; rfl)]
        have hr2 : (s2.tm x).rescheduled = false := by rw [t3x] at hr; simpa using hr
        have hn3 : x ∉ s3.set := by rw [e3]; exact hout hr2
        have w4 : WF E (s3.upd x (fun t => { t with when_ := nextDue t now })) := w3.upd x _ (fun hx => absurd hx hn3) (fun hx => absurd hx hn3) (w3.recur x)
        have hrec : 0 < (s2.tm x).recur := by
          rw [Bool.not_eq_true] at hr
          rw [hr, Bool.or_false, Bool.and_eq_true_iff, decide_eq_true_iff, t3x] at hc
          exact hc.1
        have n4 : (s3.upd x (fun t => { t with when_ := nextDue t now })).next = s3.next := rfl
        have e4 : (s3.upd x (fun t => { t with when_ := nextDue t now })).set = s3.set := rfl
        have r4 : (s3.upd x (fun t => { t with when_ := nextDue t now })).running = s3.running := rfl
        have t4x : (s3.upd x (fun t => { t with when_ := nextDue t now })).tm x = { s3.tm x with when_ := nextDue (s3.tm x) now } := upd_self _ _ _
        have t4 : ∀ y, y ≠ x → (s3.upd x (fun t => { t with when_ := nextDue t now })).tm y = s3.tm y := fun y hy => upd_other _ _ hy
        generalize s3.upd x (fun t => { t with when_ := nextDue t now }) = s4 at w4 n4 e4 r4 t4 t4x
        by_cases hl : (s4.tm x).listed = true
        · rw [if_pos hl]
          refine ⟨(addTimer E s4 x).1, (addTimer E s4 x).2, rfl, addTimer_wf hE w4 x ?_, ?_, ?_, wakes_only E s4 x, ?_, ?_, ?_, ?_, ?_, ?_, fun _ _ q _ => ⟨(setInsert_mem E hE _ _ _ _).mpr (.inl rfl), by rw [addTimer_tm, if_pos rfl, t4x, t3x]; exact q⟩, .inr (.inr ⟨hr2, hrec, ?_⟩)⟩
          · rw [n4, n3]; exact Nat.lt_of_lt_of_le hxn1 F.next_le
          · show s4.next = _
            rw [n4, n3]
          · show s4.running = _
            rw [r4, r3]
          · intro y hy; rw [addTimer_tm, if_neg hy, t4 y hy, t3, if_neg hy]
          · rw [addTimer_tm, if_pos rfl, t4x, t3x]
          · rw [addTimer_tm, if_pos rfl, t4x, t3x]
          · intro a; rw [addTimer_tm, if_pos rfl, t4x, t3x]; exact a
          · intro y hy _
            refine (setInsert_mem E hE _ _ _ _).mpr (.inr ?_)
            show y ∈ s4.set
            rw [e4, e3]; exact hy
          · intro y hy hne
            rcases (setInsert_mem E hE _ _ _ _).mp (show y ∈ setInsert E _ s4.set x from hy) with a | a
            · exact absurd a hne
            · rw [e4, e3] at a; exact a
          · rw [addTimer_tm, if_pos rfl, t4x, t3x]
        · rw [if_neg hl]
          exact ⟨s4, [], rfl, w4, by rw [n4, n3], by rw [r4, r3], fun e he => (by cases he), fun y hy => by rw [t4 y hy, t3, if_neg hy], by rw [t4x, t3x], by rw [t4x, t3x],
            fun a => by rw [t4x, t3x]; exact a, fun y hy _ => by rw [e4, e3]; exact hy, fun y hy _ => by rw [e4, e3] at hy; exact hy, fun _ _ _ q => absurd (by rw [t4x, t3x]; exact q) hl, .inr (.inr ⟨hr2, hrec, by rw [t4x, t3x]⟩)⟩
    · rw [if_neg hc]
      rw [Bool.not_eq_true, Bool.or_eq_false_iff] at hc
      have hr2 : (s2.tm x).rescheduled = false := by have := hc.2; rw [t3x] at this; exact this
      have hn3 : x ∉ s3.set := by rw [e3]; exact hout hr2
      have w4 : WF E (s3.upd x (fun t => { t with listed := false })) := w3.upd x _ (fun hx => absurd hx hn3) (fun hx => absurd hx hn3) (w3.recur x)
      have n4 : (s3.upd x (fun t => { t with listed := false })).next = s3.next := rfl
      have e4 : (s3.upd x (fun t => { t with listed := false })).set = s3.set := rfl
      have r4 : (s3.upd x (fun t => { t with listed := false })).running = s3.running := rfl
      have t4x : (s3.upd x (fun t => { t with listed := false })).tm x = { s3.tm x with listed := false } := upd_self _ _ _
      have t4 : ∀ y, y ≠ x → (s3.upd x (fun t => { t with listed := false })).tm y = s3.tm y := fun y hy => upd_other _ _ hy
      generalize s3.upd x (fun t => { t with listed := false }) = s4 at w4 n4 e4 r4 t4 t4x
      obtain ⟨m1, m2⟩ := cancel_next E s4 x
      refine ⟨_, [], rfl, cancel_wf hE w4 x, by rw [m1, n4, n3], by rw [m2, r4, r3], fun e he => (by cases he), fun y hy => by rw [cancel_tm, if_neg hy, t4 y hy, t3, if_neg hy],
        by rw [cancel_tm, if_pos rfl, t4x, t3x], by rw [cancel_tm, if_pos rfl, t4x, t3x], fun _ => by rw [cancel_tm, if_pos rfl],
        fun y hy hne => (cancel_set hE s4 x y).2 (by rw [e4, e3]; exact hy) hne, fun y hy _ => by have := (cancel_set hE s4 x y).1 hy; rw [e4, e3] at this; exact this, ?_, .inr (.inl ⟨?_, ?_⟩)⟩
      · intro _ q1 q2 _
        have := hc.1
        rw [t3x] at this
        simp only [q2, Bool.not_false, Bool.and_true, decide_eq_false_iff_not] at this
        exact absurd q1 this
      · rw [cancel_tm, if_pos rfl]
      · intro hx
        have := (cancel_set hE s4 x x).1 hx
        rw [e4] at this
        exact hn3 this
  obtain ⟨s3, ev3, a0, a1, a2, a3, a4, a5, a6, a6', a7, a8, a9, a11, a10⟩ := fin
  rw [a0]
  have t1w : ∀ y, (s1.tm y).when_ = (s.tm y).when_ := fun y => by rw [t1]; split <;> rfl
  have t1c : ∀ y, (s1.tm y).canceled = (s.tm y).canceled := fun y => by rw [t1]; split <;> rfl
  have t1k : ∀ y, (s1.tm y).catchup = (s.tm y).catchup := fun y => by rw [t1]; split <;> rfl
  have t1r : ∀ y, (s1.tm y).recur = (s.tm y).recur := fun y => by rw [t1]; split <;> rfl
  have lt2 : ∀ y < s.next, y < s1.next := fun y hy => by rw [n1]; exact hy
  refine ⟨s3, ev ++ ev3, by simp, ?_⟩
  refine ⟨a1, hdue, hal, by rw [a2, ← n1]; exact F.next_le, ?_, ?_, ?_, ?_, ?_, ?_, ?_, ?_, ?_, ?_, by rw [a3, F.running, r1], ?_⟩
  · intro y hy hne
    rw [a5 y hne]
    rcases F.when_ y (lt2 y hy) with b | ⟨w, b⟩
    · left; rw [b, t1w]
    · exact .inr ⟨w, List.mem_append_left _ b⟩
  · intro y hy hcan
    have b := F.canceled y (lt2 y hy) (by rw [t1c]; exact hcan)
    by_cases e : y = x
    · subst e; exact a7 b
    · rw [a5 y e]; exact b
  · intro y hy
    by_cases e : y = x
    · subst e; rw [a6, F.catchup y (lt2 y hy), t1k]
    · rw [a5 y e, F.catchup y (lt2 y hy), t1k]
  · intro y hy
    have b : (s2.tm y).recur = (s.tm y).recur ∨ ∃ r, Ev.cmd (.setRecur y r) ∈ ev ++ ev3 := by
      rcases F.recur y (lt2 y hy) with b | ⟨w, b⟩
      · left; rw [b, t1r]
      · exact .inr ⟨w, List.mem_append_left _ b⟩
    by_cases e : y = x
    · subst e; rw [a6']; exact b
    · rw [a5 y e]; exact b
  · intro y hy
    rcases List.mem_append.mp hy with b | b
    · have c := F.cancels y b
      refine ⟨?_, by rw [a2]; exact K y b⟩
      by_cases e : y = x
      · subst e; exact a7 c
      · rw [a5 y e]; exact c
    · cases a4 _ b
  · intro y d n hy
    rcases List.mem_append.mp hy with b | b
    · exact F.quiet y d n b
    · cases a4 _ b
  · intro y hy hne ht hl
    rw [a5 y hne]
    exact lv y (lt2 y hy) (fun e he => ht e (List.mem_append_left _ he)) (by rw [t1c]; exact hl)
  · intro y hy hne ht
    refine a8 y (F.stays y ?_ (fun e he => ht e (List.mem_append_left _ he))) hne
    rw [hset] at hy
    rw [e1]
    rcases List.mem_cons.mp hy with b | b
    · exact absurd b hne
    · exact b
  · rcases a10 with ⟨b, _⟩ | ⟨b, _⟩ | ⟨b, c, d⟩
    · rcases F.moved x hxn1 b with e | ⟨w, e⟩
      · rw [t1, if_pos rfl] at e; cases e
      · exact .inr (.inl ⟨w, List.mem_append_left _ e⟩)
    · exact .inl b
    · rcases F.when_ x hxn1 with e | ⟨w, e⟩
      · obtain ⟨f, g⟩ := nextDue_later { s2.tm x with firing := false } now c
        refine .inr (.inr ⟨by rw [a6']; exact c, ?_, ?_⟩)
        · rw [d, ← t1w, ← e]; exact f
        · intro hk
          rw [d]
          refine g ?_
          show (s2.tm x).catchup = true
          rw [F.catchup x hxn1, t1k]; exact hk
      · exact .inr (.inl ⟨w, List.mem_append_left _ e⟩)
  · intro hl ht hrec
    have ht' : ∀ e ∈ ev, touches x e = false := fun e he => ht e (List.mem_append_left _ he)
    refine a11 ?_ (by rw [a6'] at hrec; exact hrec) (lv x hxn1 ht' (by rw [t1c]; exact hal)) (ll hxn1 ht' (by rw [t1, if_pos rfl]; exact hl))
    cases q : (s2.tm x).rescheduled with
    | false => rfl
    | true =>
      rcases F.moved x hxn1 q with e | ⟨w, e⟩
      · rw [t1, if_pos rfl] at e; cases e
      · have := ht' _ e
        simp [touches] at this
  · intro P hP y hy
    by_cases e : y = x
    · subst e
      rcases a10 with ⟨b, c, d⟩ | ⟨_, b⟩ | ⟨b, c, d⟩
      · have hy2 := d hy
        rcases en P hP y hy2 with ⟨f, _⟩ | f
        · rw [e1] at f; exact absurd f hnot
        · right; left; rw [c]; exact f
      · exact absurd hy b
      · right; right
        refine ⟨rfl, ?_⟩
        rcases F.shifted y hxn1 with f | f
        · have := (nextDue_later { s2.tm y with firing := false } now c).1
          rw [d, ← t1w, ← f]; exact this
        · rw [b] at f; cases f
    · have hy2 := a9 y hy e
      rw [a5 y e]
      rcases en P hP y hy2 with ⟨f, g⟩ | f
      · left
        rw [e1] at f
        exact ⟨sub y f, e, by rw [g, t1w]⟩
      · exact .inr (.inl f)

end Timers
end Rtmfp
