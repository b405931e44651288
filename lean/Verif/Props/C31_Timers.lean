import Verif.Lemmas.TimerRuns
/-! # C31: timers fire in order, once, and never after cancellation

`Steps E act a b`: from `a` (state, all that happened before) to `b`; `Reach` from a new list. `act` says what actions do. -/
namespace Rtmfp
open Timers

/-- for the examples -/
def Timers.env : Env := ⟨fun x => x, 1⟩

example : env.Ok := ⟨fun _ _ h => h, by decide⟩

/-- a call of `fireDueTimers` that returns ran only timers that were due, and leaves none that is due: then there is time to sleep -/
theorem C31_none_due (E : Env) (hE : E.Ok) (act : List Ev → List Cmd) (s : TL) (tr : List Ev) (h : Reach E act (s, tr)) (now : Int) (fuel : Nat)
    (s' : TL) (tr' : List Ev) (hp : fireDueTimers E act now fuel s tr = some (s', tr')) :
    (∀ y ∈ s'.set, now < (s'.tm y).when_) ∧ (∀ M, 0 < M → 0 < howLong s' now M) ∧
      ∃ ext, tr' = tr ++ ext ∧ ∀ x d n, Ev.fire x d n ∈ ext → n = now ∧ d ≤ now := by
  rw [fireDueTimers] at hp
  obtain ⟨r, h1, h2⟩ := Option.map_eq_some_iff.mp hp
  cases h2
  have w := (reach_wf hE h).flag true
  have e := loop_end hE fuel _ _ _ w h1
  refine ⟨e, ?_, loop_fires hE fuel _ _ _ w h1⟩
  intro M hM
  rw [howLong]
  split
  · exact hM
  · rename_i x xs hs
    have := e x (by rw [show r.1.set = x :: xs from hs]; exact List.mem_cons_self)
    dsimp only
    omega

/-- a timer that is scheduled runs with that due time, at the latest in the first call of `fireDueTimers` at or after that time that returns, unless
it was moved, canceled or removed before -/
theorem C31_fires (E : Env) (hE : E.Ok) (act : List Ev → List Cmd) (s : TL) (tr : List Ev) (h : Reach E act (s, tr)) (w r : Int) (cu : Bool)
    (s1 : TL) (tr1 : List Ev) (h1 : Steps E act ((exec E s (.schedule w r cu)).1, tr ++ (exec E s (.schedule w r cu)).2) (s1, tr1))
    (now : Int) (hnow : w ≤ now) (fuel : Nat) (s' : TL) (tr' : List Ev) (hp : fireDueTimers E act now fuel s1 tr1 = some (s', tr')) :
    ∃ ext, tr' = tr ++ (exec E s (.schedule w r cu)).2 ++ ext ∧ ((∃ n, Ev.fire s.next w n ∈ ext) ∨ ∃ e ∈ ext, touches s.next e = true) := by
  have hr := Steps.cmd h (.schedule w r cu)
  have wf := reach_wf hE hr
  have p : Pending (exec E s (.schedule w r cu)).1 s.next w := by
    rw [exec]; dsimp only
    rw [schedule_eq]
    have e : (addTimer E (made E s w r cu) s.next).1.tm s.next = { (made E s w r cu).tm s.next with listed := true } := by rw [addTimer_tm, if_pos rfl]
    have e2 : (made E s w r cu).tm s.next = ⟨w, clampRecur E r, false, false, false, cu, false⟩ := if_pos rfl
    exact ⟨(setInsert_mem E hE _ _ _ _).mpr (.inl rfl), by rw [e, e2], by rw [e, e2]⟩
  obtain ⟨ext, e, q⟩ := pending_kept hE (h1.trans (pass_steps hp)) wf p
  refine ⟨ext, e, ?_⟩
  rcases q with q | q | q
  · exact .inr q
  · exact .inl q
  · have := (C31_none_due E hE act s1 tr1 (hr.trans h1) now fuel s' tr' hp).1 _ q.mem
    have d := q.due
    dsimp only at d
    omega

example : (fireDueTimers env (fun _ => []) 7 5 (exec env init (.schedule 5 0 true)).1 []).map (·.2) = some [.fire 0 5 7] := by decide +kernel

/-- the same for a timer that is in the list and gets a new time -/
theorem C31_moved_fires (E : Env) (hE : E.Ok) (act : List Ev → List Cmd) (s : TL) (tr : List Ev) (h : Reach E act (s, tr)) (x : Nat) (w : Int)
    (hx : x ∈ s.set) (hc : (s.tm x).canceled = false)
    (s1 : TL) (tr1 : List Ev) (h1 : Steps E act ((exec E s (.setNext x w)).1, tr ++ (exec E s (.setNext x w)).2) (s1, tr1))
    (now : Int) (hnow : w ≤ now) (fuel : Nat) (s' : TL) (tr' : List Ev) (hp : fireDueTimers E act now fuel s1 tr1 = some (s', tr')) :
    ∃ ext, tr' = tr ++ (exec E s (.setNext x w)).2 ++ ext ∧ ((∃ n, Ev.fire x w n ∈ ext) ∨ ∃ e ∈ ext, touches x e = true) := by
  have hr := Steps.cmd h (.setNext x w)
  have wf0 := reach_wf hE h
  have wf := reach_wf hE hr
  have p : Pending (exec E s (.setNext x w)).1 x w := by
    rw [exec, if_pos (wf0.known x hx)]
    dsimp only
    have e := setNext_tm E s x x w
    rw [if_pos rfl, if_neg (by rw [hc]; decide)] at e
    refine ⟨?_, by rw [e], by rw [e]; exact hc⟩
    have hl : (s.tm x).listed = true := by
      rcases wf0.owned x hx with a | a
      · exact a
      · dsimp only at a; rw [hc] at a; cases a
    rw [setNext, if_neg (by rw [hc]; decide)]
    dsimp only
    rw [if_pos hl]
    exact (setInsert_mem E hE _ _ _ _).mpr (.inl rfl)
  obtain ⟨ext, e, q⟩ := pending_kept hE (h1.trans (pass_steps hp)) wf p
  refine ⟨ext, e, ?_⟩
  rcases q with q | q | q
  · exact .inr q
  · exact .inl q
  · have := (C31_none_due E hE act s1 tr1 (hr.trans h1) now fuel s' tr' hp).1 _ q.mem
    have d := q.due
    dsimp only at d
    omega

/-- a timer that runs is one of those in the list that are due first, and runs with its due time -/
theorem C31_earliest (E : Env) (hE : E.Ok) (act : List Ev → List Cmd) (s : TL) (tr : List Ev) (h : Reach E act (s, tr)) (now : Int)
    (s' : TL) (x : Nat) (d n : Int) (rest : List Ev) (hr : fireOne E act s tr now = some (s', tr ++ .fire x d n :: rest)) :
    n = now ∧ x ∈ s.set ∧ d = (s.tm x).when_ ∧ d ≤ now ∧ (s.tm x).canceled = false ∧ ∀ y ∈ s.set, d ≤ (s.tm y).when_ := by
  obtain ⟨y, ys, hset, hd, ⟨_, e⟩ | ⟨ev, e, F⟩⟩ := round_spec hE (reach_wf hE h) hr
  · have := congrArg Prod.snd e
    simp at this
  · have e' := List.append_cancel_left e
    obtain ⟨e1, _⟩ := List.cons.inj e'
    cases e1
    refine ⟨rfl, ?_, rfl, hd, F.alive, wf_head (reach_wf hE h) hset⟩
    have hset' : s.set = x :: ys := hset
    rw [hset']; exact List.mem_cons_self

/-- in one call of `fireDueTimers` timers run in order of their due times, if no action schedules a timer for before its own due time (nor puts one
into the list by `addTimer`). Missing for the full claim: that condition, which is necessary (`C31_order_fails`). -/
theorem C31_order_partial (E : Env) (hE : E.Ok) (act : List Ev → List Cmd) (s : TL) (tr : List Ev) (h : Reach E act (s, tr)) (now : Int)
    (hact : ∀ tr x d, ∀ c ∈ act (tr ++ [.fire x d now]), CmdOk (d ≤ ·) c) (fuel : Nat)
    (s' : TL) (tr' : List Ev) (hp : fireDueTimers E act now fuel s tr = some (s', tr')) :
    ∃ ext, tr' = tr ++ ext ∧ ∀ a x d n b y d' n' c, ext = a ++ .fire x d n :: b ++ .fire y d' n' :: c → d ≤ d' := by
  rw [fireDueTimers] at hp
  obtain ⟨r, h1, h2⟩ := Option.map_eq_some_iff.mp hp
  cases h2
  have w := (reach_wf hE h).flag true
  have low : ∃ L, ∀ y ∈ s.set, L ≤ (s.tm y).when_ := by
    cases hs : s.set with
    | nil => exact ⟨0, fun y hy => (by cases hy)⟩
    | cons x xs => exact ⟨_, by rw [← hs]; exact wf_head (reach_wf hE h) hs⟩
  obtain ⟨L, hL⟩ := low
  obtain ⟨ext, e, o, _⟩ := loop_order hE hact fuel _ _ _ L w hL h1
  refine ⟨ext, e, ?_⟩
  intro a x d n b y d' n' c e2
  have app : ∀ u v, dues (u ++ v) = dues u ++ dues v := fun u v => List.filterMap_append
  have e3 : dues ext = dues a ++ d :: (dues b ++ d' :: dues c) := by
    rw [e2, app, app]
    show (dues a ++ (d :: dues b)) ++ (d' :: dues c) = _
    simp
  rw [e3] at o
  have := (List.pairwise_append.mp o).2.1
  exact (List.pairwise_cons.mp this).1 d' (List.mem_append_right _ List.mem_cons_self)

/-- an action that schedules a timer before its own time, in the same call: order of due times is lost -/
theorem C31_order_fails : ∃ act s tr, Reach env act (s, tr) ∧
    (fireDueTimers env act 9 5 s tr).map (fun r => r.2.drop tr.length) = some [.fire 0 5 9, .cmd (.schedule 3 0 true), .fire 1 3 9] :=
  ⟨fun tr => if tr.length = 3 then [.schedule 3 0 true] else [], _, _, .cmd .refl (.schedule 5 0 true), by decide +kernel⟩

/-- once `cancel` was called (by anyone, also by an action in the same call of `fireDueTimers`) a timer never runs -/
theorem C31_cancelled (E : Env) (hE : E.Ok) (act : List Ev → List Cmd) (s : TL) (tr : List Ev) (h : Reach E act (s, tr)) (a : List Ev) (x : Nat) (b : List Ev)
    (e : tr = a ++ .cmd (.cancel x) :: b) (d n : Int) : Ev.fire x d n ∉ b :=
  (reach_gone hE h).after a x b e d n

example : (fireDueTimers env (fun tr => if tr = [.fire 0 5 9] then [.cancel 1] else []) 9 5
    (execs env init [.schedule 5 0 true, .schedule 6 1 true]).1 []).map (·.2) = some [.fire 0 5 9, .cmd (.cancel 1)] := by decide +kernel

/-- when a timer runs again without having been given a time, then it was due strictly later than the last time; and, if it is to catch up, not before the
time at which it ran -/
theorem C31_recurs_later (E : Env) (hE : E.Ok) (act : List Ev → List Cmd) (s : TL) (tr : List Ev) (h : Reach E act (s, tr)) (x : Nat) (now d : Int)
    (s1 : TL) (rest : List Ev) (hr : fireOne E act s tr now = some (s1, tr ++ .fire x d now :: rest))
    (s' : TL) (tr' : List Ev) (h' : Steps E act (s1, tr ++ .fire x d now :: rest) (s', tr')) :
    ∃ ext, tr' = tr ++ .fire x d now :: rest ++ ext ∧ ((∃ w, Ev.cmd (.setNext x w) ∈ rest ++ ext) ∨
      ∀ d' n', Ev.fire x d' n' ∈ ext → d < d' ∧ ((s.tm x).catchup = true → now ≤ d')) := by
  have wf := reach_wf hE h
  obtain ⟨y, ys, hset, hd, ⟨_, e⟩ | ⟨ev, e, F⟩⟩ := round_spec hE wf hr
  · have := congrArg Prod.snd e
    simp at this
  · have e' := List.append_cancel_left e
    obtain ⟨e1, e2⟩ := List.cons.inj e'
    cases e1
    subst e2
    dsimp only at F
    have hx : x < s.next := wf.known x (by rw [hset]; exact List.mem_cons_self)
    have w1 : WF E s1 := F.wf
    have known := Nat.lt_of_lt_of_le hx F.next_le
    have cu := F.catchup x hx
    have fin : Since s1 x (s.tm x).when_ now → ∃ ext, tr' = tr ++ .fire x (s.tm x).when_ now :: rest ++ ext ∧ ((∃ w, Ev.cmd (.setNext x w) ∈ rest ++ ext) ∨
        ∀ d' n', Ev.fire x d' n' ∈ ext → (s.tm x).when_ < d' ∧ ((s.tm x).catchup = true → now ≤ d')) := by
      intro S
      obtain ⟨ext, e3, q⟩ := since_kept hE h' w1 S
      refine ⟨ext, e3, ?_⟩
      rcases q with ⟨w, q⟩ | ⟨_, _, q⟩
      · exact .inl ⟨w, List.mem_append_right _ q⟩
      · right
        intro d' n' hm
        obtain ⟨u, v, e4⟩ := List.append_of_mem hm
        have := q u d' n' v e4
        dsimp only at this
        rw [cu] at this
        exact this
    rcases F.again with q | ⟨w, q⟩ | ⟨_, q1, q2⟩
    · exact fin ⟨known, .inl q⟩
    · obtain ⟨ext, e3⟩ := h'.prefix hE w1
      exact ⟨ext, e3, .inl ⟨w, List.mem_append_left _ q⟩⟩
    · exact fin ⟨known, .inr ⟨q1, by rw [cu]; exact q2⟩⟩

example : (fireDueTimers env (fun _ => []) 9 5 (exec env init (.schedule 2 3 true)).1 []).map (fun r => (r.2, (r.1.tm 0).when_)) = some ([.fire 0 2 9], 11) ∧
    (fireDueTimers env (fun _ => []) 9 5 (exec env init (.schedule 2 3 false)).1 []).map (fun r => (r.2, (r.1.tm 0).when_)) =
      some ([.fire 0 2 9, .fire 0 5 9, .fire 0 8 9], 11) := by decide +kernel

/-- after running, a timer that recurs is in the list again and due later, unless its action moved, canceled or removed it -/
theorem C31_recurs (E : Env) (hE : E.Ok) (act : List Ev → List Cmd) (s : TL) (tr : List Ev) (h : Reach E act (s, tr)) (x : Nat) (now d : Int)
    (s1 : TL) (rest : List Ev) (hr : fireOne E act s tr now = some (s1, tr ++ .fire x d now :: rest))
    (ht : ∀ e ∈ rest, touches x e = false) (hrec : 0 < (s1.tm x).recur) : ∃ w, d < w ∧ Pending s1 x w := by
  have wf := reach_wf hE h
  obtain ⟨y, ys, hset, hd, ⟨_, e⟩ | ⟨ev, e, F⟩⟩ := round_spec hE wf hr
  · have := congrArg Prod.snd e
    simp at this
  · have e' := List.append_cancel_left e
    obtain ⟨e1, e2⟩ := List.cons.inj e'
    cases e1
    subst e2
    have F' : Fired E _ s s1 x now rest := F
    have hl : (s.tm x).listed = true := by
      rcases wf.owned x (by rw [hset]; exact List.mem_cons_self) with a | a
      · exact a
      · have := F'.alive; dsimp only at a; rw [this] at a; cases a
    obtain ⟨m, c⟩ := F'.requeued hl ht hrec
    rcases F'.again with q | ⟨w, q⟩ | ⟨_, q, _⟩
    · rw [c] at q; cases q
    · have := ht _ q
      simp [touches] at this
    · exact ⟨_, q, m, rfl, c⟩

/-- a timer scheduled without recurrence runs at most once, unless it is given another time or a recurrence interval -/
theorem C31_one_shot (E : Env) (hE : E.Ok) (act : List Ev → List Cmd) (s : TL) (tr : List Ev) (h : Reach E act (s, tr)) (w r : Int) (cu : Bool) (hr : r ≤ 0)
    (s' : TL) (tr' : List Ev) (h' : Steps E act ((exec E s (.schedule w r cu)).1, tr ++ (exec E s (.schedule w r cu)).2) (s', tr')) :
    ∃ ext, tr' = tr ++ (exec E s (.schedule w r cu)).2 ++ ext ∧ ((∃ w, Ev.cmd (.setNext s.next w) ∈ ext) ∨ (∃ r, Ev.cmd (.setRecur s.next r) ∈ ext) ∨
      ∀ a d n b d' n' c, ext ≠ a ++ .fire s.next d n :: b ++ .fire s.next d' n' :: c) := by
  have hr' := Steps.cmd h (.schedule w r cu)
  have e1 : ((exec E s (.schedule w r cu)).1.tm s.next).recur ≤ 0 := by
    rw [exec]; dsimp only
    rw [schedule_eq, addTimer_tm, if_pos rfl]
    have e2 : (made E s w r cu).tm s.next = ⟨w, clampRecur E r, false, false, false, cu, false⟩ := if_pos rfl
    rw [e2]
    show clampRecur E r ≤ 0
    rw [clampRecur, if_neg (by omega)]
    exact hr
  obtain ⟨ext, e, q⟩ := once hE h' (reach_wf hE hr') (x := s.next) (Nat.lt_succ_self _) e1
  refine ⟨ext, e, q.imp id (fun q => q.imp id (fun q => ?_))⟩
  intro a d n b d' n' c e3
  have := q.2.2.1
  rw [e3, runs_append, runs_append] at this
  have f : ∀ d n l, runs s.next (.fire s.next d n :: l) = 1 + runs s.next l := fun d n l => by
    rw [show Ev.fire s.next d n :: l = [Ev.fire s.next d n] ++ l from rfl, runs_append]
    congr 1
    simp [runs]
  rw [f, f] at this
  omega

/-- `fireDueTimers` returns, if actions schedule timers only for after the time it was given (and don't put any into the list by `addTimer`) -/
theorem C31_returns (E : Env) (hE : E.Ok) (act : List Ev → List Cmd) (s : TL) (tr : List Ev) (h : Reach E act (s, tr)) (now : Int)
    (hact : ∀ tr, ∀ c ∈ act tr, CmdOk (now < ·) c) : ∃ fuel r, fireDueTimers E act now fuel s tr = some r := by
  obtain ⟨r, hr⟩ := loop_ends hE hact _ _ tr ((reach_wf hE h).flag true) (Nat.le_refl _)
  exact ⟨_, _, by rw [fireDueTimers, hr]; rfl⟩

example : ∀ tr : List Ev, ∀ c ∈ (fun _ => [Cmd.schedule 12 0 true, .setNext 0 10, .cancel 1] : List Ev → List Cmd) tr, CmdOk (9 < ·) c := by
  intro tr c hc
  simp at hc
  rcases hc with rfl | rfl | rfl <;> simp [CmdOk]

/-- whoever sleeps as long as the list said is told when a command makes that shorter (outside `fireDueTimers`) -/
theorem C31_wakes (E : Env) (hE : E.Ok) (act : List Ev → List Cmd) (s : TL) (tr : List Ev) (h : Reach E act (s, tr)) (hrun : s.running = false) (c : Cmd)
    (now M : Int) (hl : howLong (exec E s c).1 now M < howLong s now M) : Ev.wake ∈ (exec E s c).2 :=
  exec_wakes hE (reach_wf hE h) hrun hl

example : let s := (exec env init (.schedule 5 0 true)).1
    howLong s 0 100 = 5 ∧ howLong (exec env s (.schedule 3 0 true)).1 0 100 = 3 ∧ (exec env s (.schedule 3 0 true)).2 = [.cmd (.schedule 3 0 true), .wake] ∧
    (exec env s (.schedule 8 0 true)).2 = [.cmd (.schedule 8 0 true)] := by decide +kernel

end Rtmfp
