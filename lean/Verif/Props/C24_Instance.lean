import Verif.Lemmas.InstanceFate
import Verif.Lemmas.InstanceCause
/-! # C24: lives of sessions; C57: what strangers can make an instance keep; C71: flows and their peers; C72: flows learn what became of their session; C73: shutting down -/
namespace Rtmfp
open Inst Spec.Inst

set_option synthInstance.maxSize 1000

private def instRuns (C : Crypto) : List Inst.Op → Inst.St → List Inst.Ev → Option (Inst.St × List Inst.Ev)
  | [], st, evs => some (st, evs)
  | op :: ops, st, evs => (Inst.step C st op).bind (fun r => instRuns C ops r.1 (evs ++ r.2))

private theorem instRuns_run (C : Crypto) (st0 : Inst.St) (ops : List Inst.Op) : ∀ (ops0 : List Inst.Op) (st : Inst.St) (evs : List Inst.Ev) st' evs', Inst.Run C st0 ops0 st evs →
    instRuns C ops st evs = some (st', evs') → Inst.Run C st0 (ops0 ++ ops) st' evs' := by
  induction ops with
  | nil =>
    intro ops0 st evs st' evs' h hr
    simp only [instRuns, Option.some.injEq, Prod.mk.injEq] at hr
    obtain ⟨rfl, rfl⟩ := hr
    simpa using h
  | cons op ops ih =>
    intro ops0 st evs st' evs' h hr
    simp only [instRuns, Option.bind_eq_some_iff] at hr
    obtain ⟨⟨st1, evs1⟩, h1, h2⟩ := hr
    have := ih (ops0 ++ [op]) st1 (evs ++ evs1) st' evs' (Inst.Run.step h h1) h2
    simpa using this

/-- a history's end, as far as `v` shows it -/
private theorem inst_demo {α : Type} (C : Crypto) (v : Inst.St → α) (ops : List Inst.Op) (x : α) (evs : List Inst.Ev)
    (h : (instRuns C ops Inst.init []).map (fun r => (v r.1, r.2)) = some (x, evs)) : ∃ st, Inst.Run C Inst.init ops st evs ∧ v st = x := by
  cases hr : instRuns C ops Inst.init [] with
  | none => rw [hr] at h; simp at h
  | some r =>
    rw [hr] at h
    simp only [Option.map_some, Option.some.injEq, Prod.mk.injEq] at h
    refine ⟨r.1, ?_, h.1⟩
    rw [← h.2]
    simpa using instRuns_run C Inst.init ops [] Inst.init [] r.1 r.2 Inst.Run.nil hr

/-- the same in two parts -/
private theorem inst_demo2 {α β : Type} (C : Crypto) (v : Inst.St → α) (w : Inst.St → β) (ops ops' : List Inst.Op) (x : α) (y : β) (evs evs' : List Inst.Ev)
    (h : ((instRuns C ops Inst.init []).bind fun r => (instRuns C ops' r.1 []).map (fun r' => (v r.1, r.2, w r'.1, r'.2))) = some (x, evs, y, evs')) :
    ∃ st st', Inst.Run C Inst.init ops st evs ∧ v st = x ∧ Inst.Run C st ops' st' evs' ∧ w st' = y := by
  cases hr : instRuns C ops Inst.init [] with
  | none => rw [hr] at h; simp at h
  | some r =>
    rw [hr] at h
    simp only [Option.bind_some] at h
    cases hr' : instRuns C ops' r.1 [] with
    | none => rw [hr'] at h; simp at h
    | some r' =>
      rw [hr'] at h
      simp only [Option.map_some, Option.some.injEq, Prod.mk.injEq] at h
      obtain ⟨h1, h2, h3, h4⟩ := h
      refine ⟨r.1, r'.1, ?_, h1, ?_, h3⟩
      · rw [← h2]
        simpa using instRuns_run C Inst.init ops [] Inst.init [] r.1 r.2 Inst.Run.nil hr
      · rw [← h4]
        simpa using instRuns_run C r.1 ops' [] r.1 [] r'.1 r'.2 Inst.Run.nil hr'

/-- certificate 1 answers to the names 10 and 11, certificate 2 to 20, certificate 3 to 30; the same certificate overrides -/
private def world : Crypto :=
  ⟨fun c e => (c == 1 && (e == 10 || e == 11)) || (c == 2 && e == 20) || (c == 3 && e == 30) || e == c * 1000,
   fun c => if c = 1 then 10 else if c = 2 then 20 else if c = 3 then 30 else c * 1000, fun a b => a == b, fun _ => true⟩

private theorem world_sel (c : Nat) : world.sel c (world.canon c) = true := by
  simp only [world]
  split
  · simp_all
  · split
    · simp_all
    · split <;> simp_all

private def ticks (n : Nat) : List Inst.Op := List.replicate n .tick

/-- flow 0 is opened to 10, and the session it asks for opens -/
private def up : List Inst.Op :=
  [.openFlow 10, .setHandler 0, .rhello 0 1 100 0 7, .task 0 true, .task 0 true, .task 0 true, .rikeying 0 5, .task 0 true, .task 0 true, .tick, .tick, .timer 0 false]
private def upEvs : List Inst.Ev := [.flowOpened 0 10, .handlerSet 0, .opened 0, .replayed 0 [], .bound 0 0 true]

/-- then the session is closed, its flow told; it lingers and ends -/
private def down : List Inst.Op := up ++ [.unanswered 0] ++ ticks 5 ++ [.ret] ++ ticks 7 ++ [.timer 0 true] ++ ticks 6
private def downEvs : List Inst.Ev := upEvs ++ [.exception 0, .released 0]

private theorem up_run : ∃ st, Inst.Run world Inst.init up st upEvs ∧ ((st.sess 0).state, st.stack, (st.sess 0).sendFlows) = (SState.opened, [], [0]) :=
  inst_demo world (fun st => ((st.sess 0).state, st.stack, (st.sess 0).sendFlows)) up _ upEvs (by decide +kernel)

private theorem down_run : ∃ st, Inst.Run world Inst.init down st downEvs ∧ ((st.sess 0).state, st.stack, st.table, st.timers) = (SState.closed, [], [], []) :=
  inst_demo world (fun st => ((st.sess 0).state, st.stack, st.table, st.timers)) down _ downEvs (by decide +kernel)

/-- closed from inside a callback: a flow opened by `onComplete` while its session is being aborted -/
private def zombie : List Inst.Op :=
  up ++ [.userData 0 true, .setComplete 0, .ret, .closeAckChunk 0] ++ ticks 6 ++ [.ret] ++ ticks 3 ++ [.openFlow 10, .setHandler 1, .ret] ++ ticks 5
private def zombieEvs : List Inst.Ev :=
  upEvs ++ [.recvFlow 0 0, .completeSet 0, .closeSent 0 true, .exception 0, .complete 0 true, .flowOpened 1 10, .bound 1 0 false, .handlerSet 1, .released 0]

/-- shutting down with one open session of its own, one opening and one opened by a peer -/
private def shut : List Inst.Op :=
  up ++ [.openFlow 20, .iikeying ⟨6, 3, 101, 0, 3⟩ .good true, .task 0 true, .task 0 true, .task 0 true] ++ ticks 3 ++
  [.shutdown false, .openFlow 30, .task 0 true] ++ ticks 7 ++ [.ret] ++ ticks 33
private def shutEvs : List Inst.Ev :=
  upEvs ++ [.flowOpened 1 20, .keyingAccepted, .opened 2, .replayed 2 [], .exception 0, .released 1]
private def shutDone : List Inst.Op := shut ++ [.timer 1 true] ++ ticks 6 ++ [.timer 1 true] ++ ticks 6
private def shutDoneEvs : List Inst.Ev := shutEvs ++ [.released 0, .released 2, .shutdownDone]

/-! ## C24 -/

/-- **Only forward.** In every history of calls (from anywhere, callbacks included), timers, tasks and packets, each step leaves each session as it is or moves it
one step along: opening, keying, open, taking leave, closed; any session that exists may end; none comes back. -/
theorem C24_lifecycle (C : Crypto) (ops : List Inst.Op) (st st' : Inst.St) (evs ev : List Inst.Ev) (op : Inst.Op) (h : Inst.Run C Inst.init ops st evs)
    (hs : Inst.step C st op = some (st', ev)) (s : Nat) : (st'.sess s).state = (st.sess s).state ∨ Next (st.sess s).state (st'.sess s).state := by
  have ha := Inst.Run.all Inst.All.init h
  exact Inst.next_way ha.inv ha.held (Inst.step_way hs) s

example : ∃ st st' ev, Inst.Run world Inst.init up st upEvs ∧ Inst.step world st (.unanswered 0) = some (st', ev) ∧ (st.sess 0).state = .opened ∧ (st'.sess 0).state = .nearclose := by
  obtain ⟨st, h, hv⟩ := up_run
  simp only [Prod.mk.injEq] at hv
  have hc := (h.inv Inst.Inv.init).safe
  refine ⟨st, Inst.setNearclose st 0, [], h, ?_, hv.1, ?_⟩
  · simp [Inst.step, hc, Inst.stepOk, hv.2.1, Inst.outside, hv.1, Inst.sessClose]
  · simp [Inst.setNearclose, Inst.push, Inst.setState, Inst.setS, Inst.upd]

/-- **Closed is the end.** Once a session is closed it stays closed, whatever happens, and never opens, binds a flow as an open session or delivers a new flow. -/
theorem C24_closed_stays (C : Crypto) (ops ops' : List Inst.Op) (st st' : Inst.St) (evs evs' : List Inst.Ev) (h : Inst.Run C Inst.init ops st evs) (s : Nat)
    (hs : (st.sess s).state = .closed) (h' : Inst.Run C st ops' st' evs') :
    (st'.sess s).state = .closed ∧ .opened s ∉ evs' ∧ (∀ f, .bound f s true ∉ evs') ∧ ∀ r, .recvFlow r s ∉ evs' := by
  have hi := h.inv Inst.Inv.init
  have key : ∀ (opsx : List Inst.Op) (x : Inst.St) (evsx : List Inst.Ev), Inst.Run C st opsx x evsx → (x.sess s).state = .closed := by
    intro opsx x evsx hx
    have := Inst.Run.fwd hi hx s
    rw [hs] at this
    cases hx : (x.sess s).state <;> rw [hx] at this <;> simp [SState.rank] at this ⊢
  refine ⟨key _ _ _ h', ?_⟩
  induction h' with
  | nil => simp
  | step hr hst ih =>
    obtain ⟨h1, h2, h3⟩ := ih
    obtain ⟨g1, g2, g3⟩ := Inst.mute_way (hr.inv hi) (Inst.step_way hst) (key _ _ _ hr)
    simp only [List.mem_append, not_or]
    exact ⟨⟨h1, g1⟩, fun f => ⟨h2 f, g2 f⟩, fun r => ⟨h3 r, g3 r⟩⟩

example : ∃ st, Inst.Run world Inst.init down st downEvs ∧ (st.sess 0).state = .closed := by
  obtain ⟨st, h, hv⟩ := down_run
  simp only [Prod.mk.injEq] at hv
  exact ⟨st, h, hv.1⟩

/-- **Once.** A session opens at most once and is let go at most once. -/
theorem C24_once (C : Crypto) (ops : List Inst.Op) (st : Inst.St) (evs : List Inst.Ev) (h : Inst.Run C Inst.init ops st evs) (s : Nat) :
    evs.count (.opened s) ≤ 1 ∧ evs.count (.released s) ≤ 1 := by
  have ho := (Inst.Run.all Inst.All.init h).once
  simp only [List.nil_append] at ho
  have h1 := ho.opened s
  have h2 := ho.released s
  omega

example : ∃ st, Inst.Run world Inst.init down st downEvs ∧ downEvs.count (.opened 0) = 1 ∧ downEvs.count (.released 0) = 1 := by
  obtain ⟨st, h, _⟩ := down_run
  exact ⟨st, h, by decide, by decide⟩

/-- **Told at most once.** A flow's exception callback and a receiving flow's completion callback are called at most as often as the application has set them:
set once, each is called at most once, whatever ends the flow. A flow is bound to a session at most once. -/
theorem C24_notified (C : Crypto) (ops : List Inst.Op) (st : Inst.St) (evs : List Inst.Ev) (h : Inst.Run C Inst.init ops st evs) :
    (∀ f, evs.count (.exception f) ≤ evs.count (.handlerSet f)) ∧
    (∀ r, evs.count (.complete r true) + evs.count (.complete r false) ≤ evs.count (.completeSet r)) ∧
    (∀ f, evs.countP (fun e => match e with | .bound g _ _ => g = f | _ => false) ≤ 1) := by
  have ha := Inst.Run.all Inst.All.init h
  simp only [List.nil_append] at ha
  refine ⟨fun f => ?_, fun r => ?_, fun f => ?_⟩
  · have := ha.heeds f; omega
  · have := ha.completes r; omega
  · have := ha.once.flows f
    have e : (fun e : Inst.Ev => match e with | .bound g _ _ => decide (g = f) | _ => false) = Inst.Ev.binds f := by
      funext e; cases e <;> rfl
    rw [e]
    omega

example : ∃ st, Inst.Run world Inst.init zombie st zombieEvs ∧ zombieEvs.count (.exception 0) = 1 ∧ zombieEvs.count (.complete 0 true) = 1 := by
  obtain ⟨st, h, _⟩ := inst_demo world (fun st => st.stack) zombie [] zombieEvs (by decide +kernel)
  exact ⟨st, h, by decide, by decide⟩

/-- **No assertion fails**, and nothing in the loops that end sessions is left undone: whatever callbacks do, a flow that was told of its session's end is
unbound when the loop looks again (the `assert` at Session.cpp:516 and its like). -/
theorem C24_no_assert (C : Crypto) (ops : List Inst.Op) (st : Inst.St) (evs : List Inst.Ev) (h : Inst.Run C Inst.init ops st evs) :
    st.crashed = false ∧ ∀ s f, .assertFailed s f ∉ evs := by
  refine ⟨(h.inv Inst.Inv.init).safe, ?_⟩
  induction h with
  | nil => simp
  | step hr hs ih =>
    intro s f
    simp only [List.mem_append, not_or]
    refine ⟨ih s f, ?_⟩
    have h1 := ((hr.inv Inst.Inv.init).step hs).safe
    have w := Inst.step_way hs
    clear ih hr hs
    cases w <;> grind

example : ∃ st, Inst.Run world Inst.init zombie st zombieEvs ∧ .exception 0 ∈ zombieEvs := by
  obtain ⟨st, h, _⟩ := inst_demo world (fun st => st.stack) zombie [] zombieEvs (by decide +kernel)
  exact ⟨st, h, by decide⟩

/-- **The books are right.** Whenever no library code is running, the instance's table of sessions holds exactly the sessions that were made and have not closed,
each once; its list of opening sessions exactly those that are opening; the maps by name and by address hold only open sessions, under their own certificate's
name and their own address; and a session that has closed or is taking leave has no receiving flows. -/
theorem C24_at_rest (C : Crypto) (ops : List Inst.Op) (st : Inst.St) (evs : List Inst.Ev) (h : Inst.Run C Inst.init ops st evs) (hr : atRest st) :
    (∀ s, s ∈ st.table ↔ s < st.nS ∧ (st.sess s).state ≠ .closed) ∧ st.table.Nodup ∧
    (∀ s, s ∈ st.openingS ↔ opening (st.sess s).state) ∧
    (∀ e s, st.byEpd e = some s → (st.sess s).state = .opened ∧ (st.sess s).epd = e ∧ ∃ c, (st.sess s).cert = some c ∧ C.canon c = e) ∧
    (∀ a s, st.byAddr a = some s → (st.sess s).state = .opened ∧ (st.sess s).addr = a) ∧
    (∀ s, closing (st.sess s).state ∨ (st.sess s).state = .closed → (st.sess s).recvFlows = []) := by
  have ha := Inst.Run.all Inst.All.init h
  have hr' : st.stack = [] := hr
  refine ⟨fun s => ⟨fun hs => ⟨ha.inv.rng.table s hs, ?_⟩, fun hs => ha.held.kept s hs.1 hs.2⟩, ha.held.once, fun s => ?_, fun e s he => ?_, fun a s he => ?_, fun s hs => ?_⟩
  · have := ha.held.table s hs
    simpa [hr'] using this
  · have := ha.held.opening s
    simp only [hr', List.not_mem_nil, and_false, or_false] at this
    exact this
  · have hm := ha.inv.maps.epd e s he
    exact ⟨by simpa [Listed, hr'] using hm.2.2, hm.1, hm.2.1⟩
  · have hm := ha.inv.maps.addr a s he
    exact ⟨by simpa [Listed, hr'] using hm.2, hm.1⟩
  · have : 4 ≤ (st.sess s).state.rank := by
      rcases hs with (hs | hs) | hs <;> simp [hs, SState.rank]
    simpa [hr'] using ha.drops s this

example : ∃ st, Inst.Run world Inst.init shut st shutEvs ∧ atRest st ∧ st.table = [0, 2] ∧ (st.sess 0).state = .nearclose ∧ (st.sess 2).state = .nearclose ∧ (st.sess 1).state = .closed := by
  obtain ⟨st, h, hv⟩ := inst_demo world (fun st => (st.stack, st.table, (st.sess 0).state, (st.sess 2).state, (st.sess 1).state)) shut
    ([], [0, 2], .nearclose, .nearclose, .closed) shutEvs (by decide +kernel)
  simp only [Prod.mk.injEq] at hv
  exact ⟨st, h, hv⟩

/-- **Nothing opens or takes leave for ever.** Whenever no library code is running, each session that is opening or taking leave has a timer, and when that fires
(for one taking leave, after its limit) the session closes at once. -/
theorem C24_limit (C : Crypto) (ops : List Inst.Op) (st : Inst.St) (evs : List Inst.Ev) (h : Inst.Run C Inst.init ops st evs) (hr : atRest st) (s : Nat)
    (hs : opening (st.sess s).state ∨ closing (st.sess s).state) :
    ∃ i st1 st2, Inst.Run C st [.timer i true, .tick] st2 [] ∧ Inst.step C st (.timer i true) = some (st1, []) ∧ (st2.sess s).state = .closed := by
  have ha := Inst.Run.all Inst.All.init h
  have hr' : st.stack = [] := hr
  have hc := ha.inv.safe
  have key : ∀ i st1, Inst.step C st (.timer i true) = some (st1, []) → st1 = push { st with timers := st.timers.eraseIdx i } [.abort s] →
      ∃ st2, Inst.Run C st [.timer i true, .tick] st2 [] ∧ (st2.sess s).state = .closed := by
    intro i st1 hst e
    have h2 : Inst.step C st1 .tick = some (exec C { st1 with stack := st.stack } (.abort s)) := by
      subst e
      simp only [Inst.step, push, hc, stepOk, hr', List.append_nil]
      rfl
    have hne : (st.sess s).state ≠ .closed := by rcases hs with (hs | hs) | (hs | hs) <;> simp [hs]
    have h3 : exec C { st1 with stack := st.stack } (.abort s) = (push (setState { st1 with stack := st.stack } s .closed) [.sendLoop s, .didClose s true], []) := by
      subst e
      rw [exec]
      exact if_neg hne
    rw [h3] at h2
    refine ⟨_, Inst.Run.step (Inst.Run.step .nil hst) h2, ?_⟩
    · simp [push, setState, setS, upd]
  have fire : ∀ t i, st.timers[i]? = some t → (t = .ultimate s ∧ opening (st.sess s).state ∨ t = .near s ∨ t = .far s) →
      Inst.step C st (.timer i true) = some (push { st with timers := st.timers.eraseIdx i } [.abort s], []) := by
    intro t i hi ht
    have e1 : Inst.step C st (.timer i true) = outside C st (.timer i true) := by
      simp [Inst.step, hc, stepOk, hr']
    rw [e1]
    rcases ht with ⟨rfl, ho⟩ | rfl | rfl
    · have : (st.sess s).state.rank < SState.opened.rank := by rcases ho with ho | ho <;> simp [ho, SState.rank]
      simp only [outside, hi, this, if_true]
    · simp only [outside, hi]; simp
    · simp only [outside, hi]
  have hex : ∃ t ∈ st.timers, (t = .ultimate s ∧ opening (st.sess s).state ∨ t = .near s ∨ t = .far s) := by
    rcases hs with hs | hs | hs
    · have := ha.limit.ultimate s hs
      exact ⟨_, by simpa [hr'] using this, .inl ⟨rfl, hs⟩⟩
    · have := ha.limit.near s hs
      exact ⟨_, by simpa [hr'] using this, .inr (.inl rfl)⟩
    · have := ha.limit.far s hs
      exact ⟨_, by simpa [hr'] using this, .inr (.inr rfl)⟩
  obtain ⟨t, ht, hk⟩ := hex
  obtain ⟨i, hi⟩ := List.mem_iff_getElem?.mp ht
  obtain ⟨st2, hrun, hcl⟩ := key i _ (fire t i hi hk) rfl
  exact ⟨i, _, st2, hrun, fire t i hi hk, hcl⟩

example : ∃ st, Inst.Run world Inst.init shut st shutEvs ∧ atRest st ∧ closing (st.sess 2).state := by
  obtain ⟨st, h, hv⟩ := inst_demo world (fun st => (st.stack, (st.sess 2).state)) shut ([], .nearclose) shutEvs (by decide +kernel)
  simp only [Prod.mk.injEq] at hv
  exact ⟨st, h, hv.1, .inl hv.2⟩

/-! ## C57 -/

/-- **Sixteen at most.** At most 16 keying requests wait for a thread, and the count the code keeps of them is right. -/
theorem C57_waiting (C : Crypto) (ops : List Inst.Op) (st : Inst.St) (evs : List Inst.Ev) (h : Inst.Run C Inst.init ops st evs) :
    st.tasks.countP waitsForThread ≤ 16 ∧ st.waiting = st.tasks.countP waitsForThread := by
  have hb := (Inst.Run.all Inst.All.init h).bounds
  have e : waitsForThread = Inst.Task.waiting := by funext t; cases t <;> rfl
  rw [e]
  exact ⟨hb.waiting ▸ hb.few, hb.waiting⟩

private def asked : List Inst.Op := (List.range 20).map (fun i => .iikeying ⟨i, 3, 200 + i, 0, i⟩ .good true)

example : ∃ st evs, Inst.Run world Inst.init asked st evs ∧ st.tasks.countP waitsForThread = 16 := by
  obtain ⟨st, h, hv⟩ := inst_demo world (fun st => st.tasks.countP waitsForThread) asked 16 (List.replicate 16 .keyingAccepted) (by decide +kernel)
  exact ⟨st, _, h, hv⟩

/-- **Strangers cost nothing.** The sessions ever made and the keying requests in hand are together at most the flows the application asked for and the keying
requests that came with a good cookie and a readable certificate; all other packets, whoever sends them and however many, leave no session and no request behind. -/
theorem C57_no_state (C : Crypto) (ops : List Inst.Op) (st : Inst.St) (evs : List Inst.Ev) (h : Inst.Run C Inst.init ops st evs) :
    st.nS + st.tasks.countP asks ≤ ops.countP (fun op => wellAsked op || opensFlow op) := by
  have hb := (Inst.Run.all Inst.All.init h).bounds
  simp only [List.nil_append] at hb
  have h1 := hb.asked
  have h2 := hb.flows
  have h3 := h.takes
  rw [Inst.takes_split] at h3
  have e : asks = Inst.Task.request := by funext t; cases t <;> rfl
  rw [e]
  omega

example : ∃ st evs, Inst.Run world Inst.init (asked ++ [.iikeying ⟨1, 3, 4, 5, 6⟩ .bad true, .iikeying ⟨1, 3, 4, 5, 6⟩ .mismatch true, .garbage 0 1]) st evs ∧
    st.nS = 0 ∧ st.tasks.countP asks = 16 := by
  obtain ⟨st, h, hv⟩ := inst_demo world (fun st => (st.nS, st.tasks.countP asks)) (asked ++ [.iikeying ⟨1, 3, 4, 5, 6⟩ .bad true, .iikeying ⟨1, 3, 4, 5, 6⟩ .mismatch true, .garbage 0 1]) (0, 16)
    (List.replicate 16 .keyingAccepted ++ [.cookieChangeSent]) (by decide +kernel)
  simp only [Prod.mk.injEq] at hv
  exact ⟨st, _, h, hv⟩

/-- **Eighteen early packets at most**, for each session, and at most one change of cookie is followed. -/
theorem C57_early (C : Crypto) (ops : List Inst.Op) (st : Inst.St) (evs : List Inst.Ev) (h : Inst.Run C Inst.init ops st evs) (s : Nat) :
    (st.sess s).early.length ≤ 18 ∧ evs.count (.cookieFollowed s) ≤ 1 := by
  have ha := Inst.Run.all Inst.All.init h
  simp only [List.nil_append] at ha
  have := ha.once.cookie s
  exact ⟨ha.bounds.early s, by omega⟩

private def early : List Inst.Op :=
  [.openFlow 10, .rhello 0 1 100 0 7, .task 0 true, .task 0 true, .cookieChange 0 7 8, .cookieChange 0 8 9] ++ (List.range 30).map (fun i => .garbage 0 i)

example : ∃ st evs, Inst.Run world Inst.init early st evs ∧ (st.sess 0).early = (List.range 18).map (· + 12) ∧ evs.count (.cookieFollowed 0) = 1 := by
  obtain ⟨st, h, hv⟩ := inst_demo world (fun st => (st.sess 0).early) early ((List.range 18).map (· + 12)) [.flowOpened 0 10, .cookieFollowed 0] (by decide +kernel)
  exact ⟨st, _, h, hv, by decide⟩

/-! ## C71 -/

/-- **To whom it was opened.** A flow is bound only to a session whose peer's certificate answers to the name the flow was opened to — unless, while it waited,
the flow was moved to another opening session (see `C71_misdirected`: then it may be any peer). -/
theorem C71_peer_partial (C : Crypto) (hC : ∀ c, C.sel c (C.canon c) = true) (ops : List Inst.Op) (st : Inst.St) (evs : List Inst.Ev)
    (h : Inst.Run C Inst.init ops st evs) (f s e : Nat) (b : Bool) (ho : .flowOpened f e ∈ evs) (hb : .bound f s b ∈ evs) (hm : ∀ o t, .moved f o t ∉ evs) :
    ∃ c, (st.sess s).cert = some c ∧ C.sel c e = true := by
  have hp := Inst.Run.peer hC h
  have hn := hp.name f e ho
  rcases hp.bound f s b hb with hx | hx
  · exfalso
    obtain ⟨x, hx1, hx2⟩ := List.any_eq_true.mp hx
    cases x <;> simp [Inst.Ev.moves] at hx2
    subst hx2
    exact hm _ _ hx1
  · rwa [hn] at hx

example : ∃ st, Inst.Run world Inst.init up st upEvs ∧ .flowOpened 0 10 ∈ upEvs ∧ .bound 0 0 true ∈ upEvs ∧ (∀ o t, .moved 0 o t ∉ upEvs) ∧ ∀ c, world.sel c (world.canon c) = true := by
  obtain ⟨st, h, _⟩ := up_run
  exact ⟨st, h, by decide, by decide, by simp [upEvs], world_sel⟩

private def misdirect : List Inst.Op :=
  [.openFlow 10, .openFlow 11, .openFlow 20, .rhello 0 1 100 0 7, .task 0 true, .task 0 true, .rhello 1 1 100 0 7, .task 1 true, .task 1 true] ++ ticks 29 ++
  [.rikeying 0 5, .task 1 true, .task 1 true] ++ ticks 4
private def misdirectEvs : List Inst.Ev :=
  [.flowOpened 0 10, .flowOpened 1 11, .flowOpened 2 20, .moved 1 1 0, .released 1, .moved 2 2 0, .released 2, .opened 0, .replayed 0 [], .bound 0 0 true, .bound 1 0 true, .bound 2 0 true]

/-- **But not always.** Flows are opened to the names 10, 11 and 20, of which a peer with certificate 1 has the first two. It answers both; the second answer
finds that a session with it is already opening, and `onSessionWillOpen` moves *every* flow that waits for a session not yet answered (SendFlow.cpp:285-300): the
flow opened to 20 too. It is bound to the session with certificate 1, which does not answer to the name 20. -/
theorem C71_misdirected : ∃ (C : Crypto) (ops : List Inst.Op) (st : Inst.St) (evs : List Inst.Ev), (∀ c, C.sel c (C.canon c) = true) ∧ Inst.Run C Inst.init ops st evs ∧
    .flowOpened 2 20 ∈ evs ∧ .bound 2 0 true ∈ evs ∧ (st.sess 0).state = .opened ∧ (st.sess 0).cert = some 1 ∧ C.sel 1 20 = false := by
  obtain ⟨st, h, hv⟩ := inst_demo world (fun st => ((st.sess 0).state, (st.sess 0).cert)) misdirect (.opened, some 1) misdirectEvs (by decide +kernel)
  simp only [Prod.mk.injEq] at hv
  exact ⟨world, _, st, _, world_sel, h, by decide, by decide, hv.1, hv.2, by decide⟩

/-! ## C72 -/

/-- **Still open, or told.** Take any flow that is open and has an exception callback. However the history goes on, as long as the application does not close the
flow itself, at every moment when no library code runs the flow is still open, with its callback, or the callback has been called. -/
theorem C72_told (C : Crypto) (ops ops' : List Inst.Op) (st st' : Inst.St) (evs evs' : List Inst.Ev) (h : Inst.Run C Inst.init ops st evs) (f : Nat) (hf : f < st.nF)
    (ho : (st.flow f).isOpen = true) (hh : (st.flow f).handler = true) (h' : Inst.Run C st ops' st' evs') (hc : .closeCalled f ∉ evs') (hr : atRest st') :
    ((st'.flow f).isOpen = true ∧ (st'.flow f).handler = true) ∨ .exception f ∈ evs' := by
  have hr' : st'.stack = [] := hr
  rcases (Inst.Run.told (h.inv Inst.Inv.init) hf ho hh h' hc).1 with h1 | h1 | h1
  · exact .inl h1
  · simp [hr'] at h1
  · exact .inr h1

example : ∃ st st', Inst.Run world Inst.init up st upEvs ∧ 0 < st.nF ∧ (st.flow 0).isOpen = true ∧ (st.flow 0).handler = true ∧
    Inst.Run world st ([.unanswered 0] ++ ticks 5 ++ [.ret] ++ ticks 7) st' [.exception 0] ∧ atRest st' := by
  obtain ⟨st, st', h, hv, h', hv'⟩ := inst_demo2 world (fun st => (st.nF, (st.flow 0).isOpen, (st.flow 0).handler)) (fun st => st.stack) up
    ([.unanswered 0] ++ ticks 5 ++ [.ret] ++ ticks 7) (1, true, true) [] upEvs [.exception 0] (by decide +kernel)
  simp only [Prod.mk.injEq] at hv
  exact ⟨st, st', h, by omega, hv.2.1, hv.2.2, h', hv'⟩

/-- **Nothing after closing.** Once the application closes a flow (not from inside a callback, where the flow's end may already be under way), the flow's exception
callback is not called any more, however the history goes on, unless the application sets one again. -/
theorem C72_closed_silent (C : Crypto) (ops ops' : List Inst.Op) (st st1 st' : Inst.St) (evs ev1 evs' : List Inst.Ev) (_h : Inst.Run C Inst.init ops st evs) (hr : atRest st)
    (f : Nat) (hf : f < st.nF) (hs : Inst.step C st (.close f) = some (st1, ev1)) (h' : Inst.Run C st1 ops' st' evs') (hc : .handlerSet f ∉ evs') : .exception f ∉ evs' :=
  (Inst.Run.silent (Inst.closed_silent hr hf hs) h' hc).2

/-- the flow of `C72_told`'s case, with data written, is closed before its session dies -/
example : ∃ st st' evs', Inst.Run world Inst.init (up ++ [.write 0]) st upEvs ∧ atRest st ∧ 0 < st.nF ∧ (st.flow 0).handler = true ∧
    Inst.Run world st ([.close 0] ++ ticks 2 ++ [.unanswered 0] ++ ticks 11) st' evs' ∧ evs' = [.closeCalled 0] ∧ (st'.sess 0).state = .nearclose := by
  obtain ⟨st, st', h, hv, h', hv'⟩ := inst_demo2 world (fun st => (st.stack, st.nF, (st.flow 0).handler)) (fun st => (st.sess 0).state) (up ++ [.write 0])
    ([.close 0] ++ ticks 2 ++ [.unanswered 0] ++ ticks 11) ([], 1, true) .nearclose upEvs [.closeCalled 0] (by decide +kernel)
  simp only [Prod.mk.injEq] at hv
  exact ⟨st, st', _, h, hv.1, by omega, hv.2.2, h', rfl, hv'⟩

/-- **What an open flow has.** Whenever no library code is running, a flow that is open is bound to an open session, or waits for a session that is opening (and so
will open or be ended by its timer, `C24_limit`), or was bound to a session when that was no longer open: the case of `C72_forgotten`. -/
theorem C72_rest_partial (C : Crypto) (ops : List Inst.Op) (st : Inst.St) (evs : List Inst.Ev) (h : Inst.Run C Inst.init ops st evs) (hr : atRest st) (f : Nat)
    (hf : f < st.nF) (ho : (st.flow f).isOpen = true) :
    (∃ s, (st.flow f).sess = some s ∧ ((st.sess s).state = .opened ∨ .bound f s false ∈ evs)) ∨ (∃ s, (st.flow f).opening = some s ∧ opening (st.sess s).state) := by
  have hu := Inst.Run.used h
  have ha := Inst.Run.all Inst.All.init h
  have hr' : st.stack = [] := hr
  simp only [List.nil_append] at ha
  cases hs : (st.flow f).sess with
  | some s =>
    left
    refine ⟨s, rfl, ?_⟩
    have h3 := hu f s hs
    rcases Nat.lt_or_ge (st.sess s).state.rank 4 with h4 | h4
    · left
      cases hx : (st.sess s).state <;> rw [hx] at h3 h4 <;> simp [SState.rank] at h3 h4 ⊢
    · right
      have := ha.late s h4
      simp only [hr', List.not_mem_nil, false_or] at this
      exact this f ((ha.inv.bnd.listed s f).mpr hs)
  | none =>
    right
    have := (ha.alive.live f hf ho).2
    rw [hs] at this
    simp only [ne_eq, not_true_eq_false, false_or] at this
    cases hp : (st.flow f).opening with
    | none => exact absurd hp this
    | some s =>
      refine ⟨s, rfl, ?_⟩
      have hw := ha.waits f s hp
      simp only [Inst.Awaits, hr', List.not_mem_nil, Inst.Opens.nil, Inst.Closes.nil, or_self, and_false, or_false] at hw
      exact hw

example : ∃ st evs, Inst.Run world Inst.init shut st evs ∧ atRest st ∧ 0 < st.nF := by
  obtain ⟨st, h, hv⟩ := inst_demo world (fun st => (st.stack, st.nF)) shut ([], 2) shutEvs (by decide +kernel)
  simp only [Prod.mk.injEq] at hv
  exact ⟨st, _, h, hv.1, by omega⟩

/-- **Forgotten.** A session is aborted; its receiving flow's completion callback opens another flow to the same peer. The session is still listed under its name, so
the new flow is bound to it, after the loop that tells its flows. When all is done the flow is open, has a callback, and is bound to a session that is closed and
let go; and whatever happens from then on, as long as the application does not close it, it stays so and its callback is never called. -/
theorem C72_forgotten : ∃ (C : Crypto) (ops : List Inst.Op) (st : Inst.St) (evs : List Inst.Ev) (f s : Nat), Inst.Run C Inst.init ops st evs ∧ atRest st ∧
    (st.flow f).handler = true ∧ .released s ∈ evs ∧
    ∀ ops' st' evs', Inst.Run C st ops' st' evs' → .closeCalled f ∉ evs' →
      (st'.flow f).isOpen = true ∧ (st'.flow f).sess = some s ∧ (st'.sess s).state = .closed ∧ .exception f ∉ evs' := by
  obtain ⟨st, h, hv⟩ := inst_demo world (fun st => (st.stack, (st.flow 1).handler, (st.flow 1).isOpen, (st.flow 1).sess, (st.flow 1).state, (st.sess 0).state, st.nF)) zombie
    ([], true, true, some 0, .opened, .closed, 2) zombieEvs (by decide +kernel)
  simp only [Prod.mk.injEq] at hv
  obtain ⟨h1, h2, h3, h4, h5, h6, h7⟩ := hv
  refine ⟨world, zombie, st, zombieEvs, 1, 0, h, h1, h2, by decide, ?_⟩
  have h0 : Inst.Forgotten st 1 0 := ⟨h4, h6, ⟨h5, h3, by omega⟩, by simp [h1], by simp [h1], by simp [h1], by simp [h1], by simp [h1]⟩
  have hi := h.inv Inst.Inv.init
  intro ops' st' evs' h' hc
  have key : Inst.Forgotten st' 1 0 ∧ .exception 1 ∉ evs' := by
    induction h' with
    | nil => exact ⟨h0, by simp⟩
    | step hr hs ih =>
      have hc' := hc
      rw [List.mem_append, not_or] at hc'
      obtain ⟨i1, i2⟩ := ih hc'.1
      obtain ⟨j1, j2⟩ := i1.way (hr.inv hi) (Inst.step_way hs) hc'.2
      exact ⟨j1, by simp only [List.mem_append, not_or]; exact ⟨i2, j2⟩⟩
  exact ⟨key.1.waits.2.1, key.1.bound, key.1.gone, key.2⟩

/-! ## C73 -/

/-- **Once, and only when nothing is left.** The completion of the shutdown is reported at most once, after the application asked for it, and at that moment there
is no session and no packet waiting to be sent. -/
theorem C73_once (C : Crypto) (ops : List Inst.Op) (st : Inst.St) (evs : List Inst.Ev) (h : Inst.Run C Inst.init ops st evs) :
    evs.count .shutdownDone ≤ 1 ∧
    ∀ op st' ev, Inst.step C st op = some (st', ev) → .shutdownDone ∈ ev → st'.shutdown = true ∧ st'.table = [] ∧ st'.startup = 0 := by
  have := (Inst.Run.all Inst.All.init h).once.done
  simp only [List.nil_append] at this
  exact ⟨by omega, fun op st' ev hs hd => Inst.done_way (Inst.step_way hs) hd⟩

example : ∃ st, Inst.Run world Inst.init shutDone st shutDoneEvs ∧ atRest st ∧ st.done = true ∧ shutDoneEvs.count .shutdownDone = 1 := by
  obtain ⟨st, h, hv⟩ := inst_demo world (fun st => (st.stack, st.done)) shutDone ([], true) shutDoneEvs (by decide +kernel)
  simp only [Prod.mk.injEq] at hv
  exact ⟨st, h, hv.1, hv.2, by decide⟩

/-- **It gets there.** Once the shutdown is asked for, then whenever no library code runs either the completion has been reported, or the shutdown's own task is still to
run, or a closing session's timer is running (which ends it, `C24_limit`), or a packet waits for its interface. -/
theorem C73_completes (C : Crypto) (ops : List Inst.Op) (st : Inst.St) (evs : List Inst.Ev) (h : Inst.Run C Inst.init ops st evs) (hr : atRest st)
    (hs : st.shutdown = true) :
    .shutdownDone ∈ evs ∨ st.tasks.any shutsLater = true ∨ (∃ s, closing (st.sess s).state ∧ (.near s ∈ st.timers ∨ .far s ∈ st.timers)) ∨ st.scheduled = true := by
  have ha := Inst.Run.all Inst.All.init h
  simp only [List.nil_append] at ha
  have hr' : st.stack = [] := hr
  have e : shutsLater = Inst.Task.shuts := by funext t; cases t <;> rfl
  rw [e]
  by_cases h1 : st.tasks.any Inst.Task.shuts = true
  · exact .inr (.inl h1)
  by_cases h2 : st.scheduled = true
  · exact .inr (.inr (.inr h2))
  by_cases h3 : st.table = []
  · left
    have h4 : st.startup = 0 := (ha.shuts.sending).resolve_right h2
    have h5 : st.done = true := by
      rcases ha.shuts.told hs h3 h4 with h5 | h5 | h5 | h5
      · exact h5
      · exact absurd h5 h1
      · simp [hr'] at h5
      · exact absurd h5 h2
    have h6 := ha.once.done
    rw [if_pos h5] at h6
    exact List.count_pos_iff.mp (by omega)
  · right; right; left
    obtain ⟨s, hs1⟩ := List.exists_mem_of_ne_nil _ h3
    have h4 := ha.inv.rng.table s hs1
    have h5 : (st.sess s).state ≠ .closed := by simpa [hr'] using ha.held.table s hs1
    have h6 := ((ha.shuts.ends hs).resolve_left h1) s h4
    simp only [hr', Inst.Ends.nil, or_false] at h6
    refine ⟨s, ?_⟩
    cases hx : (st.sess s).state <;> rw [hx] at h6 h5 <;> simp [SState.rank] at h6 h5
    · exact ⟨.inl rfl, .inl (by simpa [hr'] using ha.limit.near s hx)⟩
    · exact ⟨.inr rfl, .inr (by simpa [hr'] using ha.limit.far s hx)⟩

example : ∃ st, Inst.Run world Inst.init shut st shutEvs ∧ atRest st ∧ st.shutdown = true ∧ .shutdownDone ∉ shutEvs ∧ st.timers = [.ultimate 1, .near 0, .near 2] := by
  obtain ⟨st, h, hv⟩ := inst_demo world (fun st => (st.stack, st.shutdown, st.timers)) shut ([], true, [.ultimate 1, .near 0, .near 2]) shutEvs (by decide +kernel)
  simp only [Prod.mk.injEq] at hv
  exact ⟨st, h, hv.1, hv.2.1, by decide, hv.2.2⟩

/-- **Nothing new.** If the shutdown was asked for by a moment when no library code runs, no session is made after that moment. (Asked for from inside a callback, one
more session may be made: `C73_reopens`.) -/
theorem C73_no_new_partial (C : Crypto) (ops ops' : List Inst.Op) (st st' : Inst.St) (evs evs' : List Inst.Ev) (_h : Inst.Run C Inst.init ops st evs) (hr : atRest st)
    (hs : st.shutdown = true) (h' : Inst.Run C st ops' st' evs') : st'.nS = st.nS := by
  have hr' : st.stack = [] := hr
  have key : st'.shutdown = true ∧ (∀ r, .respond r ∉ st'.stack) ∧ st'.nS = st.nS := by
    induction h' with
    | nil => exact ⟨hs, by simp [hr'], rfl⟩
    | step _ hst ih =>
      obtain ⟨i1, i2, i3⟩ := ih
      obtain ⟨j1, j2, j3⟩ := Inst.sealed_way i1 i2 (Inst.step_way hst)
      exact ⟨j1, j2, j3.trans i3⟩
  exact key.2.2

example : ∃ st st' evs', Inst.Run world Inst.init shut st shutEvs ∧ atRest st ∧ st.shutdown = true ∧
    Inst.Run world st [.openFlow 10, .iikeying ⟨6, 3, 104, 0, 3⟩ .good true, .timer 1 true] st' evs' := by
  obtain ⟨st, st', h, hv, h', _⟩ := inst_demo2 world (fun st => (st.stack, st.shutdown)) (fun st => st.nS) shut
    [.openFlow 10, .iikeying ⟨6, 3, 104, 0, 3⟩ .good true, .timer 1 true] ([], true) 3 shutEvs [] (by decide +kernel)
  simp only [Prod.mk.injEq] at hv
  exact ⟨st, st', [], h, hv.1, hv.2, h'⟩

private def reopen : List Inst.Op :=
  up ++ [.iikeying ⟨6, 1, 100, 0, 3⟩ .good true, .task 0 true, .task 0 true, .task 0 true] ++ ticks 6 ++ [.shutdown true, .ret] ++ ticks 8
private def reopenEvs : List Inst.Ev := upEvs ++ [.keyingAccepted, .exception 0, .released 0, .shutdownDone, .opened 1, .replayed 1 []]

/-- **But reported too early.** A peer asks for a session that overrides one it has; when that is aborted, its flow's exception callback shuts the instance down. The
completion of the shutdown is reported (no session is left) — and then the request is answered, for it is not looked at again whether the instance is shutting down
(RTMFP.cpp:660-690): a session opens after the completion. -/
theorem C73_reopens : ∃ (C : Crypto) (ops : List Inst.Op) (st : Inst.St) (evs e1 e2 : List Inst.Ev), Inst.Run C Inst.init ops st evs ∧ atRest st ∧
    evs = e1 ++ .shutdownDone :: e2 ∧ .opened 1 ∈ e2 ∧ (st.sess 1).state = .opened ∧ st.table = [1] := by
  obtain ⟨st, h, hv⟩ := inst_demo world (fun st => (st.stack, (st.sess 1).state, st.table)) reopen ([], .opened, [1]) reopenEvs (by decide +kernel)
  simp only [Prod.mk.injEq] at hv
  exact ⟨world, _, st, _, upEvs ++ [.keyingAccepted, .exception 0, .released 0], [.opened 1, .replayed 1 []], h, hv.1, by decide, by decide, hv.2.1, hv.2.2⟩

/-! ## C74 -/

/-- **An open session ends only for cause.** If a session that has opened is not open any more, then something happened, while it was open, that can end a session
(`endsSession`): the application closed it, the shutdown ran, it was idle, the far end didn't answer or closed it, its own keying failed belatedly, or somebody at its
address opened another session with a certificate that overrides its own. Flows that open, fail and close, other sessions, timers, strangers don't end it. -/
theorem C74_cause (C : Crypto) (ops : List Inst.Op) (st : Inst.St) (evs : List Inst.Ev) (h : Inst.Run C Inst.init ops st evs) (s : Nat) (ho : .opened s ∈ evs)
    (hc : (st.sess s).state ≠ .opened) :
    ∃ ops1 op ops2 st1 evs1, ops = ops1 ++ op :: ops2 ∧ Inst.Run C Inst.init ops1 st1 evs1 ∧ (st1.sess s).state = .opened ∧ endsSession C st1 s op := by
  rcases Inst.Run.keeps h ho with h1 | h1
  · exact absurd h1.isOpen hc
  · exact h1

/-- all flows of a session come to their end, another asks to be opened, and it stays open until the far end doesn't answer -/
example : ∃ ops st evs, Inst.Run world Inst.init (up ++ ops ++ [.unanswered 0]) st evs ∧ .opened 0 ∈ evs ∧ (st.sess 0).state ≠ .opened ∧ ops.length = 10 := by
  obtain ⟨st, h, hv⟩ := inst_demo world (fun st => (st.sess 0).state)
    (up ++ ([.close 0] ++ ticks 2 ++ [.openFlow 10, .userData 0 true, .ret, .openFlow 20, .excChunk 0 1] ++ ticks 2) ++ [.unanswered 0]) .nearclose
    (upEvs ++ [.closeCalled 0, .flowOpened 1 10, .bound 1 0 true, .recvFlow 0 0, .flowOpened 2 20]) (by decide +kernel)
  exact ⟨_, st, _, h, by decide, by rw [hv]; decide, by decide⟩

end Rtmfp
