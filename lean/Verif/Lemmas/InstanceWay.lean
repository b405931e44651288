import Verif.Lemmas.Instance
import Verif.Lemmas.InstanceFlow
/-! # Instances: every step, case by case -/
namespace Rtmfp
namespace Inst

theorem filter_ne_self {l : List Nat} {s : Nat} (h : s ∉ l) : l.filter (· ≠ s) = l := by
  rw [List.filter_eq_self]; intro a ha; simp; rintro rfl; exact h ha

def setStack (st : St) (l : List Frame) : St := { st with stack := l }
def setTasks (st : St) (l : List Task) : St := { st with tasks := l }
def setTimers (st : St) (l : List Tm) : St := { st with timers := l }
def setWaiting (st : St) (n : Nat) : St := { st with waiting := n }
def setStartup (st : St) (n : Nat) (b : Bool) : St := { st with startup := n, scheduled := b }
def setShutdown (st : St) : St := { st with shutdown := true }
def setDone (st : St) : St := { st with done := true }
def crash (st : St) : St := { st with stack := [], crashed := true }
def newR (st : St) (x : RFlow) : St := { st with nR := st.nR + 1, rflow := upd st.rflow st.nR x }
def moveAddr (st : St) (s a : Nat) : St :=
  { st with byAddr := upd (if st.byAddr (st.sess s).addr = some s then upd st.byAddr (st.sess s).addr none else st.byAddr) a (some s) }

@[simp, grind =] theorem setStack_nS (st : St) (l : List Frame) : (setStack st l).nS = st.nS := rfl
@[simp, grind =] theorem setStack_sess (st : St) (l : List Frame) (j : Nat) : (setStack st l).sess j = st.sess j := rfl
@[simp, grind =] theorem setStack_nF (st : St) (l : List Frame) : (setStack st l).nF = st.nF := rfl
@[simp, grind =] theorem setStack_flow (st : St) (l : List Frame) (j : Nat) : (setStack st l).flow j = st.flow j := rfl
@[simp, grind =] theorem setStack_nR (st : St) (l : List Frame) : (setStack st l).nR = st.nR := rfl
@[simp, grind =] theorem setStack_rflow (st : St) (l : List Frame) (j : Nat) : (setStack st l).rflow j = st.rflow j := rfl
@[simp, grind =] theorem setStack_table (st : St) (l : List Frame) : (setStack st l).table = st.table := rfl
@[simp, grind =] theorem setStack_openingS (st : St) (l : List Frame) : (setStack st l).openingS = st.openingS := rfl
@[simp, grind =] theorem setStack_openingF (st : St) (l : List Frame) : (setStack st l).openingF = st.openingF := rfl
@[simp, grind =] theorem setStack_byAddr (st : St) (l : List Frame) (j : Nat) : (setStack st l).byAddr j = st.byAddr j := rfl
@[simp, grind =] theorem setStack_byEpd (st : St) (l : List Frame) (j : Nat) : (setStack st l).byEpd j = st.byEpd j := rfl
@[simp, grind =] theorem setStack_shutdown (st : St) (l : List Frame) : (setStack st l).shutdown = st.shutdown := rfl
@[simp, grind =] theorem setStack_done (st : St) (l : List Frame) : (setStack st l).done = st.done := rfl
@[simp, grind =] theorem setStack_waiting (st : St) (l : List Frame) : (setStack st l).waiting = st.waiting := rfl
@[simp, grind =] theorem setStack_startup (st : St) (l : List Frame) : (setStack st l).startup = st.startup := rfl
@[simp, grind =] theorem setStack_scheduled (st : St) (l : List Frame) : (setStack st l).scheduled = st.scheduled := rfl
@[simp, grind =] theorem setStack_tasks (st : St) (l : List Frame) : (setStack st l).tasks = st.tasks := rfl
@[simp, grind =] theorem setStack_timers (st : St) (l : List Frame) : (setStack st l).timers = st.timers := rfl
@[simp, grind =] theorem setStack_stack (st : St) (l : List Frame) : (setStack st l).stack = l := rfl
@[simp, grind =] theorem setStack_crashed (st : St) (l : List Frame) : (setStack st l).crashed = st.crashed := rfl

@[simp, grind =] theorem setTasks_nS (st : St) (l : List Task) : (setTasks st l).nS = st.nS := rfl
@[simp, grind =] theorem setTasks_sess (st : St) (l : List Task) (j : Nat) : (setTasks st l).sess j = st.sess j := rfl
@[simp, grind =] theorem setTasks_nF (st : St) (l : List Task) : (setTasks st l).nF = st.nF := rfl
@[simp, grind =] theorem setTasks_flow (st : St) (l : List Task) (j : Nat) : (setTasks st l).flow j = st.flow j := rfl
@[simp, grind =] theorem setTasks_nR (st : St) (l : List Task) : (setTasks st l).nR = st.nR := rfl
@[simp, grind =] theorem setTasks_rflow (st : St) (l : List Task) (j : Nat) : (setTasks st l).rflow j = st.rflow j := rfl
@[simp, grind =] theorem setTasks_table (st : St) (l : List Task) : (setTasks st l).table = st.table := rfl
@[simp, grind =] theorem setTasks_openingS (st : St) (l : List Task) : (setTasks st l).openingS = st.openingS := rfl
@[simp, grind =] theorem setTasks_openingF (st : St) (l : List Task) : (setTasks st l).openingF = st.openingF := rfl
@[simp, grind =] theorem setTasks_byAddr (st : St) (l : List Task) (j : Nat) : (setTasks st l).byAddr j = st.byAddr j := rfl
@[simp, grind =] theorem setTasks_byEpd (st : St) (l : List Task) (j : Nat) : (setTasks st l).byEpd j = st.byEpd j := rfl
@[simp, grind =] theorem setTasks_shutdown (st : St) (l : List Task) : (setTasks st l).shutdown = st.shutdown := rfl
@[simp, grind =] theorem setTasks_done (st : St) (l : List Task) : (setTasks st l).done = st.done := rfl
@[simp, grind =] theorem setTasks_waiting (st : St) (l : List Task) : (setTasks st l).waiting = st.waiting := rfl
@[simp, grind =] theorem setTasks_startup (st : St) (l : List Task) : (setTasks st l).startup = st.startup := rfl
@[simp, grind =] theorem setTasks_scheduled (st : St) (l : List Task) : (setTasks st l).scheduled = st.scheduled := rfl
@[simp, grind =] theorem setTasks_tasks (st : St) (l : List Task) : (setTasks st l).tasks = l := rfl
@[simp, grind =] theorem setTasks_timers (st : St) (l : List Task) : (setTasks st l).timers = st.timers := rfl
@[simp, grind =] theorem setTasks_stack (st : St) (l : List Task) : (setTasks st l).stack = st.stack := rfl
@[simp, grind =] theorem setTasks_crashed (st : St) (l : List Task) : (setTasks st l).crashed = st.crashed := rfl

@[simp, grind =] theorem setTimers_nS (st : St) (l : List Tm) : (setTimers st l).nS = st.nS := rfl
@[simp, grind =] theorem setTimers_sess (st : St) (l : List Tm) (j : Nat) : (setTimers st l).sess j = st.sess j := rfl
@[simp, grind =] theorem setTimers_nF (st : St) (l : List Tm) : (setTimers st l).nF = st.nF := rfl
@[simp, grind =] theorem setTimers_flow (st : St) (l : List Tm) (j : Nat) : (setTimers st l).flow j = st.flow j := rfl
@[simp, grind =] theorem setTimers_nR (st : St) (l : List Tm) : (setTimers st l).nR = st.nR := rfl
@[simp, grind =] theorem setTimers_rflow (st : St) (l : List Tm) (j : Nat) : (setTimers st l).rflow j = st.rflow j := rfl
@[simp, grind =] theorem setTimers_table (st : St) (l : List Tm) : (setTimers st l).table = st.table := rfl
@[simp, grind =] theorem setTimers_openingS (st : St) (l : List Tm) : (setTimers st l).openingS = st.openingS := rfl
@[simp, grind =] theorem setTimers_openingF (st : St) (l : List Tm) : (setTimers st l).openingF = st.openingF := rfl
@[simp, grind =] theorem setTimers_byAddr (st : St) (l : List Tm) (j : Nat) : (setTimers st l).byAddr j = st.byAddr j := rfl
@[simp, grind =] theorem setTimers_byEpd (st : St) (l : List Tm) (j : Nat) : (setTimers st l).byEpd j = st.byEpd j := rfl
@[simp, grind =] theorem setTimers_shutdown (st : St) (l : List Tm) : (setTimers st l).shutdown = st.shutdown := rfl
@[simp, grind =] theorem setTimers_done (st : St) (l : List Tm) : (setTimers st l).done = st.done := rfl
@[simp, grind =] theorem setTimers_waiting (st : St) (l : List Tm) : (setTimers st l).waiting = st.waiting := rfl
@[simp, grind =] theorem setTimers_startup (st : St) (l : List Tm) : (setTimers st l).startup = st.startup := rfl
@[simp, grind =] theorem setTimers_scheduled (st : St) (l : List Tm) : (setTimers st l).scheduled = st.scheduled := rfl
@[simp, grind =] theorem setTimers_tasks (st : St) (l : List Tm) : (setTimers st l).tasks = st.tasks := rfl
@[simp, grind =] theorem setTimers_timers (st : St) (l : List Tm) : (setTimers st l).timers = l := rfl
@[simp, grind =] theorem setTimers_stack (st : St) (l : List Tm) : (setTimers st l).stack = st.stack := rfl
@[simp, grind =] theorem setTimers_crashed (st : St) (l : List Tm) : (setTimers st l).crashed = st.crashed := rfl

@[simp, grind =] theorem setWaiting_nS (st : St) (n : Nat) : (setWaiting st n).nS = st.nS := rfl
@[simp, grind =] theorem setWaiting_sess (st : St) (n : Nat) (j : Nat) : (setWaiting st n).sess j = st.sess j := rfl
@[simp, grind =] theorem setWaiting_nF (st : St) (n : Nat) : (setWaiting st n).nF = st.nF := rfl
@[simp, grind =] theorem setWaiting_flow (st : St) (n : Nat) (j : Nat) : (setWaiting st n).flow j = st.flow j := rfl
@[simp, grind =] theorem setWaiting_nR (st : St) (n : Nat) : (setWaiting st n).nR = st.nR := rfl
@[simp, grind =] theorem setWaiting_rflow (st : St) (n : Nat) (j : Nat) : (setWaiting st n).rflow j = st.rflow j := rfl
@[simp, grind =] theorem setWaiting_table (st : St) (n : Nat) : (setWaiting st n).table = st.table := rfl
@[simp, grind =] theorem setWaiting_openingS (st : St) (n : Nat) : (setWaiting st n).openingS = st.openingS := rfl
@[simp, grind =] theorem setWaiting_openingF (st : St) (n : Nat) : (setWaiting st n).openingF = st.openingF := rfl
@[simp, grind =] theorem setWaiting_byAddr (st : St) (n : Nat) (j : Nat) : (setWaiting st n).byAddr j = st.byAddr j := rfl
@[simp, grind =] theorem setWaiting_byEpd (st : St) (n : Nat) (j : Nat) : (setWaiting st n).byEpd j = st.byEpd j := rfl
@[simp, grind =] theorem setWaiting_shutdown (st : St) (n : Nat) : (setWaiting st n).shutdown = st.shutdown := rfl
@[simp, grind =] theorem setWaiting_done (st : St) (n : Nat) : (setWaiting st n).done = st.done := rfl
@[simp, grind =] theorem setWaiting_waiting (st : St) (n : Nat) : (setWaiting st n).waiting = n := rfl
@[simp, grind =] theorem setWaiting_startup (st : St) (n : Nat) : (setWaiting st n).startup = st.startup := rfl
@[simp, grind =] theorem setWaiting_scheduled (st : St) (n : Nat) : (setWaiting st n).scheduled = st.scheduled := rfl
@[simp, grind =] theorem setWaiting_tasks (st : St) (n : Nat) : (setWaiting st n).tasks = st.tasks := rfl
@[simp, grind =] theorem setWaiting_timers (st : St) (n : Nat) : (setWaiting st n).timers = st.timers := rfl
@[simp, grind =] theorem setWaiting_stack (st : St) (n : Nat) : (setWaiting st n).stack = st.stack := rfl
@[simp, grind =] theorem setWaiting_crashed (st : St) (n : Nat) : (setWaiting st n).crashed = st.crashed := rfl

@[simp, grind =] theorem setStartup_nS (st : St) (n : Nat) (b : Bool) : (setStartup st n b).nS = st.nS := rfl
@[simp, grind =] theorem setStartup_sess (st : St) (n : Nat) (b : Bool) (j : Nat) : (setStartup st n b).sess j = st.sess j := rfl
@[simp, grind =] theorem setStartup_nF (st : St) (n : Nat) (b : Bool) : (setStartup st n b).nF = st.nF := rfl
@[simp, grind =] theorem setStartup_flow (st : St) (n : Nat) (b : Bool) (j : Nat) : (setStartup st n b).flow j = st.flow j := rfl
@[simp, grind =] theorem setStartup_nR (st : St) (n : Nat) (b : Bool) : (setStartup st n b).nR = st.nR := rfl
@[simp, grind =] theorem setStartup_rflow (st : St) (n : Nat) (b : Bool) (j : Nat) : (setStartup st n b).rflow j = st.rflow j := rfl
@[simp, grind =] theorem setStartup_table (st : St) (n : Nat) (b : Bool) : (setStartup st n b).table = st.table := rfl
@[simp, grind =] theorem setStartup_openingS (st : St) (n : Nat) (b : Bool) : (setStartup st n b).openingS = st.openingS := rfl
@[simp, grind =] theorem setStartup_openingF (st : St) (n : Nat) (b : Bool) : (setStartup st n b).openingF = st.openingF := rfl
@[simp, grind =] theorem setStartup_byAddr (st : St) (n : Nat) (b : Bool) (j : Nat) : (setStartup st n b).byAddr j = st.byAddr j := rfl
@[simp, grind =] theorem setStartup_byEpd (st : St) (n : Nat) (b : Bool) (j : Nat) : (setStartup st n b).byEpd j = st.byEpd j := rfl
@[simp, grind =] theorem setStartup_shutdown (st : St) (n : Nat) (b : Bool) : (setStartup st n b).shutdown = st.shutdown := rfl
@[simp, grind =] theorem setStartup_done (st : St) (n : Nat) (b : Bool) : (setStartup st n b).done = st.done := rfl
@[simp, grind =] theorem setStartup_waiting (st : St) (n : Nat) (b : Bool) : (setStartup st n b).waiting = st.waiting := rfl
@[simp, grind =] theorem setStartup_startup (st : St) (n : Nat) (b : Bool) : (setStartup st n b).startup = n := rfl
@[simp, grind =] theorem setStartup_scheduled (st : St) (n : Nat) (b : Bool) : (setStartup st n b).scheduled = b := rfl
@[simp, grind =] theorem setStartup_tasks (st : St) (n : Nat) (b : Bool) : (setStartup st n b).tasks = st.tasks := rfl
@[simp, grind =] theorem setStartup_timers (st : St) (n : Nat) (b : Bool) : (setStartup st n b).timers = st.timers := rfl
@[simp, grind =] theorem setStartup_stack (st : St) (n : Nat) (b : Bool) : (setStartup st n b).stack = st.stack := rfl
@[simp, grind =] theorem setStartup_crashed (st : St) (n : Nat) (b : Bool) : (setStartup st n b).crashed = st.crashed := rfl

@[simp, grind =] theorem setShutdown_nS (st : St)  : (setShutdown st).nS = st.nS := rfl
@[simp, grind =] theorem setShutdown_sess (st : St)  (j : Nat) : (setShutdown st).sess j = st.sess j := rfl
@[simp, grind =] theorem setShutdown_nF (st : St)  : (setShutdown st).nF = st.nF := rfl
@[simp, grind =] theorem setShutdown_flow (st : St)  (j : Nat) : (setShutdown st).flow j = st.flow j := rfl
@[simp, grind =] theorem setShutdown_nR (st : St)  : (setShutdown st).nR = st.nR := rfl
@[simp, grind =] theorem setShutdown_rflow (st : St)  (j : Nat) : (setShutdown st).rflow j = st.rflow j := rfl
@[simp, grind =] theorem setShutdown_table (st : St)  : (setShutdown st).table = st.table := rfl
@[simp, grind =] theorem setShutdown_openingS (st : St)  : (setShutdown st).openingS = st.openingS := rfl
@[simp, grind =] theorem setShutdown_openingF (st : St)  : (setShutdown st).openingF = st.openingF := rfl
@[simp, grind =] theorem setShutdown_byAddr (st : St)  (j : Nat) : (setShutdown st).byAddr j = st.byAddr j := rfl
@[simp, grind =] theorem setShutdown_byEpd (st : St)  (j : Nat) : (setShutdown st).byEpd j = st.byEpd j := rfl
@[simp, grind =] theorem setShutdown_shutdown (st : St)  : (setShutdown st).shutdown = true := rfl
@[simp, grind =] theorem setShutdown_done (st : St)  : (setShutdown st).done = st.done := rfl
@[simp, grind =] theorem setShutdown_waiting (st : St)  : (setShutdown st).waiting = st.waiting := rfl
@[simp, grind =] theorem setShutdown_startup (st : St)  : (setShutdown st).startup = st.startup := rfl
@[simp, grind =] theorem setShutdown_scheduled (st : St)  : (setShutdown st).scheduled = st.scheduled := rfl
@[simp, grind =] theorem setShutdown_tasks (st : St)  : (setShutdown st).tasks = st.tasks := rfl
@[simp, grind =] theorem setShutdown_timers (st : St)  : (setShutdown st).timers = st.timers := rfl
@[simp, grind =] theorem setShutdown_stack (st : St)  : (setShutdown st).stack = st.stack := rfl
@[simp, grind =] theorem setShutdown_crashed (st : St)  : (setShutdown st).crashed = st.crashed := rfl

@[simp, grind =] theorem setDone_nS (st : St)  : (setDone st).nS = st.nS := rfl
@[simp, grind =] theorem setDone_sess (st : St)  (j : Nat) : (setDone st).sess j = st.sess j := rfl
@[simp, grind =] theorem setDone_nF (st : St)  : (setDone st).nF = st.nF := rfl
@[simp, grind =] theorem setDone_flow (st : St)  (j : Nat) : (setDone st).flow j = st.flow j := rfl
@[simp, grind =] theorem setDone_nR (st : St)  : (setDone st).nR = st.nR := rfl
@[simp, grind =] theorem setDone_rflow (st : St)  (j : Nat) : (setDone st).rflow j = st.rflow j := rfl
@[simp, grind =] theorem setDone_table (st : St)  : (setDone st).table = st.table := rfl
@[simp, grind =] theorem setDone_openingS (st : St)  : (setDone st).openingS = st.openingS := rfl
@[simp, grind =] theorem setDone_openingF (st : St)  : (setDone st).openingF = st.openingF := rfl
@[simp, grind =] theorem setDone_byAddr (st : St)  (j : Nat) : (setDone st).byAddr j = st.byAddr j := rfl
@[simp, grind =] theorem setDone_byEpd (st : St)  (j : Nat) : (setDone st).byEpd j = st.byEpd j := rfl
@[simp, grind =] theorem setDone_shutdown (st : St)  : (setDone st).shutdown = st.shutdown := rfl
@[simp, grind =] theorem setDone_done (st : St)  : (setDone st).done = true := rfl
@[simp, grind =] theorem setDone_waiting (st : St)  : (setDone st).waiting = st.waiting := rfl
@[simp, grind =] theorem setDone_startup (st : St)  : (setDone st).startup = st.startup := rfl
@[simp, grind =] theorem setDone_scheduled (st : St)  : (setDone st).scheduled = st.scheduled := rfl
@[simp, grind =] theorem setDone_tasks (st : St)  : (setDone st).tasks = st.tasks := rfl
@[simp, grind =] theorem setDone_timers (st : St)  : (setDone st).timers = st.timers := rfl
@[simp, grind =] theorem setDone_stack (st : St)  : (setDone st).stack = st.stack := rfl
@[simp, grind =] theorem setDone_crashed (st : St)  : (setDone st).crashed = st.crashed := rfl

@[simp, grind =] theorem crash_nS (st : St)  : (crash st).nS = st.nS := rfl
@[simp, grind =] theorem crash_sess (st : St)  (j : Nat) : (crash st).sess j = st.sess j := rfl
@[simp, grind =] theorem crash_nF (st : St)  : (crash st).nF = st.nF := rfl
@[simp, grind =] theorem crash_flow (st : St)  (j : Nat) : (crash st).flow j = st.flow j := rfl
@[simp, grind =] theorem crash_nR (st : St)  : (crash st).nR = st.nR := rfl
@[simp, grind =] theorem crash_rflow (st : St)  (j : Nat) : (crash st).rflow j = st.rflow j := rfl
@[simp, grind =] theorem crash_table (st : St)  : (crash st).table = st.table := rfl
@[simp, grind =] theorem crash_openingS (st : St)  : (crash st).openingS = st.openingS := rfl
@[simp, grind =] theorem crash_openingF (st : St)  : (crash st).openingF = st.openingF := rfl
@[simp, grind =] theorem crash_byAddr (st : St)  (j : Nat) : (crash st).byAddr j = st.byAddr j := rfl
@[simp, grind =] theorem crash_byEpd (st : St)  (j : Nat) : (crash st).byEpd j = st.byEpd j := rfl
@[simp, grind =] theorem crash_shutdown (st : St)  : (crash st).shutdown = st.shutdown := rfl
@[simp, grind =] theorem crash_done (st : St)  : (crash st).done = st.done := rfl
@[simp, grind =] theorem crash_waiting (st : St)  : (crash st).waiting = st.waiting := rfl
@[simp, grind =] theorem crash_startup (st : St)  : (crash st).startup = st.startup := rfl
@[simp, grind =] theorem crash_scheduled (st : St)  : (crash st).scheduled = st.scheduled := rfl
@[simp, grind =] theorem crash_tasks (st : St)  : (crash st).tasks = st.tasks := rfl
@[simp, grind =] theorem crash_timers (st : St)  : (crash st).timers = st.timers := rfl
@[simp, grind =] theorem crash_stack (st : St)  : (crash st).stack = [] := rfl
@[simp, grind =] theorem crash_crashed (st : St)  : (crash st).crashed = true := rfl

@[simp, grind =] theorem newR_nS (st : St) (x : RFlow) : (newR st x).nS = st.nS := rfl
@[simp, grind =] theorem newR_sess (st : St) (x : RFlow) (j : Nat) : (newR st x).sess j = st.sess j := rfl
@[simp, grind =] theorem newR_nF (st : St) (x : RFlow) : (newR st x).nF = st.nF := rfl
@[simp, grind =] theorem newR_flow (st : St) (x : RFlow) (j : Nat) : (newR st x).flow j = st.flow j := rfl
@[simp, grind =] theorem newR_nR (st : St) (x : RFlow) : (newR st x).nR = st.nR + 1 := rfl
@[simp, grind =] theorem newR_rflow (st : St) (x : RFlow) (j : Nat) : (newR st x).rflow j = if j = st.nR then x else st.rflow j := rfl
@[simp, grind =] theorem newR_table (st : St) (x : RFlow) : (newR st x).table = st.table := rfl
@[simp, grind =] theorem newR_openingS (st : St) (x : RFlow) : (newR st x).openingS = st.openingS := rfl
@[simp, grind =] theorem newR_openingF (st : St) (x : RFlow) : (newR st x).openingF = st.openingF := rfl
@[simp, grind =] theorem newR_byAddr (st : St) (x : RFlow) (j : Nat) : (newR st x).byAddr j = st.byAddr j := rfl
@[simp, grind =] theorem newR_byEpd (st : St) (x : RFlow) (j : Nat) : (newR st x).byEpd j = st.byEpd j := rfl
@[simp, grind =] theorem newR_shutdown (st : St) (x : RFlow) : (newR st x).shutdown = st.shutdown := rfl
@[simp, grind =] theorem newR_done (st : St) (x : RFlow) : (newR st x).done = st.done := rfl
@[simp, grind =] theorem newR_waiting (st : St) (x : RFlow) : (newR st x).waiting = st.waiting := rfl
@[simp, grind =] theorem newR_startup (st : St) (x : RFlow) : (newR st x).startup = st.startup := rfl
@[simp, grind =] theorem newR_scheduled (st : St) (x : RFlow) : (newR st x).scheduled = st.scheduled := rfl
@[simp, grind =] theorem newR_tasks (st : St) (x : RFlow) : (newR st x).tasks = st.tasks := rfl
@[simp, grind =] theorem newR_timers (st : St) (x : RFlow) : (newR st x).timers = st.timers := rfl
@[simp, grind =] theorem newR_stack (st : St) (x : RFlow) : (newR st x).stack = st.stack := rfl
@[simp, grind =] theorem newR_crashed (st : St) (x : RFlow) : (newR st x).crashed = st.crashed := rfl

@[simp, grind =] theorem moveAddr_nS (st : St) (s a : Nat) : (moveAddr st s a).nS = st.nS := by first | rfl | (simp only [moveAddr]; grind)
@[simp, grind =] theorem moveAddr_sess (st : St) (s a : Nat) (j : Nat) : (moveAddr st s a).sess j = st.sess j := by first | rfl | (simp only [moveAddr]; grind)
@[simp, grind =] theorem moveAddr_nF (st : St) (s a : Nat) : (moveAddr st s a).nF = st.nF := by first | rfl | (simp only [moveAddr]; grind)
@[simp, grind =] theorem moveAddr_flow (st : St) (s a : Nat) (j : Nat) : (moveAddr st s a).flow j = st.flow j := by first | rfl | (simp only [moveAddr]; grind)
@[simp, grind =] theorem moveAddr_nR (st : St) (s a : Nat) : (moveAddr st s a).nR = st.nR := by first | rfl | (simp only [moveAddr]; grind)
@[simp, grind =] theorem moveAddr_rflow (st : St) (s a : Nat) (j : Nat) : (moveAddr st s a).rflow j = st.rflow j := by first | rfl | (simp only [moveAddr]; grind)
@[simp, grind =] theorem moveAddr_table (st : St) (s a : Nat) : (moveAddr st s a).table = st.table := by first | rfl | (simp only [moveAddr]; grind)
@[simp, grind =] theorem moveAddr_openingS (st : St) (s a : Nat) : (moveAddr st s a).openingS = st.openingS := by first | rfl | (simp only [moveAddr]; grind)
@[simp, grind =] theorem moveAddr_openingF (st : St) (s a : Nat) : (moveAddr st s a).openingF = st.openingF := by first | rfl | (simp only [moveAddr]; grind)
@[simp, grind =] theorem moveAddr_byAddr (st : St) (s a : Nat) (j : Nat) : (moveAddr st s a).byAddr j = if j = a then some s else if j = (st.sess s).addr ∧ st.byAddr j = some s then none else st.byAddr j := by first | rfl | (simp only [moveAddr]; grind)
@[simp, grind =] theorem moveAddr_byEpd (st : St) (s a : Nat) (j : Nat) : (moveAddr st s a).byEpd j = st.byEpd j := by first | rfl | (simp only [moveAddr]; grind)
@[simp, grind =] theorem moveAddr_shutdown (st : St) (s a : Nat) : (moveAddr st s a).shutdown = st.shutdown := by first | rfl | (simp only [moveAddr]; grind)
@[simp, grind =] theorem moveAddr_done (st : St) (s a : Nat) : (moveAddr st s a).done = st.done := by first | rfl | (simp only [moveAddr]; grind)
@[simp, grind =] theorem moveAddr_waiting (st : St) (s a : Nat) : (moveAddr st s a).waiting = st.waiting := by first | rfl | (simp only [moveAddr]; grind)
@[simp, grind =] theorem moveAddr_startup (st : St) (s a : Nat) : (moveAddr st s a).startup = st.startup := by first | rfl | (simp only [moveAddr]; grind)
@[simp, grind =] theorem moveAddr_scheduled (st : St) (s a : Nat) : (moveAddr st s a).scheduled = st.scheduled := by first | rfl | (simp only [moveAddr]; grind)
@[simp, grind =] theorem moveAddr_tasks (st : St) (s a : Nat) : (moveAddr st s a).tasks = st.tasks := by first | rfl | (simp only [moveAddr]; grind)
@[simp, grind =] theorem moveAddr_timers (st : St) (s a : Nat) : (moveAddr st s a).timers = st.timers := by first | rfl | (simp only [moveAddr]; grind)
@[simp, grind =] theorem moveAddr_stack (st : St) (s a : Nat) : (moveAddr st s a).stack = st.stack := by first | rfl | (simp only [moveAddr]; grind)
@[simp, grind =] theorem moveAddr_crashed (st : St) (s a : Nat) : (moveAddr st s a).crashed = st.crashed := by first | rfl | (simp only [moveAddr]; grind)

@[simp, grind =] theorem didOpen_nS (st : St) (s : Nat) : (didOpen st s).nS = st.nS := rfl
@[simp, grind =] theorem didOpen_sess (st : St) (s : Nat) (j : Nat) : (didOpen st s).sess j = st.sess j := rfl
@[simp, grind =] theorem didOpen_nF (st : St) (s : Nat) : (didOpen st s).nF = st.nF := rfl
@[simp, grind =] theorem didOpen_flow (st : St) (s : Nat) (j : Nat) : (didOpen st s).flow j = st.flow j := rfl
@[simp, grind =] theorem didOpen_nR (st : St) (s : Nat) : (didOpen st s).nR = st.nR := rfl
@[simp, grind =] theorem didOpen_rflow (st : St) (s : Nat) (j : Nat) : (didOpen st s).rflow j = st.rflow j := rfl
@[simp, grind =] theorem didOpen_table (st : St) (s : Nat) : (didOpen st s).table = st.table := rfl
@[simp, grind =] theorem didOpen_openingS (st : St) (s : Nat) : (didOpen st s).openingS = st.openingS.filter (· ≠ s) := rfl
@[simp, grind =] theorem didOpen_openingF (st : St) (s : Nat) : (didOpen st s).openingF = st.openingF := rfl
@[simp, grind =] theorem didOpen_byAddr (st : St) (s : Nat) (j : Nat) : (didOpen st s).byAddr j = if j = (st.sess s).addr then some s else st.byAddr j := rfl
@[simp, grind =] theorem didOpen_byEpd (st : St) (s : Nat) (j : Nat) : (didOpen st s).byEpd j = if j = (st.sess s).epd then some s else st.byEpd j := rfl
@[simp, grind =] theorem didOpen_shutdown (st : St) (s : Nat) : (didOpen st s).shutdown = st.shutdown := rfl
@[simp, grind =] theorem didOpen_done (st : St) (s : Nat) : (didOpen st s).done = st.done := rfl
@[simp, grind =] theorem didOpen_waiting (st : St) (s : Nat) : (didOpen st s).waiting = st.waiting := rfl
@[simp, grind =] theorem didOpen_startup (st : St) (s : Nat) : (didOpen st s).startup = st.startup := rfl
@[simp, grind =] theorem didOpen_scheduled (st : St) (s : Nat) : (didOpen st s).scheduled = st.scheduled := rfl
@[simp, grind =] theorem didOpen_tasks (st : St) (s : Nat) : (didOpen st s).tasks = st.tasks := rfl
@[simp, grind =] theorem didOpen_timers (st : St) (s : Nat) : (didOpen st s).timers = st.timers := rfl
@[simp, grind =] theorem didOpen_stack (st : St) (s : Nat) : (didOpen st s).stack = .tellOpened s st.openingF :: st.stack := rfl
@[simp, grind =] theorem didOpen_crashed (st : St) (s : Nat) : (didOpen st s).crashed = st.crashed := rfl

@[simp, grind =] theorem setOpen_nS (C : Crypto) (st : St) (s tx : Nat) : ((setOpen C st s tx).1).nS = st.nS := by simp only [setOpen]; grind
@[simp, grind =] theorem setOpen_sess_state (C : Crypto) (st : St) (s tx : Nat) (j : Nat) : (((setOpen C st s tx).1).sess j).state = if j = s then .opened else (st.sess j).state := by simp only [setOpen]; grind
@[simp, grind =] theorem setOpen_sess_initiator (C : Crypto) (st : St) (s tx : Nat) (j : Nat) : (((setOpen C st s tx).1).sess j).initiator = (st.sess j).initiator := by simp only [setOpen]; grind
@[simp, grind =] theorem setOpen_sess_epd (C : Crypto) (st : St) (s tx : Nat) (j : Nat) : (((setOpen C st s tx).1).sess j).epd = if j = s then ((st.sess s).cert.map C.canon).getD 0 else (st.sess j).epd := by simp only [setOpen]; grind
@[simp, grind =] theorem setOpen_sess_cert (C : Crypto) (st : St) (s tx : Nat) (j : Nat) : (((setOpen C st s tx).1).sess j).cert = (st.sess j).cert := by simp only [setOpen]; grind
@[simp, grind =] theorem setOpen_sess_addr (C : Crypto) (st : St) (s tx : Nat) (j : Nat) : (((setOpen C st s tx).1).sess j).addr = (st.sess j).addr := by simp only [setOpen]; grind
@[simp, grind =] theorem setOpen_sess_ifc (C : Crypto) (st : St) (s tx : Nat) (j : Nat) : (((setOpen C st s tx).1).sess j).ifc = (st.sess j).ifc := by simp only [setOpen]; grind
@[simp, grind =] theorem setOpen_sess_tx (C : Crypto) (st : St) (s tx : Nat) (j : Nat) : (((setOpen C st s tx).1).sess j).tx = if j = s then tx else (st.sess j).tx := by simp only [setOpen]; grind
@[simp, grind =] theorem setOpen_sess_skic (C : Crypto) (st : St) (s tx : Nat) (j : Nat) : (((setOpen C st s tx).1).sess j).skic = (st.sess j).skic := by simp only [setOpen]; grind
@[simp, grind =] theorem setOpen_sess_addrs (C : Crypto) (st : St) (s tx : Nat) (j : Nat) : (((setOpen C st s tx).1).sess j).addrs = (st.sess j).addrs := by simp only [setOpen]; grind
@[simp, grind =] theorem setOpen_sess_interest (C : Crypto) (st : St) (s tx : Nat) (j : Nat) : (((setOpen C st s tx).1).sess j).interest = (st.sess j).interest := by simp only [setOpen]; grind
@[simp, grind =] theorem setOpen_sess_cookie (C : Crypto) (st : St) (s tx : Nat) (j : Nat) : (((setOpen C st s tx).1).sess j).cookie = (st.sess j).cookie := by simp only [setOpen]; grind
@[simp, grind =] theorem setOpen_sess_cookieChanged (C : Crypto) (st : St) (s tx : Nat) (j : Nat) : (((setOpen C st s tx).1).sess j).cookieChanged = (st.sess j).cookieChanged := by simp only [setOpen]; grind
@[simp, grind =] theorem setOpen_sess_early (C : Crypto) (st : St) (s tx : Nat) (j : Nat) : (((setOpen C st s tx).1).sess j).early = if j = s then [] else (st.sess j).early := by simp only [setOpen]; grind
@[simp, grind =] theorem setOpen_sess_sendFlows (C : Crypto) (st : St) (s tx : Nat) (j : Nat) : (((setOpen C st s tx).1).sess j).sendFlows = (st.sess j).sendFlows := by simp only [setOpen]; grind
@[simp, grind =] theorem setOpen_sess_recvFlows (C : Crypto) (st : St) (s tx : Nat) (j : Nat) : (((setOpen C st s tx).1).sess j).recvFlows = (st.sess j).recvFlows := by simp only [setOpen]; grind
@[simp, grind =] theorem setOpen_nF (C : Crypto) (st : St) (s tx : Nat) : ((setOpen C st s tx).1).nF = st.nF := by simp only [setOpen]; grind
@[simp, grind =] theorem setOpen_flow (C : Crypto) (st : St) (s tx : Nat) (j : Nat) : ((setOpen C st s tx).1).flow j = st.flow j := by simp only [setOpen]; grind
@[simp, grind =] theorem setOpen_nR (C : Crypto) (st : St) (s tx : Nat) : ((setOpen C st s tx).1).nR = st.nR := by simp only [setOpen]; grind
@[simp, grind =] theorem setOpen_rflow (C : Crypto) (st : St) (s tx : Nat) (j : Nat) : ((setOpen C st s tx).1).rflow j = st.rflow j := by simp only [setOpen]; grind
@[simp, grind =] theorem setOpen_table (C : Crypto) (st : St) (s tx : Nat) : ((setOpen C st s tx).1).table = st.table := by simp only [setOpen]; grind
@[simp, grind =] theorem setOpen_openingS (C : Crypto) (st : St) (s tx : Nat) : ((setOpen C st s tx).1).openingS = st.openingS.filter (· ≠ s) := by simp only [setOpen]; grind
@[simp, grind =] theorem setOpen_openingF (C : Crypto) (st : St) (s tx : Nat) : ((setOpen C st s tx).1).openingF = st.openingF := by simp only [setOpen]; grind
@[simp, grind =] theorem setOpen_byAddr (C : Crypto) (st : St) (s tx : Nat) (j : Nat) : ((setOpen C st s tx).1).byAddr j = if j = (st.sess s).addr then some s else st.byAddr j := by simp only [setOpen]; grind
@[simp, grind =] theorem setOpen_byEpd (C : Crypto) (st : St) (s tx : Nat) (j : Nat) : ((setOpen C st s tx).1).byEpd j = if j = ((st.sess s).cert.map C.canon).getD 0 then some s else st.byEpd j := by simp only [setOpen]; grind
@[simp, grind =] theorem setOpen_shutdown (C : Crypto) (st : St) (s tx : Nat) : ((setOpen C st s tx).1).shutdown = st.shutdown := by simp only [setOpen]; grind
@[simp, grind =] theorem setOpen_done (C : Crypto) (st : St) (s tx : Nat) : ((setOpen C st s tx).1).done = st.done := by simp only [setOpen]; grind
@[simp, grind =] theorem setOpen_waiting (C : Crypto) (st : St) (s tx : Nat) : ((setOpen C st s tx).1).waiting = st.waiting := by simp only [setOpen]; grind
@[simp, grind =] theorem setOpen_startup (C : Crypto) (st : St) (s tx : Nat) : ((setOpen C st s tx).1).startup = st.startup := by simp only [setOpen]; grind
@[simp, grind =] theorem setOpen_scheduled (C : Crypto) (st : St) (s tx : Nat) : ((setOpen C st s tx).1).scheduled = st.scheduled := by simp only [setOpen]; grind
@[simp, grind =] theorem setOpen_tasks (C : Crypto) (st : St) (s tx : Nat) : ((setOpen C st s tx).1).tasks = st.tasks := by simp only [setOpen]; grind
@[simp, grind =] theorem setOpen_timers (C : Crypto) (st : St) (s tx : Nat) : ((setOpen C st s tx).1).timers = st.timers := by simp only [setOpen]; grind
@[simp, grind =] theorem setOpen_stack (C : Crypto) (st : St) (s tx : Nat) : ((setOpen C st s tx).1).stack = .tellOpened s st.openingF :: st.stack := by simp only [setOpen]; grind
@[simp, grind =] theorem setOpen_crashed (C : Crypto) (st : St) (s tx : Nat) : ((setOpen C st s tx).1).crashed = st.crashed := by simp only [setOpen]; grind

@[simp, grind =] theorem didClose_nS (st : St) (s : Nat) (b : Bool) : ((didClose st s b).1).nS = st.nS := by simp only [didClose]; split <;> grind [filter_ne_self]
@[simp, grind =] theorem didClose_sess (st : St) (s : Nat) (b : Bool) (j : Nat) : ((didClose st s b).1).sess j = st.sess j := by simp only [didClose]; split <;> grind [filter_ne_self]
@[simp, grind =] theorem didClose_nF (st : St) (s : Nat) (b : Bool) : ((didClose st s b).1).nF = st.nF := by simp only [didClose]; split <;> grind [filter_ne_self]
@[simp, grind =] theorem didClose_flow (st : St) (s : Nat) (b : Bool) (j : Nat) : ((didClose st s b).1).flow j = st.flow j := by simp only [didClose]; split <;> grind [filter_ne_self]
@[simp, grind =] theorem didClose_nR (st : St) (s : Nat) (b : Bool) : ((didClose st s b).1).nR = st.nR := by simp only [didClose]; split <;> grind [filter_ne_self]
@[simp, grind =] theorem didClose_rflow (st : St) (s : Nat) (b : Bool) (j : Nat) : ((didClose st s b).1).rflow j = st.rflow j := by simp only [didClose]; split <;> grind [filter_ne_self]
@[simp, grind =] theorem didClose_table (st : St) (s : Nat) (b : Bool) : ((didClose st s b).1).table = if b = true then st.table.filter (· ≠ s) else st.table := by simp only [didClose]; split <;> grind [filter_ne_self]
@[simp, grind =] theorem didClose_openingS (st : St) (s : Nat) (b : Bool) : ((didClose st s b).1).openingS = st.openingS.filter (· ≠ s) := by simp only [didClose]; split <;> grind [filter_ne_self]
@[simp, grind =] theorem didClose_openingF (st : St) (s : Nat) (b : Bool) : ((didClose st s b).1).openingF = st.openingF := by simp only [didClose]; split <;> grind [filter_ne_self]
@[simp, grind =] theorem didClose_byAddr (st : St) (s : Nat) (b : Bool) (j : Nat) : ((didClose st s b).1).byAddr j = if j = (st.sess s).addr ∧ st.byAddr j = some s then none else st.byAddr j := by simp only [didClose]; split <;> grind [filter_ne_self]
@[simp, grind =] theorem didClose_byEpd (st : St) (s : Nat) (b : Bool) (j : Nat) : ((didClose st s b).1).byEpd j = if j = (st.sess s).epd ∧ st.byEpd j = some s then none else st.byEpd j := by simp only [didClose]; split <;> grind [filter_ne_self]
@[simp, grind =] theorem didClose_shutdown (st : St) (s : Nat) (b : Bool) : ((didClose st s b).1).shutdown = st.shutdown := by simp only [didClose]; split <;> grind [filter_ne_self]
@[simp, grind =] theorem didClose_done (st : St) (s : Nat) (b : Bool) : ((didClose st s b).1).done = st.done := by simp only [didClose]; split <;> grind [filter_ne_self]
@[simp, grind =] theorem didClose_waiting (st : St) (s : Nat) (b : Bool) : ((didClose st s b).1).waiting = st.waiting := by simp only [didClose]; split <;> grind [filter_ne_self]
@[simp, grind =] theorem didClose_startup (st : St) (s : Nat) (b : Bool) : ((didClose st s b).1).startup = st.startup := by simp only [didClose]; split <;> grind [filter_ne_self]
@[simp, grind =] theorem didClose_scheduled (st : St) (s : Nat) (b : Bool) : ((didClose st s b).1).scheduled = st.scheduled := by simp only [didClose]; split <;> grind [filter_ne_self]
@[simp, grind =] theorem didClose_tasks (st : St) (s : Nat) (b : Bool) : ((didClose st s b).1).tasks = st.tasks := by simp only [didClose]; split <;> grind [filter_ne_self]
@[simp, grind =] theorem didClose_timers (st : St) (s : Nat) (b : Bool) : ((didClose st s b).1).timers = st.timers := by simp only [didClose]; split <;> grind [filter_ne_self]
@[simp, grind =] theorem didClose_stack (st : St) (s : Nat) (b : Bool) : ((didClose st s b).1).stack = .tellOpening s st.openingF :: .check :: st.stack := by simp only [didClose]; split <;> grind [filter_ne_self]
@[simp, grind =] theorem didClose_crashed (st : St) (s : Nat) (b : Bool) : ((didClose st s b).1).crashed = st.crashed := by simp only [didClose]; split <;> grind [filter_ne_self]

/-- a task and the one that follows it when it succeeds -/
inductive Follows : Task → Task → Prop
  | rhello (s cert addr ifc cookie : Nat) : Follows (.rhelloW s cert addr ifc cookie) (.rhello s cert addr ifc cookie)
  | keygen (s : Nat) : Follows (.keygenW s) (.abort s)
  | cookie (s : Nat) : Follows (.cookieW s) (.abort s)
  | rikeying (s tx : Nat) : Follows (.rikeyingW s tx) (.rikeying s tx)
  | iikeying (r : Req) : Follows (.iikeyingW2 r) (.iikeying r)

/-- where a call of `Session::close` comes from -/
def Calls (st b : St) (s : Nat) (orderly : Bool) : Prop :=
  (∃ rest, st.stack = .sessClose s orderly :: rest ∧ b = setStack st rest) ∨ (orderly = true ∧ appTurn st = true ∧ b = st)

/-- the session that a request's glare aborts -/
def glared (C : Crypto) (st : St) (r : Req) : List Frame :=
  match st.openingS.find? (fun g => openingTo (st.sess g) r.addr) with
  | some g => if (st.sess g).state = .keying ∧ ((st.sess g).cert.any (fun c => C.overrides r.cert c)) = true then [Frame.abort g] else []
  | none => []

def answered (r : Req) : Sess := { Sess.new with cert := some r.cert, addr := r.addr, ifc := r.ifc, skic := r.skic }

/-- every step -/
inductive Way (C : Crypto) (st : St) : St → List Ev → Prop
  | nothing : Way C st st []
  -- frames
  | closeEarly (b : St) (s : Nat) (o : Bool) (h : Calls st b s o) (hr : (st.sess s).state.rank < 3) : Way C st (push b [.abort s]) []
  | closeNear (b : St) (s : Nat) (h : Calls st b s true) (hr : (st.sess s).state = .opened) : Way C st (push (setState b s .nearclose) [.sendLoop s, .nearTail s]) []
  | closeRude (b : St) (s : Nat) (h : Calls st b s false) (hr : 3 ≤ (st.sess s).state.rank) (hc : (st.sess s).state ≠ .closed) :
      Way C st (push (queueStartup b) [.abort s]) [.closeSent s true]
  | closeNot (b : St) (s : Nat) (o : Bool) (h : Calls st b s o) (hr : 4 ≤ (st.sess s).state.rank) : Way C st b []
  | abortNot (s : Nat) (rest : List Frame) (h : st.stack = .abort s :: rest) (hc : (st.sess s).state = .closed) : Way C st (setStack st rest) []
  | abort (s : Nat) (rest : List Frame) (h : st.stack = .abort s :: rest) (hc : (st.sess s).state ≠ .closed) :
      Way C st (push (setState (setStack st rest) s .closed) [.sendLoop s, .didClose s true]) []
  | sendEnd (s : Nat) (rest : List Frame) (h : st.stack = .sendLoop s :: rest) (hl : (st.sess s).sendFlows = []) : Way C st (push (setStack st rest) [.recvLoop s]) []
  | sendNext (s f : Nat) (l : List Nat) (rest : List Frame) (h : st.stack = .sendLoop s :: rest) (hl : (st.sess s).sendFlows = f :: l) :
      Way C st (push (setStack st rest) [.flowDidClose f s, .sendCheck s f, .sendLoop s]) []
  | checkFails (s f : Nat) (rest : List Frame) (h : st.stack = .sendCheck s f :: rest) (hf : f ∈ (st.sess s).sendFlows) : Way C st (crash st) [.assertFailed s f]
  | checkHolds (s f : Nat) (rest : List Frame) (h : st.stack = .sendCheck s f :: rest) (hf : f ∉ (st.sess s).sendFlows) : Way C st (setStack st rest) []
  | recvEnd (s : Nat) (rest : List Frame) (h : st.stack = .recvLoop s :: rest) (hl : (st.sess s).recvFlows = []) : Way C st (setStack st rest) []
  | recvTold (s r : Nat) (l : List Nat) (rest : List Frame) (h : st.stack = .recvLoop s :: rest) (hl : (st.sess s).recvFlows = r :: l)
      (ho : (st.rflow r).isOpen = true) (hh : (st.rflow r).handler = true) :
      Way C st (push (setR (setStack st rest) r (fun e => { e with isOpen := false, handler := false })) [.user, .recvErase s r, .recvLoop s]) [.complete r true]
  | recvQuiet (s r : Nat) (l : List Nat) (rest : List Frame) (h : st.stack = .recvLoop s :: rest) (hl : (st.sess s).recvFlows = r :: l)
      (ho : ¬ ((st.rflow r).isOpen = true ∧ (st.rflow r).handler = true)) :
      Way C st (push (setR (setStack st rest) r (fun e => { e with isOpen := false, handler := false })) [.recvErase s r, .recvLoop s]) []
  | recvErase (s r : Nat) (rest : List Frame) (h : st.stack = .recvErase s r :: rest) :
      Way C st (setS (setStack st rest) s (fun e => { e with recvFlows := e.recvFlows.filter (· ≠ r) })) []
  | nearTail (s : Nat) (rest : List Frame) (h : st.stack = .nearTail s :: rest) :
      Way C st (push (setTimers (setStack st rest) (st.timers ++ [.near s])) [.didClose s false]) []
  | farTail (s : Nat) (rest : List Frame) (h : st.stack = .farTail s :: rest) :
      Way C st (push (setTimers (setStack st rest) (st.timers ++ [.far s])) [.didClose s false]) []
  | ackClose (s : Nat) (rest : List Frame) (h : st.stack = .ackClose s :: rest) : Way C st (queueStartup (setStack st rest)) [.closeSent s true]
  | didClose (s : Nat) (b : Bool) (rest : List Frame) (h : st.stack = .didClose s b :: rest) :
      Way C st (didClose (setStack st rest) s b).1 (if b = true ∧ s ∈ st.table then [.released s] else [])
  | tellOpeningEnd (s : Nat) (rest : List Frame) (h : st.stack = .tellOpening s [] :: rest) : Way C st (setStack st rest) []
  | tellOpening (s f : Nat) (fs : List Nat) (rest : List Frame) (h : st.stack = .tellOpening s (f :: fs) :: rest) :
      Way C st (push (setStack st rest) [.flowDidClose f s, .tellOpening s fs]) []
  | flowDidCloseNot (f s : Nat) (rest : List Frame) (h : st.stack = .flowDidClose f s :: rest)
      (hn : ¬ ((st.flow f).sess = some s ∨ ((st.flow f).sess = none ∧ (st.flow f).opening = some s))) : Way C st (setStack st rest) []
  | flowDidClose (f s : Nat) (rest : List Frame) (h : st.stack = .flowDidClose f s :: rest)
      (hn : (st.flow f).sess = some s ∨ ((st.flow f).sess = none ∧ (st.flow f).opening = some s)) : Way C st (excReport (setStack st rest) f) []
  | flowCloseGoto (f s : Nat) (rest : List Frame) (h : st.stack = .flowClose f :: rest) (hs : (st.flow f).sess = some s) (ho : (st.sess s).state ≠ .opened) :
      Way C st (gotoClosed (push (setStack st rest) [.notOpening f]) f) []
  | flowClose (f : Nat) (rest : List Frame) (h : st.stack = .flowClose f :: rest) (hs : (st.flow f).sess = none ∨ sessOpen st f = true) :
      Way C st (push (setStack st rest) [.notOpening f]) []
  | notOpening (f : Nat) (rest : List Frame) (h : st.stack = .notOpening f :: rest) : Way C st (notOpening (setStack st rest) f) []
  | callback (f : Nat) (rest : List Frame) (h : st.stack = .callback f :: rest) : Way C st (push (setStack st rest) [.user]) [.exception f]
  | tellOpenedEnd (s : Nat) (rest : List Frame) (h : st.stack = .tellOpened s [] :: rest) : Way C st (setStack st rest) []
  | tellOpenedNot (s f : Nat) (fs : List Nat) (rest : List Frame) (h : st.stack = .tellOpened s (f :: fs) :: rest)
      (hn : (st.flow f).sess.isSome = true ∨ ((st.flow f).opening ≠ none ∧ (st.flow f).opening ≠ some s)) : Way C st (push (setStack st rest) [.tellOpened s fs]) []
  | tellOpened (s f : Nat) (fs : List Nat) (rest : List Frame) (h : st.stack = .tellOpened s (f :: fs) :: rest) (hs : (st.flow f).sess = none)
      (ho : (st.flow f).opening = none ∨ (st.flow f).opening = some s ∨ (∃ c, (st.sess s).cert = some c ∧ C.sel c (st.flow f).epd = true)) :
      Way C st (bind (push (setStack st rest) [.tellOpened s fs]) f s).1 [.bound f s ((st.sess s).state = .opened)]
  | tellWillOpenEnd (s : Nat) (rest : List Frame) (h : st.stack = .tellWillOpen s [] :: rest) : Way C st (setStack st rest) []
  | tellWillOpenNot (s f : Nat) (fs : List Nat) (rest : List Frame) (h : st.stack = .tellWillOpen s (f :: fs) :: rest)
      (hn : (st.flow f).sess.isSome = true ∨ (st.flow f).opening = none ∨ (st.flow f).opening = some s ∨ ∃ o, (st.flow f).opening = some o ∧ (st.sess o).state ≠ .ihello) :
      Way C st (push (setStack st rest) [.tellWillOpen s fs]) []
  | tellWillOpen (s f o : Nat) (fs : List Nat) (rest : List Frame) (h : st.stack = .tellWillOpen s (f :: fs) :: rest) (hs : (st.flow f).sess = none)
      (ho : (st.flow f).opening = some o) (hne : o ≠ s) (hi : (st.sess o).state = .ihello) :
      Way C st (push (interestDown (setS (setF (setStack st rest) f (fun e => { e with opening := some s })) s (fun e => { e with interest := e.interest + 1 })) (some o))
        (abandoned st (some o) ++ [.tellWillOpen s fs])) [.moved f o s]
  | respondNot (r : Req) (rest : List Frame) (h : st.stack = .respond r :: rest) : Way C st (setStack st rest) []
  | respond (r : Req) (rest : List Frame) (h : st.stack = .respond r :: rest) :
      Way C st (setOpen C (push (makeSession (setStack st rest) (answered r)) (glared C st r)) st.nS r.tx).1 [.opened st.nS, .replayed st.nS []]
  | closeAllEnd (o : Bool) (rest : List Frame) (h : st.stack = .closeAll [] o :: rest) : Way C st (setStack st rest) []
  | closeAll (s : Nat) (ss : List Nat) (o : Bool) (rest : List Frame) (h : st.stack = .closeAll (s :: ss) o :: rest) :
      Way C st (push (setStack st rest) [.sessClose s o, .closeAll ss o]) []
  | abortOpening (rest : List Frame) (h : st.stack = .abortOpening :: rest) : Way C st (push (setStack st rest) [.abortAll st.openingS]) []
  | abortAllEnd (rest : List Frame) (h : st.stack = .abortAll [] :: rest) : Way C st (setStack st rest) []
  | abortAll (s : Nat) (ss : List Nat) (rest : List Frame) (h : st.stack = .abortAll (s :: ss) :: rest) :
      Way C st (push (setStack st rest) [.abort s, .abortAll ss]) []
  | checkNot (rest : List Frame) (h : st.stack = .check :: rest) (hn : ¬ (st.shutdown = true ∧ st.table = [] ∧ st.startup = 0 ∧ st.done = false)) :
      Way C st (setStack st rest) []
  | check (rest : List Frame) (h : st.stack = .check :: rest) (h1 : st.shutdown = true) (h2 : st.table = []) (h3 : st.startup = 0) (h4 : st.done = false) :
      Way C st (setDone (setStack st rest)) [.shutdownDone]
  | ret (rest : List Frame) (h : st.stack = .user :: rest) : Way C st (setStack st rest) []
  -- calls
  | openBound (epd s : Nat) (ht : appTurn st = true) (hs : (st.byEpd epd = some s ∧ st.shutdown = false) ∨ ((st.sess s).state = .opened ∧ (st.sess s).epd = epd)) :
      Way C st (bind (newFlow st epd) st.nF s).1 [.flowOpened st.nF epd, .bound st.nF s ((st.sess s).state = .opened)]
  | openWait (epd s : Nat) (ht : appTurn st = true) (hd : st.shutdown = false) (hb : st.byEpd epd = none) (hm : s ∈ st.openingS)
      (hs : (st.sess s).epd = epd ∨ ∃ c, (st.sess s).cert = some c ∧ C.sel c epd = true) :
      Way C st (waitFor (newFlow st epd) st.nF s) [.flowOpened st.nF epd]
  | openInit (epd : Nat) (ht : appTurn st = true) (hd : st.shutdown = false) (hb : st.byEpd epd = none)
      (hs : ∀ s ∈ st.openingS, (st.sess s).epd ≠ epd ∧ ∀ c, (st.sess s).cert = some c → C.sel c epd = false) :
      Way C st (waitFor (initiate (newFlow st epd) epd) st.nF st.nS) [.flowOpened st.nF epd]
  | setHandler (f : Nat) (ht : appTurn st = true) (hf : f < st.nF) : Way C st (setF st f (fun e => { e with handler := true })) [.handlerSet f]
  | write (f : Nat) (ht : appTurn st = true) (hf : f < st.nF) (ho : (st.flow f).isOpen = true) : Way C st (setF st f (fun e => { e with wrote := true })) []
  | closeF (f : Nat) (ht : appTurn st = true) (hf : f < st.nF) : Way C st (closeFlow st f) [.closeCalled f]
  | setComplete (r : Nat) (ht : appTurn st = true) (hr : r < st.nR) : Way C st (setR st r (fun e => { e with handler := true })) [.completeSet r]
  | closeR (r : Nat) (ht : appTurn st = true) (hr : r < st.nR) : Way C st (setR st r (fun e => { e with isOpen := false, handler := false })) []
  | addAddress (f o a : Nat) (ht : appTurn st = true) (ho : (st.flow f).opening = some o) (hi : (st.sess o).state = .ihello) :
      Way C st (setS st o (fun e => { e with addrs := e.addrs ++ [a] })) []
  | shutdown (imm : Bool) (ht : appTurn st = true) : Way C st (setTasks (setShutdown st) (st.tasks ++ [.shutdown imm])) []
  -- tasks
  | tShutdown (i : Nat) (imm : Bool) (hi : st.tasks[i]? = some (.shutdown imm)) (hs : st.stack = []) :
      Way C st (push (setTasks st (st.tasks.eraseIdx i)) [.closeAll st.table (!imm), .abortOpening, .check]) []
  | tDrop (i : Nat) (t : Task) (hi : st.tasks[i]? = some t) (hk : (∃ r, t = .iikeyingW r) → False) (hk2 : (∃ b, t = .shutdown b) → False) :
      Way C st (setTasks st (st.tasks.eraseIdx i)) []
  | tNext (i : Nat) (t t' : Task) (hi : st.tasks[i]? = some t) (hf : Follows t t') : Way C st (setTasks st (st.tasks.eraseIdx i ++ [t'])) []
  | tKeying (i : Nat) (r : Req) (l : List Task) (hi : st.tasks[i]? = some (.iikeyingW r)) (hl : l = [] ∨ l = [.iikeyingW2 r]) :
      Way C st (setWaiting (setTasks st (st.tasks.eraseIdx i ++ l)) (st.waiting - 1)) []
  | tMerge (i s cert addr ifc cookie x : Nat) (hi : st.tasks[i]? = some (.rhello s cert addr ifc cookie)) (hs : st.stack = []) (h1 : (st.sess s).state = .ihello)
      (hx : st.byEpd (C.canon cert) = some x) (hc : ∃ c, (st.sess x).cert = some c ∧ C.sel c (st.sess s).epd = true) :
      Way C st (didOpen (push (setTasks st (st.tasks.eraseIdx i)) [.abort s]) x) []
  | tJoin (i s cert addr ifc cookie x : Nat) (hi : st.tasks[i]? = some (.rhello s cert addr ifc cookie)) (hs : st.stack = []) (h1 : (st.sess s).state = .ihello)
      (hx : x ∈ st.openingS) (hk : (st.sess x).state = .keying) (hne : x ≠ s)
      (hc : (st.sess x).epd = C.canon cert ∨ ∃ c, (st.sess x).cert = some c ∧ C.sel c (C.canon cert) = true) :
      Way C st (push (setTasks st (st.tasks.eraseIdx i)) [.tellWillOpen x st.openingF, .abort s]) []
  | tKeygen (i s cert addr ifc cookie : Nat) (hi : st.tasks[i]? = some (.rhello s cert addr ifc cookie)) (hs : st.stack = []) (h1 : (st.sess s).state = .ihello) :
      Way C st (setTasks (setS st s (fun e => { e with state := .keying, ifc := ifc, addr := addr, cookie := cookie, cert := some cert }))
        (st.tasks.eraseIdx i ++ [.keygenW s])) []
  | tAbort (i s : Nat) (hi : st.tasks[i]? = some (.abort s)) (hs : st.stack = []) : Way C st (push (setTasks st (st.tasks.eraseIdx i)) [.abort s]) []
  | tOpen (i s tx : Nat) (hi : st.tasks[i]? = some (.rikeying s tx)) (hs : st.stack = []) (h1 : (st.sess s).state = .keying) :
      Way C st (setOpen C (setTasks st (st.tasks.eraseIdx i)) s tx).1 [.opened s, .replayed s (st.sess s).early]
  | tOverride (i o : Nat) (r : Req) (hi : st.tasks[i]? = some (.iikeying r)) (hs : st.stack = []) (hd : st.shutdown = false) (ho : st.byAddr r.addr = some o)
      (hc : ∃ c, (st.sess o).cert = some c ∧ C.overrides r.cert c = true) :
      Way C st (push (setTasks st (st.tasks.eraseIdx i)) [.abort o, .respond r]) []
  | tRespond (i : Nat) (r : Req) (hi : st.tasks[i]? = some (.iikeying r)) (hs : st.stack = []) (hd : st.shutdown = false) (ho : st.byAddr r.addr = none) :
      Way C st (push (setTasks st (st.tasks.eraseIdx i)) [.respond r]) []
  -- timers, packets
  | ultimate (i s : Nat) (hs : st.stack = []) (hi : st.timers[i]? = some (.ultimate s)) (hr : (st.sess s).state.rank < 3) :
      Way C st (push (setTimers st (st.timers.eraseIdx i)) [.abort s]) []
  | ultimateNot (i s : Nat) (hs : st.stack = []) (hi : st.timers[i]? = some (.ultimate s)) (hr : 3 ≤ (st.sess s).state.rank) :
      Way C st (setTimers st (st.timers.eraseIdx i)) []
  | near (i s : Nat) (hs : st.stack = []) (hi : st.timers[i]? = some (.near s)) : Way C st (push (setTimers st (st.timers.eraseIdx i)) [.abort s]) []
  | far (i s : Nat) (hs : st.stack = []) (hi : st.timers[i]? = some (.far s)) : Way C st (push (setTimers st (st.timers.eraseIdx i)) [.abort s]) []
  | linger (i f : Nat) (hs : st.stack = []) (hi : st.timers[i]? = some (.linger f)) : Way C st (gotoClosed (setTimers st (st.timers.eraseIdx i)) f) []
  | startupDone (hs : st.stack = []) (h1 : st.scheduled = true) (h2 : st.startup = 0) : Way C st (push (setStartup st 0 false) [.check]) []
  | startupSend (hs : st.stack = []) (h1 : st.scheduled = true) (h2 : st.startup ≠ 0) : Way C st (setStartup st (st.startup - 1) true) []
  | startupPacket (hs : st.stack = []) (ev : List Ev) (he : ev = [] ∨ ev = [.cookieChangeSent] ∨ ∃ s b, ev = [.closeSent s b]) : Way C st (queueStartup st) ev
  | drained (f s : Nat) (hs : st.stack = []) (hf : (st.flow f).state = .closing) (ho : (st.flow f).sess = some s) (h1 : (st.sess s).state = .opened) :
      Way C st (setTimers (setF st f (fun e => { e with state := .linger })) (st.timers ++ [.linger f])) []
  | excChunk (s f : Nat) (hs : st.stack = []) (h1 : (st.sess s).state = .opened) (hf : f ∈ (st.sess s).sendFlows) : Way C st (excReport st f) []
  | redirect (s a : Nat) (hs : st.stack = []) (h1 : (st.sess s).state = .ihello) (hl : (st.sess s).addrs.length < REDIRECT_THRESHOLD) :
      Way C st (setS st s (fun e => { e with addrs := e.addrs ++ [a] })) []
  | rhello (s cert addr ifc cookie : Nat) (hs : st.stack = []) (h1 : (st.sess s).state = .ihello) (hc : C.sel cert (st.sess s).epd = true) :
      Way C st (setTasks st (st.tasks ++ [.rhelloW s cert addr ifc cookie])) []
  | cookieChange (s new : Nat) (hs : st.stack = []) (h1 : (st.sess s).state = .keying) (hc : (st.sess s).cookieChanged = false) :
      Way C st (setTasks (setS st s (fun e => { e with cookieChanged := true, cookie := new })) (st.tasks ++ [.cookieW s])) [.cookieFollowed s]
  | rikeying (s tx : Nat) (hs : st.stack = []) (h1 : (st.sess s).state = .keying) : Way C st (setTasks st (st.tasks ++ [.rikeyingW s tx])) []
  | keying (r : Req) (hs : st.stack = []) (hd : st.shutdown = false) (hw : st.waiting < MAX_WAITING_PERFORM_COUNT) :
      Way C st (setWaiting (setTasks st (st.tasks ++ [.iikeyingW r])) (st.waiting + 1)) [.keyingAccepted]
  | garbage (s p : Nat) (hs : st.stack = []) (h1 : (st.sess s).state = .keying) :
      Way C st (setS st s (fun e => { e with early := (e.early ++ [p]).drop ((e.early ++ [p]).length - MAX_EARLY_PACKETS) })) []
  | closeChunk (s : Nat) (hs : st.stack = []) (h1 : (st.sess s).state = .opened) :
      Way C st (push (setState st s .farclose) [.sendLoop s, .farTail s, .ackClose s]) []
  | closeAckRude (s : Nat) (hs : st.stack = []) (h1 : (st.sess s).state = .opened) : Way C st (push (queueStartup st) [.abort s]) [.closeSent s true]
  | closeAck (s : Nat) (hs : st.stack = []) (h1 : (st.sess s).state = .nearclose ∨ (st.sess s).state = .farclose) : Way C st (push st [.abort s]) []
  | userDataOffered (s : Nat) (hs : st.stack = []) (h1 : (st.sess s).state = .opened) :
      Way C st (push (setS (newR st ⟨s, true, false⟩) s (fun e => { e with recvFlows := e.recvFlows ++ [st.nR] })) [.user]) [.recvFlow st.nR s]
  | userData (s : Nat) (hs : st.stack = []) (h1 : (st.sess s).state = .opened) :
      Way C st (setS (newR st ⟨s, false, false⟩) s (fun e => { e with recvFlows := e.recvFlows ++ [st.nR] })) []
  | recvDoneTold (r : Nat) (hs : st.stack = []) (hr : r < st.nR) (h1 : (st.sess (st.rflow r).sess).state = .opened) (ho : (st.rflow r).isOpen = true)
      (hh : (st.rflow r).handler = true) :
      Way C st (push (setR st r (fun e => { e with isOpen := false, handler := false })) [.user]) [.complete r false]
  | recvDone (r : Nat) (hs : st.stack = []) (hr : r < st.nR) (h1 : (st.sess (st.rflow r).sess).state = .opened) (ho : (st.rflow r).isOpen = true)
      (hh : (st.rflow r).handler = false) :
      Way C st (setR st r (fun e => { e with isOpen := false, handler := false })) []
  | recvLinger (r : Nat) (hs : st.stack = []) (hr : r < st.nR) :
      Way C st (setS st (st.rflow r).sess (fun e => { e with recvFlows := e.recvFlows.filter (· ≠ r) })) []
  | moveTo (s a ifc : Nat) (hs : st.stack = []) (h1 : (st.sess s).state = .opened) :
      Way C st (push (setS (moveAddr st s a) s (fun e => { e with addr := a, ifc := ifc })) [.user]) []

theorem way_sessClose {C : Crypto} {st b : St} {s : Nat} {o : Bool} (h : Calls st b s o) (hb : b.sess s = st.sess s) :
    Way C st (sessClose b s o).1 (sessClose b s o).2 := by
  have e1 : (b.sess s).state = (st.sess s).state := by rw [hb]
  rw [sessClose]
  split
  · exact .closeEarly b s o h (by rw [← e1]; simp_all [SState.rank])
  · exact .closeEarly b s o h (by rw [← e1]; simp_all [SState.rank])
  · exact .closeEarly b s o h (by rw [← e1]; simp_all [SState.rank])
  · rename_i hx
    split
    · rename_i ho
      subst ho
      exact .closeNear b s h (by rw [← e1, hx])
    · rename_i ho
      have ho : o = false := by simpa using ho
      subst ho
      exact .closeRude b s h (by rw [← e1, hx]; decide) (by rw [← e1, hx]; decide)
  · rename_i hx
    split
    · exact .closeNot b s o h (by rw [← e1, hx]; decide)
    · rename_i ho
      have ho : o = false := by simpa using ho
      subst ho
      exact .closeRude b s h (by rw [← e1, hx]; decide) (by rw [← e1, hx]; decide)
  · rename_i hx
    split
    · exact .closeNot b s o h (by rw [← e1, hx]; decide)
    · rename_i ho
      have ho : o = false := by simpa using ho
      subst ho
      exact .closeRude b s h (by rw [← e1, hx]; decide) (by rw [← e1, hx]; decide)
  · rename_i hx
    exact .closeNot b s o h (by rw [← e1, hx]; decide)

theorem way_exec {C : Crypto} {st : St} {fr : Frame} {rest : List Frame} (h : st.stack = fr :: rest) (hu : fr ≠ .user) :
    Way C st (exec C (setStack st rest) fr).1 (exec C (setStack st rest) fr).2 := by
  cases fr with
  | user => exact absurd rfl hu
  | sessClose s o => exact way_sessClose (.inl ⟨rest, h, rfl⟩) rfl
  | abort s =>
    simp only [exec]
    split
    · exact .abortNot s rest h (by assumption)
    · exact .abort s rest h (by assumption)
  | sendLoop s =>
    simp only [exec]
    split
    · exact .sendEnd s rest h (by assumption)
    · exact .sendNext s _ _ rest h (by assumption)
  | sendCheck s f =>
    simp only [exec]
    split
    · exact .checkFails s f rest h (by assumption)
    · exact .checkHolds s f rest h (by assumption)
  | recvLoop s =>
    simp only [exec]
    split
    · exact .recvEnd s rest h (by assumption)
    · rename_i r l hl
      split
      · rename_i hx
        exact .recvTold s r l rest h hl hx.1 hx.2
      · rename_i hx
        exact .recvQuiet s r l rest h hl hx
  | recvErase s r => exact .recvErase s r rest h
  | nearTail s => exact .nearTail s rest h
  | farTail s => exact .farTail s rest h
  | ackClose s => exact .ackClose s rest h
  | didClose s b =>
    have := Way.didClose (C := C) s b rest h
    have e : (didClose (setStack st rest) s b).2 = (if b = true ∧ s ∈ st.table then [.released s] else []) := by
      simp only [Inst.didClose]
      split <;> rename_i hx
      · exact (if_pos hx).symm
      · exact (if_neg hx).symm
    simp only [exec]
    rw [e]
    exact this
  | tellOpening s fs =>
    cases fs with
    | nil => exact .tellOpeningEnd s rest h
    | cons f fs => exact .tellOpening s f fs rest h
  | flowDidClose f s =>
    simp only [exec]
    split
    · exact .flowDidClose f s rest h (by assumption)
    · exact .flowDidCloseNot f s rest h (by assumption)
  | flowClose f =>
    simp only [exec]
    split
    · rename_i hx
      obtain ⟨hx, hy⟩ := hx
      cases e : (st.flow f).sess with
      | none => simp [e] at hx
      | some s =>
        refine .flowCloseGoto f s rest h e ?_
        intro hz
        have := (sessOpen_eq st f).mpr ⟨s, e, hz⟩
        rw [show sessOpen (setStack st rest) f = sessOpen st f from rfl] at hy
        simp [this] at hy
    · rename_i hx
      refine .flowClose f rest h ?_
      cases e : (st.flow f).sess with
      | none => exact .inl rfl
      | some s =>
        right
        simp [e] at hx
        exact hx
  | notOpening f => exact .notOpening f rest h
  | callback f => exact .callback f rest h
  | tellOpened s fs =>
    cases fs with
    | nil => exact .tellOpenedEnd s rest h
    | cons f fs =>
      simp only [exec, flowDidOpen]
      split
      · exact .tellOpenedNot s f fs rest h (.inl (by assumption))
      · rename_i hx
        split
        · rename_i hy
          refine .tellOpened s f fs rest h (by simpa using hx) ?_
          simpa [Option.any_eq_true] using hy
        · rename_i hy
          refine .tellOpenedNot s f fs rest h (.inr ⟨fun e => hy (.inl e), fun e => hy (.inr (.inl e))⟩)
  | tellWillOpen s fs =>
    cases fs with
    | nil => exact .tellWillOpenEnd s rest h
    | cons f fs =>
      simp only [exec, flowWillOpen]
      split
      · exact .tellWillOpenNot s f fs rest h (.inl (by assumption))
      · rename_i hx
        split
        · rename_i o ho
          split
          · rename_i hy
            have := Way.tellWillOpen (C := C) s f o fs rest h (by simpa using hx) (by simpa using ho) hy.1 (by simpa using hy.2)
            have e : ∀ X : St, push (interestDown (setS (setF (push (setStack st rest) [Frame.tellWillOpen s fs]) f (fun e => { e with opening := some s })) s
                (fun e => { e with interest := e.interest + 1 })) (some o)) (abandoned (push (setStack st rest) [Frame.tellWillOpen s fs]) (some o))
              = push (interestDown (setS (setF (setStack st rest) f (fun e => { e with opening := some s })) s (fun e => { e with interest := e.interest + 1 })) (some o))
                (abandoned st (some o) ++ [.tellWillOpen s fs]) := by
              intro _
              rw [abandoned_push]
              have : ∀ (X Y : List Frame) (st : St), push (interestDown (setS (setF (push st X) f (fun e => { e with opening := some s })) s
                (fun e => { e with interest := e.interest + 1 })) (some o)) Y = push (interestDown (setS (setF st f (fun e => { e with opening := some s })) s
                (fun e => { e with interest := e.interest + 1 })) (some o)) (Y ++ X) := by
                intro X Y st
                simp only [push, interestDown, setS, setF, List.append_assoc]
              rw [this]
              rfl
            dsimp only
            rw [e st]
            exact this
          · rename_i hy
            refine .tellWillOpenNot s f fs rest h ?_
            have ho : (st.flow f).opening = some o := ho
            by_cases he : o = s
            · subst he
              exact .inr (.inr (.inl ho))
            · refine .inr (.inr (.inr ⟨o, ho, fun e => hy ⟨he, e⟩⟩))
        · rename_i ho
          exact .tellWillOpenNot s f fs rest h (.inr (.inl ho))
  | respond r =>
    simp only [exec, respond]
    split
    · exact .respondNot r rest h
    · exact (by
        have := Way.respond (C := C) r rest h
        have e : (setOpen C (push (makeSession (setStack st rest) (answered r)) (glared C st r)) st.nS r.tx).2 = [.opened st.nS, .replayed st.nS []] := by
          simp [setOpen, answered, Sess.new]
        rw [← e] at this
        exact this)
  | closeAll ss o =>
    cases ss with
    | nil => exact .closeAllEnd o rest h
    | cons s ss => exact .closeAll s ss o rest h
  | abortOpening => exact .abortOpening rest h
  | abortAll ss =>
    cases ss with
    | nil => exact .abortAllEnd rest h
    | cons s ss => exact .abortAll s ss rest h
  | check =>
    simp only [exec, check]
    split
    · rename_i hx
      exact .check rest h hx.1 hx.2.1 hx.2.2.1 hx.2.2.2
    · exact .checkNot rest h (by assumption)

theorem way_openBound {C : Crypto} {st : St} {epd s : Nat} : flowDidOpen C (newFlow st epd) st.nF s = bind (newFlow st epd) st.nF s := by
  simp [flowDidOpen, SFlow.new]

theorem way_appCall {C : Crypto} {st : St} {op : Op} (ht : appTurn st = true) : Way C st (appCall C st op).1 (appCall C st op).2 := by
  cases op with
  | openFlow epd =>
    simp only [appCall]
    split
    · exact .nothing
    · rename_i hd
      have hd : st.shutdown = false := by simpa using hd
      split
      · rename_i s hs
        rw [way_openBound]
        exact .openBound epd s ht (.inl ⟨hs, hd⟩)
      · rename_i hb
        split
        · rename_i s hs
          have h1 := List.mem_of_find?_eq_some hs
          have h2 := List.find?_some hs
          refine .openWait epd s ht hd hb h1 ?_
          simp [Option.any_eq_true] at h2
          exact h2.imp of_decide_eq_true id
        · rename_i hs
          refine .openInit epd ht hd hb ?_
          intro s hm
          have := List.find?_eq_none.mp hs s hm
          simp [Option.any_eq_true] at this
          exact ⟨of_decide_eq_false this.1, fun c hc => by simpa using this.2 c hc⟩
  | openFlowVia g =>
    simp only [appCall]
    split
    · rename_i s hs
      split
      · rename_i ho
        rw [way_openBound]
        exact .openBound _ s ht (.inr ⟨ho, rfl⟩)
      · exact .nothing
    · exact .nothing
  | openFlowViaR r =>
    simp only [appCall]
    split
    · rename_i ho
      rw [way_openBound]
      exact .openBound _ _ ht (.inr ⟨ho.2, rfl⟩)
    · exact .nothing
  | setHandler f =>
    simp only [appCall]
    split
    · exact .setHandler f ht (by assumption)
    · exact .nothing
  | write f =>
    simp only [appCall]
    split
    · rename_i hf
      exact .write f ht hf.1 hf.2
    · exact .nothing
  | close f =>
    simp only [appCall]
    split
    · exact .closeF f ht (by assumption)
    · exact .nothing
  | closeSession f =>
    simp only [appCall]
    split
    · exact way_sessClose (.inr ⟨rfl, ht, rfl⟩) rfl
    · exact .nothing
  | closeSessionR r =>
    simp only [appCall]
    split
    · exact way_sessClose (.inr ⟨rfl, ht, rfl⟩) rfl
    · exact .nothing
  | setComplete r =>
    simp only [appCall]
    split
    · exact .setComplete r ht (by assumption)
    · exact .nothing
  | closeR r =>
    simp only [appCall]
    split
    · exact .closeR r ht (by assumption)
    · exact .nothing
  | addAddress f a =>
    simp only [appCall]
    split
    · rename_i o ho
      split
      · rename_i hi
        exact .addAddress f o a ht ho hi.1
      · exact .nothing
    · exact .nothing
  | shutdown imm => exact .shutdown imm ht
  | _ => exact .nothing

theorem way_runTask {C : Crypto} {st : St} {t : Task} {ok : Bool} {i : Nat} (hi : st.tasks[i]? = some t) (hs : t.onWorker = false → st.stack = []) :
    Way C st (runTask C (setTasks st (st.tasks.eraseIdx i)) t ok).1 (runTask C (setTasks st (st.tasks.eraseIdx i)) t ok).2 := by
  cases t with
  | shutdown imm => exact .tShutdown i imm hi (hs rfl)
  | rhelloW s cert addr ifc cookie =>
    simp only [runTask]
    split
    · exact .tNext i _ _ hi (.rhello ..)
    · exact .tDrop i _ hi (by simp) (by simp)
  | rhello s cert addr ifc cookie =>
    have hs := hs rfl
    simp only [runTask, rhello]
    split
    · exact .tDrop i _ hi (by simp) (by simp)
    · rename_i h1
      have h1 : (st.sess s).state = .ihello := by simpa using h1
      split
      · rename_i x hx
        split at hx
        · rename_i y hy
          split at hx
          · rename_i hc
            injection hx with hx
            subst hx
            exact .tMerge i s cert addr ifc cookie y hi hs h1 hy (by simpa [Option.any_eq_true] using hc)
          · cases hx
        · cases hx
      · split
        · rename_i x hx
          have h2 := List.mem_of_find?_eq_some hx
          have h3 := List.find?_some hx
          simp [Option.any_eq_true] at h3
          exact .tJoin i s cert addr ifc cookie x hi hs h1 h2 (of_decide_eq_true h3.1.1) h3.1.2 (h3.2.imp of_decide_eq_true id)
        · exact .tKeygen i s cert addr ifc cookie hi hs h1
  | keygenW s =>
    simp only [runTask]
    split
    · exact .tDrop i _ hi (by simp) (by simp)
    · exact .tNext i _ _ hi (.keygen ..)
  | abort s => exact .tAbort i s hi (hs rfl)
  | cookieW s =>
    simp only [runTask]
    split
    · exact .tDrop i _ hi (by simp) (by simp)
    · exact .tNext i _ _ hi (.cookie ..)
  | rikeyingW s tx =>
    simp only [runTask]
    split
    · exact .tNext i _ _ hi (.rikeying ..)
    · exact .tDrop i _ hi (by simp) (by simp)
  | rikeying s tx =>
    simp only [runTask]
    split
    · exact .tOpen i s tx hi (hs rfl) (by assumption)
    · exact .tDrop i _ hi (by simp) (by simp)
  | iikeyingW r =>
    simp only [runTask]
    split
    · exact .tKeying i r _ hi (.inr rfl)
    · have := Way.tKeying (C := C) i r [] hi (.inl rfl)
      rwa [List.append_nil] at this
  | iikeyingW2 r =>
    simp only [runTask]
    split
    · exact .tNext i _ _ hi (.iikeying ..)
    · exact .tDrop i _ hi (by simp) (by simp)
  | iikeying r =>
    have hs := hs rfl
    simp only [runTask, iikeying]
    split
    · exact .tDrop i _ hi (by simp) (by simp)
    · rename_i hd
      have hd : st.shutdown = false := by simpa using hd
      split
      · exact .tDrop i _ hi (by simp) (by simp)
      · split
        · rename_i o ho
          split
          · rename_i hc
            exact .tOverride i o r hi hs hd ho (by simpa [Option.any_eq_true] using hc)
          · exact .tDrop i _ hi (by simp) (by simp)
        · rename_i ho
          exact .tRespond i r hi hs hd ho

theorem way_outside {C : Crypto} {st st' : St} {op : Op} {ev : List Ev} (hs : st.stack = []) (e : outside C st op = some (st', ev)) : Way C st st' ev := by
  have ht : appTurn st = true := by rw [appTurn, hs]
  have hcl : ∀ s, Calls st st s true := fun s => .inr ⟨rfl, ht, rfl⟩
  cases op with
  | timer i late =>
    simp only [outside] at e
    split at e
    · rename_i s hi
      split at e <;> (rename_i hr; injection e with e; injection e with e1 e2; subst e1; subst e2)
      · exact .ultimate i s hs hi hr
      · exact .ultimateNot i s hs hi (by simpa [SState.rank] using hr)
    · rename_i s hi
      split at e <;> (injection e with e; injection e with e1 e2; subst e1; subst e2)
      · exact .near i s hs hi
      · exact .startupPacket hs _ (.inr (.inr ⟨s, false, rfl⟩))
    · rename_i s hi
      injection e with e; injection e with e1 e2; subst e1; subst e2
      exact .far i s hs hi
    · rename_i s hi
      injection e with e; injection e with e1 e2; subst e1; subst e2
      exact .linger i s hs hi
    · cases e
  | startupWritable =>
    simp only [outside] at e
    split at e
    · cases e
    · rename_i h1
      have h1 : st.scheduled = true := by simpa using h1
      split at e <;> (rename_i h2; injection e with e; injection e with e1 e2; subst e1; subst e2)
      · have := Way.startupDone (C := C) hs h1 h2
        simp only [setStartup] at this
        rw [← h2] at this
        exact this
      · have := Way.startupSend (C := C) hs h1 h2
        simp only [setStartup] at this
        rw [← h1] at this
        exact this
  | startupPacket =>
    simp only [outside] at e
    injection e with e; injection e with e1 e2; subst e1; subst e2
    exact .startupPacket hs _ (.inl rfl)
  | drained f =>
    simp only [outside] at e
    split at e
    · rename_i hf
      injection e with e; injection e with e1 e2; subst e1; subst e2
      obtain ⟨s, h1, h2⟩ := (sessOpen_eq st f).mp hf.2
      exact .drained f s hs hf.1 h1 h2
    · cases e
  | excChunk s f =>
    simp only [outside] at e
    split at e
    · rename_i hf
      injection e with e; injection e with e1 e2; subst e1; subst e2
      exact .excChunk s f hs hf.1 hf.2
    · cases e
  | idle s =>
    simp only [outside] at e
    split at e
    · injection e with e
      have := way_sessClose (C := C) (hcl s) rfl
      rwa [e] at this
    · cases e
  | unanswered s =>
    simp only [outside] at e
    split at e
    · injection e with e
      have := way_sessClose (C := C) (hcl s) rfl
      rwa [e] at this
    · cases e
  | redirect s a =>
    simp only [outside] at e
    split at e <;> (rename_i hf; injection e with e; injection e with e1 e2; subst e1; subst e2)
    · exact .redirect s a hs hf.1 hf.2.1
    · exact .nothing
  | rhello s cert addr ifc cookie =>
    simp only [outside] at e
    split at e <;> (rename_i hf; injection e with e; injection e with e1 e2; subst e1; subst e2)
    · exact .rhello s cert addr ifc cookie hs hf.1 hf.2
    · exact .nothing
  | cookieChange s old new =>
    simp only [outside] at e
    split at e <;> (rename_i hf; injection e with e; injection e with e1 e2; subst e1; subst e2)
    · exact .cookieChange s new hs hf.1 hf.2.1
    · exact .nothing
  | rikeying s tx =>
    simp only [outside] at e
    split at e <;> (rename_i hf; injection e with e; injection e with e1 e2; subst e1; subst e2)
    · exact .rikeying s tx hs hf
    · exact .nothing
  | iikeying r c d =>
    simp only [outside] at e
    split at e
    · injection e with e; injection e with e1 e2; subst e1; subst e2
      exact .nothing
    · rename_i hd
      have hd : st.shutdown = false := by simpa using hd
      split at e
      · injection e with e; injection e with e1 e2; subst e1; subst e2
        exact .nothing
      · injection e with e; injection e with e1 e2; subst e1; subst e2
        exact .startupPacket hs _ (.inr (.inl rfl))
      · split at e
        · injection e with e; injection e with e1 e2; subst e1; subst e2
          exact .nothing
        · split at e <;> (rename_i hw; injection e with e; injection e with e1 e2; subst e1; subst e2)
          · exact .nothing
          · exact .keying r hs hd (by simpa using hw)
  | garbage s p =>
    simp only [outside] at e
    split at e <;> (rename_i hf; injection e with e; injection e with e1 e2; subst e1; subst e2)
    · exact .garbage s p hs hf
    · exact .nothing
  | closeChunk s =>
    simp only [outside] at e
    split at e <;> (rename_i hf; injection e with e; injection e with e1 e2; subst e1; subst e2)
    · exact .closeChunk s hs hf
    · exact .startupPacket hs _ (.inr (.inr ⟨s, true, rfl⟩))
    · exact .startupPacket hs _ (.inr (.inr ⟨s, true, rfl⟩))
    · exact .nothing
  | closeAckChunk s =>
    simp only [outside] at e
    split at e <;> (rename_i hf; injection e with e; injection e with e1 e2; subst e1; subst e2)
    · exact .closeAckRude s hs hf
    · exact .closeAck s hs (.inl hf)
    · exact .closeAck s hs (.inr hf)
    · exact .nothing
  | userData s offer =>
    simp only [outside] at e
    split at e
    · rename_i hf
      split at e <;> (rename_i ho; injection e with e; injection e with e1 e2; subst e1; subst e2)
      · subst ho
        exact .userDataOffered s hs hf
      · have ho : offer = false := by simpa using ho
        subst ho
        exact .userData s hs hf
    · cases e
  | recvDone r =>
    simp only [outside] at e
    split at e
    · rename_i hf
      split at e <;> (rename_i ho; injection e with e; injection e with e1 e2; subst e1; subst e2)
      · exact .recvDoneTold r hs hf.1 hf.2.1 hf.2.2 ho
      · exact .recvDone r hs hf.1 hf.2.1 hf.2.2 (by simpa using ho)
    · cases e
  | recvLinger r =>
    simp only [outside] at e
    split at e
    · rename_i hr
      injection e with e; injection e with e1 e2; subst e1; subst e2
      exact .recvLinger r hs hr
    · cases e
  | moveTo s a ifc =>
    simp only [outside] at e
    split at e
    · rename_i hf
      injection e with e; injection e with e1 e2; subst e1; subst e2
      exact .moveTo s a ifc hs hf
    · cases e
  | _ => cases e

theorem step_way {C : Crypto} {st st' : St} {op : Op} {ev : List Ev} (hs : step C st op = some (st', ev)) : Way C st st' ev := by
  rcases (step_kind hs).1 with ⟨fr, rest, h1, h2, e⟩ | ⟨rest, h1, e, e'⟩ | ⟨ht, e⟩ | ⟨i, t, ok, hw, hi, e⟩ | ⟨i, t, ok, hw, h0, hi, e⟩ | ⟨h0, e⟩
  · have := way_exec (C := C) h1 h2
    rw [show exec C (setStack st rest) fr = (st', ev) from e.symm] at this
    exact this
  · subst e; subst e'
    exact .ret rest h1
  · have := way_appCall (C := C) (op := op) ht
    rwa [← e] at this
  · have := way_runTask (C := C) (ok := ok) hi (by simp [hw])
    rw [show runTask C (setTasks st (st.tasks.eraseIdx i)) t ok = (st', ev) from e.symm] at this
    exact this
  · have := way_runTask (C := C) (ok := ok) hi (fun _ => h0)
    rw [show runTask C (setTasks st (st.tasks.eraseIdx i)) t ok = (st', ev) from e.symm] at this
    exact this
  · exact way_outside h0 e

end Inst
end Rtmfp
