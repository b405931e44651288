import Verif.Model.Instance
/-! # Instances: the fields after each kind of change -/
namespace Rtmfp
namespace Inst

@[simp, grind =] theorem push_nS (st : St) (fs : List Frame) : (push st fs).nS = st.nS := rfl
@[simp, grind =] theorem push_sess (st : St) (fs : List Frame) (j : Nat) : (push st fs).sess j = st.sess j := rfl
@[simp, grind =] theorem push_nF (st : St) (fs : List Frame) : (push st fs).nF = st.nF := rfl
@[simp, grind =] theorem push_flow (st : St) (fs : List Frame) (j : Nat) : (push st fs).flow j = st.flow j := rfl
@[simp, grind =] theorem push_nR (st : St) (fs : List Frame) : (push st fs).nR = st.nR := rfl
@[simp, grind =] theorem push_rflow (st : St) (fs : List Frame) (j : Nat) : (push st fs).rflow j = st.rflow j := rfl
@[simp, grind =] theorem push_table (st : St) (fs : List Frame) : (push st fs).table = st.table := rfl
@[simp, grind =] theorem push_openingS (st : St) (fs : List Frame) : (push st fs).openingS = st.openingS := rfl
@[simp, grind =] theorem push_openingF (st : St) (fs : List Frame) : (push st fs).openingF = st.openingF := rfl
@[simp, grind =] theorem push_byAddr (st : St) (fs : List Frame) (j : Nat) : (push st fs).byAddr j = st.byAddr j := rfl
@[simp, grind =] theorem push_byEpd (st : St) (fs : List Frame) (j : Nat) : (push st fs).byEpd j = st.byEpd j := rfl
@[simp, grind =] theorem push_shutdown (st : St) (fs : List Frame) : (push st fs).shutdown = st.shutdown := rfl
@[simp, grind =] theorem push_done (st : St) (fs : List Frame) : (push st fs).done = st.done := rfl
@[simp, grind =] theorem push_waiting (st : St) (fs : List Frame) : (push st fs).waiting = st.waiting := rfl
@[simp, grind =] theorem push_startup (st : St) (fs : List Frame) : (push st fs).startup = st.startup := rfl
@[simp, grind =] theorem push_scheduled (st : St) (fs : List Frame) : (push st fs).scheduled = st.scheduled := rfl
@[simp, grind =] theorem push_tasks (st : St) (fs : List Frame) : (push st fs).tasks = st.tasks := rfl
@[simp, grind =] theorem push_timers (st : St) (fs : List Frame) : (push st fs).timers = st.timers := rfl
@[simp, grind =] theorem push_stack (st : St) (fs : List Frame) : (push st fs).stack = fs ++ st.stack := rfl
@[simp, grind =] theorem push_crashed (st : St) (fs : List Frame) : (push st fs).crashed = st.crashed := rfl
@[simp, grind =] theorem setS_nS (st : St) (s : Nat) (g : Sess → Sess) : (setS st s g).nS = st.nS := rfl
@[simp, grind =] theorem setS_nF (st : St) (s : Nat) (g : Sess → Sess) : (setS st s g).nF = st.nF := rfl
@[simp, grind =] theorem setS_flow (st : St) (s : Nat) (g : Sess → Sess) (j : Nat) : (setS st s g).flow j = st.flow j := rfl
@[simp, grind =] theorem setS_nR (st : St) (s : Nat) (g : Sess → Sess) : (setS st s g).nR = st.nR := rfl
@[simp, grind =] theorem setS_rflow (st : St) (s : Nat) (g : Sess → Sess) (j : Nat) : (setS st s g).rflow j = st.rflow j := rfl
@[simp, grind =] theorem setS_table (st : St) (s : Nat) (g : Sess → Sess) : (setS st s g).table = st.table := rfl
@[simp, grind =] theorem setS_openingS (st : St) (s : Nat) (g : Sess → Sess) : (setS st s g).openingS = st.openingS := rfl
@[simp, grind =] theorem setS_openingF (st : St) (s : Nat) (g : Sess → Sess) : (setS st s g).openingF = st.openingF := rfl
@[simp, grind =] theorem setS_byAddr (st : St) (s : Nat) (g : Sess → Sess) (j : Nat) : (setS st s g).byAddr j = st.byAddr j := rfl
@[simp, grind =] theorem setS_byEpd (st : St) (s : Nat) (g : Sess → Sess) (j : Nat) : (setS st s g).byEpd j = st.byEpd j := rfl
@[simp, grind =] theorem setS_shutdown (st : St) (s : Nat) (g : Sess → Sess) : (setS st s g).shutdown = st.shutdown := rfl
@[simp, grind =] theorem setS_done (st : St) (s : Nat) (g : Sess → Sess) : (setS st s g).done = st.done := rfl
@[simp, grind =] theorem setS_waiting (st : St) (s : Nat) (g : Sess → Sess) : (setS st s g).waiting = st.waiting := rfl
@[simp, grind =] theorem setS_startup (st : St) (s : Nat) (g : Sess → Sess) : (setS st s g).startup = st.startup := rfl
@[simp, grind =] theorem setS_scheduled (st : St) (s : Nat) (g : Sess → Sess) : (setS st s g).scheduled = st.scheduled := rfl
@[simp, grind =] theorem setS_tasks (st : St) (s : Nat) (g : Sess → Sess) : (setS st s g).tasks = st.tasks := rfl
@[simp, grind =] theorem setS_timers (st : St) (s : Nat) (g : Sess → Sess) : (setS st s g).timers = st.timers := rfl
@[simp, grind =] theorem setS_stack (st : St) (s : Nat) (g : Sess → Sess) : (setS st s g).stack = st.stack := rfl
@[simp, grind =] theorem setS_crashed (st : St) (s : Nat) (g : Sess → Sess) : (setS st s g).crashed = st.crashed := rfl
@[simp, grind =] theorem setF_nS (st : St) (f : Nat) (g : SFlow → SFlow) : (setF st f g).nS = st.nS := rfl
@[simp, grind =] theorem setF_sess (st : St) (f : Nat) (g : SFlow → SFlow) (j : Nat) : (setF st f g).sess j = st.sess j := rfl
@[simp, grind =] theorem setF_nF (st : St) (f : Nat) (g : SFlow → SFlow) : (setF st f g).nF = st.nF := rfl
@[simp, grind =] theorem setF_nR (st : St) (f : Nat) (g : SFlow → SFlow) : (setF st f g).nR = st.nR := rfl
@[simp, grind =] theorem setF_rflow (st : St) (f : Nat) (g : SFlow → SFlow) (j : Nat) : (setF st f g).rflow j = st.rflow j := rfl
@[simp, grind =] theorem setF_table (st : St) (f : Nat) (g : SFlow → SFlow) : (setF st f g).table = st.table := rfl
@[simp, grind =] theorem setF_openingS (st : St) (f : Nat) (g : SFlow → SFlow) : (setF st f g).openingS = st.openingS := rfl
@[simp, grind =] theorem setF_openingF (st : St) (f : Nat) (g : SFlow → SFlow) : (setF st f g).openingF = st.openingF := rfl
@[simp, grind =] theorem setF_byAddr (st : St) (f : Nat) (g : SFlow → SFlow) (j : Nat) : (setF st f g).byAddr j = st.byAddr j := rfl
@[simp, grind =] theorem setF_byEpd (st : St) (f : Nat) (g : SFlow → SFlow) (j : Nat) : (setF st f g).byEpd j = st.byEpd j := rfl
@[simp, grind =] theorem setF_shutdown (st : St) (f : Nat) (g : SFlow → SFlow) : (setF st f g).shutdown = st.shutdown := rfl
@[simp, grind =] theorem setF_done (st : St) (f : Nat) (g : SFlow → SFlow) : (setF st f g).done = st.done := rfl
@[simp, grind =] theorem setF_waiting (st : St) (f : Nat) (g : SFlow → SFlow) : (setF st f g).waiting = st.waiting := rfl
@[simp, grind =] theorem setF_startup (st : St) (f : Nat) (g : SFlow → SFlow) : (setF st f g).startup = st.startup := rfl
@[simp, grind =] theorem setF_scheduled (st : St) (f : Nat) (g : SFlow → SFlow) : (setF st f g).scheduled = st.scheduled := rfl
@[simp, grind =] theorem setF_tasks (st : St) (f : Nat) (g : SFlow → SFlow) : (setF st f g).tasks = st.tasks := rfl
@[simp, grind =] theorem setF_timers (st : St) (f : Nat) (g : SFlow → SFlow) : (setF st f g).timers = st.timers := rfl
@[simp, grind =] theorem setF_stack (st : St) (f : Nat) (g : SFlow → SFlow) : (setF st f g).stack = st.stack := rfl
@[simp, grind =] theorem setF_crashed (st : St) (f : Nat) (g : SFlow → SFlow) : (setF st f g).crashed = st.crashed := rfl
@[simp, grind =] theorem setR_nS (st : St) (r : Nat) (g : RFlow → RFlow) : (setR st r g).nS = st.nS := rfl
@[simp, grind =] theorem setR_sess (st : St) (r : Nat) (g : RFlow → RFlow) (j : Nat) : (setR st r g).sess j = st.sess j := rfl
@[simp, grind =] theorem setR_nF (st : St) (r : Nat) (g : RFlow → RFlow) : (setR st r g).nF = st.nF := rfl
@[simp, grind =] theorem setR_flow (st : St) (r : Nat) (g : RFlow → RFlow) (j : Nat) : (setR st r g).flow j = st.flow j := rfl
@[simp, grind =] theorem setR_nR (st : St) (r : Nat) (g : RFlow → RFlow) : (setR st r g).nR = st.nR := rfl
@[simp, grind =] theorem setR_table (st : St) (r : Nat) (g : RFlow → RFlow) : (setR st r g).table = st.table := rfl
@[simp, grind =] theorem setR_openingS (st : St) (r : Nat) (g : RFlow → RFlow) : (setR st r g).openingS = st.openingS := rfl
@[simp, grind =] theorem setR_openingF (st : St) (r : Nat) (g : RFlow → RFlow) : (setR st r g).openingF = st.openingF := rfl
@[simp, grind =] theorem setR_byAddr (st : St) (r : Nat) (g : RFlow → RFlow) (j : Nat) : (setR st r g).byAddr j = st.byAddr j := rfl
@[simp, grind =] theorem setR_byEpd (st : St) (r : Nat) (g : RFlow → RFlow) (j : Nat) : (setR st r g).byEpd j = st.byEpd j := rfl
@[simp, grind =] theorem setR_shutdown (st : St) (r : Nat) (g : RFlow → RFlow) : (setR st r g).shutdown = st.shutdown := rfl
@[simp, grind =] theorem setR_done (st : St) (r : Nat) (g : RFlow → RFlow) : (setR st r g).done = st.done := rfl
@[simp, grind =] theorem setR_waiting (st : St) (r : Nat) (g : RFlow → RFlow) : (setR st r g).waiting = st.waiting := rfl
@[simp, grind =] theorem setR_startup (st : St) (r : Nat) (g : RFlow → RFlow) : (setR st r g).startup = st.startup := rfl
@[simp, grind =] theorem setR_scheduled (st : St) (r : Nat) (g : RFlow → RFlow) : (setR st r g).scheduled = st.scheduled := rfl
@[simp, grind =] theorem setR_tasks (st : St) (r : Nat) (g : RFlow → RFlow) : (setR st r g).tasks = st.tasks := rfl
@[simp, grind =] theorem setR_timers (st : St) (r : Nat) (g : RFlow → RFlow) : (setR st r g).timers = st.timers := rfl
@[simp, grind =] theorem setR_stack (st : St) (r : Nat) (g : RFlow → RFlow) : (setR st r g).stack = st.stack := rfl
@[simp, grind =] theorem setR_crashed (st : St) (r : Nat) (g : RFlow → RFlow) : (setR st r g).crashed = st.crashed := rfl
@[simp, grind =] theorem queueStartup_nS (st : St)  : (queueStartup st).nS = st.nS := rfl
@[simp, grind =] theorem queueStartup_sess (st : St)  (j : Nat) : (queueStartup st).sess j = st.sess j := rfl
@[simp, grind =] theorem queueStartup_nF (st : St)  : (queueStartup st).nF = st.nF := rfl
@[simp, grind =] theorem queueStartup_flow (st : St)  (j : Nat) : (queueStartup st).flow j = st.flow j := rfl
@[simp, grind =] theorem queueStartup_nR (st : St)  : (queueStartup st).nR = st.nR := rfl
@[simp, grind =] theorem queueStartup_rflow (st : St)  (j : Nat) : (queueStartup st).rflow j = st.rflow j := rfl
@[simp, grind =] theorem queueStartup_table (st : St)  : (queueStartup st).table = st.table := rfl
@[simp, grind =] theorem queueStartup_openingS (st : St)  : (queueStartup st).openingS = st.openingS := rfl
@[simp, grind =] theorem queueStartup_openingF (st : St)  : (queueStartup st).openingF = st.openingF := rfl
@[simp, grind =] theorem queueStartup_byAddr (st : St)  (j : Nat) : (queueStartup st).byAddr j = st.byAddr j := rfl
@[simp, grind =] theorem queueStartup_byEpd (st : St)  (j : Nat) : (queueStartup st).byEpd j = st.byEpd j := rfl
@[simp, grind =] theorem queueStartup_shutdown (st : St)  : (queueStartup st).shutdown = st.shutdown := rfl
@[simp, grind =] theorem queueStartup_done (st : St)  : (queueStartup st).done = st.done := rfl
@[simp, grind =] theorem queueStartup_waiting (st : St)  : (queueStartup st).waiting = st.waiting := rfl
@[simp, grind =] theorem queueStartup_startup (st : St)  : (queueStartup st).startup = st.startup + 1 := rfl
@[simp, grind =] theorem queueStartup_scheduled (st : St)  : (queueStartup st).scheduled = true := rfl
@[simp, grind =] theorem queueStartup_tasks (st : St)  : (queueStartup st).tasks = st.tasks := rfl
@[simp, grind =] theorem queueStartup_timers (st : St)  : (queueStartup st).timers = st.timers := rfl
@[simp, grind =] theorem queueStartup_stack (st : St)  : (queueStartup st).stack = st.stack := rfl
@[simp, grind =] theorem queueStartup_crashed (st : St)  : (queueStartup st).crashed = st.crashed := rfl
@[simp, grind =] theorem notOpening_nS (st : St) (f : Nat) : (notOpening st f).nS = st.nS := rfl
@[simp, grind =] theorem notOpening_sess (st : St) (f : Nat) (j : Nat) : (notOpening st f).sess j = st.sess j := rfl
@[simp, grind =] theorem notOpening_nF (st : St) (f : Nat) : (notOpening st f).nF = st.nF := rfl
@[simp, grind =] theorem notOpening_flow (st : St) (f : Nat) (j : Nat) : (notOpening st f).flow j = st.flow j := rfl
@[simp, grind =] theorem notOpening_nR (st : St) (f : Nat) : (notOpening st f).nR = st.nR := rfl
@[simp, grind =] theorem notOpening_rflow (st : St) (f : Nat) (j : Nat) : (notOpening st f).rflow j = st.rflow j := rfl
@[simp, grind =] theorem notOpening_table (st : St) (f : Nat) : (notOpening st f).table = st.table := rfl
@[simp, grind =] theorem notOpening_openingS (st : St) (f : Nat) : (notOpening st f).openingS = st.openingS := rfl
@[simp, grind =] theorem notOpening_openingF (st : St) (f : Nat) : (notOpening st f).openingF = st.openingF.filter (· ≠ f) := rfl
@[simp, grind =] theorem notOpening_byAddr (st : St) (f : Nat) (j : Nat) : (notOpening st f).byAddr j = st.byAddr j := rfl
@[simp, grind =] theorem notOpening_byEpd (st : St) (f : Nat) (j : Nat) : (notOpening st f).byEpd j = st.byEpd j := rfl
@[simp, grind =] theorem notOpening_shutdown (st : St) (f : Nat) : (notOpening st f).shutdown = st.shutdown := rfl
@[simp, grind =] theorem notOpening_done (st : St) (f : Nat) : (notOpening st f).done = st.done := rfl
@[simp, grind =] theorem notOpening_waiting (st : St) (f : Nat) : (notOpening st f).waiting = st.waiting := rfl
@[simp, grind =] theorem notOpening_startup (st : St) (f : Nat) : (notOpening st f).startup = st.startup := rfl
@[simp, grind =] theorem notOpening_scheduled (st : St) (f : Nat) : (notOpening st f).scheduled = st.scheduled := rfl
@[simp, grind =] theorem notOpening_tasks (st : St) (f : Nat) : (notOpening st f).tasks = st.tasks := rfl
@[simp, grind =] theorem notOpening_timers (st : St) (f : Nat) : (notOpening st f).timers = st.timers := rfl
@[simp, grind =] theorem notOpening_stack (st : St) (f : Nat) : (notOpening st f).stack = st.stack := rfl
@[simp, grind =] theorem notOpening_crashed (st : St) (f : Nat) : (notOpening st f).crashed = st.crashed := rfl
@[simp, grind =] theorem setS_sess (st : St) (s : Nat) (g : Sess → Sess) (j : Nat) : (setS st s g).sess j = if j = s then g (st.sess s) else st.sess j := rfl
@[simp, grind =] theorem setF_flow (st : St) (f : Nat) (g : SFlow → SFlow) (j : Nat) : (setF st f g).flow j = if j = f then g (st.flow f) else st.flow j := rfl
@[simp, grind =] theorem setR_rflow (st : St) (r : Nat) (g : RFlow → RFlow) (j : Nat) : (setR st r g).rflow j = if j = r then g (st.rflow r) else st.rflow j := rfl
@[simp, grind =] theorem upd_apply {α : Type} (g : Nat → α) (i : Nat) (v : α) (j : Nat) : upd g i v j = if j = i then v else g j := rfl
@[simp, grind =] theorem interestDown_nS (st : St) (o : Option Nat) : (interestDown st o).nS = st.nS := by cases o <;> rfl
@[simp, grind =] theorem interestDown_nF (st : St) (o : Option Nat) : (interestDown st o).nF = st.nF := by cases o <;> rfl
@[simp, grind =] theorem interestDown_flow (st : St) (o : Option Nat) (j : Nat) : (interestDown st o).flow j = st.flow j := by cases o <;> rfl
@[simp, grind =] theorem interestDown_nR (st : St) (o : Option Nat) : (interestDown st o).nR = st.nR := by cases o <;> rfl
@[simp, grind =] theorem interestDown_rflow (st : St) (o : Option Nat) (j : Nat) : (interestDown st o).rflow j = st.rflow j := by cases o <;> rfl
@[simp, grind =] theorem interestDown_table (st : St) (o : Option Nat) : (interestDown st o).table = st.table := by cases o <;> rfl
@[simp, grind =] theorem interestDown_openingS (st : St) (o : Option Nat) : (interestDown st o).openingS = st.openingS := by cases o <;> rfl
@[simp, grind =] theorem interestDown_openingF (st : St) (o : Option Nat) : (interestDown st o).openingF = st.openingF := by cases o <;> rfl
@[simp, grind =] theorem interestDown_byAddr (st : St) (o : Option Nat) (j : Nat) : (interestDown st o).byAddr j = st.byAddr j := by cases o <;> rfl
@[simp, grind =] theorem interestDown_byEpd (st : St) (o : Option Nat) (j : Nat) : (interestDown st o).byEpd j = st.byEpd j := by cases o <;> rfl
@[simp, grind =] theorem interestDown_shutdown (st : St) (o : Option Nat) : (interestDown st o).shutdown = st.shutdown := by cases o <;> rfl
@[simp, grind =] theorem interestDown_done (st : St) (o : Option Nat) : (interestDown st o).done = st.done := by cases o <;> rfl
@[simp, grind =] theorem interestDown_waiting (st : St) (o : Option Nat) : (interestDown st o).waiting = st.waiting := by cases o <;> rfl
@[simp, grind =] theorem interestDown_startup (st : St) (o : Option Nat) : (interestDown st o).startup = st.startup := by cases o <;> rfl
@[simp, grind =] theorem interestDown_scheduled (st : St) (o : Option Nat) : (interestDown st o).scheduled = st.scheduled := by cases o <;> rfl
@[simp, grind =] theorem interestDown_tasks (st : St) (o : Option Nat) : (interestDown st o).tasks = st.tasks := by cases o <;> rfl
@[simp, grind =] theorem interestDown_timers (st : St) (o : Option Nat) : (interestDown st o).timers = st.timers := by cases o <;> rfl
@[simp, grind =] theorem interestDown_stack (st : St) (o : Option Nat) : (interestDown st o).stack = st.stack := by cases o <;> rfl
@[simp, grind =] theorem interestDown_crashed (st : St) (o : Option Nat) : (interestDown st o).crashed = st.crashed := by cases o <;> rfl
@[simp, grind =] theorem unbind_nS (st : St) (f : Nat) (s : Option Nat) : (unbind st f s).nS = st.nS := by cases s <;> rfl
@[simp, grind =] theorem unbind_nF (st : St) (f : Nat) (s : Option Nat) : (unbind st f s).nF = st.nF := by cases s <;> rfl
@[simp, grind =] theorem unbind_flow (st : St) (f : Nat) (s : Option Nat) (j : Nat) : (unbind st f s).flow j = st.flow j := by cases s <;> rfl
@[simp, grind =] theorem unbind_nR (st : St) (f : Nat) (s : Option Nat) : (unbind st f s).nR = st.nR := by cases s <;> rfl
@[simp, grind =] theorem unbind_rflow (st : St) (f : Nat) (s : Option Nat) (j : Nat) : (unbind st f s).rflow j = st.rflow j := by cases s <;> rfl
@[simp, grind =] theorem unbind_table (st : St) (f : Nat) (s : Option Nat) : (unbind st f s).table = st.table := by cases s <;> rfl
@[simp, grind =] theorem unbind_openingS (st : St) (f : Nat) (s : Option Nat) : (unbind st f s).openingS = st.openingS := by cases s <;> rfl
@[simp, grind =] theorem unbind_openingF (st : St) (f : Nat) (s : Option Nat) : (unbind st f s).openingF = st.openingF := by cases s <;> rfl
@[simp, grind =] theorem unbind_byAddr (st : St) (f : Nat) (s : Option Nat) (j : Nat) : (unbind st f s).byAddr j = st.byAddr j := by cases s <;> rfl
@[simp, grind =] theorem unbind_byEpd (st : St) (f : Nat) (s : Option Nat) (j : Nat) : (unbind st f s).byEpd j = st.byEpd j := by cases s <;> rfl
@[simp, grind =] theorem unbind_shutdown (st : St) (f : Nat) (s : Option Nat) : (unbind st f s).shutdown = st.shutdown := by cases s <;> rfl
@[simp, grind =] theorem unbind_done (st : St) (f : Nat) (s : Option Nat) : (unbind st f s).done = st.done := by cases s <;> rfl
@[simp, grind =] theorem unbind_waiting (st : St) (f : Nat) (s : Option Nat) : (unbind st f s).waiting = st.waiting := by cases s <;> rfl
@[simp, grind =] theorem unbind_startup (st : St) (f : Nat) (s : Option Nat) : (unbind st f s).startup = st.startup := by cases s <;> rfl
@[simp, grind =] theorem unbind_scheduled (st : St) (f : Nat) (s : Option Nat) : (unbind st f s).scheduled = st.scheduled := by cases s <;> rfl
@[simp, grind =] theorem unbind_tasks (st : St) (f : Nat) (s : Option Nat) : (unbind st f s).tasks = st.tasks := by cases s <;> rfl
@[simp, grind =] theorem unbind_timers (st : St) (f : Nat) (s : Option Nat) : (unbind st f s).timers = st.timers := by cases s <;> rfl
@[simp, grind =] theorem unbind_stack (st : St) (f : Nat) (s : Option Nat) : (unbind st f s).stack = st.stack := by cases s <;> rfl
@[simp, grind =] theorem unbind_crashed (st : St) (f : Nat) (s : Option Nat) : (unbind st f s).crashed = st.crashed := by cases s <;> rfl
@[simp, grind =] theorem interestDown_sess (st : St) (o : Option Nat) (j : Nat) : (interestDown st o).sess j =
    if o = some j then { st.sess j with interest := (st.sess j).interest - 1 } else st.sess j := by
  cases o with
  | none => simp [interestDown]
  | some o => by_cases h : j = o <;> simp [interestDown, h, eq_comm]
@[simp, grind =] theorem unbind_sess (st : St) (f : Nat) (o : Option Nat) (j : Nat) : (unbind st f o).sess j =
    if o = some j then { st.sess j with sendFlows := (st.sess j).sendFlows.filter (· ≠ f) } else st.sess j := by
  cases o with
  | none => simp [unbind]
  | some o => by_cases h : j = o <;> simp [unbind, h, eq_comm]
@[simp, grind =] theorem setState_nS (st : St) (s : Nat) (x : SState) : (setState st s x).nS = st.nS := rfl
@[simp, grind =] theorem setState_sess (st : St) (s : Nat) (x : SState) (j : Nat) : (setState st s x).sess j = if j = s then { st.sess s with state := x } else st.sess j := rfl
@[simp, grind =] theorem setState_nF (st : St) (s : Nat) (x : SState) : (setState st s x).nF = st.nF := rfl
@[simp, grind =] theorem setState_flow (st : St) (s : Nat) (x : SState) (j : Nat) : (setState st s x).flow j = st.flow j := rfl
@[simp, grind =] theorem setState_nR (st : St) (s : Nat) (x : SState) : (setState st s x).nR = st.nR := rfl
@[simp, grind =] theorem setState_rflow (st : St) (s : Nat) (x : SState) (j : Nat) : (setState st s x).rflow j = st.rflow j := rfl
@[simp, grind =] theorem setState_table (st : St) (s : Nat) (x : SState) : (setState st s x).table = st.table := rfl
@[simp, grind =] theorem setState_openingS (st : St) (s : Nat) (x : SState) : (setState st s x).openingS = st.openingS := rfl
@[simp, grind =] theorem setState_openingF (st : St) (s : Nat) (x : SState) : (setState st s x).openingF = st.openingF := rfl
@[simp, grind =] theorem setState_byAddr (st : St) (s : Nat) (x : SState) (j : Nat) : (setState st s x).byAddr j = st.byAddr j := rfl
@[simp, grind =] theorem setState_byEpd (st : St) (s : Nat) (x : SState) (j : Nat) : (setState st s x).byEpd j = st.byEpd j := rfl
@[simp, grind =] theorem setState_shutdown (st : St) (s : Nat) (x : SState) : (setState st s x).shutdown = st.shutdown := rfl
@[simp, grind =] theorem setState_done (st : St) (s : Nat) (x : SState) : (setState st s x).done = st.done := rfl
@[simp, grind =] theorem setState_waiting (st : St) (s : Nat) (x : SState) : (setState st s x).waiting = st.waiting := rfl
@[simp, grind =] theorem setState_startup (st : St) (s : Nat) (x : SState) : (setState st s x).startup = st.startup := rfl
@[simp, grind =] theorem setState_scheduled (st : St) (s : Nat) (x : SState) : (setState st s x).scheduled = st.scheduled := rfl
@[simp, grind =] theorem setState_tasks (st : St) (s : Nat) (x : SState) : (setState st s x).tasks = st.tasks := rfl
@[simp, grind =] theorem setState_timers (st : St) (s : Nat) (x : SState) : (setState st s x).timers = st.timers := rfl
@[simp, grind =] theorem setState_stack (st : St) (s : Nat) (x : SState) : (setState st s x).stack = st.stack := rfl
@[simp, grind =] theorem setState_crashed (st : St) (s : Nat) (x : SState) : (setState st s x).crashed = st.crashed := rfl
@[simp, grind =] theorem makeSession_nS (st : St) (e : Sess) : (makeSession st e).nS = st.nS + 1 := rfl
@[simp, grind =] theorem makeSession_sess (st : St) (e : Sess) (j : Nat) : (makeSession st e).sess j = if j = st.nS then e else st.sess j := rfl
@[simp, grind =] theorem makeSession_nF (st : St) (e : Sess) : (makeSession st e).nF = st.nF := rfl
@[simp, grind =] theorem makeSession_flow (st : St) (e : Sess) (j : Nat) : (makeSession st e).flow j = st.flow j := rfl
@[simp, grind =] theorem makeSession_nR (st : St) (e : Sess) : (makeSession st e).nR = st.nR := rfl
@[simp, grind =] theorem makeSession_rflow (st : St) (e : Sess) (j : Nat) : (makeSession st e).rflow j = st.rflow j := rfl
@[simp, grind =] theorem makeSession_table (st : St) (e : Sess) : (makeSession st e).table = st.table ++ [st.nS] := rfl
@[simp, grind =] theorem makeSession_openingS (st : St) (e : Sess) : (makeSession st e).openingS = st.openingS := rfl
@[simp, grind =] theorem makeSession_openingF (st : St) (e : Sess) : (makeSession st e).openingF = st.openingF := rfl
@[simp, grind =] theorem makeSession_byAddr (st : St) (e : Sess) (j : Nat) : (makeSession st e).byAddr j = st.byAddr j := rfl
@[simp, grind =] theorem makeSession_byEpd (st : St) (e : Sess) (j : Nat) : (makeSession st e).byEpd j = st.byEpd j := rfl
@[simp, grind =] theorem makeSession_shutdown (st : St) (e : Sess) : (makeSession st e).shutdown = st.shutdown := rfl
@[simp, grind =] theorem makeSession_done (st : St) (e : Sess) : (makeSession st e).done = st.done := rfl
@[simp, grind =] theorem makeSession_waiting (st : St) (e : Sess) : (makeSession st e).waiting = st.waiting := rfl
@[simp, grind =] theorem makeSession_startup (st : St) (e : Sess) : (makeSession st e).startup = st.startup := rfl
@[simp, grind =] theorem makeSession_scheduled (st : St) (e : Sess) : (makeSession st e).scheduled = st.scheduled := rfl
@[simp, grind =] theorem makeSession_tasks (st : St) (e : Sess) : (makeSession st e).tasks = st.tasks := rfl
@[simp, grind =] theorem makeSession_timers (st : St) (e : Sess) : (makeSession st e).timers = st.timers := rfl
@[simp, grind =] theorem makeSession_stack (st : St) (e : Sess) : (makeSession st e).stack = st.stack := rfl
@[simp, grind =] theorem makeSession_crashed (st : St) (e : Sess) : (makeSession st e).crashed = st.crashed := rfl
@[simp, grind =] theorem initiate_nS (st : St) (epd : Nat) : (initiate st epd).nS = st.nS + 1 := rfl
@[simp, grind =] theorem initiate_sess (st : St) (epd : Nat) (j : Nat) : (initiate st epd).sess j = if j = st.nS then { Sess.new with state := .ihello, initiator := true, epd := epd } else st.sess j := rfl
@[simp, grind =] theorem initiate_nF (st : St) (epd : Nat) : (initiate st epd).nF = st.nF := rfl
@[simp, grind =] theorem initiate_flow (st : St) (epd : Nat) (j : Nat) : (initiate st epd).flow j = st.flow j := rfl
@[simp, grind =] theorem initiate_nR (st : St) (epd : Nat) : (initiate st epd).nR = st.nR := rfl
@[simp, grind =] theorem initiate_rflow (st : St) (epd : Nat) (j : Nat) : (initiate st epd).rflow j = st.rflow j := rfl
@[simp, grind =] theorem initiate_table (st : St) (epd : Nat) : (initiate st epd).table = st.table ++ [st.nS] := rfl
@[simp, grind =] theorem initiate_openingS (st : St) (epd : Nat) : (initiate st epd).openingS = st.openingS ++ [st.nS] := rfl
@[simp, grind =] theorem initiate_openingF (st : St) (epd : Nat) : (initiate st epd).openingF = st.openingF := rfl
@[simp, grind =] theorem initiate_byAddr (st : St) (epd : Nat) (j : Nat) : (initiate st epd).byAddr j = st.byAddr j := rfl
@[simp, grind =] theorem initiate_byEpd (st : St) (epd : Nat) (j : Nat) : (initiate st epd).byEpd j = st.byEpd j := rfl
@[simp, grind =] theorem initiate_shutdown (st : St) (epd : Nat) : (initiate st epd).shutdown = st.shutdown := rfl
@[simp, grind =] theorem initiate_done (st : St) (epd : Nat) : (initiate st epd).done = st.done := rfl
@[simp, grind =] theorem initiate_waiting (st : St) (epd : Nat) : (initiate st epd).waiting = st.waiting := rfl
@[simp, grind =] theorem initiate_startup (st : St) (epd : Nat) : (initiate st epd).startup = st.startup := rfl
@[simp, grind =] theorem initiate_scheduled (st : St) (epd : Nat) : (initiate st epd).scheduled = st.scheduled := rfl
@[simp, grind =] theorem initiate_tasks (st : St) (epd : Nat) : (initiate st epd).tasks = st.tasks := rfl
@[simp, grind =] theorem initiate_timers (st : St) (epd : Nat) : (initiate st epd).timers = st.timers ++ [.ultimate st.nS] := rfl
@[simp, grind =] theorem initiate_stack (st : St) (epd : Nat) : (initiate st epd).stack = st.stack := rfl
@[simp, grind =] theorem initiate_crashed (st : St) (epd : Nat) : (initiate st epd).crashed = st.crashed := rfl
@[simp, grind =] theorem waitFor_nS (st : St) (f s : Nat) : (waitFor st f s).nS = st.nS := rfl
@[simp, grind =] theorem waitFor_sess (st : St) (f s : Nat) (j : Nat) : (waitFor st f s).sess j = if j = s then { st.sess s with interest := (st.sess s).interest + 1 } else st.sess j := rfl
@[simp, grind =] theorem waitFor_nF (st : St) (f s : Nat) : (waitFor st f s).nF = st.nF := rfl
@[simp, grind =] theorem waitFor_flow (st : St) (f s : Nat) (j : Nat) : (waitFor st f s).flow j = if j = f then { st.flow f with opening := some s } else st.flow j := rfl
@[simp, grind =] theorem waitFor_nR (st : St) (f s : Nat) : (waitFor st f s).nR = st.nR := rfl
@[simp, grind =] theorem waitFor_rflow (st : St) (f s : Nat) (j : Nat) : (waitFor st f s).rflow j = st.rflow j := rfl
@[simp, grind =] theorem waitFor_table (st : St) (f s : Nat) : (waitFor st f s).table = st.table := rfl
@[simp, grind =] theorem waitFor_openingS (st : St) (f s : Nat) : (waitFor st f s).openingS = st.openingS := rfl
@[simp, grind =] theorem waitFor_openingF (st : St) (f s : Nat) : (waitFor st f s).openingF = st.openingF ++ [f] := rfl
@[simp, grind =] theorem waitFor_byAddr (st : St) (f s : Nat) (j : Nat) : (waitFor st f s).byAddr j = st.byAddr j := rfl
@[simp, grind =] theorem waitFor_byEpd (st : St) (f s : Nat) (j : Nat) : (waitFor st f s).byEpd j = st.byEpd j := rfl
@[simp, grind =] theorem waitFor_shutdown (st : St) (f s : Nat) : (waitFor st f s).shutdown = st.shutdown := rfl
@[simp, grind =] theorem waitFor_done (st : St) (f s : Nat) : (waitFor st f s).done = st.done := rfl
@[simp, grind =] theorem waitFor_waiting (st : St) (f s : Nat) : (waitFor st f s).waiting = st.waiting := rfl
@[simp, grind =] theorem waitFor_startup (st : St) (f s : Nat) : (waitFor st f s).startup = st.startup := rfl
@[simp, grind =] theorem waitFor_scheduled (st : St) (f s : Nat) : (waitFor st f s).scheduled = st.scheduled := rfl
@[simp, grind =] theorem waitFor_tasks (st : St) (f s : Nat) : (waitFor st f s).tasks = st.tasks := rfl
@[simp, grind =] theorem waitFor_timers (st : St) (f s : Nat) : (waitFor st f s).timers = st.timers := rfl
@[simp, grind =] theorem waitFor_stack (st : St) (f s : Nat) : (waitFor st f s).stack = st.stack := rfl
@[simp, grind =] theorem waitFor_crashed (st : St) (f s : Nat) : (waitFor st f s).crashed = st.crashed := rfl
@[simp, grind =] theorem newFlow_nS (st : St) (epd : Nat) : (newFlow st epd).nS = st.nS := rfl
@[simp, grind =] theorem newFlow_sess (st : St) (epd : Nat) (j : Nat) : (newFlow st epd).sess j = st.sess j := rfl
@[simp, grind =] theorem newFlow_nF (st : St) (epd : Nat) : (newFlow st epd).nF = st.nF + 1 := rfl
@[simp, grind =] theorem newFlow_flow (st : St) (epd : Nat) (j : Nat) : (newFlow st epd).flow j = if j = st.nF then SFlow.new epd else st.flow j := rfl
@[simp, grind =] theorem newFlow_nR (st : St) (epd : Nat) : (newFlow st epd).nR = st.nR := rfl
@[simp, grind =] theorem newFlow_rflow (st : St) (epd : Nat) (j : Nat) : (newFlow st epd).rflow j = st.rflow j := rfl
@[simp, grind =] theorem newFlow_table (st : St) (epd : Nat) : (newFlow st epd).table = st.table := rfl
@[simp, grind =] theorem newFlow_openingS (st : St) (epd : Nat) : (newFlow st epd).openingS = st.openingS := rfl
@[simp, grind =] theorem newFlow_openingF (st : St) (epd : Nat) : (newFlow st epd).openingF = st.openingF := rfl
@[simp, grind =] theorem newFlow_byAddr (st : St) (epd : Nat) (j : Nat) : (newFlow st epd).byAddr j = st.byAddr j := rfl
@[simp, grind =] theorem newFlow_byEpd (st : St) (epd : Nat) (j : Nat) : (newFlow st epd).byEpd j = st.byEpd j := rfl
@[simp, grind =] theorem newFlow_shutdown (st : St) (epd : Nat) : (newFlow st epd).shutdown = st.shutdown := rfl
@[simp, grind =] theorem newFlow_done (st : St) (epd : Nat) : (newFlow st epd).done = st.done := rfl
@[simp, grind =] theorem newFlow_waiting (st : St) (epd : Nat) : (newFlow st epd).waiting = st.waiting := rfl
@[simp, grind =] theorem newFlow_startup (st : St) (epd : Nat) : (newFlow st epd).startup = st.startup := rfl
@[simp, grind =] theorem newFlow_scheduled (st : St) (epd : Nat) : (newFlow st epd).scheduled = st.scheduled := rfl
@[simp, grind =] theorem newFlow_tasks (st : St) (epd : Nat) : (newFlow st epd).tasks = st.tasks := rfl
@[simp, grind =] theorem newFlow_timers (st : St) (epd : Nat) : (newFlow st epd).timers = st.timers := rfl
@[simp, grind =] theorem newFlow_stack (st : St) (epd : Nat) : (newFlow st epd).stack = st.stack := rfl
@[simp, grind =] theorem newFlow_crashed (st : St) (epd : Nat) : (newFlow st epd).crashed = st.crashed := rfl

end Inst
end Rtmfp
