import Verif.Lemmas.InstanceBase
/-! # Instances: what closing, reporting and binding a flow change -/
namespace Rtmfp
namespace Inst

/-- the flow closes in order: what was written is still to be delivered -/
def soft (st : St) (f : Nat) : Bool := (st.flow f).state = .opened && sessOpen st f && (st.flow f).wrote
/-- the flow closes at once -/
def hard (st : St) (f : Nat) : Bool := (st.flow f).state = .opened && !(sessOpen st f && (st.flow f).wrote)

@[grind =] theorem soft_eq (st : St) (f : Nat) : soft st f = true ↔ ((st.flow f).state = .opened ∧ sessOpen st f = true ∧ (st.flow f).wrote = true) := by
  simp [soft, and_assoc]
@[grind =] theorem hard_eq (st : St) (f : Nat) : hard st f = true ↔ ((st.flow f).state = .opened ∧ ¬ (sessOpen st f = true ∧ (st.flow f).wrote = true)) := by
  simp [hard]; grind

@[grind =] theorem sessOpen_eq (st : St) (f : Nat) : sessOpen st f = true ↔ ∃ s : Nat, (st.flow f).sess = some s ∧ (st.sess s).state = .opened := by
  rw [sessOpen]; split <;> simp_all

theorem sessOpen_push (st : St) (fs : List Frame) (f : Nat) : sessOpen (push st fs) f = sessOpen st f := rfl
theorem sessOpen_setF (st : St) (f : Nat) : sessOpen (setF st f (fun e => { e with isOpen := false, handler := false })) f = sessOpen st f := by
  rw [Bool.eq_iff_iff]; grind
theorem abandoned_push (st : St) (fs : List Frame) (o : Option Nat) : abandoned (push st fs) o = abandoned st o := by cases o <;> rfl
theorem abandoned_setF (st : St) (f : Nat) (g : SFlow → SFlow) (o : Option Nat) : abandoned (setF st f g) o = abandoned st o := by cases o <;> rfl

theorem closeFlow_eq (st : St) (f : Nat) : closeFlow st f =
    if soft st f then push (setF st f (fun e => { e with isOpen := false, handler := false, state := .closing })) [.flowClose f]
    else if hard st f then gotoClosed (push (setF st f (fun e => { e with isOpen := false, handler := false })) [.flowClose f]) f
    else push (setF st f (fun e => { e with isOpen := false, handler := false })) [.flowClose f] := by
  have hs : ∀ st : St, setF (setF st f (fun e => { e with isOpen := false, handler := false })) f (fun e => { e with state := .closing })
      = setF st f (fun e => { e with isOpen := false, handler := false, state := .closing }) := by
    intro st
    simp only [setF]
    congr 1
    funext j
    by_cases h : j = f <;> simp [h]
  simp only [closeFlow, sessOpen_setF, hs]
  by_cases h1 : (st.flow f).state = .opened
  · by_cases h2 : sessOpen st f = true ∧ (st.flow f).wrote = true
    · simp [soft, h1, h2]
    · have h3 : soft st f = false := by simp [soft, h1]; grind
      have h4 : hard st f = true := by simp [hard, h1]; grind
      simp [h1, h2, h3, h4]
  · simp [soft, hard, h1]

@[simp, grind =] theorem gotoClosed_nS (st : St) (f : Nat) : (gotoClosed st f).nS = st.nS := by rw [gotoClosed]; split <;> grind
@[simp, grind =] theorem gotoClosed_sess_state (st : St) (f : Nat) (j : Nat) : ((gotoClosed st f).sess j).state = (st.sess j).state := by rw [gotoClosed]; split <;> grind
@[simp, grind =] theorem gotoClosed_sess_initiator (st : St) (f : Nat) (j : Nat) : ((gotoClosed st f).sess j).initiator = (st.sess j).initiator := by rw [gotoClosed]; split <;> grind
@[simp, grind =] theorem gotoClosed_sess_epd (st : St) (f : Nat) (j : Nat) : ((gotoClosed st f).sess j).epd = (st.sess j).epd := by rw [gotoClosed]; split <;> grind
@[simp, grind =] theorem gotoClosed_sess_cert (st : St) (f : Nat) (j : Nat) : ((gotoClosed st f).sess j).cert = (st.sess j).cert := by rw [gotoClosed]; split <;> grind
@[simp, grind =] theorem gotoClosed_sess_addr (st : St) (f : Nat) (j : Nat) : ((gotoClosed st f).sess j).addr = (st.sess j).addr := by rw [gotoClosed]; split <;> grind
@[simp, grind =] theorem gotoClosed_sess_ifc (st : St) (f : Nat) (j : Nat) : ((gotoClosed st f).sess j).ifc = (st.sess j).ifc := by rw [gotoClosed]; split <;> grind
@[simp, grind =] theorem gotoClosed_sess_tx (st : St) (f : Nat) (j : Nat) : ((gotoClosed st f).sess j).tx = (st.sess j).tx := by rw [gotoClosed]; split <;> grind
@[simp, grind =] theorem gotoClosed_sess_skic (st : St) (f : Nat) (j : Nat) : ((gotoClosed st f).sess j).skic = (st.sess j).skic := by rw [gotoClosed]; split <;> grind
@[simp, grind =] theorem gotoClosed_sess_addrs (st : St) (f : Nat) (j : Nat) : ((gotoClosed st f).sess j).addrs = (st.sess j).addrs := by rw [gotoClosed]; split <;> grind
@[simp, grind =] theorem gotoClosed_sess_interest (st : St) (f : Nat) (j : Nat) : ((gotoClosed st f).sess j).interest = if ¬ (st.flow f).state = .closed ∧ (st.flow f).opening = some j then (st.sess j).interest - 1 else (st.sess j).interest := by rw [gotoClosed]; split <;> grind
@[simp, grind =] theorem gotoClosed_sess_cookie (st : St) (f : Nat) (j : Nat) : ((gotoClosed st f).sess j).cookie = (st.sess j).cookie := by rw [gotoClosed]; split <;> grind
@[simp, grind =] theorem gotoClosed_sess_cookieChanged (st : St) (f : Nat) (j : Nat) : ((gotoClosed st f).sess j).cookieChanged = (st.sess j).cookieChanged := by rw [gotoClosed]; split <;> grind
@[simp, grind =] theorem gotoClosed_sess_early (st : St) (f : Nat) (j : Nat) : ((gotoClosed st f).sess j).early = (st.sess j).early := by rw [gotoClosed]; split <;> grind
@[simp, grind =] theorem gotoClosed_sess_sendFlows (st : St) (f : Nat) (j : Nat) : ((gotoClosed st f).sess j).sendFlows = if ¬ (st.flow f).state = .closed ∧ (st.flow f).sess = some j then (st.sess j).sendFlows.filter (· ≠ f) else (st.sess j).sendFlows := by rw [gotoClosed]; split <;> grind
@[simp, grind =] theorem gotoClosed_sess_recvFlows (st : St) (f : Nat) (j : Nat) : ((gotoClosed st f).sess j).recvFlows = (st.sess j).recvFlows := by rw [gotoClosed]; split <;> grind
@[simp, grind =] theorem gotoClosed_nF (st : St) (f : Nat) : (gotoClosed st f).nF = st.nF := by rw [gotoClosed]; split <;> grind
@[simp, grind =] theorem gotoClosed_flow_epd (st : St) (f : Nat) (j : Nat) : ((gotoClosed st f).flow j).epd = (st.flow j).epd := by rw [gotoClosed]; split <;> grind
@[simp, grind =] theorem gotoClosed_flow_sess (st : St) (f : Nat) (j : Nat) : ((gotoClosed st f).flow j).sess = if j = f ∧ ¬ (st.flow f).state = .closed then none else (st.flow j).sess := by rw [gotoClosed]; split <;> grind
@[simp, grind =] theorem gotoClosed_flow_opening (st : St) (f : Nat) (j : Nat) : ((gotoClosed st f).flow j).opening = if j = f ∧ ¬ (st.flow f).state = .closed then none else (st.flow j).opening := by rw [gotoClosed]; split <;> grind
@[simp, grind =] theorem gotoClosed_flow_state (st : St) (f : Nat) (j : Nat) : ((gotoClosed st f).flow j).state = if j = f then .closed else (st.flow j).state := by rw [gotoClosed]; split <;> grind
@[simp, grind =] theorem gotoClosed_flow_isOpen (st : St) (f : Nat) (j : Nat) : ((gotoClosed st f).flow j).isOpen = (st.flow j).isOpen := by rw [gotoClosed]; split <;> grind
@[simp, grind =] theorem gotoClosed_flow_handler (st : St) (f : Nat) (j : Nat) : ((gotoClosed st f).flow j).handler = (st.flow j).handler := by rw [gotoClosed]; split <;> grind
@[simp, grind =] theorem gotoClosed_flow_wrote (st : St) (f : Nat) (j : Nat) : ((gotoClosed st f).flow j).wrote = (st.flow j).wrote := by rw [gotoClosed]; split <;> grind
@[simp, grind =] theorem gotoClosed_nR (st : St) (f : Nat) : (gotoClosed st f).nR = st.nR := by rw [gotoClosed]; split <;> grind
@[simp, grind =] theorem gotoClosed_rflow (st : St) (f : Nat) (j : Nat) : (gotoClosed st f).rflow j = st.rflow j := by rw [gotoClosed]; split <;> grind
@[simp, grind =] theorem gotoClosed_table (st : St) (f : Nat) : (gotoClosed st f).table = st.table := by rw [gotoClosed]; split <;> grind
@[simp, grind =] theorem gotoClosed_openingS (st : St) (f : Nat) : (gotoClosed st f).openingS = st.openingS := by rw [gotoClosed]; split <;> grind
@[simp, grind =] theorem gotoClosed_openingF (st : St) (f : Nat) : (gotoClosed st f).openingF = st.openingF := by rw [gotoClosed]; split <;> grind
@[simp, grind =] theorem gotoClosed_byAddr (st : St) (f : Nat) (j : Nat) : (gotoClosed st f).byAddr j = st.byAddr j := by rw [gotoClosed]; split <;> grind
@[simp, grind =] theorem gotoClosed_byEpd (st : St) (f : Nat) (j : Nat) : (gotoClosed st f).byEpd j = st.byEpd j := by rw [gotoClosed]; split <;> grind
@[simp, grind =] theorem gotoClosed_shutdown (st : St) (f : Nat) : (gotoClosed st f).shutdown = st.shutdown := by rw [gotoClosed]; split <;> grind
@[simp, grind =] theorem gotoClosed_done (st : St) (f : Nat) : (gotoClosed st f).done = st.done := by rw [gotoClosed]; split <;> grind
@[simp, grind =] theorem gotoClosed_waiting (st : St) (f : Nat) : (gotoClosed st f).waiting = st.waiting := by rw [gotoClosed]; split <;> grind
@[simp, grind =] theorem gotoClosed_startup (st : St) (f : Nat) : (gotoClosed st f).startup = st.startup := by rw [gotoClosed]; split <;> grind
@[simp, grind =] theorem gotoClosed_scheduled (st : St) (f : Nat) : (gotoClosed st f).scheduled = st.scheduled := by rw [gotoClosed]; split <;> grind
@[simp, grind =] theorem gotoClosed_tasks (st : St) (f : Nat) : (gotoClosed st f).tasks = st.tasks := by rw [gotoClosed]; split <;> grind
@[simp, grind =] theorem gotoClosed_timers (st : St) (f : Nat) : (gotoClosed st f).timers = st.timers := by rw [gotoClosed]; split <;> grind
@[simp, grind =] theorem gotoClosed_stack (st : St) (f : Nat) : (gotoClosed st f).stack = (if (st.flow f).state = .closed then [] else abandoned st (st.flow f).opening) ++ st.stack := by rw [gotoClosed]; split <;> grind
@[simp, grind =] theorem gotoClosed_crashed (st : St) (f : Nat) : (gotoClosed st f).crashed = st.crashed := by rw [gotoClosed]; split <;> grind

@[simp, grind =] theorem closeFlow_nS (st : St) (f : Nat) : (closeFlow st f).nS = st.nS := by rw [closeFlow_eq]; split <;> grind [abandoned_push, abandoned_setF]
@[simp, grind =] theorem closeFlow_sess_state (st : St) (f : Nat) (j : Nat) : ((closeFlow st f).sess j).state = (st.sess j).state := by rw [closeFlow_eq]; split <;> grind [abandoned_push, abandoned_setF]
@[simp, grind =] theorem closeFlow_sess_initiator (st : St) (f : Nat) (j : Nat) : ((closeFlow st f).sess j).initiator = (st.sess j).initiator := by rw [closeFlow_eq]; split <;> grind [abandoned_push, abandoned_setF]
@[simp, grind =] theorem closeFlow_sess_epd (st : St) (f : Nat) (j : Nat) : ((closeFlow st f).sess j).epd = (st.sess j).epd := by rw [closeFlow_eq]; split <;> grind [abandoned_push, abandoned_setF]
@[simp, grind =] theorem closeFlow_sess_cert (st : St) (f : Nat) (j : Nat) : ((closeFlow st f).sess j).cert = (st.sess j).cert := by rw [closeFlow_eq]; split <;> grind [abandoned_push, abandoned_setF]
@[simp, grind =] theorem closeFlow_sess_addr (st : St) (f : Nat) (j : Nat) : ((closeFlow st f).sess j).addr = (st.sess j).addr := by rw [closeFlow_eq]; split <;> grind [abandoned_push, abandoned_setF]
@[simp, grind =] theorem closeFlow_sess_ifc (st : St) (f : Nat) (j : Nat) : ((closeFlow st f).sess j).ifc = (st.sess j).ifc := by rw [closeFlow_eq]; split <;> grind [abandoned_push, abandoned_setF]
@[simp, grind =] theorem closeFlow_sess_tx (st : St) (f : Nat) (j : Nat) : ((closeFlow st f).sess j).tx = (st.sess j).tx := by rw [closeFlow_eq]; split <;> grind [abandoned_push, abandoned_setF]
@[simp, grind =] theorem closeFlow_sess_skic (st : St) (f : Nat) (j : Nat) : ((closeFlow st f).sess j).skic = (st.sess j).skic := by rw [closeFlow_eq]; split <;> grind [abandoned_push, abandoned_setF]
@[simp, grind =] theorem closeFlow_sess_addrs (st : St) (f : Nat) (j : Nat) : ((closeFlow st f).sess j).addrs = (st.sess j).addrs := by rw [closeFlow_eq]; split <;> grind [abandoned_push, abandoned_setF]
@[simp, grind =] theorem closeFlow_sess_interest (st : St) (f : Nat) (j : Nat) : ((closeFlow st f).sess j).interest = if hard st f = true ∧ (st.flow f).opening = some j then (st.sess j).interest - 1 else (st.sess j).interest := by rw [closeFlow_eq]; split <;> grind [abandoned_push, abandoned_setF]
@[simp, grind =] theorem closeFlow_sess_cookie (st : St) (f : Nat) (j : Nat) : ((closeFlow st f).sess j).cookie = (st.sess j).cookie := by rw [closeFlow_eq]; split <;> grind [abandoned_push, abandoned_setF]
@[simp, grind =] theorem closeFlow_sess_cookieChanged (st : St) (f : Nat) (j : Nat) : ((closeFlow st f).sess j).cookieChanged = (st.sess j).cookieChanged := by rw [closeFlow_eq]; split <;> grind [abandoned_push, abandoned_setF]
@[simp, grind =] theorem closeFlow_sess_early (st : St) (f : Nat) (j : Nat) : ((closeFlow st f).sess j).early = (st.sess j).early := by rw [closeFlow_eq]; split <;> grind [abandoned_push, abandoned_setF]
@[simp, grind =] theorem closeFlow_sess_sendFlows (st : St) (f : Nat) (j : Nat) : ((closeFlow st f).sess j).sendFlows = if hard st f = true ∧ (st.flow f).sess = some j then (st.sess j).sendFlows.filter (· ≠ f) else (st.sess j).sendFlows := by rw [closeFlow_eq]; split <;> grind [abandoned_push, abandoned_setF]
@[simp, grind =] theorem closeFlow_sess_recvFlows (st : St) (f : Nat) (j : Nat) : ((closeFlow st f).sess j).recvFlows = (st.sess j).recvFlows := by rw [closeFlow_eq]; split <;> grind [abandoned_push, abandoned_setF]
@[simp, grind =] theorem closeFlow_nF (st : St) (f : Nat) : (closeFlow st f).nF = st.nF := by rw [closeFlow_eq]; split <;> grind [abandoned_push, abandoned_setF]
@[simp, grind =] theorem closeFlow_flow_epd (st : St) (f : Nat) (j : Nat) : ((closeFlow st f).flow j).epd = (st.flow j).epd := by rw [closeFlow_eq]; split <;> grind [abandoned_push, abandoned_setF]
@[simp, grind =] theorem closeFlow_flow_sess (st : St) (f : Nat) (j : Nat) : ((closeFlow st f).flow j).sess = if j = f ∧ hard st f = true then none else (st.flow j).sess := by rw [closeFlow_eq]; split <;> grind [abandoned_push, abandoned_setF]
@[simp, grind =] theorem closeFlow_flow_opening (st : St) (f : Nat) (j : Nat) : ((closeFlow st f).flow j).opening = if j = f ∧ hard st f = true then none else (st.flow j).opening := by rw [closeFlow_eq]; split <;> grind [abandoned_push, abandoned_setF]
@[simp, grind =] theorem closeFlow_flow_state (st : St) (f : Nat) (j : Nat) : ((closeFlow st f).flow j).state = if j = f then (if soft st f = true then .closing else if hard st f = true then .closed else (st.flow f).state) else (st.flow j).state := by rw [closeFlow_eq]; split <;> grind [abandoned_push, abandoned_setF]
@[simp, grind =] theorem closeFlow_flow_isOpen (st : St) (f : Nat) (j : Nat) : ((closeFlow st f).flow j).isOpen = if j = f then false else (st.flow j).isOpen := by rw [closeFlow_eq]; split <;> grind [abandoned_push, abandoned_setF]
@[simp, grind =] theorem closeFlow_flow_handler (st : St) (f : Nat) (j : Nat) : ((closeFlow st f).flow j).handler = if j = f then false else (st.flow j).handler := by rw [closeFlow_eq]; split <;> grind [abandoned_push, abandoned_setF]
@[simp, grind =] theorem closeFlow_flow_wrote (st : St) (f : Nat) (j : Nat) : ((closeFlow st f).flow j).wrote = (st.flow j).wrote := by rw [closeFlow_eq]; split <;> grind [abandoned_push, abandoned_setF]
@[simp, grind =] theorem closeFlow_nR (st : St) (f : Nat) : (closeFlow st f).nR = st.nR := by rw [closeFlow_eq]; split <;> grind [abandoned_push, abandoned_setF]
@[simp, grind =] theorem closeFlow_rflow (st : St) (f : Nat) (j : Nat) : (closeFlow st f).rflow j = st.rflow j := by rw [closeFlow_eq]; split <;> grind [abandoned_push, abandoned_setF]
@[simp, grind =] theorem closeFlow_table (st : St) (f : Nat) : (closeFlow st f).table = st.table := by rw [closeFlow_eq]; split <;> grind [abandoned_push, abandoned_setF]
@[simp, grind =] theorem closeFlow_openingS (st : St) (f : Nat) : (closeFlow st f).openingS = st.openingS := by rw [closeFlow_eq]; split <;> grind [abandoned_push, abandoned_setF]
@[simp, grind =] theorem closeFlow_openingF (st : St) (f : Nat) : (closeFlow st f).openingF = st.openingF := by rw [closeFlow_eq]; split <;> grind [abandoned_push, abandoned_setF]
@[simp, grind =] theorem closeFlow_byAddr (st : St) (f : Nat) (j : Nat) : (closeFlow st f).byAddr j = st.byAddr j := by rw [closeFlow_eq]; split <;> grind [abandoned_push, abandoned_setF]
@[simp, grind =] theorem closeFlow_byEpd (st : St) (f : Nat) (j : Nat) : (closeFlow st f).byEpd j = st.byEpd j := by rw [closeFlow_eq]; split <;> grind [abandoned_push, abandoned_setF]
@[simp, grind =] theorem closeFlow_shutdown (st : St) (f : Nat) : (closeFlow st f).shutdown = st.shutdown := by rw [closeFlow_eq]; split <;> grind [abandoned_push, abandoned_setF]
@[simp, grind =] theorem closeFlow_done (st : St) (f : Nat) : (closeFlow st f).done = st.done := by rw [closeFlow_eq]; split <;> grind [abandoned_push, abandoned_setF]
@[simp, grind =] theorem closeFlow_waiting (st : St) (f : Nat) : (closeFlow st f).waiting = st.waiting := by rw [closeFlow_eq]; split <;> grind [abandoned_push, abandoned_setF]
@[simp, grind =] theorem closeFlow_startup (st : St) (f : Nat) : (closeFlow st f).startup = st.startup := by rw [closeFlow_eq]; split <;> grind [abandoned_push, abandoned_setF]
@[simp, grind =] theorem closeFlow_scheduled (st : St) (f : Nat) : (closeFlow st f).scheduled = st.scheduled := by rw [closeFlow_eq]; split <;> grind [abandoned_push, abandoned_setF]
@[simp, grind =] theorem closeFlow_tasks (st : St) (f : Nat) : (closeFlow st f).tasks = st.tasks := by rw [closeFlow_eq]; split <;> grind [abandoned_push, abandoned_setF]
@[simp, grind =] theorem closeFlow_timers (st : St) (f : Nat) : (closeFlow st f).timers = st.timers := by rw [closeFlow_eq]; split <;> grind [abandoned_push, abandoned_setF]
@[simp, grind =] theorem closeFlow_stack (st : St) (f : Nat) : (closeFlow st f).stack = (if hard st f = true then abandoned st (st.flow f).opening else []) ++ .flowClose f :: st.stack := by rw [closeFlow_eq]; split <;> grind [abandoned_push, abandoned_setF]
@[simp, grind =] theorem closeFlow_crashed (st : St) (f : Nat) : (closeFlow st f).crashed = st.crashed := by rw [closeFlow_eq]; split <;> grind [abandoned_push, abandoned_setF]

theorem hard_push (st : St) (fs : List Frame) (f : Nat) : hard (push st fs) f = hard st f := rfl
theorem soft_push (st : St) (fs : List Frame) (f : Nat) : soft (push st fs) f = soft st f := rfl
@[simp, grind =] theorem excReport_nS (st : St) (f : Nat) : (excReport st f).nS = st.nS := by rw [excReport]; grind [hard_push, soft_push, abandoned_push]
@[simp, grind =] theorem excReport_sess_state (st : St) (f : Nat) (j : Nat) : ((excReport st f).sess j).state = (st.sess j).state := by rw [excReport]; grind [hard_push, soft_push, abandoned_push]
@[simp, grind =] theorem excReport_sess_initiator (st : St) (f : Nat) (j : Nat) : ((excReport st f).sess j).initiator = (st.sess j).initiator := by rw [excReport]; grind [hard_push, soft_push, abandoned_push]
@[simp, grind =] theorem excReport_sess_epd (st : St) (f : Nat) (j : Nat) : ((excReport st f).sess j).epd = (st.sess j).epd := by rw [excReport]; grind [hard_push, soft_push, abandoned_push]
@[simp, grind =] theorem excReport_sess_cert (st : St) (f : Nat) (j : Nat) : ((excReport st f).sess j).cert = (st.sess j).cert := by rw [excReport]; grind [hard_push, soft_push, abandoned_push]
@[simp, grind =] theorem excReport_sess_addr (st : St) (f : Nat) (j : Nat) : ((excReport st f).sess j).addr = (st.sess j).addr := by rw [excReport]; grind [hard_push, soft_push, abandoned_push]
@[simp, grind =] theorem excReport_sess_ifc (st : St) (f : Nat) (j : Nat) : ((excReport st f).sess j).ifc = (st.sess j).ifc := by rw [excReport]; grind [hard_push, soft_push, abandoned_push]
@[simp, grind =] theorem excReport_sess_tx (st : St) (f : Nat) (j : Nat) : ((excReport st f).sess j).tx = (st.sess j).tx := by rw [excReport]; grind [hard_push, soft_push, abandoned_push]
@[simp, grind =] theorem excReport_sess_skic (st : St) (f : Nat) (j : Nat) : ((excReport st f).sess j).skic = (st.sess j).skic := by rw [excReport]; grind [hard_push, soft_push, abandoned_push]
@[simp, grind =] theorem excReport_sess_addrs (st : St) (f : Nat) (j : Nat) : ((excReport st f).sess j).addrs = (st.sess j).addrs := by rw [excReport]; grind [hard_push, soft_push, abandoned_push]
@[simp, grind =] theorem excReport_sess_interest (st : St) (f : Nat) (j : Nat) : ((excReport st f).sess j).interest = if hard st f = true ∧ (st.flow f).opening = some j then (st.sess j).interest - 1 else (st.sess j).interest := by rw [excReport]; grind [hard_push, soft_push, abandoned_push]
@[simp, grind =] theorem excReport_sess_cookie (st : St) (f : Nat) (j : Nat) : ((excReport st f).sess j).cookie = (st.sess j).cookie := by rw [excReport]; grind [hard_push, soft_push, abandoned_push]
@[simp, grind =] theorem excReport_sess_cookieChanged (st : St) (f : Nat) (j : Nat) : ((excReport st f).sess j).cookieChanged = (st.sess j).cookieChanged := by rw [excReport]; grind [hard_push, soft_push, abandoned_push]
@[simp, grind =] theorem excReport_sess_early (st : St) (f : Nat) (j : Nat) : ((excReport st f).sess j).early = (st.sess j).early := by rw [excReport]; grind [hard_push, soft_push, abandoned_push]
@[simp, grind =] theorem excReport_sess_sendFlows (st : St) (f : Nat) (j : Nat) : ((excReport st f).sess j).sendFlows = if hard st f = true ∧ (st.flow f).sess = some j then (st.sess j).sendFlows.filter (· ≠ f) else (st.sess j).sendFlows := by rw [excReport]; grind [hard_push, soft_push, abandoned_push]
@[simp, grind =] theorem excReport_sess_recvFlows (st : St) (f : Nat) (j : Nat) : ((excReport st f).sess j).recvFlows = (st.sess j).recvFlows := by rw [excReport]; grind [hard_push, soft_push, abandoned_push]
@[simp, grind =] theorem excReport_nF (st : St) (f : Nat) : (excReport st f).nF = st.nF := by rw [excReport]; grind [hard_push, soft_push, abandoned_push]
@[simp, grind =] theorem excReport_flow_epd (st : St) (f : Nat) (j : Nat) : ((excReport st f).flow j).epd = (st.flow j).epd := by rw [excReport]; grind [hard_push, soft_push, abandoned_push]
@[simp, grind =] theorem excReport_flow_sess (st : St) (f : Nat) (j : Nat) : ((excReport st f).flow j).sess = if j = f ∧ hard st f = true then none else (st.flow j).sess := by rw [excReport]; grind [hard_push, soft_push, abandoned_push]
@[simp, grind =] theorem excReport_flow_opening (st : St) (f : Nat) (j : Nat) : ((excReport st f).flow j).opening = if j = f ∧ hard st f = true then none else (st.flow j).opening := by rw [excReport]; grind [hard_push, soft_push, abandoned_push]
@[simp, grind =] theorem excReport_flow_state (st : St) (f : Nat) (j : Nat) : ((excReport st f).flow j).state = if j = f then (if soft st f = true then .closing else if hard st f = true then .closed else (st.flow f).state) else (st.flow j).state := by rw [excReport]; grind [hard_push, soft_push, abandoned_push]
@[simp, grind =] theorem excReport_flow_isOpen (st : St) (f : Nat) (j : Nat) : ((excReport st f).flow j).isOpen = if j = f then false else (st.flow j).isOpen := by rw [excReport]; grind [hard_push, soft_push, abandoned_push]
@[simp, grind =] theorem excReport_flow_handler (st : St) (f : Nat) (j : Nat) : ((excReport st f).flow j).handler = if j = f then false else (st.flow j).handler := by rw [excReport]; grind [hard_push, soft_push, abandoned_push]
@[simp, grind =] theorem excReport_flow_wrote (st : St) (f : Nat) (j : Nat) : ((excReport st f).flow j).wrote = (st.flow j).wrote := by rw [excReport]; grind [hard_push, soft_push, abandoned_push]
@[simp, grind =] theorem excReport_nR (st : St) (f : Nat) : (excReport st f).nR = st.nR := by rw [excReport]; grind [hard_push, soft_push, abandoned_push]
@[simp, grind =] theorem excReport_rflow (st : St) (f : Nat) (j : Nat) : (excReport st f).rflow j = st.rflow j := by rw [excReport]; grind [hard_push, soft_push, abandoned_push]
@[simp, grind =] theorem excReport_table (st : St) (f : Nat) : (excReport st f).table = st.table := by rw [excReport]; grind [hard_push, soft_push, abandoned_push]
@[simp, grind =] theorem excReport_openingS (st : St) (f : Nat) : (excReport st f).openingS = st.openingS := by rw [excReport]; grind [hard_push, soft_push, abandoned_push]
@[simp, grind =] theorem excReport_openingF (st : St) (f : Nat) : (excReport st f).openingF = st.openingF := by rw [excReport]; grind [hard_push, soft_push, abandoned_push]
@[simp, grind =] theorem excReport_byAddr (st : St) (f : Nat) (j : Nat) : (excReport st f).byAddr j = st.byAddr j := by rw [excReport]; grind [hard_push, soft_push, abandoned_push]
@[simp, grind =] theorem excReport_byEpd (st : St) (f : Nat) (j : Nat) : (excReport st f).byEpd j = st.byEpd j := by rw [excReport]; grind [hard_push, soft_push, abandoned_push]
@[simp, grind =] theorem excReport_shutdown (st : St) (f : Nat) : (excReport st f).shutdown = st.shutdown := by rw [excReport]; grind [hard_push, soft_push, abandoned_push]
@[simp, grind =] theorem excReport_done (st : St) (f : Nat) : (excReport st f).done = st.done := by rw [excReport]; grind [hard_push, soft_push, abandoned_push]
@[simp, grind =] theorem excReport_waiting (st : St) (f : Nat) : (excReport st f).waiting = st.waiting := by rw [excReport]; grind [hard_push, soft_push, abandoned_push]
@[simp, grind =] theorem excReport_startup (st : St) (f : Nat) : (excReport st f).startup = st.startup := by rw [excReport]; grind [hard_push, soft_push, abandoned_push]
@[simp, grind =] theorem excReport_scheduled (st : St) (f : Nat) : (excReport st f).scheduled = st.scheduled := by rw [excReport]; grind [hard_push, soft_push, abandoned_push]
@[simp, grind =] theorem excReport_tasks (st : St) (f : Nat) : (excReport st f).tasks = st.tasks := by rw [excReport]; grind [hard_push, soft_push, abandoned_push]
@[simp, grind =] theorem excReport_timers (st : St) (f : Nat) : (excReport st f).timers = st.timers := by rw [excReport]; grind [hard_push, soft_push, abandoned_push]
@[simp, grind =] theorem excReport_stack (st : St) (f : Nat) : (excReport st f).stack = (if hard st f = true then abandoned st (st.flow f).opening else []) ++ .flowClose f :: ((if (st.flow f).handler = true then [.callback f] else []) ++ st.stack) := by rw [excReport]; grind [hard_push, soft_push, abandoned_push]
@[simp, grind =] theorem excReport_crashed (st : St) (f : Nat) : (excReport st f).crashed = st.crashed := by rw [excReport]; grind [hard_push, soft_push, abandoned_push]

@[simp, grind =] theorem bind_nS (st : St) (f s : Nat) : ((bind st f s).1).nS = st.nS := by simp only [bind]; grind
@[simp, grind =] theorem bind_sess_state (st : St) (f s : Nat) (j : Nat) : (((bind st f s).1).sess j).state = (st.sess j).state := by simp only [bind]; grind
@[simp, grind =] theorem bind_sess_initiator (st : St) (f s : Nat) (j : Nat) : (((bind st f s).1).sess j).initiator = (st.sess j).initiator := by simp only [bind]; grind
@[simp, grind =] theorem bind_sess_epd (st : St) (f s : Nat) (j : Nat) : (((bind st f s).1).sess j).epd = (st.sess j).epd := by simp only [bind]; grind
@[simp, grind =] theorem bind_sess_cert (st : St) (f s : Nat) (j : Nat) : (((bind st f s).1).sess j).cert = (st.sess j).cert := by simp only [bind]; grind
@[simp, grind =] theorem bind_sess_addr (st : St) (f s : Nat) (j : Nat) : (((bind st f s).1).sess j).addr = (st.sess j).addr := by simp only [bind]; grind
@[simp, grind =] theorem bind_sess_ifc (st : St) (f s : Nat) (j : Nat) : (((bind st f s).1).sess j).ifc = (st.sess j).ifc := by simp only [bind]; grind
@[simp, grind =] theorem bind_sess_tx (st : St) (f s : Nat) (j : Nat) : (((bind st f s).1).sess j).tx = (st.sess j).tx := by simp only [bind]; grind
@[simp, grind =] theorem bind_sess_skic (st : St) (f s : Nat) (j : Nat) : (((bind st f s).1).sess j).skic = (st.sess j).skic := by simp only [bind]; grind
@[simp, grind =] theorem bind_sess_addrs (st : St) (f s : Nat) (j : Nat) : (((bind st f s).1).sess j).addrs = (st.sess j).addrs := by simp only [bind]; grind
@[simp, grind =] theorem bind_sess_interest (st : St) (f s : Nat) (j : Nat) : (((bind st f s).1).sess j).interest = if (st.flow f).opening = some j then (st.sess j).interest - 1 else (st.sess j).interest := by simp only [bind]; grind
@[simp, grind =] theorem bind_sess_cookie (st : St) (f s : Nat) (j : Nat) : (((bind st f s).1).sess j).cookie = (st.sess j).cookie := by simp only [bind]; grind
@[simp, grind =] theorem bind_sess_cookieChanged (st : St) (f s : Nat) (j : Nat) : (((bind st f s).1).sess j).cookieChanged = (st.sess j).cookieChanged := by simp only [bind]; grind
@[simp, grind =] theorem bind_sess_early (st : St) (f s : Nat) (j : Nat) : (((bind st f s).1).sess j).early = (st.sess j).early := by simp only [bind]; grind
@[simp, grind =] theorem bind_sess_sendFlows (st : St) (f s : Nat) (j : Nat) : (((bind st f s).1).sess j).sendFlows = if j = s then (st.sess j).sendFlows ++ [f] else (st.sess j).sendFlows := by simp only [bind]; grind
@[simp, grind =] theorem bind_sess_recvFlows (st : St) (f s : Nat) (j : Nat) : (((bind st f s).1).sess j).recvFlows = (st.sess j).recvFlows := by simp only [bind]; grind
@[simp, grind =] theorem bind_nF (st : St) (f s : Nat) : ((bind st f s).1).nF = st.nF := by simp only [bind]; grind
@[simp, grind =] theorem bind_flow_epd (st : St) (f s : Nat) (j : Nat) : (((bind st f s).1).flow j).epd = (st.flow j).epd := by simp only [bind]; grind
@[simp, grind =] theorem bind_flow_sess (st : St) (f s : Nat) (j : Nat) : (((bind st f s).1).flow j).sess = if j = f then some s else (st.flow j).sess := by simp only [bind]; grind
@[simp, grind =] theorem bind_flow_opening (st : St) (f s : Nat) (j : Nat) : (((bind st f s).1).flow j).opening = if j = f then none else (st.flow j).opening := by simp only [bind]; grind
@[simp, grind =] theorem bind_flow_state (st : St) (f s : Nat) (j : Nat) : (((bind st f s).1).flow j).state = (st.flow j).state := by simp only [bind]; grind
@[simp, grind =] theorem bind_flow_isOpen (st : St) (f s : Nat) (j : Nat) : (((bind st f s).1).flow j).isOpen = (st.flow j).isOpen := by simp only [bind]; grind
@[simp, grind =] theorem bind_flow_handler (st : St) (f s : Nat) (j : Nat) : (((bind st f s).1).flow j).handler = (st.flow j).handler := by simp only [bind]; grind
@[simp, grind =] theorem bind_flow_wrote (st : St) (f s : Nat) (j : Nat) : (((bind st f s).1).flow j).wrote = (st.flow j).wrote := by simp only [bind]; grind
@[simp, grind =] theorem bind_nR (st : St) (f s : Nat) : ((bind st f s).1).nR = st.nR := by simp only [bind]; grind
@[simp, grind =] theorem bind_rflow (st : St) (f s : Nat) (j : Nat) : ((bind st f s).1).rflow j = st.rflow j := by simp only [bind]; grind
@[simp, grind =] theorem bind_table (st : St) (f s : Nat) : ((bind st f s).1).table = st.table := by simp only [bind]; grind
@[simp, grind =] theorem bind_openingS (st : St) (f s : Nat) : ((bind st f s).1).openingS = st.openingS := by simp only [bind]; grind
@[simp, grind =] theorem bind_openingF (st : St) (f s : Nat) : ((bind st f s).1).openingF = st.openingF.filter (· ≠ f) := by simp only [bind]; grind
@[simp, grind =] theorem bind_byAddr (st : St) (f s : Nat) (j : Nat) : ((bind st f s).1).byAddr j = st.byAddr j := by simp only [bind]; grind
@[simp, grind =] theorem bind_byEpd (st : St) (f s : Nat) (j : Nat) : ((bind st f s).1).byEpd j = st.byEpd j := by simp only [bind]; grind
@[simp, grind =] theorem bind_shutdown (st : St) (f s : Nat) : ((bind st f s).1).shutdown = st.shutdown := by simp only [bind]; grind
@[simp, grind =] theorem bind_done (st : St) (f s : Nat) : ((bind st f s).1).done = st.done := by simp only [bind]; grind
@[simp, grind =] theorem bind_waiting (st : St) (f s : Nat) : ((bind st f s).1).waiting = st.waiting := by simp only [bind]; grind
@[simp, grind =] theorem bind_startup (st : St) (f s : Nat) : ((bind st f s).1).startup = st.startup := by simp only [bind]; grind
@[simp, grind =] theorem bind_scheduled (st : St) (f s : Nat) : ((bind st f s).1).scheduled = st.scheduled := by simp only [bind]; grind
@[simp, grind =] theorem bind_tasks (st : St) (f s : Nat) : ((bind st f s).1).tasks = st.tasks := by simp only [bind]; grind
@[simp, grind =] theorem bind_timers (st : St) (f s : Nat) : ((bind st f s).1).timers = st.timers := by simp only [bind]; grind
@[simp, grind =] theorem bind_stack (st : St) (f s : Nat) : ((bind st f s).1).stack = abandoned st (st.flow f).opening ++ st.stack := by simp only [bind]; grind
@[simp, grind =] theorem bind_crashed (st : St) (f s : Nat) : ((bind st f s).1).crashed = st.crashed := by simp only [bind]; grind


end Inst
end Rtmfp
