import Verif.Model.RunLoop
import Verif.Model.Performer
/-! # Specification of deferred tasks and actions: over what is observed -/
namespace Rtmfp

namespace Spec.RL
open Rtmfp.RL

/-- the tasks queued, in order -/
def queued : List Ev → List Nat := List.filterMap (fun | .queued t _ => some t | _ => none)

/-- the tasks run, in order -/
def ran : List Ev → List Nat := List.filterMap (fun | .ran t => some t | _ => none)

/-- the tasks that were run, skipped because the adapter was closed, or cleared, in that order -/
def settled : List Ev → List Nat := List.filterMap (fun | .ran t => some t | .skipped t => some t | .dropped t => some t | _ => none)

/-- the actions called, in order -/
def acted : List Ev → List Item := List.filterMap (fun | .acted i => some i | _ => none)

/-- no stop since `run` began -/
def Going : List Ev → Prop := fun evs => ∃ e1 e2, evs = e1 ++ .began :: e2 ∧ .stopped ∉ e2

end Spec.RL

namespace Spec.Perf
open Rtmfp.Perf

/-- the tasks queued, in order -/
def queued : List Ev → List Nat := List.filterMap (fun | .queued t => some t | _ => none)

/-- the tasks started, in order -/
def started : List Ev → List Nat := List.filterMap (fun | .started t => some t | _ => none)

/-- the tasks started or thrown away, in order -/
def taken : List Ev → List Nat := List.filterMap (fun | .started t => some t | .dropped t => some t | _ => none)

/-- a thread that is calling `perform` and has not yet done its part in waking the loop -/
def Busy : Pc → Prop
  | .pushed _ _ => True
  | .unsignaled _ _ => True
  | .writing _ _ => True
  | _ => False

end Spec.Perf
end Rtmfp
