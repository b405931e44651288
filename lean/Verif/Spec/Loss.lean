import Verif.Lemmas.SendExec

/-!
# What an observer of the sending side knows about lost fragments

The observer numbers the packets with data in the order they are sent, and knows for each fragment (flow and sequence number) the number of the packet it
was last sent in. When fragments that are in flight are acknowledged, they note the numbers of the packets known to have arrived. Each packet with
acknowledgements ends some time; then they count it for each fragment whose last packet isn't after all of these.
-/

namespace Rtmfp
namespace SS

/-- a fragment is in flight: sent, and neither acknowledged nor lost -/
def InFlight (s : SS) (i sn : Nat) : Prop := ∃ f ∈ (s.flow i).queue, f.sn = sn ∧ f.inFlight = true

/-- a fragment waits to be sent (again) -/
def Waits (s : SS) (i sn : Nat) : Prop := ∃ f ∈ (s.flow i).queue, f.sn = sn ∧ f.inFlight = false

/-- a fragment in flight is lost: it waits to be sent again -/
def Lost (s t : SS) (i sn : Nat) : Prop := InFlight s i sn ∧ Waits t i sn

/-- what the observer knows -/
structure Watch where
  packets : Nat
  sentIn : Nat → Nat → Nat
  arrived : List Nat
  naks : Nat → Nat → Nat

/-- nothing was sent -/
def Watch.start : Watch := ⟨0, fun _ _ => 0, [], fun _ _ => 0⟩

/-- whether the chunks have one for the sequence number -/
def has (ps : List Put) (sn : Nat) : Bool := ps.any fun p => p.sn == sn

/-- a packet with data of flow `i` was sent -/
def Watch.packet (w : Watch) (i : Nat) (ps : List Put) : Watch :=
  { w with
    packets := w.packets + 1
    sentIn := fun j sn => if j = i ∧ has ps sn = true then w.packets + 1 else w.sentIn j sn
    naks := fun j sn => if j = i ∧ has ps sn = true then 0 else w.naks j sn }

/-- what was observed -/
def Watch.see (w : Watch) : Ev → Watch
  | .sent i _ ps _ => w.packet i ps
  | _ => w

/-- the fragments of flow `i` in flight that left its queue -/
def left (s t : SS) (i : Nat) : List Nat :=
  ((s.flow i).queue.filter fun f => f.inFlight && !((t.flow i).queue.any fun g => g.sn == f.sn)).map (·.sn)

/-- fragments in flight were acknowledged -/
def Watch.acks (w : Watch) (i : Nat) (sns : List Nat) : Watch := { w with arrived := w.arrived ++ sns.map (w.sentIn i) }

/-- a packet that arrived is the one the fragment was last sent in, or was sent after it -/
def Watch.passed (w : Watch) (j sn : Nat) : Bool := w.arrived.any fun n => decide (w.sentIn j sn ≤ n)

/-- the end of a packet with acknowledgements -/
def Watch.counted (w : Watch) : Watch := { w with naks := fun j sn => if w.passed j sn = true then w.naks j sn + 1 else w.naks j sn }

/-- one thing happens, from `s` to `t` with events `es` -/
def Watch.step (w : Watch) (s : SS) : Op → SS → List Ev → Watch
  | .ack i _ _, t, _ => w.acks i (left s t i)
  | .afterAcks _, _, _ => w.counted
  | _, _, es => es.foldl Watch.see w

/-- an execution with its observer -/
inductive Watched : List Op → SS → List Ev → Watch → Prop
  | nil : Watched [] init [] .start
  | snoc {ops s evs op t es w} : Watched ops s evs w → Allowed ops s op → step s op = some (t, es) →
      Watched (ops ++ [op]) t (evs ++ es) (w.step s op t es)

theorem Watched.exec {ops : List Op} {s : SS} {evs : List Ev} {w : Watch} (h : Watched ops s evs w) : Exec ops s evs := by
  induction h with
  | nil => exact .nil
  | snoc _ ha hs ih => exact .snoc ih ha hs

/-- every execution can be observed -/
theorem Exec.watched {ops : List Op} {s : SS} {evs : List Ev} (h : Exec ops s evs) : ∃ w, Watched ops s evs w := by
  induction h with
  | nil => exact ⟨_, .nil⟩
  | snoc _ ha hs ih => obtain ⟨w, hw⟩ := ih; exact ⟨_, .snoc hw ha hs⟩

end SS
end Rtmfp
