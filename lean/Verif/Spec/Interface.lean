import Verif.Model.Interface
/-! # What is asked of write scheduling, in terms of who is asked to write and who waits -/
namespace Rtmfp
namespace Iface

/-- the sessions asked at a priority, in the order they were asked -/
def askedAt (p : Nat) (tr : List Asked) : List Nat := (tr.filter (fun e => e.p == p)).map (·.s)

/-- the sessions that sent something at a priority -/
def sentAt (p : Nat) (tr : List Asked) : List Nat := (tr.filter (fun e => e.p == p && e.ans.ok)).map (·.s)

/-- a session that sends nothing causes, while it is asked, no writes at higher priorities than that at which it is asked -/
def Tame (tr : List Asked) : Prop := ∀ e ∈ tr, e.ans.ok = false → ∀ c ∈ e.ans.calls, c.2 ≤ e.p

/-- someone waits -/
def Waiting (st : St) : Prop := ∃ p, p < 8 ∧ st.q p ≠ []

end Iface
end Rtmfp
