import Verif.Model.Instance
/-! # What is asked of an instance's sessions and flows -/
namespace Rtmfp
namespace Spec.Inst
open Rtmfp.Inst

/-- RFC 7016, 3.5: how a session may change. A session is made opening (`ihello`) or, by a responder, open. -/
inductive Next : SState → SState → Prop
  | asked : Next .unknown .ihello
  | answered : Next .unknown .opened
  | keying : Next .ihello .keying
  | opens : Next .keying .opened
  | near : Next .opened .nearclose
  | far : Next .opened .farclose
  | ends (x : SState) (h : x ≠ .unknown) (hc : x ≠ .closed) : Next x .closed

/-- a session that is still coming to be -/
def opening (x : SState) : Prop := x = .ihello ∨ x = .keying

/-- a session that is taking leave -/
def closing (x : SState) : Prop := x = .nearclose ∨ x = .farclose

/-- no code of the library is running -/
def atRest (st : St) : Prop := st.stack = []

/-- a keying request whose cookie is right and whose certificate can be read -/
def wellAsked : Op → Bool
  | .iikeying _ .good true => true
  | _ => false

/-- the application opens a flow -/
def opensFlow : Op → Bool
  | .openFlow _ | .openFlowVia _ | .openFlowViaR _ => true
  | _ => false

/-- requests in hand: waiting for a thread, being checked, or being answered -/
def asks : Task → Bool
  | .iikeyingW _ | .iikeyingW2 _ | .iikeying _ => true
  | _ => false

/-- requests that wait for a thread -/
def waitsForThread : Task → Bool
  | .iikeyingW _ => true
  | _ => false

/-- the application has asked for the shutdown, which has not begun -/
def shutsLater : Task → Bool
  | .shutdown _ => true
  | _ => false

/-- what can end an open session: the application closes it, the shutdown runs, nobody uses it, the far end doesn't answer, the far end closes it, its own keying failed after
all, or another session is opened from its address with a certificate that overrides its own -/
def endsSession (C : Crypto) (st : St) (s : Nat) : Op → Prop
  | .closeSession f => (st.flow f).sess = some s
  | .closeSessionR r => (st.rflow r).sess = s
  | .idle x | .unanswered x | .closeChunk x | .closeAckChunk x => x = s
  | .task i _ =>
    (∃ b, st.tasks[i]? = some (.shutdown b)) ∨ st.tasks[i]? = some (.abort s) ∨
    ∃ r, st.tasks[i]? = some (.iikeying r) ∧ st.byAddr r.addr = some s ∧ ∃ c, (st.sess s).cert = some c ∧ C.overrides r.cert c = true
  | _ => False

end Spec.Inst
end Rtmfp
