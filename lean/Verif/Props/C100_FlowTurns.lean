import Verif.Lemmas.RTWTurn
import Verif.Props.C99_FlowSend

/-!
# C100: an `RTWebSocket` leaves nothing behind that may be sent, and sends what matters more first
-/

namespace Rtmfp

open RTWS Spec.Flows

/-- A flow has something to say, and may say it now: its opening; data, if its window isn't full; its
closing, when everything written is settled; or that messages were abandoned for which somebody who has
listened to all it said still waits. -/
def hasToSay (st : St) (s : Nat) : Prop :=
  sentBy s st.log = [] ∨
  ((settled s st.log).length < (written s st.log).length ∧ (st.S s).sent < (st.S s).through) ∨
  ((st.S s).up = false ∧ (settled s st.log).length = (written s st.log).length ∧ ∀ id, Msg.closes id ∉ sentBy s st.log) ∨
  ((listen (sentBy s st.log)).over = false ∧ ((listen (sentBy s st.log)).next ≤ (settled s st.log).length ∨
    ∃ k b, (listen (sentBy s st.log)).part = .some (k, b) ∧ k ≤ (settled s st.log).length))

theorem busy_of (app : App) (os : List Op) (s : Nat) (hs : s < (run app init os).nS) (h : hasToSay (run app init os) s) : Busy (run app init os) s := by
  have hw := (whole_all app os).okay
  have g := hw.fine.inv.good hs
  have hcalm := hw.calm
  generalize run app init os = st at *
  have hm : (view st s).mid = false := by simp [view, hcalm.1]
  have hf : ∀ m, (st.S s).buf.head? = .some m → m.fin = false :=
    fun m h => hcalm.2 s hs m (List.mem_of_mem_head? h)
  have hlen : (settled s st.log).length = (written s st.log).length - (st.S s).buf.length := by
    have := congrArg List.length g.told
    rw [if_neg (by
      rintro (h | ⟨m, h1, h2⟩)
      · rw [hm] at h; simp at h
      · rw [hf m h1] at h2; simp at h2)] at this
    simpa [view] using this
  have hfit : (st.S s).buf.length ≤ (written s st.log).length := g.fits
  have hfr := g.framed
  have htune := g.tune
  have hover : (listen (sentBy s st.log)).over = (st.S s).shut := g.over
  unfold Framed at hfr
  change (match (st.S s).opening with | .some m => _ | .none => _) at hfr
  unfold Busy
  cases ho : (st.S s).opening with
  | some m => exact Or.inl rfl
  | none =>
    rw [ho] at hfr
    obtain ⟨ret, about, body, e1, e2⟩ := hfr
    change sentBy s st.log = _ at e1
    rcases h with h | ⟨h1, h2⟩ | ⟨h1, h2, h3⟩ | ⟨h1, h2⟩
    · rw [e1] at h; simp at h
    · refine Or.inr (Or.inr (Or.inr ⟨fun e => ?_, h2⟩))
      rw [e] at hlen; simp at hlen; omega
    · refine Or.inr (Or.inr (Or.inl ⟨h1, ?_, ?_⟩))
      · exact List.length_eq_zero_iff.mp (by omega)
      · cases hsh : (st.S s).shut with
        | false => rfl
        | true =>
          refine absurd ?_ (h3 (view st s).f.id)
          rw [e1, if_pos (show (view st s).f.shut = true from hsh)]
          simp
    · refine Or.inr (Or.inl ?_)
      have ht := htune (show (st.S s).shut = false by rw [← hover]; exact h1)
      change Tune (listen (sentBy s st.log)) (st.S s).lost ((written s st.log).length - (st.S s).buf.length) (st.S s).buf.head? at ht
      rw [← hlen] at ht
      refine Nat.pos_of_ne_zero (fun hz => ?_)
      rw [hz] at ht
      unfold Tune at ht
      dsimp only at ht
      generalize listen (sentBy s st.log) = e at *
      have hkey : ∀ (n : Nat), e.next = n → (settled s st.log).length < n → (∀ k b, e.part = .some (k, b) → (settled s st.log).length < k) → False := by
        intro n hn hlt hp
        rcases h2 with h2 | ⟨k, b, h2, h3⟩
        · omega
        · have := hp k b h2; omega
      split at ht
      · exact hkey _ ht.2 (by omega) (fun k b h => by rw [ht.1] at h; simp at h)
      · rename_i m hb
        rw [if_neg (by simp [hf m hb])] at ht
        split at ht
        · exact hkey _ ht.2 (by omega) (fun k b h => by rw [ht.1] at h; simp at h)
        · refine hkey _ ht.2 (by omega) (fun k b h => ?_)
          rw [ht.1] at h
          simp at h
          omega

/-- While a connection is up and doesn't ask for a transmission, no flow has anything to say that it may
say, unless there are too many bytes in flight: whatever the application and the other end do, in
histories where no message is given up by the clock and the measure of the path is raised only when an
acknowledgement arrives. -/
theorem C100_rest_partial (app : App) (os : List Op) (h : Steady app init os) (hu : (run app init os).up = true)
    (hn : (run app init os).sendNow = false) (hf : inFlight (run app init os) < (run app init os).thresh)
    (s : Nat) (hs : s < (run app init os).nS) : ¬ hasToSay (run app init os) s := by
  intro hb
  rcases (live_all app os h).sched hu hn with a | a
  · exact a s hs (fun x => x) (busy_of app os s hs hb)
  · omega

/-- When the transport has room and no acknowledgement is due: one flow says one thing, and no flow of a
higher priority has anything to say; what it says is no longer than a piece may be and fits its window.
Or no flow has anything to say. -/
theorem C100_turn_partial (app : App) (os : List Op) (exp : Nat → Nat) (probe : Bool) (h : Steady app init os)
    (hw : (run app init os).wild = false) (hu : (run app init os).up = true) (hn : (run app init os).sendNow = true)
    (ha : (run app init os).ackNow = false) (hf : inFlight (run app init os) < (run app init os).thresh) :
    let a := run app init os
    let b := run app init (os ++ [.transmit exp probe])
    ((∀ t, sentBy t b.log = sentBy t a.log) ∧ b.sendNow = false ∧ ∀ t, t < a.nS → ¬ hasToSay a t) ∨
    ∃ s, s < a.nS ∧ (∀ t, t < a.nS → (a.S s).pri < (a.S t).pri → ¬ hasToSay a t) ∧
      ∃ m, sentBy s b.log = sentBy s a.log ++ [m] ∧ (∀ t, t ≠ s → sentBy t b.log = sentBy t a.log) ∧
        ∀ id more x, m = .data id more x → x.length ≤ a.chunk ∧ x.length + (a.S s).sent ≤ (a.S s).through := by
  intro a b
  have hb : b = transmit app exp probe a := by
    show run app init (os ++ [.transmit exp probe]) = _
    simp only [run, List.foldl_append, List.foldl_cons, List.foldl_nil, step]
    have : (List.foldl (step app) init os).wild = false := hw
    rw [if_neg (by simp [this])]
    rfl
  rw [hb]
  rcases turn_transmit app exp probe hu hn ha hf (live_all app os h) (whole_all app os).okay with ⟨h1, h2, h3⟩ | ⟨p, ⟨s, hs, hp, m, hm, hfit⟩, hq⟩
  · exact Or.inl ⟨h1, h2, fun t ht hb => h3 t ht (busy_of app os t ht hb)⟩
  · refine Or.inr ⟨s, hs, fun t ht hlt hb => hq t ht (by rw [← hp]; exact hlt) (busy_of app os t ht hb), ?_⟩
    exact ⟨m, hm.1, hm.2, hfit⟩

instance (st : St) (o : Op) : Decidable (steady st o) :=
  match o with
  | .trim _ _ => isFalse (fun h => h)
  | .limit a _ c => inferInstanceAs (Decidable (0 < c ∧ (a ≤ st.thresh ∨ st.sendNow = true)))
  | .call _ => isTrue trivial
  | .recv _ => isTrue trivial
  | .transmit _ _ => isTrue trivial
  | .task => isTrue trivial
  | .gone => isTrue trivial

def steadyDec (app : App) : (st : St) → (os : List Op) → Decidable (Steady app st os)
  | _, [] => isTrue trivial
  | st, o :: os =>
    have := steadyDec app (step app st o) os
    inferInstanceAs (Decidable (steady st o ∧ Steady app (step app st o) os))

instance (app : App) (st : St) (os : List Op) : Decidable (Steady app st os) := steadyDec app st os

/-- `twoOut`, and one more call of the transport: all has been said. -/
example : let os := twoOut ++ [.transmit (fun _ => 0) false]
    let st := run quiet init os
    Steady quiet init os ∧ st.up = true ∧ st.sendNow = false ∧ inFlight st < st.thresh ∧ st.nS = 1 ∧
    settled 0 st.log = [(1, true), (2, true)] ∧ (written 0 st.log).length = 2 := by
  decide +kernel

/-- Two flows with a message each; the second matters more. -/
def twoFlows : List Op :=
  [.call (.opens 5 [] 1), .call (.opens 6 [] 6), .call (.write 0 [1]), .call (.write 1 [2])]

example : Steady quiet init twoFlows ∧ (run quiet init twoFlows).wild = false ∧ (run quiet init twoFlows).up = true ∧
    (run quiet init twoFlows).sendNow = true ∧ (run quiet init twoFlows).ackNow = false ∧
    inFlight (run quiet init twoFlows) < (run quiet init twoFlows).thresh ∧
    wire (run quiet init (twoFlows ++ List.replicate 4 (.transmit (fun _ => 0) false))).log =
      [.opens 6 .none [], .data 6 false [2], .opens 5 .none [], .data 5 false [1]] := by
  decide +kernel

/-- A message is written while the other end lets nothing pass; the flow is closed, and the clock gives
the message up. -/
def givenUp : List Op :=
  [.call (.opens 5 [] 3), .transmit (fun _ => 0) false, .recv (Msg.ack 5 0 0).encode, .call (.write 0 [1]), .call (.closeS 0),
    .transmit (fun _ => 0) false, .trim 0 1, .transmit (fun _ => 0) false]

theorem transmit_idle (app : App) {st : St} (h : st.sendNow = false) (n : Nat) :
    run app st (List.replicate n (.transmit (fun _ => 0) false)) = st := by
  have hs : step app st (.transmit (fun _ => 0) false) = st := by
    unfold step
    split
    · rfl
    · dsimp only
      unfold transmit
      rw [if_pos (by simp [h])]
  induction n with
  | zero => rfl
  | succ n ih =>
    rw [List.replicate_succ]
    show run app (step app st (.transmit (fun _ => 0) false)) _ = st
    rw [hs, ih]

/-- Without the restriction on the history `C100_rest_partial` is false: `trimSendBuffer`, run later by the
clock (test/RTWebSocket.cpp:809-842), asks for no transmission.  The writer is told that the message was
abandoned, the flow is closed and everything is settled, but neither the abandonment nor the closing is
sent, though nothing forbids it, however often the transport says that it has room: the reader isn't told
that the flow is complete. -/
theorem C100_given_up : let st := run quiet init givenUp
    st.up = true ∧ st.sendNow = false ∧ inFlight st < st.thresh ∧ hasToSay st 0 ∧ settled 0 st.log = [(1, false)] ∧
    sentBy 0 st.log = [.opens 5 .none []] ∧ ∀ n, run quiet st (List.replicate n (.transmit (fun _ => 0) false)) = st := by
  intro st
  have h1 : st.up = true ∧ st.sendNow = false ∧ inFlight st < st.thresh := by decide +kernel
  have h2 : settled 0 st.log = [(1, false)] ∧ sentBy 0 st.log = [.opens 5 .none []] ∧ written 0 st.log = [[1]] ∧ (st.S 0).up = false := by decide +kernel
  refine ⟨h1.1, h1.2.1, h1.2.2, ?_, h2.1, h2.2.1, ?_⟩
  · refine Or.inr (Or.inr (Or.inl ⟨h2.2.2.2, ?_, ?_⟩))
    · rw [h2.1, h2.2.2.1]; rfl
    · intro id hid; rw [h2.2.1] at hid; simp at hid
  · exact transmit_idle quiet h1.2.1

end Rtmfp
