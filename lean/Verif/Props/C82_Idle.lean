import Verif.Lemmas.SessIdle
import Verif.Lemmas.SessDemo

/-! # C82: sessions without flows are closed, in time and not before -/

namespace Rtmfp
open Sess

theorem Sess.busy_iff {s : Sess} (h : SS.Books s.ss) : Busy s ↔ (s.ss.sendFlows ≠ [] ∨ s.recvFlows ≠ []) := by
  constructor
  · rintro (⟨i, hi⟩ | ⟨r, hr⟩)
    · exact Or.inl fun e => by have := (h.bound i).mpr hi; rw [e] at this; cases this
    · exact Or.inr fun e => by rw [e] at hr; cases hr
  · rintro (hi | hr)
    · obtain ⟨i, hi⟩ := List.exists_mem_of_ne_nil _ hi; exact Or.inl ⟨i, (h.bound i).mp hi⟩
    · exact Or.inr (List.exists_mem_of_ne_nil _ hr)

/-- C82: not before. A session ends for being idle only if it has no flows, and whenever it had flows before, or wasn't open yet, is at least the idle limit ago. -/
theorem C82_not_before {responder : Bool} {dest : Nat} {ops ops' : List Op} {u s t : Sess} {out out' os : List SOut} {op : Op} (h : Run responder dest ops u out)
    (k : Next (fun _ => True) ops u ops' s out') (ha : Allowed ops' s op) (hs : step s op = some (t, os)) (hi : SOut.idled ∈ os) :
    s.ss.isOpen = true ∧ ¬ Busy s ∧ t.ss.isOpen = false ∧ ((Busy u ∨ u.ss.isOpen = false) → u.now + s.idleLimit ≤ s.now) := by
  obtain ⟨r, _⟩ := k.run h
  have ks := run_inv r
  obtain ⟨w1, w2, w3, w4⟩ := idled_way (step_way hs) hi
  refine ⟨w4, fun q => ?_, ?_, fun hu => ?_⟩
  · rcases (busy_iff ks.traced.books).mp q with q | q
    · exact q w2
    · exact q w3
  · rcases way_open ks ha (step_way hs) with ⟨e, _⟩ | ⟨e, _⟩ | ⟨a, b, c, rfl⟩
    · have w := step_way hs
      have hb := ks.traced.books
      cases w with
      | idle => exact closeSession_open hb
      | flow => simp at hi
      | writable w => cases w <;> simp at hi
      | ack => simp at hi
      | exception => simp at hi
      | gaveUp => simp [closeSession] at hi
      | close => simp [closeSession] at hi
      | _ => simp at hi
    · exact e
    · have w := step_way hs; cases w; cases hi
  · have hj : u.now ≤ s.now ∧ ((s.ss.sendFlows ≠ [] ∨ s.recvFlows ≠ []) ∨ s.ss.isOpen = false ∨ u.now ≤ s.lastIdle) := by
      refine k.inv (J := fun s => u.now ≤ s.now ∧ ((s.ss.sendFlows ≠ [] ∨ s.recvFlows ≠ []) ∨ s.ss.isOpen = false ∨ u.now ≤ s.lastIdle)) h (fun _ => ⟨Int.le_refl _, ?_⟩) ?_
      · rcases hu with hu | hu
        · exact Or.inl ((busy_iff (run_inv h).traced.books).mp hu)
        · exact Or.inr (Or.inl hu)
      · intro ops x y op os kx _ hj ha w _
        exact since_way kx ha w hj.1 hj.2
    rcases hj.2 with (q | q) | q | q
    · exact absurd w2 q
    · exact absurd w3 q
    · rw [w4] at q; cases q
    · omega

/-- C82: in time. While a session is open, has no flows, its idle limit is at most `L` and its idle timer isn't late, at most `L` goes by. -/
theorem C82_in_time {responder : Bool} {dest : Nat} {ops ops' : List Op} {s t : Sess} {out out' : List SOut} {L : Int} (h : Run responder dest ops s out)
    (k : Next (fun u => u.ss.isOpen = true ∧ ¬ Busy u ∧ u.idleLimit ≤ L ∧ ∀ f, u.idleTimer = some f → u.now ≤ f) ops s ops' t out') : t.now ≤ s.now + L := by
  have hj : Idles s.now L t := by
    refine k.inv (J := Idles s.now L) h (fun hp => ?_) ?_
    · obtain ⟨a, b, c⟩ := idle_inv h
      obtain ⟨f, c1, c2⟩ := c hp.1
      exact ⟨a, f, c1, by have := hp.2.2.1; omega⟩
    · intro ops u v op os ku hp hj ha w hv
      have hq : u.ss.sendFlows = [] ∧ u.recvFlows = [] := by
        have := hp.2.1
        rw [busy_iff ku.traced.books] at this
        exact ⟨Classical.byContradiction fun q => this (Or.inl q), Classical.byContradiction fun q => this (Or.inr q)⟩
      exact idles_way ku ha w hv.1 hq.1 hq.2 hp.2.2.1 hp.2.2.2 hp.1 hj
  obtain ⟨_, f, hf, hl⟩ := hj
  have := (k.run h).2.2.2.2 f hf
  omega

/-- C82: the idle timer of an open session is always set. -/
theorem C82_watched {responder : Bool} {dest : Nat} {ops : List Op} {s : Sess} {out : List SOut} (h : Run responder dest ops s out) (ho : s.ss.isOpen = true) :
    ∃ f, s.idleTimer = some f ∧ f ≤ s.now + s.idleLimit := (idle_inv h).set ho

/-! ## examples -/

/-- a flow was received and is gone for sixty seconds: the session ends -/
example : ∃ ops s out t os, Run false 9 ops s out ∧ Allowed ops s (Act.op s.now .idle) ∧ step s (Act.op s.now .idle) = some (t, os) ∧
    (match os with | [.idled] => true | _ => false) = true :=
  demo_step [.opened 10000000 30000000 60000000, .header none, .recvOpen 7, .after 5000, .adv 5000000, .recvClose 7, .adv 65000000] .idle _ (by decide +kernel)

/-- with a flow, the timer is set again -/
example : ∃ ops s out t os, Run false 9 ops s out ∧ Allowed ops s (Act.op s.now .idle) ∧ step s (Act.op s.now .idle) = some (t, os) ∧
    decide (os.length = 0 ∧ t.ss.isOpen = true ∧ t.idleTimer = some 120000000) = true :=
  demo_step [.opened 10000000 30000000 60000000, .header none, .recvOpen 7, .after 5000, .adv 60000000] .idle _ (by decide +kernel)

/-- open without flows; the timer fires in time, and is set to the end of the idle limit -/
example : ∃ ops s out ops' t out', Run false 9 ops s out ∧ Next (fun u => u.ss.isOpen = true ∧ ¬ Busy u ∧ u.idleLimit ≤ 60000000 ∧ ∀ f, u.idleTimer = some f → u.now ≤ f) ops s ops' t out' ∧
    decide (s.now = 0 ∧ t.now = 60000000) = true := by
  obtain ⟨ops, s, out, ops', t, out', h1, h2, h3⟩ := demo_next (responder := false) (dest := 9) [.opened 10000000 30000000 60000000] [.idle, .adv 60000000]
    (fun u => u.ss.isOpen = true ∧ (u.ss.sendFlows = [] ∧ u.recvFlows = []) ∧ u.idleLimit ≤ 60000000 ∧ (u.idleTimer.map fun f => decide (u.now ≤ f)) = some true)
    (fun s t _ => decide (s.now = 0 ∧ t.now = 60000000)) (by decide +kernel)
  refine ⟨ops, s, out, ops', t, out', h1, h2.restate h1 fun _ u _ r hp => ⟨hp.1, ?_, hp.2.2.1, fun f hf => ?_⟩, h3⟩
  · rw [busy_iff (run_inv r).traced.books]
    rintro (q | q)
    · exact q hp.2.1.1
    · exact q hp.2.1.2
  · have := hp.2.2.2
    rw [hf] at this
    simpa using this

end Rtmfp
