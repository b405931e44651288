import Verif.Lemmas.SessTurns
import Verif.Lemmas.SessDemo

/-! # C78, C79: what waits to be sent is sent -/

namespace Rtmfp
open Sess

/-- C78. A flow of an open session has something that wasn't sent yet, or was lost. Then something will happen about it. If the other end has room, the flow is waiting for its turn, and the
session is in line at an interface, or will get in line when the burst alarm fires, or the congestion window is full of data outstanding, which the timeout alarm watches. Otherwise data of this
flow is outstanding and watched by the timeout alarm, or the other end has announced that it has no room at all and the flow's persist timer is set. -/
theorem C78_no_stall {responder : Bool} {dest : Nat} {ops : List Op} {s : Sess} {out : List SOut} (h : Run responder dest ops s out) (hm : s.mid = false) {i : Nat} (hd : HasData s i) :
    s.ss.isOpen = true ∧
    (((s.ss.flow i).outstanding < (s.ss.flow i).rxBuffer ∧ i ∈ s.ready (s.ss.flow i).priority ∧
        ((∃ x, s.listed x (s.ss.flow i).priority = true) ∨ s.burstAlarm ≠ none ∨ (s.cwnd ≤ s.ss.outSum ∧ s.ss.outs ≠ [] ∧ s.alarm ≠ none))) ∨
      ((s.ss.flow i).rxBuffer ≤ (s.ss.flow i).outstanding ∧ (∃ y ∈ (s.ss.flow i).queue, y.inFlight = true) ∧ s.alarm ≠ none) ∨ ((s.ss.flow i).rxBuffer = 0 ∧ s.persist i ≠ none)) := by
  have k := run_inv h
  have hb := k.traced.books
  obtain ⟨hb1, x, hx, hi⟩ := hd
  have hne : ∀ n, 0 < n → n ≤ s.ss.outSum → s.ss.outs ≠ [] := by
    intro n h1 h2 e
    have := hb.sum
    rw [e] at this
    have : s.ss.outSum = 0 := by rw [this]; rfl
    omega
  refine ⟨hb.isOpen i hb1, ?_⟩
  by_cases hr : (s.ss.flow i).outstanding < (s.ss.flow i).rxBuffer
  · left
    have hin := k.core.ready i (fun q => q) ⟨hb1, ⟨x, hx, hi⟩, hr⟩
    refine ⟨hr, hin, ?_⟩
    rcases k.line (by rw [hm]; simp) _ (fun e => by rw [e] at hin; cases hin) with a | a | a
    · exact Or.inl a
    · exact Or.inr (Or.inl a)
    · exact Or.inr (Or.inr ⟨a, hne _ k.cwnd a, k.armed (hne _ k.cwnd a)⟩)
  · right
    have hc : (s.ss.flow i).state ≠ .closed := fun e => by rw [(hb.flow i).ok.closed e] at hb1; cases hb1
    have hl : (s.ss.flow i).state ≠ .completeLinger := fun e => by rw [(hb.flow i).ok.linger e] at hx; cases hx
    by_cases hz : (s.ss.flow i).rxBuffer = 0
    · right
      refine ⟨hz, k.core.persist i hb1 ?_ hz⟩
      cases e : (s.ss.flow i).state with
      | opened => decide
      | closing => decide
      | completeLinger => exact absurd e hl
      | closed => exact absurd e hc
    · left
      have ho := (hb.flow i).out hc
      have hf : ∃ y ∈ (s.ss.flow i).queue, y.inFlight = true := by
        apply Classical.byContradiction
        intro q
        have : SS.flight (s.ss.flow i).queue = 0 := SS.flight_zero_of fun f hf => by
          cases e : f.inFlight with
          | false => rfl
          | true => exact absurd ⟨f, hf, e⟩ q
        rw [this] at ho
        have : (s.ss.flow i).outstanding = 0 := ho
        omega
      obtain ⟨y, hy, hyi⟩ := hf
      have hmem : SS.refOf i y ∈ SS.ofFlow i s.ss.outs := (hb.flow i).perm.mem_iff.mpr (SS.refs_mem.mpr ⟨y, hy, hyi, rfl⟩)
      have hout : s.ss.outs ≠ [] := fun e => by rw [e] at hmem; cases hmem
      exact ⟨by omega, ⟨y, hy, hyi⟩, k.armed hout⟩

/-- C78: what an interface does. If acknowledgements aren't due and the congestion window and the burst limit permit, a packet with data is sent: of the flow, or of one before it, so that
its turn comes nearer. (Or there was only data whose time was over.) -/
theorem C78_served {responder : Bool} {dest : Nat} {ops : List Op} {s t : Sess} {out os : List SOut} (h : Run responder dest ops s out) {pri k k' : Nat} {packet : PA} {gone : Nat → Bool}
    (ha : Allowed ops s (.writable s.dest pri packet gone k k')) (hs : step s (.writable s.dest pri packet gone k k') = some (t, os)) {i : Nat} (hi : CanSend s i)
    (hp : (s.ss.flow i).priority = pri) (hack : s.ackNow = false) (hcw : s.ss.outSum < s.cwnd) (hbu : 0 < s.burst ∨ s.srtt < BURST_RTT) :
    ¬ CanSend t i ∨ SOut.data i ∈ os ∨ ∃ j, SOut.data j ∈ os ∧ CanSend t i ∧ t.ss.flow i = s.ss.flow i ∧ i ∈ t.ready pri ∧ (t.ready pri).idxOf i < (s.ready pri).idxOf i := by
  have kv := run_inv h
  have hopen := kv.traced.books.isOpen i hi.1
  obtain ⟨a1, a2, a3, a4, a5, a6⟩ := ha
  have hrd : (fun q => if q = pri then s.ready pri else s.ready q) = s.ready := by funext q; split <;> simp_all
  have hof := offer_turn (K := Opened (used ops)) (rd := s.ready) (pri := pri) s.now gone (i := i) (s.ready pri) s.ss packet [] kv.traced (by rw [hrd]; exact kv.core) a4.small
    (fun j hj => a5 j ((kv.traced.books.bound j).mpr hj)) hi hp
  have hst : writable s s.dest pri packet gone k k' = (t, os) := by injection hs
  have hsd : sendData s pri packet gone = (match (offer pri s.now gone (s.ready pri) s.ss packet []).2.2.1 with
      | some i => (rescheduleTimeout { s with ss := (offer pri s.now gone (s.ready pri) s.ss packet []).1, ready := (fun q => if q = pri then (offer pri s.now gone (s.ready pri) s.ss packet []).2.1 else s.ready q), burst := s.burst - (sub64 (offer pri s.now gone (s.ready pri) s.ss packet []).1.outSum s.ss.outSum : Int) }, some i, (offer pri s.now gone (s.ready pri) s.ss packet []).2.2.2)
      | none => ({ s with ss := (offer pri s.now gone (s.ready pri) s.ss packet []).1, ready := (fun q => if q = pri then (offer pri s.now gone (s.ready pri) s.ss packet []).2.1 else s.ready q) }, none, (offer pri s.now gone (s.ready pri) s.ss packet []).2.2.2)) := by
    rw [sendData, if_pos (show s.cwnd > s.ss.outSum from hcw), if_pos (show s.burst > 0 ∨ s.srtt < BURST_RTT from hbu)]
    dsimp only
    cases (offer pri s.now gone (s.ready pri) s.ss packet []).2.2.1 <;> rfl
  rw [writable, if_neg (by simp), if_neg (by rw [hopen]; simp)] at hst
  simp only [hack, Bool.false_eq_true, if_false, ne_eq, not_true_eq_false, true_and] at hst
  rw [hsd] at hst
  generalize offer pri s.now gone (s.ready pri) s.ss packet [] = r at *
  cases hr : r.2.2.1 with
  | none =>
    simp only [hr] at hst hof
    rcases hof with q | ⟨j, q, _⟩
    · left
      rw [if_pos trivial] at hst
      injection hst with e1 e2
      rw [← e1]; exact q
    · cases q
  | some j =>
    simp only [hr] at hst hof
    rw [if_neg (by simp)] at hst
    injection hst with e1 e2
    have hd : SOut.data j ∈ os := by rw [← e2]; simp
    have hts : t.ss = r.1 ∧ t.ready pri = r.2.1 := by
      rw [← e1]
      have hpa : ∀ (v : Sess) n, (putAcks v n).ss = v.ss ∧ (putAcks v n).ready = v.ready := fun v n => by rw [putAcks]; dsimp only; split <;> exact ⟨rfl, rfl⟩
      dsimp only
      rw [(hpa _ _).1, (hpa _ _).2, (rescheduleTimeout_rest _).1, (rescheduleTimeout_rest _).2.1]
      simp
    rcases hof with q | ⟨j', q, q2⟩
    · left; intro q3; exact q (by rw [← hts.1]; exact q3)
    · injection q with q
      subst q
      rcases q2 with q2 | ⟨q2, q3, q4⟩
      · subst q2; exact Or.inr (Or.inl hd)
      · refine Or.inr (Or.inr ⟨j, hd, ?_, by rw [hts.1]; exact q2, by rw [hts.2]; exact q3, by rw [hts.2]; exact q4⟩)
        have : t.ss.flow i = s.ss.flow i := by rw [hts.1]; exact q2
        rw [CanSend, this]; exact hi

/-- C78: the burst alarm. Sending goes on. -/
theorem C78_burst_alarm {responder : Bool} {dest : Nat} {ops : List Op} {s t : Sess} {out os : List SOut} (h : Run responder dest ops s out) (hs : step s .burst = some (t, os)) :
    0 < t.burst ∧ ∀ i, CanSend s i → CanSend t i ∧ t.listed t.dest (t.ss.flow i).priority = true := by
  have k := run_inv h
  cases step_way hs with
  | burst h1 h2 h3 h4 =>
    refine ⟨h3, fun i hi => ⟨hi, h4 _ (k.core.pri i) fun e => ?_⟩⟩
    have := k.core.ready i (fun q => q) hi
    rw [e] at this; cases this

/-- C78: the timeout alarm, while something is outstanding. It was too early and is set again, or the session is given up, or everything outstanding is lost: then nothing is outstanding
and the session is in line for all flows that can send. -/
theorem C78_timeout_alarm {responder : Bool} {dest : Nat} {ops : List Op} {s t : Sess} {out os : List SOut} (h : Run responder dest ops s out) (ha : Allowed ops s .alarm)
    (hs : step s .alarm = some (t, os)) (ho : s.ss.outs ≠ []) :
    (s.now < s.deadline ∧ t = { s with alarm := some s.deadline }) ∨ (SOut.timedOut ∈ os ∧ t.ss.isOpen = false) ∨
    (t.ss.outs = [] ∧ t.ss.outSum = 0 ∧ 0 < t.cwnd ∧ 0 < t.burst ∧ ∀ i, CanSend t i → t.listed t.dest (t.ss.flow i).priority = true) := by
  have k := run_inv h
  have k2 := run_inv (.snoc h ha hs)
  have hl : ∀ i, CanSend t i → ((∀ q, q < 8 → t.ready q ≠ [] → t.listed t.dest q = true) → t.listed t.dest (t.ss.flow i).priority = true) := by
    intro i hi hl
    refine hl _ (k2.core.pri i) fun e => ?_
    have := k2.core.ready i (fun q => q) hi
    rw [e] at this; cases this
  cases step_way hs with
  | early h1 h2 => exact Or.inl ⟨h2, rfl⟩
  | late h1 h2 h3 => rw [k.opened_of_outs ho] at h3; cases h3
  | quiet h1 h2 h3 h4 h5 => exact absurd h4 ho
  | gaveUp h1 h2 h3 h4 h5 h6 => exact Or.inr (Or.inl ⟨by simp, closeSession_open (s := { s with alarm := none, burst := MAX_BURST }) k.traced.books⟩)
  | lost h1 h2 h3 h4 h5 h6 a b => exact Or.inr (Or.inr ⟨rfl, rfl, by show 0 < 2 * MSS; decide, by show 0 < MAX_BURST; decide, fun i hi => hl i hi b⟩)
  | again h1 h2 h3 h4 h5 h6 a b => exact Or.inr (Or.inr ⟨rfl, rfl, by show 0 < 2 * MSS; decide, by show 0 < MAX_BURST; decide, fun i hi => hl i hi b⟩)

/-- C78: the session's place at an interface it doesn't use any more goes to the one it uses. -/
theorem C78_other_interface {s t : Sess} {os : List SOut} {x pri k k' : Nat} {packet : PA} {gone : Nat → Bool} (hs : step s (.writable x pri packet gone k k') = some (t, os)) (hx : x ≠ s.dest) :
    t.listed s.dest pri = true ∧ t.dest = s.dest ∧ t.ss = s.ss := by
  cases step_way hs with
  | writable w =>
    cases w with
    | moved h =>
      refine ⟨?_, rfl, rfl⟩
      dsimp only
      rw [if_neg (fun e => hx e.1.symm), if_pos ⟨rfl, rfl⟩]
    | closed h _ => exact absurd h hx
    | acks h _ => exact absurd h hx
    | full h _ => exact absurd h hx
    | limited h _ => exact absurd h hx
    | nothing h _ => exact absurd h hx
    | data h _ => exact absurd h hx

/-- C78: while the other end has no room, it is asked again and again whether it has. -/
theorem C78_probes {responder : Bool} {dest : Nat} {ops : List Op} {s t : Sess} {out os : List SOut} (h : Run responder dest ops s out) {i : Nat} (hd : HasData s i)
    (hs : step s (.persist i) = some (t, os)) : SOut.probe i ∈ os ∧ t.persist i ≠ none := by
  have hb := (run_inv h).traced.books
  obtain ⟨hb1, x, hx, _⟩ := hd
  cases step_way hs with
  | persist h1 h2 =>
    exfalso
    cases e : (s.ss.flow i).state with
    | opened => rw [e] at h2; exact absurd h2 (by decide)
    | closing => rw [e] at h2; exact absurd h2 (by decide)
    | completeLinger => rw [(hb.flow i).ok.linger e] at hx; cases hx
    | closed => rw [(hb.flow i).ok.closed e] at hb1; cases hb1
  | persistProbe h1 h2 h3 => exact ⟨by simp, h3⟩

/-- C79. While a flow can send, flows of the same priority don't get ahead of it: of any other flow, at most one packet more is sent. -/
theorem C79_turns {responder : Bool} {dest : Nat} {ops ops' : List Op} {s t : Sess} {out out' : List SOut} (h : Run responder dest ops s out) {i j p : Nat} (hij : j ≠ i)
    (k : Next (fun u => CanSend u i ∧ (u.ss.flow i).priority = p ∧ (u.ss.flow j).priority = p) ops s ops' t out') : packetsOf j out' ≤ packetsOf i out' + 1 := (turns h hij k).1

/-- C79: both can send all the time. -/
theorem C79_equal {responder : Bool} {dest : Nat} {ops ops' : List Op} {s t : Sess} {out out' : List SOut} (h : Run responder dest ops s out) {i j p : Nat} (hij : j ≠ i)
    (k : Next (fun u => (CanSend u i ∧ CanSend u j) ∧ (u.ss.flow i).priority = p ∧ (u.ss.flow j).priority = p) ops s ops' t out') :
    packetsOf j out' ≤ packetsOf i out' + 1 ∧ packetsOf i out' ≤ packetsOf j out' + 1 :=
  ⟨(turns h hij (k.weaken fun _ q => ⟨q.1.1, q.2⟩)).1, (turns h (Ne.symm hij) (k.weaken fun _ q => ⟨q.1.2, q.2.2, q.2.1⟩)).1⟩

/-! ## examples -/

/-- two flows have data, the session is in line -/
example : ∃ ops s out, Run false 9 ops s out ∧ decide (s.mid = false ∧ HasData s 0 ∧ HasData s 1 ∧ s.listed 9 3 = true ∧ s.ss.outs.length = 0) = true :=
  demo_exists demoActs _ (by decide +kernel)

/-- three packets: the congestion window is full, and the timeout alarm set -/
example : ∃ ops s out, Run false 9 ops s out ∧ decide (s.mid = false ∧ HasData s 0 ∧ CanSend s 0 ∧ s.listed 9 3 = false ∧ s.ss.outs.length = 3 ∧ s.alarm = some 3000000) = true :=
  demo_exists (demoLong ++ [.send 9 3 1 1, .send 9 3 1 1, .send 9 3 1 1, .send 9 3 1 1]) _ (by decide +kernel)

/-- the other end has no room, and the persist timer is set -/
example : ∃ ops s out, Run false 9 ops s out ∧ decide (s.mid = false ∧ HasData s 0 ∧ (s.ss.flow 0).rxBuffer = 0 ∧ s.persist 0 = some (3000000, 3000000)) = true :=
  demo_exists (demoActs ++ [.send 9 3 1 1, .header none, .ack 0 0 [(0, 1)], .after 5000]) _ (by decide +kernel)

/-- a packet of the first flow, and the next is of the second: its turn comes nearer -/
example : ∃ ops s out t os, Run false 9 ops s out ∧ Allowed ops s (Act.op s.now (.send 9 3 1 1)) ∧ step s (Act.op s.now (.send 9 3 1 1)) = some (t, os) ∧
    decide (s.dest = 9 ∧ CanSend s 1 ∧ (s.ss.flow 1).priority = 3 ∧ s.ackNow = false ∧ s.ss.outSum < s.cwnd ∧ 0 < s.burst ∧ packetsOf 0 os = 1 ∧ packetsOf 1 os = 0 ∧
      (t.ready 3).idxOf 1 < (s.ready 3).idxOf 1) = true :=
  demo_step demoActs (.send 9 3 1 1) _ (by decide +kernel)

/-- everything is lost and can be sent again -/
example : ∃ ops s out t os, Run false 9 ops s out ∧ Allowed ops s (Act.op s.now .alarm) ∧ step s (Act.op s.now .alarm) = some (t, os) ∧
    decide (s.ss.outs.length = 2 ∧ t.ss.outs.length = 0 ∧ CanSend t 0 ∧ CanSend t 1 ∧ t.listed 9 3 = true) = true :=
  demo_step (demoActs ++ [.send 9 3 1 1, .send 9 3 1 1, .adv 3000000]) .alarm _ (by decide +kernel)

/-- an estimate of the round-trip time is known; the burst limit is used up; the burst alarm fires -/
example : ∃ ops s out t os, Run false 9 ops s out ∧ Allowed ops s (Act.op s.now .burst) ∧ step s (Act.op s.now .burst) = some (t, os) ∧
    decide (s.listed 9 3 = false ∧ s.burst ≤ 0 ∧ CanSend s 0 ∧ t.listed 9 3 = true) = true :=
  demo_step (demoLong ++ [.header (some (100000, 300000)), .ack 0 100000 [], .after 100000, .send 9 3 1 1, .send 9 3 1 1, .send 9 3 1 1, .send 9 3 1 1,
    .send 9 3 1 1, .send 9 3 1 1, .send 9 3 1 1, .adv 50000]) .burst _ (by decide +kernel)

/-- the session's peer is found at another interface -/
example : ∃ ops s out t os, Run false 9 ops s out ∧ Allowed ops s (Act.op s.now (.send 9 3 1 1)) ∧ step s (Act.op s.now (.send 9 3 1 1)) = some (t, os) ∧ decide (s.dest ≠ 9) = true :=
  demo_step ([.opened 10000000 30000000 60000000, .openFlow 0 3, .bind 0 2, .write 0 (demoMsg 10) 1 1, .header none, .moved 8, .after 1]) (.send 9 3 1 1) _ (by decide +kernel)

/-- a probe -/
example : ∃ ops s out t os, Run false 9 ops s out ∧ Allowed ops s (Act.op s.now (.persist 0)) ∧ step s (Act.op s.now (.persist 0)) = some (t, os) ∧ decide (HasData s 0) = true :=
  demo_step (demoActs ++ [.send 9 3 1 1, .header none, .ack 0 0 [(0, 1)], .after 5000, .adv 3000000]) (.persist 0) _ (by decide +kernel)

/-- two packets, one of each flow, while both can send -/
example : ∃ ops s out ops' t out', Run false 9 ops s out ∧
    Next (fun u => (CanSend u 0 ∧ CanSend u 1) ∧ (u.ss.flow 0).priority = 3 ∧ (u.ss.flow 1).priority = 3) ops s ops' t out' ∧ decide (packetsOf 0 out' = 1 ∧ packetsOf 1 out' = 1) = true :=
  demo_next demoActs [.send 9 3 1 1, .send 9 3 1 1] _ (fun _ _ out' => decide (packetsOf 0 out' = 1 ∧ packetsOf 1 out' = 1)) (by decide +kernel)

end Rtmfp
