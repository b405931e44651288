import Verif.Lemmas.SessIdle
import Verif.Lemmas.SendWatch

/-! # When the other end falls silent -/

namespace Rtmfp
namespace Sess

theorem Steps.run {A : Sess → Op → Prop} {responder : Bool} {dest : Nat} {ops ops' : List Op} {s t : Sess} {out out' : List SOut} (h : Run responder dest ops s out)
    (k : Steps A ops s ops' t out') : Run responder dest ops' t (out ++ out') := by
  induction k with
  | nil => rw [List.append_nil]; exact h
  | snoc _ _ ha hs ih => rw [← List.append_assoc]; exact .snoc ih ha hs

/-- before it opens -/
structure Fresh (s : Sess) : Prop where
  isOpen : s.ss.isOpen = false
  outs : s.ss.outs = []
  ping : s.kaOut = false
  mid : s.mid = false
  alarm : s.alarm = none
  kaTimer : s.kaTimer = none
  recv : s.recvFlows = []
  acks : s.ackFlows = []
  ackNow : s.ackNow = false
  delack : s.delack = none

theorem fresh_run {responder : Bool} {dest : Nat} {ops : List Op} {s : Sess} {out : List SOut} (h : Run responder dest ops s out) (hn : ∀ a b c, Op.opened a b c ∉ ops) : Fresh s := by
  induction h with
  | nil => exact ⟨rfl, rfl, rfl, rfl, rfl, rfl, rfl, rfl, rfl, rfl⟩
  | snoc r ha hs ih =>
    rename_i ops s out op t os
    have k := run_inv r
    have hb := k.traced.books
    have q := ih fun a b c q => hn a b c (List.mem_append_left _ q)
    obtain ⟨q1, q2, q3, q4, q5, q6, q7, q8, q9, q10⟩ := q
    have w := step_way hs
    cases w with
    | opened a b c => exact absurd (List.mem_append_right _ (List.mem_singleton.mpr rfl)) (hn a b c)
    | flow h =>
      obtain ⟨c1, c2, _⟩ := calls_same hb ha.1 ha.2.2 h
      exact ⟨c1.trans q1, c2.trans q2, q3, q4, q5, q6, q7, q8, q9, q10⟩
    | writable w =>
      cases w with
      | moved => exact ⟨q1, q2, q3, q4, q5, q6, q7, q8, q9, q10⟩
      | closed => exact ⟨q1, q2, q3, q4, q5, q6, q7, q8, q9, q10⟩
      | acks _ c => rw [q1] at c; cases c
      | full _ c => rw [q1] at c; cases c
      | limited _ c => rw [q1] at c; cases c
      | nothing _ c => rw [q1] at c; cases c
      | data _ c => rw [q1] at c; cases c
    | header => have := ha.2.1; rw [q1] at this; cases this
    | headerSample => have := ha.2.1; rw [q1] at this; cases this
    | ack => have := ha.2.1; rw [q1] at this; cases this
    | exception => have := ha.2.1; rw [q1] at this; cases this
    | ping => have := ha.2.1; rw [q1] at this; cases this
    | pingReply => have := ha.2.1; rw [q1] at this; cases this
    | data => have := ha.2.1; rw [q1] at this; cases this
    | probe => have := ha.2.1; rw [q1] at this; cases this
    | after => have := ha.1; rw [q4] at this; cases this
    | afterAcks => have := ha.1; rw [q4] at this; cases this
    | moved => have := ha.2; rw [q1] at this; cases this
    | recvAck => rw [Allowed, q7] at ha; cases ha
    | recvOpen => have := ha.1; rw [q1] at this; cases this
    | recvClose => rw [Allowed, q7] at ha; cases ha
    | setPeriod c =>
      rcases c with ⟨c, _⟩ | ⟨_, c⟩
      · rw [q1] at c; cases c
      · exact ⟨q1, q2, q3, q4, q5, c.trans q6, q7, q8, q9, q10⟩
    | early c => exact absurd q5 c
    | late c => exact absurd q5 c
    | quiet c => exact absurd q5 c
    | gaveUp c => exact absurd q5 c
    | lost c => exact absurd q5 c
    | again c => exact absurd q5 c
    | keepaliveEarly c => exact absurd q6 c
    | keepalive c => exact absurd q6 c
    | keepaliveClosed c => exact absurd q6 c
    | idle _ c => rw [q1] at c; cases c
    | delack c => exact absurd q10 c
    | close => have := ha; rw [Allowed, q1] at this; cases this
    | _ => exact ⟨q1, q2, q3, q4, q5, q6, q7, q8, q9, q10⟩

/-- of the timeout alarm -/
structure Deadline (s : Sess) : Prop where
  alarm : ∀ f, s.alarm = some f → f ≤ s.deadline
  erto : s.erto ≤ max MAX_ERTO s.mrto
  epoch : ∀ e, s.epoch = some e → e ≤ s.now
  ping : s.ss.isOpen = true → s.kaOut = true → s.alarm ≠ none

theorem minInf_le (a : Option Int) (b : Int) : minInf a b ≤ b := by cases a <;> simp [minInf]; omega

theorem deadline_way {ops : List Op} {s t : Sess} {op : Op} {os : List SOut} (k : Inv (used ops) s) (hfr : (∀ a b c, Op.opened a b c ∉ ops) → Fresh s) (ha : Allowed ops s op) (w : Way s op t os) (h : Deadline s) : Deadline t := by
  obtain ⟨a, b, c, d⟩ := h
  have ht := (way_time ha w).1
  have hbk := k.traced.books
  have hi : ∀ e, some (minInf s.epoch s.now) = some e → e ≤ s.now := fun e he => by injection he with he; rw [← he]; exact minInf_le _ _
  have hf : ∀ {f : Int}, ((∃ g, s.alarm = some g ∧ s.deadline ≤ s.now + s.erto ∧ f = g) ∨ f = s.now + s.erto) → ∀ g, some f = some g → g ≤ s.now + s.erto := by
    intro f hf g hg
    injection hg with hg
    subst hg
    rcases hf with ⟨g, h1, h2, rfl⟩ | rfl
    · exact Int.le_trans (a _ h1) h2
    · exact Int.le_refl _
  have closed : t.alarm = none → t.erto = s.erto → t.mrto = s.mrto → t.epoch = s.epoch → t.ss.isOpen = false → Deadline t := fun e1 e2 e3 e4 e5 =>
    ⟨(fun f q => by rw [e1] at q; cases q), (by rw [e2, e3]; exact b), (fun e q => Int.le_trans (c e (by rw [← e4]; exact q)) ht), fun q => by rw [e5] at q; cases q⟩
  have same : t.alarm = s.alarm → t.deadline = s.deadline → t.erto = s.erto → t.mrto = s.mrto → t.epoch = s.epoch → (t.ss.isOpen = true → s.ss.isOpen = true) → (t.kaOut = true → s.kaOut = true) → Deadline t :=
    fun e1 e2 e3 e4 e5 e6 e7 => ⟨fun f q => by rw [e2]; exact a f (by rw [← e1]; exact q), by rw [e3, e4]; exact b, fun e q => Int.le_trans (c e (by rw [← e5]; exact q)) ht,
      fun q1 q2 => by rw [e1]; exact d (e6 q1) (e7 q2)⟩
  cases w with
  | opened p l i =>
    have := (hfr ha.2.2).ping
    exact ⟨a, b, (fun e q => by cases q), fun _ q => by rw [show s.kaOut = true from q] at this; cases this⟩
  | flow hf _ _ _ => exact same rfl rfl rfl rfl rfl (fun q => by rw [← (calls_same hbk ha.1 ha.2.2 hf).1]; exact q) (fun q => q)
  | writable w =>
    cases w with
    | nothing => exact same rfl rfl rfl rfl rfl (fun q => by rw [← (offer_same _ _ _ _ _ _ _).1]; exact q) (fun q => q)
    | data _ _ _ _ hq => exact ⟨hf hq, b, hi, fun _ _ => by simp⟩
    | _ => exact same rfl rfl rfl rfl rfl (fun q => q) (fun q => q)
  | headerSample =>
    refine ⟨a, ?_, c, d⟩
    dsimp only
    have : MIN_ERTO ≤ MAX_ERTO := by decide
    omega
  | ack => exact ⟨a, b, (fun e q => by cases q), fun _ q => by cases q⟩
  | pingReply => exact ⟨a, b, (fun e q => by cases q), fun _ q => by cases q⟩
  | exception => exact same rfl rfl rfl rfl rfl (fun q => by rw [← (SS.exceptionReport_turn hbk _ _ _ _).isOpen]; exact q) (fun q => q)
  | afterAcks _ _ _ hq => exact ⟨hf hq, b, hi, fun _ _ => by simp⟩
  | early => exact ⟨(fun f q => by cases q; exact Int.le_refl _), b, c, fun _ _ => by simp⟩
  | late _ _ q => exact closed rfl rfl rfl rfl q
  | quiet _ _ _ _ q => exact ⟨(fun f q => by cases q), b, (fun e q => by cases q), fun _ q2 => by rw [show s.kaOut = true from q2] at q; cases q⟩
  | gaveUp => exact closed rfl rfl rfl rfl (closeSession_open (s := { s with alarm := none, burst := MAX_BURST }) hbk)
  | lost _ _ _ _ q =>
    refine ⟨(fun f q => by cases q), ?_, c, fun _ q2 => by rw [show s.kaOut = true from q2] at q; cases q⟩
    show max (min (backedOff s.erto) MAX_ERTO) s.mrto ≤ max MAX_ERTO s.mrto
    omega
  | again _ _ _ _ he =>
    refine ⟨(fun f q => by cases q; exact Int.le_refl _), ?_, hi, fun _ _ => by simp⟩
    subst he
    show max (min (backedOff s.erto) MAX_ERTO) s.mrto ≤ max MAX_ERTO s.mrto
    omega
  | keepalive _ _ _ hq => exact ⟨hf hq, b, hi, fun _ _ => by simp⟩
  | idle => exact closed rfl rfl rfl rfl (closeSession_open hbk)
  | close => exact closed rfl rfl rfl rfl (closeSession_open hbk)
  | _ => exact same rfl rfl rfl rfl rfl (fun q => q) (fun q => q)

theorem deadline_run {responder : Bool} {dest : Nat} {ops : List Op} {s : Sess} {out : List SOut} (h : Run responder dest ops s out) : Deadline s := by
  induction h with
  | nil => exact ⟨(fun f q => by cases q), by show (3000000 : Int) ≤ max MAX_ERTO 250000; decide, (fun e q => by cases q), fun q => by cases q⟩
  | snoc r ha hs ih => exact deadline_way (run_inv r) (fresh_run r) ha (step_way hs) ih

/-! ## not before -/

/-- the time from which retransmission is counted is after `x` -/
theorem heard_way {ops : List Op} {s t : Sess} {op : Op} {os : List SOut} {x : Int} (ha : Allowed ops s op) (w : Way s op t os) (hx : x ≤ s.now) (h : ∀ e, s.epoch = some e → x ≤ e) :
    x ≤ t.now ∧ ∀ e, t.epoch = some e → x ≤ e := by
  have ht := (way_time ha w).1
  refine ⟨by omega, ?_⟩
  have hi : ∀ e, some (minInf s.epoch s.now) = some e → x ≤ e := by
    intro e he
    injection he with he
    subst he
    cases hq : s.epoch with
    | none => exact hx
    | some e =>
      show x ≤ min e s.now
      have := h e hq; omega
  have hn : ∀ e, (none : Option Int) = some e → x ≤ e := fun e he => by cases he
  cases w with
  | opened => exact hn
  | writable w =>
    cases w with
    | data => exact hi
    | _ => exact h
  | ack => exact hn
  | pingReply => exact hn
  | afterAcks => exact hi
  | quiet => exact hn
  | again => exact hi
  | keepalive => exact hi
  | _ => exact h

theorem timedOut_way {s t : Sess} {op : Op} {os : List SOut} (hb : SS.Books s.ss) (w : Way s op t os) (h : SOut.timedOut ∈ os) :
    op = .alarm ∧ s.ss.isOpen = true ∧ t.ss.isOpen = false ∧ (s.ss.outs ≠ [] ∨ s.kaOut = true) ∧ ∃ e, s.epoch = some e ∧ e + s.limit ≤ s.now := by
  cases w with
  | gaveUp h1 h2 h3 h4 h5 h6 => exact ⟨rfl, h3, closeSession_open (s := { s with alarm := none, burst := MAX_BURST }) hb, h4, _, h5, h6⟩
  | flow => simp at h
  | writable w => cases w <;> simp at h
  | ack => simp at h
  | exception => simp at h
  | idle => simp [closeSession] at h
  | close => simp [closeSession] at h
  | _ => simp at h

/-! ## in time -/

theorem packets_append (a b : List SOut) : packets (a ++ b) = packets a + packets b := by rw [packets, packets, packets, List.filter_append, List.length_append]

theorem packets_ss (es : List SS.Ev) : packets (es.map SOut.ss) = 0 := by
  rw [packets, List.length_eq_zero_iff, List.filter_eq_nil_iff]
  intro x hx
  obtain ⟨e, _, rfl⟩ := List.mem_map.mp hx
  simp

/-- a keepalive ping was sent -/
def pinged (t : Sess) : Int := if t.kaTimer = none then 1 else 0

/-- while nothing is heard: retransmission is counted from `E` at the latest, `B` is the time the session would end, `n` the packets with data that were sent, each of which puts it
off by at most `R` -/
structure Silent (E limit mrto B R : Int) (n : Nat) (t : Sess) : Prop where
  mid : t.mid = false
  epoch : ∀ e, t.epoch = some e → e ≤ E
  before : t.epoch = none → t.now ≤ E ∧ (t.alarm ≠ none → t.deadline ≤ E)
  limit : t.limit = limit
  mrto : t.mrto = mrto
  now : t.now ≤ B + (n + pinged t) * R
  deadline : t.alarm ≠ none → t.deadline ≤ B + (n + pinged t) * R ∧ (t.ss.outs ≠ [] ∨ t.kaOut = true)

theorem silent_way {ops : List Op} {E limit mrto B R : Int} {n : Nat} {s t : Sess} {op : Op} {os : List SOut} (k : Inv (used ops) s) (hd : Deadline s) (hr : R = max MAX_ERTO mrto) (hB : E + R ≤ B) (hB' : E + limit + R ≤ B)
    (ha : Allowed ops s op) (hA : Silence s op) (hs : step s op = some (t, os)) (so : s.ss.isOpen = true) (ho : t.ss.isOpen = true) (h : Silent E limit mrto B R n s) :
    Silent E limit mrto B R (n + packets os) t := by
  have w := step_way hs
  have hbk := k.traced.books
  obtain ⟨a1, a2, a0, a3, a4, a5, a6⟩ := h
  have hR : 0 ≤ R := by have : (0 : Int) ≤ MAX_ERTO := by decide
                        omega
  have heR : s.erto ≤ R := by rw [hr, ← a4]; exact hd.erto
  have hmin : ∀ e, some (minInf s.epoch s.now) = some e → e ≤ E := by
    intro e he
    injection he with he
    subst he
    cases hq : s.epoch with
    | none => exact (a0 hq).1
    | some e => exact Int.le_trans (Int.min_le_left e s.now) (a2 e hq)
  have hno : some (minInf s.epoch s.now) = none → ∀ p : Prop, p := fun q => by cases q
  have hp : pinged s = 0 ∨ pinged s = 1 := by rw [pinged]; split <;> simp
  have same : packets os = 0 → t.mid = s.mid → t.epoch = s.epoch → t.limit = s.limit → t.mrto = s.mrto → t.kaTimer = s.kaTimer → t.now = s.now → t.alarm = s.alarm → t.deadline = s.deadline →
      t.ss.outs = s.ss.outs → t.kaOut = s.kaOut → Silent E limit mrto B R (n + packets os) t := by
    intro e0 e1 e2 e3 e4 e5 e6 e7 e8 e9 e10
    have ep : pinged t = pinged s := by rw [pinged, pinged, e5]
    refine ⟨by rw [e1]; exact a1, by rw [e2]; exact a2, by rw [e2, e6, e7, e8]; exact a0, by rw [e3]; exact a3, by rw [e4]; exact a4, by rw [e6, e0, ep]; exact a5, fun q => ?_⟩
    rw [e8, e9, e10, e0, ep]; exact a6 (by rw [← e7]; exact q)
  cases w with
  | advance x =>
    obtain ⟨f, h1, h2⟩ := hA
    have h3 := a6 (by rw [h1]; simp)
    exact ⟨a1, a2, (fun q => ⟨Int.le_trans h2 (Int.le_trans (hd.alarm f h1) ((a0 q).2 (by rw [h1]; simp))), (a0 q).2⟩), a3, a4, Int.le_trans h2 (Int.le_trans (hd.alarm f h1) h3.1), a6⟩
  | opened => have := ha.1; rw [so] at this; cases this
  | flow hf _ _ _ => exact same (packets_ss _) rfl rfl rfl rfl rfl rfl rfl rfl (calls_same hbk ha.1 ha.2.2 hf).2.1 rfl
  | writable w =>
    rename_i x pri packet gone kk kk'
    obtain ⟨b1, b2, b3, b4, b5, b6⟩ := ha
    have hof := offer_core (K := Opened (used ops)) (rd := s.ready) (pri := pri) (ps := s.persist) s.now gone (s.ready pri) s.ss packet [] k.traced
      (by rw [show (fun q => if q = pri then s.ready pri else s.ready q) = s.ready from by funext q; split <;> simp_all]; exact k.core) b4.small
      (fun j hj => b5 j ((hbk.bound j).mpr hj))
    cases w with
    | nothing _ _ _ hq => exact same (packets_ss _) rfl rfl rfl rfl rfl rfl rfl rfl (hof.2.2.2.2.2.1 hq).2.1 rfl
    | data q1 q2 q3 hq q5 =>
      rename_i i rs
      have hpk : packets (List.map SOut.ss (offer pri s.now gone (s.ready pri) s.ss packet []).2.2.2 ++ [.data i] ++ [.acks rs]) = 1 := by
        rw [packets_append, packets_append, packets_ss]; rfl
      rw [show packets _ = 1 from hpk]
      have e1 : B + (((n + 1 : Nat) : Int) + pinged s) * R = B + (n + pinged s) * R + R := by
        rw [show (((n + 1 : Nat) : Int) + pinged s) = (n + pinged s) + 1 by omega, Int.add_mul]; omega
      refine ⟨a1, hmin, fun q => hno q _, a3, a4, ?_, fun _ => ⟨?_, Or.inl (hof.2.2.2.2.2.2 _ hq).1⟩⟩
      · show s.now ≤ B + (((n + 1 : Nat) : Int) + pinged s) * R
        rw [e1]; omega
      · show s.now + s.erto ≤ B + (((n + 1 : Nat) : Int) + pinged s) * R
        rw [e1]; omega
    | acks => exact same rfl rfl rfl rfl rfl rfl rfl rfl rfl rfl rfl
    | _ => exact same rfl rfl rfl rfl rfl rfl rfl rfl rfl rfl rfl
  | header => cases hA
  | headerSample => cases hA
  | ack => have := ha.1; rw [a1] at this; cases this
  | exception => have := ha.1; rw [a1] at this; cases this
  | ping => have := ha.1; rw [a1] at this; cases this
  | pingReply => have := ha.1; rw [a1] at this; cases this
  | data => have := ha.1; rw [a1] at this; cases this
  | probe => have := ha.1; rw [a1] at this; cases this
  | after => have := ha.1; rw [a1] at this; cases this
  | afterAcks => have := ha.1; rw [a1] at this; cases this
  | setPeriod => cases hA
  | setLimit => cases hA
  | early h1 h2 => exact ⟨a1, a2, (fun q => ⟨(a0 q).1, fun _ => (a0 q).2 h1⟩), a3, a4, a5, fun _ => a6 h1⟩
  | late _ _ q => rw [so] at q; cases q
  | quiet h1 h2 h3 h4 h5 =>
    rcases (a6 h1).2 with q | q
    · exact absurd h4 q
    · rw [h5] at q; cases q
  | gaveUp => rw [closeSession_open (s := { s with alarm := none, burst := MAX_BURST }) hbk] at ho; cases ho
  | lost => exact ⟨a1, a2, (fun q => ⟨(a0 q).1, fun q => absurd rfl q⟩), a3, a4, a5, fun q => absurd rfl q⟩
  | again h1 h2 h3 h4 h5 h6 h7 h8 =>
    rename_i rd li e'
    have hlt : s.now + R ≤ B := by
      cases hq : s.epoch with
      | none => have := (a0 hq).1; omega
      | some e => have := h6 e hq; have := a2 e hq; omega
    have he' : e' ≤ R := by rw [h5, hr, a4]; omega
    have h0 : 0 ≤ (n + pinged s) * R := Int.mul_nonneg (by omega) hR
    refine ⟨a1, hmin, fun q => hno q _, a3, a4, a5, fun _ => ⟨?_, Or.inr rfl⟩⟩
    show s.now + e' ≤ B + (n + pinged s) * R
    omega
  | keepalive h1 h2 h3 h4 =>
    have e0 : pinged s = 0 := by rw [pinged, if_neg h1]
    have e1 : B + ((n : Int) + 1) * R = B + ((n : Int) + pinged s) * R + R := by rw [e0, Int.add_mul, Int.add_zero, Int.one_mul, Int.add_assoc]
    refine ⟨a1, hmin, fun q => hno q _, a3, a4, ?_, fun _ => ⟨?_, Or.inr rfl⟩⟩
    · show s.now ≤ B + (n + 1) * R
      rw [e1]; omega
    · show s.now + s.erto ≤ B + (n + 1) * R
      rw [e1]; omega
  | keepaliveEarly h1 =>
    have ep : pinged s = 0 := by rw [pinged, if_neg h1]
    rw [ep] at a5 a6
    exact ⟨a1, a2, a0, a3, a4, a5, a6⟩
  | idle => rw [closeSession_open hbk] at ho; cases ho
  | close => rw [closeSession_open hbk] at ho; cases ho
  | _ => exact same rfl rfl rfl rfl rfl rfl rfl rfl rfl rfl rfl

/-! ## the session is watched -/

/-- some timer that leads to the timeout alarm is set, or there is something to send -/
def Watched (s : Sess) : Prop := s.ss.isOpen = true → ¬ (s.mid = true ∧ s.anyAcks = true) → s.kaTimer ≠ none ∨ s.alarm ≠ none ∨ ∃ i, (s.ss.flow i).bound = true ∧ (s.ss.flow i).queue ≠ []

/-- calls of the user leave data in the queues -/
theorem calls_kept {h : List SS.Op} {s t : SS} {op : SS.Op} {es : List SS.Ev} (hb : SS.Books s) (hc : Calls op) (ha : SS.Allowed h s op) (hs : SS.step s op = some (t, es)) {j : Nat}
    (h1 : (s.flow j).bound = true) (h2 : (s.flow j).queue ≠ []) : (t.flow j).bound = true ∧ (t.flow j).queue ≠ [] := by
  cases op with
  | openFlow i m a p =>
    simp only [SS.step, Option.some.injEq, Prod.mk.injEq] at hs
    have hj : j ≠ i := by rintro rfl; have := (hb.flow j).ok.closed ha.1; rw [h1] at this; cases this
    rw [← hs.1, SS.openFlow]; split
    · exact ⟨h1, h2⟩
    · rw [SS.setFlow_other _ _ hj]; exact ⟨h1, h2⟩
  | bind i f =>
    simp only [SS.step, Option.some.injEq, Prod.mk.injEq] at hs
    rw [← hs.1, SS.bind]; split
    · exact ⟨h1, h2⟩
    · rename_i hn
      have hj : j ≠ i := by rintro rfl; exact hn h1
      show ((s.setFlow i _).flow j).bound = true ∧ ((s.setFlow i _).flow j).queue ≠ []
      rw [SS.setFlow_other _ _ hj]; exact ⟨h1, h2⟩
  | write i msg now a b rid names =>
    have hw := writeRes_turns hb (i := i) (msg := msg) (now := now) (a := a) (b := b) (rid := rid) (names := names)
    simp only [SS.step, Option.some.injEq] at hs
    rw [hs] at hw
    exact (hw.all j).kept h1 h2
  | close i now rid names =>
    have hw := SS.close_turn hb i now rid names
    simp only [SS.step, Option.some.injEq, Prod.mk.injEq] at hs
    rw [hs.1] at hw
    exact (hw.all j).kept h1 h2
  | setOnException i =>
    cases hs
    show ((s.setFlow i _).flow j).bound = true ∧ ((s.setFlow i _).flow j).queue ≠ []
    by_cases e : j = i
    · subst e; rw [SS.setFlow_same]; exact ⟨h1, h2⟩
    · rw [SS.setFlow_other _ _ e]; exact ⟨h1, h2⟩
  | setPriority i pri =>
    simp only [SS.step, SS.setPriority] at hs
    split at hs
    · cases hs
    · cases hs
      show ((s.setFlow i _).flow j).bound = true ∧ ((s.setFlow i _).flow j).queue ≠ []
      by_cases e : j = i
      · subst e; rw [SS.setFlow_same]; exact ⟨h1, h2⟩
      · rw [SS.setFlow_other _ _ e]; exact ⟨h1, h2⟩
  | receipt op => cases hs; exact ⟨h1, h2⟩
  | trim i now =>
    have hw := SS.trim_turn s i now
    cases hs
    exact (hw.all j).kept h1 h2
  | lingerAlarm i =>
    simp only [SS.step, Option.some.injEq, Prod.mk.injEq] at hs
    have hw := SS.gotoClosed_turn (s := s) (i := i) fun _ => (hb.flow i).ok.linger ha
    rw [← hs.1]
    exact (hw.all j).kept h1 h2
  | openingFailed i now =>
    obtain ⟨a1, a2⟩ := ha
    simp only [SS.step, Option.some.injEq, Prod.mk.injEq] at hs
    obtain ⟨k1, k2, k3, k4, k5, k6, _⟩ := SS.didClose_flows (now := now) (rid := 0) (names := id) (hb.flow i).ok (fun q => by rw [a1] at q; cases q) _ rfl
    rw [hs.1] at k6
    rw [k6 j (by rintro rfl; rw [a1] at h1; cases h1)]
    exact ⟨h1, h2⟩
  | _ => exact absurd hc (by simp [Calls])

theorem timeout_like {s : SS} (hb : SS.Books s) (j : Nat) : (s.timeout.flow j).bound = (s.flow j).bound ∧ ((s.timeout.flow j).queue = [] ↔ (s.flow j).queue = []) := by
  refine ⟨(SS.loseAll_books s.outs s hb.flow).2.1 j, ?_⟩
  rw [SS.timeout_queue hb]; simp

/-- what is in flight belongs to a flow of the session -/
theorem outs_flow {s : SS} (hb : SS.Books s) (h : s.outs ≠ []) : ∃ i, (s.flow i).bound = true ∧ (s.flow i).queue ≠ [] := by
  obtain ⟨o, ho⟩ := List.exists_mem_of_ne_nil _ h
  have hbj := hb.flow o.flow
  have hr : o ∈ SS.refs o.flow (s.flow o.flow).queue := hbj.perm.mem_iff.mp (by simp [SS.ofFlow, ho])
  obtain ⟨g, hg, g1, _⟩ := SS.refs_mem.mp hr
  refine ⟨o.flow, ?_, fun e => by rw [e] at hg; cases hg⟩
  cases hq : (s.flow o.flow).bound with
  | true => rfl
  | false => have := hbj.ok.unbound hq g hg; rw [g1] at this; cases this

theorem watched_way {ops : List Op} {s t : Sess} {op : Op} {os : List SOut} (k : Inv (used ops) s) (ha : Allowed ops s op) (w : Way s op t os) (h : Watched s) : Watched t := by
  have hb := k.traced.books
  intro ho hm
  have same : s.ss.isOpen = true → ¬ (s.mid = true ∧ s.anyAcks = true) → (s.kaTimer ≠ none → t.kaTimer ≠ none) → (s.alarm ≠ none → t.alarm ≠ none) →
      (∀ i, (s.ss.flow i).bound = true → (s.ss.flow i).queue ≠ [] → (t.ss.flow i).bound = true ∧ (t.ss.flow i).queue ≠ []) →
      t.kaTimer ≠ none ∨ t.alarm ≠ none ∨ ∃ i, (t.ss.flow i).bound = true ∧ (t.ss.flow i).queue ≠ [] := by
    intro e1 e2 e3 e4 e5
    rcases h e1 e2 with q | q | ⟨i, q1, q2⟩
    · exact Or.inl (e3 q)
    · exact Or.inr (Or.inl (e4 q))
    · exact Or.inr (Or.inr ⟨i, e5 i q1 q2⟩)
  have idf : ∀ {p : Prop}, p → p := fun q => q
  have idq : ∀ i, (s.ss.flow i).bound = true → (s.ss.flow i).queue ≠ [] → (s.ss.flow i).bound = true ∧ (s.ss.flow i).queue ≠ [] := fun _ a b => ⟨a, b⟩
  cases w with
  | opened => exact Or.inl (by simp)
  | flow hf _ _ _ => exact same (by rw [← (calls_same hb ha.1 ha.2.2 hf).1]; exact ho) hm idf idf fun i q1 q2 => calls_kept hb ha.1 ha.2.2 hf q1 q2
  | writable w =>
    rename_i x pri packet gone kk kk'
    obtain ⟨b1, b2, b3, b4, b5, b6⟩ := ha
    have hm' : ¬ (s.mid = true ∧ s.anyAcks = true) := by rw [b1]; simp
    cases w with
    | nothing =>
      have hof := offer_core (K := Opened (used ops)) (rd := s.ready) (pri := pri) (ps := s.persist) s.now gone (s.ready pri) s.ss packet [] k.traced
        (by rw [show (fun q => if q = pri then s.ready pri else s.ready q) = s.ready from by funext q; split <;> simp_all]; exact k.core) b4.small
        (fun j hj => b5 j ((hb.bound j).mpr hj))
      refine same (by rw [← hof.2.2.1]; exact ho) hm' idf idf fun i q1 q2 => ⟨?_, ?_⟩
      · exact (hof.2.2.2.2.1 i).bound.trans q1
      · exact fun e => q2 ((hof.2.2.2.2.1 i).empty.mp e)
    | data => exact Or.inr (Or.inl (by simp))
    | _ => exact same ho hm' idf idf idq
  | header => exact same ho (by rw [ha.1]; simp) idf idf idq
  | headerSample => exact same ho (by rw [ha.1]; simp) idf idf idq
  | ack => exact absurd ⟨ha.1, rfl⟩ hm
  | exception q1 q2 =>
    rename_i i rid names rd li ps lt es
    have hw := SS.exceptionReport_turn hb i s.now rid names
    exact same (by rw [← hw.isOpen]; exact ho) hm idf idf fun j q1 q2 => (hw.all j).kept q1 q2
  | after _ he => exact same ho (by rw [he]; simp) idf idf idq
  | afterAcks => exact Or.inr (Or.inl (by simp))
  | setPeriod hk =>
    refine same ho hm ?_ idf idq
    rcases hk with ⟨_, e⟩ | ⟨_, e⟩
    · intro _; show _ ≠ none; rw [e]; simp
    · intro q; show _ ≠ none; rw [e]; exact q
  | early => exact Or.inr (Or.inl (by simp))
  | late _ _ q => rw [show s.ss.isOpen = true from ho] at q; cases q
  | quiet => exact Or.inl (by simp)
  | gaveUp => rw [closeSession_open (s := { s with alarm := none, burst := MAX_BURST }) hb] at ho; cases ho
  | lost _ _ _ q =>
    obtain ⟨i, i1, i2⟩ := outs_flow hb q
    refine Or.inr (Or.inr ⟨i, ?_, ?_⟩)
    · exact (timeout_like hb i).1.trans i1
    · exact fun e => i2 ((timeout_like hb i).2.mp e)
  | again => exact Or.inr (Or.inl (by simp))
  | keepalive => exact Or.inr (Or.inl (by simp))
  | keepaliveEarly => exact Or.inl (by simp)
  | idle => rw [closeSession_open hb] at ho; cases ho
  | close => rw [closeSession_open hb] at ho; cases ho
  | _ => exact same ho hm idf idf idq

theorem watched_run {responder : Bool} {dest : Nat} {ops : List Op} {s : Sess} {out : List SOut} (h : Run responder dest ops s out) : Watched s := by
  induction h with
  | nil => intro q; cases q
  | snoc r ha hs ih => exact watched_way (run_inv r) ha (step_way hs) ih

/-! ## nothing will ever happen -/

/-- no timer that leads to the end is set, and no flow may send -/
structure Stuck (s : Sess) : Prop where
  isOpen : s.ss.isOpen = true
  mid : s.mid = false
  alarm : s.alarm = none
  kaTimer : s.kaTimer = none
  busy : s.ss.sendFlows ≠ []
  ready : ∀ i ∈ s.ss.sendFlows, SS.isMaybeReady (s.ss.flow i) = false

theorem offer_stuck (pri : Nat) (now : Int) (gone : Nat → Bool) (l : List Nat) : ∀ (s : SS) (p : PA) (es : List SS.Ev), (∀ i ∈ l, SS.isMaybeReady (s.flow i) = false) →
    (offer pri now gone l s p es).1 = s ∧ (offer pri now gone l s p es).2.2.1 = none := by
  induction l with
  | nil => intro s p es _; exact ⟨rfl, rfl⟩
  | cons i l ih =>
    intro s p es h
    rw [offer]
    have e : s.assembleData i p pri now (gone i) = ⟨s, p, false, [], 0, []⟩ := by
      rw [SS.assembleData]; split
      · rfl
      · rw [if_pos (h i (List.mem_cons_self ..))]
    rw [e]
    exact ih s p _ fun j hj => h j (List.mem_cons_of_mem _ hj)

theorem stuck_way {s t : Sess} {op : Op} {os : List SOut} {ops : List Op} (k : Inv (used ops) s) (ha : Allowed ops s op) (hA : Alone s op) (w : Way s op t os) (h : Stuck s) : Stuck t := by
  obtain ⟨a1, a2, a3, a4, a5, a6⟩ := h
  cases w with
  | flow hf q2 q3 q4 =>
    rename_i op ss es rd li ps lt
    cases op with
    | trim i now =>
      cases hf
      refine ⟨a1, a2, a3, a4, a5, fun j hj => ?_⟩
      show SS.isMaybeReady ((s.ss.setFlow i _).flow j) = false
      by_cases e : j = i
      · subst e
        rw [SS.setFlow_same]
        have := a6 j hj
        rw [SS.isMaybeReady, Bool.and_eq_false_iff] at this ⊢
        rcases this with q | q
        · left
          have : (s.ss.flow j).queue = [] := by simpa using q
          show (!(SS.trimLoop now s.ss.receipts (s.ss.flow j).queue).2.1.isEmpty) = false
          rw [this]; rfl
        · right; exact q
      · rw [SS.setFlow_other _ _ e]; exact a6 j hj
    | _ => cases hA
  | writable w =>
    rename_i x pri packet gone kk kk'
    have ho := offer_stuck pri s.now gone (s.ready pri) s.ss packet [] fun i hi => by
      rcases k.core.member i pri hi with q | ⟨_, q⟩
      · exact a6 i ((k.traced.books.bound i).mpr q)
      · rw [SS.isMaybeReady, q]; rfl
    cases w with
    | nothing => exact ⟨by rw [ho.1]; exact a1, a2, a3, a4, by rw [ho.1]; exact a5, by rw [ho.1]; exact a6⟩
    | data _ _ _ q => rw [ho.2] at q; cases q
    | _ => exact ⟨a1, a2, a3, a4, a5, a6⟩
  | opened => cases hA
  | header => cases hA
  | headerSample => cases hA
  | ack => cases hA
  | exception => cases hA
  | ping => cases hA
  | pingReply => cases hA
  | data => cases hA
  | probe => cases hA
  | after => cases hA
  | afterAcks => cases hA
  | setPeriod => cases hA
  | close => cases hA
  | early q => exact absurd a3 q
  | late q => exact absurd a3 q
  | quiet q => exact absurd a3 q
  | gaveUp q => exact absurd a3 q
  | lost q => exact absurd a3 q
  | again q => exact absurd a3 q
  | keepaliveClosed q => exact absurd a4 q
  | keepaliveEarly q => exact absurd a4 q
  | keepalive q => exact absurd a4 q
  | idle _ _ _ q => exact absurd q a5
  | recvAck => cases hA
  | _ => exact ⟨a1, a2, a3, a4, a5, a6⟩

theorem stuck_steps {responder : Bool} {dest : Nat} {ops ops' : List Op} {s t : Sess} {out out' : List SOut} (h : Run responder dest ops s out) (hs : Stuck s)
    (k : Steps Alone ops s ops' t out') : Stuck t := by
  induction k with
  | nil => exact hs
  | snoc q hA ha hs ih => exact stuck_way (run_inv (q.run h)) ha hA (step_way hs) ih

/-! ## all the time -/

theorem limit_run {responder : Bool} {dest : Nat} {ops : List Op} {s : Sess} {out : List SOut} (h : Run responder dest ops s out) : 0 ≤ s.limit := by
  have hm : ∀ d : Int, 0 ≤ max d MIN_PERIOD := fun d => by have : (0 : Int) ≤ MIN_PERIOD := by decide
                                                           omega
  induction h with
  | nil => exact Int.le_refl _
  | snoc r ha hs ih =>
    have w := step_way hs
    cases w with
    | opened => exact hm _
    | setLimit => exact hm _
    | writable w => cases w <;> exact ih
    | _ => exact ih

theorem Steps.sub {A : Sess → Op → Prop} {ops ops' : List Op} {s t : Sess} {out' : List SOut} (k : Steps A ops s ops' t out') : ∀ x ∈ ops, x ∈ ops' := by
  induction k with
  | nil => exact fun _ h => h
  | snoc _ _ _ _ ih => exact fun x h => List.mem_append_left _ (ih x h)

theorem silent_steps {responder : Bool} {dest : Nat} {ops ops' : List Op} {s t : Sess} {out out' : List SOut} (h : Run responder dest ops s out) (so : s.ss.isOpen = true) {E limit mrto B R : Int}
    (hr : R = max MAX_ERTO mrto) (hB : E + R ≤ B) (hB' : E + limit + R ≤ B) (hs : Silent E limit mrto B R 0 s) (k : Steps Silence ops s ops' t out') (ho : t.ss.isOpen = true) :
    Silent E limit mrto B R (packets out') t := by
  have hop : ∃ a b c, Op.opened a b c ∈ ops := by
    apply Classical.byContradiction
    intro hn
    have := (fresh_run h fun a b c q => hn ⟨a, b, c, q⟩).isOpen
    rw [so] at this; cases this
  induction k with
  | nil => exact hs
  | snoc q hA ha hst ih =>
    rename_i ops2 u out2 op v os
    have r := q.run h
    have hu : u.ss.isOpen = true := by
      rcases way_open (run_inv r) ha (step_way hst) with ⟨e, _⟩ | ⟨e, _⟩ | ⟨a, b, c, rfl⟩
      · rw [← e]; exact ho
      · rw [ho] at e; cases e
      · obtain ⟨a', b', c', hm⟩ := hop
        exact absurd (q.sub _ hm) (ha.2.2 a' b' c')
    rw [packets_append]
    exact silent_way (run_inv r) (deadline_run r) hr hB hB' ha hA hst hu ho (ih hu)

end Sess
end Rtmfp
