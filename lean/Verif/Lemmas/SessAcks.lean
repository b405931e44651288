import Verif.Lemmas.SessDead

/-! # Acknowledgements that are due -/

namespace Rtmfp
namespace Sess

/-- acknowledgements are sent at once, or by `D` -/
structure Pend (D : Int) (s : Sess) : Prop where
  line : s.ackNow = true → ∃ x, s.listed x PRI_IMMEDIATE = true
  later : s.ackNow = false → s.ackFlows ≠ [] → s.delack ≠ none
  due : ∀ f, s.delack = some f → f ≤ D

theorem ackAtOnce_acks {s : Sess} (ho : s.ss.isOpen = true) : (ackAtOnce s).ackNow = true ∧ (ackAtOnce s).ackFlows = s.ackFlows ∧ (ackAtOnce s).ss = s.ss ∧ (ackAtOnce s).now = s.now ∧
    (ackAtOnce s).rxData = s.rxData ∧ (ackAtOnce s).seenData = s.seenData ∧ (ackAtOnce s).delack = none ∧
    ((s.ackNow = true → ∃ x, s.listed x PRI_IMMEDIATE = true) → ∃ x, (ackAtOnce s).listed x PRI_IMMEDIATE = true) := by
  rw [ackAtOnce, if_pos ho]
  dsimp only
  split
  · rename_i h; exact ⟨h, rfl, rfl, rfl, rfl, rfl, rfl, fun q => q h⟩
  · refine ⟨rfl, rfl, rfl, rfl, rfl, rfl, rfl, fun _ => ⟨s.dest, ?_⟩⟩
    show (if s.dest = s.dest ∧ PRI_IMMEDIATE = PRI_IMMEDIATE then true else _) = true
    rw [if_pos ⟨rfl, rfl⟩]

theorem ackAtOnce_pend {D : Int} {s : Sess} (ho : s.ss.isOpen = true) (h : Pend D s) : Pend D (ackAtOnce s) := by
  obtain ⟨a, _, _, _, _, _, c, b⟩ := ackAtOnce_acks ho
  exact ⟨(fun _ => b h.line), (fun q => by rw [a] at q; cases q), (fun f q => by rw [c] at q; cases q)⟩

theorem scheduleAck_pend {D : Int} {s : Sess} (ho : s.ss.isOpen = true) (h : Pend D s) (hD : s.ackFlows ≠ [] ∨ s.now + DELACK ≤ D) (r : Nat) :
    Pend D (scheduleAck s r) ∧ (scheduleAck s r).ackFlows = s.ackFlows ++ [r] ∧ (scheduleAck s r).ackNow = s.ackNow ∧ (scheduleAck s r).rxData = s.rxData ∧ (scheduleAck s r).seenData = s.seenData := by
  rw [scheduleAck, if_pos ho]
  dsimp only
  split
  · rename_i hq
    refine ⟨⟨(fun q => by rw [show s.ackNow = true from q] at hq; cases hq.1), (fun _ _ => by simp), fun f hf => ?_⟩, rfl, rfl, rfl, rfl⟩
    have hf : s.now + DELACK = f := by injection hf
    rcases hD with hD | hD
    · exact absurd hq.2 (h.later hq.1 hD)
    · omega
  · rename_i hq
    refine ⟨⟨h.line, fun q _ => ?_, h.due⟩, rfl, rfl, rfl, rfl⟩
    exact fun e => hq ⟨q, e⟩

theorem recvAck_pend {D : Int} {s : Sess} (ho : s.ss.isOpen = true) (h : Pend D s) (hD : s.ackFlows ≠ [] ∨ s.now + DELACK ≤ D) (r : Nat) (u : Bool) :
    Pend D (recvAck s r u) ∧ r ∈ (recvAck s r u).ackFlows ∧ (∀ x ∈ s.ackFlows, x ∈ (recvAck s r u).ackFlows) ∧ (s.ackNow = true ∨ u = true → (recvAck s r u).ackNow = true) ∧
    (recvAck s r u).rxData = s.rxData ∧ (recvAck s r u).seenData = s.seenData := by
  rw [recvAck]
  generalize hs : (if u = true then ackAtOnce s else s) = s1
  have e : Pend D s1 ∧ s1.ss = s.ss ∧ s1.ackFlows = s.ackFlows ∧ s1.now = s.now ∧ (s.ackNow = true ∨ u = true → s1.ackNow = true) ∧ s1.rxData = s.rxData ∧ s1.seenData = s.seenData := by
    rw [← hs]
    cases u with
    | false => exact ⟨h, rfl, rfl, rfl, (fun q => by simpa using q), rfl, rfl⟩
    | true =>
      obtain ⟨a, b, c, d, e, f, _⟩ := ackAtOnce_acks ho
      exact ⟨ackAtOnce_pend ho h, c, b, d, fun _ => a, e, f⟩
  obtain ⟨e1, e2, e3, e4, e5, e6, e7⟩ := e
  split
  · rename_i hr
    exact ⟨e1, hr, (fun x hx => by rw [e3]; exact hx), e5, e6, e7⟩
  · obtain ⟨a, b, c, d, e⟩ := scheduleAck_pend (s := s1) (by rw [e2]; exact ho) e1 (by rw [e3, e4]; exact hD) r
    refine ⟨a, by rw [b]; simp, (fun x hx => by rw [b, e3]; exact List.mem_append_left _ hx), fun q => by rw [c]; exact e5 q, by rw [d, e6], by rw [e, e7]⟩

theorem putAcks_acks (s : Sess) (k : Nat) : (putAcks s k).ackFlows = s.ackFlows.drop k ∧ (putAcks s k).listed = s.listed ∧ (putAcks s k).ss = s.ss ∧ (putAcks s k).now = s.now ∧
    (putAcks s k).seenData = s.seenData ∧
    ((s.ackFlows.drop k = [] ∧ (putAcks s k).ackNow = false ∧ (putAcks s k).delack = none ∧ (putAcks s k).rxData = 0) ∨
     (s.ackFlows.drop k ≠ [] ∧ (putAcks s k).ackNow = s.ackNow ∧ (putAcks s k).delack = s.delack ∧ (putAcks s k).rxData = s.rxData)) := by
  rw [putAcks]
  dsimp only
  split
  · rename_i h; exact ⟨h ▸ rfl, rfl, rfl, rfl, rfl, Or.inl ⟨h, rfl, rfl, rfl⟩⟩
  · rename_i h; exact ⟨rfl, rfl, rfl, rfl, rfl, Or.inr ⟨h, rfl, rfl, rfl⟩⟩

theorem rescheduleTimeout_acks (s : Sess) : (rescheduleTimeout s).ackFlows = s.ackFlows ∧ (rescheduleTimeout s).ackNow = s.ackNow ∧ (rescheduleTimeout s).delack = s.delack ∧
    (rescheduleTimeout s).rxData = s.rxData ∧ (rescheduleTimeout s).listed = s.listed ∧ (rescheduleTimeout s).seenData = s.seenData := by
  rw [rescheduleTimeout]; split <;> exact ⟨rfl, rfl, rfl, rfl, rfl, rfl⟩

theorem sendData_acks (s : Sess) (pri : Nat) (packet : PA) (gone : Nat → Bool) : (sendData s pri packet gone).1.ackFlows = s.ackFlows ∧ (sendData s pri packet gone).1.ackNow = s.ackNow ∧
    (sendData s pri packet gone).1.delack = s.delack ∧ (sendData s pri packet gone).1.rxData = s.rxData ∧ (sendData s pri packet gone).1.listed = s.listed ∧
    (sendData s pri packet gone).1.seenData = s.seenData := by
  rw [sendData]
  split
  · split
    · dsimp only
      split
      · exact rescheduleTimeout_acks _
      · exact ⟨rfl, rfl, rfl, rfl, rfl, rfl⟩
    · split <;> exact ⟨rfl, rfl, rfl, rfl, rfl, rfl⟩
  · exact ⟨rfl, rfl, rfl, rfl, rfl, rfl⟩

theorem acked_append (a b : List SOut) : acked (a ++ b) = acked a ++ acked b := by simp [acked]

theorem acked_ss (es : List SS.Ev) : acked (es.map SOut.ss) = [] := by
  induction es with
  | nil => rfl
  | cons e es ih => rw [List.map_cons]; show [] ++ acked _ = []; rw [ih]; rfl

/-- what `onInterfaceWritable` does to acknowledgements, at the session's interface -/
theorem writable_acks {s : Sess} {pri : Nat} {packet : PA} {gone : Nat → Bool} {k k' : Nat} (ho : s.ss.isOpen = true) (hk : s.ackNow = true → s.ackFlows ≠ [] → 0 < k)
    {t : Sess} {os : List SOut} (hw : writable s s.dest pri packet gone k k' = (t, os)) :
    s.ackFlows = acked os ++ t.ackFlows ∧ t.seenData = s.seenData ∧
    ((t.ackFlows = [] ∧ t.ackNow = false ∧ t.delack = none) ∨ (t.ackNow = s.ackNow ∧ t.delack = s.delack ∧ t.rxData = s.rxData ∧ (s.ackNow = true → t.listed = s.listed))) ∧
    (s.ackNow = true → s.ackFlows ≠ [] → acked os ≠ []) := by
  have hout : ∀ (es : List SS.Ev) (m : List SOut) (rs : List Nat), acked m = [] → acked (List.map SOut.ss es ++ m ++ [.acks rs]) = rs := by
    intro es m rs hm
    rw [acked_append, acked_append, acked_ss, hm]
    simp [acked]
  rw [writable, if_neg (by simp), if_neg (by rw [ho]; simp)] at hw
  dsimp only at hw
  cases ha : s.ackNow with
  | false =>
    simp only [ha, Bool.false_eq_true, if_false, ne_eq, not_true_eq_false, true_and] at hw
    obtain ⟨d1, d2, d3, d4, d5, d6⟩ := sendData_acks s pri packet gone
    generalize sendData s pri packet gone = d at *
    split at hw
    · obtain ⟨rfl, rfl⟩ := Prod.mk.inj hw
      rw [acked_ss]
      exact ⟨d1.symm, d6, Or.inr ⟨d2.trans ha, d3, d4, fun q => by cases q⟩, fun q => by cases q⟩
    · obtain ⟨rfl, rfl⟩ := Prod.mk.inj hw
      obtain ⟨p1, p2, p3, p4, p5, p6⟩ := putAcks_acks d.1 k'
      rw [hout _ _ _ (by split <;> rfl)]
      refine ⟨?_, ?_, ?_, fun q => by cases q⟩
      · show _ = _ ++ (putAcks d.1 k').ackFlows; rw [p1, d1, List.nil_append, List.take_append_drop]
      · exact p5.trans d6
      · rcases p6 with ⟨q1, q2, q3, _⟩ | ⟨q1, q2, q3, q4⟩
        · exact Or.inl ⟨p1.trans q1, q2, q3⟩
        · exact Or.inr ⟨q2.trans (d2.trans ha), q3.trans d3, q4.trans d4, fun q => by cases q⟩
  | true =>
    simp only [ha, if_true] at hw
    obtain ⟨p1, p2, p3, p4, p5, p6⟩ := putAcks_acks s k
    generalize hs1 : putAcks s k = s1 at *
    by_cases hf : s.ackFlows.take k = []
    · simp only [hf, ne_eq, not_true_eq_false, if_false, true_and] at hw
      obtain ⟨d1, d2, d3, d4, d5, d6⟩ := sendData_acks s1 pri packet gone
      generalize sendData s1 pri packet gone = d at *
      have hnil : s.ackFlows = [] := by
        apply Classical.byContradiction
        intro q
        rw [List.take_eq_nil_iff] at hf
        have := hk ha q
        rcases hf with hf | hf
        · omega
        · exact q hf
      rw [hnil, List.drop_nil] at p1 p6
      rcases p6 with ⟨_, q2, q3, _⟩ | ⟨q, _⟩
      · split at hw
        · obtain ⟨rfl, rfl⟩ := Prod.mk.inj hw
          rw [acked_ss]
          exact ⟨by rw [hnil]; exact (d1.trans p1).symm, d6.trans p5, Or.inl ⟨d1.trans p1, d2.trans q2, d3.trans q3⟩, fun _ q => absurd hnil q⟩
        · obtain ⟨rfl, rfl⟩ := Prod.mk.inj hw
          obtain ⟨r1, r2, r3, r4, r5, r6⟩ := putAcks_acks d.1 k'
          rw [hout _ _ _ (by split <;> rfl)]
          rw [d1, p1, List.drop_nil] at r1 r6
          rcases r6 with ⟨_, w2, w3, _⟩ | ⟨q, _⟩
          · exact ⟨by rw [hnil, d1, p1]; show _ = _ ++ (putAcks d.1 k').ackFlows; rw [r1]; simp, r5.trans (d6.trans p5), Or.inl ⟨r1, w2, w3⟩, fun _ q => absurd hnil q⟩
          · exact absurd rfl q
      · exact absurd rfl q
    · rw [if_pos hf, if_neg (by intro q; exact hf q.1)] at hw
      obtain ⟨rfl, rfl⟩ := Prod.mk.inj hw
      obtain ⟨r1, r2, r3, r4, r5, r6⟩ := putAcks_acks s1 k'
      rw [hout [] _ _ rfl]
      refine ⟨?_, r5.trans p5, ?_, fun _ _ q => hf (List.append_eq_nil_iff.mp q).1⟩
      · show _ = _ ++ (putAcks s1 k').ackFlows
        rw [r1, p1, List.append_assoc, List.take_append_drop, List.take_append_drop]
      · rcases r6 with ⟨q1, q2, q3, _⟩ | ⟨q1, q2, q3, q4⟩
        · exact Or.inl ⟨r1.trans q1, q2, q3⟩
        · rcases p6 with ⟨w1, _⟩ | ⟨w1, w2, w3, w4⟩
          · rw [p1, w1, List.drop_nil] at q1; exact absurd rfl q1
          · exact Or.inr ⟨q2.trans (w2.trans ha), q3.trans w3, q4.trans w4, fun _ => r2.trans p2⟩

/-- what anything does to acknowledgements that are due -/
structure Due (D : Int) (s : Sess) (op : Op) (t : Sess) (os : List SOut) : Prop where
  pend : Pend D t
  kept : ∀ r ∈ s.ackFlows, r ∈ acked os ∨ r ∈ t.ackFlows
  now : t.ackFlows ≠ [] → s.ackNow = true → t.ackNow = true
  rx : t.ackFlows ≠ [] → s.rxData ≤ t.rxData
  seen : (∀ x, op ≠ .header x) → s.seenData = true → t.seenData = true
  data : ∀ r u, op = .chunk (.data r u) → t.seenData = true ∧ r ∈ t.ackFlows ∧ (u = true → t.ackNow = true)
  after : ∀ c w, op = .after c w → s.seenData = true → s.rxData < t.rxData ∧ (2 ≤ t.rxData → t.ackNow = true)

theorem afterAcks_acks (s : Sess) (c : Bool) (w : Nat) : (after s c w).ackFlows = (afterData s).ackFlows ∧ (after s c w).ackNow = (afterData s).ackNow ∧ (after s c w).delack = (afterData s).delack ∧
    (after s c w).rxData = (afterData s).rxData ∧ (after s c w).seenData = (afterData s).seenData ∧ (∀ x p, (afterData s).listed x p = true → (after s c w).listed x p = true) := by
  show (afterAcks (afterData s) c w).ackFlows = _ ∧ (afterAcks (afterData s) c w).ackNow = _ ∧ (afterAcks (afterData s) c w).delack = _ ∧ (afterAcks (afterData s) c w).rxData = _ ∧
    (afterAcks (afterData s) c w).seenData = _ ∧ (∀ x p, _ → (afterAcks (afterData s) c w).listed x p = true)
  rcases afterAcks_form (afterData s) c w with ⟨_, e⟩ | ⟨_, rd, li, bu, f, e, had, _⟩
  · rw [e]; exact ⟨rfl, rfl, rfl, rfl, rfl, fun _ _ q => q⟩
  · rw [e]; exact ⟨rfl, rfl, rfl, rfl, rfl, fun x p => had.listed x p⟩

theorem after_due {D : Int} {s : Sess} (ho : s.ss.isOpen = true) (h : Pend D s) (c : Bool) (w : Nat) : Due D s (.after c w) (after s c w) [] := by
  have hd : Pend D (afterData s) ∧ (afterData s).ackFlows = s.ackFlows ∧ (s.ackNow = true → (afterData s).ackNow = true) ∧ (afterData s).seenData = s.seenData ∧
      (afterData s).rxData = s.rxData + (if s.seenData = true then 1 else 0) ∧ (2 ≤ (afterData s).rxData → (afterData s).ackNow = true) := by
    rw [afterData]
    generalize hs : (if s.seenData = true then Sess.mk s.ss s.now s.dest s.ready s.listed s.mid s.anyAcks s.seenData s.cwnd s.burst s.srtt s.mrto s.erto s.burstAlarm s.alarm
      s.deadline s.epoch s.limit s.responder s.kaTimer s.kaOut s.lastTx s.period s.idleTimer s.idleLimit s.lastIdle s.recvFlows s.persist s.ackFlows s.ackNow s.delack (s.rxData + 1) else s) = s1
    have e : Pend D s1 ∧ s1.ackFlows = s.ackFlows ∧ s1.ackNow = s.ackNow ∧ s1.seenData = s.seenData ∧ s1.ss = s.ss ∧ s1.rxData = s.rxData + (if s.seenData = true then 1 else 0) := by
      rw [← hs]
      split
      · exact ⟨⟨h.line, h.later, h.due⟩, rfl, rfl, rfl, rfl, rfl⟩
      · exact ⟨h, rfl, rfl, rfl, rfl, rfl⟩
    obtain ⟨e1, e2, e3, e4, e5, e6⟩ := e
    split
    · have so : s1.ss.isOpen = true := by rw [e5]; exact ho
      obtain ⟨a1, a2, a3, a4, a5, a6, _⟩ := ackAtOnce_acks so
      exact ⟨ackAtOnce_pend so e1, a2.trans e2, fun _ => a1, a6.trans e4, a5.trans e6, fun _ => a1⟩
    · rename_i hn
      exact ⟨e1, e2, fun q => e3.trans q, e4, e6, fun q => absurd q hn⟩
  obtain ⟨d1, d2, d3, d4, d5, d6⟩ := hd
  obtain ⟨a1, a2, a3, a4, a5, a6⟩ := afterAcks_acks s c w
  refine ⟨⟨fun q => ?_, by rw [a1, a2, a3]; exact d1.later, by rw [a3]; exact d1.due⟩, (fun r hr => Or.inr (by rw [a1, d2]; exact hr)), (fun _ q => by rw [a2]; exact d3 q), (fun _ => by rw [a4, d5]; omega),
    (fun _ q => by rw [a5, d4]; exact q), (fun _ _ q => by cases q), fun c w _ q => ⟨by rw [a4, d5, if_pos q]; omega, fun q => by rw [a2]; rw [a4] at q; exact d6 q⟩⟩
  obtain ⟨x, hx⟩ := d1.line (by rw [← a2]; exact q)
  exact ⟨x, a6 x _ hx⟩

theorem recvAck_due {D : Int} {s : Sess} (ho : s.ss.isOpen = true) (h : Pend D s) (hD : s.ackFlows ≠ [] ∨ s.now + DELACK ≤ D) (r : Nat) (u : Bool) (op : Op) (h1 : ∀ c w, op ≠ .after c w)
    (h2 : ∀ r u, op ≠ .chunk (.data r u)) : Due D s op (recvAck s r u) [] := by
  obtain ⟨a1, a2, a3, a4, a5, a6⟩ := recvAck_pend ho h hD r u
  exact ⟨a1, fun x hx => Or.inr (a3 x hx), fun _ q => a4 (Or.inl q), fun _ => by rw [a5]; exact Nat.le_refl _, fun _ q => by rw [a6]; exact q, fun r u q => absurd q (h2 r u), fun c w q => absurd q (h1 c w)⟩

theorem due_step {D : Int} {ops : List Op} {s t : Sess} {op : Op} {os : List SOut} (k : Inv (used ops) s) (ha : Allowed ops s op) (hs : step s op = some (t, os)) (so : s.ss.isOpen = true)
    (to : t.ss.isOpen = true) (h : Pend D s) (hD : s.ackFlows ≠ [] ∨ s.now + DELACK ≤ D) : Due D s op t os := by
  have hb := k.traced.books
  have keep : t.ackFlows = s.ackFlows → t.ackNow = s.ackNow → t.delack = s.delack → t.rxData = s.rxData → (t.seenData = s.seenData ∨ ∃ x, op = .header x) →
      (∀ x, s.listed x PRI_IMMEDIATE = true → t.listed x PRI_IMMEDIATE = true) → (∀ r u, op ≠ .chunk (.data r u)) → (∀ c w, op ≠ .after c w) → Due D s op t os := by
    intro e1 e2 e3 e4 e5 e6 e7 e8
    refine ⟨⟨fun q => ?_, by rw [e1, e2, e3]; exact h.later, by rw [e3]; exact h.due⟩, (fun r hr => Or.inr (by rw [e1]; exact hr)), (fun _ q => by rw [e2]; exact q), (fun _ => by rw [e4]; exact Nat.le_refl _),
      fun q1 q2 => ?_, (fun r u q => absurd q (e7 r u)), (fun c w q => absurd q (e8 c w))⟩
    · obtain ⟨x, hx⟩ := h.line (by rw [← e2]; exact q)
      exact ⟨x, e6 x hx⟩
    · rcases e5 with e | ⟨x, e⟩
      · rw [e]; exact q2
      · exact absurd e (q1 x)
  have w := step_way hs
  cases w with
  | opened => have := ha.1; rw [so] at this; cases this
  | flow _ had _ _ => exact keep rfl rfl rfl rfl (Or.inl rfl) (fun x => had.listed x _) (fun _ _ => Op.noConfusion) (fun _ _ => Op.noConfusion)
  | writable w =>
    rename_i x pri packet gone kk kk'
    obtain ⟨b1, b2, b3, b4, b5, b6⟩ := ha
    have hw : writable s x pri packet gone kk kk' = (t, os) := by injection hs
    by_cases hx : x = s.dest
    · subst hx
      obtain ⟨c1, c2, c3, _⟩ := writable_acks so b6 hw
      refine ⟨?_, (fun r hr => by rw [c1] at hr; exact List.mem_append.mp hr), ?_, ?_, fun _ q => by rw [c2]; exact q, (fun _ _ q => by cases q), fun _ _ q => by cases q⟩
      · rcases c3 with ⟨q1, q2, q3⟩ | ⟨q1, q2, q3, q4⟩
        · exact ⟨(fun q => by rw [q2] at q; cases q), (fun _ q => absurd q1 q), fun f q => by rw [q3] at q; cases q⟩
        · refine ⟨fun q => ?_, fun q z => ?_, by rw [q2]; exact h.due⟩
          · rw [q1] at q; rw [q4 q]; exact h.line q
          · rw [q2]; exact h.later (by rw [← q1]; exact q) fun e => by rw [e] at c1; exact z (List.append_eq_nil_iff.mp c1.symm).2
      · intro z q
        rcases c3 with ⟨q1, _⟩ | ⟨q1, _⟩
        · exact absurd q1 z
        · rw [q1]; exact q
      · intro z
        rcases c3 with ⟨q1, _⟩ | ⟨_, _, q1, _⟩
        · exact absurd q1 z
        · rw [q1]; exact Nat.le_refl _
    · rw [writable, if_pos hx] at hw
      obtain ⟨rfl, rfl⟩ := Prod.mk.inj hw
      refine ⟨⟨fun q => ?_, h.later, h.due⟩, fun _ q => Or.inr q, fun _ q => q, fun _ => Nat.le_refl _, fun _ q => q, (fun _ _ q => by cases q), fun _ _ q => by cases q⟩
      obtain ⟨y, hy⟩ := h.line q
      by_cases hp : PRI_IMMEDIATE = pri
      · refine ⟨s.dest, ?_⟩
        show (if s.dest = x ∧ PRI_IMMEDIATE = pri then false else if s.dest = s.dest ∧ PRI_IMMEDIATE = pri then true else _) = true
        rw [if_neg (fun e => hx e.1.symm), if_pos ⟨rfl, hp⟩]
      · refine ⟨y, ?_⟩
        show (if y = x ∧ PRI_IMMEDIATE = pri then false else if y = s.dest ∧ PRI_IMMEDIATE = pri then true else s.listed y PRI_IMMEDIATE) = true
        rw [if_neg (fun e => hp e.2), if_neg (fun e => hp e.2)]; exact hy
  | header => exact keep rfl rfl rfl rfl (Or.inr ⟨_, rfl⟩) (fun _ q => q) (fun _ _ => Op.noConfusion) (fun _ _ => Op.noConfusion)
  | headerSample => exact keep rfl rfl rfl rfl (Or.inr ⟨_, rfl⟩) (fun _ q => q) (fun _ _ => Op.noConfusion) (fun _ _ => Op.noConfusion)
  | ack had => exact keep rfl rfl rfl rfl (Or.inl rfl) (fun x => had.listed x _) (fun _ _ q => by injection q with q; cases q) (fun _ _ => Op.noConfusion)
  | exception had => exact keep rfl rfl rfl rfl (Or.inl rfl) (fun x => had.listed x _) (fun _ _ q => by injection q with q; cases q) (fun _ _ => Op.noConfusion)
  | ping => exact keep rfl rfl rfl rfl (Or.inl rfl) (fun _ q => q) (fun _ _ q => by injection q with q; cases q) (fun _ _ => Op.noConfusion)
  | pingReply => exact keep rfl rfl rfl rfl (Or.inl rfl) (fun _ q => q) (fun _ _ q => by injection q with q; cases q) (fun _ _ => Op.noConfusion)
  | data =>
    rename_i r u li af an dl had
    obtain ⟨e, _⟩ : recvAck { s with seenData := true } r u = _ ∧ _ := by injection hs with hs; exact Prod.mk.inj hs
    rw [← e]
    obtain ⟨a1, a2, a3, a4, a5, a6⟩ := recvAck_pend (s := { s with seenData := true }) so ⟨h.line, h.later, h.due⟩ hD r u
    exact ⟨a1, fun x hx => Or.inr (a3 x hx), fun _ q => a4 (Or.inl q), (fun _ => by rw [a5]; exact Nat.le_refl _), (fun _ q => by rw [a6]), (fun r' u' q => by cases q; exact ⟨by rw [a6], a2, fun q => a4 (Or.inr q)⟩),
      fun c w q => by cases q⟩
  | probe =>
    rename_i r li af an dl had
    obtain ⟨e, _⟩ : recvAck s r true = _ ∧ _ := by injection hs with hs; exact Prod.mk.inj hs
    rw [← e]
    exact recvAck_due so h hD r true _ (fun _ _ => Op.noConfusion) (fun _ _ q => by injection q with q; cases q)
  | after z1 z2 =>
    rename_i c w li an dl rx
    obtain ⟨e, _⟩ : after s c w = _ ∧ _ := by injection hs with hs; exact Prod.mk.inj hs
    rw [← e]
    exact after_due so h c w
  | afterAcks z1 z2 z3 z4 =>
    rename_i c w rd li an dl rx bu f
    obtain ⟨e, _⟩ : after s c w = _ ∧ _ := by injection hs with hs; exact Prod.mk.inj hs
    rw [← e]
    exact after_due so h c w
  | recvAck =>
    rename_i r u li af an dl had
    obtain ⟨e, _⟩ : recvAck s r u = _ ∧ _ := by injection hs with hs; exact Prod.mk.inj hs
    rw [← e]
    exact recvAck_due so h hD r u _ (fun _ _ => Op.noConfusion) (fun _ _ => Op.noConfusion)
  | delack =>
    rename_i li an dl _ had
    rw [step] at hs
    cases hd : s.delack with
    | none => rw [hd] at hs; cases hs
    | some f =>
      rw [hd] at hs
      obtain ⟨e, _⟩ : ackAtOnce s = _ ∧ _ := by injection hs with hs; exact Prod.mk.inj hs
      rw [← e]
      obtain ⟨a1, a2, a3, a4, a5, a6, _⟩ := ackAtOnce_acks so
      exact ⟨ackAtOnce_pend so h, fun x hx => Or.inr (by rw [a2]; exact hx), fun _ _ => a1, (fun _ => by rw [a5]; exact Nat.le_refl _), (fun _ q => by rw [a6]; exact q), (fun _ _ q => by cases q), fun _ _ q => by cases q⟩
  | moved had _ => exact keep rfl rfl rfl rfl (Or.inl rfl) (fun x => had.listed x _) (fun _ _ => Op.noConfusion) (fun _ _ => Op.noConfusion)
  | gaveUp => rw [closeSession_open (s := { s with alarm := none, burst := MAX_BURST }) hb] at to; cases to
  | lost _ _ _ _ _ _ had _ => exact keep rfl rfl rfl rfl (Or.inl rfl) (fun x => had.listed x _) (fun _ _ => Op.noConfusion) (fun _ _ => Op.noConfusion)
  | again _ _ _ _ _ _ had _ => exact keep rfl rfl rfl rfl (Or.inl rfl) (fun x => had.listed x _) (fun _ _ => Op.noConfusion) (fun _ _ => Op.noConfusion)
  | burst _ had _ _ => exact keep rfl rfl rfl rfl (Or.inl rfl) (fun x => had.listed x _) (fun _ _ => Op.noConfusion) (fun _ _ => Op.noConfusion)
  | idle => rw [closeSession_open hb] at to; cases to
  | close => rw [closeSession_open hb] at to; cases to
  | _ => exact keep rfl rfl rfl rfl (Or.inl rfl) (fun _ q => q) (fun _ _ => Op.noConfusion) (fun _ _ => Op.noConfusion)

theorem Pend.mono {D D' : Int} {s : Sess} (h : Pend D s) (hD : D ≤ D') : Pend D' s := ⟨h.line, h.later, fun f hf => Int.le_trans (h.due f hf) hD⟩

theorem pend_run {responder : Bool} {dest : Nat} {ops : List Op} {s : Sess} {out : List SOut} (h : Run responder dest ops s out) (ho : s.ss.isOpen = true) : Pend (s.now + DELACK) s := by
  induction h with
  | nil => cases ho
  | snoc r ha hs ih =>
    rename_i ops s out op t os
    have w := step_way hs
    have k := run_inv r
    have opens : ∀ a b c, op = .opened a b c → Pend (t.now + DELACK) t := by
      rintro a b c rfl
      have fr := fresh_run r ha.2.2
      cases w
      exact ⟨(fun q => by have := fr.ackNow.symm.trans q; cases this), (fun _ q => absurd fr.acks q), fun f q => by have := fr.delack.symm.trans q; cases this⟩
    rcases way_open k ha w with ⟨e, _⟩ | ⟨e, _⟩ | ⟨a, b, c, e⟩
    · have so : s.ss.isOpen = true := by rw [← e]; exact ho
      have ht := (way_time ha w).1
      exact (due_step k ha hs so ho (ih so) (Or.inr (Int.le_refl _))).pend.mono (by omega)
    · rw [ho] at e; cases e
    · exact opens a b c e

/-- while flow `r` is to be acknowledged: since it was told, `seg` happened -/
structure Owed (D : Int) (r : Nat) (u : Bool) (seg : List Op) (t : Sess) : Prop where
  pend : Pend D t
  mem : r ∈ t.ackFlows
  now : u = true → t.ackNow = true
  seen : (seg.foldl countData (true, 0)).1 = true → t.seenData = true
  rx : (seg.foldl countData (true, 0)).2 ≤ t.rxData
  second : 2 ≤ (seg.foldl countData (true, 0)).2 → t.ackNow = true

theorem owed_next {responder : Bool} {dest : Nat} {ops ops' : List Op} {s s1 t : Sess} {out out' o : List SOut} {r : Nat} {u : Bool} (h : Run responder dest ops s out)
    (ha : Allowed ops s (.chunk (.data r u))) (hs : step s (.chunk (.data r u)) = some (s1, o)) (k : Next (fun u => u.ss.isOpen = true) (ops ++ [.chunk (.data r u)]) s1 ops' t out') :
    ∃ seg, ops' = ops ++ [.chunk (.data r u)] ++ seg ∧ (r ∉ acked out' → Owed (s.now + DELACK) r u seg t) := by
  have h1 := Run.snoc h ha hs
  induction k with
  | nil hp =>
    refine ⟨[], (List.append_nil _).symm, fun _ => ?_⟩
    have d := due_step (run_inv h) ha hs ha.2.1 hp (pend_run h ha.2.1) (Or.inr (Int.le_refl _))
    obtain ⟨e1, e2, e3⟩ := d.data r u rfl
    exact ⟨d.pend, e2, e3, fun _ => e1, Nat.zero_le _, fun q => by cases q⟩
  | snoc q ha' hst hp ih =>
    rename_i ops2 x out2 op y os
    obtain ⟨r2, hpx⟩ := q.run h1
    obtain ⟨seg, e, hseg⟩ := ih
    refine ⟨seg ++ [op], by rw [e, List.append_assoc], fun hr => ?_⟩
    rw [acked_append, List.mem_append, not_or] at hr
    obtain ⟨o1, o2, o3, o4, o5, o6⟩ := hseg hr.1
    have hne : x.ackFlows ≠ [] := fun e => by rw [e] at o2; cases o2
    have d := due_step (run_inv r2) ha' hst hpx hp o1 (Or.inl hne)
    have m : r ∈ y.ackFlows := (d.kept r o2).resolve_left hr.2
    have hny : y.ackFlows ≠ [] := fun e => by rw [e] at m; cases m
    have key : ∀ c : Bool × Nat, (c.1 = true → x.seenData = true) → c.2 ≤ x.rxData → (2 ≤ c.2 → x.ackNow = true) →
        ((countData c op).1 = true → y.seenData = true) ∧ (countData c op).2 ≤ y.rxData ∧ (2 ≤ (countData c op).2 → y.ackNow = true) := by
      intro c c1 c2 c3
      have same : (∀ z, op ≠ .header z) → (c.1 = true → y.seenData = true) ∧ c.2 ≤ y.rxData ∧ (2 ≤ c.2 → y.ackNow = true) :=
        fun z => ⟨fun q => d.seen z (c1 q), Nat.le_trans c2 (d.rx hny), fun q => d.now hny (c3 q)⟩
      cases op with
      | header z => exact ⟨(fun q => by cases q), Nat.le_trans c2 (d.rx hny), fun q => d.now hny (c3 q)⟩
      | chunk ch =>
        cases ch with
        | data r' u' => exact ⟨fun _ => (d.data r' u' rfl).1, Nat.le_trans c2 (d.rx hny), fun q => d.now hny (c3 q)⟩
        | _ => exact same fun _ => Op.noConfusion
      | after z w =>
        obtain ⟨b, n⟩ := c
        cases b with
        | false => exact ⟨(fun q => by cases q), Nat.le_trans c2 (d.rx hny), fun q => d.now hny (c3 q)⟩
        | true =>
          obtain ⟨f1, f2⟩ := d.after z w rfl (c1 rfl)
          have c2 : n ≤ x.rxData := c2
          refine ⟨(fun q => by cases q), ?_, fun q => f2 ?_⟩
          · show n + 1 ≤ _; omega
          · have : 2 ≤ n + 1 := q
            omega
      | _ => exact same fun _ => Op.noConfusion
    have := key _ o4 o5 o6
    exact ⟨d.pend, m, fun z => d.now hny (o3 z), by rw [List.foldl_append]; exact this.1, by rw [List.foldl_append]; exact this.2.1, by rw [List.foldl_append]; exact this.2.2⟩

end Sess
end Rtmfp
