import Verif.Lemmas.SessFew
import Verif.Lemmas.SessDemo

/-! # C80: when the other end falls silent -/

namespace Rtmfp
open Sess

instance (op : Op) : Decidable (Answered op) := by unfold Answered; split <;> infer_instance

/-- C80: not before. A session ends because the other end is silent only if something sent is unanswered (data, or a keepalive), and the other end last answered, or the session was
opened, the retransmission limit ago or longer. -/
theorem C80_not_before {responder : Bool} {dest : Nat} {ops ops' : List Op} {u u' s t : Sess} {out out' o os : List SOut} {op' op : Op} (h : Run responder dest ops u out)
    (hop : Answered op') (hau : Allowed ops u op') (hu : step u op' = some (u', o)) (k : Next (fun _ => True) (ops ++ [op']) u' ops' s out')
    (ha : Allowed ops' s op) (hs : step s op = some (t, os)) (hi : SOut.timedOut ∈ os) :
    s.ss.isOpen = true ∧ t.ss.isOpen = false ∧ (s.ss.outs ≠ [] ∨ s.kaOut = true) ∧ u.now + s.limit ≤ s.now := by
  have h' := Run.snoc h hau hu
  obtain ⟨r, _⟩ := k.run h'
  obtain ⟨_, w1, w2, w3, e, w4, w5⟩ := timedOut_way (run_inv r).traced.books (step_way hs) hi
  refine ⟨w1, w2, w3, ?_⟩
  have h0 : u.now ≤ u'.now ∧ ∀ e, u'.epoch = some e → u.now ≤ e := by
    have w := step_way hu
    refine ⟨(way_time hau w).1, ?_⟩
    cases w with
    | opened => intro e q; cases q
    | ack => intro e q; cases q
    | pingReply => intro e q; cases q
    | _ => cases hop
  have hj : u.now ≤ s.now ∧ ∀ e, s.epoch = some e → u.now ≤ e := by
    refine k.inv (J := fun s => u.now ≤ s.now ∧ ∀ e, s.epoch = some e → u.now ≤ e) h' (fun _ => h0) ?_
    intro ops x y op os kx _ hj ha w _
    exact heard_way ha w hj.1 hj.2
  have := hj.2 e w4
  omega

/-- something is unanswered -/
theorem Sess.silent_start {responder : Bool} {dest : Nat} {ops : List Op} {s : Sess} {out : List SOut} (h : Run responder dest ops s out) (so : s.ss.isOpen = true)
    (hm : s.mid = false) (hu : s.ss.outs ≠ [] ∨ s.kaOut = true) (hl : ∀ f, s.alarm = some f → s.now ≤ f) :
    Silent s.deadline s.limit s.mrto (s.deadline + s.limit + max MAX_ERTO s.mrto) (max MAX_ERTO s.mrto) 0 s ∧ s.now ≤ s.deadline := by
  have hd := deadline_run h
  have hal : s.alarm ≠ none := by
    rcases hu with q | q
    · exact (run_inv h).armed q
    · exact hd.ping so q
  have h0 := limit_run h
  have hR : (0 : Int) ≤ max MAX_ERTO s.mrto := by have : (0 : Int) ≤ MAX_ERTO := by decide
                                                  omega
  obtain ⟨f, hf⟩ : ∃ f, s.alarm = some f := by cases e : s.alarm with
    | none => exact absurd e hal
    | some f => exact ⟨f, rfl⟩
  have hnow : s.now ≤ s.deadline := Int.le_trans (hl f hf) (hd.alarm f hf)
  have hmul : 0 ≤ (((0 : Nat) : Int) + pinged s) * max MAX_ERTO s.mrto := Int.mul_nonneg (by rw [pinged]; split <;> simp) hR
  exact ⟨⟨hm, (fun e he => Int.le_trans (hd.epoch e he) hnow), (fun _ => ⟨hnow, fun _ => Int.le_refl _⟩), rfl, rfl, by omega, fun _ => ⟨by omega, hu⟩⟩, hnow⟩

/-- C80: in time. Something is unanswered, nothing arrives, and the timeout alarm isn't late. Then the session ends within the retransmission limit and two timeouts (of ten seconds, or
longer if the round-trip time is) from when the alarm is due now; but a timeout later for each packet with data that is sent when the limit is over (since `u`).
Missing: the session may never end if after a timeout there is nothing it may send (`C80_unnoticed`), which is excluded by `Silence`. -/
theorem C80_in_time_partial {responder : Bool} {dest : Nat} {ops ops1 ops' : List Op} {s u t : Sess} {out out1 out' : List SOut} (h : Run responder dest ops s out) (so : s.ss.isOpen = true)
    (hm : s.mid = false) (hu : s.ss.outs ≠ [] ∨ s.kaOut = true) (hl : ∀ f, s.alarm = some f → s.now ≤ f) (k1 : Steps Silence ops s ops1 u out1) (hn : u.now ≤ s.deadline + s.limit)
    (k : Steps Silence ops1 u ops' t out') (ho : t.ss.isOpen = true) :
    t.now ≤ s.deadline + s.limit + (packets out' + 2) * max MAX_ERTO s.mrto := by
  obtain ⟨sl, hnow⟩ := silent_start h so hm hu hl
  have h0 := limit_run h
  have hR : (0 : Int) ≤ max MAX_ERTO s.mrto := by have : (0 : Int) ≤ MAX_ERTO := by decide
                                                  omega
  have uo := Steps.opens h so k1 k ho
  have su := silent_from h so rfl rfl h0 sl (P := False) (C := max s.cwnd (3 * MSS)) (fun q => q.elim) (by omega) ⟨by omega, by omega, fun q => q.elim⟩ k1 hn uo
  have hp : pinged t ≤ 1 := by rw [pinged]; split <;> simp
  have := (silent_steps (k1.run h) uo rfl (by omega) (by omega) su k ho).now
  have h2 : ((packets out' : Int) + pinged t) * max MAX_ERTO s.mrto ≤ (packets out' + 1) * max MAX_ERTO s.mrto := Int.mul_le_mul_of_nonneg_right (by omega) hR
  have h3 : ((packets out' : Int) + 2) * max MAX_ERTO s.mrto = (packets out' + 1) * max MAX_ERTO s.mrto + max MAX_ERTO s.mrto := by
    rw [show ((packets out' : Int) + 2) = (packets out' + 1) + 1 by omega, Int.add_mul _ 1, Int.one_mul]
  omega

/-- C80: it ends. As before, and less than 2^63 bytes are in the congestion window and in flight. Whatever is sent: each packet after the limit is over fills the congestion window by at least
a byte, and it isn't opened any more, so the bound doesn't depend on what the session does. -/
theorem C80_ends_partial {responder : Bool} {dest : Nat} {ops ops' : List Op} {s t : Sess} {out out' : List SOut} (h : Run responder dest ops s out) (so : s.ss.isOpen = true)
    (hm : s.mid = false) (hu : s.ss.outs ≠ [] ∨ s.kaOut = true) (hl : ∀ f, s.alarm = some f → s.now ≤ f) (hc : s.cwnd ≤ 2 ^ 63) (hb : (s.ss.outs.map (·.size)).sum ≤ 2 ^ 63)
    (k : Steps Silence ops s ops' t out') (ho : t.ss.isOpen = true) :
    t.now ≤ s.deadline + s.limit + (max s.cwnd (3 * MSS) + 2) * max MAX_ERTO s.mrto := by
  obtain ⟨sl, hnow⟩ := silent_start h so hm hu hl
  have h0 := limit_run h
  have hR : (0 : Int) ≤ max MAX_ERTO s.mrto := by have : (0 : Int) ≤ MAX_ERTO := by decide
                                                  omega
  have hM : 3 * MSS ≤ 2 ^ 63 := by decide
  have hmul : ∀ n m : Int, n ≤ m → n * max MAX_ERTO s.mrto ≤ m * max MAX_ERTO s.mrto := fun n m q => Int.mul_le_mul_of_nonneg_right q hR
  by_cases hx : t.now ≤ s.deadline + s.limit
  · have := hmul 0 (max s.cwnd (3 * MSS) + 2 : Int) (by omega)
    omega
  obtain ⟨ops1, u, out1, op, v, o, out2, b1, b2, b3, b4, b5, b6, b7, b8⟩ := k.split (X := s.deadline + s.limit) (by omega) (by omega)
  have kv : Steps Silence ops s (ops1 ++ [op]) v (out1 ++ o) := .snoc b1 b3 b4 b5
  have kt : Steps Silence ops1 u ops' t (o ++ out2) := by simpa using Steps.trans (.snoc .nil b3 b4 b5) b7
  have vo := Steps.opens h so kv b7 ho
  have uo := Steps.opens h so b1 kt ho
  have hw := way_advance (step_way b5) (by omega)
  have cm := calm_steps h so rfl (by omega) (by omega) sl (P := True) (C := max s.cwnd (3 * MSS)) (D := s.deadline) (fun _ => by omega) (by omega)
    ⟨by omega, by omega, fun _ => by show (s.ss.outs.map (·.size)).sum ≤ _; omega⟩ kv vo
  have rv := kv.run h
  have sv := silent_steps h so rfl (by omega) (by omega) sl kv vo
  have su := silent_from h so rfl rfl h0 sl (P := False) (C := max s.cwnd (3 * MSS)) (fun q => q.elim) (by omega) ⟨by omega, by omega, fun q => q.elim⟩ b1 b2 uo
  have sv := silent_steps (b1.run h) uo rfl (by omega) (by omega) su (.snoc .nil b3 b4 b5) vo
  rw [List.nil_append, hw.1] at sv
  have hf := (few_steps (C := v.cwnd) rv vo rfl (by omega) (by omega) h0 sv (by have := cm.cwnd; omega) b6 ⟨rfl, Nat.zero_le _, Nat.zero_le _, cm.total trivial⟩ b7 ho).1.few
  have h1 := C80_in_time_partial h so hm hu hl b1 b2 kt ho
  rw [packets_append, hw.1, Nat.zero_add] at h1
  have := hmul (packets out2 + 2) (max s.cwnd (3 * MSS) + 2) (by have := cm.cwnd; omega)
  omega

/-- C80: watched. The keepalive timer or the timeout alarm of an open session is set, or a flow has data to send. -/
theorem C80_watched {responder : Bool} {dest : Nat} {ops : List Op} {s : Sess} {out : List SOut} (h : Run responder dest ops s out) (ho : s.ss.isOpen = true) (hm : s.mid = false) :
    s.kaTimer ≠ none ∨ s.alarm ≠ none ∨ ∃ i, HasData s i := by
  rcases watched_run h ho (by rw [hm]; simp) with q | q | ⟨i, q1, q2⟩
  · exact Or.inl q
  · exact Or.inr (Or.inl q)
  · by_cases e : s.alarm = none
    · refine Or.inr (Or.inr ⟨i, q1, ?_⟩)
      have k := run_inv h
      have ho : s.ss.outs = [] := Classical.byContradiction fun q => k.armed q e
      obtain ⟨x, hx⟩ := List.exists_mem_of_ne_nil _ q2
      refine ⟨x, hx, ?_⟩
      cases hq : x.inFlight with
      | false => rfl
      | true =>
        have : SS.refOf i x ∈ SS.refs i (s.ss.flow i).queue := SS.refs_mem.mpr ⟨x, hx, hq, rfl⟩
        have := (k.traced.books.flow i).perm.mem_iff.mpr this
        rw [ho] at this; cases this
    · exact Or.inr (Or.inl e)

/-- C80: whenever the timer that ends in a timeout, or a keepalive, fires: a keepalive timer that is due sends a keepalive and sets the timeout alarm, otherwise it is set to the time a keepalive is due. -/
theorem C80_keepalive {responder : Bool} {dest : Nat} {ops : List Op} {s t : Sess} {out os : List SOut} (_h : Run responder dest ops s out) (ho : s.ss.isOpen = true)
    (hs : step s .keepalive = some (t, os)) :
    let d := s.lastTx + s.period + (if s.responder then s.mrto else 0)
    (s.now < d ∧ t.kaTimer = some d ∧ t.ss = s.ss ∧ os.length = 0) ∨ (d ≤ s.now ∧ t.kaOut = true ∧ t.alarm ≠ none ∧ t.ss = s.ss ∧ ∃ x, os = [x] ∧ x = .ping) := by
  have w := step_way hs
  cases w with
  | keepaliveClosed _ q => rw [ho] at q; cases q
  | keepaliveEarly _ _ q => exact Or.inl ⟨q, rfl, rfl, rfl⟩
  | keepalive _ _ q => exact Or.inr ⟨q, rfl, by simp, rfl, _, rfl, rfl⟩

/-- C80 fails: the other end may be gone without being noticed. A session has data to send, but was told that the other end has no room. The other end and the user do nothing any more;
whatever the session does, and however long, it stays open. -/
theorem C80_unnoticed : ∃ ops s out, Run false 9 ops s out ∧ s.ss.isOpen = true ∧ HasData s 0 ∧ (∀ ops' t out', Steps Alone ops s ops' t out' → t.ss.isOpen = true) ∧
    ∀ T, ∃ ops' t out', Steps Alone ops s ops' t out' ∧ T ≤ t.now := by
  obtain ⟨ops, s, out, h, hq⟩ := demo_exists (responder := false) (dest := 9)
    (demoLong ++ [.keepalive, .adv 10000000, .keepalive, .header none, .pingReply, .after 5000, .send 9 3 1 1, .send 9 3 1 1, .header none, .ack 0 0 [(0, 1)], .after 5000, .adv 13000000, .alarm])
    (fun s => decide (s.ss.isOpen = true ∧ s.mid = false ∧ s.alarm = none ∧ s.kaTimer = none ∧ s.ss.sendFlows ≠ [] ∧ (∀ i ∈ s.ss.sendFlows, SS.isMaybeReady (s.ss.flow i) = false) ∧ HasData s 0)) (by decide +kernel)
  obtain ⟨q1, q2, q3, q4, q5, q6, q7⟩ := of_decide_eq_true hq
  have st : Stuck s := ⟨q1, q2, q3, q4, q5, q6⟩
  refine ⟨ops, s, out, h, q1, q7, fun ops' t out' k => (stuck_steps h st k).isOpen, fun T => ⟨_, _, _, .snoc (.nil) (op := .advance (max T s.now)) trivial (Int.le_max_right ..) rfl, Int.le_max_left ..⟩⟩

/-- C80: the bound grows with the packets that are sent. A session whose peer is silent, and whose retransmission limit is thirty seconds, sends a short message now and then; it is open
twenty-five seconds after the limit and two timeouts are over. -/
theorem C80_postponed : ∃ ops s out ops' t out', Run false 9 ops s out ∧ s.ss.outs ≠ [] ∧ s.mid = false ∧ s.limit = 30000000 ∧ Steps Silence ops s ops' t out' ∧ t.ss.isOpen = true ∧
    s.deadline + s.limit + 2 * max MAX_ERTO s.mrto + 25000000 ≤ t.now := by
  obtain ⟨ops, s, out, ops', t, out', h, k, hq⟩ := demo_steps (responder := false) (dest := 9) quietAct quietAct_silence
    [.opened 10000000 30000000 60000000, .keepalive, .header (some (9000000, 10000000)), .after 100000, .openFlow 0 3, .openFlow 1 3, .openFlow 2 3, .openFlow 3 3, .openFlow 4 3,
      .bind 0 2, .bind 1 3, .bind 2 4, .bind 3 5, .bind 4 6, .write 0 (demoMsg 1) 1 1, .send 9 3 1 1]
    ((List.range 9).flatMap fun (k : Nat) => [.adv (9900000 * (k + 1)), .write ((k + 1) / 2) (demoMsg 1) (k + 2) ((k + 1) % 2 + 1), .send 9 3 1 1, .adv (9900000 * k + 10000000), .alarm, .keepalive])
    (fun s t _ => decide (s.ss.outs.length ≠ 0 ∧ s.mid = false ∧ s.limit = 30000000 ∧ t.ss.isOpen = true ∧ s.deadline + s.limit + 2 * max MAX_ERTO s.mrto + 25000000 ≤ t.now)) (by decide +kernel)
  obtain ⟨q1, q2, q3, q4, q5⟩ := of_decide_eq_true hq
  exact ⟨ops, s, out, ops', t, out', h, fun e => q1 (by rw [e]; rfl), q2, q3, k, q4, q5⟩

/-! ## examples -/

/-- data is sent, and again; nobody answers; the session ends -/
example : ∃ ops s out t os, Run false 9 ops s out ∧ Allowed ops s (Act.op s.now .alarm) ∧ step s (Act.op s.now .alarm) = some (t, os) ∧
    (match os with | .timedOut :: _ => true | _ => false) = true :=
  demo_step (demoLong ++ [.send 9 3 1 1, .adv 3000000, .alarm, .send 9 3 1 1, .adv 7242642, .alarm, .send 9 3 1 1, .adv 13242645, .alarm, .send 9 3 1 1, .adv 21727933, .alarm, .send 9 3 1 1, .adv 31727933]) .alarm _ (by decide +kernel)

/-- data is unanswered, and lost, and sent again -/
example : ∃ ops s out ops' t out', Run false 9 ops s out ∧ Steps Silence ops s ops' t out' ∧
    decide (s.ss.isOpen = true ∧ s.mid = false ∧ s.ss.outs.length = 1 ∧ s.alarm.map (fun f => decide (s.now ≤ f)) = some true ∧ t.ss.isOpen = true ∧ packets out' = 2 ∧ t.now = 13242645 ∧ s.cwnd ≤ 2 ^ 63 ∧ (s.ss.outs.map (·.size)).sum ≤ 2 ^ 63) = true :=
  demo_steps quietAct quietAct_silence (demoLong ++ [.send 9 3 1 1]) [.adv 3000000, .alarm, .send 9 3 1 1, .adv 7242642, .alarm, .send 9 3 1 1, .adv 13242645]
    (fun s t out' => decide (s.ss.isOpen = true ∧ s.mid = false ∧ s.ss.outs.length = 1 ∧ s.alarm.map (fun f => decide (s.now ≤ f)) = some true ∧ t.ss.isOpen = true ∧ packets out' = 2 ∧ t.now = 13242645 ∧ s.cwnd ≤ 2 ^ 63 ∧ (s.ss.outs.map (·.size)).sum ≤ 2 ^ 63))
    (by decide +kernel)

/-- the other end answers a keepalive; the session ends thirty seconds later or more -/
example : ∃ ops s out t os, Run false 9 ops s out ∧ Allowed ops s (Act.op s.now .pingReply) ∧ step s (Act.op s.now .pingReply) = some (t, os) ∧
    decide (Answered (Act.op s.now .pingReply) ∧ s.kaOut = true ∧ t.kaOut = false ∧ t.epoch = none) = true :=
  demo_step [.opened 10000000 30000000 60000000, .keepalive, .adv 10000000, .keepalive, .header none] .pingReply _ (by decide +kernel)

/-- after a timeout, neither timer is set; there is data to send again -/
example : ∃ ops s out, Run false 9 ops s out ∧ decide (s.ss.isOpen = true ∧ s.mid = false ∧ s.kaTimer = none ∧ s.alarm = none ∧ HasData s 0) = true :=
  demo_exists (demoLong ++ [.keepalive, .adv 10000000, .keepalive, .header none, .pingReply, .after 5000, .send 9 3 1 1, .adv 13000000, .alarm]) _ (by decide +kernel)

/-- a keepalive -/
example : ∃ ops s out t os, Run true 9 ops s out ∧ Allowed ops s (Act.op s.now .keepalive) ∧ step s (Act.op s.now .keepalive) = some (t, os) ∧
    (decide (s.ss.isOpen = true ∧ s.kaOut = false ∧ t.kaOut = true) && (match os with | [.ping] => true | _ => false)) = true :=
  demo_step [.opened 10000000 30000000 60000000, .keepalive, .adv 10250000] .keepalive _ (by decide +kernel)

end Rtmfp
