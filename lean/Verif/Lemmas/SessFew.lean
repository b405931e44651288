import Verif.Lemmas.SessDead
import Verif.Lemmas.SendAssemble

/-! # Sessions: how much is sent while nobody answers -/

namespace Rtmfp
namespace SS

theorem puts_total {c : Ctx} {R : RStore} {first : Bool} {prev : Nat} {q q' fs : List SFrag} {ps : List Put} (h : Puts c R first prev q q' fs ps) (i : Nat) :
    total (fs.map (refOf i)) = (ps.flatMap putWire).length := by
  induction h with
  | done => rfl
  | skip _ _ ih => exact ih
  | send _ _ _ ih =>
    simp only [total, List.map_cons, List.sum_cons, List.flatMap_cons, List.length_append]
    rw [show (List.map (fun x => x.size) (List.map (refOf i) _)).sum = _ from ih]
    rfl

/-- what is sent is in the list of fragments in flight, with its size -/
theorem assembleData_grows {s : SS} {i : Nat} (hs : Sorted (s.flow i).queue) {p : PA} (hp : p.Inv) (hl : p.limit = 1200) (pri : Nat) (now : Int) (gone : Bool)
    (hsent : (s.assembleData i p pri now gone).sent = true) :
    total s.outs < total (s.assembleData i p pri now gone).s.outs ∧ total (s.assembleData i p pri now gone).s.outs ≤ total s.outs + 1200 := by
  obtain ⟨c, q0, q1, q1', fs, ps, P, k⟩ := assembleData_spec hs hp pri now gone hsent
  rw [k.outs, total_append, puts_total k.puts]
  have h1 := k.added.cur
  have h2 := k.added.inv.cur
  have h3 : P.limit = 1200 := by rw [← hl]; exact k.added.same.2.1
  have h4 : 0 < (ps.flatMap putWire).length := by
    have := k.ne
    cases ps with
    | nil => exact absurd rfl this
    | cons a l =>
      rw [List.flatMap_cons, List.length_append]
      have : (putWire a).length = _ := PA.wire_length _ _
      omega
  omega

end SS

namespace Sess

theorem offer_grows {K : Nat → Prop} {h : List SS.Op} {pri : Nat} {rd : Nat → List Nat} {ps : Nat → Option (Int × Int)} (now : Int) (gone : Nat → Bool) (l : List Nat) :
    ∀ (s : SS) (p : PA) (es : List SS.Ev), Traced h s → Core K (fun _ => False) s (fun q => if q = pri then l else rd q) ps → Small p →
      (∀ j, (s.flow j).bound = true → (s.flow j).flowId < 2 ^ 42 ∧ (s.flow j).nextSn ≤ 2 ^ 42) →
      ∀ i, (offer pri now gone l s p es).2.2.1 = some i → SS.total s.outs < SS.total (offer pri now gone l s p es).1.outs ∧ SS.total (offer pri now gone l s p es).1.outs ≤ SS.total s.outs + 1200 := by
  induction l with
  | nil => intro s p es _ _ _ _ i hi; cases hi
  | cons i l ih =>
    intro s p es h1 h2 h3 h4 j hj
    obtain ⟨a1, a2⟩ := ask_core h1 h2 h3 now (gone i) h4
    obtain ⟨k1, k2, k3, k4⟩ := SS.assembleData_like s i p pri now (gone i)
    have e0 : (SS.sentRes i (s.assembleData i p pri now (gone i))).1 = (s.assembleData i p pri now (gone i)).s.afterSend (s.assembleData i p pri now (gone i)).sent := rfl
    rw [offer] at hj ⊢
    by_cases hs : (s.assembleData i p pri now (gone i)).sent = true
    · simp only [hs, if_true] at ⊢
      rw [e0, hs]
      exact SS.assembleData_grows (h1.books.flow i).ok.sorted h3.inv h3.lim pri now (gone i) hs
    · simp only [hs, Bool.false_eq_true, if_false] at a2 hj ⊢
      have hs' : (s.assembleData i p pri now (gone i)).sent = false := by simpa using hs
      obtain ⟨n1, n2, n3, n4⟩ := SS.assembleData_none s i h3.inv pri now (gone i) hs'
      have e1 : (SS.sentRes i (s.assembleData i p pri now (gone i))).1 = (s.assembleData i p pri now (gone i)).s := by rw [e0, hs']; rfl
      rw [e1] at a1 a2 hj ⊢
      have := ih (s.assembleData i p pri now (gone i)).s (s.assembleData i p pri now (gone i)).packet
        (es ++ (SS.sentRes i (s.assembleData i p pri now (gone i))).2) a1 a2 (h3.unchanged n4) (fun j hj => by
          rw [(k1 j).bound] at hj; rw [(k1 j).fid, (k1 j).next]; exact h4 j hj) j hj
      rw [n1] at this
      exact this

/-- while nothing arrives: when the alarm is due, how much is sent -/
structure Calm (D R : Int) (C : Nat) (P : Prop) (t : Sess) : Prop where
  deadline : t.deadline ≤ max D (t.now + R)
  cwnd : t.cwnd ≤ C
  total : P → SS.total t.ss.outs ≤ 2 ^ 63 + 1200

theorem calm_way {ops : List Op} {D R : Int} {C : Nat} {s t : Sess} {op : Op} {os : List SOut} (k : Inv (used ops) s) (hm : s.mid = false) (he : s.erto ≤ R) (hr : MAX_ERTO ≤ R) (hr' : s.mrto ≤ R)
    {P : Prop} (hC : P → C ≤ 2 ^ 63) (hC' : 3 * MSS ≤ C) (ha : Allowed ops s op) (hA : Silence s op) (hs : step s op = some (t, os)) (ho : t.ss.isOpen = true) (h : Calm D R C P s) : Calm D R C P t := by
  have w := step_way hs
  have hbk := k.traced.books
  obtain ⟨a1, a2, a3⟩ := h
  have hD : s.now + s.erto ≤ max D (s.now + R) := by omega
  have same : t.now = s.now → t.deadline = s.deadline → t.cwnd = s.cwnd → t.ss.outs = s.ss.outs → Calm D R C P t := fun e1 e2 e3 e4 => ⟨by rw [e1, e2]; exact a1, by rw [e3]; exact a2, by rw [e4]; exact a3⟩
  cases w with
  | advance x => exact ⟨by have : s.now ≤ x := ha; show s.deadline ≤ max D (x + R); omega, a2, a3⟩
  | opened => exact same rfl rfl rfl rfl
  | flow hf _ _ _ => exact same rfl rfl rfl (calls_same hbk ha.1 ha.2.2 hf).2.1
  | writable w =>
    rename_i x pri packet gone kk kk'
    obtain ⟨b1, b2, b3, b4, b5, b6⟩ := ha
    have hrd : Core (Opened (used ops)) (fun _ => False) s.ss (fun q => if q = pri then s.ready pri else s.ready q) s.persist := by
      rw [show (fun q => if q = pri then s.ready pri else s.ready q) = s.ready from by funext q; split <;> simp_all]; exact k.core
    have hof := offer_core s.now gone (s.ready pri) s.ss packet [] k.traced hrd b4.small (fun j hj => b5 j ((hbk.bound j).mpr hj))
    have hog := offer_grows s.now gone (s.ready pri) s.ss packet [] k.traced hrd b4.small (fun j hj => b5 j ((hbk.bound j).mpr hj))
    cases w with
    | nothing _ _ _ hq => exact same rfl rfl rfl (hof.2.2.2.2.2.1 hq).2.1
    | data q1 q2 q3 hq q5 =>
      refine ⟨?_, a2, ?_⟩
      · exact hD
      · intro hP
        have g := (hog _ hq).2
        have a3 := a3 hP
        have hC := hC hP
        show SS.total (offer pri s.now gone (s.ready pri) s.ss packet []).1.outs ≤ _
        have hsum := hbk.sum
        rw [Nat.mod_eq_of_lt (by omega)] at hsum
        omega
    | _ => exact same rfl rfl rfl rfl
  | header => cases hA
  | headerSample => cases hA
  | ack => have := ha.1; rw [hm] at this; cases this
  | exception => have := ha.1; rw [hm] at this; cases this
  | afterAcks => have := ha.1; rw [hm] at this; cases this
  | quiet => exact ⟨a1, hC', a3⟩
  | gaveUp => rw [closeSession_open (s := { s with alarm := none, burst := MAX_BURST }) hbk] at ho; cases ho
  | lost => exact ⟨a1, (by show 2 * MSS ≤ C; have : 2 * MSS ≤ 3 * MSS := by decide
                           omega), fun _ => Nat.zero_le _⟩
  | again h1 h2 h3 h4 h5 h6 h7 h8 =>
    refine ⟨?_, (by show 2 * MSS ≤ C; have : 2 * MSS ≤ 3 * MSS := by decide
                    omega), fun _ => Nat.zero_le _⟩
    rename_i e'
    show s.now + e' ≤ max D (s.now + R)
    omega
  | keepalive => exact ⟨hD, a2, a3⟩
  | idle => rw [closeSession_open hbk] at ho; cases ho
  | close => rw [closeSession_open hbk] at ho; cases ho
  | _ => exact same rfl rfl rfl rfl

/-- after the limit is over -/
structure Few (C n : Nat) (t : Sess) : Prop where
  cwnd : t.cwnd = C
  out : n ≤ SS.total t.ss.outs
  few : n ≤ C
  total : SS.total t.ss.outs ≤ 2 ^ 63 + 1200

theorem few_way {ops : List Op} {E limit mrto B R : Int} {m C n : Nat} {s t : Sess} {op : Op} {os : List SOut} (k : Inv (used ops) s) (hl : 0 ≤ limit)
    (hC : C ≤ 2 ^ 63) (hX : E + limit < s.now) (ha : Allowed ops s op) (hA : Silence s op) (hs : step s op = some (t, os)) (so : s.ss.isOpen = true) (ho : t.ss.isOpen = true)
    (hq : Silent E limit mrto B R m s) (h : Few C n s) : Few C (n + packets os) t := by
  have w := step_way hs
  have hbk := k.traced.books
  obtain ⟨q1, q2, q0, q3, q4, q5, q6⟩ := hq
  obtain ⟨a1, a2, a3, a4⟩ := h
  have same : packets os = 0 → t.cwnd = s.cwnd → t.ss.outs = s.ss.outs → Few C (n + packets os) t := fun e1 e2 e3 => ⟨by rw [e2]; exact a1, by rw [e1, e3]; exact a2, by rw [e1]; exact a3, by rw [e3]; exact a4⟩
  have hno : (∀ e, s.epoch = some e → s.now < e + s.limit) → ∀ p : Prop, p := by
    intro q
    exfalso
    cases e : s.epoch with
    | none => have := (q0 e).1; omega
    | some x => have := q x e; have := q2 x e; omega
  cases w with
  | opened => have := ha.1; rw [so] at this; cases this
  | flow hf _ _ _ => exact same (packets_ss _) rfl (calls_same hbk ha.1 ha.2.2 hf).2.1
  | writable w =>
    rename_i x pri packet gone kk kk'
    obtain ⟨b1, b2, b3, b4, b5, b6⟩ := ha
    have hrd : Core (Opened (used ops)) (fun _ => False) s.ss (fun q => if q = pri then s.ready pri else s.ready q) s.persist := by
      rw [show (fun q => if q = pri then s.ready pri else s.ready q) = s.ready from by funext q; split <;> simp_all]; exact k.core
    have hof := offer_core s.now gone (s.ready pri) s.ss packet [] k.traced hrd b4.small (fun j hj => b5 j ((hbk.bound j).mpr hj))
    have hog := offer_grows s.now gone (s.ready pri) s.ss packet [] k.traced hrd b4.small (fun j hj => b5 j ((hbk.bound j).mpr hj))
    cases w with
    | nothing _ _ _ hq => exact same (packets_ss _) rfl (hof.2.2.2.2.2.1 hq).2.1
    | data c1 c2 c3 hq c5 =>
      rename_i i rs
      have hpk : packets (List.map SOut.ss (offer pri s.now gone (s.ready pri) s.ss packet []).2.2.2 ++ [.data i] ++ [.acks rs]) = 1 := by
        rw [packets_append, packets_append, packets_ss]; rfl
      rw [show packets _ = 1 from hpk]
      obtain ⟨g1, g2⟩ := hog _ hq
      have hsum := hbk.sum
      rw [Nat.mod_eq_of_lt (by omega)] at hsum
      refine ⟨a1, ?_, by omega, ?_⟩
      · show n + 1 ≤ SS.total (offer pri s.now gone (s.ready pri) s.ss packet []).1.outs; omega
      · show SS.total (offer pri s.now gone (s.ready pri) s.ss packet []).1.outs ≤ _; omega
    | _ => exact same rfl rfl rfl
  | header => cases hA
  | headerSample => cases hA
  | ack => have := ha.1; rw [q1] at this; cases this
  | exception => have := ha.1; rw [q1] at this; cases this
  | afterAcks => have := ha.1; rw [q1] at this; cases this
  | quiet h1 h2 h3 h4 h5 =>
    rcases (q6 h1).2 with q | q
    · exact absurd h4 q
    · rw [h5] at q; cases q
  | gaveUp => rw [closeSession_open (s := { s with alarm := none, burst := MAX_BURST }) hbk] at ho; cases ho
  | lost _ _ _ _ _ q => exact hno q _
  | again _ _ _ _ _ q => exact hno q _
  | idle => rw [closeSession_open hbk] at ho; cases ho
  | close => rw [closeSession_open hbk] at ho; cases ho
  | _ => exact same rfl rfl rfl

theorem way_advance {s t : Sess} {op : Op} {os : List SOut} (w : Way s op t os) (h : t.now ≠ s.now) : packets os = 0 ∧ t.cwnd = s.cwnd ∧ t.ss = s.ss := by
  cases w with
  | advance => exact ⟨rfl, rfl, rfl⟩
  | writable w => cases w <;> exact absurd rfl h
  | gaveUp => exact absurd rfl h
  | idle => exact absurd rfl h
  | close => exact absurd rfl h
  | _ => exact absurd rfl h

theorem Steps.trans {A : Sess → Op → Prop} {ops ops1 ops2 : List Op} {s u t : Sess} {out1 out2 : List SOut} (h : Steps A ops s ops1 u out1) (k : Steps A ops1 u ops2 t out2) :
    Steps A ops s ops2 t (out1 ++ out2) := by
  induction k with
  | nil => rw [List.append_nil]; exact h
  | snoc _ a b c ih => rw [← List.append_assoc]; exact .snoc ih a b c

/-- the last state until `X` -/
theorem Steps.split {A : Sess → Op → Prop} {ops ops' : List Op} {s t : Sess} {out : List SOut} {X : Int} (k : Steps A ops s ops' t out) (hs : s.now ≤ X) (ht : X < t.now) :
    ∃ ops1 u out1 op v o out2, Steps A ops s ops1 u out1 ∧ u.now ≤ X ∧ A u op ∧ Allowed ops1 u op ∧ step u op = some (v, o) ∧ X < v.now ∧ Steps A (ops1 ++ [op]) v ops' t out2 ∧ out = out1 ++ o ++ out2 := by
  induction k with
  | nil => omega
  | snoc q hA ha hst ih =>
    rename_i ops2 x out2 op v os
    by_cases hx : x.now ≤ X
    · exact ⟨_, _, _, _, _, _, [], q, hx, hA, ha, hst, ht, .nil, by simp⟩
    · obtain ⟨o1, u, p1, op', v', o', p2, b1, b2, b3, b4, b5, b6, b7, b8⟩ := ih (by omega)
      exact ⟨o1, u, p1, op', v', o', _, b1, b2, b3, b4, b5, b6, .snoc b7 hA ha hst, by rw [b8, List.append_assoc _ p2]⟩

/-- the session is open all the time -/
theorem Steps.opens {A : Sess → Op → Prop} {responder : Bool} {dest : Nat} {ops ops' : List Op} {s t : Sess} {out out' : List SOut} (h : Run responder dest ops s out) (so : s.ss.isOpen = true)
    {ops1 : List Op} {u : Sess} {out1 : List SOut} (k1 : Steps A ops s ops1 u out1) (k : Steps A ops1 u ops' t out') (ho : t.ss.isOpen = true) : u.ss.isOpen = true := by
  have hop : ∃ a b c, Op.opened a b c ∈ ops := by
    apply Classical.byContradiction
    intro hn
    have := (fresh_run h fun a b c q => hn ⟨a, b, c, q⟩).isOpen
    rw [so] at this; cases this
  obtain ⟨a', b', c', hm⟩ := hop
  have hm := k1.sub _ hm
  have r1 := k1.run h
  induction k with
  | nil => exact ho
  | snoc q hA ha hst ih =>
    apply ih
    rcases way_open (run_inv (q.run r1)) ha (step_way hst) with ⟨e, _⟩ | ⟨e, _⟩ | ⟨a, b, c, rfl⟩
    · rw [← e]; exact ho
    · rw [ho] at e; cases e
    · exact absurd (q.sub _ hm) (ha.2.2 a' b' c')

theorem calm_steps {responder : Bool} {dest : Nat} {ops ops' : List Op} {s t : Sess} {out out' : List SOut} (h : Run responder dest ops s out) (so : s.ss.isOpen = true) {E limit mrto B D R : Int} {C : Nat}
    (hr : R = max MAX_ERTO mrto) (hB : E + R ≤ B) (hB' : E + limit + R ≤ B) (hs : Silent E limit mrto B R 0 s) {P : Prop} (hC : P → C ≤ 2 ^ 63) (hC' : 3 * MSS ≤ C) (hc : Calm D R C P s)
    (k : Steps Silence ops s ops' t out') (ho : t.ss.isOpen = true) : Calm D R C P t := by
  induction k with
  | nil => exact hc
  | snoc q hA ha hst ih =>
    have r := q.run h
    have hu := Steps.opens h so q (.snoc .nil hA ha hst) ho
    have sl := silent_steps h so hr hB hB' hs q hu
    have hd := (deadline_run r).erto
    rw [sl.mrto] at hd
    exact calm_way (run_inv r) sl.mid (by rw [hr]; exact hd) (by omega) (by rw [sl.mrto]; omega) hC hC' ha hA hst ho (ih hu)

theorem few_steps {responder : Bool} {dest : Nat} {ops ops' : List Op} {s t : Sess} {out out' : List SOut} (h : Run responder dest ops s out) (so : s.ss.isOpen = true) {E limit mrto B R : Int} {C : Nat}
    (hr : R = max MAX_ERTO mrto) (hB : E + R ≤ B) (hB' : E + limit + R ≤ B) (hl : 0 ≤ limit) (hs : Silent E limit mrto B R 0 s) (hC : C ≤ 2 ^ 63) (hX : E + limit < s.now) (hc : Few C 0 s)
    (k : Steps Silence ops s ops' t out') (ho : t.ss.isOpen = true) : Few C (packets out') t ∧ E + limit < t.now := by
  induction k with
  | nil => exact ⟨hc, hX⟩
  | snoc q hA ha hst ih =>
    have r := q.run h
    have hu := Steps.opens h so q (.snoc .nil hA ha hst) ho
    have sl := silent_steps h so hr hB hB' hs q hu
    obtain ⟨i1, i2⟩ := ih hu
    rw [packets_append]
    exact ⟨few_way (run_inv r) hl hC i2 ha hA hst hu ho sl i1, by have := (way_time ha (step_way hst)).1; omega⟩

/-- a state while nothing arrives, until the limit is over, and later: the end is near -/
theorem silent_from {responder : Bool} {dest : Nat} {ops ops' : List Op} {s t : Sess} {out out' : List SOut} (h : Run responder dest ops s out) (so : s.ss.isOpen = true)
    {E limit mrto B R : Int} (hr : R = max MAX_ERTO mrto) (hB : B = E + limit + R) (hl : 0 ≤ limit) (hs : Silent E limit mrto B R 0 s)
    {C : Nat} {P : Prop} (hC : P → C ≤ 2 ^ 63) (hC' : 3 * MSS ≤ C) (hc : Calm E R C P s) (k : Steps Silence ops s ops' t out') (hn : t.now ≤ E + limit) (ho : t.ss.isOpen = true) :
    Silent E limit mrto B R 0 t := by
  have hR : 0 ≤ R := by have : (0 : Int) ≤ MAX_ERTO := by decide
                        omega
  have sl := silent_steps h so hr (by omega) (by omega) hs k ho
  have cm := calm_steps h so hr (by omega) (by omega) hs hC hC' hc k ho
  have h0 : 0 ≤ (((0 : Nat) : Int) + pinged t) * R := Int.mul_nonneg (by rw [pinged]; split <;> simp) hR
  have := cm.deadline
  exact ⟨sl.mid, sl.epoch, sl.before, sl.limit, sl.mrto, by omega, fun q => ⟨by omega, (sl.deadline q).2⟩⟩

end Sess
end Rtmfp
