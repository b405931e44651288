import Verif.Spec.Interface
namespace Rtmfp
namespace Iface

theorem setQ_same (st : St) (p : Nat) (l : List Nat) : (st.setQ p l).q p = l := by simp [St.setQ]
theorem setQ_other (st : St) (p p' : Nat) (l : List Nat) (h : p' ≠ p) : (st.setQ p l).q p' = st.q p' := by simp [St.setQ, h]
theorem setQ_sched (st : St) (p : Nat) (l : List Nat) : (st.setQ p l).writeScheduled = st.writeScheduled := rfl
theorem setQ_armed (st : St) (p : Nat) (l : List Nat) : (st.setQ p l).armed = st.armed := rfl

theorem schedule_q (st : St) (s p p' : Nat) :
    (scheduleWrite st s p).q p' = if p' = p ∧ s ∉ st.q p then st.q p' ++ [s] else st.q p' := by
  rw [scheduleWrite]
  by_cases h : s ∈ st.q p
  · simp [h]
  · rw [if_neg h]
    by_cases hp : p' = p
    · subst hp
      cases hs : st.writeScheduled <;> simp [St.setQ, h, hs]
    · cases hs : st.writeScheduled <;> simp [St.setQ, h, hs, hp]

theorem schedule_mem (st : St) (s p : Nat) : s ∈ (scheduleWrite st s p).q p := by
  rw [schedule_q]
  by_cases h : s ∈ st.q p <;> simp [h]

theorem schedule_keeps (st : St) (s p p' t : Nat) (h : t ∈ st.q p') : t ∈ (scheduleWrite st s p).q p' := by
  rw [schedule_q]
  split <;> simp [h]

/-- scheduling while asked only adds at the end, only what was asked for and only if it was not there -/
theorem during_q (calls : List (Nat × Nat)) : ∀ st : St, ∀ p, ∃ more, (during st calls).q p = st.q p ++ more ∧ (∀ s ∈ more, (s, p) ∈ calls) := by
  induction calls with
  | nil => intro st p; exact ⟨[], by simp [during], by simp⟩
  | cons c calls ih =>
    intro st p
    obtain ⟨m, hm, hc⟩ := ih (scheduleWrite st c.1 c.2) p
    have hd : during st (c :: calls) = during (scheduleWrite st c.1 c.2) calls := rfl
    rw [hd, hm, schedule_q]
    by_cases h : p = c.2 ∧ c.1 ∉ st.q c.2
    · rw [if_pos h]
      refine ⟨c.1 :: m, by simp, ?_⟩
      intro s hs
      rcases List.mem_cons.mp hs with hs | hs
      · rw [hs, h.1]; simp
      · exact List.mem_cons_of_mem _ (hc s hs)
    · rw [if_neg h]
      exact ⟨m, rfl, fun s hs => List.mem_cons_of_mem _ (hc s hs)⟩

theorem during_mem (calls : List (Nat × Nat)) : ∀ st : St, ∀ s p, (s, p) ∈ calls → s ∈ (during st calls).q p := by
  induction calls with
  | nil => intro st s p h; simp at h
  | cons c calls ih =>
    intro st s p h
    have hd : during st (c :: calls) = during (scheduleWrite st c.1 c.2) calls := rfl
    rw [hd]
    rcases List.mem_cons.mp h with h | h
    · obtain ⟨m, hm, -⟩ := during_q calls (scheduleWrite st c.1 c.2) p
      rw [hm]
      have := schedule_mem st c.1 c.2
      rw [← h] at this
      rw [← h]
      exact List.mem_append_left _ this
    · exact ih _ s p h

theorem schedule_nodup (st : St) (s p : Nat) (h : ∀ p, (st.q p).Nodup) : ∀ p', ((scheduleWrite st s p).q p').Nodup := by
  intro p'
  rw [schedule_q]
  split
  · rename_i hh
    rw [hh.1]
    rw [List.nodup_append]
    refine ⟨h p, by simp, ?_⟩
    intro a ha b hb e
    simp at hb
    subst hb; subst e
    exact hh.2 ha
  · exact h p'

theorem during_nodup (calls : List (Nat × Nat)) : ∀ st : St, (∀ p, (st.q p).Nodup) → ∀ p', ((during st calls).q p').Nodup := by
  induction calls with
  | nil => intro st h; exact h
  | cons c calls ih => intro st h; exact ih _ (schedule_nodup st c.1 c.2 h)

theorem setQ_nodup (st : St) (p : Nat) (l : List Nat) (h : ∀ p, (st.q p).Nodup) (hl : l.Nodup) : ∀ p', ((st.setQ p l).q p').Nodup := by
  intro p'
  by_cases hp : p' = p
  · subst hp; rw [setQ_same]; exact hl
  · rw [setQ_other _ _ _ _ hp]; exact h p'

theorem erase_tail_nodup (l : List Nat) (s : Nat) (h : l.Nodup) : (l.erase s ++ [s]).Nodup := by
  rw [List.nodup_append]
  refine ⟨h.erase s, by simp, ?_⟩
  intro a ha b hb e
  simp at hb
  subst hb; subst e
  exact (List.Nodup.not_mem_erase h) ha

/-! ## the queue law -/

theorem askedAt_append (p : Nat) (a b : List Asked) : askedAt p (a ++ b) = askedAt p a ++ askedAt p b := by simp [askedAt]
theorem sentAt_append (p : Nat) (a b : List Asked) : sentAt p (a ++ b) = sentAt p a ++ sentAt p b := by simp [sentAt]
theorem sentAt_none (p : Nat) (tr : List Asked) (h : ∀ e ∈ tr, e.ans.ok = false) : sentAt p tr = [] := by
  simp only [sentAt, List.map_eq_nil_iff, List.filter_eq_nil_iff]
  intro e he
  simp [h e he]
theorem askedAt_none (p : Nat) (tr : List Asked) (h : ∀ e ∈ tr, e.p ≠ p) : askedAt p tr = [] := by
  simp only [askedAt, List.map_eq_nil_iff, List.filter_eq_nil_iff]
  intro e he
  simp [h e he]
theorem mem_askedAt (p s : Nat) (tr : List Asked) : s ∈ askedAt p tr ↔ ∃ e ∈ tr, e.p = p ∧ e.s = s := by
  simp only [askedAt, List.mem_map, List.mem_filter, beq_iff_eq]
  constructor
  · rintro ⟨e, ⟨he, hp⟩, hs⟩; exact ⟨e, he, hp, hs⟩
  · rintro ⟨e, he, hp, hs⟩; exact ⟨e, ⟨he, hp⟩, hs⟩
theorem mem_sentAt (p s : Nat) (tr : List Asked) : s ∈ sentAt p tr ↔ ∃ e ∈ tr, e.p = p ∧ e.s = s ∧ e.ans.ok = true := by
  simp only [sentAt, List.mem_map, List.mem_filter, Bool.and_eq_true, beq_iff_eq]
  constructor
  · rintro ⟨e, ⟨he, hp, ho⟩, hs⟩; exact ⟨e, he, hp, hs, ho⟩
  · rintro ⟨e, he, hp, hs, ho⟩; exact ⟨e, ⟨he, hp, ho⟩, hs⟩

/-- each queue gives its sessions from the front to be asked, takes back at its end those that sent, and takes at its end those scheduled meanwhile -/
def Law (st st' : St) (tr : List Asked) : Prop :=
  ∀ p, ∃ left more, st.q p ++ more = askedAt p tr ++ left ∧ st'.q p = left ++ sentAt p tr ∧ (∀ s ∈ more, ∃ e ∈ tr, (s, p) ∈ e.ans.calls)

theorem Law.nil {st st' : St} (h : st'.q = st.q) : Law st st' [] := by
  intro p
  exact ⟨st.q p, [], by simp [askedAt], by simp [sentAt, h], by simp⟩

theorem Law.trans {a b c : St} {t1 t2 : List Asked} (h1 : Law a b t1) (hf : ∀ e ∈ t1, e.ans.ok = false) (h2 : Law b c t2) : Law a c (t1 ++ t2) := by
  intro p
  obtain ⟨l1, m1, e1, q1, c1⟩ := h1 p
  obtain ⟨l2, m2, e2, q2, c2⟩ := h2 p
  rw [sentAt_none p t1 hf, List.append_nil] at q1
  refine ⟨l2, m1 ++ m2, ?_, ?_, ?_⟩
  · rw [← List.append_assoc, e1, askedAt_append, List.append_assoc, ← q1, e2, List.append_assoc]
  · rw [sentAt_append, sentAt_none p t1 hf, q2, List.nil_append]
  · intro s hs
    rcases List.mem_append.mp hs with hs | hs
    · obtain ⟨e, he, hc⟩ := c1 s hs; exact ⟨e, List.mem_append_left _ he, hc⟩
    · obtain ⟨e, he, hc⟩ := c2 s hs; exact ⟨e, List.mem_append_right _ he, hc⟩

theorem law_one_false {st : St} {p s : Nat} {t : List Nat} (hq : st.q p = s :: t) (a : Ans) (ha : a.ok = false) :
    Law st ((during st a.calls).setQ p (((during st a.calls).q p).erase s)) [⟨s, p, a⟩] := by
  intro p'
  obtain ⟨m, hm, hc⟩ := during_q a.calls st p'
  by_cases hp : p' = p
  · subst hp
    refine ⟨t ++ m, m, ?_, ?_, ?_⟩
    · simp [askedAt, hq]
    · rw [setQ_same, hm, hq]; simp [sentAt, ha]
    · intro s' hs; exact ⟨_, List.mem_singleton.mpr rfl, hc s' hs⟩
  · refine ⟨st.q p' ++ m, m, ?_, ?_, ?_⟩
    · rw [askedAt_none p' _ (by simpa using fun h => hp h.symm)]; rfl
    · rw [setQ_other _ _ _ _ hp, hm]; simp [sentAt, ha]
    · intro s' hs; exact ⟨_, List.mem_singleton.mpr rfl, hc s' hs⟩

theorem law_one_true {st : St} {p s : Nat} {t : List Nat} (hq : st.q p = s :: t) (a : Ans) (ha : a.ok = true) :
    Law st ((during st a.calls).setQ p (((during st a.calls).q p).erase s ++ [s])) [⟨s, p, a⟩] := by
  intro p'
  obtain ⟨m, hm, hc⟩ := during_q a.calls st p'
  by_cases hp : p' = p
  · subst hp
    refine ⟨t ++ m, m, ?_, ?_, ?_⟩
    · simp [askedAt, hq]
    · rw [setQ_same, hm, hq]; simp [sentAt, ha]
    · intro s' hs; exact ⟨_, List.mem_singleton.mpr rfl, hc s' hs⟩
  · have hp2 : ¬ p = p' := fun h => hp h.symm
    refine ⟨st.q p' ++ m, m, ?_, ?_, ?_⟩
    · rw [askedAt_none p' _ (by simpa using hp2)]; rfl
    · rw [setQ_other _ _ _ _ hp, hm]; simp [sentAt, hp2]
    · intro s' hs; exact ⟨_, List.mem_singleton.mpr rfl, hc s' hs⟩

/-- what a pass over one queue, or over all, does -/
structure Pass (st st' : St) (tr : List Asked) (ok : Bool) : Prop where
  law : Law st st' tr
  all : ok = false → ∀ e ∈ tr, e.ans.ok = false
  last : ok = true → ∃ before e, tr = before ++ [e] ∧ e.ans.ok = true ∧ ∀ b ∈ before, b.ans.ok = false

theorem serve_nil (as : List Ans) (st : St) (p : Nat) (h : st.q p = []) : serve as st p = some (as, st, [], false) := by
  unfold serve; simp [h]
theorem serve_out (st : St) (p s : Nat) (t : List Nat) (h : st.q p = s :: t) : serve [] st p = none := by
  unfold serve; simp [h]
theorem serve_cons (a : Ans) (as : List Ans) (st : St) (p s : Nat) (t : List Nat) (h : st.q p = s :: t) :
    serve (a :: as) st p =
      if a.ok then some (as, (during st a.calls).setQ p (((during st a.calls).q p).erase s ++ [s]), [⟨s, p, a⟩], true)
      else (serve as ((during st a.calls).setQ p (((during st a.calls).q p).erase s)) p).map (fun r => (r.1, r.2.1, ⟨s, p, a⟩ :: r.2.2.1, r.2.2.2)) := by
  conv => lhs; unfold serve
  simp [h]

theorem serve_pass (as : List Ans) : ∀ (st : St) (p : Nat) as' st' tr ok, serve as st p = some (as', st', tr, ok) →
    Pass st st' tr ok ∧ (∀ e ∈ tr, e.p = p) ∧ (ok = false → st'.q p = []) ∧ (∃ used, as = used ++ as' ∧ tr.map (·.ans) = used) := by
  induction as with
  | nil =>
    intro st p as' st' tr ok h
    cases hq : st.q p with
    | nil =>
      rw [serve_nil _ _ _ hq] at h
      simp only [Option.some.injEq, Prod.mk.injEq] at h
      obtain ⟨rfl, rfl, rfl, rfl⟩ := h
      exact ⟨⟨Law.nil rfl, by simp, by simp⟩, by simp, fun _ => hq, [], rfl, rfl⟩
    | cons s t => rw [serve_out _ _ _ _ hq] at h; simp at h
  | cons a as ih =>
    intro st p as' st' tr ok h
    cases hq : st.q p with
    | nil =>
      rw [serve_nil _ _ _ hq] at h
      simp only [Option.some.injEq, Prod.mk.injEq] at h
      obtain ⟨rfl, rfl, rfl, rfl⟩ := h
      exact ⟨⟨Law.nil rfl, by simp, by simp⟩, by simp, fun _ => hq, [], rfl, rfl⟩
    | cons s t =>
      rw [serve_cons _ _ _ _ _ _ hq] at h
      cases ha : a.ok with
      | true =>
        rw [ha, if_pos rfl] at h
        simp only [Option.some.injEq, Prod.mk.injEq] at h
        obtain ⟨rfl, rfl, rfl, rfl⟩ := h
        refine ⟨⟨law_one_true hq a ha, by simp, fun _ => ⟨[], _, rfl, ha, by simp⟩⟩, by simp, by simp, [a], rfl, rfl⟩
      | false =>
        rw [ha, if_neg (by simp)] at h
        rw [Option.map_eq_some_iff] at h
        obtain ⟨⟨as1, st1, tr1, ok1⟩, h1, h⟩ := h
        simp only [Prod.mk.injEq] at h
        obtain ⟨rfl, rfl, rfl, rfl⟩ := h
        obtain ⟨⟨hl, hall, hlast⟩, hp, he, used, hu, hv⟩ := ih _ _ _ _ _ _ h1
        refine ⟨⟨?_, ?_, ?_⟩, ?_, he, a :: used, by simp [hu], by simp [hv]⟩
        · exact Law.trans (law_one_false hq a ha) (by simp [ha]) hl
        · intro hk e hm
          rcases List.mem_cons.mp hm with rfl | hm
          · exact ha
          · exact hall hk e hm
        · intro hk
          obtain ⟨b, e, ht, h2, h3⟩ := hlast hk
          refine ⟨⟨s, p, a⟩ :: b, e, by simp [ht], h2, ?_⟩
          intro x hx
          rcases List.mem_cons.mp hx with rfl | hx
          · exact ha
          · exact h3 x hx
        · intro e hm
          rcases List.mem_cons.mp hm with rfl | hm
          · rfl
          · exact hp e hm

theorem scan_pass (n : Nat) : ∀ (as : List Ans) (st : St) as' st' tr ok, scan n as st = some (as', st', tr, ok) →
    Pass st st' tr ok ∧ (∀ e ∈ tr, e.p < n) ∧ (∃ used, as = used ++ as' ∧ tr.map (·.ans) = used) ∧
    -- everyone that waited at a priority above that of the last session asked was asked; everyone if nobody sent
    (∀ p, p < n → (ok = false ∨ ∃ e ∈ tr, e.ans.ok = true ∧ e.p < p) → ∃ more, st.q p ++ more = askedAt p tr) ∧
    -- from the highest priority down
    (tr.map (·.p)).Pairwise (· ≥ ·) := by
  induction n with
  | zero =>
    intro as st as' st' tr ok h
    rw [scan] at h
    simp only [Option.some.injEq, Prod.mk.injEq] at h
    obtain ⟨rfl, rfl, rfl, rfl⟩ := h
    exact ⟨⟨Law.nil rfl, by simp, by simp⟩, by simp, ⟨[], rfl, rfl⟩, fun p hp => absurd hp (by omega), by simp⟩
  | succ n ih =>
    intro as st as' st' tr ok h
    rw [scan, Option.bind_eq_some_iff] at h
    obtain ⟨⟨as1, st1, tr1, ok1⟩, h1, h⟩ := h
    obtain ⟨⟨hl, hall, hlast⟩, hp, he, used, hu, hv⟩ := serve_pass _ _ _ _ _ _ _ h1
    have hsame : (tr1.map (·.p)).Pairwise (· ≥ ·) := by
      rw [List.pairwise_map]
      apply List.pairwise_of_forall_mem_list
      intro a ha b hb
      rw [hp a ha, hp b hb]
      exact Nat.le_refl _
    cases hk1 : ok1 with
    | true =>
      simp only [hk1, if_true, Option.some.injEq, Prod.mk.injEq] at h
      obtain ⟨rfl, rfl, rfl, rfl⟩ := h
      subst hk1
      refine ⟨⟨hl, hall, hlast⟩, ?_, ⟨used, hu, hv⟩, ?_, hsame⟩
      · intro e hm; rw [hp e hm]; omega
      · intro p hpn hx
        rcases hx with hx | ⟨e, hm, -, hlt⟩
        · simp at hx
        · rw [hp e hm] at hlt; omega
    | false =>
      simp only [hk1, if_neg Bool.false_ne_true, Option.map_eq_some_iff] at h
      obtain ⟨⟨as2, st2, tr2, ok2⟩, h2, h⟩ := h
      simp only [Prod.mk.injEq] at h
      obtain ⟨rfl, rfl, rfl, rfl⟩ := h
      obtain ⟨⟨hl2, hall2, hlast2⟩, hp2, ⟨used2, hu2, hv2⟩, hex, hpw⟩ := ih _ _ _ _ _ _ h2
      have hf := hall hk1
      refine ⟨⟨Law.trans hl hf hl2, ?_, ?_⟩, ?_, ⟨used ++ used2, by rw [hu, hu2, List.append_assoc], by rw [List.map_append, hv, hv2]⟩, ?_, ?_⟩
      · intro hk e hm
        rcases List.mem_append.mp hm with hm | hm
        · exact hf e hm
        · exact hall2 hk e hm
      · intro hk
        obtain ⟨b, e, ht, hb, hc⟩ := hlast2 hk
        refine ⟨tr1 ++ b, e, by rw [ht, List.append_assoc], hb, ?_⟩
        intro x hx
        rcases List.mem_append.mp hx with hx | hx
        · exact hf x hx
        · exact hc x hx
      · intro e hm
        rcases List.mem_append.mp hm with hm | hm
        · rw [hp e hm]; omega
        · have := hp2 e hm; omega
      · intro p hpn hx
        by_cases hpe : p = n
        · subst hpe
          obtain ⟨l1, m1, e1, q1, -⟩ := hl p
          rw [he hk1, sentAt_none p tr1 hf, List.append_nil] at q1
          rw [← q1, List.append_nil] at e1
          refine ⟨m1, ?_⟩
          rw [askedAt_append, askedAt_none p tr2 (fun e hm => by have := hp2 e hm; omega), List.append_nil, e1]
        · have hlt : p < n := by omega
          have hx' : ok2 = false ∨ ∃ e ∈ tr2, e.ans.ok = true ∧ e.p < p := by
            rcases hx with hx | ⟨e, hm, ho, hlt⟩
            · exact Or.inl hx
            · right
              rcases List.mem_append.mp hm with hm | hm
              · rw [hf e hm] at ho; simp at ho
              · exact ⟨e, hm, ho, hlt⟩
          obtain ⟨m2, e2⟩ := hex p hlt hx'
          obtain ⟨l1, m1, e1, q1, -⟩ := hl p
          rw [askedAt_none p tr1 (fun e hm => by have := hp e hm; omega), List.nil_append] at e1
          rw [sentAt_none p tr1 hf, List.append_nil] at q1
          refine ⟨m1 ++ m2, ?_⟩
          rw [← List.append_assoc, e1, ← q1, e2, askedAt_append, askedAt_none p tr1 (fun e hm => by have := hp e hm; omega), List.nil_append]
      · rw [List.map_append, List.pairwise_append]
        refine ⟨hsame, hpw, ?_⟩
        intro a ha b hb
        rw [List.mem_map] at ha hb
        obtain ⟨x, hx, rfl⟩ := ha
        obtain ⟨y, hy, rfl⟩ := hb
        rw [hp x hx]
        have := hp2 y hy
        omega

theorem step_law {st st' : St} {op : Op} {tr : List Asked} (h : step st op = some (st', tr)) :
    ∀ p, ∃ left more, st.q p ++ more = askedAt p tr ++ left ∧ st'.q p = left ++ sentAt p tr := by
  cases op with
  | schedule s p0 =>
    simp only [step, Option.some.injEq, Prod.mk.injEq] at h
    obtain ⟨rfl, rfl⟩ := h
    intro p
    refine ⟨(scheduleWrite st s p0).q p, if p = p0 ∧ s ∉ st.q p0 then [s] else [], ?_, by simp [sentAt]⟩
    rw [schedule_q]
    split <;> simp [askedAt]
  | writable as =>
    intro p
    rw [step] at h
    split at h
    · split at h
      · rename_i hw
        simp only [Option.some.injEq, Prod.mk.injEq] at h
        obtain ⟨rfl, rfl⟩ := h
        obtain ⟨⟨hl, -, -⟩, -⟩ := scan_pass _ _ _ _ _ _ _ hw
        obtain ⟨l, m, e, q, -⟩ := hl p
        exact ⟨l, m, e, q⟩
      · simp at h
    · simp at h

theorem step_writable {st st' : St} {as : List Ans} {tr : List Asked} (h : step st (.writable as) = some (st', tr)) :
    st.armed = true ∧ ∃ ok, onWritable as st = some ([], st', tr, ok) := by
  rw [step] at h
  split at h
  · rename_i ha
    split at h
    · rename_i hw
      simp only [Option.some.injEq, Prod.mk.injEq] at h
      obtain ⟨rfl, rfl⟩ := h
      exact ⟨ha, _, hw⟩
    · simp at h
  · simp at h

/-! ## once -/

theorem serve_nodup (as : List Ans) : ∀ (st : St) (p : Nat) as' st' tr ok, serve as st p = some (as', st', tr, ok) →
    (∀ p, (st.q p).Nodup) → ∀ p, (st'.q p).Nodup := by
  induction as with
  | nil =>
    intro st p as' st' tr ok h hn
    cases hq : st.q p with
    | nil =>
      rw [serve_nil _ _ _ hq] at h
      simp only [Option.some.injEq, Prod.mk.injEq] at h
      obtain ⟨rfl, rfl, rfl, rfl⟩ := h
      exact hn
    | cons s t => rw [serve_out _ _ _ _ hq] at h; simp at h
  | cons a as ih =>
    intro st p as' st' tr ok h hn
    cases hq : st.q p with
    | nil =>
      rw [serve_nil _ _ _ hq] at h
      simp only [Option.some.injEq, Prod.mk.injEq] at h
      obtain ⟨rfl, rfl, rfl, rfl⟩ := h
      exact hn
    | cons s t =>
      rw [serve_cons _ _ _ _ _ _ hq] at h
      have hd := during_nodup a.calls st hn
      cases ha : a.ok with
      | true =>
        rw [ha, if_pos rfl] at h
        simp only [Option.some.injEq, Prod.mk.injEq] at h
        obtain ⟨rfl, rfl, rfl, rfl⟩ := h
        exact setQ_nodup _ _ _ hd (erase_tail_nodup _ _ (hd p))
      | false =>
        rw [ha, if_neg (by simp)] at h
        rw [Option.map_eq_some_iff] at h
        obtain ⟨⟨as1, st1, tr1, ok1⟩, h1, h⟩ := h
        simp only [Prod.mk.injEq] at h
        obtain ⟨rfl, rfl, rfl, rfl⟩ := h
        exact ih _ _ _ _ _ _ h1 (setQ_nodup _ _ _ hd ((hd p).erase s))

theorem scan_nodup (n : Nat) : ∀ (as : List Ans) (st : St) as' st' tr ok, scan n as st = some (as', st', tr, ok) →
    (∀ p, (st.q p).Nodup) → ∀ p, (st'.q p).Nodup := by
  induction n with
  | zero =>
    intro as st as' st' tr ok h hn
    rw [scan] at h
    simp only [Option.some.injEq, Prod.mk.injEq] at h
    obtain ⟨rfl, rfl, rfl, rfl⟩ := h
    exact hn
  | succ n ih =>
    intro as st as' st' tr ok h hn
    rw [scan, Option.bind_eq_some_iff] at h
    obtain ⟨⟨as1, st1, tr1, ok1⟩, h1, h⟩ := h
    have hn1 := serve_nodup _ _ _ _ _ _ _ h1 hn
    cases hk1 : ok1 with
    | true =>
      simp only [hk1, if_true, Option.some.injEq, Prod.mk.injEq] at h
      obtain ⟨rfl, rfl, rfl, rfl⟩ := h
      exact hn1
    | false =>
      simp only [hk1, if_neg Bool.false_ne_true, Option.map_eq_some_iff] at h
      obtain ⟨⟨as2, st2, tr2, ok2⟩, h2, h⟩ := h
      simp only [Prod.mk.injEq] at h
      obtain ⟨rfl, rfl, rfl, rfl⟩ := h
      exact ih _ _ _ _ _ _ h2 hn1

theorem step_nodup {st st' : St} {op : Op} {tr : List Asked} (h : step st op = some (st', tr)) (hn : ∀ p, (st.q p).Nodup) : ∀ p, (st'.q p).Nodup := by
  cases op with
  | schedule s p0 =>
    simp only [step, Option.some.injEq, Prod.mk.injEq] at h
    obtain ⟨rfl, rfl⟩ := h
    exact schedule_nodup st s p0 hn
  | writable as =>
    obtain ⟨-, ok, hw⟩ := step_writable h
    exact scan_nodup _ _ _ _ _ _ _ hw hn

/-! ## the platform is told -/

theorem schedule_flag (st : St) (s p : Nat) (h : st.writeScheduled = true) : (scheduleWrite st s p).writeScheduled = true ∧ (scheduleWrite st s p).armed = st.armed := by
  rw [scheduleWrite]
  split
  · exact ⟨h, rfl⟩
  · simp [St.setQ, h]

theorem during_flag (calls : List (Nat × Nat)) : ∀ st : St, st.writeScheduled = true → (during st calls).writeScheduled = true ∧ (during st calls).armed = st.armed := by
  induction calls with
  | nil => intro st h; exact ⟨h, rfl⟩
  | cons c calls ih =>
    intro st h
    have h1 := schedule_flag st c.1 c.2 h
    have h2 := ih _ h1.1
    exact ⟨h2.1, h2.2.trans h1.2⟩

theorem serve_flag (as : List Ans) : ∀ (st : St) (p : Nat) as' st' tr ok, serve as st p = some (as', st', tr, ok) →
    st.writeScheduled = true → st'.writeScheduled = true ∧ st'.armed = st.armed := by
  induction as with
  | nil =>
    intro st p as' st' tr ok h hn
    cases hq : st.q p with
    | nil =>
      rw [serve_nil _ _ _ hq] at h
      simp only [Option.some.injEq, Prod.mk.injEq] at h
      obtain ⟨rfl, rfl, rfl, rfl⟩ := h
      exact ⟨hn, rfl⟩
    | cons s t => rw [serve_out _ _ _ _ hq] at h; simp at h
  | cons a as ih =>
    intro st p as' st' tr ok h hn
    cases hq : st.q p with
    | nil =>
      rw [serve_nil _ _ _ hq] at h
      simp only [Option.some.injEq, Prod.mk.injEq] at h
      obtain ⟨rfl, rfl, rfl, rfl⟩ := h
      exact ⟨hn, rfl⟩
    | cons s t =>
      rw [serve_cons _ _ _ _ _ _ hq] at h
      have hd := during_flag a.calls st hn
      cases ha : a.ok with
      | true =>
        rw [ha, if_pos rfl] at h
        simp only [Option.some.injEq, Prod.mk.injEq] at h
        obtain ⟨rfl, rfl, rfl, rfl⟩ := h
        exact hd
      | false =>
        rw [ha, if_neg (by simp)] at h
        rw [Option.map_eq_some_iff] at h
        obtain ⟨⟨as1, st1, tr1, ok1⟩, h1, h⟩ := h
        simp only [Prod.mk.injEq] at h
        obtain ⟨rfl, rfl, rfl, rfl⟩ := h
        have := ih _ _ _ _ _ _ h1 hd.1
        exact ⟨this.1, this.2.trans hd.2⟩

/-- the flag says whether the platform was told; the answer says whether it calls again -/
theorem scan_flag (n : Nat) : ∀ (as : List Ans) (st : St) as' st' tr ok, scan n as st = some (as', st', tr, ok) →
    st.writeScheduled = true → st.armed = true → st'.writeScheduled = ok ∧ st'.armed = ok := by
  induction n with
  | zero =>
    intro as st as' st' tr ok h hn ha
    rw [scan] at h
    simp only [Option.some.injEq, Prod.mk.injEq] at h
    obtain ⟨rfl, rfl, rfl, rfl⟩ := h
    exact ⟨rfl, rfl⟩
  | succ n ih =>
    intro as st as' st' tr ok h hn ha
    rw [scan, Option.bind_eq_some_iff] at h
    obtain ⟨⟨as1, st1, tr1, ok1⟩, h1, h⟩ := h
    have hn1 := serve_flag _ _ _ _ _ _ _ h1 hn
    cases hk1 : ok1 with
    | true =>
      simp only [hk1, if_true, Option.some.injEq, Prod.mk.injEq] at h
      obtain ⟨rfl, rfl, rfl, rfl⟩ := h
      exact ⟨hn1.1, hn1.2.trans ha⟩
    | false =>
      simp only [hk1, if_neg Bool.false_ne_true, Option.map_eq_some_iff] at h
      obtain ⟨⟨as2, st2, tr2, ok2⟩, h2, h⟩ := h
      simp only [Prod.mk.injEq] at h
      obtain ⟨rfl, rfl, rfl, rfl⟩ := h
      exact ih _ _ _ _ _ _ h2 hn1.1 (hn1.2.trans ha)

/-- with nobody scheduling upwards, a pass in which nobody sends leaves the queues of the priorities it covers empty, and the others as they were -/
theorem scan_empties (n : Nat) : ∀ (as : List Ans) (st : St) as' st' tr, scan n as st = some (as', st', tr, false) →
    Tame tr → (∀ p, n ≤ p → p < 8 → st.q p = []) → ∀ p, p < 8 → st'.q p = [] := by
  induction n with
  | zero =>
    intro as st as' st' tr h ht hq p hp
    rw [scan] at h
    simp only [Option.some.injEq, Prod.mk.injEq] at h
    obtain ⟨rfl, rfl, rfl, -⟩ := h
    exact hq p (by omega) hp
  | succ n ih =>
    intro as st as' st' tr h ht hq
    rw [scan, Option.bind_eq_some_iff] at h
    obtain ⟨⟨as1, st1, tr1, ok1⟩, h1, h⟩ := h
    obtain ⟨⟨hl, hall, hlast⟩, hp, he, -⟩ := serve_pass _ _ _ _ _ _ _ h1
    cases hk1 : ok1 with
    | true =>
      simp [hk1] at h
    | false =>
      simp only [hk1, if_neg Bool.false_ne_true, Option.map_eq_some_iff] at h
      obtain ⟨⟨as2, st2, tr2, ok2⟩, h2, h⟩ := h
      simp only [Prod.mk.injEq] at h
      obtain ⟨rfl, rfl, rfl, rfl⟩ := h
      refine ih _ _ _ _ _ h2 (fun e hm => ht e (List.mem_append_right _ hm)) ?_
      intro p hnp hp8
      by_cases hpe : p = n
      · subst hpe; exact he hk1
      · obtain ⟨l1, m1, e1, q1, c1⟩ := hl p
        rw [askedAt_none p tr1 (fun e hm => by have := hp e hm; omega), List.nil_append, hq p (by omega) hp8, List.nil_append] at e1
        rw [sentAt_none p tr1 (hall hk1), List.append_nil] at q1
        rw [q1, ← e1]
        cases m1 with
        | nil => rfl
        | cons s m =>
          obtain ⟨e, hm, hc⟩ := c1 s (by simp)
          have := ht e (List.mem_append_left _ hm) (hall hk1 e hm) _ hc
          rw [hp e hm] at this
          simp at this
          omega

/-! ## requests made while a session is asked -/

theorem Law.keeps {st st' : St} {tr : List Asked} (h : Law st st' tr) {s p : Nat} (hs : s ∈ st.q p) : s ∈ st'.q p ∨ s ∈ askedAt p tr := by
  obtain ⟨l, m, e, q, -⟩ := h p
  have : s ∈ askedAt p tr ++ l := by rw [← e]; exact List.mem_append_left _ hs
  rcases List.mem_append.mp this with h1 | h1
  · exact Or.inr h1
  · left; rw [q]; exact List.mem_append_left _ h1

/-- every request made while a session was asked is kept, or followed by asking the session that it was for -/
def Heard (st' : St) (tr : List Asked) : Prop :=
  ∀ a e b, tr = a ++ e :: b → ∀ s p, (s, p) ∈ e.ans.calls → ¬ (e.s = s ∧ e.p = p ∧ e.ans.ok = false) → s ∈ st'.q p ∨ s ∈ askedAt p b

theorem serve_heard (as : List Ans) : ∀ (st : St) (p : Nat) as' st' tr ok, serve as st p = some (as', st', tr, ok) → Heard st' tr := by
  induction as with
  | nil =>
    intro st p as' st' tr ok h
    cases hq : st.q p with
    | nil =>
      rw [serve_nil _ _ _ hq] at h
      simp only [Option.some.injEq, Prod.mk.injEq] at h
      obtain ⟨rfl, rfl, rfl, rfl⟩ := h
      intro a e b hh; simp at hh
    | cons s t => rw [serve_out _ _ _ _ hq] at h; simp at h
  | cons x as ih =>
    intro st p as' st' tr ok h
    cases hq : st.q p with
    | nil =>
      rw [serve_nil _ _ _ hq] at h
      simp only [Option.some.injEq, Prod.mk.injEq] at h
      obtain ⟨rfl, rfl, rfl, rfl⟩ := h
      intro a e b hh; simp at hh
    | cons s t =>
      rw [serve_cons _ _ _ _ _ _ hq] at h
      cases ha : x.ok with
      | true =>
        rw [ha, if_pos rfl] at h
        simp only [Option.some.injEq, Prod.mk.injEq] at h
        obtain ⟨rfl, rfl, rfl, rfl⟩ := h
        intro a e b hh s' p' hc hns
        cases a with
        | cons y a => simp at hh
        | nil =>
          simp only [List.nil_append, List.cons.injEq] at hh
          obtain ⟨rfl, rfl⟩ := hh
          left
          have := during_mem x.calls st s' p' hc
          by_cases hp : p' = p
          · subst hp
            rw [setQ_same]
            by_cases hss : s' = s
            · simp [hss]
            · exact List.mem_append_left _ ((List.mem_erase_of_ne hss).mpr this)
          · rw [setQ_other _ _ _ _ hp]; exact this
      | false =>
        rw [ha, if_neg (by simp)] at h
        rw [Option.map_eq_some_iff] at h
        obtain ⟨⟨as1, st1, tr1, ok1⟩, h1, h⟩ := h
        simp only [Prod.mk.injEq] at h
        obtain ⟨rfl, rfl, rfl, rfl⟩ := h
        intro a e b hh s' p' hc hns
        cases a with
        | cons y a =>
          simp only [List.cons_append, List.cons.injEq] at hh
          exact ih _ _ _ _ _ _ h1 a e b hh.2 s' p' hc hns
        | nil =>
          simp only [List.nil_append, List.cons.injEq] at hh
          obtain ⟨rfl, rfl⟩ := hh
          refine Law.keeps (serve_pass _ _ _ _ _ _ _ h1).1.law ?_
          have := during_mem x.calls st s' p' hc
          by_cases hp : p' = p
          · subst hp
            rw [setQ_same]
            have hss : s' ≠ s := fun he => hns ⟨he.symm, rfl, ha⟩
            exact (List.mem_erase_of_ne hss).mpr this
          · rw [setQ_other _ _ _ _ hp]; exact this

theorem scan_heard (n : Nat) : ∀ (as : List Ans) (st : St) as' st' tr ok, scan n as st = some (as', st', tr, ok) → Heard st' tr := by
  induction n with
  | zero =>
    intro as st as' st' tr ok h
    rw [scan] at h
    simp only [Option.some.injEq, Prod.mk.injEq] at h
    obtain ⟨rfl, rfl, rfl, rfl⟩ := h
    intro a e b hh; simp at hh
  | succ n ih =>
    intro as st as' st' tr ok h
    rw [scan, Option.bind_eq_some_iff] at h
    obtain ⟨⟨as1, st1, tr1, ok1⟩, h1, h⟩ := h
    have hn1 := serve_heard _ _ _ _ _ _ _ h1
    cases hk1 : ok1 with
    | true =>
      simp only [hk1, if_true, Option.some.injEq, Prod.mk.injEq] at h
      obtain ⟨rfl, rfl, rfl, rfl⟩ := h
      exact hn1
    | false =>
      simp only [hk1, if_neg Bool.false_ne_true, Option.map_eq_some_iff] at h
      obtain ⟨⟨as2, st2, tr2, ok2⟩, h2, h⟩ := h
      simp only [Prod.mk.injEq] at h
      obtain ⟨rfl, rfl, rfl, rfl⟩ := h
      intro a e b hh s p hc hns
      rcases List.append_eq_append_iff.mp hh with ⟨c, h3, h4⟩ | ⟨c, h3, h4⟩
      · -- e belongs to the second part
        exact ih _ _ _ _ _ _ h2 c e b h4 s p hc hns
      · cases c with
        | nil =>
          simp only [List.nil_append] at h4
          exact ih _ _ _ _ _ _ h2 [] e b (by simpa using h4.symm) s p hc hns
        | cons y c =>
          simp only [List.cons_append, List.cons.injEq] at h4
          obtain ⟨rfl, rfl⟩ := h4
          rcases hn1 a e c h3 s p hc hns with h5 | h5
          · rcases Law.keeps (scan_pass _ _ _ _ _ _ _ h2).1.law h5 with h6 | h6
            · exact Or.inl h6
            · right; rw [askedAt_append]; exact List.mem_append_right _ h6
          · right; rw [askedAt_append]; exact List.mem_append_left _ h5

end Iface
end Rtmfp
