import Verif.Lemmas.RecvAll

/-! # From the invariants to the messages of a stream -/

namespace Rtmfp
namespace RFlow
open Spec
open IndexSet (Mem Canon)

theorem sorted_sublist {l1 l2 : List Msg} (hle : ∀ m ∈ l2, m.sn ≤ m.last) (h1 : l1.Pairwise (fun a b => a.last < b.sn)) (h2 : l2.Pairwise (fun a b => a.last < b.sn))
    (hs : ∀ m ∈ l1, m ∈ l2) : l1.Sublist l2 := by
  induction l2 generalizing l1 with
  | nil =>
    cases l1 with
    | nil => exact .slnil
    | cons a s => have := hs a (by simp); cases this
  | cons b t ih =>
    rw [List.pairwise_cons] at h2
    have ht : ∀ m ∈ t, m.sn ≤ m.last := fun m hm => hle m (by simp [hm])
    cases l1 with
    | nil => exact List.nil_sublist _
    | cons a s =>
      rw [List.pairwise_cons] at h1
      by_cases e : a = b
      · subst e
        refine .cons_cons _ (ih ht h1.2 h2.2 ?_)
        intro m hm
        rcases List.mem_cons.mp (hs m (by simp [hm])) with rfl | h
        · have := h1.1 m hm
          have := hle m (by simp)
          omega
        · exact h
      · refine .cons _ (ih ht (List.pairwise_cons.mpr h1) h2.2 ?_)
        have hat : a ∈ t := by
          rcases List.mem_cons.mp (hs a (by simp)) with h | h
          · exact absurd h e
          · exact h
        intro m hm
        rcases List.mem_cons.mp (hs m hm) with rfl | h
        · exfalso
          rcases List.mem_cons.mp hm with h | h
          · exact e h.symm
          · have := h1.1 m h
            have := h2.1 a hat
            have := hle m (by simp)
            have := ht a hat
            omega
        · exact h

theorem sorted_prefix {l1 l2 : List Msg} (hle : ∀ m ∈ l2, m.sn ≤ m.last) (h2 : l2.Pairwise (fun a b => a.last < b.sn))
    (hs : l1.Sublist l2) (hc : ∀ x ∈ l1, ∀ y ∈ l2, y.last < x.sn → y ∈ l1) : l1 <+: l2 := by
  induction hs with
  | slnil => exact List.prefix_rfl
  | @cons l1 l2 b hs ih =>
    rw [List.pairwise_cons] at h2
    cases l1 with
    | nil => exact List.nil_prefix
    | cons a s =>
      exfalso
      have hat : a ∈ l2 := hs.subset (by simp)
      have hba := h2.1 a hat
      have hb := hc a (by simp) b (by simp) hba
      have : b ∈ l2 := hs.subset hb
      have := h2.1 b this
      have := hle b (by simp)
      omega
  | @cons_cons l1 l2 b hs ih =>
    rw [List.pairwise_cons] at h2
    rw [List.prefix_cons_inj]
    refine ih (fun m hm => hle m (by simp [hm])) h2.2 (fun x hx y hy hlt => ?_)
    rcases List.mem_cons.mp (hc x (by simp [hx]) y (by simp [hy]) hlt) with rfl | h
    · have := h2.1 y hy
      have := hle y (by simp)
      omega
    · exact h

theorem nothing_prefix {h : List DataChunk} {c : DataChunk} (hn : NothingSkipped (h ++ [c])) : NothingSkipped h := by
  intro pre x post e
  exact hn pre x (post ++ [c]) (by rw [e]; simp)

theorem nothing_skipped {h : List DataChunk} (hn : NothingSkipped h) {k : Nat} (hk : 1 ≤ k) :
    (Covered h k → Arrived h k) ∧ (Arrived h k → InTime h k) := by
  obtain ⟨n, hl⟩ : ∃ n, h.length = n := ⟨_, rfl⟩
  induction n generalizing h with
  | zero =>
    have : h = [] := List.eq_nil_of_length_eq_zero hl
    subst this
    exact ⟨(fun ⟨c, hc, _⟩ => nomatch hc), (fun ⟨c, hc, _⟩ => nomatch hc)⟩
  | succ n ih =>
    rcases List.eq_nil_or_concat h with rfl | ⟨l, c, rfl⟩
    · simp at hl
    · rw [List.concat_eq_append] at hn hl ⊢
      obtain ⟨i1, i2⟩ := ih (nothing_prefix hn) (by simp at hl; exact hl)
      have hc := hn l c [] rfl
      have arr : Arrived l k → Arrived (l ++ [c]) k := fun ⟨x, hx, e⟩ => ⟨x, by simp [hx], e⟩
      have arrc : k = c.sn → Arrived (l ++ [c]) k := fun e => ⟨c, by simp, e.symm⟩
      constructor
      · rw [covered_snoc]
        rintro (h | h | h)
        · rcases hc.2 k hk h with h | h
          · exact arrc h
          · exact arr h
        · exact arrc h
        · exact arr (i1 h)
      · intro ha
        rw [inTime_snoc]
        by_cases hp : Arrived l k
        · exact .inl (i2 hp)
        · obtain ⟨x, hx, e⟩ := ha
          rcases List.mem_append.mp hx with hx | hx
          · exact absurd ⟨x, hx, e⟩ hp
          · rw [List.mem_singleton] at hx
            subst hx
            exact .inr ⟨e.symm, hc.1, fun h => hp (i1 h)⟩

/-- the stream of a list of messages -/
theorem stream_wf {ms : List (List Bytes)} (hlen : (stream ms).length < W64) : WFst (fragAt ms) := by
  have : fragAt ms = fragFrom 1 ms := funext (fragAt_eq ms)
  rw [this]
  exact wf_fragFrom ms 1 (Nat.le_refl _) (by omega)

theorem fragAt_le {ms : List (List Bytes)} : ∀ k x, fragAt ms k = some x → k ≤ (stream ms).length := by
  intro k x h
  rw [fragAt] at h
  split at h
  · cases h
  · have := (List.getElem?_eq_some_iff.mp h).1
    omega

theorem mem_messages' {ms : List (List Bytes)} (hne : ∀ m ∈ ms, m ≠ []) (m : Msg) :
    m ∈ messages ms ↔ IsMsg (fragAt ms) m.sn m.last ∧ m.count = m.last + 1 - m.sn ∧ m.data = content (fragAt ms) m.sn m.last := by
  have : fragAt ms = fragFrom 1 ms := funext (fragAt_eq ms)
  rw [this]
  exact mem_messages hne m

/-- the same message -/
theorem msg_eq {st : St} (w : WFst st) {d m : Msg} (hd : IsMsg st d.sn d.last ∧ d.count = d.last + 1 - d.sn ∧ d.data = content st d.sn d.last)
    (hm : IsMsg st m.sn m.last ∧ m.count = m.last + 1 - m.sn ∧ m.data = content st m.sn m.last) {k : Nat}
    (h1 : d.sn ≤ k) (h2 : k ≤ d.last) (h3 : m.sn ≤ k) (h4 : k ≤ m.last) : d = m := by
  have same : ∀ {a b : Msg}, IsMsg st a.sn a.last → IsMsg st b.sn b.last → a.sn ≤ k → k ≤ a.last → b.sn ≤ k → k ≤ b.last → a.sn ≤ b.sn ∧ b.last ≤ a.last := by
    intro a b ha hb p q r s
    have hlink : ∀ j, b.sn ≤ j → j < b.last → Link st j := by
      rcases hb with ⟨e, _⟩ | ⟨_, _, _, h⟩
      · intro j x y; omega
      · exact h
    have e1 := ha.same_mem w p q (k' := b.sn) (fun j x y => hlink j (by omega) (by omega))
    have e2 := ha.same_mem w p q (k' := b.last) (fun j x y => hlink j (by omega) (by omega))
    exact ⟨e1.1, e2.2⟩
  have a1 := same hd.1 hm.1 h1 h2 h3 h4
  have a2 := same hm.1 hd.1 h3 h4 h1 h2
  have e1 : d.sn = m.sn := by omega
  have e2 : d.last = m.last := by omega
  obtain ⟨dd, ds, dc⟩ := d
  obtain ⟨md, msn, mc⟩ := m
  simp only at e1
  have p1 := hd.2.1
  have p2 := hd.2.2
  have q1 := hm.2.1
  have q2 := hm.2.2
  rw [e2] at p1 p2
  simp only at p1 p2 q1 q2
  rw [e1] at p1 p2
  rw [Msg.mk.injEq]
  exact ⟨p2.trans q2.symm, e1, p1.trans q1.symm⟩

/-- the fragments of an undelivered message that all arrived in time are buffered -/
theorem E.waiting {st : St} (w : WFst st) {N : Nat} {o : Order} {h : List DataChunk} {f : RFlow} {ev : List REv} (e : E st N o h f ev) {m : Msg}
    (hm : IsMsg st m.sn m.last ∧ m.count = m.last + 1 - m.sn ∧ m.data = content st m.sn m.last) (hall : ∀ k, m.sn ≤ k → k ≤ m.last → InTime h k)
    (hnot : m ∉ msgsOf ev) : ∀ k, m.sn ≤ k → k ≤ m.last → InBuf f.buf k := by
  intro k a b
  rcases e.cover k (hall k a b) with h1 | ⟨d, hd, h1, h2⟩ | ⟨k', h1, _, h3⟩
  · exact h1
  · exact absurd (msg_eq w (e.inv.g.msg d hd) hm h1 h2 a b ▸ hd) hnot
  · have := hm.1.same_mem w a b h3
    exact absurd (hall k' this.1 this.2) h1

theorem E.network {st : St} (w : WFst st) {N : Nat} {h : List DataChunk} {f : RFlow} {ev : List REv} (e : E st N .network h f ev) (m : Msg) :
    m ∈ msgsOf ev ↔ (IsMsg st m.sn m.last ∧ m.count = m.last + 1 - m.sn ∧ m.data = content st m.sn m.last) ∧ ∀ k, m.sn ≤ k → k ≤ m.last → InTime h k := by
  constructor
  · intro hm
    exact ⟨e.inv.g.msg m hm, fun k a b => (e.inv.g.gone m hm k a b).1⟩
  · rintro ⟨hm, hall⟩
    refine Classical.byContradiction (fun hnot => ?_)
    exact e.noMsg rfl _ _ hm.1 (e.waiting w hm hall hnot)

theorem E.sequence {st : St} (w : WFst st) {N : Nat} {h : List DataChunk} {f : RFlow} {ev : List REv} (e : E st N .sequence h f ev) (m : Msg) :
    m ∈ msgsOf ev ↔ (IsMsg st m.sn m.last ∧ m.count = m.last + 1 - m.sn ∧ m.data = content st m.sn m.last) ∧
      (∀ k, m.sn ≤ k → k ≤ m.last → InTime h k) ∧ ∀ k, 1 ≤ k → k ≤ m.last → Covered h k := by
  have hcsn : ∀ x, x ≤ f.csn ↔ ∀ k, 1 ≤ k → k ≤ x → Covered h k := by
    intro x
    rw [csn_iff e.inv.canon e.inv.zero]
    exact ⟨fun hh k a b => (e.mem k).1 (hh k a b), fun hh k a b => (e.mem k).2 (hh k a b)⟩
  rw [← hcsn]
  constructor
  · intro hm
    exact ⟨e.inv.g.msg m hm, fun k a b => (e.inv.g.gone m hm k a b).1, (e.ordered rfl).le m hm⟩
  · rintro ⟨hm, hall, hle⟩
    refine Classical.byContradiction (fun hnot => ?_)
    have hb := e.waiting w hm hall hnot
    have hml := hm.1.le
    obtain ⟨x, hx, hxs⟩ := hb m.sn (Nat.le_refl _) hml
    cases hbuf : f.buf with
    | nil => rw [hbuf] at hx; cases hx
    | cons X r =>
      have hXle : X.2.sn ≤ m.sn := by
        have hs := e.inv.ok.sorted
        rw [hbuf, List.pairwise_cons] at hs
        rw [hbuf] at hx
        rcases List.mem_cons.mp hx with rfl | hx
        · omega
        · have := hs.1 x hx; omega
      have hX : X ∈ f.buf := by rw [hbuf]; simp
      rcases e.rest X r hbuf with h1 | ⟨_, hi, hrun, hnm, hle2⟩
      · omega
      · have hrm := hm.1.run w e.inv.ok hb
        have hu := hrun.unique hrm (k := m.sn) hXle (by omega) (Nat.le_refl _) hml
        exact hnm (by rw [hu.1, hu.2]; exact hm.1)

end RFlow
end Rtmfp
