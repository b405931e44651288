import Verif.Lemmas.SessWay

/-! # Flows of equal priority take turns -/

namespace Rtmfp
namespace Sess

theorem packetsOf_ss (j : Nat) (es : List SS.Ev) : packetsOf j (es.map SOut.ss) = 0 := by
  rw [packetsOf, List.length_eq_zero_iff, List.filter_eq_nil_iff]
  intro x hx
  obtain ⟨e, _, rfl⟩ := List.mem_map.mp hx
  simp

theorem packetsOf_append (j : Nat) (a b : List SOut) : packetsOf j (a ++ b) = packetsOf j a + packetsOf j b := by
  rw [packetsOf, packetsOf, packetsOf, List.filter_append, List.length_append]

theorem packetsOf_close (s : Sess) (j : Nat) : packetsOf j (closeSession s).2 = 0 := packetsOf_ss _ _

theorem closeSession_open {s : Sess} (h : SS.Books s.ss) : (closeSession s).1.ss.isOpen = false := (SS.closeSession_like h s.now).2.1

theorem offer_list (pri : Nat) (now : Int) (gone : Nat → Bool) (l : List Nat) : ∀ (s : SS) (p : PA) (es : List SS.Ev),
    ((offer pri now gone l s p es).2.2.1 = none ∧ (offer pri now gone l s p es).2.1 = []) ∨
    ∃ j pre suf, (offer pri now gone l s p es).2.2.1 = some j ∧ l = pre ++ j :: suf ∧ (offer pri now gone l s p es).2.1 = suf ++ [j] := by
  induction l with
  | nil => intro s p es; exact Or.inl ⟨rfl, rfl⟩
  | cons i l ih =>
    intro s p es
    rw [offer]
    split
    · exact Or.inr ⟨i, [], l, rfl, rfl, rfl⟩
    · rcases ih (SS.sentRes i (s.assembleData i p pri now (gone i))).1 (s.assembleData i p pri now (gone i)).packet (es ++ (SS.sentRes i (s.assembleData i p pri now (gone i))).2) with h | ⟨j, pre, suf, h1, h2, h3⟩
      · exact Or.inl h
      · exact Or.inr ⟨j, i :: pre, suf, h1, by rw [h2]; rfl, h3⟩

theorem offer_pri (pri : Nat) (now : Int) (gone : Nat → Bool) {j : Nat} (l : List Nat) : ∀ (s : SS) (p : PA) (es : List SS.Ev),
    (offer pri now gone l s p es).2.2.1 = some j → (s.flow j).priority = pri := by
  induction l with
  | nil => intro s p es h; cases h
  | cons i l ih =>
    intro s p es h
    rw [offer] at h
    obtain ⟨k1, _⟩ := SS.assembleData_like s i p pri now (gone i)
    split at h
    · rename_i hs
      injection h with h
      subst h
      apply Classical.byContradiction
      intro q
      rw [SS.assembleData, if_pos (Ne.symm q)] at hs
      cases hs
    · have := ih _ _ _ h
      have e1 : (SS.sentRes i (s.assembleData i p pri now (gone i))).1.flow = (s.assembleData i p pri now (gone i)).s.flow := by
        show ((s.assembleData i p pri now (gone i)).s.afterSend (s.assembleData i p pri now (gone i)).sent).flow = _
        rw [SS.afterSend]; split <;> rfl
      rw [e1, (k1 j).pri] at this
      exact this

/-- how the line of a priority changes: more flows at the end, or the flow that sent goes to the end and those before it leave -/
theorem way_line {s t : Sess} {op : Op} {os : List SOut} (hb : SS.Books s.ss) (w : Way s op t os) (ho : t.ss.isOpen = true) (p : Nat) :
    ((∀ j, packetsOf j os = 0) ∧ ((∃ l, t.ready p = s.ready p ++ l) ∨ t.ready p = [])) ∨
    ∃ pri, ∃ j : Nat, (∀ k, packetsOf k os = if k = j then 1 else 0) ∧ (p ≠ pri → t.ready p = s.ready p) ∧ (s.ss.flow j).priority = pri ∧
      ∃ pre suf, s.ready pri = pre ++ j :: suf ∧ t.ready pri = suf ++ [j] := by
  have nil : ∀ j, packetsOf j [] = 0 := fun _ => rfl
  have same : ∃ l, s.ready p = s.ready p ++ l := ⟨[], (List.append_nil _).symm⟩
  cases w with
  | flow h a b c => exact Or.inl ⟨fun j => packetsOf_ss j _, Or.inl (a.ready p)⟩
  | writable w =>
    cases w with
    | moved => exact Or.inl ⟨nil, Or.inl same⟩
    | closed => exact Or.inl ⟨nil, Or.inl same⟩
    | acks => exact Or.inl ⟨fun j => rfl, Or.inl same⟩
    | full => exact Or.inl ⟨nil, Or.inl same⟩
    | limited => exact Or.inl ⟨nil, Or.inl same⟩
    | nothing h1 h2 h3 h4 =>
      rename_i pri packet gone _ _ _ _ _ _
      left
      refine ⟨fun j => packetsOf_ss j _, ?_⟩
      dsimp only
      split
      · right
        rcases offer_list pri s.now gone (s.ready pri) s.ss packet [] with ⟨_, h⟩ | ⟨j, _, _, h, _⟩
        · exact h
        · rw [h] at h4; cases h4
      · exact Or.inl same
    | data h1 h2 h3 h4 h5 =>
      rename_i pri packet gone _ _ _ _ _ _ _ _ j rs
      right
      refine ⟨pri, j, fun k => ?_, fun hp => if_neg hp, offer_pri _ _ _ _ _ _ _ h4, ?_⟩
      · rw [packetsOf_append, packetsOf_append, packetsOf_ss]
        simp only [packetsOf, List.filter_cons, List.filter_nil]
        by_cases e : k = j
        · subst e; simp
        · have : (j == k) = false := by simp [Ne.symm e]
          simp [this, e]
      · rcases offer_list pri s.now gone (s.ready pri) s.ss packet [] with ⟨h, _⟩ | ⟨j', pre, suf, h, h', h''⟩
        · rw [h] at h4; cases h4
        · rw [h] at h4; injection h4 with h4; subst h4
          exact ⟨pre, suf, h', by dsimp only; rw [if_pos rfl]; exact h''⟩
  | ack a => exact Or.inl ⟨fun j => packetsOf_ss j _, Or.inl (a.ready p)⟩
  | exception a => exact Or.inl ⟨fun j => packetsOf_ss j _, Or.inl (a.ready p)⟩
  | afterAcks a => exact Or.inl ⟨nil, Or.inl (a.ready p)⟩
  | gaveUp h1 h2 h3 h4 h5 h6 =>
    have := closeSession_open (s := { s with alarm := none, burst := MAX_BURST }) hb
    rw [this] at ho; cases ho
  | lost h1 h2 h3 h4 h5 h6 a _ => exact Or.inl ⟨nil, Or.inl (a.ready p)⟩
  | again h1 h2 h3 h4 h5 h6 a _ => exact Or.inl ⟨fun _ => rfl, Or.inl (a.ready p)⟩
  | idle =>
    have := closeSession_open hb
    rw [this] at ho; cases ho
  | close =>
    have := closeSession_open hb
    rw [this] at ho; cases ho
  | _ => exact Or.inl ⟨fun _ => rfl, Or.inl same⟩

theorem idxOf_append_lt {l : List Nat} {i j : Nat} (hi : i ∈ l) (h : l.idxOf i < l.idxOf j) (m : List Nat) : (l ++ m).idxOf i < (l ++ m).idxOf j := by
  rw [List.idxOf_append, List.idxOf_append, if_pos hi]
  split
  · exact h
  · have := List.idxOf_lt_length_iff.mpr hi; omega

theorem idxOf_rotate {pre suf : List Nat} {i j k : Nat} (hn : (pre ++ k :: suf).Nodup) (hi : i ∈ suf) (hik : i ≠ k) (hj : j ≠ i)
    (h : j = k ∨ (pre ++ k :: suf).idxOf i < (pre ++ k :: suf).idxOf j) : (suf ++ [k]).idxOf i < (suf ++ [k]).idxOf j := by
  rw [List.nodup_append, List.nodup_cons] at hn
  obtain ⟨n1, ⟨n2, n3⟩, n4⟩ := hn
  have hpre : i ∉ pre := fun q => n4 i q i (List.mem_cons_of_mem _ hi) rfl
  rcases h with rfl | h
  · rw [List.idxOf_append, List.idxOf_append, if_pos hi, if_neg n2]
    have := List.idxOf_lt_length_iff.mpr hi; omega
  · rw [List.idxOf_append, List.idxOf_append, if_pos hi]
    have hl := List.idxOf_lt_length_iff.mpr hi
    by_cases hs : j ∈ suf
    · rw [if_pos hs]
      rw [List.idxOf_append, List.idxOf_append, if_neg hpre, List.idxOf_cons, show (k == i) = false by simp [Ne.symm hik], cond_false] at h
      have hjp : j ∉ pre := fun q => n4 j q j (List.mem_cons_of_mem _ hs) rfl
      rw [if_neg hjp, List.idxOf_cons] at h
      have : (k == j) = false := by
        rw [beq_eq_false_iff_ne]; intro e; subst e; exact n2 hs
      rw [this, cond_false] at h
      omega
    · rw [if_neg hs]; omega

theorem Next.run {P : Sess → Prop} {responder : Bool} {dest : Nat} {ops ops' : List Op} {s t : Sess} {out out' : List SOut} (h : Run responder dest ops s out)
    (k : Next P ops s ops' t out') : Run responder dest ops' t (out ++ out') ∧ P t := by
  induction k with
  | nil hp => exact ⟨by rw [List.append_nil]; exact h, hp⟩
  | snoc _ ha hs hp ih => exact ⟨by rw [← List.append_assoc]; exact .snoc ih.1 ha hs, hp⟩

theorem Next.weaken {P Q : Sess → Prop} {ops ops' : List Op} {s t : Sess} {out' : List SOut} (k : Next P ops s ops' t out') (h : ∀ u, P u → Q u) : Next Q ops s ops' t out' := by
  induction k with
  | nil hp => exact .nil (h _ hp)
  | snoc _ ha hs hp ih => exact .snoc ih ha hs (h _ hp)

/-- while a flow can send, no other of its priority gets more than one packet ahead -/
theorem turns {responder : Bool} {dest : Nat} {ops ops' : List Op} {s t : Sess} {out out' : List SOut} (h : Run responder dest ops s out) {i j p : Nat} (hij : j ≠ i)
    (k : Next (fun u => CanSend u i ∧ (u.ss.flow i).priority = p ∧ (u.ss.flow j).priority = p) ops s ops' t out') :
    packetsOf j out' ≤ packetsOf i out' + 1 ∧ (packetsOf j out' = packetsOf i out' + 1 → (t.ready p).idxOf i < (t.ready p).idxOf j) := by
  induction k with
  | nil _ => exact ⟨Nat.zero_le _, fun e => by cases e⟩
  | snoc q ha hs hp ih =>
    rename_i ops2 u out2 op v os
    obtain ⟨r1, hp1⟩ := q.run h
    have i1 := run_inv r1
    have i2 := run_inv (.snoc r1 ha hs)
    obtain ⟨c1, c2, c3⟩ := hp1
    obtain ⟨d1, d2, d3⟩ := hp
    have ri : i ∈ u.ready p := by have := i1.core.ready i (fun q => q) c1; rw [c2] at this; exact this
    have ri2 : i ∈ v.ready p := by have := i2.core.ready i (fun q => q) d1; rw [d2] at this; exact this
    have ho := i2.traced.books.isOpen i d1.1
    have w := step_way hs
    rw [packetsOf_append, packetsOf_append]
    rcases way_line i1.traced.books w ho p with ⟨a1, a2⟩ | ⟨pri, x, a1, a2, a5, pre, suf, a3, a4⟩
    · rw [a1, a1]
      refine ⟨ih.1, fun e => ?_⟩
      rcases a2 with ⟨l, a2⟩ | a2
      · rw [a2]; exact idxOf_append_lt ri (ih.2 e) l
      · rw [a2] at ri2; cases ri2
    · rw [a1, a1]
      by_cases hpp : p = pri
      · subst hpp
        have nd := i1.core.once p
        rw [a3] at nd ih
        by_cases hx : i = x
        · rw [if_pos hx, if_neg (fun e => hij (by rw [e, hx]))]
          exact ⟨by have := ih.1; omega, fun e => by have := ih.1; omega⟩
        · rw [if_neg hx]
          have hsuf : i ∈ suf := by
            rw [a4] at ri2
            simpa [hx] using ri2
          by_cases hjx : j = x
          · rw [if_pos hjx]
            have hle : packetsOf j out2 ≤ packetsOf i out2 := by
              apply Classical.byContradiction
              intro hc
              have h1 := ih.2 (by have := ih.1; omega)
              rw [List.nodup_append, List.nodup_cons] at nd
              have hpre : i ∉ pre := fun q => nd.2.2 i q i (List.mem_cons_of_mem _ hsuf) rfl
              have hpx : j ∉ pre := fun q => nd.2.2 j q x (by simp) hjx
              rw [List.idxOf_append, List.idxOf_append, if_neg hpre, if_neg hpx, hjx, List.idxOf_cons_self] at h1
              omega
            exact ⟨by omega, fun _ => by rw [a4]; exact idxOf_rotate nd hsuf hx hij (Or.inl hjx)⟩
          · rw [if_neg hjx]
            exact ⟨ih.1, fun e => by rw [a4]; exact idxOf_rotate nd hsuf hx hij (Or.inr (ih.2 e))⟩
      · have hi : i ≠ x := fun e => hpp (by rw [← c2, ← a5, e])
        have hj : j ≠ x := fun e => hpp (by rw [← c3, ← a5, e])
        rw [if_neg hi, if_neg hj, a2 hpp]
        exact ih

end Sess
end Rtmfp
