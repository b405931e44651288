import Verif.Spec.Loss
import Verif.Lemmas.SendLined
import Verif.Lemmas.SendFate
import Verif.Lemmas.SendStream

/-! # How fragments are lost -/

namespace Rtmfp
namespace SS

/-! ## nothing happens to fragments in flight -/

/-- the fragments of `g` are those of `f`, or new and not sent -/
structure QStill (f g : SF) : Prop where
  queue : ∀ x ∈ g.queue, x ∈ f.queue ∨ (f.nextSn ≤ x.sn ∧ x.inFlight = false ∧ x.everSent = false)
  next : f.nextSn ≤ g.nextSn

theorem QStill.refl (f : SF) : QStill f f := ⟨fun _ h => Or.inl h, Nat.le_refl _⟩
theorem QStill.trans {f g h : SF} (a : QStill f g) (b : QStill g h) : QStill f h := by
  refine ⟨fun x hx => ?_, Nat.le_trans a.next b.next⟩
  rcases b.queue x hx with k | ⟨k1, k2⟩
  · exact a.queue x k
  · exact Or.inr ⟨Nat.le_trans a.next k1, k2⟩
theorem QStill.same {f g : SF} (hq : g.queue = f.queue) (hn : g.nextSn = f.nextSn) : QStill f g :=
  ⟨fun x hx => Or.inl (hq ▸ hx), Nat.le_of_eq hn.symm⟩
theorem QStill.empty {f g : SF} (hq : g.queue = []) (hn : g.nextSn = f.nextSn) : QStill f g :=
  ⟨fun x hx => (by rw [hq] at hx; cases hx), Nat.le_of_eq hn.symm⟩

/-- of all flows, with the transmission numbers -/
structure Still (s t : SS) : Prop where
  flow : ∀ j, QStill (s.flow j) (t.flow j)
  outs : t.outs = s.outs
  next : t.nextTsn = s.nextTsn
  maxAck : t.maxTsnAck = s.maxTsnAck

theorem Still.refl (s : SS) : Still s s := ⟨fun _ => .refl _, rfl, rfl, rfl⟩
theorem Still.trans {s t u : SS} (a : Still s t) (b : Still t u) : Still s u :=
  ⟨fun j => (a.flow j).trans (b.flow j), b.outs.trans a.outs, b.next.trans a.next, b.maxAck.trans a.maxAck⟩
theorem Still.set {s : SS} {i : Nat} {f : SF} (h : QStill (s.flow i) f) : Still s (s.setFlow i f) := by
  refine ⟨fun j => ?_, rfl, rfl, rfl⟩
  by_cases e : j = i
  · subst e; rw [setFlow_same]; exact h
  · rw [setFlow_other _ _ e]; exact .refl _

theorem Still.rcpt {s : SS} (r : RStore) : Still s { s with receipts := r } := ⟨fun _ => .refl _, rfl, rfl, rfl⟩

theorem gotoClosed_still (s : SS) (i : Nat) : Still s (s.gotoClosed i) := by
  obtain ⟨r1, _, _, _, r2, r3⟩ := gotoClosed_rest s i
  refine ⟨fun j => ?_, r1, r2, r3⟩
  by_cases e : j = i
  · subst e; rw [gotoClosed_flow]; split
    · exact .refl _
    · exact .same rfl rfl
  · rw [gotoClosed_other _ _ e]; exact .refl _

theorem queueFrags_still (s : SS) (i : Nat) (fs : List (Fra × Bytes)) (now a b : Int) (rid : Nat) (names : Nat → Nat) :
    Still s (s.queueFrags i fs now a b rid names) := by
  refine ⟨fun j => ?_, rfl, rfl, rfl⟩
  by_cases e : j = i
  · subst e
    rw [queueFrags_flow]
    refine ⟨fun x hx => ?_, Nat.le_add_right _ _⟩
    rcases List.mem_append.mp hx with hx | hx
    · exact Or.inl hx
    · obtain ⟨k1, k2, _, _, _, k3⟩ := number_new _ _ _ _ x hx
      exact Or.inr ⟨k2, k1, k3⟩
  · rw [queueFrags_other _ _ _ _ _ _ _ _ e]; exact .refl _

theorem addFin_still (s : SS) (i : Nat) (now : Int) (rid : Nat) (names : Nat → Nat) : Still s (s.addFin i now rid names) := by
  rcases addFin_cases s i now rid names with ⟨_, e⟩ | ⟨_, e⟩ <;> rw [e]
  · exact .refl s
  · exact queueFrags_still _ _ _ _ _ _ _ _

theorem closeState_still (s : SS) (i : Nat) (now : Int) (rid : Nat) (names : Nat → Nat) : Still s (s.closeState i now rid names) := by
  rw [closeState]
  split
  · split
    · exact (addFin_still s i now rid names).trans (.set (.same rfl rfl))
    · exact gotoClosed_still s i
  · exact .refl s

theorem close_still (s : SS) (i : Nat) (now : Int) (rid : Nat) (names : Nat → Nat) : Still s (s.close i now rid names) := by
  rw [close]
  have h1 : Still s ((s.setFlow i { s.flow i with onException := false, baseOpen := false }).closeState i now rid names) :=
    (Still.set (i := i) (f := { s.flow i with onException := false, baseOpen := false }) (.same rfl rfl)).trans (closeState_still _ i now rid names)
  dsimp only
  split
  · exact h1.trans (gotoClosed_still _ _)
  · exact h1

theorem exceptionReport_still (s : SS) (i : Nat) (now : Int) (rid : Nat) (names : Nat → Nat) :
    Still s (s.onExceptionReport i now rid names).1 := by
  rw [onExceptionReport]
  dsimp only
  exact ((Still.set (i := i) (f := { s.flow i with exception := true }) (.same rfl rfl)).trans (close_still _ i now rid names)).trans (.rcpt _)

theorem didClose_still (s : SS) (i : Nat) (now : Int) (rid : Nat) (names : Nat → Nat) :
    Still s (s.onSessionDidClose i now rid names).1 := by
  rw [onSessionDidClose]
  exact (exceptionReport_still s i now rid names).trans (.set (.empty rfl rfl))

theorem closeFlows_still (now : Int) (l : List Nat) : ∀ s : SS, Still s (closeFlows now s l).1 := by
  induction l with
  | nil => intro s; exact .refl s
  | cons i l ih => intro s; rw [closeFlows]; exact (didClose_still s i now 0 _).trans (ih _)

theorem trim_still (s : SS) (i : Nat) (now : Int) : Still s (s.trim i now).1 := by
  rw [trim]
  dsimp only
  obtain ⟨k, e, _⟩ := trimLoop_queue now (s.flow i).queue s.receipts
  refine Still.trans (t := s.setFlow i { s.flow i with queue := (trimLoop now s.receipts (s.flow i).queue).2.1 })
    (.set (f := { s.flow i with queue := (trimLoop now s.receipts (s.flow i).queue).2.1 }) ⟨fun x hx => Or.inl ?_, Nat.le_refl _⟩) (.rcpt _)
  have : x ∈ (trimLoop now s.receipts (s.flow i).queue).2.1 := hx
  rw [e] at this
  exact List.mem_of_mem_drop this

/-! ## an outstanding fragment is a fragment in flight -/

theorem out_iff {s : SS} (h : Books s) (j : Nat) {f : SFrag} (hf : f ∈ (s.flow j).queue) :
    (∃ o ∈ s.outs, o.flow = j ∧ o.sn = f.sn ∧ o.tsn ≤ s.maxTsnAck) ↔ (f.inFlight = true ∧ f.tsn ≤ s.maxTsnAck) := by
  have hb := h.flow j
  constructor
  · rintro ⟨o, ho, h1, h2, h3⟩
    have : o ∈ refs j (s.flow j).queue := hb.perm.mem_iff.mp (by simp [ofFlow, ho, h1])
    obtain ⟨g, hg, g1, rfl⟩ := refs_mem.mp this
    have := sorted_inj hb.ok.sorted hg hf h2
    subst this
    exact ⟨g1, h3⟩
  · rintro ⟨h1, h2⟩
    have : refOf j f ∈ ofFlow j s.outs := hb.perm.mem_iff.mpr (refs_mem.mpr ⟨f, hf, h1, rfl⟩)
    rw [ofFlow, List.mem_filter] at this
    exact ⟨refOf j f, this.1, rfl, rfl, h2⟩

/-! ## the loops -/

/-- the list has an entry for the fragment -/
def hit (l : List OutRef) (j sn : Nat) : Bool := l.any fun o => decide (o.flow = j) && decide (o.sn = sn)

theorem hit_iff {l : List OutRef} {j sn : Nat} : hit l j sn = true ↔ ∃ o ∈ l, o.flow = j ∧ o.sn = sn := by
  simp [hit]

/-- a fragment is lost -/
def lostFrag (f : SFrag) : SFrag := { f with inFlight := false }
/-- a fragment is counted -/
def nakedFrag (f : SFrag) : SFrag := if f.nak + 1 ≥ 3 then { f with nak := f.nak + 1, inFlight := false } else { f with nak := f.nak + 1 }

@[simp] theorem lostFrag_sn (f : SFrag) : (lostFrag f).sn = f.sn := rfl
@[simp] theorem nakedFrag_sn (f : SFrag) : (nakedFrag f).sn = f.sn := by rw [nakedFrag]; split <;> rfl

theorem lose_queue (s : SS) (o : OutRef) (j : Nat) : ((lose s o).flow j).queue =
    (s.flow j).queue.map (fun f => if o.flow = j ∧ o.sn = f.sn then lostFrag f else f) := by
  rw [lose]
  by_cases e : j = o.flow
  · subst e
    rw [setFlow_same, modFrag]
    apply List.map_congr_left
    intro f _
    by_cases h : f.sn = o.sn
    · rw [if_pos h, if_pos ⟨rfl, h.symm⟩]; rfl
    · rw [if_neg h, if_neg (fun k => h k.2.symm)]
  · rw [setFlow_other _ _ e]
    rw [show (fun f : SFrag => if o.flow = j ∧ o.sn = f.sn then lostFrag f else f) = id by
      funext f; rw [if_neg (fun k => e k.1.symm)]; rfl]
    simp

theorem nakFrag_queue (s : SS) (o : OutRef) (j : Nat) : ((nakFrag s o).flow j).queue =
    (s.flow j).queue.map (fun f => if o.flow = j ∧ o.sn = f.sn then { f with nak := f.nak + 1 } else f) := by
  rw [nakFrag]
  by_cases e : j = o.flow
  · subst e
    rw [setFlow_same, modFrag]
    apply List.map_congr_left
    intro f _
    by_cases h : f.sn = o.sn
    · rw [if_pos h, if_pos ⟨rfl, h.symm⟩]
    · rw [if_neg h, if_neg (fun k => h k.2.symm)]
  · rw [setFlow_other _ _ e]
    rw [show (fun f : SFrag => if o.flow = j ∧ o.sn = f.sn then { f with nak := f.nak + 1 } else f) = id by
      funext f; rw [if_neg (fun k => e k.1.symm)]; rfl]
    simp

theorem loseAll_queue (l : List OutRef) : ∀ (s : SS) (j : Nat), ((l.foldl lose s).flow j).queue =
    (s.flow j).queue.map (fun f => if hit l j f.sn = true then lostFrag f else f) := by
  induction l with
  | nil => intro s j; simp [hit]
  | cons o l ih =>
    intro s j
    rw [List.foldl_cons, ih, lose_queue, List.map_map]
    apply List.map_congr_left
    intro f _
    simp only [Function.comp]
    by_cases h : o.flow = j ∧ o.sn = f.sn
    · rw [if_pos h]
      have h2 : hit (o :: l) j f.sn = true := hit_iff.mpr ⟨o, by simp, h⟩
      rw [if_pos h2]
      split <;> rfl
    · rw [if_neg h]
      have h2 : hit (o :: l) j f.sn = hit l j f.sn := by
        simp only [hit, List.any_cons]
        have : (decide (o.flow = j) && decide (o.sn = f.sn)) = false := by
          rw [← Bool.not_eq_true]; simpa using h
        rw [this, Bool.false_or]
      rw [h2]

theorem loseAll_rest (l : List OutRef) : ∀ s : SS, (l.foldl lose s).nextTsn = s.nextTsn ∧ (l.foldl lose s).maxTsnAck = s.maxTsnAck := by
  induction l with
  | nil => intro s; exact ⟨rfl, rfl⟩
  | cons o l ih => intro s; exact ih (lose s o)

/-- one round of the loop over the outstanding fragments -/
theorem nakRound {s : SS} {o : OutRef} (hs : ∀ j, Sorted (s.flow j).queue) {f0 : SFrag} (hf : f0 ∈ (s.flow o.flow).queue) (e : f0.sn = o.sn) :
    fragOf ((nakFrag s o).flow o.flow).queue o.sn = some { f0 with nak := f0.nak + 1 } := by
  rw [fragOf, nakFrag_queue]
  have hq := hs o.flow
  generalize (s.flow o.flow).queue = q at hf hq
  induction q with
  | nil => cases hf
  | cons a q ih =>
    rw [List.map_cons, List.find?_cons]
    rw [Sorted, List.pairwise_cons] at hq
    rcases List.mem_cons.mp hf with rfl | hf
    · rw [if_pos ⟨rfl, e.symm⟩]
      simp [e]
    · have : a.sn < f0.sn := hq.1 f0 hf
      rw [if_neg (by omega)]
      have h2 : (a.sn == o.sn) = false := by simp; omega
      rw [h2]
      exact ih hf hq.2

theorem nakLoop_queue (l : List OutRef) : ∀ (s : SS) (k : Nak), l.Pairwise (fun a b => a.tsn ≤ b.tsn) →
    l.Pairwise (fun a b => ¬ (a.flow = b.flow ∧ a.sn = b.sn)) → (∀ o ∈ l, ∃ f ∈ (s.flow o.flow).queue, f.sn = o.sn) →
    (∀ j, Sorted (s.flow j).queue) →
    (nakLoop s k l).1.nextTsn = s.nextTsn ∧ (nakLoop s k l).1.maxTsnAck = s.maxTsnAck ∧ (nakLoop s k l).1.outs.Sublist s.outs ∧
    ∀ j, ((nakLoop s k l).1.flow j).queue =
      (s.flow j).queue.map (fun f => if hit (l.filter fun o => decide (o.tsn ≤ s.maxTsnAck)) j f.sn = true then nakedFrag f else f) := by
  induction l with
  | nil => intro s k _ _ _ _; exact ⟨rfl, rfl, List.Sublist.refl _, fun j => by simp [nakLoop, hit]⟩
  | cons o l ih =>
    intro s k h1 h2 h3 h4
    rw [List.pairwise_cons] at h1 h2
    rw [nakLoop]
    by_cases hb : o.tsn > s.maxTsnAck
    · rw [if_pos hb]
      refine ⟨rfl, rfl, List.Sublist.refl _, fun j => ?_⟩
      have : (o :: l).filter (fun o => decide (o.tsn ≤ s.maxTsnAck)) = [] := by
        rw [List.filter_eq_nil_iff]
        intro x hx
        rcases List.mem_cons.mp hx with rfl | hx
        · simp; omega
        · have := h1.1 x hx; simp; omega
      rw [this]
      simp [hit]
    rw [if_neg hb]
    dsimp only
    obtain ⟨f0, hf0, e0⟩ := h3 o (by simp)
    rw [nakRound h4 hf0 e0]
    dsimp only
    have huniq : ∀ j, ∀ f ∈ (s.flow j).queue, o.flow = j ∧ o.sn = f.sn → f = f0 := by
      intro j f hf h
      obtain ⟨rfl, h⟩ := h
      exact sorted_inj (h4 _) hf hf0 (by omega)
    have key : ∀ u : SS, (∀ j, (u.flow j).queue = (s.flow j).queue.map (fun f => if o.flow = j ∧ o.sn = f.sn then nakedFrag f else f)) →
        u.nextTsn = s.nextTsn → u.maxTsnAck = s.maxTsnAck → u.outs.Sublist s.outs → ∀ k',
        (nakLoop u k' l).1.nextTsn = s.nextTsn ∧ (nakLoop u k' l).1.maxTsnAck = s.maxTsnAck ∧ (nakLoop u k' l).1.outs.Sublist s.outs ∧
        ∀ j, ((nakLoop u k' l).1.flow j).queue =
          (s.flow j).queue.map (fun f => if hit ((o :: l).filter fun o => decide (o.tsn ≤ s.maxTsnAck)) j f.sn = true then nakedFrag f else f) := by
      intro u hu u1 u2 u3 k'
      have hsn : ∀ j, (u.flow j).queue.map (·.sn) = (s.flow j).queue.map (·.sn) := by
        intro j
        rw [hu, List.map_map]
        apply List.map_congr_left
        intro f _
        simp only [Function.comp]
        split <;> simp
      obtain ⟨r1, r2, r3, r4⟩ := ih u k' h1.2 h2.2 (fun x hx => by
        obtain ⟨f, hf, e⟩ := h3 x (by simp [hx])
        have : f.sn ∈ (u.flow x.flow).queue.map (·.sn) := by rw [hsn]; exact List.mem_map_of_mem hf
        obtain ⟨g, hg, e2⟩ := List.mem_map.mp this
        exact ⟨g, hg, e2.trans e⟩) (fun j => by
        rw [sorted_map, hsn, ← sorted_map]; exact h4 j)
      refine ⟨r1.trans u1, r2.trans u2, r3.trans u3, fun j => ?_⟩
      rw [r4, u2, hu, List.map_map]
      apply List.map_congr_left
      intro f hf
      simp only [Function.comp]
      have hfil : (o :: l).filter (fun o => decide (o.tsn ≤ s.maxTsnAck)) = o :: l.filter (fun o => decide (o.tsn ≤ s.maxTsnAck)) := by
        rw [List.filter_cons, if_pos (by simpa using hb)]
      rw [hfil]
      by_cases h : o.flow = j ∧ o.sn = f.sn
      · rw [if_pos h]
        have hno : ¬ hit (l.filter fun o => decide (o.tsn ≤ s.maxTsnAck)) j (nakedFrag f).sn = true := by
          intro hh
          obtain ⟨x, hx, x1, x2⟩ := hit_iff.mp hh
          rw [nakedFrag_sn] at x2
          have := h2.1 x (List.mem_filter.mp hx).1
          exact this ⟨by omega, by omega⟩
        rw [if_neg hno, if_pos (hit_iff.mpr ⟨o, by simp, h⟩)]
      · rw [if_neg h]
        have : hit (o :: l.filter fun o => decide (o.tsn ≤ s.maxTsnAck)) j f.sn = hit (l.filter fun o => decide (o.tsn ≤ s.maxTsnAck)) j f.sn := by
          simp only [hit, List.any_cons]
          have : (decide (o.flow = j) && decide (o.sn = f.sn)) = false := by
            rw [← Bool.not_eq_true]; simpa using h
          rw [this, Bool.false_or]
        rw [this]
    split
    · rename_i hn
      refine key { lose (nakFrag s o) o with
        outs := (lose (nakFrag s o) o).outs.filter (fun p => !(decide (p.flow = o.flow) && decide (p.sn = o.sn)))
        outSum := sub64 (lose (nakFrag s o) o).outSum o.size } (fun j => ?_) rfl rfl (List.filter_sublist (l := s.outs)) _
      show ((lose (nakFrag s o) o).flow j).queue = _
      rw [lose_queue, nakFrag_queue, List.map_map]
      apply List.map_congr_left
      intro f hf
      simp only [Function.comp]
      by_cases h : o.flow = j ∧ o.sn = f.sn
      · have := huniq j f hf h
        subst this
        rw [if_pos h, if_pos (by exact h), if_pos h, nakedFrag, if_pos hn]; rfl
      · rw [if_neg h, if_neg h, if_neg h]
    · rename_i hn
      refine key (nakFrag s o) (fun j => ?_) rfl rfl (List.Sublist.refl _) _
      rw [nakFrag_queue]
      apply List.map_congr_left
      intro f hf
      by_cases h : o.flow = j ∧ o.sn = f.sn
      · have := huniq j f hf h
        subst this
        rw [if_pos h, if_pos h, nakedFrag, if_neg hn]
      · rw [if_neg h, if_neg h]

/-! ## acknowledgements -/

/-- the greatest transmission number acknowledged, when `q` becomes `q'` -/
structure AckMax (m m' : Nat) (q q' : List SFrag) : Prop where
  le : m ≤ m'
  all : ∀ f ∈ q, f.inFlight = true → f ∉ q' → f.tsn ≤ m'
  eq : m' = m ∨ ∃ f ∈ q, f.inFlight = true ∧ f ∉ q' ∧ f.tsn = m'

theorem AckMax.refl (m : Nat) (q : List SFrag) : AckMax m m q q := ⟨Nat.le_refl _, fun _ h _ k => absurd h k, Or.inl rfl⟩

theorem ackOne_max (i : Nat) (a : AckAcc) (f : SFrag) : (ackOne i a f).maxTsnAck = if f.inFlight = true then max a.maxTsnAck f.tsn else a.maxTsnAck := by
  rw [ackOne]
  dsimp only
  split
  · show (if f.tsn > a.maxTsnAck then f.tsn else a.maxTsnAck) = _
    split <;> omega
  · rfl

theorem ackRange_max (i lo hi : Nat) (q : List SFrag) : Sorted q → ∀ a : AckAcc,
    AckMax a.maxTsnAck (ackRange i lo hi a q).1.maxTsnAck q ((ackRange i lo hi a q).2.1 ++ (ackRange i lo hi a q).2.2) := by
  induction q with
  | nil => intro _ a; exact AckMax.refl _ _
  | cons f q ih =>
    intro hs a
    rw [Sorted, List.pairwise_cons] at hs
    have hne : ∀ g ∈ q, g ≠ f := by rintro g hg rfl; have := hs.1 g hg; omega
    rw [ackRange]
    split
    · have h := ih hs.2 a
      refine ⟨h.le, ?_, ?_⟩
      · intro g hg h1 h2
        rcases List.mem_cons.mp hg with rfl | hg
        · exact absurd (by simp) h2
        · exact h.all g hg h1 (fun k => h2 (List.mem_cons_of_mem _ k))
      · rcases h.eq with e | ⟨g, hg, h1, h2, h3⟩
        · exact Or.inl e
        · refine Or.inr ⟨g, by simp [hg], h1, ?_, h3⟩
          intro k
          simp only [List.cons_append, List.mem_cons] at k
          rcases k with k | k
          · exact hne g hg k
          · exact h2 k
    split
    · exact AckMax.refl _ _
    · have h := ih hs.2 (ackOne i a f)
      rw [ackOne_max] at h
      have hsub := ackRange_sub i lo hi q (ackOne i a f)
      refine ⟨?_, ?_, ?_⟩
      · have := h.le
        split at this <;> omega
      · intro g hg h1 h2
        rcases List.mem_cons.mp hg with rfl | hg
        · have := h.le
          rw [if_pos h1] at this
          omega
        · exact h.all g hg h1 h2
      · rcases h.eq with e | ⟨g, hg, h1, h2, h3⟩
        · rw [e]
          by_cases hf : f.inFlight = true
          · rw [if_pos hf]
            by_cases hm : f.tsn ≤ a.maxTsnAck
            · left; omega
            · right
              refine ⟨f, by simp, hf, ?_, by omega⟩
              intro k
              exact hne f (hsub f k) rfl
          · rw [if_neg hf]; exact Or.inl rfl
        · exact Or.inr ⟨g, by simp [hg], h1, h2, h3⟩

theorem ackRanges_max (i : Nat) (rs : List (Nat × Nat)) : ∀ (q : List SFrag) (a : AckAcc), Sorted q →
    AckMax a.maxTsnAck (ackRanges i rs a q).1.maxTsnAck q (ackRanges i rs a q).2 := by
  induction rs with
  | nil => intro q a _; exact AckMax.refl _ _
  | cons x rs ih =>
    intro q a hs
    obtain ⟨lo, hi⟩ := x
    rw [ackRanges]
    dsimp only
    have h1 := ackRange_max i lo hi q hs a
    have hsl := ackRange_sublist i lo hi q a
    have hsort : Sorted ((ackRange i lo hi a q).2.1 ++ (ackRange i lo hi a q).2.2) := List.Pairwise.sublist hsl hs
    generalize ackRange i lo hi a q = y at *
    obtain ⟨b, pre, post⟩ := y
    dsimp only at *
    have hp := (List.pairwise_append.mp hsort)
    have h2 := ih post b hp.2.1
    have hsub := ackRanges_sub i rs post b
    generalize ackRanges i rs b post = z at *
    refine ⟨Nat.le_trans h1.le h2.le, ?_, ?_⟩
    · intro f hf hi hn
      by_cases hm : f ∈ pre ++ post
      · rcases List.mem_append.mp hm with hm | hm
        · exact absurd (List.mem_append_left _ hm) hn
        · exact h2.all f hm hi (fun k => hn (List.mem_append_right _ k))
      · exact Nat.le_trans (h1.all f hf hi hm) h2.le
    · rcases h2.eq with e | ⟨f, hf, f1, f2, f3⟩
      · rcases h1.eq with e1 | ⟨f, hf, f1, f2, f3⟩
        · exact Or.inl (e.trans e1)
        · refine Or.inr ⟨f, hf, f1, ?_, f3.trans e.symm⟩
          intro k
          rcases List.mem_append.mp k with k | k
          · exact f2 (List.mem_append_left _ k)
          · exact f2 (List.mem_append_right _ (hsub f k))
      · refine Or.inr ⟨f, hsl.subset (List.mem_append_right _ hf), f1, ?_, f3⟩
        intro k
        rcases List.mem_append.mp k with k | k
        · have := hp.2.2 f k f hf
          omega
        · exact f2 k

end SS
end Rtmfp
