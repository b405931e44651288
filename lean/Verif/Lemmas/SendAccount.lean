import Verif.Model.SendFlow

/-! # Accounting of outstanding fragments: lemmas about the functions of the sending side -/

namespace Rtmfp
namespace SS

theorem add64_mod (a b : Nat) : add64 (a % W64) b = (a + b) % W64 := by
  rw [add64]; omega

theorem sub64_mod (a b : Nat) : sub64 ((a + b) % W64) b = a % W64 := by
  rw [sub64]; omega

/-- the session's reference to a fragment -/
def refOf (i : Nat) (f : SFrag) : OutRef := ⟨i, f.sn, f.size, f.tsn⟩
/-- references to the fragments in flight -/
def refs (i : Nat) (q : List SFrag) : List OutRef := (q.filter (·.inFlight)).map (refOf i)
/-- bytes of the fragments in flight -/
def flight (q : List SFrag) : Nat := ((q.filter (·.inFlight)).map (·.size)).sum
/-- bytes of a list of references -/
def total (l : List OutRef) : Nat := (l.map (·.size)).sum
/-- references of one flow -/
def ofFlow (i : Nat) (l : List OutRef) : List OutRef := l.filter (fun o => decide (o.flow = i))

theorem total_append (a b : List OutRef) : total (a ++ b) = total a + total b := by simp [total]
theorem ofFlow_append (i : Nat) (a b : List OutRef) : ofFlow i (a ++ b) = ofFlow i a ++ ofFlow i b := by simp [ofFlow]
theorem refs_append (i : Nat) (a b : List SFrag) : refs i (a ++ b) = refs i a ++ refs i b := by simp [refs]
theorem flight_append (a b : List SFrag) : flight (a ++ b) = flight a + flight b := by simp [flight]
theorem total_refs (i : Nat) (q : List SFrag) : total (refs i q) = flight q := by
  simp [total, refs, flight, Function.comp_def, refOf]
theorem total_perm {a b : List OutRef} (h : a.Perm b) : total a = total b := (h.map _).sum_nat
theorem refs_flow {i : Nat} {q : List SFrag} {o : OutRef} (h : o ∈ refs i q) : o.flow = i := by
  simp only [refs, List.mem_map] at h; obtain ⟨f, _, rfl⟩ := h; rfl
theorem refs_mem {i : Nat} {q : List SFrag} {o : OutRef} :
    o ∈ refs i q ↔ ∃ f ∈ q, f.inFlight = true ∧ refOf i f = o := by
  simp [refs, and_assoc]
theorem refs_nil_of {i : Nat} {q : List SFrag} (h : ∀ f ∈ q, f.inFlight = false) : refs i q = [] := by
  simp only [refs, List.map_eq_nil_iff, List.filter_eq_nil_iff]
  intro a ha; simp [h a ha]
theorem flight_zero_of {q : List SFrag} (h : ∀ f ∈ q, f.inFlight = false) : flight q = 0 := by
  rw [← total_refs 0, refs_nil_of h]; rfl

/-- the list of numbers of a queue is strictly increasing -/
def Sorted (q : List SFrag) : Prop := q.Pairwise (fun a b => a.sn < b.sn)

/-- what doesn't change when a fragment is sent or lost -/
structure Alike (a b : SFrag) : Prop where
  name : b.name = a.name
  sn : b.sn = a.sn
  fra : b.fra = a.fra
  data : b.data = a.data
  receipt : b.receipt = a.receipt

theorem Alike.refl (a : SFrag) : Alike a a := ⟨rfl, rfl, rfl, rfl, rfl⟩
theorem Alike.trans {a b c : SFrag} (x : Alike a b) (y : Alike b c) : Alike a c :=
  ⟨y.name.trans x.name, y.sn.trans x.sn, y.fra.trans x.fra, y.data.trans x.data, y.receipt.trans x.receipt⟩

/-- the same fragments, with other transmission states -/
inductive Alikes : List SFrag → List SFrag → Prop
  | nil : Alikes [] []
  | cons {a b p q} : Alike a b → Alikes p q → Alikes (a :: p) (b :: q)

theorem Alikes.refl (q : List SFrag) : Alikes q q := by
  induction q with
  | nil => exact .nil
  | cons a q ih => exact .cons (Alike.refl a) ih

theorem Alikes.trans {p q r : List SFrag} (x : Alikes p q) (y : Alikes q r) : Alikes p r := by
  induction x generalizing r with
  | nil => cases y; exact .nil
  | cons a _ ih => cases y with | cons b c => exact .cons (a.trans b) (ih c)

theorem Alikes.append {p q r t : List SFrag} (x : Alikes p q) (y : Alikes r t) : Alikes (p ++ r) (q ++ t) := by
  induction x with
  | nil => exact y
  | cons a _ ih => exact .cons a ih

theorem Alikes.map_eq {α : Type} {p q : List SFrag} (x : Alikes p q) (g : SFrag → α) (hg : ∀ a b, Alike a b → g b = g a) :
    q.map g = p.map g := by
  induction x with
  | nil => rfl
  | cons a _ ih => simp [ih, hg _ _ a]

theorem Alikes.mem {p q : List SFrag} (x : Alikes p q) {b : SFrag} (h : b ∈ q) : ∃ a ∈ p, Alike a b := by
  induction x with
  | nil => cases h
  | cons a _ ih =>
    rcases List.mem_cons.mp h with rfl | h
    · exact ⟨_, by simp, a⟩
    · obtain ⟨c, hc, k⟩ := ih h; exact ⟨c, by simp [hc], k⟩

theorem Alikes.mem' {p q : List SFrag} (x : Alikes p q) {a : SFrag} (h : a ∈ p) : ∃ b ∈ q, Alike a b := by
  induction x with
  | nil => cases h
  | cons a _ ih =>
    rcases List.mem_cons.mp h with rfl | h
    · exact ⟨_, List.mem_cons_self .., by assumption⟩
    · obtain ⟨c, hc, k⟩ := ih h; exact ⟨c, by simp [hc], k⟩

theorem sorted_map {q : List SFrag} : Sorted q ↔ (q.map (·.sn)).Pairwise (· < ·) := by simp [Sorted, List.pairwise_map]

theorem Alikes.sorted {p q : List SFrag} (x : Alikes p q) (h : Sorted p) : Sorted q := by
  rw [sorted_map] at h ⊢
  rw [x.map_eq (·.sn) (fun _ _ k => k.sn)]; exact h

theorem sorted_inj {q : List SFrag} (h : Sorted q) {a b : SFrag} (ha : a ∈ q) (hb : b ∈ q) (e : a.sn = b.sn) : a = b := by
  induction q with
  | nil => cases ha
  | cons c q ih =>
    rw [Sorted, List.pairwise_cons] at h
    rcases List.mem_cons.mp ha with e1 | ha <;> rcases List.mem_cons.mp hb with e2 | hb
    · rw [e1, e2]
    · have := h.1 _ hb; rw [e1] at e; omega
    · have := h.1 _ ha; rw [e2] at e; omega
    · exact ih h.2 ha hb

/-! ## the loop of `assembleData` -/

/-- what the loop does to the books -/
structure Filled (c : Ctx) (s s' : Fill) (q q' : List SFrag) (new : List OutRef) : Prop where
  alike : Alikes q q'
  outs : s'.outs = s.outs ++ new
  refs : (refs c.flow q').Perm (refs c.flow q ++ new)
  flow : ∀ o ∈ new, o.flow = c.flow
  outstanding : ∀ n, s.outstanding = n % W64 → s'.outstanding = (n + total new) % W64
  outSum : ∀ n, s.outSum = n % W64 → s'.outSum = (n + total new) % W64

theorem fill_books (c : Ctx) (q : List SFrag) : ∀ s : Fill, ∃ new, Filled c s (fill c s q).1 q (fill c s q).2 new := by
  induction q with
  | nil => intro s; exact ⟨[], .nil, by simp [fill], by simp [fill, SS.refs], by simp, by simp [fill, total], by simp [fill, total]⟩
  | cons frag rest ih =>
    intro s
    rw [fill]
    by_cases h1 : s.outstanding ≥ c.rxBuffer
    · rw [if_pos h1]
      exact ⟨[], Alikes.refl _, by simp, by simp, by simp, by simp [total], by simp [total]⟩
    rw [if_neg h1]
    by_cases h2 : frag.inFlight = true
    · rw [if_pos h2]
      obtain ⟨new, k⟩ := ih s
      refine ⟨new, .cons (Alike.refl _) k.alike, k.outs, ?_, k.flow, k.outstanding, k.outSum⟩
      have e : ∀ l, SS.refs c.flow (frag :: l) = refOf c.flow frag :: SS.refs c.flow l := by intro l; simp [SS.refs, h2]
      rw [e, e]
      exact (k.refs.cons _)
    rw [if_neg h2]
    dsimp only
    split
    · exact ⟨[], Alikes.refl _, by simp, by simp, by simp, by simp [total], by simp [total]⟩
    · generalize hs : (Fill.mk _ _ _ _ _ _ _ _ _ _) = t
      obtain ⟨new, k⟩ := ih t
      generalize sub64 s.packet.remaining _ = size at hs ⊢
      have e1 : SS.refs c.flow (frag :: rest) = SS.refs c.flow rest := by simp [SS.refs, h2]
      refine ⟨⟨c.flow, frag.sn, size, c.tsn⟩ :: new, .cons ⟨rfl, rfl, rfl, rfl, rfl⟩ k.alike, ?_, ?_, ?_, ?_, ?_⟩
      · rw [k.outs, ← hs]; simp
      · rw [e1]
        have e2 : ∀ l abn, SS.refs c.flow (sentFrag c frag abn size :: l) = ⟨c.flow, frag.sn, size, c.tsn⟩ :: SS.refs c.flow l := by
          intro l abn; simp [SS.refs, sentFrag, refOf]
        rw [e2]
        exact (k.refs.cons _).trans List.perm_middle.symm
      · intro o ho
        rcases List.mem_cons.mp ho with rfl | ho
        · rfl
        · exact k.flow o ho
      · intro n hn
        have := k.outstanding (n + size) (by rw [← hs]; show add64 s.outstanding size = _; rw [hn, add64_mod])
        rw [this]; simp only [total, List.map_cons, List.sum_cons, Nat.add_assoc]
      · intro n hn
        have := k.outSum (n + size) (by rw [← hs]; show add64 s.outSum size = _; rw [hn, add64_mod])
        rw [this]; simp only [total, List.map_cons, List.sum_cons, Nat.add_assoc]

theorem startAt_append (n : Nat) (q : List SFrag) : (startAt n q).1 ++ (startAt n q).2 = q := by
  rw [startAt]; split
  · simp
  · rfl

/-! ## acknowledgement -/

/-- books during the processing of an acknowledgement for flow `i`, whose queue is `q`; `other` are those of other flows -/
structure AckBooks (i : Nat) (other : List OutRef) (q : List SFrag) (a : AckAcc) : Prop where
  perm : (ofFlow i a.outs).Perm (refs i q)
  other : a.outs.filter (fun o => !decide (o.flow = i)) = other
  out : a.outstanding = flight q % W64
  sum : a.outSum = total a.outs % W64

theorem ackOne_books {i : Nat} {other : List OutRef} {pre post : List SFrag} {frag : SFrag} {a : AckAcc}
    (hs : Sorted (pre ++ frag :: post)) (h : AckBooks i other (pre ++ frag :: post) a) :
    AckBooks i other (pre ++ post) (ackOne i a frag) := by
  rw [ackOne]
  by_cases hf : frag.inFlight = true
  · simp only [if_pos hf]
    have hrefs : refs i (frag :: post) = refOf i frag :: refs i post := by simp [refs, hf]
    have hp := h.perm
    rw [refs_append, hrefs] at hp
    have hne : ∀ x ∈ pre ++ post, x.sn ≠ frag.sn := by
      intro x hx e
      rw [Sorted, List.pairwise_append] at hs
      rcases List.mem_append.mp hx with k | k
      · have := hs.2.2 x k frag (by simp); omega
      · have := (List.pairwise_cons.mp hs.2.1).1 x k; omega
    have keep : ∀ o ∈ refs i pre ++ refs i post, o.sn ≠ frag.sn := by
      intro o ho
      rw [← refs_append] at ho
      obtain ⟨x, hx, _, rfl⟩ := refs_mem.mp ho
      exact hne x hx
    have hself : refOf i frag ∈ a.outs := by
      have : refOf i frag ∈ ofFlow i a.outs := hp.mem_iff.mpr (by simp)
      exact (List.mem_filter.mp this).1
    -- the entry removed
    have hperm : (ofFlow i (a.outs.filter (fun o => !(decide (o.flow = i) && decide (o.sn = frag.sn))))).Perm (refs i (pre ++ post)) := by
      have e : ofFlow i (a.outs.filter (fun o => !(decide (o.flow = i) && decide (o.sn = frag.sn)))) =
          (ofFlow i a.outs).filter (fun o => !decide (o.sn = frag.sn)) := by
        simp only [ofFlow, List.filter_filter]
        apply List.filter_congr
        intro o _
        by_cases hh : o.flow = i <;> simp [hh]
      rw [e]
      have p2 := hp.filter (fun o => !decide (o.sn = frag.sn))
      rw [List.filter_append, List.filter_cons_of_neg (by simp [refOf])] at p2
      rw [← List.filter_append] at p2
      have e3 : (refs i pre ++ refs i post).filter (fun o => !decide (o.sn = frag.sn)) = refs i pre ++ refs i post :=
        List.filter_eq_self.mpr (by intro o ho; simp [keep o ho])
      rw [e3] at p2
      rwa [refs_append]
    have hother : (a.outs.filter (fun o => !(decide (o.flow = i) && decide (o.sn = frag.sn)))).filter (fun o => !decide (o.flow = i)) = other := by
      rw [← h.other, List.filter_filter]
      apply List.filter_congr
      intro o _
      by_cases hh : o.flow = i <;> simp [hh]
    have htot : ∀ l : List OutRef, total l = total (ofFlow i l) + total (l.filter (fun o => !decide (o.flow = i))) := by
      intro l
      induction l with
      | nil => rfl
      | cons o l ih =>
        by_cases hh : o.flow = i <;> simp [total, ofFlow, hh] at ih ⊢ <;> omega
    have hsize : flight (pre ++ frag :: post) = flight (pre ++ post) + frag.size := by
      simp [flight, hf]; omega
    refine ⟨hperm, hother, ?_, ?_⟩
    · show sub64 a.outstanding frag.size = _
      rw [h.out, hsize, sub64_mod]
    · show sub64 a.outSum frag.size = _
      rw [h.sum, htot a.outs, total_perm h.perm, total_refs, hsize, h.other,
        htot (a.outs.filter _), hother, total_perm hperm, total_refs,
        show flight (pre ++ post) + frag.size + total other = (flight (pre ++ post) + total other) + frag.size by omega, sub64_mod]
  · simp only [if_neg hf]
    have e1 : refs i (pre ++ frag :: post) = refs i (pre ++ post) := by simp [refs, hf]
    have e2 : flight (pre ++ frag :: post) = flight (pre ++ post) := by simp [flight, hf]
    exact ⟨by rw [← e1]; exact h.perm, h.other, by rw [← e2]; exact h.out, h.sum⟩

theorem ackRange_books (i lo hi : Nat) (other : List OutRef) (q : List SFrag) : ∀ (pre : List SFrag) (a : AckAcc),
    Sorted (pre ++ q) → AckBooks i other (pre ++ q) a →
    AckBooks i other (pre ++ ((ackRange i lo hi a q).2.1 ++ (ackRange i lo hi a q).2.2)) (ackRange i lo hi a q).1 ∧
    ((ackRange i lo hi a q).2.1 ++ (ackRange i lo hi a q).2.2).Sublist q := by
  induction q with
  | nil => intro pre a _ h; exact ⟨h, List.Sublist.refl _⟩
  | cons frag rest ih =>
    intro pre a hs h
    rw [ackRange]
    by_cases h1 : frag.sn < lo
    · simp only [if_pos h1]
      have := ih (pre ++ [frag]) a (by simpa using hs) (by simpa using h)
      exact ⟨by simpa using this.1, by simpa using this.2⟩
    · simp only [if_neg h1]
      by_cases h2 : frag.sn > hi
      · simp only [if_pos h2]
        exact ⟨h, List.Sublist.refl _⟩
      · simp only [if_neg h2]
        have hs2 : Sorted (pre ++ rest) := by
          rw [Sorted] at hs ⊢
          exact hs.sublist ((List.sublist_cons_self _ _).append_left pre)
        have := ih pre _ hs2 (ackOne_books hs h)
        exact ⟨this.1, this.2.trans (List.sublist_cons_self _ _)⟩

theorem ackRanges_books (i : Nat) (other : List OutRef) (rs : List (Nat × Nat)) : ∀ (q pre : List SFrag) (a : AckAcc),
    Sorted (pre ++ q) → AckBooks i other (pre ++ q) a →
    AckBooks i other (pre ++ (ackRanges i rs a q).2) (ackRanges i rs a q).1 ∧ (ackRanges i rs a q).2.Sublist q := by
  induction rs with
  | nil => intro q pre a _ h; exact ⟨h, List.Sublist.refl _⟩
  | cons r rs ih =>
    intro q pre a hs h
    obtain ⟨lo, hi⟩ := r
    rw [ackRanges]
    obtain ⟨b1, b2⟩ := ackRange_books i lo hi other q pre a hs h
    have hs2 : Sorted (pre ++ ((ackRange i lo hi a q).2.1 ++ (ackRange i lo hi a q).2.2)) := by
      rw [Sorted] at hs ⊢; exact hs.sublist (b2.append_left pre)
    have := ih (ackRange i lo hi a q).2.2 (pre ++ (ackRange i lo hi a q).2.1) (ackRange i lo hi a q).1
      (by simpa using hs2) (by simpa using b1)
    refine ⟨by simpa using this.1, ?_⟩
    exact (this.2.append_left _).trans b2

/-! ## trimming -/

theorem trimLoop_queue (now : Int) (q : List SFrag) : ∀ r, ∃ k, (trimLoop now r q).2.1 = q.drop k ∧ ∀ f ∈ q.take k, f.inFlight = false := by
  induction q with
  | nil => intro r; exact ⟨0, rfl, by simp⟩
  | cons a q ih =>
    intro r
    cases q with
    | nil => exact ⟨0, rfl, by simp⟩
    | cons b q =>
      rw [trimLoop]
      by_cases h1 : a.inFlight = true
      · rw [if_pos h1]; exact ⟨0, rfl, by simp⟩
      · rw [if_neg h1]
        dsimp only
        split
        · exact ⟨0, rfl, by simp⟩
        · obtain ⟨k, e, hk⟩ := ih (((r.abandonDue a.receipt now).1).countDown a.receipt).1
          refine ⟨k + 1, ?_, ?_⟩
          · rw [e]; rfl
          · intro f hf
            rw [List.take_succ_cons] at hf
            rcases List.mem_cons.mp hf with rfl | hf
            · simpa using h1
            · exact hk f hf

/-! ## loss -/

theorem modFrag_alikes (q : List SFrag) (sn : Nat) (g : SFrag → SFrag) (hg : ∀ x, Alike x (g x)) : Alikes q (modFrag q sn g) := by
  induction q with
  | nil => exact .nil
  | cons a q ih =>
    simp only [modFrag, List.map_cons]
    refine .cons ?_ ih
    split
    · exact hg a
    · exact Alike.refl a

theorem modFrag_keep (q : List SFrag) (sn : Nat) (g : SFrag → SFrag)
    (hg : ∀ x, (g x).inFlight = x.inFlight ∧ (g x).sn = x.sn ∧ (g x).size = x.size ∧ (g x).tsn = x.tsn) (i : Nat) :
    refs i (modFrag q sn g) = refs i q ∧ flight (modFrag q sn g) = flight q := by
  have key : refs i (modFrag q sn g) = refs i q := by
    induction q with
    | nil => rfl
    | cons a q ih =>
      simp only [modFrag, List.map_cons]
      obtain ⟨h1, h2, h3, h4⟩ := hg a
      have e : (if a.sn = sn then g a else a).inFlight = a.inFlight ∧ refOf i (if a.sn = sn then g a else a) = refOf i a := by
        split
        · exact ⟨h1, by simp [refOf, h2, h3, h4]⟩
        · exact ⟨rfl, rfl⟩
      simp only [modFrag] at ih
      by_cases ha : a.inFlight = true
      · simp only [refs, List.filter_cons, e.1, ha, if_true, List.map_cons, e.2] at ih ⊢
        rw [ih]
      · simp only [refs, List.filter_cons, e.1, ha] at ih ⊢
        simpa using ih
  exact ⟨key, by rw [← total_refs i, key, total_refs]⟩

/-- a fragment taken out of the books -/
theorem lost_books (q : List SFrag) (i : Nat) (hs : Sorted q) (o : OutRef) (ho : o ∈ refs i q) :
    (refs i q).Perm (o :: refs i (modFrag q o.sn (fun x => { x with inFlight := false }))) ∧
    flight q = flight (modFrag q o.sn (fun x => { x with inFlight := false })) + o.size := by
  have key : (refs i q).Perm (o :: refs i (modFrag q o.sn (fun x => { x with inFlight := false }))) := by
    obtain ⟨f, hf, hfl, rfl⟩ := refs_mem.mp ho
    obtain ⟨pre, post, rfl⟩ := List.append_of_mem hf
    have hne : ∀ x ∈ pre ++ post, x.sn ≠ f.sn := by
      intro x hx e
      rw [Sorted, List.pairwise_append] at hs
      rcases List.mem_append.mp hx with k | k
      · have := hs.2.2 x k f (by simp); omega
      · have := (List.pairwise_cons.mp hs.2.1).1 x k; omega
    have hid : ∀ l : List SFrag, (∀ x ∈ l, x.sn ≠ f.sn) → modFrag l (refOf i f).sn (fun x => { x with inFlight := false }) = l := by
      intro l hl
      rw [modFrag]
      conv => rhs; rw [← List.map_id l]
      apply List.map_congr_left
      intro x hx
      simp [refOf, hl x hx]
    have e : modFrag (pre ++ f :: post) (refOf i f).sn (fun x => { x with inFlight := false }) =
        pre ++ { f with inFlight := false } :: post := by
      have h1 := hid pre (fun x hx => hne x (by simp [hx]))
      have h2 := hid post (fun x hx => hne x (by simp [hx]))
      simp only [modFrag] at h1 h2 ⊢
      rw [List.map_append, List.map_cons, h1, h2]
      simp [refOf]
    rw [e]
    have e1 : refs i (pre ++ f :: post) = refs i pre ++ refOf i f :: refs i post := by simp [refs, hfl]
    have e2 : refs i (pre ++ { f with inFlight := false } :: post) = refs i pre ++ refs i post := by simp [refs]
    rw [e1, e2]
    exact List.perm_middle
  exact ⟨key, by rw [← total_refs i, total_perm key, ← total_refs i]; simp [total]; omega⟩

end SS
end Rtmfp
