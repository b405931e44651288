import Verif.Model.SendAge
import Verif.Lemmas.SendStream
import Verif.Lemmas.SendLined
import Verif.Lemmas.SendWatch

/-! # What operations do to the times and the start of messages -/

namespace Rtmfp
namespace SS

/-- when a message was written and whether it was started -/
def stamp (x : Receipt) : Int × Bool := (x.origin, x.started)

theorem abandon_stamp (r : RStore) (i k : Nat) : stamp ((r.abandon i).1.r k) = stamp (r.r k) := by
  rw [RStore.abandon]
  dsimp only
  split
  · by_cases e : k = i
    · subst e; split <;> simp [RStore.upd, stamp]
    · split <;> simp [RStore.upd, e]
  · rfl

theorem settled_stamp (x : RStore × List (Nat × Bool)) (k : Nat) : stamp ((settled x).1.r k) = stamp (x.1.r k) := by
  rw [settled]
  dsimp only
  split
  · rfl
  · rw [RStore.callbackReturned]
    split
    · rfl
    · rename_i i rest _
      by_cases e : k = i
      · subst e; simp [RStore.upd, stamp]
      · simp [RStore.upd, e]

theorem abandonNow_stamp (r : RStore) (i k : Nat) : stamp ((r.abandonNow i).1.r k) = stamp (r.r k) := by
  rw [RStore.abandonNow, settled_stamp, abandon_stamp]

theorem abandonDue_stamp (r : RStore) (i k : Nat) (now : Int) : stamp ((r.abandonDue i now).1.r k) = stamp (r.r k) := by
  rw [RStore.abandonDue, settled_stamp]
  rcases RStore.abandonIfNeeded_eq r i now with e | e <;> rw [e]
  exact abandon_stamp r i k

theorem countDown_stamp (r : RStore) (i k : Nat) : stamp ((r.countDown i).1.r k) = stamp (r.r k) := by
  rw [RStore.countDown, settled_stamp, RStore.useCountDown]
  dsimp only
  generalize (if (r.r i).useCount = 0 then U64MAX else (r.r i).useCount - 1) = n
  by_cases e : k = i
  · subst e
    split
    · split <;> simp [RStore.upd, stamp]
    · simp [RStore.upd, stamp]
  · split
    · split <;> simp [RStore.upd, e]
    · simp [RStore.upd, e]

theorem trimLoop_stamp (now : Int) (q : List SFrag) (k : Nat) : ∀ r, stamp ((trimLoop now r q).1.r k) = stamp (r.r k) := by
  induction q with
  | nil => intro r; rfl
  | cons a q ih =>
    intro r
    cases q with
    | nil => rfl
    | cons b q =>
      rw [trimLoop]
      split
      · rfl
      dsimp only
      split
      · exact abandonDue_stamp r _ k now
      · rw [ih, countDown_stamp, abandonDue_stamp]

theorem trimLoop_mem (now : Int) (q : List SFrag) : ∀ r, ∀ x ∈ (trimLoop now r q).2.1, x ∈ q := by
  induction q with
  | nil => intro r x h; exact h
  | cons a q ih =>
    intro r x h
    cases q with
    | nil => exact h
    | cons b q =>
      rw [trimLoop] at h
      split at h
      · exact h
      dsimp only at h
      split at h
      · exact h
      · exact List.mem_cons_of_mem _ (ih _ x h)

theorem findForward_stamp (r : RStore) (now : Int) (q : List SFrag) (k : Nat) : stamp ((findForward r now q).1.r k) = stamp (r.r k) := by
  cases q with
  | nil => rfl
  | cons a q =>
    rw [findForward]
    dsimp only
    split
    · rfl
    · exact abandonDue_stamp r _ k now

theorem beforeSend_stamp (r : RStore) (f : SFrag) (now : Int) (k : Nat) : stamp ((beforeSend r f now).1.r k) = stamp (r.r k) := by
  rw [beforeSend]
  dsimp only
  rw [abandonDue_stamp]
  split
  · exact abandonNow_stamp r _ k
  · rfl

theorem abandonAll_stamp (q : List SFrag) (k : Nat) : ∀ r, stamp ((abandonAll r q).1.r k) = stamp (r.r k) := by
  induction q with
  | nil => intro r; rfl
  | cons a q ih => intro r; rw [abandonAll]; dsimp only; rw [ih, abandonNow_stamp]

theorem ackOne_stamp (i : Nat) (a : AckAcc) (f : SFrag) (k : Nat) : stamp ((ackOne i a f).receipts.r k) = stamp (a.receipts.r k) := by
  rw [ackOne]
  dsimp only
  rw [countDown_stamp]
  split <;> rfl

theorem ackRange_stamp (i lo hi : Nat) (q : List SFrag) (k : Nat) : ∀ a, stamp ((ackRange i lo hi a q).1.receipts.r k) = stamp (a.receipts.r k) ∧
    ∀ x, x ∈ (ackRange i lo hi a q).2.1 ∨ x ∈ (ackRange i lo hi a q).2.2 → x ∈ q := by
  induction q with
  | nil => intro a; exact ⟨rfl, fun x h => by simpa [ackRange] using h⟩
  | cons f q ih =>
    intro a
    rw [ackRange]
    split
    · obtain ⟨h1, h2⟩ := ih a
      refine ⟨h1, fun x hx => ?_⟩
      rcases hx with hx | hx
      · rcases List.mem_cons.mp hx with e | hx
        · rw [e]; exact List.mem_cons_self
        · exact List.mem_cons_of_mem _ (h2 x (Or.inl hx))
      · exact List.mem_cons_of_mem _ (h2 x (Or.inr hx))
    split
    · exact ⟨rfl, fun x hx => by simpa using hx⟩
    · obtain ⟨h1, h2⟩ := ih (ackOne i a f)
      exact ⟨by rw [h1, ackOne_stamp], fun x hx => List.mem_cons_of_mem _ (h2 x hx)⟩

theorem ackRanges_stamp (i : Nat) (rs : List (Nat × Nat)) (k : Nat) : ∀ a q, stamp ((ackRanges i rs a q).1.receipts.r k) = stamp (a.receipts.r k) ∧
    ∀ x ∈ (ackRanges i rs a q).2, x ∈ q := by
  induction rs with
  | nil => intro a q; exact ⟨rfl, fun x h => h⟩
  | cons r rs ih =>
    intro a q
    obtain ⟨lo, hi⟩ := r
    rw [ackRanges]
    dsimp only
    obtain ⟨h1, h2⟩ := ackRange_stamp i lo hi q k a
    obtain ⟨h3, h4⟩ := ih (ackRange i lo hi a q).1 (ackRange i lo hi a q).2.2
    refine ⟨by rw [h3, h1], fun x hx => ?_⟩
    rcases List.mem_append.mp hx with hx | hx
    · exact h2 x (Or.inl hx)
    · exact h2 x (Or.inr (h4 x hx))

/-- the calls of the user on receipts -/
theorem user_stamp {ops : List Op} {s : SS} {op : RStore.Op} (ha : Allowed ops s (.receipt op)) (k : Nat) : stamp ((s.receipts.step op).1.r k) = stamp (s.receipts.r k) := by
  have hu : ∀ i (x : Receipt), stamp x = stamp (s.receipts.r i) → stamp ((s.receipts.upd i x).r k) = stamp (s.receipts.r k) := by
    intro i x h
    by_cases e : k = i
    · subst e; simpa [RStore.upd] using h
    · simp [RStore.upd, e]
  cases op with
  | issue => exact absurd ha id
  | fragmentDone => exact absurd ha id
  | abandonIfNeeded => exact absurd ha id
  | start => exact absurd ha id
  | callbackReturned => exact absurd ha id
  | setCallback => exact hu _ _ rfl
  | abandon i => exact abandon_stamp _ _ _
  | setStartBy => exact hu _ _ rfl
  | setFinishBy => exact hu _ _ rfl
  | setStartWithin => exact hu _ _ rfl
  | setFinishWithin => exact hu _ _ rfl
  | setRetransmit => exact hu _ _ rfl
  | setParent => exact hu _ _ rfl
  | chainAppend i =>
    show stamp ((s.receipts.chainAppend i).r k) = _
    rw [RStore.chainAppend, RStore.chainLink]
    dsimp only
    split
    · rfl
    · exact hu _ _ rfl
  | chainExpire a b =>
    show stamp ((s.receipts.chainExpire a b).r k) = _
    rw [RStore.chainExpire]
    dsimp only
    split <;> rfl

/-- Nothing is sent: fragments are those of before (perhaps lost now), or new ones of the message `rid`; times and starts of other messages are those of before. -/
structure Unsent (rid : Option Nat) (s t : SS) : Prop where
  stamp : ∀ k, rid ≠ some k → stamp (t.receipts.r k) = stamp (s.receipts.r k)
  queue : ∀ j, ∀ x ∈ (t.flow j).queue, (∃ y ∈ (s.flow j).queue, Alike y x ∧ (x.inFlight = true → y.inFlight = true) ∧ x.everSent = y.everSent) ∨
    (rid = some x.receipt ∧ x.inFlight = false ∧ x.everSent = false ∧ (s.flow j).nextSn ≤ x.sn)
  next : ∀ j, (s.flow j).nextSn ≤ (t.flow j).nextSn

theorem Unsent.refl (rid : Option Nat) (s : SS) : Unsent rid s s := ⟨fun _ _ => rfl, fun _ x hx => Or.inl ⟨x, hx, Alike.refl x, id, rfl⟩, fun _ => Nat.le_refl _⟩

theorem Unsent.trans {rid : Option Nat} {s t u : SS} (a : Unsent rid s t) (b : Unsent rid t u) : Unsent rid s u := by
  refine ⟨fun k h => (b.stamp k h).trans (a.stamp k h), fun j x hx => ?_, fun j => Nat.le_trans (a.next j) (b.next j)⟩
  rcases b.queue j x hx with ⟨y, hy, e1, e2, e3⟩ | ⟨h1, h2, h3, h4⟩
  · rcases a.queue j y hy with ⟨z, hz, f1, f2, f3⟩ | ⟨f1, f2, f3, f4⟩
    · exact Or.inl ⟨z, hz, f1.trans e1, fun h => f2 (e2 h), e3.trans f3⟩
    · refine Or.inr ⟨by rw [e1.receipt]; exact f1, ?_, by rw [e3]; exact f3, by rw [e1.sn]; exact f4⟩
      cases hx2 : x.inFlight with
      | false => rfl
      | true => rw [e2 hx2] at f2; cases f2
  · exact Or.inr ⟨h1, h2, h3, Nat.le_trans (a.next j) h4⟩

/-- queues and receipts are as before -/
theorem Unsent.same {rid : Option Nat} {s t : SS} (hr : t.receipts = s.receipts) (hq : ∀ j, (t.flow j).queue = (s.flow j).queue) (hn : ∀ j, (t.flow j).nextSn = (s.flow j).nextSn) : Unsent rid s t :=
  ⟨fun k _ => by rw [hr], fun j x hx => Or.inl ⟨x, by rw [← hq j]; exact hx, Alike.refl x, id, rfl⟩, fun j => by rw [hn j]; exact Nat.le_refl _⟩

/-- one flow gets another queue -/
theorem Unsent.one {rid : Option Nat} {s : SS} {i : Nat} {f : SF} (hn : f.nextSn = (s.flow i).nextSn)
    (hq : ∀ x ∈ f.queue, ∃ y ∈ (s.flow i).queue, Alike y x ∧ (x.inFlight = true → y.inFlight = true) ∧ x.everSent = y.everSent) : Unsent rid s (s.setFlow i f) := by
  refine ⟨fun k _ => rfl, fun j x hx => ?_, fun j => ?_⟩
  · by_cases e : j = i
    · subst e; rw [setFlow_same] at hx; exact Or.inl (hq x hx)
    · rw [setFlow_other _ _ e] at hx; exact Or.inl ⟨x, hx, Alike.refl x, id, rfl⟩
  · by_cases e : j = i
    · subst e; rw [setFlow_same, hn]; exact Nat.le_refl _
    · rw [setFlow_other _ _ e]; exact Nat.le_refl _

theorem Unsent.oneSame {rid : Option Nat} {s : SS} {i : Nat} {f : SF} (hn : f.nextSn = (s.flow i).nextSn) (hq : f.queue = (s.flow i).queue) : Unsent rid s (s.setFlow i f) :=
  Unsent.one hn (fun x hx => ⟨x, by rw [← hq]; exact hx, Alike.refl x, id, rfl⟩)

/-- other receipts with the same stamps -/
theorem Unsent.stamps {rid : Option Nat} {s t : SS} {r : RStore} (h : Unsent rid s t) (hr : ∀ k, SS.stamp (r.r k) = SS.stamp (t.receipts.r k)) : Unsent rid s { t with receipts := r } :=
  ⟨fun k hk => (hr k).trans (h.stamp k hk), h.queue, h.next⟩

theorem gotoClosed_unsent (rid : Option Nat) (s : SS) (i : Nat) : Unsent rid s (s.gotoClosed i) := by
  rw [gotoClosed]
  dsimp only
  split
  · refine (Unsent.oneSame (f := { s.flow i with state := .closed, bound := false, assoc := false }) rfl rfl).trans ?_
    exact Unsent.same rfl (fun _ => rfl) (fun _ => rfl)
  · exact .refl _ _

theorem issue_stamp (r : RStore) (rid : Nat) (now a b : Int) (n k : Nat) :
    stamp ((r.step (.issue rid now a b n)).1.r k) = if k = rid then (now, false) else stamp (r.r k) := by
  show stamp (((List.range n).foldl (fun s _ => s.useCountUp rid) (r.upd rid (Receipt.create now a b))).r k) = _
  have : ∀ (l : List Nat) (r : RStore), stamp ((l.foldl (fun s _ => s.useCountUp rid) r).r k) = stamp (r.r k) := by
    intro l
    induction l with
    | nil => intro r; rfl
    | cons x l ih =>
      intro r
      rw [List.foldl_cons, ih, RStore.useCountUp]
      by_cases e : k = rid
      · subst e; simp [RStore.upd, stamp]
      · simp [RStore.upd, e]
  rw [this]
  by_cases e : k = rid
  · subst e; simp [RStore.upd, stamp, Receipt.create]
  · simp [RStore.upd, e]

theorem queueFrags_unsent (s : SS) (i : Nat) (fs : List (Fra × Bytes)) (now a b : Int) (rid : Nat) (names : Nat → Nat) :
    Unsent (some rid) s (s.queueFrags i fs now a b rid names) := by
  refine ⟨fun k hk => ?_, fun j x hx => ?_, fun j => ?_⟩
  · rw [queueFrags]
    dsimp only
    rw [issue_stamp, if_neg (fun e => hk (by rw [e]))]
  · by_cases e : j = i
    · subst e
      rw [queueFrags_flow] at hx
      rcases List.mem_append.mp hx with hx | hx
      · exact Or.inl ⟨x, hx, Alike.refl x, id, rfl⟩
      · obtain ⟨h1, h2, h3, h4, h5, h6⟩ := number_new _ _ _ _ x hx
        exact Or.inr ⟨by rw [h4], h1, h6, h2⟩
    · rw [queueFrags_other _ _ _ _ _ _ _ _ e] at hx; exact Or.inl ⟨x, hx, Alike.refl x, id, rfl⟩
  · by_cases e : j = i
    · subst e; rw [queueFrags_flow]; exact Nat.le_add_right _ _
    · rw [queueFrags_other _ _ _ _ _ _ _ _ e]; exact Nat.le_refl _

theorem addFin_unsent (s : SS) (i : Nat) (now : Int) (rid : Nat) (names : Nat → Nat) : Unsent (some rid) s (s.addFin i now rid names) := by
  rw [addFin]
  split
  · rw [basicWrite]
    cases cut (maxFrag (s.flow i).options) (([] : Bytes).length + 1) .whole [] with
    | none => exact .refl _ _
    | some fs => exact queueFrags_unsent _ _ _ _ _ _ _ _
  · exact .refl _ _

theorem close_unsent (s : SS) (i : Nat) (now : Int) (rid : Nat) (names : Nat → Nat) : Unsent (some rid) s (s.close i now rid names) := by
  rw [close]
  dsimp only
  have h1 : Unsent (some rid) s (s.setFlow i { s.flow i with onException := false, baseOpen := false }) := Unsent.oneSame rfl rfl
  generalize s.setFlow i { s.flow i with onException := false, baseOpen := false } = t at h1 ⊢
  have h2 : Unsent (some rid) t (t.closeState i now rid names) := by
    rw [closeState]
    split
    · split
      · exact (addFin_unsent _ _ _ _ _).trans (Unsent.oneSame rfl rfl)
      · exact gotoClosed_unsent _ _ _
    · exact .refl _ _
  split
  · exact (h1.trans h2).trans (gotoClosed_unsent _ _ _)
  · exact h1.trans h2

/-- closing without the additional fragment -/
theorem close_unsent' (s : SS) (i : Nat) (now : Int) (rid : Nat) (names : Nat → Nat) (rid' : Option Nat) (hb : ¬ ((s.flow i).bound = true ∧ s.isOpen = true)) :
    Unsent rid' s (s.close i now rid names) ∧ (s.close i now rid names).isOpen = s.isOpen := by
  have hg : ∀ t : SS, (t.gotoClosed i).isOpen = t.isOpen := by
    intro t; rw [gotoClosed]; dsimp only; split <;> rfl
  rw [close]
  dsimp only
  have h1 : Unsent rid' s (s.setFlow i { s.flow i with onException := false, baseOpen := false }) := Unsent.oneSame rfl rfl
  have h3 : ¬ (((s.setFlow i { s.flow i with onException := false, baseOpen := false }).flow i).bound = true ∧ (s.setFlow i { s.flow i with onException := false, baseOpen := false }).isOpen = true) := by
    rw [setFlow_same]; exact hb
  have h4 : (s.setFlow i { s.flow i with onException := false, baseOpen := false }).isOpen = s.isOpen := rfl
  generalize s.setFlow i { s.flow i with onException := false, baseOpen := false } = t at h1 h3 h4 ⊢
  have h2 : Unsent rid' t (t.closeState i now rid names) ∧ (t.closeState i now rid names).isOpen = t.isOpen := by
    rw [closeState]
    split
    · split
      · rename_i hc; exact absurd ⟨hc.1, hc.2.1⟩ h3
      · exact ⟨gotoClosed_unsent _ _ _, hg _⟩
    · exact ⟨.refl _ _, rfl⟩
  split
  · exact ⟨(h1.trans h2.1).trans (gotoClosed_unsent _ _ _), by rw [hg, h2.2, h4]⟩
  · exact ⟨h1.trans h2.1, by rw [h2.2, h4]⟩

theorem onExceptionReport_unsent (s : SS) (i : Nat) (now : Int) (rid : Nat) (names : Nat → Nat) : Unsent (some rid) s (s.onExceptionReport i now rid names).1 := by
  rw [onExceptionReport]
  dsimp only
  exact ((Unsent.oneSame (f := { s.flow i with exception := true }) rfl rfl).trans (close_unsent _ _ _ _ _)).stamps (fun k => abandonAll_stamp _ _ _)

theorem onSessionDidClose_unsent (s : SS) (i : Nat) (now : Int) (rid : Nat) (names : Nat → Nat) (rid' : Option Nat) (hb : ¬ ((s.flow i).bound = true ∧ s.isOpen = true)) :
    Unsent rid' s (s.onSessionDidClose i now rid names).1 ∧ (s.onSessionDidClose i now rid names).1.isOpen = s.isOpen := by
  rw [onSessionDidClose, onExceptionReport]
  dsimp only
  obtain ⟨h1, h2⟩ := close_unsent' (s.setFlow i { s.flow i with exception := true }) i now rid names rid' (by rw [setFlow_same]; exact hb)
  refine ⟨?_, h2⟩
  have h3 : Unsent rid' s (s.setFlow i { s.flow i with exception := true }) := Unsent.oneSame rfl rfl
  refine ((h3.trans h1).stamps (fun k => abandonAll_stamp _ _ _)).trans (Unsent.one rfl (fun x hx => by cases hx))

theorem closeFlows_unsent (now : Int) (l : List Nat) : ∀ s : SS, s.isOpen = false → Unsent none s (closeFlows now s l).1 := by
  induction l with
  | nil => intro s _; exact .refl _ _
  | cons i l ih =>
    intro s h
    rw [closeFlows]
    dsimp only
    obtain ⟨h1, h2⟩ := onSessionDidClose_unsent s i now 0 id none (by rw [h]; simp)
    exact h1.trans (ih _ (by rw [h2]; exact h))

theorem trim_unsent (s : SS) (i : Nat) (now : Int) : Unsent none s (s.trim i now).1 := by
  rw [trim]
  dsimp only
  have h1 : Unsent none s (s.setFlow i { s.flow i with queue := (trimLoop now s.receipts (s.flow i).queue).2.1 }) :=
    Unsent.one rfl (fun x hx => ⟨x, trimLoop_mem _ _ _ x hx, Alike.refl x, id, rfl⟩)
  exact h1.stamps (fun k => trimLoop_stamp _ _ _ _)

theorem lingerIf_keeps (f : SF) : (lingerIf f).queue = f.queue ∧ (lingerIf f).nextSn = f.nextSn := by
  rw [lingerIf]
  split <;> exact ⟨rfl, rfl⟩

theorem onAck_unsent (s : SS) (i b : Nat) (rs : List (Nat × Nat)) : Unsent none s (s.onAck i b rs).1 := by
  rw [onAck]
  dsimp only
  split
  · exact .refl _ _
  · dsimp only
    generalize hx : ackRanges i rs ⟨s.receipts, (s.flow i).outstanding, s.outs, s.outSum, s.maxTsnAck, []⟩ (s.flow i).queue = x
    have hk := fun k => ackRanges_stamp i rs k ⟨s.receipts, (s.flow i).outstanding, s.outs, s.outSum, s.maxTsnAck, []⟩ (s.flow i).queue
    rw [hx] at hk
    refine ⟨fun k _ => (hk k).1, fun j y hy => ?_, fun j => ?_⟩
    · left
      by_cases e : j = i
      · subst e
        dsimp only at hy
        rw [setFlow_same] at hy
        have : y ∈ x.2 := by
          rw [(lingerIf_keeps _).1] at hy
          exact hy
        exact ⟨y, (hk 0).2 y this, Alike.refl y, id, rfl⟩
      · dsimp only at hy
        rw [setFlow_other _ _ e] at hy
        exact ⟨y, hy, Alike.refl y, id, rfl⟩
    · by_cases e : j = i
      · subst e
        dsimp only
        rw [setFlow_same, (lingerIf_keeps _).2]
        exact Nat.le_refl _
      · dsimp only; rw [setFlow_other _ _ e]; exact Nat.le_refl _

theorem modFrag_unsent {rid : Option Nat} {s : SS} {i sn : Nat} {f : SF} {g : SFrag → SFrag} (hn : f.nextSn = (s.flow i).nextSn) (hq : f.queue = modFrag (s.flow i).queue sn g)
    (hg : ∀ y, Alike y (g y) ∧ ((g y).inFlight = true → y.inFlight = true) ∧ (g y).everSent = y.everSent) : Unsent rid s (s.setFlow i f) := by
  refine Unsent.one hn (fun x hx => ?_)
  rw [hq, modFrag] at hx
  obtain ⟨y, hy, rfl⟩ := List.mem_map.mp hx
  refine ⟨y, hy, ?_⟩
  split
  · exact hg y
  · exact ⟨Alike.refl y, id, rfl⟩

theorem lose_unsent (s : SS) (o : OutRef) : Unsent none s (lose s o) := by
  rw [lose]
  exact modFrag_unsent (sn := o.sn) (g := fun x => { x with inFlight := false }) rfl rfl (fun y => ⟨⟨rfl, rfl, rfl, rfl, rfl⟩, (fun h => by cases h), rfl⟩)

theorem nakFrag_unsent (s : SS) (o : OutRef) : Unsent none s (nakFrag s o) := by
  rw [nakFrag]
  exact modFrag_unsent (sn := o.sn) (g := fun x => { x with nak := x.nak + 1 }) rfl rfl (fun y => ⟨⟨rfl, rfl, rfl, rfl, rfl⟩, id, rfl⟩)

theorem nakLoop_unsent (l : List OutRef) : ∀ s k, Unsent none s (nakLoop s k l).1 := by
  induction l with
  | nil => intro s k; exact .refl _ _
  | cons o l ih =>
    intro s k
    rw [nakLoop]
    split
    · exact .refl _ _
    have h1 := nakFrag_unsent s o
    dsimp only
    split
    · exact h1.trans (ih _ _)
    · split
      · refine (h1.trans (lose_unsent _ o)).trans (Unsent.trans ?_ (ih _ _))
        exact Unsent.same rfl (fun _ => rfl) (fun _ => rfl)
      · exact h1.trans (ih _ _)

theorem loseAll_unsent (l : List OutRef) : ∀ s : SS, Unsent none s (l.foldl lose s) := by
  induction l with
  | nil => intro s; exact .refl _ _
  | cons o l ih => intro s; exact (lose_unsent s o).trans (ih _)

/-- everything but sending -/
theorem step_unsent {ops : List Op} {s t : SS} {op : Op} {es : List Ev} (hbk : Books s) (ha : Allowed ops s op) (hs : step s op = some (t, es))
    (hq : ∀ i m a p, op = .openFlow i m a p → (s.flow i).queue = [] ∧ (s.flow i).nextSn ≤ 1) (hop : ∀ i p pri now gone, op ≠ .transmit i p pri now gone) : Unsent op.rid s t := by
  cases op with
  | openFlow i m a p =>
    obtain ⟨q1, q2⟩ := hq i m a p rfl
    rw [step] at hs
    simp only [Option.some.injEq, Prod.mk.injEq] at hs
    rw [← hs.1, openFlow]
    split
    · exact .refl _ _
    · refine ⟨fun _ _ => rfl, fun j x hx => ?_, fun j => ?_⟩
      · by_cases e : j = i
        · subst e; rw [setFlow_same] at hx; simp [SF.init] at hx
        · rw [setFlow_other _ _ e] at hx; exact Or.inl ⟨x, hx, Alike.refl x, id, rfl⟩
      · by_cases e : j = i
        · subst e; rw [setFlow_same]; simpa [SF.init] using q2
        · rw [setFlow_other _ _ e]; exact Nat.le_refl _
  | sessionOpen =>
    rw [step] at hs
    simp only [Option.some.injEq, Prod.mk.injEq] at hs
    rw [← hs.1]; exact Unsent.same rfl (fun _ => rfl) (fun _ => rfl)
  | bind i fid =>
    rw [step] at hs
    simp only [Option.some.injEq, Prod.mk.injEq] at hs
    rw [← hs.1, bind]
    split
    · exact .refl _ _
    · refine (Unsent.oneSame (f := { s.flow i with bound := true, flowId := fid }) rfl rfl).trans ?_
      exact Unsent.same rfl (fun _ => rfl) (fun _ => rfl)
  | write i msg now a b rid names =>
    rw [step] at hs
    simp only [Option.some.injEq] at hs
    cases hw : s.write i msg now a b rid names with
    | none => rw [hw, writeRes] at hs; rw [← (Prod.mk.inj hs).1]; exact .refl _ _
    | some u =>
      rw [hw, writeRes] at hs; rw [← (Prod.mk.inj hs).1]
      obtain ⟨_, fs, _, e, _⟩ := write_queue hw
      rw [e]; exact queueFrags_unsent _ _ _ _ _ _ _ _
  | close i now rid names =>
    rw [step] at hs
    simp only [Option.some.injEq, Prod.mk.injEq] at hs
    rw [← hs.1]; exact close_unsent _ _ _ _ _
  | setOnException i =>
    rw [step] at hs
    simp only [Option.some.injEq, Prod.mk.injEq] at hs
    rw [← hs.1]; exact Unsent.oneSame rfl rfl
  | setPriority i pri =>
    rw [step, setPriority] at hs
    dsimp only at hs
    split at hs
    · cases hs
    · simp only [priRes, Option.some.injEq, Prod.mk.injEq] at hs
      rw [← hs.1]; exact Unsent.oneSame rfl rfl
  | receipt op =>
    rw [step] at hs
    simp only [Option.some.injEq, Prod.mk.injEq] at hs
    rw [← hs.1]
    exact (Unsent.refl _ s).stamps (fun k => by rw [settled_stamp]; exact user_stamp ha k)
  | trim i now =>
    rw [step] at hs
    simp only [Option.some.injEq, Prod.mk.injEq] at hs
    rw [← hs.1]; exact trim_unsent _ _ _
  | transmit i p pri now gone => exact absurd rfl (hop i p pri now gone)
  | ack i b rs =>
    rw [step] at hs
    simp only [Option.some.injEq, Prod.mk.injEq] at hs
    rw [← hs.1]; exact onAck_unsent _ _ _ _
  | afterAcks c =>
    rw [step] at hs
    simp only [Option.some.injEq, Prod.mk.injEq] at hs
    rw [← hs.1]; exact nakLoop_unsent _ _ _
  | exceptionReport i now rid names =>
    rw [step] at hs
    simp only [Option.some.injEq, Prod.mk.injEq] at hs
    rw [← hs.1]; exact onExceptionReport_unsent _ _ _ _ _
  | timeout =>
    rw [step] at hs
    simp only [Option.some.injEq, Prod.mk.injEq] at hs
    rw [← hs.1, timeout]
    exact (loseAll_unsent s.outs s).trans (Unsent.same rfl (fun _ => rfl) (fun _ => rfl))
  | lingerAlarm i =>
    rw [step] at hs
    simp only [Option.some.injEq, Prod.mk.injEq] at hs
    rw [← hs.1]; exact gotoClosed_unsent _ _ _
  | closeSession now =>
    rw [step] at hs
    simp only [Option.some.injEq, Prod.mk.injEq] at hs
    rw [← hs.1, closeSession]
    refine Unsent.trans ?_ ((closeFlows_unsent now s.sendFlows { s with isOpen := false } rfl).trans ?_)
    · exact Unsent.same rfl (fun _ => rfl) (fun _ => rfl)
    · exact Unsent.same rfl (fun _ => rfl) (fun _ => rfl)
  | openingFailed i now =>
    rw [step] at hs
    simp only [Option.some.injEq, Prod.mk.injEq] at hs
    rw [← hs.1]; exact (onSessionDidClose_unsent _ _ _ _ _ _ (by rw [ha.1]; simp)).1

/-! ## sending -/

theorem stamp_started {a b : Receipt} (h : stamp a = stamp b) : a.started = b.started := (Prod.mk.inj h).2
theorem stamp_origin {a b : Receipt} (h : stamp a = stamp b) : a.origin = b.origin := (Prod.mk.inj h).1

/-- the loop of `assembleData`: chunks are those of fragments of messages that are started now, and those only are -/
theorem fill_age (c : Ctx) (q : List SFrag) : ∀ s : Fill, ∃ ps, ((fill c s q).1.chunks = s.chunks ++ ps ∧ (fill c s q).1.first = (s.first && ps.isEmpty)) ∧
    (∀ k, ((fill c s q).1.receipts.r k).origin = (s.receipts.r k).origin) ∧
    (∀ k, (s.receipts.r k).started = true → ((fill c s q).1.receipts.r k).started = true) ∧
    (∀ k, ((fill c s q).1.receipts.r k).started = true → (s.receipts.r k).started = true ∨ ∃ g ∈ q, g.receipt = k ∧ ∃ p ∈ ps, p.sn = g.sn) ∧
    (∀ p ∈ ps, ∃ g ∈ q, g.sn = p.sn ∧ ((fill c s q).1.receipts.r g.receipt).started = true) ∧
    (∀ y ∈ (fill c s q).2, ∃ g ∈ q, Alike g y ∧ ((y.inFlight = g.inFlight ∧ y.everSent = g.everSent) ∨ ((fill c s q).1.receipts.r y.receipt).started = true)) := by
  induction q with
  | nil => intro s; exact ⟨[], by simp [fill], fun _ => rfl, fun _ h => h, fun _ h => Or.inl h, (fun p h => by cases h), (fun y h => by simp [fill] at h)⟩
  | cons f q ih =>
    intro s
    have stop : ∀ s' : Fill, s'.chunks = s.chunks → s'.first = s.first → (∀ k, stamp (s'.receipts.r k) = stamp (s.receipts.r k)) → ∃ ps, (s'.chunks = s.chunks ++ ps ∧ s'.first = (s.first && ps.isEmpty)) ∧
        (∀ k, (s'.receipts.r k).origin = (s.receipts.r k).origin) ∧
        (∀ k, (s.receipts.r k).started = true → (s'.receipts.r k).started = true) ∧
        (∀ k, (s'.receipts.r k).started = true → (s.receipts.r k).started = true ∨ ∃ g ∈ f :: q, g.receipt = k ∧ ∃ p ∈ ps, p.sn = g.sn) ∧
        (∀ p ∈ ps, ∃ g ∈ f :: q, g.sn = p.sn ∧ (s'.receipts.r g.receipt).started = true) ∧
        (∀ y ∈ f :: q, ∃ g ∈ f :: q, Alike g y ∧ ((y.inFlight = g.inFlight ∧ y.everSent = g.everSent) ∨ (s'.receipts.r y.receipt).started = true)) := by
      intro s' h1 h0 h2
      exact ⟨[], by simp [h1, h0], fun k => stamp_origin (h2 k), fun k h => by rw [stamp_started (h2 k)]; exact h, fun k h => Or.inl (by rw [← stamp_started (h2 k)]; exact h),
        (fun p h => by cases h), fun y hy => ⟨y, hy, Alike.refl y, Or.inl ⟨rfl, rfl⟩⟩⟩
    rw [fill]
    split
    · exact stop s rfl rfl (fun _ => rfl)
    split
    · dsimp only
      obtain ⟨ps, h1, h2, h3, h4, h5, h6⟩ := ih s
      refine ⟨ps, h1, h2, h3, fun k h => ?_, fun p hp => ?_, fun y hy => ?_⟩
      · rcases h4 k h with e | ⟨g, hg, e⟩
        · exact Or.inl e
        · exact Or.inr ⟨g, List.mem_cons_of_mem _ hg, e⟩
      · obtain ⟨g, hg, e⟩ := h5 p hp; exact ⟨g, List.mem_cons_of_mem _ hg, e⟩
      · rcases List.mem_cons.mp hy with e | hy
        · exact ⟨f, List.mem_cons_self, by rw [e]; exact Alike.refl f, Or.inl (by rw [e]; exact ⟨rfl, rfl⟩)⟩
        · obtain ⟨g, hg, e⟩ := h6 y hy; exact ⟨g, List.mem_cons_of_mem _ hg, e⟩
    · dsimp only
      have hb := beforeSend_stamp s.receipts f c.now
      generalize beforeSend s.receipts f c.now = r at hb ⊢
      generalize hput : chunkFor c s.first s.prevSn f (r.1.r f.receipt).isAbandoned = put
      have hsn : put.sn = f.sn := by rw [← hput]; rfl
      split
      · exact stop _ rfl rfl hb
      · generalize hs' : (Fill.mk _ _ _ _ _ _ _ _ _ _) = s'
        have e1 : s'.chunks = s.chunks ++ [put] := by rw [← hs']
        have e3 : s'.first = false := by rw [← hs']
        have e2 : s'.receipts = r.1.upd f.receipt { r.1.r f.receipt with started := true } := by rw [← hs']
        have eo : ∀ k, (s'.receipts.r k).origin = (s.receipts.r k).origin := by
          intro k
          rw [e2, ← stamp_origin (hb k)]
          by_cases e : k = f.receipt
          · subst e; simp [RStore.upd]
          · simp [RStore.upd, e]
        have es : ∀ k, (s'.receipts.r k).started = true ↔ (s.receipts.r k).started = true ∨ k = f.receipt := by
          intro k
          rw [e2, ← stamp_started (hb k)]
          by_cases e : k = f.receipt
          · subst e; simp [RStore.upd]
          · simp [RStore.upd, e]
        obtain ⟨ps, h1, h2, h3, h4, h5, h6⟩ := ih s'
        have hfs := h3 _ ((es f.receipt).mpr (Or.inr rfl))
        refine ⟨put :: ps, by rw [h1.1, h1.2, e1, e3]; simp, fun k => by rw [h2, eo], fun k h => h3 k ((es k).mpr (Or.inl h)), fun k h => ?_, fun p hp => ?_, fun y hy => ?_⟩
        · rcases h4 k h with e | ⟨g, hg, e, p, hp, e'⟩
          · rcases (es k).mp e with e | e
            · exact Or.inl e
            · exact Or.inr ⟨f, List.mem_cons_self, e.symm, put, List.mem_cons_self, hsn⟩
          · exact Or.inr ⟨g, List.mem_cons_of_mem _ hg, e, p, List.mem_cons_of_mem _ hp, e'⟩
        · rcases List.mem_cons.mp hp with e | hp
          · exact ⟨f, List.mem_cons_self, by rw [e, hsn], hfs⟩
          · obtain ⟨g, hg, e⟩ := h5 p hp; exact ⟨g, List.mem_cons_of_mem _ hg, e⟩
        · rcases List.mem_cons.mp hy with e | hy
          · exact ⟨f, List.mem_cons_self, by rw [e]; exact ⟨rfl, rfl, rfl, rfl, rfl⟩, Or.inr (by rw [e]; exact hfs)⟩
          · obtain ⟨g, hg, e⟩ := h6 y hy; exact ⟨g, List.mem_cons_of_mem _ hg, e⟩

theorem dropOptions_keeps (f : SF) (g : Bool) : (dropOptions f g).queue = f.queue ∧ (dropOptions f g).nextSn = f.nextSn ∧ (dropOptions f g).lastName = f.lastName := by
  rw [dropOptions]
  split <;> exact ⟨rfl, rfl, rfl⟩

/-- sending: what is started and what is sent -/
theorem assembleData_age (s : SS) (i : Nat) (p : PA) (pri : Nat) (now : Int) (gone : Bool) :
    let a := s.assembleData i p pri now gone
    (∀ k, (a.s.receipts.r k).origin = (s.receipts.r k).origin) ∧
    (∀ k, (s.receipts.r k).started = true → (a.s.receipts.r k).started = true) ∧
    (∀ k, (a.s.receipts.r k).started = true → (s.receipts.r k).started = true ∨ ∃ g ∈ (s.flow i).queue, g.receipt = k ∧ ∃ p ∈ a.chunks, p.sn = g.sn) ∧
    (∀ p ∈ a.chunks, ∃ g ∈ (s.flow i).queue, g.sn = p.sn ∧ (a.s.receipts.r g.receipt).started = true) ∧
    (∀ j, ∀ y ∈ (a.s.flow j).queue, ∃ g ∈ (s.flow j).queue, Alike g y ∧ ((y.inFlight = g.inFlight ∧ y.everSent = g.everSent) ∨ (a.s.receipts.r y.receipt).started = true)) ∧
    (∀ j, (a.s.flow j).nextSn = (s.flow j).nextSn) ∧ (a.chunks ≠ [] → a.sent = true) := by
  have skip : (∀ k, (s.receipts.r k).origin = (s.receipts.r k).origin) ∧
      (∀ k, (s.receipts.r k).started = true → (s.receipts.r k).started = true) ∧
      (∀ k, (s.receipts.r k).started = true → (s.receipts.r k).started = true ∨ ∃ g ∈ (s.flow i).queue, g.receipt = k ∧ ∃ p ∈ ([] : List Put), p.sn = g.sn) ∧
      (∀ p ∈ ([] : List Put), ∃ g ∈ (s.flow i).queue, g.sn = p.sn ∧ (s.receipts.r g.receipt).started = true) ∧
      (∀ j, ∀ y ∈ (s.flow j).queue, ∃ g ∈ (s.flow j).queue, Alike g y ∧ ((y.inFlight = g.inFlight ∧ y.everSent = g.everSent) ∨ (s.receipts.r y.receipt).started = true)) ∧
      (∀ j, (s.flow j).nextSn = (s.flow j).nextSn) ∧ (([] : List Put) ≠ [] → false = true) :=
    ⟨fun _ => rfl, fun _ h => h, fun _ h => Or.inl h, (fun p h => by cases h), fun j y hy => ⟨y, hy, Alike.refl y, Or.inl ⟨rfl, rfl⟩⟩, fun _ => rfl, (fun h => absurd rfl h)⟩
  rw [assembleData]
  split
  · exact skip
  split
  · exact skip
  · dsimp only
    have ht := fun k => (trim_unsent s i now).stamp k (by simp)
    have hq : ∀ j, (∀ y ∈ ((s.trim i now).1.flow j).queue, y ∈ (s.flow j).queue) ∧ ((s.trim i now).1.flow j).nextSn = (s.flow j).nextSn := by
      intro j
      rw [trim]
      dsimp only
      by_cases e : j = i
      · subst e; rw [setFlow_same]; exact ⟨fun y hy => trimLoop_mem _ _ _ y hy, rfl⟩
      · rw [setFlow_other _ _ e]; exact ⟨fun _ h => h, rfl⟩
    generalize s.trim i now = t at ht hq ⊢
    have hw := findForward_stamp t.1.receipts now (t.1.flow i).queue
    generalize findForward t.1.receipts now (t.1.flow i).queue = w at hw ⊢
    obtain ⟨d1, d2, d3⟩ := dropOptions_keeps (t.1.flow i) gone
    generalize dropOptions (t.1.flow i) gone = f at d1 d2 d3 ⊢
    have hsa := startAt_append f.lastName f.queue
    generalize startAt f.lastName f.queue = st at hsa ⊢
    obtain ⟨ps, ⟨h1, h0⟩, h2, h3, h4, h5, h6⟩ := fill_age ⟨i, f.flowId, now, w.2.1, f.options, f.rxBuffer, f.finalSn, t.1.nextTsn⟩ st.2
      ⟨p, w.1, f.outstanding, t.1.outs, t.1.outSum, true, 0, f.lastName, [], []⟩
    generalize fill ⟨i, f.flowId, now, w.2.1, f.options, f.rxBuffer, f.finalSn, t.1.nextTsn⟩ ⟨p, w.1, f.outstanding, t.1.outs, t.1.outSum, true, 0, f.lastName, [], []⟩ st.2 = x
      at h0 h1 h2 h3 h4 h5 h6 ⊢
    dsimp only at h0 h1 h2 h3 h4 h5 h6
    have hws := fun k => (hw k).trans (ht k)
    rw [List.nil_append] at h1
    have hmem : ∀ g ∈ st.2, g ∈ (s.flow i).queue := by
      intro g hg
      apply (hq i).1
      rw [← d1, ← hsa]
      exact List.mem_append_right _ hg
    refine ⟨fun k => by rw [h2, stamp_origin (hws k)], fun k h => h3 k (by rw [stamp_started (hws k)]; exact h), fun k h => ?_, fun p hp => ?_, fun j y hy => ?_, fun j => ?_, fun h => ?_⟩
    · rw [h1]
      rcases h4 k h with e | ⟨g, hg, e⟩
      · exact Or.inl (by rw [← stamp_started (hws k)]; exact e)
      · exact Or.inr ⟨g, hmem g hg, e⟩
    · rw [h1] at hp
      obtain ⟨g, hg, e⟩ := h5 p hp
      exact ⟨g, hmem g hg, e⟩
    · by_cases e : j = i
      · subst e
        rw [setFlow_same] at hy
        rcases List.mem_append.mp hy with hy | hy
        · refine ⟨y, (hq j).1 y ?_, Alike.refl y, Or.inl ⟨rfl, rfl⟩⟩
          rw [← d1, ← hsa]; exact List.mem_append_left _ hy
        · obtain ⟨g, hg, e⟩ := h6 y hy
          exact ⟨g, hmem g hg, e⟩
      · rw [setFlow_other _ _ e] at hy
        exact ⟨y, (hq j).1 y hy, Alike.refl y, Or.inl ⟨rfl, rfl⟩⟩
    · by_cases e : j = i
      · subst e; rw [setFlow_same]; exact d2.trans (hq j).2
      · rw [setFlow_other _ _ e]; exact (hq j).2
    · rw [h0]
      rw [h1] at h
      cases ps with
      | nil => exact absurd rfl h
      | cons => rfl

/-! ## all executions -/

/-- Specification: something of the message with these fragment numbers was sent. -/
def Begun (evs : List Ev) (i a n : Nat) : Prop := ∃ fsn ps P p, Ev.sent i fsn ps P ∈ evs ∧ p ∈ ps ∧ a ≤ p.sn ∧ p.sn < a + n

theorem Begun.more {evs es : List Ev} {i a n : Nat} (h : Begun evs i a n) : Begun (evs ++ es) i a n := by
  obtain ⟨fsn, ps, P, p, h1, h2⟩ := h
  exact ⟨fsn, ps, P, p, List.mem_append_left _ h1, h2⟩

structure Ages (ops : List Op) (s : SS) (evs : List Ev) : Prop where
  flight : ∀ i, ∀ x ∈ (s.flow i).queue, x.inFlight = true → (s.receipts.r x.receipt).started = true
  own : ∀ i r a n M, Ev.accepted i r a n M ∈ evs → ∀ j, ∀ x ∈ (s.flow j).queue, x.receipt = r → j = i ∧ a ≤ x.sn ∧ x.sn < a + n
  began : ∀ i r a n M, Ev.accepted i r a n M ∈ evs → (s.receipts.r r).started = true → Begun evs i a n
  sent : ∀ i r a n M, Ev.accepted i r a n M ∈ evs → Begun evs i a n → (s.receipts.r r).started = true
  origin : ∀ i r a n M, Ev.accepted i r a n M ∈ evs → ∃ w x y names, Op.write i M w x y r names ∈ ops ∧ (s.receipts.r r).origin = w
  low : ∀ i fsn ps P p, Ev.sent i fsn ps P ∈ evs → p ∈ ps → p.sn < (s.flow i).nextSn
  cover : ∀ i, ∀ x ∈ (s.flow i).queue, (∃ r a n M, Ev.accepted i r a n M ∈ evs ∧ a ≤ x.sn ∧ x.sn < a + n) ∨
    ((s.flow i).state ≠ .opened ∧ ∀ r a n M, Ev.accepted i r a n M ∈ evs → a + n ≤ x.sn)

theorem allowed_fresh {ops : List Op} {s : SS} {op : Op} (ha : Allowed ops s op) {k : Nat} (h : op.rid = some k) : ¬ issuedBy ops k := by
  cases op with
  | write i msg now a b rid names => simp only [Op.rid, Option.some.injEq] at h; rw [← h]; exact ha.1
  | close i now rid names => simp only [Op.rid, Option.some.injEq] at h; rw [← h]; exact ha.1
  | exceptionReport i now rid names => simp only [Op.rid, Option.some.injEq] at h; rw [← h]; exact ha.2.1
  | _ => simp [Op.rid] at h

theorem gotoClosed_state (s : SS) (i : Nat) : ((s.gotoClosed i).flow i).state ≠ .opened := by
  rw [gotoClosed]
  dsimp only
  split
  · dsimp only; rw [setFlow_same]; simp
  · rename_i h
    intro e
    rw [e] at h
    exact h (by decide)

theorem close_state (s : SS) (i : Nat) (now : Int) (rid : Nat) (names : Nat → Nat) : ((s.close i now rid names).flow i).state ≠ .opened := by
  rw [close]
  dsimp only
  split
  · exact gotoClosed_state _ _
  · rw [closeState]
    split
    · split
      · dsimp only; rw [setFlow_same]; simp
      · exact gotoClosed_state _ _
    · rename_i h; exact h

theorem afterSend_same (s : SS) (b : Bool) : (s.afterSend b).flow = s.flow ∧ (s.afterSend b).receipts = s.receipts := by
  rw [afterSend]
  split <;> exact ⟨rfl, rfl⟩

theorem exec_ages {ops : List Op} {s : SS} {evs : List Ev} (h : Exec ops s evs) : Ages ops s evs := by
  induction h with
  | nil =>
    refine ⟨fun i x hx => ?_, ?_, ?_, ?_, ?_, ?_, fun i x hx => ?_⟩
    · simp [init, SF.init] at hx
    · intro i r a n M h; cases h
    · intro i r a n M h; cases h
    · intro i r a n M h; cases h
    · intro i r a n M h; cases h
    · intro i fsn ps P p h; cases h
    · simp [init, SF.init] at hx
  | @snoc ops s evs op t es he ha hs ih =>
    have hbk := exec_books he
    have hfa := exec_fate he
    have hiss : ∀ i r a n M, Ev.accepted i r a n M ∈ evs → issuedBy ops r := by
      intro i r a n M hm
      obtain ⟨msg, now, x, y, names, hw⟩ := (hfa.wrote i r a n M hm).1
      exact List.mem_map.mpr ⟨_, hw, rfl⟩
    have hopn : ∀ i, ∀ x ∈ (s.flow i).queue, ∃ m a p, Op.openFlow i m a p ∈ ops := by
      intro i x hx
      apply Classical.byContradiction
      intro hno
      rw [hfa.unopened i (fun m a p k => hno ⟨m, a, p, k⟩)] at hx
      cases hx
    have hshut : ∀ i, ∀ x ∈ (s.flow i).queue, (s.flow i).state ≠ .opened → (t.flow i).state ≠ .opened := by
      intro i x hx h0
      obtain ⟨ms, hms⟩ := exec_stream he i
      obtain ⟨_, _, _, k⟩ := hms.step he ha hs
      exact (k h0).2 (hopn i x hx)
    by_cases htr : ∃ i p pri now gone, op = .transmit i p pri now gone
    · obtain ⟨i0, p0, pri, now, gone, rfl⟩ := htr
      have hacc : ∀ i r a n M, Ev.accepted i r a n M ∈ evs ++ es → Ev.accepted i r a n M ∈ evs := by
        intro i r a n M hm
        rcases List.mem_append.mp hm with hm | hm
        · exact hm
        · obtain ⟨_, _, _, _, _, _, e, _⟩ := accepted_step hs hm
          cases e
      obtain ⟨a1, a2, a3, a4, a5, a6, a7⟩ := assembleData_age s i0 p0 pri now gone
      have hs' := hs
      rw [step] at hs'
      simp only [sentRes, Option.some.injEq, Prod.mk.injEq] at hs'
      obtain ⟨f1, f2⟩ := afterSend_same (s.assembleData i0 p0 pri now gone).s (s.assembleData i0 p0 pri now gone).sent
      rw [hs'.1] at f1 f2
      rw [← f2] at a1 a2 a3 a4 a5
      rw [← f1] at a5 a6
      refine ⟨fun i x hx hfl => ?_, fun i r a n M hm j x hx hr => ?_, fun i r a n M hm hst => ?_, fun i r a n M hm hb => ?_, fun i r a n M hm => ?_, fun i fsn ps P p hm hp => ?_, fun i x hx => ?_⟩
      · obtain ⟨g, hg, e, e2⟩ := a5 i x hx
        rcases e2 with ⟨e2, _⟩ | e2
        · rw [e.receipt]; exact a2 _ (ih.flight i g hg (by rw [← e2]; exact hfl))
        · exact e2
      · obtain ⟨g, hg, e, _⟩ := a5 j x hx
        rw [e.sn]
        exact ih.own i r a n M (hacc _ _ _ _ _ hm) j g hg (by rw [← e.receipt]; exact hr)
      · rcases a3 r hst with e | ⟨g, hg, e, p, hp, e2⟩
        · exact (ih.began i r a n M (hacc _ _ _ _ _ hm) e).more
        · obtain ⟨rfl, k1, k2⟩ := ih.own i r a n M (hacc _ _ _ _ _ hm) i0 g hg e
          have hsent := a7 (List.ne_nil_of_mem hp)
          refine ⟨(s.assembleData i0 p0 pri now gone).fsn, (s.assembleData i0 p0 pri now gone).chunks, (s.assembleData i0 p0 pri now gone).packet, p, ?_, hp, by rw [e2]; exact k1, by rw [e2]; exact k2⟩
          rw [← hs'.2, hsent]
          simp
      · obtain ⟨fsn, ps, P, p, h1, h2, h3, h4⟩ := hb
        rcases List.mem_append.mp h1 with h1 | h1
        · exact a2 _ (ih.sent i r a n M (hacc _ _ _ _ _ hm) ⟨fsn, ps, P, p, h1, h2, h3, h4⟩)
        · obtain ⟨_, _, _, _, e, _, _, _, e2, _⟩ := sent_step hs h1
          obtain rfl : i = i0 := by cases e; rfl
          cases e
          rw [e2] at h2
          obtain ⟨g, hg, e3, e4⟩ := a4 p h2
          obtain ⟨ms, hms⟩ := exec_stream he i
          rw [hms.own r a n M (hacc _ _ _ _ _ hm) g hg (by omega) (by omega)] at e4
          exact e4
      · obtain ⟨w, x, y, names, k1, k2⟩ := ih.origin i r a n M (hacc _ _ _ _ _ hm)
        exact ⟨w, x, y, names, List.mem_append_left _ k1, by rw [a1]; exact k2⟩
      · rw [a6]
        rcases List.mem_append.mp hm with hm | hm
        · exact ih.low i fsn ps P p hm hp
        · obtain ⟨_, _, _, _, e, _, _, _, e2, _⟩ := sent_step hs hm
          obtain rfl : i = i0 := by cases e; rfl
          cases e
          rw [e2] at hp
          obtain ⟨g, hg, e3, _⟩ := a4 p hp
          have := (hbk.flow i).ok.range g hg
          omega
      · obtain ⟨g, hg, e, _⟩ := a5 i x hx
        rw [e.sn]
        rcases ih.cover i g hg with ⟨r, a, n, M, k1, k2⟩ | ⟨k1, k2⟩
        · exact Or.inl ⟨r, a, n, M, List.mem_append_left _ k1, k2⟩
        · exact Or.inr ⟨hshut i g hg k1, fun r a n M hm => k2 r a n M (hacc _ _ _ _ _ hm)⟩
    · have hU : Unsent op.rid s t := by
        refine step_unsent hbk ha hs (fun i m a p e => ?_) (fun i p pri now gone e => htr ⟨i, p, pri, now, gone, e⟩)
        subst e
        refine ⟨hfa.unopened i ha.2.1, ?_⟩
        obtain ⟨ms, hms⟩ := exec_stream he i
        have := hms.str.next
        rw [hms.unopened ha.2.1] at this
        rw [← this]; simp [Spec.stream]
      have hsent : ∀ i fsn ps P, Ev.sent i fsn ps P ∈ evs ++ es → Ev.sent i fsn ps P ∈ evs := by
        intro i fsn ps P hm
        rcases List.mem_append.mp hm with hm | hm
        · exact hm
        · obtain ⟨p, pri, now, gone, e, _⟩ := sent_step hs hm
          exact absurd ⟨_, _, _, _, _, e⟩ htr
      have hbeg : ∀ i a n, Begun (evs ++ es) i a n → Begun evs i a n := by
        rintro i a n ⟨fsn, ps, P, p, h1, h2⟩
        exact ⟨fsn, ps, P, p, hsent _ _ _ _ h1, h2⟩
      have hold : ∀ k, issuedBy ops k → stamp (t.receipts.r k) = stamp (s.receipts.r k) := fun k hk => hU.stamp k (fun e => allowed_fresh ha e hk)
      refine ⟨fun i x hx hfl => ?_, fun i r a n M hm j x hx hr => ?_, fun i r a n M hm hst => ?_, fun i r a n M hm hb => ?_, fun i r a n M hm => ?_, fun i fsn ps P p hm hp => ?_, fun i x hx => ?_⟩
      · rcases hU.queue i x hx with ⟨y, hy, e1, e2, _⟩ | ⟨_, e, _⟩
        · rw [e1.receipt, stamp_started (hold _ (hfa.rb.iss i y hy))]
          exact ih.flight i y hy (e2 hfl)
        · rw [e] at hfl; cases hfl
      · rcases List.mem_append.mp hm with hm | hm
        · rcases hU.queue j x hx with ⟨y, hy, e1, _⟩ | ⟨e, _⟩
          · rw [e1.sn]; exact ih.own i r a n M hm j y hy (by rw [← e1.receipt]; exact hr)
          · rw [hr] at e; exact absurd (hiss i r a n M hm) (allowed_fresh ha e)
        · obtain ⟨msg, now, x', y', names, fs, rfl, ho, rfl, ha1, hn, h0, hc, _, rfl⟩ := accepted_step hs hm
          rcases hU.queue j x hx with ⟨y, hy, e1, _⟩ | ⟨_, _, _, hnew⟩
          · exact absurd (by rw [← hr, e1.receipt]; exact hfa.rb.iss j y hy) (allowed_fresh ha rfl)
          · by_cases e : j = i
            · subst e
              rw [queueFrags_flow] at hx
              rcases List.mem_append.mp hx with hx | hx
              · have := (hbk.flow j).ok.range x hx
                omega
              · obtain ⟨_, h2, h3, _⟩ := number_new _ _ _ _ x hx
                exact ⟨rfl, by omega, by omega⟩
            · rw [queueFrags_other _ _ _ _ _ _ _ _ e] at hx
              have := (hbk.flow j).ok.range x hx
              omega
      · rcases List.mem_append.mp hm with hm | hm
        · rw [stamp_started (hold _ (hiss i r a n M hm))] at hst
          exact (ih.began i r a n M hm hst).more
        · obtain ⟨msg, now, x', y', names, fs, rfl, ho, rfl, _⟩ := accepted_step hs hm
          have := issue_stamp s.receipts r now x' y' fs.length r
          rw [if_pos rfl] at this
          have h2 := (Prod.mk.inj this).2
          rw [queueFrags] at hst
          dsimp only at hst
          rw [hst] at h2; cases h2
      · rcases List.mem_append.mp hm with hm | hm
        · rw [stamp_started (hold _ (hiss i r a n M hm))]
          exact ih.sent i r a n M hm (hbeg _ _ _ hb)
        · obtain ⟨fsn, ps, P, p, h1, h2, h3, _⟩ := hbeg _ _ _ hb
          obtain ⟨msg, now, x', y', names, fs, _, _, _, ha1, _⟩ := accepted_step hs hm
          have := ih.low i fsn ps P p h1 h2
          omega
      · rcases List.mem_append.mp hm with hm | hm
        · obtain ⟨w, x, y, names, k1, k2⟩ := ih.origin i r a n M hm
          exact ⟨w, x, y, names, List.mem_append_left _ k1, by rw [stamp_origin (hold _ (hiss i r a n M hm))]; exact k2⟩
        · obtain ⟨msg, now, x', y', names, fs, rfl, ho, rfl, ha1, hn, h0, hc, _, rfl⟩ := accepted_step hs hm
          have := issue_stamp s.receipts r now x' y' fs.length r
          rw [if_pos rfl] at this
          exact ⟨now, x', y', names, by simp, (Prod.mk.inj this).1⟩
      · exact Nat.lt_of_lt_of_le (ih.low i fsn ps P p (hsent _ _ _ _ hm) hp) (hU.next i)
      · rcases hU.queue i x hx with ⟨y, hy, e1, _⟩ | ⟨e, _, _, hnew⟩
        · rw [e1.sn]
          rcases ih.cover i y hy with ⟨r, a, n, M, k1, k2⟩ | ⟨k1, k2⟩
          · exact Or.inl ⟨r, a, n, M, List.mem_append_left _ k1, k2⟩
          · refine Or.inr ⟨hshut i y hy k1, fun r a n M hm => ?_⟩
            rcases List.mem_append.mp hm with hm | hm
            · exact k2 r a n M hm
            · obtain ⟨msg, now, x', y', names, fs, _, ho, _⟩ := accepted_step hs hm
              exact absurd ((hbk.flow i).ok.opened ho) k1
        · have hle : ∀ r a n M, Ev.accepted i r a n M ∈ evs → a + n ≤ x.sn := fun r a n M hm => Nat.le_trans (hfa.wrote i r a n M hm).2.2.2.2 hnew
          have hgone : x ∉ (s.flow i).queue := fun hx => by
            have := (hbk.flow i).ok.range x hx
            omega
          cases op with
          | write j msg now a b rid names =>
            rw [step] at hs
            simp only [Option.some.injEq] at hs
            cases hw : s.write j msg now a b rid names with
            | none => rw [hw, writeRes] at hs; rw [← (Prod.mk.inj hs).1] at hx; exact absurd hx hgone
            | some u =>
              rw [hw, writeRes] at hs
              obtain ⟨e1, e2⟩ := Prod.mk.inj hs
              obtain ⟨_, fs, _, eu, _⟩ := write_queue hw
              rw [← e1, eu] at hx
              by_cases e : i = j
              · subst e
                left
                rw [queueFrags_flow] at hx
                rcases List.mem_append.mp hx with hx | hx
                · exact absurd hx hgone
                · obtain ⟨_, h2, h3, _⟩ := number_new _ _ _ _ x hx
                  refine ⟨rid, _, _, msg, List.mem_append_right _ (by rw [← e2]; exact List.mem_singleton.mpr rfl), h2, ?_⟩
                  rw [eu, queueFrags_flow]
                  dsimp only
                  omega
              · rw [queueFrags_other _ _ _ _ _ _ _ _ e] at hx; exact absurd hx hgone
          | close j now rid names =>
            right
            rw [step] at hs
            simp only [Option.some.injEq, Prod.mk.injEq] at hs
            have hi : i = j := by
              apply Classical.byContradiction
              intro e
              rw [← hs.1, close_other _ _ _ _ _ e] at hx
              exact hgone hx
            subst hi
            refine ⟨by rw [← hs.1]; exact close_state _ _ _ _ _, fun r a n M hm => hle r a n M ?_⟩
            rw [← hs.2] at hm
            simpa using hm
          | exceptionReport j now rid names =>
            right
            have hs' := hs
            rw [step] at hs
            simp only [Option.some.injEq, Prod.mk.injEq] at hs
            rw [onExceptionReport] at hs
            dsimp only at hs
            have hi : i = j := by
              apply Classical.byContradiction
              intro e
              rw [← hs.1] at hx
              dsimp only at hx
              rw [close_other _ _ _ _ _ e, setFlow_other _ _ e] at hx
              exact hgone hx
            subst hi
            refine ⟨by rw [← hs.1]; exact close_state _ _ _ _ _, fun r a n M hm => hle r a n M ?_⟩
            rcases List.mem_append.mp hm with hm | hm
            · exact hm
            · obtain ⟨_, _, _, _, _, _, e, _⟩ := accepted_step hs' hm
              cases e
          | _ => simp [Op.rid] at e

end SS
end Rtmfp
