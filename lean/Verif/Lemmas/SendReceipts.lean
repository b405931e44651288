import Verif.Lemmas.SendAssemble

/-! # Receipts and the queues

Each fragment in a queue is counted in its receipt; fragments leave a queue when they were acknowledged or abandoned.
-/

namespace Rtmfp
namespace SS

/-- The receipts are those of a history of calls, reports made are `tr`, no callback is being executed, and those issued are in `iss`. -/
def RH (iss : Nat → Prop) (r : RStore) (tr : List (Nat × Bool)) : Prop :=
  ∃ rops, RStore.Hist rops r tr ∧ r.stack = [] ∧ ∀ k, RStore.Issued rops k → iss k

/-- fragments of receipt `k` -/
def cnt (k : Nat) (q : List SFrag) : Nat := (q.map (·.receipt)).count k

theorem cnt_append (k : Nat) (a b : List SFrag) : cnt k (a ++ b) = cnt k a + cnt k b := by simp [cnt]
theorem cnt_cons (k : Nat) (f : SFrag) (b : List SFrag) : cnt k (f :: b) = cnt k b + if f.receipt = k then 1 else 0 := by
  simp [cnt, List.count_cons]
theorem cnt_pos {k : Nat} {q : List SFrag} : 0 < cnt k q ↔ ∃ f ∈ q, f.receipt = k := by
  rw [cnt, List.count_pos_iff]; simp

/-- a call whose callback, if any, has returned -/
theorem RH.settled {iss : Nat → Prop} {r : RStore} {tr : List (Nat × Bool)} (h : RH iss r tr) (op : RStore.Op)
    (ha : ∀ rops, RStore.Hist rops r tr → RStore.Allowed rops r op) (hi : ∀ k o a b n, op = .issue k o a b n → iss k)
    (hout : (r.step op).2 = [] ∧ (r.step op).1.stack = [] ∨ (∃ x, (r.step op).2 = [x]) ∧ ∃ k, (r.step op).1.stack = [k]) :
    RH iss (settled (r.step op)).1 (tr ++ (settled (r.step op)).2) := by
  obtain ⟨rops, h1, h2, h3⟩ := h
  have h4 := RStore.Hist.snoc h1 (ha rops h1)
  have hiss : ∀ k, RStore.Issued (rops ++ [op]) k → iss k := by
    intro k hk
    rcases (RStore.Issued_snoc rops op k).mp hk with hk | ⟨o, a, b, n, hk⟩
    · exact h3 k hk
    · exact hi k o a b n (List.mem_singleton.mp hk).symm
  rcases hout with ⟨o1, o2⟩ | ⟨⟨x, o1⟩, k, o2⟩
  · refine ⟨rops ++ [op], ?_, ?_, hiss⟩
    · rw [Rtmfp.settled, if_pos o1]; exact h4
    · rw [Rtmfp.settled, if_pos o1]; exact o2
  · have hne : (r.step op).2 ≠ [] := by rw [o1]; simp
    refine ⟨rops ++ [op] ++ [.callbackReturned], ?_, ?_, ?_⟩
    · have := RStore.Hist.snoc (op := .callbackReturned) h4 trivial
      rw [Rtmfp.settled, if_neg hne]
      simpa [RStore.step] using this
    · rw [Rtmfp.settled, if_neg hne, RStore.callbackReturned, o2]
    · intro k hk
      rcases (RStore.Issued_snoc _ _ k).mp hk with hk | ⟨o, a, b, n, hk⟩
      · exact hiss k hk
      · simp at hk

theorem abandon_out (r : RStore) (i : Nat) (hs : r.stack = []) :
    (r.abandon i).2 = [] ∧ (r.abandon i).1.stack = [] ∨ (∃ x, (r.abandon i).2 = [x]) ∧ ∃ k, (r.abandon i).1.stack = [k] := by
  rw [RStore.abandon]
  dsimp only
  split
  · split
    · right; exact ⟨⟨_, rfl⟩, i, by simp [RStore.upd, hs]⟩
    · left; exact ⟨rfl, hs⟩
  · left; exact ⟨rfl, hs⟩

theorem RH.abandonNow {iss : Nat → Prop} {r : RStore} {tr : List (Nat × Bool)} (h : RH iss r tr) (i : Nat) :
    RH iss (r.abandonNow i).1 (tr ++ (r.abandonNow i).2) := by
  have hs : r.stack = [] := by obtain ⟨_, _, h2, _⟩ := h; exact h2
  exact h.settled (.abandon i) (fun _ _ => trivial) (by simp) (abandon_out r i hs)

theorem RH.abandonDue {iss : Nat → Prop} {r : RStore} {tr : List (Nat × Bool)} (h : RH iss r tr) (i : Nat) (now : Int) :
    RH iss (r.abandonDue i now).1 (tr ++ (r.abandonDue i now).2) := by
  have hs : r.stack = [] := by obtain ⟨_, _, h2, _⟩ := h; exact h2
  refine h.settled (.abandonIfNeeded i now) (fun _ _ => trivial) (by simp) ?_
  show (r.abandonIfNeeded i now).2 = [] ∧ _ ∨ _
  have e : r.step (.abandonIfNeeded i now) = r.abandonIfNeeded i now := rfl
  rw [e]
  rcases RStore.abandonIfNeeded_eq r i now with e | e <;> rw [e]
  · exact abandon_out r i hs
  · exact Or.inl ⟨rfl, hs⟩

theorem RH.started {iss : Nat → Prop} {r : RStore} {tr : List (Nat × Bool)} (h : RH iss r tr) (i : Nat) :
    RH iss (r.upd i { r.r i with started := true }) tr := by
  have hs : r.stack = [] := by obtain ⟨_, _, h2, _⟩ := h; exact h2
  have := h.settled (.start i) (fun _ _ => trivial) (by simp) (Or.inl ⟨rfl, hs⟩)
  simpa [Rtmfp.settled, RStore.step] using this

theorem RH.countDown {iss : Nat → Prop} {r : RStore} {tr : List (Nat × Bool)} (h : RH iss r tr) (i : Nat) (hu : 0 < (r.r i).useCount) :
    RH iss (r.countDown i).1 (tr ++ (r.countDown i).2) := by
  have hs : r.stack = [] := by obtain ⟨_, _, h2, _⟩ := h; exact h2
  refine h.settled (.fragmentDone i) ?_ (by simp) ?_
  · intro rops h1
    have := (RStore.hist_inv h1 i).uses
    exact ⟨by omega, by rw [hs]; simp⟩
  · have e : r.step (.fragmentDone i) = r.useCountDown i := rfl
    rw [e, RStore.useCountDown]
    dsimp only
    generalize (if (r.r i).useCount = 0 then U64MAX else (r.r i).useCount - 1) = n
    split
    · split
      · right; exact ⟨⟨_, rfl⟩, i, by simp [RStore.upd, hs]⟩
      · left; exact ⟨rfl, hs⟩
    · left; exact ⟨rfl, hs⟩

/-! ## use counts -/

theorem abandon_use (r : RStore) (i k : Nat) : ((r.abandon i).1.r k).useCount = (r.r k).useCount := by
  rw [RStore.abandon]
  dsimp only
  split
  · by_cases e : k = i
    · subst e; split <;> simp [RStore.upd]
    · split <;> simp [RStore.upd, e]
  · rfl

theorem abandonNow_use (r : RStore) (i k : Nat) : ((r.abandonNow i).1.r k).useCount = (r.r k).useCount := by
  rw [RStore.abandonNow, (settled_r _ k).2, abandon_use]

theorem abandonDue_use (r : RStore) (i k : Nat) (now : Int) : ((r.abandonDue i now).1.r k).useCount = (r.r k).useCount := by
  rw [RStore.abandonDue, (settled_r _ k).2]
  rcases RStore.abandonIfNeeded_eq r i now with e | e <;> rw [e]
  exact abandon_use r i k

theorem started_use (r : RStore) (i k : Nat) : ((r.upd i { r.r i with started := true }).r k).useCount = (r.r k).useCount := by
  by_cases e : k = i
  · subst e; simp [RStore.upd]
  · simp [RStore.upd, e]

theorem countDown_use (r : RStore) (i k : Nat) (hu : 0 < (r.r i).useCount) :
    ((r.countDown i).1.r k).useCount = (r.r k).useCount - if i = k then 1 else 0 := by
  rw [RStore.countDown, (settled_r _ k).2, RStore.useCountDown]
  dsimp only
  have hn : (if (r.r i).useCount = 0 then U64MAX else (r.r i).useCount - 1) = (r.r i).useCount - 1 := if_neg (by omega)
  rw [hn]
  by_cases e : k = i
  · subst e
    split
    · split <;> simp [RStore.upd]
    · simp [RStore.upd]
  · have e' : ¬ i = k := fun h => e h.symm
    split
    · split <;> simp [RStore.upd, e, e']
    · simp [RStore.upd, e, e']

/-! ## what the functions do to one queue -/

/-- Receipts `r` and queue `q` become `r'` and `q'`, with reports `ev`; fragments that leave the queue satisfy `A`, or are abandoned. -/
structure Go (A : Nat → Prop) (r : RStore) (q : List SFrag) (r' : RStore) (q' : List SFrag) (ev : List (Nat × Bool)) : Prop where
  hist : ∀ tr iss, RH iss r tr → (∀ k, cnt k q ≤ (r.r k).useCount) → RH iss r' (tr ++ ev)
  cnt : (∀ k, cnt k q ≤ (r.r k).useCount) → ∀ k, cnt k q' ≤ (r'.r k).useCount
  other : (∀ k, SS.cnt k q ≤ (r.r k).useCount) → ∀ k, (∀ f ∈ q, f.receipt ≠ k) → (r'.r k).useCount = (r.r k).useCount
  sub : ∀ f' ∈ q', ∃ f ∈ q, f.receipt = f'.receipt
  mono : Mono r r'
  kept : ∀ f ∈ q, (∃ f' ∈ q', f'.sn = f.sn ∧ f'.receipt = f.receipt) ∨ A f.sn ∨ (r'.r f.receipt).abandoned = true

theorem Go.refl (A : Nat → Prop) (r : RStore) (q : List SFrag) : Go A r q r q [] :=
  ⟨fun _ _ h _ => by simpa using h, fun h => h, fun _ _ _ => rfl, fun f hf => ⟨f, hf, rfl⟩, Mono.refl r, fun f hf => Or.inl ⟨f, hf, rfl, rfl⟩⟩

theorem Go.trans {A : Nat → Prop} {r r1 r2 : RStore} {q q1 q2 : List SFrag} {e1 e2 : List (Nat × Bool)} (x : Go A r q r1 q1 e1) (y : Go A r1 q1 r2 q2 e2) :
    Go A r q r2 q2 (e1 ++ e2) := by
  refine ⟨?_, fun h => y.cnt (x.cnt h), ?_, ?_, x.mono.trans y.mono, ?_⟩
  · intro tr iss h1 h2
    rw [← List.append_assoc]
    exact y.hist _ _ (x.hist _ _ h1 h2) (x.cnt h2)
  · intro h k hk
    rw [y.other (x.cnt h) k, x.other h k hk]
    intro f hf e
    obtain ⟨g, hg, e2⟩ := x.sub f hf
    exact hk g hg (e2.trans e)
  · intro f hf
    obtain ⟨g, hg, e⟩ := y.sub f hf
    obtain ⟨g', hg', e'⟩ := x.sub g hg
    exact ⟨g', hg', e'.trans e⟩
  · intro f hf
    rcases x.kept f hf with ⟨g, hg, g1, g2⟩ | h | h
    · rcases y.kept g hg with ⟨g', hg', g3, g4⟩ | h | h
      · exact Or.inl ⟨g', hg', g3.trans g1, g4.trans g2⟩
      · rw [g1] at h; exact Or.inr (Or.inl h)
      · rw [g2] at h; exact Or.inr (Or.inr h)
    · exact Or.inr (Or.inl h)
    · exact Or.inr (Or.inr (y.mono _ h))

/-- the queue stays, no use count changes -/
theorem Go.receipts {A : Nat → Prop} {r r' : RStore} {ev : List (Nat × Bool)} (q : List SFrag) (hh : ∀ tr iss, RH iss r tr → RH iss r' (tr ++ ev))
    (hu : ∀ k, (r'.r k).useCount = (r.r k).useCount) (hm : Mono r r') : Go A r q r' q ev :=
  ⟨fun tr iss h _ => hh tr iss h, fun h k => by rw [hu]; exact h k, fun _ k _ => hu k, fun f hf => ⟨f, hf, rfl⟩, hm, fun f hf => Or.inl ⟨f, hf, rfl, rfl⟩⟩

theorem Go.abandonNow (A : Nat → Prop) (r : RStore) (q : List SFrag) (i : Nat) : Go A r q (r.abandonNow i).1 q (r.abandonNow i).2 :=
  .receipts q (fun _ _ h => h.abandonNow i) (abandonNow_use r i) (abandonNow_mono r i)

theorem Go.abandonDue (A : Nat → Prop) (r : RStore) (q : List SFrag) (i : Nat) (now : Int) : Go A r q (r.abandonDue i now).1 q (r.abandonDue i now).2 :=
  .receipts q (fun _ _ h => h.abandonDue i now) (fun k => abandonDue_use r i k now) (abandonDue_mono r i now)

theorem Go.started (A : Nat → Prop) (r : RStore) (q : List SFrag) (i : Nat) : Go A r q (r.upd i { r.r i with started := true }) q [] :=
  .receipts q (fun _ _ h => by simpa using h.started i) (started_use r i) (started_mono r i)

/-- fragments change otherwise -/
theorem Go.alike {A : Nat → Prop} {r : RStore} {q q' : List SFrag} (h : Alikes q q') : Go A r q r q' [] := by
  have e : ∀ k, SS.cnt k q' = SS.cnt k q := fun k => by rw [SS.cnt, SS.cnt, h.map_eq (·.receipt) (fun _ _ x => x.receipt)]
  refine ⟨fun _ _ h _ => by simpa using h, fun h k => by rw [e]; exact h k, fun _ _ _ => rfl, ?_, Mono.refl r, ?_⟩
  · intro f hf
    obtain ⟨g, hg, x⟩ := h.mem hf
    exact ⟨g, hg, x.receipt.symm⟩
  · intro f hf
    obtain ⟨g, hg, x⟩ := h.mem' hf
    exact Or.inl ⟨g, hg, x.sn, x.receipt⟩

/-- a fragment leaves the queue -/
theorem Go.down {A : Nat → Prop} (r : RStore) (pre : List SFrag) (f : SFrag) (post : List SFrag) (hA : A f.sn ∨ (r.r f.receipt).abandoned = true) :
    Go A r (pre ++ f :: post) (r.countDown f.receipt).1 (pre ++ post) (r.countDown f.receipt).2 := by
  have hpos : (∀ k, SS.cnt k (pre ++ f :: post) ≤ (r.r k).useCount) → 0 < (r.r f.receipt).useCount := by
    intro h
    have := h f.receipt
    have : 0 < SS.cnt f.receipt (pre ++ f :: post) := cnt_pos.mpr ⟨f, by simp, rfl⟩
    omega
  refine ⟨fun tr iss h hc => h.countDown _ (hpos hc), fun h k => ?_, fun h k hk => ?_, ?_, countDown_mono r _, ?_⟩
  · have := h k
    rw [countDown_use _ _ _ (hpos h)]
    rw [cnt_append, cnt_cons] at this
    rw [cnt_append]
    split <;> simp_all <;> omega
  · rw [countDown_use _ _ _ (hpos h), if_neg (hk f (by simp))]; rfl
  · intro g hg
    refine ⟨g, ?_, rfl⟩
    rcases List.mem_append.mp hg with hg | hg <;> simp [hg]
  · intro g hg
    rcases List.mem_append.mp hg with hg | hg
    · exact Or.inl ⟨g, by simp [hg], rfl, rfl⟩
    · rcases List.mem_cons.mp hg with rfl | hg
      · exact Or.inr (hA.imp_right (fun h => countDown_mono r _ _ h))
      · exact Or.inl ⟨g, by simp [hg], rfl, rfl⟩

theorem abandonAll_go (A : Nat → Prop) (Q : List SFrag) (q : List SFrag) : ∀ r, Go A r Q (abandonAll r q).1 Q (abandonAll r q).2 := by
  induction q with
  | nil => intro r; exact Go.refl _ _ _
  | cons a q ih =>
    intro r
    rw [abandonAll]
    exact (Go.abandonNow A r Q a.receipt).trans (ih _)

theorem abandonAll_all (q : List SFrag) : ∀ r, ∀ f ∈ q, 0 < (r.r f.receipt).useCount → ((abandonAll r q).1.r f.receipt).abandoned = true := by
  induction q with
  | nil => intro r f hf; cases hf
  | cons a q ih =>
    intro r f hf hu
    rw [abandonAll]
    rcases List.mem_cons.mp hf with rfl | hf
    · dsimp only
      refine (abandonAll_go (fun _ => True) [] q _).mono _ ?_
      rw [RStore.abandonNow, (settled_r _ _).1, RStore.abandon]
      dsimp only
      split
      · split <;> simp [RStore.upd]
      · rename_i h
        apply Classical.byContradiction
        intro hn
        exact h ⟨by omega, by simpa using hn⟩
    · exact ih _ f hf (by rw [abandonNow_use]; exact hu)

theorem trimLoop_go (A : Nat → Prop) (now : Int) (q : List SFrag) : ∀ r, Go A r q (trimLoop now r q).1 (trimLoop now r q).2.1 (trimLoop now r q).2.2 := by
  induction q with
  | nil => intro r; exact Go.refl _ _ _
  | cons a q ih =>
    intro r
    cases q with
    | nil => exact Go.refl _ _ _
    | cons b q =>
      rw [trimLoop]
      split
      · exact Go.refl _ _ _
      dsimp only
      split
      · exact Go.abandonDue A r _ _ _
      · rename_i h1 h2
        refine ((Go.abandonDue A r _ _ _).trans ?_).trans (ih _)
        have := Go.down (A := A) (r.abandonDue a.receipt now).1 [] a (b :: q) (Or.inr (by simpa [Receipt.isAbandoned] using h2))
        exact this

theorem findForward_go (A : Nat → Prop) (Q : List SFrag) (r : RStore) (now : Int) (q : List SFrag) :
    Go A r Q (findForward r now q).1 Q (findForward r now q).2.2 := by
  cases q with
  | nil => exact Go.refl _ _ _
  | cons a q =>
    rw [findForward]
    dsimp only
    split
    · exact Go.refl _ _ _
    · exact Go.abandonDue A r _ _ _

theorem beforeSend_go (A : Nat → Prop) (Q : List SFrag) (r : RStore) (f : SFrag) (now : Int) :
    Go A r Q (beforeSend r f now).1 Q (beforeSend r f now).2 := by
  rw [beforeSend]
  dsimp only
  split
  · exact (Go.abandonNow A r _ _).trans (Go.abandonDue A _ _ _ _)
  · exact (Go.refl A r Q).trans (Go.abandonDue A _ _ _ _)

/-- the receipts in the loop of `assembleData`, whatever the queue -/
theorem fill_go (A : Nat → Prop) (c : Ctx) (Q : List SFrag) (q : List SFrag) : ∀ s, ∃ ev,
    Go A s.receipts Q (fill c s q).1.receipts Q ev ∧ (fill c s q).1.events = s.events ++ ev := by
  induction q with
  | nil => intro s; exact ⟨[], Go.refl _ _ _, by simp [fill]⟩
  | cons frag rest ih =>
    intro s
    rw [fill]
    split
    · exact ⟨[], Go.refl _ _ _, by simp⟩
    split
    · exact ih s
    dsimp only
    have hb := beforeSend_go A Q s.receipts frag c.now
    split
    · exact ⟨_, hb, rfl⟩
    · generalize hs : (Fill.mk _ _ _ _ _ _ _ _ _ _) = t
      obtain ⟨ev, h1, h2⟩ := ih t
      have ht : t.receipts = (beforeSend s.receipts frag c.now).1.upd frag.receipt { (beforeSend s.receipts frag c.now).1.r frag.receipt with started := true } := by rw [← hs]
      have ht2 : t.events = s.events ++ (beforeSend s.receipts frag c.now).2 := by rw [← hs]
      rw [ht] at h1
      refine ⟨_, (hb.trans (Go.started A _ Q frag.receipt)).trans h1, ?_⟩
      rw [h2, ht2]; simp

theorem ackOne_go (i : Nat) (A : Nat → Prop) (a : AckAcc) (pre post : List SFrag) (f : SFrag) (hA : A f.sn) :
    ∃ ev, Go A a.receipts (pre ++ f :: post) (ackOne i a f).receipts (pre ++ post) ev ∧ (ackOne i a f).events = a.events ++ ev := by
  refine ⟨(a.receipts.countDown f.receipt).2, ?_, ?_⟩
  · have : (ackOne i a f).receipts = (a.receipts.countDown f.receipt).1 := by rw [ackOne]; dsimp only; split <;> rfl
    rw [this]
    exact Go.down _ _ _ _ (Or.inl hA)
  · rw [ackOne]; dsimp only; split <;> rfl

theorem ackRange_go (i lo hi : Nat) (A : Nat → Prop) (hA : ∀ sn, lo ≤ sn → sn ≤ hi → A sn) (q : List SFrag) : ∀ (pre : List SFrag) (a : AckAcc),
    ∃ ev, Go A a.receipts (pre ++ q) (ackRange i lo hi a q).1.receipts (pre ++ ((ackRange i lo hi a q).2.1 ++ (ackRange i lo hi a q).2.2)) ev ∧
      (ackRange i lo hi a q).1.events = a.events ++ ev := by
  induction q with
  | nil => intro pre a; exact ⟨[], by simpa [ackRange] using Go.refl A a.receipts pre, by simp [ackRange]⟩
  | cons f q ih =>
    intro pre a
    rw [ackRange]
    split
    · obtain ⟨ev, h1, h2⟩ := ih (pre ++ [f]) a
      refine ⟨ev, ?_, h2⟩
      simpa using h1
    split
    · exact ⟨[], Go.refl A a.receipts (pre ++ f :: q), by simp⟩
    · rename_i h1 h2
      obtain ⟨e1, g1, g2⟩ := ackOne_go i A a pre q f (hA _ (by omega) (by omega))
      obtain ⟨e2, g3, g4⟩ := ih pre (ackOne i a f)
      exact ⟨e1 ++ e2, g1.trans g3, by rw [g4, g2, List.append_assoc]⟩

theorem ackRanges_go (i : Nat) (A : Nat → Prop) (rs : List (Nat × Nat)) : (∀ x ∈ rs, ∀ sn, x.1 ≤ sn → sn ≤ x.2 → A sn) →
    ∀ (q pre : List SFrag) (a : AckAcc), ∃ ev, Go A a.receipts (pre ++ q) (ackRanges i rs a q).1.receipts (pre ++ (ackRanges i rs a q).2) ev ∧
      (ackRanges i rs a q).1.events = a.events ++ ev := by
  induction rs with
  | nil => intro _ q pre a; exact ⟨[], Go.refl A a.receipts (pre ++ q), by simp [ackRanges]⟩
  | cons x rs ih =>
    intro hA q pre a
    obtain ⟨lo, hi⟩ := x
    rw [ackRanges]
    dsimp only
    obtain ⟨e1, g1, g2⟩ := ackRange_go i lo hi A (hA (lo, hi) (by simp)) q pre a
    obtain ⟨e2, g3, g4⟩ := ih (fun x hx => hA x (by simp [hx])) (ackRange i lo hi a q).2.2 (pre ++ (ackRange i lo hi a q).2.1) (ackRange i lo hi a q).1
    rw [List.append_assoc, List.append_assoc] at g3
    exact ⟨e1 ++ e2, g1.trans g3, by rw [g4, g2, List.append_assoc]⟩

/-! ## the session -/

/-- receipts and queues of the session -/
structure RB (iss : Nat → Prop) (s : SS) (tr : List (Nat × Bool)) : Prop where
  hist : RH iss s.receipts tr
  cnt : ∀ i k, cnt k (s.flow i).queue ≤ (s.receipts.r k).useCount
  own : ∀ i j f g, f ∈ (s.flow i).queue → g ∈ (s.flow j).queue → f.receipt = g.receipt → i = j
  iss : ∀ i, ∀ f ∈ (s.flow i).queue, iss f.receipt

/-- what leaves the queues: acknowledged (`A`) or abandoned; what was abandoned stays so -/
structure Kept (iss : Nat → Prop) (A : Nat → Nat → Prop) (s t : SS) : Prop where
  kept : ∀ i, ∀ f ∈ (s.flow i).queue, (∃ f' ∈ (t.flow i).queue, f'.sn = f.sn ∧ f'.receipt = f.receipt) ∨ A i f.sn ∨
    (t.receipts.r f.receipt).abandoned = true
  mono : ∀ k, iss k → (s.receipts.r k).abandoned = true → (t.receipts.r k).abandoned = true
  sub : ∀ i, ∀ f ∈ (t.flow i).queue, iss f.receipt → ∃ f0 ∈ (s.flow i).queue, f0.receipt = f.receipt

/-- from `s` to `t` with reports `ev` -/
def Moves (iss iss' : Nat → Prop) (A : Nat → Nat → Prop) (s t : SS) (ev : List (Nat × Bool)) : Prop :=
  ∀ tr, RB iss s tr → RB iss' t (tr ++ ev) ∧ Kept iss A s t

theorem Moves.trans {i1 i2 i3 : Nat → Prop} {A : Nat → Nat → Prop} {s t u : SS} {e1 e2 : List (Nat × Bool)} (hi : ∀ k, i1 k → i2 k)
    (x : Moves i1 i2 A s t e1) (y : Moves i2 i3 A t u e2) : Moves i1 i3 A s u (e1 ++ e2) := by
  intro tr h
  obtain ⟨x1, x2⟩ := x tr h
  obtain ⟨y1, y2⟩ := y _ x1
  refine ⟨by rw [← List.append_assoc]; exact y1, ?_, ?_, ?_⟩
  · intro i f hf
    rcases x2.kept i f hf with ⟨g, hg, g1, g2⟩ | k | k
    · rcases y2.kept i g hg with ⟨g', hg', g3, g4⟩ | k | k
      · exact Or.inl ⟨g', hg', g3.trans g1, g4.trans g2⟩
      · rw [g1] at k; exact Or.inr (Or.inl k)
      · rw [g2] at k; exact Or.inr (Or.inr k)
    · exact Or.inr (Or.inl k)
    · exact Or.inr (Or.inr (y2.mono _ (hi _ (h.iss i f hf)) k))
  · intro k hk ha
    exact y2.mono k (hi k hk) (x2.mono k hk ha)
  · intro i f hf hk
    obtain ⟨f1, h1, e1⟩ := y2.sub i f hf (hi _ hk)
    obtain ⟨f0, h0, e0⟩ := x2.sub i f1 h1 (e1 ▸ hk)
    exact ⟨f0, h0, e0.trans e1⟩

theorem Moves.weaken {i1 i2 : Nat → Prop} (hi : ∀ k, i1 k → i2 k) (A : Nat → Nat → Prop) (s : SS) : Moves i1 i2 A s s [] := by
  intro tr h
  refine ⟨⟨?_, h.cnt, h.own, fun i f hf => hi _ (h.iss i f hf)⟩, fun i f hf => Or.inl ⟨f, hf, rfl, rfl⟩, fun k _ h => h, fun i f hf _ => ⟨f, hf, rfl⟩⟩
  obtain ⟨rops, h1, h2, h3⟩ := h.hist
  exact ⟨rops, by simpa using h1, h2, fun k hk => hi k (h3 k hk)⟩

/-- one flow changes -/
theorem Moves.one {iss : Nat → Prop} {A : Nat → Nat → Prop} {s t : SS} {ev : List (Nat × Bool)} (i : Nat)
    (g : Go (A i) s.receipts (s.flow i).queue t.receipts (t.flow i).queue ev) (hj : ∀ j, j ≠ i → (t.flow j).queue = (s.flow j).queue) :
    Moves iss iss A s t ev := by
  intro tr h
  have hqj : ∀ j, ∀ f ∈ (t.flow j).queue, ∃ f0 ∈ (s.flow j).queue, f0.receipt = f.receipt := by
    intro j f hf
    by_cases e : j = i
    · subst e; exact g.sub f hf
    · rw [hj j e] at hf; exact ⟨f, hf, rfl⟩
  refine ⟨⟨g.hist tr iss h.hist (h.cnt i), ?_, ?_, ?_⟩, ?_, fun k _ hk => g.mono k hk, fun j f hf _ => hqj j f hf⟩
  · intro j k
    by_cases e : j = i
    · subst e; exact g.cnt (h.cnt j) k
    · rw [hj j e]
      by_cases hz : ∃ f ∈ (s.flow i).queue, f.receipt = k
      · obtain ⟨f, hf, hk⟩ := hz
        have : SS.cnt k (s.flow j).queue = 0 := by
          apply Nat.eq_zero_of_not_pos
          intro hp
          obtain ⟨f', hf', hk'⟩ := cnt_pos.mp hp
          exact e (h.own j i f' f hf' hf (hk'.trans hk.symm))
        omega
      · rw [g.other (h.cnt i) k (fun f hf hk => hz ⟨f, hf, hk⟩)]
        exact h.cnt j k
  · intro a b f g' hf hg' e
    obtain ⟨f0, hf0, e1⟩ := hqj a f hf
    obtain ⟨g0, hg0, e2⟩ := hqj b g' hg'
    exact h.own a b f0 g0 hf0 hg0 (by rw [e1, e2, e])
  · intro j f hf
    obtain ⟨f0, hf0, e1⟩ := hqj j f hf
    rw [← e1]; exact h.iss j f0 hf0
  · intro j f hf
    by_cases e : j = i
    · subst e; exact g.kept f hf
    · rw [hj j e]; exact Or.inl ⟨f, hf, rfl, rfl⟩

/-- no queue and no receipt changes -/
theorem Moves.same {iss : Nat → Prop} {A : Nat → Nat → Prop} {s t : SS} (hr : t.receipts = s.receipts) (hq : ∀ j, (t.flow j).queue = (s.flow j).queue) :
    Moves iss iss A s t [] := by
  refine Moves.one 0 ?_ (fun j _ => hq j)
  rw [hr, hq]; exact Go.refl _ _ _

theorem number_cnt (rid : Nat) (names : Nat → Nat) (fs : List (Fra × Bytes)) (k : Nat) : ∀ sn, cnt k (number rid names sn fs) = if k = rid then fs.length else 0 := by
  induction fs with
  | nil => intro sn; rw [number]; simp [cnt]
  | cons f fs ih =>
    intro sn
    obtain ⟨fra, d⟩ := f
    rw [number, cnt_cons, ih]
    have e : (SFrag.new (names sn) sn fra d rid).receipt = rid := rfl
    rw [e]
    by_cases h : k = rid
    · subst h; simp
    · have h' : ¬ rid = k := fun e => h e.symm
      simp [h, h']

/-- new fragments with a new receipt -/
theorem queueFrags_moves {iss : Nat → Prop} {A : Nat → Nat → Prop} {s : SS} (i : Nat) (fs : List (Fra × Bytes)) (now a b : Int) (rid : Nat) (names : Nat → Nat)
    (hr : ¬ iss rid) (h0 : 0 < fs.length) (h1 : fs.length < 2 ^ 64) : Moves iss (fun k => iss k ∨ k = rid) A s (s.queueFrags i fs now a b rid names) [] := by
  intro tr h
  have hother : ∀ k, k ≠ rid → (s.queueFrags i fs now a b rid names).receipts.r k = s.receipts.r k ∧ True := by
    intro k hk
    refine ⟨?_, trivial⟩
    show ((s.receipts.step (.issue rid now a b fs.length)).1).r k = _
    rw [RStore.step]
    dsimp only
    rw [(RStore.issue_eq s.receipts rid (Receipt.create now a b) fs.length rfl h1)]
    exact RStore.upd_other _ _ hk
  have hself : (s.queueFrags i fs now a b rid names).receipts.r rid = { Receipt.create now a b with useCount := fs.length } := by
    show ((s.receipts.step (.issue rid now a b fs.length)).1).r rid = _
    rw [RStore.step]
    dsimp only
    rw [(RStore.issue_eq s.receipts rid (Receipt.create now a b) fs.length rfl h1)]
    exact RStore.upd_same _ _ _
  have hne : ∀ j, ∀ f ∈ (s.flow j).queue, f.receipt ≠ rid := fun j f hf e => hr (e ▸ h.iss j f hf)
  have hin : ∀ j, ∀ f ∈ ((s.queueFrags i fs now a b rid names).flow j).queue, f ∈ (s.flow j).queue ∨ (j = i ∧ f.receipt = rid) := by
    intro j f hf
    by_cases e : j = i
    · subst e
      rw [queueFrags_flow] at hf
      rcases List.mem_append.mp hf with hf | hf
      · exact Or.inl hf
      · exact Or.inr ⟨rfl, (number_new _ _ _ _ f hf).2.2.2.1⟩
    · rw [queueFrags_other _ _ _ _ _ _ _ _ e] at hf; exact Or.inl hf
  refine ⟨⟨?_, ?_, ?_, ?_⟩, ?_, ?_, ?_⟩
  · have h' : RH (fun k => iss k ∨ k = rid) s.receipts tr := by
      obtain ⟨rops, r1, r2, r3⟩ := h.hist
      exact ⟨rops, r1, r2, fun k hk => Or.inl (r3 k hk)⟩
    obtain ⟨rops, r1, r2, r3⟩ := h.hist
    refine ⟨rops ++ [.issue rid now a b fs.length], ?_, ?_, ?_⟩
    · have := RStore.Hist.snoc (op := .issue rid now a b fs.length) r1 ⟨fun hk => hr (r3 rid hk), h0, h1⟩
      exact this
    · show ((s.receipts.step (.issue rid now a b fs.length)).1).stack = []
      rw [RStore.step]
      dsimp only
      rw [(RStore.issue_eq s.receipts rid (Receipt.create now a b) fs.length rfl h1)]
      exact r2
    · intro k hk
      rcases (RStore.Issued_snoc _ _ k).mp hk with hk | ⟨o, a, b, n, hk⟩
      · exact Or.inl (r3 k hk)
      · simp at hk; exact Or.inr hk.1
  · intro j k
    by_cases e : k = rid
    · subst e
      rw [hself]
      have hz : cnt k (s.flow j).queue = 0 := by
        apply Nat.eq_zero_of_not_pos
        intro hp
        obtain ⟨f, hf, e⟩ := cnt_pos.mp hp
        exact hne j f hf e
      by_cases e : j = i
      · subst e
        rw [queueFrags_flow, cnt_append, hz, number_cnt]
        simp
      · rw [queueFrags_other _ _ _ _ _ _ _ _ e, hz]; exact Nat.zero_le _
    · rw [(hother k e).1]
      have hj := h.cnt j k
      by_cases e' : j = i
      · subst e'
        rw [queueFrags_flow, cnt_append, number_cnt, if_neg e]
        omega
      · rw [queueFrags_other _ _ _ _ _ _ _ _ e']; exact hj
  · intro x y f g hf hg e
    rcases hin x f hf with hf' | ⟨hx, hf'⟩ <;> rcases hin y g hg with hg' | ⟨hy, hg'⟩
    · exact h.own x y f g hf' hg' e
    · exact absurd (e.trans hg') (hne x f hf')
    · exact absurd (e.symm.trans hf') (hne y g hg')
    · rw [hx, hy]
  · intro j f hf
    rcases hin j f hf with hf | ⟨_, hf⟩
    · exact Or.inl (h.iss j f hf)
    · exact Or.inr hf
  · intro j f hf
    left
    refine ⟨f, ?_, rfl, rfl⟩
    by_cases e : j = i
    · subst e; rw [queueFrags_flow]; exact List.mem_append_left _ hf
    · rw [queueFrags_other _ _ _ _ _ _ _ _ e]; exact hf
  · intro k hk ha
    rw [(hother k (fun e => hr (e ▸ hk))).1]; exact ha
  · intro j f hf hk
    rcases hin j f hf with hf' | ⟨_, hf'⟩
    · exact ⟨f, hf', rfl⟩
    · exact absurd (hf' ▸ hk) hr

theorem gotoClosed_queue (s : SS) (i j : Nat) : ((s.gotoClosed i).flow j).queue = (s.flow j).queue := by
  by_cases e : j = i
  · subst e; rw [gotoClosed_flow]; split <;> rfl
  · rw [gotoClosed_other _ _ e]

theorem gotoClosed_moves {iss : Nat → Prop} {A : Nat → Nat → Prop} (s : SS) (i : Nat) : Moves iss iss A s (s.gotoClosed i) [] :=
  Moves.same (gotoClosed_rest s i).2.2.2.1 (gotoClosed_queue s i)

theorem addFin_moves {iss : Nat → Prop} {A : Nat → Nat → Prop} (s : SS) (i : Nat) (now : Int) (rid : Nat) (names : Nat → Nat) (hr : ¬ iss rid) :
    Moves iss (fun k => iss k ∨ k = rid) A s (s.addFin i now rid names) [] := by
  rcases addFin_cases s i now rid names with ⟨_, e⟩ | ⟨_, e⟩ <;> rw [e]
  · exact Moves.weaken (fun k h => Or.inl h) A s
  · exact queueFrags_moves i _ now _ _ rid names hr (by decide) (by decide)

theorem setFlow_moves {iss : Nat → Prop} {A : Nat → Nat → Prop} (s : SS) (i : Nat) (f : SF) (hq : f.queue = (s.flow i).queue) : Moves iss iss A s (s.setFlow i f) [] := by
  refine Moves.same rfl (fun j => ?_)
  by_cases e : j = i
  · subst e; rw [setFlow_same]; exact hq
  · rw [setFlow_other _ _ e]

theorem closeState_moves {iss : Nat → Prop} {A : Nat → Nat → Prop} (s : SS) (i : Nat) (now : Int) (rid : Nat) (names : Nat → Nat) (hr : ¬ iss rid) :
    Moves iss (fun k => iss k ∨ k = rid) A s (s.closeState i now rid names) [] := by
  rw [closeState]
  have w : ∀ s : SS, Moves iss (fun k => iss k ∨ k = rid) A s s [] := fun s => Moves.weaken (fun k h => Or.inl h) A s
  split
  · split
    · exact (addFin_moves s i now rid names hr).trans (fun k h => Or.inl h) (setFlow_moves _ _ _ rfl)
    · exact (gotoClosed_moves s i).trans (fun k h => h) (w _)
  · exact w s

theorem close_moves {iss : Nat → Prop} {A : Nat → Nat → Prop} (s : SS) (i : Nat) (now : Int) (rid : Nat) (names : Nat → Nat) (hr : ¬ iss rid) :
    Moves iss (fun k => iss k ∨ k = rid) A s (s.close i now rid names) [] := by
  rw [close]
  have h1 : Moves iss (fun k => iss k ∨ k = rid) A s ((s.setFlow i { s.flow i with onException := false, baseOpen := false }).closeState i now rid names) [] :=
    (setFlow_moves s i { s.flow i with onException := false, baseOpen := false } rfl).trans (fun k h => h) (closeState_moves _ i now rid names hr)
  dsimp only
  split
  · exact h1.trans (fun k h => Or.inl h) (gotoClosed_moves _ _)
  · exact h1

theorem receipts_moves {iss : Nat → Prop} {A : Nat → Nat → Prop} (s : SS) {r : RStore} {ev : List (Nat × Bool)}
    (g : ∀ Q, Go (A 0) s.receipts Q r Q ev) : Moves iss iss A s { s with receipts := r } ev :=
  Moves.one 0 (g _) (fun _ _ => rfl)

theorem exceptionReport_moves {iss : Nat → Prop} {A : Nat → Nat → Prop} (s : SS) (i : Nat) (now : Int) (rid : Nat) (names : Nat → Nat) (hr : ¬ iss rid) :
    Moves iss (fun k => iss k ∨ k = rid) A s (s.onExceptionReport i now rid names).1 (s.onExceptionReport i now rid names).2.2 := by
  rw [onExceptionReport]
  dsimp only
  have h1 : Moves iss (fun k => iss k ∨ k = rid) A s ((s.setFlow i { s.flow i with exception := true }).close i now rid names) [] :=
    (setFlow_moves s i { s.flow i with exception := true } rfl).trans (fun k h => h) (close_moves _ i now rid names hr)
  have := h1.trans (fun k h => Or.inl h) (receipts_moves _ (fun Q => abandonAll_go (A 0) Q (((s.setFlow i { s.flow i with exception := true }).close i now rid names).flow i).queue _))
  exact this

/-- the session a flow belongs to, or waits for, closes -/
theorem didClose_moves {iss : Nat → Prop} {A : Nat → Nat → Prop} {s : SS} {i : Nat} (ok : FlowOk (s.flow i)) (hb : (s.flow i).bound = true → s.isOpen = false)
    (now : Int) (rid : Nat) (names : Nat → Nat) :
    Moves iss iss A s (s.onSessionDidClose i now rid names).1 (s.onSessionDidClose i now rid names).2.2 := by
  obtain ⟨k1, k2, k3, k4, k5, k6, k7, k8, k9, k10, k11, k12⟩ := didClose_flows (now := now) (rid := rid) (names := names) ok hb _ rfl
  rw [k12]
  dsimp only
  generalize (s.onSessionDidClose i now rid names).1 = t at *
  intro tr h
  have g := abandonAll_go (A i) (s.flow i).queue (s.flow i).queue s.receipts
  have hall := abandonAll_all (s.flow i).queue s.receipts
  refine Moves.one i ⟨?_, ?_, ?_, ?_, ?_, ?_⟩ (fun j hj => by rw [k6 j hj]) tr h
  · intro tr iss a b; rw [k10]; exact g.hist tr iss a b
  · intro _ k; rw [k5]; exact Nat.zero_le _
  · rw [k10]; exact g.other
  · rw [k5]; intro f hf; cases hf
  · rw [k10]; exact g.mono
  · intro f hf
    right; right
    rw [k10]
    refine hall f hf ?_
    have := h.cnt i f.receipt
    have : 0 < cnt f.receipt (s.flow i).queue := cnt_pos.mpr ⟨f, hf, rfl⟩
    omega

theorem closeFlows_moves {iss : Nat → Prop} {A : Nat → Nat → Prop} (now : Int) (l : List Nat) : ∀ s : SS, (∀ i, FlowOk (s.flow i)) → s.isOpen = false →
    Moves iss iss A s (closeFlows now s l).1 (closeFlows now s l).2.2 := by
  induction l with
  | nil => intro s _ _; exact Moves.same rfl (fun _ => rfl)
  | cons i l ih =>
    intro s hok ho
    rw [closeFlows]
    dsimp only
    refine (didClose_moves (hok i) (fun _ => ho) now 0 id).trans (fun k h => h) (ih _ ?_ ?_)
    · obtain ⟨k1, k2, k3, k4, k5, k6, k7, _⟩ := didClose_flows (now := now) (rid := 0) (names := id) (hok i) (fun _ => ho) _ rfl
      intro j
      by_cases e : j = i
      · subst e
        refine ⟨?_, ?_, ?_, ?_, ?_, ?_, ?_, ?_⟩
        · rw [k5]; exact .nil
        · rw [k5]; simp
        · rw [k4]; exact (hok j).next
        · rw [k5]; simp
        · intro _ k; exact absurd k1 k
        · intro _; exact k5
        · intro k; rw [k3] at k; cases k
        · intro _; exact k2
      · rw [k6 j e]; exact hok j
    · obtain ⟨k1, k2, k3, k4, k5, k6, k7, _⟩ := didClose_flows (now := now) (rid := 0) (names := id) (hok i) (fun _ => ho) _ rfl
      rw [k7]; exact ho

theorem trim_moves {iss : Nat → Prop} {A : Nat → Nat → Prop} (s : SS) (i : Nat) (now : Int) : Moves iss iss A s (s.trim i now).1 (s.trim i now).2 := by
  rw [trim]
  refine Moves.one i ?_ (fun j hj => by simp only [setFlow, if_neg hj])
  simp only [setFlow, if_true]
  exact trimLoop_go (A i) now _ _

theorem Puts.alikes {c : Ctx} {R : RStore} {first : Bool} {prev : Nat} {q q' fs : List SFrag} {ps : List Put} (h : Puts c R first prev q q' fs ps) :
    Alikes q q' := by
  induction h with
  | done => exact Alikes.refl _
  | skip _ _ ih => exact .cons (Alike.refl _) ih
  | send _ _ _ ih => exact .cons ⟨rfl, rfl, rfl, rfl, rfl⟩ ih

theorem assembleData_moves {iss : Nat → Prop} {A : Nat → Nat → Prop} (s : SS) (i : Nat) (p : PA) (hp : p.Inv) (pri : Nat) (now : Int) (gone : Bool) :
    Moves iss iss A s (s.assembleData i p pri now gone).s (s.assembleData i p pri now gone).events := by
  rw [assembleData]
  split
  · exact Moves.same rfl (fun _ => rfl)
  split
  · exact Moves.same rfl (fun _ => rfl)
  dsimp only
  have h1 : Moves iss iss A s (s.trim i now).1 (s.trim i now).2 := trim_moves s i now
  rw [List.append_assoc]
  refine h1.trans (fun k h => h) ?_
  generalize (s.trim i now).1 = t
  obtain ⟨o, a, hd⟩ := dropOptions_eq (t.flow i) gone
  rw [hd]
  dsimp only
  have g1 := findForward_go (A i) (t.flow i).queue t.receipts now (t.flow i).queue
  generalize findForward t.receipts now (t.flow i).queue = w at g1 ⊢
  have hst := startAt_append (t.flow i).lastName (t.flow i).queue
  generalize (startAt (t.flow i).lastName (t.flow i).queue).1 = q0 at *
  generalize (startAt (t.flow i).lastName (t.flow i).queue).2 = q1 at *
  generalize (Ctx.mk _ _ _ _ _ _ _ _) = c at *
  generalize hx : (Fill.mk _ _ _ _ _ _ _ _ _ _) = x at *
  have hxr : x.receipts = w.1 := by rw [← hx]
  have hxe : x.events = [] := by rw [← hx]
  obtain ⟨ev, g2, e2⟩ := fill_go (A i) c (t.flow i).queue q1 x
  rw [hxe, List.nil_append] at e2
  rw [hxr] at g2
  obtain ⟨fs, ps, g3, _⟩ := fill_puts c q1 x (by rw [← hx]; exact hp)
  have g4 : Alikes (t.flow i).queue (q0 ++ (fill c x q1).2) := by
    rw [← hst]; exact (Alikes.refl q0).append g3.alikes
  rw [e2]
  refine Moves.one i ?_ (fun j hj => by simp only [setFlow, if_neg hj])
  simp only [setFlow, if_true]
  have := (g1.trans g2).trans (Go.alike g4)
  simpa using this

theorem onAck_moves {iss : Nat → Prop} (s : SS) (i b : Nat) (rs : List (Nat × Nat)) :
    Moves iss iss (fun j sn => j = i ∧ ∃ x ∈ rs, x.1 ≤ sn ∧ sn ≤ x.2) s (s.onAck i b rs).1 (s.onAck i b rs).2 := by
  rw [onAck]
  dsimp only
  split
  · exact Moves.same rfl (fun _ => rfl)
  · obtain ⟨ev, g1, g2⟩ := ackRanges_go i (fun sn => i = i ∧ ∃ x ∈ rs, x.1 ≤ sn ∧ sn ≤ x.2) rs (fun x hx sn h1 h2 => ⟨rfl, x, hx, h1, h2⟩) (s.flow i).queue []
      ⟨s.receipts, (s.flow i).outstanding, s.outs, s.outSum, s.maxTsnAck, []⟩
    simp only [List.nil_append] at g1 g2
    rw [g2]
    refine Moves.one i ?_ (fun j hj => by simp only [setFlow, if_neg hj])
    simp only [setFlow, if_true]
    have hl : ∀ f : SF, (lingerIf f).queue = f.queue := by intro f; rw [lingerIf]; split <;> rfl
    rw [hl]
    exact g1

theorem lose_moves {iss : Nat → Prop} {A : Nat → Nat → Prop} (s : SS) (o : OutRef) : Moves iss iss A s (lose s o) [] := by
  rw [lose]
  refine Moves.one o.flow ?_ (fun j hj => by simp only [setFlow, if_neg hj])
  simp only [setFlow, if_true]
  exact Go.alike (modFrag_alikes _ _ _ (fun x => ⟨rfl, rfl, rfl, rfl, rfl⟩))

theorem nakFrag_moves {iss : Nat → Prop} {A : Nat → Nat → Prop} (s : SS) (o : OutRef) : Moves iss iss A s (nakFrag s o) [] := by
  rw [nakFrag]
  refine Moves.one o.flow ?_ (fun j hj => by simp only [setFlow, if_neg hj])
  simp only [setFlow, if_true]
  exact Go.alike (modFrag_alikes _ _ _ (fun x => ⟨rfl, rfl, rfl, rfl, rfl⟩))

theorem loseAll_moves {iss : Nat → Prop} {A : Nat → Nat → Prop} (l : List OutRef) : ∀ s : SS, Moves iss iss A s (l.foldl lose s) [] := by
  induction l with
  | nil => intro s; exact Moves.same rfl (fun _ => rfl)
  | cons o l ih => intro s; exact (lose_moves s o).trans (fun k h => h) (ih _)

theorem nakLoop_moves {iss : Nat → Prop} {A : Nat → Nat → Prop} (l : List OutRef) : ∀ (s : SS) (k : Nak), Moves iss iss A s (nakLoop s k l).1 [] := by
  induction l with
  | nil => intro s k; exact Moves.same rfl (fun _ => rfl)
  | cons o l ih =>
    intro s k
    rw [nakLoop]
    split
    · exact Moves.same rfl (fun _ => rfl)
    dsimp only
    split
    · exact (nakFrag_moves s o).trans (fun k h => h) (ih _ _)
    · split
      · refine ((nakFrag_moves s o).trans (fun k h => h) (lose_moves _ o)).trans (fun k h => h) ?_
        have hs : ∀ u t : SS, t.receipts = u.receipts → t.flow = u.flow → ∀ k', Moves iss iss A u (nakLoop t k' l).1 [] := by
          intro u t h1 h2 k'
          exact Moves.trans (e1 := []) (e2 := []) (fun k h => h) (Moves.same h1 (fun _ => by rw [h2])) (ih t k')
        generalize hT : SS.mk _ _ _ _ _ _ _ _ = T
        exact hs _ T (by rw [← hT]) (by rw [← hT]) _
      · exact (nakFrag_moves s o).trans (fun k h => h) (ih _ _)

end SS
end Rtmfp
