import Verif.Lemmas.SendLoss
import Verif.Lemmas.SendAssemble

/-! # What the observer of losses knows is what the session counts -/

namespace Rtmfp
namespace SS
open PA

/-! ## `retransmit` is the user's -/

theorem abandon_rtx (r : RStore) (i k : Nat) : ((r.abandon i).1.r k).retransmit = (r.r k).retransmit := by
  rw [RStore.abandon]
  dsimp only
  split
  · by_cases e : k = i
    · subst e; split <;> simp [RStore.upd]
    · split <;> simp [RStore.upd, e]
  · rfl

theorem settled_rtx (x : RStore × List (Nat × Bool)) (k : Nat) : ((settled x).1.r k).retransmit = (x.1.r k).retransmit := by
  rw [settled]
  dsimp only
  split
  · rfl
  · rw [RStore.callbackReturned]
    split
    · rfl
    · rename_i i rest _
      by_cases e : k = i
      · subst e; simp [RStore.upd]
      · simp [RStore.upd, e]

theorem abandonNow_rtx (r : RStore) (i k : Nat) : ((r.abandonNow i).1.r k).retransmit = (r.r k).retransmit := by
  rw [RStore.abandonNow, settled_rtx, abandon_rtx]

theorem abandonDue_rtx (r : RStore) (i k : Nat) (now : Int) : ((r.abandonDue i now).1.r k).retransmit = (r.r k).retransmit := by
  rw [RStore.abandonDue, settled_rtx]
  rcases RStore.abandonIfNeeded_eq r i now with e | e <;> rw [e]
  exact abandon_rtx r i k

theorem countDown_rtx (r : RStore) (i k : Nat) : ((r.countDown i).1.r k).retransmit = (r.r k).retransmit := by
  rw [RStore.countDown, settled_rtx, RStore.useCountDown]
  dsimp only
  generalize (if (r.r i).useCount = 0 then U64MAX else (r.r i).useCount - 1) = n
  by_cases e : k = i
  · subst e
    split
    · split <;> simp [RStore.upd]
    · simp [RStore.upd]
  · split
    · split <;> simp [RStore.upd, e]
    · simp [RStore.upd, e]

theorem started_rtx (r : RStore) (i k : Nat) : ((r.upd i { r.r i with started := true }).r k).retransmit = (r.r k).retransmit := by
  by_cases e : k = i
  · subst e; simp [RStore.upd]
  · simp [RStore.upd, e]

theorem trimLoop_rtx (now : Int) (q : List SFrag) (k : Nat) : ∀ r, ((trimLoop now r q).1.r k).retransmit = (r.r k).retransmit := by
  induction q with
  | nil => intro r; rfl
  | cons a q ih =>
    intro r
    cases q with
    | nil => rfl
    | cons b q =>
      rw [trimLoop]
      split
      · rfl
      dsimp only
      split
      · exact abandonDue_rtx r _ k now
      · rw [ih, countDown_rtx, abandonDue_rtx]

theorem findForward_rtx (r : RStore) (now : Int) (q : List SFrag) (k : Nat) : ((findForward r now q).1.r k).retransmit = (r.r k).retransmit := by
  cases q with
  | nil => rfl
  | cons a q =>
    rw [findForward]
    dsimp only
    split
    · rfl
    · exact abandonDue_rtx r _ k now

theorem beforeSend_rtx (r : RStore) (f : SFrag) (now : Int) (k : Nat) : ((beforeSend r f now).1.r k).retransmit = (r.r k).retransmit := by
  rw [beforeSend]
  dsimp only
  rw [abandonDue_rtx]
  split
  · exact abandonNow_rtx r _ k
  · rfl

theorem beforeSend_use (r : RStore) (f : SFrag) (now : Int) (k : Nat) : ((beforeSend r f now).1.r k).useCount = (r.r k).useCount := by
  rw [beforeSend]
  dsimp only
  rw [abandonDue_use]
  split
  · exact abandonNow_use r _ k
  · rfl

/-- an unreliable message is not sent again -/
theorem beforeSend_unreliable (r : RStore) (f : SFrag) (now : Int) (he : f.everSent = true) (hr : (r.r f.receipt).retransmit = false)
    (hu : 0 < (r.r f.receipt).useCount) : ((beforeSend r f now).1.r f.receipt).abandoned = true := by
  rw [beforeSend]
  dsimp only
  rw [if_pos ⟨he, hr⟩]
  exact abandonDue_mono _ _ _ _ (by
    have := abandonAll_all [f] r f (by simp) hu
    simpa [abandonAll] using this)

/-- what the loop of `assembleData` sends as abandoned -/
theorem fill_fate (c : Ctx) (q : List SFrag) : ∀ s : Fill, (∀ f ∈ q, 0 < (s.receipts.r f.receipt).useCount) →
    ∀ x ∈ (fill c s q).2, x ∈ q ∨ ∃ g ∈ q, g.inFlight = false ∧ x.sn = g.sn ∧ ((s.receipts.r g.receipt).abandoned = true → x.sentAbandoned = true) ∧
      (g.everSent = true → (s.receipts.r g.receipt).retransmit = false → x.sentAbandoned = true) := by
  induction q with
  | nil => intro s _ x hx; cases hx
  | cons frag rest ih =>
    intro s hu x hx
    rw [fill] at hx
    split at hx
    · exact Or.inl hx
    split at hx
    · rcases List.mem_cons.mp hx with rfl | hx
      · exact Or.inl (by simp)
      · rcases ih s (fun f hf => hu f (by simp [hf])) x hx with h | ⟨g, hg, h⟩
        · exact Or.inl (by simp [h])
        · exact Or.inr ⟨g, by simp [hg], h⟩
    dsimp only at hx
    split at hx
    · exact Or.inl hx
    · rename_i hi _
      rcases List.mem_cons.mp hx with rfl | hx
      · refine Or.inr ⟨frag, by simp, by simpa using hi, rfl, ?_, ?_⟩
        · intro ha
          exact beforeSend_mono _ _ _ _ ha
        · intro he hr
          exact beforeSend_unreliable _ _ _ he hr (hu frag (by simp))
      · generalize ht : (Fill.mk _ _ _ _ _ _ _ _ _ _) = t at hx
        have htr : t.receipts = (beforeSend s.receipts frag c.now).1.upd frag.receipt { (beforeSend s.receipts frag c.now).1.r frag.receipt with started := true } := by rw [← ht]
        have hm : Mono s.receipts t.receipts := by rw [htr]; exact (beforeSend_mono _ _ _).trans (started_mono _ _)
        have hr : ∀ k, (t.receipts.r k).retransmit = (s.receipts.r k).retransmit := by intro k; rw [htr, started_rtx, beforeSend_rtx]
        have hc : ∀ k, (t.receipts.r k).useCount = (s.receipts.r k).useCount := by intro k; rw [htr, started_use, beforeSend_use]
        rcases ih t (fun f hf => by rw [hc]; exact hu f (by simp [hf])) x hx with h | ⟨g, hg, h1, h2, h3, h4⟩
        · exact Or.inl (by simp [h])
        · exact Or.inr ⟨g, by simp [hg], h1, h2, fun k => h3 (hm _ k), fun k k' => h4 k (by rw [hr]; exact k')⟩

/-! ## transmission -/

/-- what `assembleData` does, whether something is sent or not -/
structure Sends (s : SS) (i : Nat) (A : Assembled) (c : Ctx) (q0 q1 q1' fs : List SFrag) (ps : List Put) : Prop where
  tsn : c.tsn = s.nextTsn
  queue : (A.s.flow i).queue = q0 ++ q1'
  puts : Puts c A.s.receipts true 0 q1 q1' fs ps
  chunks : A.chunks = ps
  sent : A.sent = !ps.isEmpty
  before : ∃ k, q0 ++ q1 = (s.flow i).queue.drop k ∧ ∀ f ∈ (s.flow i).queue.take k, f.inFlight = false ∧ (A.s.receipts.r f.receipt).abandoned = true
  outs : A.s.outs = s.outs ++ fs.map (refOf i)
  nextSn : (A.s.flow i).nextSn = (s.flow i).nextSn
  other : ∀ j, j ≠ i → A.s.flow j = s.flow j
  next : A.s.nextTsn = s.nextTsn
  maxAck : A.s.maxTsnAck = s.maxTsnAck
  start : startAt (s.flow i).lastName (q0 ++ q1) = (q0, q1)
  fate : (∀ k, cnt k (s.flow i).queue ≤ (s.receipts.r k).useCount) → ∀ x ∈ q1', x ∈ q1 ∨ ∃ g ∈ q1, g.inFlight = false ∧ x.sn = g.sn ∧
    ((s.receipts.r g.receipt).abandoned = true → x.sentAbandoned = true) ∧
    (g.everSent = true → (s.receipts.r g.receipt).retransmit = false → x.sentAbandoned = true)

theorem assembleData_sends (s : SS) (i : Nat) {p : PA} (hp : p.Inv) (pri : Nat) (now : Int) (gone : Bool) :
    ((s.assembleData i p pri now gone).s = s ∧ (s.assembleData i p pri now gone).sent = false) ∨
    ∃ c q0 q1 q1' fs ps, Sends s i (s.assembleData i p pri now gone) c q0 q1 q1' fs ps := by
  rw [assembleData]
  by_cases h1 : pri ≠ (s.flow i).priority
  · rw [if_pos h1]; exact Or.inl ⟨rfl, rfl⟩
  rw [if_neg h1]
  by_cases h2 : isMaybeReady (s.flow i) = false
  · rw [if_pos h2]; exact Or.inl ⟨rfl, rfl⟩
  rw [if_neg h2]
  right
  dsimp only
  obtain ⟨k, e1, e2, e3, e4⟩ := trimLoop_abandoned now (s.flow i).queue s.receipts
  have ht : (s.trim i now).1 = { s.setFlow i { s.flow i with queue := (s.flow i).queue.drop k } with receipts := (trimLoop now s.receipts (s.flow i).queue).1 } := by
    rw [trim]; dsimp only; rw [e1]
  rw [ht]
  have hrt : ∀ k, ((trimLoop now s.receipts (s.flow i).queue).1.r k).retransmit = (s.receipts.r k).retransmit := fun k => trimLoop_rtx now _ k _
  have hcnt : (∀ k, cnt k (s.flow i).queue ≤ (s.receipts.r k).useCount) → ∀ j, cnt j ((s.flow i).queue.drop k) ≤ ((trimLoop now s.receipts (s.flow i).queue).1.r j).useCount := by
    have := (trimLoop_go (fun _ => True) now (s.flow i).queue s.receipts).cnt
    rw [e1] at this
    exact this
  generalize (trimLoop now s.receipts (s.flow i).queue).1 = r1 at *
  dsimp only [setFlow]
  simp only [if_pos trivial]
  generalize hq : (s.flow i).queue.drop k = q at *
  have hwm := (findForward_spec r1 now q).1
  have hwr := findForward_rtx r1 now q
  have hwc := (findForward_go (fun _ => True) q r1 now q).cnt
  generalize hw : findForward r1 now q = w at *
  obtain ⟨o, a, hd⟩ := dropOptions_eq { s.flow i with queue := q } gone
  rw [hd]
  dsimp only
  have hst := startAt_append (s.flow i).lastName q
  generalize hq0 : (startAt (s.flow i).lastName q).1 = q0 at *
  generalize hq1 : (startAt (s.flow i).lastName q).2 = q1 at *
  generalize hc : (Ctx.mk _ _ _ _ _ _ _ _) = c at *
  generalize hx : (Fill.mk _ _ _ _ _ _ _ _ _ _) = x at *
  have hxp : x.packet = p := by rw [← hx]
  have hxf : x.first = true := by rw [← hx]
  have hxs : x.prevSn = 0 := by rw [← hx]
  have hxr : x.receipts = w.1 := by rw [← hx]
  have hxo : x.outs = s.outs := by rw [← hx]
  have hxc : x.chunks = [] := by rw [← hx]
  have hm := fill_mono c q1 x
  have hfate := fill_fate c q1 x
  obtain ⟨fs, ps, g1, g2, g3, g4, g5⟩ := fill_puts c q1 x (by rw [hxp]; exact hp)
  rw [hxf, hxs] at g1
  rw [hxo] at g4
  rw [hxc, List.nil_append] at g2
  rw [hxf, Bool.true_and] at g5
  rw [hxr] at hm hfate
  refine ⟨c, q0, q1, (fill c x q1).2, fs, ps, ?_⟩
  constructor
  · rw [← hc]
  · simp
  · exact g1
  · exact g2
  · show (!(fill c x q1).1.first) = _
    rw [g5]
  · refine ⟨k, by rw [hst, hq], fun f hf => ⟨(e4 f hf).1, hm _ (hwm _ (e4 f hf).2)⟩⟩
  · rw [g4, ← hc]
  · simp
  · intro j hj; simp [hj]
  · rfl
  · rfl
  · rw [hst]; exact Prod.ext hq0 hq1
  · intro hcn z hz
    have hcn2 := hwc (hcnt hcn)
    rcases hfate (fun f hf => by
      have h1 := hcn2 f.receipt
      have h2 : 0 < cnt f.receipt q := cnt_pos.mpr ⟨f, by rw [← hst]; simp [hf], rfl⟩
      omega) z hz with h | ⟨g, hg, h1, h2, h3, h4⟩
    · exact Or.inl h
    · exact Or.inr ⟨g, hg, h1, h2, fun k => h3 (hwm _ (e2 _ k)), fun k k' => h4 k (by rw [hwr, hrt]; exact k')⟩

/-- what the chunks are for -/
theorem Puts.chunk {c : Ctx} {R : RStore} {first : Bool} {prev : Nat} {q q' fs : List SFrag} {ps : List Put} (h : Puts c R first prev q q' fs ps) :
    (∀ p ∈ ps, ∃ f ∈ fs, ∃ first' prev', p = chunkFor c first' prev' f f.sentAbandoned) ∧ (∀ f ∈ fs, ∃ p ∈ ps, p.sn = f.sn) := by
  induction h with
  | done => exact ⟨by simp, by simp⟩
  | skip _ _ ih => exact ih
  | @send first prev frag rest rest' fs ps abn hi ha hr ih =>
    refine ⟨fun p hp => ?_, fun f hf => ?_⟩
    · rcases List.mem_cons.mp hp with rfl | hp
      · exact ⟨_, List.mem_cons_self, first, prev, rfl⟩
      · obtain ⟨f, hf, h⟩ := ih.1 p hp
        exact ⟨f, by simp [hf], h⟩
    · rcases List.mem_cons.mp hf with rfl | hf
      · exact ⟨_, List.mem_cons_self, rfl⟩
      · obtain ⟨p, hp, h⟩ := ih.2 f hf
        exact ⟨p, by simp [hp], h⟩

theorem Puts.has {c : Ctx} {R : RStore} {first : Bool} {prev : Nat} {q q' fs : List SFrag} {ps : List Put} (h : Puts c R first prev q q' fs ps) (sn : Nat) :
    SS.has ps sn = true ↔ ∃ f ∈ fs, f.sn = sn := by
  obtain ⟨h1, h2⟩ := h.chunk
  rw [SS.has, List.any_eq_true]
  constructor
  · rintro ⟨p, hp, e⟩
    obtain ⟨f, hf, _, _, rfl⟩ := h1 p hp
    have e' : f.sn = sn := beq_iff_eq.mp e
    exact ⟨f, hf, e'⟩
  · rintro ⟨f, hf, e⟩
    obtain ⟨p, hp, e2⟩ := h2 f hf
    exact ⟨p, hp, by simp; omega⟩

/-- fragments after the loop: those sent, and those that are as before -/
theorem Puts.split {c : Ctx} {R : RStore} {first : Bool} {prev : Nat} {q q' fs : List SFrag} {ps : List Put} (h : Puts c R first prev q q' fs ps) :
    (∀ x ∈ q', x ∈ fs ∨ x ∈ q) ∧ (∀ x ∈ fs, x.nak = 0) := by
  induction h with
  | done => exact ⟨fun x hx => Or.inr hx, by simp⟩
  | skip _ _ ih =>
    refine ⟨fun x hx => ?_, ih.2⟩
    rcases List.mem_cons.mp hx with rfl | hx
    · exact Or.inr (by simp)
    · exact (ih.1 x hx).imp_right (fun h => by simp [h])
  | send _ _ _ ih =>
    refine ⟨fun x hx => ?_, fun x hx => ?_⟩
    · rcases List.mem_cons.mp hx with rfl | hx
      · exact Or.inl (by simp)
      · exact (ih.1 x hx).imp (fun h => by simp [h]) (fun h => by simp [h])
    · rcases List.mem_cons.mp hx with rfl | hx
      · rfl
      · exact ih.2 x hx

/-! ## the observer -/

/-- what the observer knows of a session -/
structure Knows (s : SS) (w : Watch) : Prop where
  packets : w.packets + 1 = s.nextTsn
  best : (∀ n ∈ w.arrived, n ≤ s.maxTsnAck) ∧ (s.maxTsnAck = 0 ∨ s.maxTsnAck ∈ w.arrived)
  frag : ∀ i, ∀ f ∈ (s.flow i).queue, f.inFlight = true → w.sentIn i f.sn = f.tsn ∧ w.naks i f.sn = f.nak ∧ 1 ≤ f.tsn
  old : ∀ o ∈ s.outs, o.tsn < s.nextTsn
  sorted : s.outs.Pairwise (fun a b => a.tsn ≤ b.tsn)

theorem Knows.start : Knows init .start := by
  refine ⟨rfl, ⟨?_, Or.inl rfl⟩, ?_, ?_, ?_⟩ <;> simp [init, SF.init, Watch.start]

theorem Knows.passed {s : SS} {w : Watch} (h : Knows s w) {i : Nat} {f : SFrag} (hf : f ∈ (s.flow i).queue) (hi : f.inFlight = true) :
    w.passed i f.sn = true ↔ f.tsn ≤ s.maxTsnAck := by
  obtain ⟨k1, _, k3⟩ := h.frag i f hf hi
  rw [Watch.passed, List.any_eq_true, k1]
  constructor
  · rintro ⟨n, hn, e⟩
    have := h.best.1 n hn
    have : f.tsn ≤ n := by simpa using e
    omega
  · intro hle
    rcases h.best.2 with e | e
    · omega
    · exact ⟨_, e, by simpa using hle⟩

theorem see_fins (w : Watch) (l : List (Nat × Bool)) : (fins l).foldl Watch.see w = w := by
  induction l with
  | nil => rfl
  | cons a l ih => exact ih

theorem see_exc (w : Watch) (l : List Nat) : (l.map Ev.exception).foldl Watch.see w = w := by
  induction l with
  | nil => rfl
  | cons a l ih => exact ih

theorem see_both (w : Watch) (l : List Nat) (m : List (Nat × Bool)) : (l.map Ev.exception ++ fins m).foldl Watch.see w = w := by
  rw [List.foldl_append, see_exc, see_fins]

/-- nothing happened to what is in flight -/
theorem Knows.still {s t : SS} {w : Watch} (h : Knows s w) (hs : Still s t) : Knows t w := by
  refine ⟨by rw [hs.next]; exact h.packets, by rw [hs.maxAck]; exact h.best, ?_, ?_, by rw [hs.outs]; exact h.sorted⟩
  · intro i f hf hi
    rcases (hs.flow i).queue f hf with k | ⟨_, k, _⟩
    · exact h.frag i f k hi
    · rw [k] at hi; cases hi
  · rw [hs.outs, hs.next]; exact h.old

theorem Knows.noOuts {s : SS} {w : Watch} (h : Knows s w) : Knows { s with outs := [], outSum := 0 } w :=
  ⟨h.packets, h.best, h.frag, by simp, List.Pairwise.nil⟩

theorem Knows.isOpen {s : SS} {w : Watch} (h : Knows s w) (b : Bool) : Knows { s with isOpen := b } w := ⟨h.packets, h.best, h.frag, h.old, h.sorted⟩

theorem out_keys {s : SS} (h : Books s) : s.outs.Pairwise (fun a b => ¬ (a.flow = b.flow ∧ a.sn = b.sn)) ∧
    ∀ o ∈ s.outs, ∃ f ∈ (s.flow o.flow).queue, f.sn = o.sn := by
  constructor
  · rw [List.pairwise_iff_forall_sublist]
    rintro a b hab ⟨e1, e2⟩
    have hb := h.flow a.flow
    have h1 : [a, b].Sublist (ofFlow a.flow s.outs) := by
      have := hab.filter (fun o => decide (o.flow = a.flow))
      simpa [ofFlow, e1] using this
    have h2 : (refs a.flow (s.flow a.flow).queue).Pairwise (fun x y => x.sn ≠ y.sn) := by
      rw [refs, List.pairwise_map]
      refine List.Pairwise.imp ?_ (List.Pairwise.sublist List.filter_sublist hb.ok.sorted)
      intro x y hxy e
      have : x.sn = y.sn := e
      omega
    have h3 : (ofFlow a.flow s.outs).Pairwise (fun x y => x.sn ≠ y.sn) := hb.perm.symm.pairwise h2 (fun e => fun k => e k.symm)
    exact (List.pairwise_iff_forall_sublist.mp h3) h1 e2
  · intro o ho
    have : o ∈ refs o.flow (s.flow o.flow).queue := (h.flow o.flow).perm.mem_iff.mp (by simp [ofFlow, ho])
    obtain ⟨f, hf, _, e⟩ := refs_mem.mp this
    exact ⟨f, hf, by rw [← e]; rfl⟩

/-- the queues after a packet with acknowledgements -/
theorem afterAcks_queue {s : SS} {w : Watch} (hb : Books s) (h : Knows s w) (k : Bool) :
    (s.afterAcks k).1.nextTsn = s.nextTsn ∧ (s.afterAcks k).1.maxTsnAck = s.maxTsnAck ∧ (s.afterAcks k).1.outs.Sublist s.outs ∧
    ∀ j, ((s.afterAcks k).1.flow j).queue =
      (s.flow j).queue.map (fun f => if f.inFlight = true ∧ f.tsn ≤ s.maxTsnAck then nakedFrag f else f) := by
  obtain ⟨k1, k2⟩ := out_keys hb
  obtain ⟨r1, r2, r3, r4⟩ := nakLoop_queue s.outs s ⟨k, false, 0⟩ h.sorted k1 k2 (fun j => (hb.flow j).ok.sorted)
  refine ⟨r1, r2, r3, fun j => ?_⟩
  rw [afterAcks, r4]
  apply List.map_congr_left
  intro f hf
  have := out_iff hb j hf
  have e : hit (s.outs.filter fun o => decide (o.tsn ≤ s.maxTsnAck)) j f.sn = true ↔ (f.inFlight = true ∧ f.tsn ≤ s.maxTsnAck) := by
    rw [← this, hit_iff]
    constructor
    · rintro ⟨o, ho, o1, o2⟩
      obtain ⟨o3, o4⟩ := List.mem_filter.mp ho
      exact ⟨o, o3, o1, o2, by simpa using o4⟩
    · rintro ⟨o, ho, o1, o2, o3⟩
      exact ⟨o, List.mem_filter.mpr ⟨ho, by simpa using o3⟩, o1, o2⟩
  by_cases c : f.inFlight = true ∧ f.tsn ≤ s.maxTsnAck
  · rw [if_pos c, if_pos (e.mpr c)]
  · rw [if_neg c, if_neg (fun k => c (e.mp k))]

theorem timeout_queue {s : SS} (hb : Books s) (j : Nat) : (s.timeout.flow j).queue =
    (s.flow j).queue.map (fun f => if f.inFlight = true then lostFrag f else f) := by
  show ((s.outs.foldl lose s).flow j).queue = _
  rw [loseAll_queue]
  apply List.map_congr_left
  intro f hf
  have e : hit s.outs j f.sn = true ↔ f.inFlight = true := by
    rw [hit_iff]
    have hbj := hb.flow j
    constructor
    · rintro ⟨o, ho, o1, o2⟩
      have : o ∈ refs j (s.flow j).queue := hbj.perm.mem_iff.mp (by simp [ofFlow, ho, o1])
      obtain ⟨g, hg, g1, rfl⟩ := refs_mem.mp this
      have := sorted_inj hbj.ok.sorted hg hf o2
      subst this
      exact g1
    · intro hi
      have : refOf j f ∈ ofFlow j s.outs := hbj.perm.mem_iff.mpr (refs_mem.mpr ⟨f, hf, hi, rfl⟩)
      rw [ofFlow, List.mem_filter] at this
      exact ⟨_, this.1, rfl, rfl⟩
  by_cases c : f.inFlight = true
  · rw [if_pos c, if_pos (e.mpr c)]
  · rw [if_neg c, if_neg (fun k => c (e.mp k))]

theorem ackOne_outs (i : Nat) (a : AckAcc) (f : SFrag) : (ackOne i a f).outs.Sublist a.outs := by
  rw [ackOne]
  dsimp only
  split
  · exact List.filter_sublist
  · exact List.Sublist.refl _

theorem ackRange_outs (i lo hi : Nat) (q : List SFrag) : ∀ a : AckAcc, (ackRange i lo hi a q).1.outs.Sublist a.outs := by
  induction q with
  | nil => intro a; exact List.Sublist.refl _
  | cons f q ih =>
    intro a
    rw [ackRange]
    split
    · exact ih a
    split
    · exact List.Sublist.refl _
    · exact (ih _).trans (ackOne_outs i a f)

theorem ackRanges_outs (i : Nat) (rs : List (Nat × Nat)) : ∀ (q : List SFrag) (a : AckAcc), (ackRanges i rs a q).1.outs.Sublist a.outs := by
  induction rs with
  | nil => intro q a; exact List.Sublist.refl _
  | cons x rs ih =>
    intro q a
    obtain ⟨lo, hi⟩ := x
    rw [ackRanges]
    exact (ih _ _).trans (ackRange_outs i lo hi q a)

theorem onAck_knows {s : SS} {w : Watch} (hb : Books s) (h : Knows s w) (i b : Nat) (rs : List (Nat × Nat)) :
    Knows (s.onAck i b rs).1 (w.acks i (left s (s.onAck i b rs).1 i)) ∧ ∀ j, ∀ f ∈ ((s.onAck i b rs).1.flow j).queue, f ∈ (s.flow j).queue := by
  have hsort := (hb.flow i).ok.sorted
  rw [onAck]
  dsimp only
  by_cases h1 : (s.flow i).state.rank ≥ SFState.completeLinger.rank
  · rw [if_pos h1]
    refine ⟨?_, fun _ _ hf => hf⟩
    have : left s s i = [] := by
      rw [left, List.map_eq_nil_iff, List.filter_eq_nil_iff]
      intro f hf
      simp only [Bool.and_eq_true, Bool.not_eq_true', not_and, Bool.not_eq_false]
      intro _
      exact List.any_eq_true.mpr ⟨f, hf, by simp⟩
    rw [this, Watch.acks, List.map_nil, List.append_nil]; exact h
  rw [if_neg h1]
  have hm := ackRanges_max i rs (s.flow i).queue ⟨s.receipts, (s.flow i).outstanding, s.outs, s.outSum, s.maxTsnAck, []⟩ hsort
  have hsub := ackRanges_sub i rs (s.flow i).queue ⟨s.receipts, (s.flow i).outstanding, s.outs, s.outSum, s.maxTsnAck, []⟩
  have hol := ackRanges_outs i rs (s.flow i).queue ⟨s.receipts, (s.flow i).outstanding, s.outs, s.outSum, s.maxTsnAck, []⟩
  generalize ackRanges i rs _ _ = x at *
  dsimp only at hm hol
  have hq : (lingerIf { s.flow i with options := [], assoc := (if (s.flow i).options = [] then (s.flow i).assoc else false), rxBuffer := b, outstanding := x.1.outstanding, queue := x.2 }).queue = x.2 := by
    have hl : ∀ f : SF, (lingerIf f).queue = f.queue := by intro f; rw [lingerIf]; split <;> rfl
    rw [hl]
  generalize lingerIf _ = f' at hq ⊢
  have hmem : ∀ j, ∀ f ∈ ((s.setFlow i f').flow j).queue, f ∈ (s.flow j).queue := by
    intro j f hf
    by_cases e : j = i
    · subst e; rw [setFlow_same, hq] at hf; exact hsub f hf
    · rw [setFlow_other _ _ e] at hf; exact hf
  refine ⟨⟨h.packets, ?_, ?_, ?_, ?_⟩, hmem⟩
  · generalize hT : SS.mk _ _ _ _ _ _ _ _ = T
    have hTi : T.flow i = f' := by rw [← hT]; simp [setFlow]
    have hTm : T.maxTsnAck = x.1.maxTsnAck := by rw [← hT]
    rw [hTm]
    have hleft : ∀ sn, sn ∈ left s T i ↔ ∃ f ∈ (s.flow i).queue, f.inFlight = true ∧ f ∉ x.2 ∧ f.sn = sn := by
      intro sn
      rw [left, List.mem_map]
      constructor
      · rintro ⟨f, hf, e⟩
        obtain ⟨f1, f2⟩ := List.mem_filter.mp hf
        simp only [Bool.and_eq_true, Bool.not_eq_true'] at f2
        refine ⟨f, f1, f2.1, ?_, e⟩
        intro hx
        have : (T.flow i).queue.any (fun g => g.sn == f.sn) = true := List.any_eq_true.mpr ⟨f, by rw [hTi, hq]; exact hx, by simp⟩
        rw [this] at f2
        exact absurd f2.2 (by simp)
      · rintro ⟨f, f1, f2, f3, e⟩
        refine ⟨f, List.mem_filter.mpr ⟨f1, ?_⟩, e⟩
        simp only [Bool.and_eq_true, Bool.not_eq_true', f2, true_and]
        rw [← Bool.not_eq_true, List.any_eq_true]
        rintro ⟨g, hg, e2⟩
        rw [hTi, hq] at hg
        have := sorted_inj hsort (hsub g hg) f1 (by simpa using e2)
        exact f3 (this ▸ hg)
    refine ⟨fun n hn => ?_, ?_⟩
    · rcases List.mem_append.mp hn with hn | hn
      · exact Nat.le_trans (h.best.1 n hn) hm.le
      · obtain ⟨sn, hsn, e⟩ := List.mem_map.mp hn
        obtain ⟨f, f1, f2, f3, rfl⟩ := (hleft sn).mp hsn
        rw [← e, (h.frag i f f1 f2).1]
        exact hm.all f f1 f2 f3
    · rcases hm.eq with e | ⟨f, f1, f2, f3, e⟩
      · rw [e]; exact h.best.2.imp_right (fun k => List.mem_append_left _ k)
      · right
        rw [← e, ← (h.frag i f f1 f2).1]
        exact List.mem_append_right _ (List.mem_map_of_mem ((hleft _).mpr ⟨f, f1, f2, f3, rfl⟩))
  · intro j f hf hi
    exact h.frag j f (hmem j f hf) hi
  · intro o ho
    exact h.old o (hol.subset ho)
  · exact List.Pairwise.sublist hol h.sorted

theorem transmit_knows {s : SS} {w : Watch} (hb : Books s) (h : Knows s w) (i : Nat) {p : PA} (hp : p.Inv) (pri : Nat) (now : Int) (gone : Bool) :
    Knows ((s.assembleData i p pri now gone).s.afterSend (s.assembleData i p pri now gone).sent)
      ((sentRes i (s.assembleData i p pri now gone)).2.foldl Watch.see w) := by
  rw [sentRes]
  dsimp only
  rw [List.foldl_append, see_fins]
  rcases assembleData_sends s i hp pri now gone with ⟨e1, e2⟩ | ⟨c, q0, q1, q1', fs, ps, k⟩
  · rw [e1, e2, afterSend, if_neg (by simp), if_neg (by simp)]; exact h
  have hst := k.sent
  generalize s.assembleData i p pri now gone = A at *
  obtain ⟨n, hn, _⟩ := k.before
  have hsub : ∀ x ∈ q0 ++ q1, x ∈ (s.flow i).queue := by intro x hx; rw [hn] at hx; exact List.mem_of_mem_drop hx
  have hsort : Sorted (q0 ++ q1) := by rw [hn]; exact drop_sorted (hb.flow i).ok.sorted n
  have hsort' : Sorted (q0 ++ q1') := ((Alikes.refl q0).append k.puts.alikes).sorted hsort
  obtain ⟨p1, p2⟩ := k.puts.split
  have pm := k.puts.mem
  have ph := k.puts.has
  have psub := k.puts.sublist
  by_cases hps : ps = []
  · have hfs : fs = [] := by
      have := k.puts.length
      rw [hps] at this
      simpa using this
    subst hfs
    rw [hst, hps, afterSend, if_neg (by simp), if_neg (by simp)]
    have ho := k.outs
    rw [List.map_nil, List.append_nil] at ho
    refine ⟨by rw [k.next]; exact h.packets, by rw [k.maxAck]; exact h.best, ?_, by rw [ho, k.next]; exact h.old, by rw [ho]; exact h.sorted⟩
    intro j f hf hi
    by_cases e : j = i
    · subst e
      rw [k.queue] at hf
      refine h.frag j f (hsub f ?_) hi
      rcases List.mem_append.mp hf with hf | hf
      · exact List.mem_append_left _ hf
      · rcases p1 f hf with hf | hf
        · cases hf
        · exact List.mem_append_right _ hf
    · rw [k.other j e] at hf; exact h.frag j f hf hi
  · have hsent : A.sent = true := by
      rw [hst]
      cases ps with
      | nil => exact absurd rfl hps
      | cons _ _ => rfl
    rw [hsent, afterSend, if_pos rfl, if_pos rfl, k.chunks]
    show Knows _ (w.packet i ps)
    refine ⟨?_, ?_, ?_, ?_, ?_⟩
    · show w.packets + 1 + 1 = A.s.nextTsn + 1
      rw [k.next, h.packets]
    · show (∀ n ∈ w.arrived, n ≤ A.s.maxTsnAck) ∧ (A.s.maxTsnAck = 0 ∨ A.s.maxTsnAck ∈ w.arrived)
      rw [k.maxAck]; exact h.best
    · intro j f hf hi
      have hf' : f ∈ (A.s.flow j).queue := hf
      show (if j = i ∧ SS.has ps f.sn = true then w.packets + 1 else w.sentIn j f.sn) = f.tsn ∧
        (if j = i ∧ SS.has ps f.sn = true then 0 else w.naks j f.sn) = f.nak ∧ 1 ≤ f.tsn
      by_cases e : j = i
      · subst e
        rw [k.queue] at hf'
        by_cases hh : SS.has ps f.sn = true
        · rw [if_pos ⟨rfl, hh⟩, if_pos ⟨rfl, hh⟩]
          obtain ⟨g, hg, e⟩ := (ph f.sn).mp hh
          have := sorted_inj hsort' (List.mem_append_right _ (psub.subset hg)) hf' e
          subst this
          obtain ⟨_, m2, _⟩ := pm g hg
          have := h.packets
          exact ⟨by rw [m2, k.tsn]; exact h.packets, (p2 g hg).symm, by rw [m2, k.tsn]; omega⟩
        · rw [if_neg (fun q => hh q.2), if_neg (fun q => hh q.2)]
          refine h.frag j f (hsub f ?_) hi
          rcases List.mem_append.mp hf' with hf' | hf'
          · exact List.mem_append_left _ hf'
          · rcases p1 f hf' with hf' | hf'
            · exact absurd ((ph f.sn).mpr ⟨f, hf', rfl⟩) hh
            · exact List.mem_append_right _ hf'
      · rw [if_neg (fun q => e q.1), if_neg (fun q => e q.1)]
        rw [k.other j e] at hf'
        exact h.frag j f hf' hi
    · intro o ho
      have ho' : o ∈ A.s.outs := ho
      show o.tsn < A.s.nextTsn + 1
      rw [k.next]
      rw [k.outs] at ho'
      rcases List.mem_append.mp ho' with ho' | ho'
      · have := h.old o ho'; omega
      · obtain ⟨f, hf, rfl⟩ := List.mem_map.mp ho'
        obtain ⟨_, m2, _⟩ := pm f hf
        show f.tsn < _
        rw [m2, k.tsn]; omega
    · show A.s.outs.Pairwise _
      rw [k.outs, List.pairwise_append]
      refine ⟨h.sorted, ?_, ?_⟩
      · rw [List.pairwise_map]
        refine List.Pairwise.imp_of_mem (R := fun _ _ => True) ?_ (List.pairwise_of_forall (fun _ _ => trivial))
        intro a b ha hb _
        obtain ⟨_, m2, _⟩ := pm a ha
        obtain ⟨_, m3, _⟩ := pm b hb
        show a.tsn ≤ b.tsn
        rw [m2, m3]; exact Nat.le_refl _
      · intro a ha b hb
        obtain ⟨f, hf, rfl⟩ := List.mem_map.mp hb
        obtain ⟨_, m2, _⟩ := pm f hf
        have := h.old a ha
        show a.tsn ≤ f.tsn
        rw [m2, k.tsn]; omega

/-- what isn't sending, acknowledging or losing does nothing to what is in flight, or ends it all -/
def Quiet : Op → Bool
  | .transmit .. | .ack .. | .afterAcks _ | .timeout | .openFlow .. => false
  | _ => true

theorem step_quiet {s t : SS} {op : Op} {es : List Ev} (hs : step s op = some (t, es)) (hq : Quiet op = true) :
    (∃ u, Still s u ∧ (t = u ∨ t = { u with isOpen := true } ∨ t = { u with outs := [], outSum := 0 })) ∧ ∀ w, es.foldl Watch.see w = w := by
  cases op with
  | openFlow i m a p => cases hq
  | sessionOpen =>
    rw [step] at hs
    simp only [Option.some.injEq, Prod.mk.injEq] at hs
    rw [← hs.1, ← hs.2]; exact ⟨⟨s, .refl s, Or.inr (Or.inl rfl)⟩, fun _ => rfl⟩
  | bind i fid =>
    rw [step] at hs
    simp only [Option.some.injEq, Prod.mk.injEq] at hs
    rw [← hs.1, ← hs.2, bind]
    refine ⟨⟨_, ?_, Or.inl rfl⟩, fun _ => rfl⟩
    split
    · exact .refl s
    · have := Still.set (s := s) (i := i) (f := { s.flow i with bound := true, flowId := fid }) (.same rfl rfl)
      exact ⟨this.flow, rfl, rfl, rfl⟩
  | write i msg now a b rid names =>
    rw [step] at hs
    simp only [Option.some.injEq] at hs
    cases hw : s.write i msg now a b rid names with
    | none => rw [hw, writeRes] at hs; rw [← (Prod.mk.inj hs).1, ← (Prod.mk.inj hs).2]; exact ⟨⟨s, .refl s, Or.inl rfl⟩, fun _ => rfl⟩
    | some u =>
      rw [hw, writeRes] at hs; rw [← (Prod.mk.inj hs).1, ← (Prod.mk.inj hs).2]
      refine ⟨⟨u, ?_, Or.inl rfl⟩, fun _ => rfl⟩
      obtain ⟨_, fs, _, e, _⟩ := write_queue hw
      rw [e]; exact queueFrags_still _ _ _ _ _ _ _ _
  | close i now rid names =>
    rw [step] at hs
    simp only [Option.some.injEq, Prod.mk.injEq] at hs
    rw [← hs.1, ← hs.2]; exact ⟨⟨_, close_still s i now rid names, Or.inl rfl⟩, fun _ => rfl⟩
  | setOnException i =>
    rw [step] at hs
    simp only [Option.some.injEq, Prod.mk.injEq] at hs
    rw [← hs.1, ← hs.2]
    exact ⟨⟨_, Still.set (s := s) (i := i) (f := { s.flow i with onException := true }) (.same rfl rfl), Or.inl rfl⟩, fun _ => rfl⟩
  | setPriority i pri =>
    rw [step, setPriority] at hs
    dsimp only at hs
    split at hs
    · cases hs
    · simp only [priRes, Option.some.injEq, Prod.mk.injEq] at hs
      rw [← hs.1, ← hs.2]
      exact ⟨⟨_, Still.set (s := s) (i := i) (f := { s.flow i with priority := pri }) (.same rfl rfl), Or.inl rfl⟩, fun _ => rfl⟩
  | receipt op =>
    rw [step] at hs
    simp only [Option.some.injEq, Prod.mk.injEq] at hs
    rw [← hs.1, ← hs.2]; exact ⟨⟨_, Still.rcpt _, Or.inl rfl⟩, fun w => see_fins w _⟩
  | trim i now =>
    rw [step] at hs
    simp only [Option.some.injEq, Prod.mk.injEq] at hs
    rw [← hs.1, ← hs.2]; exact ⟨⟨_, trim_still s i now, Or.inl rfl⟩, fun w => see_fins w _⟩
  | transmit i p pri now gone => cases hq
  | ack i b rs => cases hq
  | afterAcks c => cases hq
  | exceptionReport i now rid names =>
    rw [step] at hs
    simp only [Option.some.injEq, Prod.mk.injEq] at hs
    rw [← hs.1, ← hs.2]; exact ⟨⟨_, exceptionReport_still s i now rid names, Or.inl rfl⟩, fun w => see_both w _ _⟩
  | timeout => cases hq
  | lingerAlarm i =>
    rw [step] at hs
    simp only [Option.some.injEq, Prod.mk.injEq] at hs
    rw [← hs.1, ← hs.2]; exact ⟨⟨_, gotoClosed_still s i, Or.inl rfl⟩, fun _ => rfl⟩
  | closeSession now =>
    rw [step] at hs
    simp only [Option.some.injEq, Prod.mk.injEq] at hs
    rw [← hs.1, ← hs.2]
    refine ⟨⟨(closeFlows now { s with isOpen := false } s.sendFlows).1, ?_, Or.inr (Or.inr rfl)⟩, fun w => see_both w _ _⟩
    have := closeFlows_still now s.sendFlows { s with isOpen := false }
    exact ⟨this.flow, this.outs, this.next, this.maxAck⟩
  | openingFailed i now =>
    rw [step] at hs
    simp only [Option.some.injEq, Prod.mk.injEq] at hs
    rw [← hs.1, ← hs.2]; exact ⟨⟨_, didClose_still s i now 0 _, Or.inl rfl⟩, fun w => see_both w _ _⟩

theorem step_knows {ops : List Op} {s t : SS} {op : Op} {es : List Ev} {w : Watch} (hb : Books s) (h : Knows s w) (ha : Allowed ops s op)
    (hs : step s op = some (t, es)) : Knows t (w.step s op t es) := by
  by_cases hq : Quiet op = true
  · obtain ⟨⟨u, h1, h2⟩, h3⟩ := step_quiet hs hq
    have hw : w.step s op t es = es.foldl Watch.see w := by
      cases op <;> first | rfl | cases hq
    rw [hw, h3]
    have hu := h.still h1
    rcases h2 with rfl | rfl | rfl
    · exact hu
    · exact hu.isOpen true
    · exact hu.noOuts
  cases op with
  | openFlow i m a p =>
    rw [step] at hs
    simp only [Option.some.injEq, Prod.mk.injEq] at hs
    have hw : w.step s (.openFlow i m a p) t es = w := by
      show es.foldl Watch.see w = w
      rw [← hs.2]; split <;> rfl
    rw [hw, ← hs.1, openFlow]
    split
    · exact h
    · refine ⟨h.packets, h.best, ?_, h.old, h.sorted⟩
      intro j f hf hi
      by_cases e : j = i
      · subst e; rw [setFlow_same] at hf; cases hf
      · rw [setFlow_other _ _ e] at hf; exact h.frag j f hf hi
  | transmit i p pri now gone =>
    rw [step] at hs
    simp only [Option.some.injEq] at hs
    have := transmit_knows hb h i ha.2 pri now gone
    rw [hs] at this
    have e : (s.assembleData i p pri now gone).s.afterSend (s.assembleData i p pri now gone).sent = t := (Prod.mk.inj hs).1
    rw [e] at this
    exact this
  | ack i b rs =>
    rw [step] at hs
    simp only [Option.some.injEq, Prod.mk.injEq] at hs
    have := (onAck_knows hb h i b rs).1
    rw [hs.1] at this
    exact this
  | afterAcks c =>
    rw [step] at hs
    simp only [Option.some.injEq, Prod.mk.injEq] at hs
    obtain ⟨r1, r2, r3, r4⟩ := afterAcks_queue hb h c
    rw [hs.1] at r1 r2 r3 r4
    refine ⟨by rw [r1]; exact h.packets, by rw [r2]; exact h.best, ?_, ?_, List.Pairwise.sublist r3 h.sorted⟩
    · intro j f hf hi
      rw [r4] at hf
      obtain ⟨g, hg, e⟩ := List.mem_map.mp hf
      show w.sentIn j f.sn = f.tsn ∧ (if w.passed j f.sn = true then w.naks j f.sn + 1 else w.naks j f.sn) = f.nak ∧ 1 ≤ f.tsn
      by_cases c : g.inFlight = true ∧ g.tsn ≤ s.maxTsnAck
      · rw [if_pos c] at e
        obtain ⟨k1, k2, k3⟩ := h.frag j g hg c.1
        have k4 := (h.passed hg c.1).mpr c.2
        have e1 : f.sn = g.sn := by rw [← e, nakedFrag_sn]
        have e2 : f.tsn = g.tsn := by rw [← e, nakedFrag]; split <;> rfl
        have e3 : f.nak = g.nak + 1 := by rw [← e, nakedFrag]; split <;> rfl
        rw [e1, e2, e3, k1, k2, if_pos k4]
        exact ⟨rfl, rfl, k3⟩
      · rw [if_neg c] at e
        subst e
        obtain ⟨k1, k2, k3⟩ := h.frag j g hg hi
        rw [if_neg (fun k => c ⟨hi, (h.passed hg hi).mp k⟩)]
        exact ⟨k1, k2, k3⟩
    · intro o ho
      rw [r1]; exact h.old o (r3.subset ho)
  | timeout =>
    rw [step] at hs
    simp only [Option.some.injEq, Prod.mk.injEq] at hs
    have hw : w.step s .timeout t es = w := by
      show es.foldl Watch.see w = w
      rw [← hs.2]; rfl
    rw [hw, ← hs.1]
    obtain ⟨r1, r2⟩ := loseAll_rest s.outs s
    refine ⟨by show w.packets + 1 = (s.outs.foldl lose s).nextTsn; rw [r1]; exact h.packets,
      by show (∀ n ∈ w.arrived, n ≤ (s.outs.foldl lose s).maxTsnAck) ∧ ((s.outs.foldl lose s).maxTsnAck = 0 ∨ (s.outs.foldl lose s).maxTsnAck ∈ w.arrived)
         rw [r2]; exact h.best, ?_, by simp [timeout], by simp [timeout]⟩
    intro j f hf hi
    rw [timeout_queue hb] at hf
    obtain ⟨g, hg, e⟩ := List.mem_map.mp hf
    by_cases c : g.inFlight = true
    · rw [if_pos c] at e; subst e; cases hi
    · rw [if_neg c] at e; subst e; exact absurd hi c
  | _ => exact absurd rfl hq

theorem Watched.knows {ops : List Op} {s : SS} {evs : List Ev} {w : Watch} (h : Watched ops s evs w) : Knows s w := by
  induction h with
  | nil => exact .start
  | snoc h ha hs ih => exact step_knows (exec_books h.exec) ih ha hs

/-! ## which fragments were sent -/

/-- what the observer knows of a fragment they saw -/
theorem see_sent (es : List Ev) (i sn : Nat) : ∀ w : Watch, 0 < (es.foldl Watch.see w).sentIn i sn →
    0 < w.sentIn i sn ∨ ∃ fsn ps P, Ev.sent i fsn ps P ∈ es := by
  induction es with
  | nil => intro w h; exact Or.inl h
  | cons e es ih =>
    intro w h
    rcases ih _ h with k | ⟨fsn, ps, P, k⟩
    · cases e with
      | sent j fsn ps P =>
        have k' : 0 < (if i = j ∧ SS.has ps sn = true then w.packets + 1 else w.sentIn i sn) := k
        split at k'
        · rename_i c
          rw [c.1]
          exact Or.inr ⟨fsn, ps, P, by simp⟩
        · exact Or.inl k'
      | _ => exact Or.inl k
    · exact Or.inr ⟨fsn, ps, P, by simp [k]⟩

theorem Watched.sent {ops : List Op} {s : SS} {evs : List Ev} {w : Watch} (h : Watched ops s evs w) {i sn : Nat} (hp : 0 < w.sentIn i sn) :
    ∃ fsn ps P, Ev.sent i fsn ps P ∈ evs := by
  induction h with
  | nil => cases hp
  | @snoc ops s evs op t es w h ha hs ih =>
    have key : 0 < w.sentIn i sn ∨ ∃ fsn ps P, Ev.sent i fsn ps P ∈ es := by
      cases op with
      | ack j b rs => exact Or.inl hp
      | afterAcks c => exact Or.inl hp
      | _ => exact see_sent es i sn w hp
    rcases key with k | ⟨fsn, ps, P, k⟩
    · obtain ⟨fsn, ps, P, m⟩ := ih k
      exact ⟨fsn, ps, P, by simp [m]⟩
    · exact ⟨fsn, ps, P, by simp [k]⟩

/-- fragments known as sent are those with a packet number -/
def Ever (s : SS) (w : Watch) : Prop := ∀ i, (∀ f ∈ (s.flow i).queue, f.everSent = true ↔ 0 < w.sentIn i f.sn) ∧ ∀ sn, (s.flow i).nextSn ≤ sn → w.sentIn i sn = 0

theorem Ever.still {s t : SS} {w : Watch} (h : Ever s w) (hs : ∀ j, QStill (s.flow j) (t.flow j)) : Ever t w := by
  intro i
  refine ⟨fun f hf => ?_, fun sn k => (h i).2 sn (Nat.le_trans (hs i).next k)⟩
  rcases (hs i).queue f hf with k | ⟨k1, _, k2⟩
  · exact (h i).1 f k
  · rw [k2, (h i).2 _ k1]; simp

theorem Puts.ever {c : Ctx} {R : RStore} {first : Bool} {prev : Nat} {q q' fs : List SFrag} {ps : List Put} (h : Puts c R first prev q q' fs ps) :
    ∀ x ∈ fs, x.everSent = true := fun x hx => (h.mem x hx).2.2.1

theorem Watched.ever {ops : List Op} {s : SS} {evs : List Ev} {w : Watch} (h : Watched ops s evs w) : Ever s w := by
  induction h with
  | nil => intro i; exact ⟨by simp [init, SF.init], fun _ _ => rfl⟩
  | @snoc ops s evs op t es w h ha hs ih =>
    have hb := exec_books h.exec
    have hk := h.knows
    by_cases hq : Quiet op = true
    · obtain ⟨⟨u, h1, h2⟩, h3⟩ := step_quiet hs hq
      have hw : w.step s op t es = es.foldl Watch.see w := by
        cases op <;> first | rfl | cases hq
      rw [hw, h3]
      have hu := ih.still h1.flow
      rcases h2 with rfl | rfl | rfl
      · exact hu
      · exact hu
      · exact hu
    cases op with
    | openFlow i m a p =>
      rw [step] at hs
      simp only [Option.some.injEq, Prod.mk.injEq] at hs
      have hw : w.step s (.openFlow i m a p) t es = w := by
        show es.foldl Watch.see w = w
        rw [← hs.2]; split <;> rfl
      rw [hw, ← hs.1, openFlow]
      split
      · exact ih
      · intro j
        by_cases e : j = i
        · subst e
          rw [setFlow_same]
          refine ⟨(fun f hf => by cases hf), fun sn _ => ?_⟩
          apply Classical.byContradiction
          intro hn
          obtain ⟨fsn, ps, P, k⟩ := h.sent (i := j) (sn := sn) (by omega)
          obtain ⟨_, ⟨m', a', p', k'⟩, _⟩ := (exec_fate h.exec).forward j fsn ps P k
          exact ha.2.1 m' a' p' k'
        · rw [setFlow_other _ _ e]; exact ih j
    | transmit i p pri now gone =>
      rw [step] at hs
      simp only [Option.some.injEq] at hs
      have e1 : (s.assembleData i p pri now gone).s.afterSend (s.assembleData i p pri now gone).sent = t := (Prod.mk.inj hs).1
      have e2 := (Prod.mk.inj hs).2
      show Ever t (es.foldl Watch.see w)
      rw [← e1, ← e2, List.foldl_append, see_fins]
      rcases assembleData_sends s i ha.2 pri now gone with ⟨e1, e2⟩ | ⟨c, q0, q1, q1', fs, ps, k⟩
      · rw [e1, e2, afterSend, if_neg (by simp), if_neg (by simp)]; exact ih
      have hst := k.sent
      generalize s.assembleData i p pri now gone = A at *
      obtain ⟨n, hn, _⟩ := k.before
      have hsub : ∀ x ∈ q0 ++ q1, x ∈ (s.flow i).queue := by intro x hx; rw [hn] at hx; exact List.mem_of_mem_drop hx
      have hsort : Sorted (q0 ++ q1) := by rw [hn]; exact drop_sorted (hb.flow i).ok.sorted n
      have hsort' : Sorted (q0 ++ q1') := ((Alikes.refl q0).append k.puts.alikes).sorted hsort
      obtain ⟨p1, p2⟩ := k.puts.split
      have pm := k.puts.mem
      have ph := k.puts.has
      have psub := k.puts.sublist
      have hA : ∀ b, ((A.s.afterSend b).flow) = A.s.flow := by intro b; rw [afterSend]; split <;> rfl
      have base : ∀ j, ∀ f ∈ (A.s.flow j).queue, (j = i ∧ f ∈ fs) ∨ f ∈ (s.flow j).queue := by
        intro j f hf
        by_cases e : j = i
        · subst e
          rw [k.queue] at hf
          rcases List.mem_append.mp hf with hf | hf
          · exact Or.inr (hsub f (List.mem_append_left _ hf))
          · rcases p1 f hf with hf | hf
            · exact Or.inl ⟨rfl, hf⟩
            · exact Or.inr (hsub f (List.mem_append_right _ hf))
        · rw [k.other j e] at hf; exact Or.inr hf
      have hnx : ∀ j, (A.s.flow j).nextSn = (s.flow j).nextSn := by
        intro j
        by_cases e : j = i
        · subst e; exact k.nextSn
        · rw [k.other j e]
      by_cases hps : ps = []
      · have hfs : fs = [] := by
          have := k.puts.length
          rw [hps] at this
          simpa using this
        subst hfs
        rw [hst, hps, if_neg (by simp)]
        intro j
        rw [hA]
        refine ⟨fun f hf => ?_, fun sn q => (ih j).2 sn (by rw [← hnx]; exact q)⟩
        rcases base j f hf with ⟨_, h⟩ | h
        · cases h
        · exact (ih j).1 f h
      · have hsent : A.sent = true := by
          rw [hst]
          cases ps with
          | nil => exact absurd rfl hps
          | cons _ _ => rfl
        rw [hsent, if_pos rfl, k.chunks]
        show Ever _ (w.packet i ps)
        intro j
        rw [hA]
        refine ⟨fun f hf => ?_, fun sn q => ?_⟩
        · show f.everSent = true ↔ 0 < (if j = i ∧ SS.has ps f.sn = true then w.packets + 1 else w.sentIn j f.sn)
          by_cases hh : j = i ∧ SS.has ps f.sn = true
          · rw [if_pos hh]
            obtain ⟨rfl, hh⟩ := hh
            obtain ⟨g, hg, e⟩ := (ph f.sn).mp hh
            rw [k.queue] at hf
            have := sorted_inj hsort' (List.mem_append_right _ (psub.subset hg)) hf e
            subst this
            simp [k.puts.ever g hg]
          · rw [if_neg hh]
            rcases base j f hf with ⟨e, h⟩ | h
            · exact absurd ⟨e, (ph f.sn).mpr ⟨f, h, rfl⟩⟩ hh
            · exact (ih j).1 f h
        · show (if j = i ∧ SS.has ps sn = true then w.packets + 1 else w.sentIn j sn) = 0
          rw [hnx] at q
          rw [if_neg]
          · exact (ih j).2 sn q
          · rintro ⟨rfl, hh⟩
            obtain ⟨g, hg, e⟩ := (ph sn).mp hh
            obtain ⟨_, _, _, _, g', hg', _, e2, _⟩ := pm g hg
            have := ((hb.flow j).ok.range g' (hsub g' (List.mem_append_right _ hg'))).2
            omega
    | ack i b rs =>
      rw [step] at hs
      simp only [Option.some.injEq, Prod.mk.injEq] at hs
      have hm := (onAck_knows hb hk i b rs).2
      have hn : ∀ j, (s.flow j).nextSn ≤ ((s.onAck i b rs).1.flow j).nextSn := fun j => (onAck_evolves s i b rs j).next
      rw [hs.1] at hm hn
      intro j
      exact ⟨fun f hf => (ih j).1 f (hm j f hf), fun sn q => (ih j).2 sn (Nat.le_trans (hn j) q)⟩
    | afterAcks c =>
      rw [step] at hs
      simp only [Option.some.injEq, Prod.mk.injEq] at hs
      obtain ⟨_, _, _, r4⟩ := afterAcks_queue hb hk c
      have hn : ∀ j, (s.flow j).nextSn ≤ ((s.afterAcks c).1.flow j).nextSn := fun j => (nakLoop_evolves _ _ _ j).next
      rw [hs.1] at r4 hn
      intro j
      refine ⟨fun f hf => ?_, fun sn q => (ih j).2 sn (Nat.le_trans (hn j) q)⟩
      rw [r4] at hf
      obtain ⟨g, hg, e⟩ := List.mem_map.mp hf
      have := (ih j).1 g hg
      show f.everSent = true ↔ 0 < w.sentIn j f.sn
      split at e
      · have e1 : f.sn = g.sn := by rw [← e, nakedFrag_sn]
        have e2 : f.everSent = g.everSent := by rw [← e, nakedFrag]; split <;> rfl
        rw [e1, e2]; exact this
      · rw [← e]; exact this
    | timeout =>
      rw [step] at hs
      simp only [Option.some.injEq, Prod.mk.injEq] at hs
      have hw : w.step s .timeout t es = w := by
        show es.foldl Watch.see w = w
        rw [← hs.2]; rfl
      have hn : ∀ j, (s.flow j).nextSn ≤ (s.timeout.flow j).nextSn := fun j => (loseAll_evolves s.outs s j).next
      rw [hw, ← hs.1]
      intro j
      refine ⟨fun f hf => ?_, fun sn q => (ih j).2 sn (Nat.le_trans (hn j) q)⟩
      rw [timeout_queue hb] at hf
      obtain ⟨g, hg, e⟩ := List.mem_map.mp hf
      have := (ih j).1 g hg
      split at e
      · rw [← e]; exact this
      · rw [← e]; exact this
    | _ => exact absurd rfl hq

end SS
end Rtmfp
