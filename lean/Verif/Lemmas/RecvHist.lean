import Verif.Lemmas.RecvFlow
import Verif.Spec.Stream

/-! # Histories of a receive flow -/

namespace Rtmfp
namespace RFlow
open Spec (Msg)

/-- the messages among the events -/
def msgsOf (ev : List REv) : List Msg := ev.filterMap (fun e => match e with | .msg d s c => some ⟨d, s, c⟩ | _ => none)

/-- the completions among the events -/
def completesOf (ev : List REv) : List Bool := ev.filterMap (fun e => match e with | .complete e => some e | _ => none)

theorem msgsOf_append (a b : List REv) : msgsOf (a ++ b) = msgsOf a ++ msgsOf b := List.filterMap_append
theorem completesOf_append (a b : List REv) : completesOf (a ++ b) = completesOf a ++ completesOf b := List.filterMap_append

theorem msgsOf_close (f : RFlow) : msgsOf f.close.2 = [] := by
  simp only [close]; split <;> rfl
theorem msgsOf_closeAndNotify (f : RFlow) (e : Bool) : msgsOf (f.closeAndNotify e).2 = [] := by
  simp only [closeAndNotify]
  rw [msgsOf_append, msgsOf_close]
  split <;> rfl
theorem msgsOf_abort (f : RFlow) : msgsOf f.abort.2 = [] := msgsOf_closeAndNotify f true
theorem msgsOf_react (f : RFlow) (r : React) : msgsOf (f.react r).2 = [] := by
  cases r with
  | none => rfl
  | order o => rfl
  | close => exact msgsOf_close f
  | abort => exact msgsOf_abort f

/-- fields that no delivery changes -/
structure Frame (f g : RFlow) : Prop where
  seqs : g.seqs = f.seqs
  forwardSn : g.forwardSn = f.forwardSn
  finalSn : g.finalSn = f.finalSn
  finalSeen : g.finalSeen = f.finalSeen
  accepted : g.accepted = f.accepted
  capacity : g.capacity = f.capacity
  prevRwnd : g.prevRwnd = f.prevRwnd

theorem Frame.refl (f : RFlow) : Frame f f := ⟨rfl, rfl, rfl, rfl, rfl, rfl, rfl⟩
theorem Frame.trans {f g h : RFlow} (a : Frame f g) (b : Frame g h) : Frame f h :=
  ⟨b.1.trans a.1, b.2.trans a.2, b.3.trans a.3, b.4.trans a.4, b.5.trans a.5, b.6.trans a.6, b.7.trans a.7⟩

theorem Frame.csn {f g : RFlow} (a : Frame f g) : g.csn = f.csn := by rw [RFlow.csn, RFlow.csn, a.seqs]

theorem frame_close (f : RFlow) : Frame f f.close.1 := by
  simp only [close]
  split <;> exact ⟨rfl, rfl, rfl, rfl, rfl, rfl, rfl⟩
theorem frame_closeAndNotify (f : RFlow) (e : Bool) : Frame f (f.closeAndNotify e).1 := by
  have := frame_close { f with onComplete := false }
  exact ⟨this.1, this.2, this.3, this.4, this.5, this.6, this.7⟩
theorem frame_abort (f : RFlow) : Frame f f.abort.1 := by
  have := frame_closeAndNotify f true
  exact ⟨this.1, this.2, this.3, this.4, this.5, this.6, this.7⟩
theorem frame_react (f : RFlow) (r : React) : Frame f (f.react r).1 := by
  cases r with
  | none => exact .refl f
  | order o => exact ⟨rfl, rfl, rfl, rfl, rfl, rfl, rfl⟩
  | close => exact frame_close f
  | abort => exact frame_abort f

theorem frame_deliverOut (f : RFlow) (b1 : Buf) (data : Bytes) (sn count : Nat) (rc : Nat → React) :
    Frame f (deliverOut f b1 data sn count rc).1 := by
  rw [deliverOut]
  obtain ⟨r0, hr0⟩ : ∃ r0, r0 = if f.prevRwnd < 2 then f.scheduleAck true else (f, []) := ⟨_, rfl⟩
  have h0 : Frame f r0.1 := by rw [hr0]; split <;> exact ⟨rfl, rfl, rfl, rfl, rfl, rfl, rfl⟩
  simp only [← hr0]
  have h1 : Frame f { r0.1 with buf := b1 } := ⟨h0.1, h0.2, h0.3, h0.4, h0.5, h0.6, h0.7⟩
  split
  · exact h1.trans (frame_react _ _)
  · exact h1

theorem msgsOf_deliverOut (f : RFlow) (b1 : Buf) (data : Bytes) (sn count : Nat) (rc : Nat → React) :
    msgsOf (deliverOut f b1 data sn count rc).2 = if f.onMessage then [⟨data, sn, count⟩] else [] := by
  rw [deliverOut]
  obtain ⟨r0, hr0⟩ : ∃ r0, r0 = if f.prevRwnd < 2 then f.scheduleAck true else (f, []) := ⟨_, rfl⟩
  have h0 : r0.1.onMessage = f.onMessage := by rw [hr0]; split <;> rfl
  have h1 : msgsOf r0.2 = [] := by rw [hr0]; split <;> rfl
  simp only [← hr0]
  by_cases h : f.onMessage = true
  · rw [if_pos h, if_pos (h0.trans h)]
    dsimp only
    rw [msgsOf_append, h1, List.nil_append]
    show _ :: msgsOf _ = _
    rw [msgsOf_react]
  · rw [if_neg h, if_neg (by rw [h0]; exact h)]
    exact h1

theorem frame_loop {st : St} {c : Nat} {rc : Nat → React} {f f' : RFlow} {ev : List REv} (h : Loop st c rc f ev f') : Frame f f' := by
  induction h with
  | stop f _ => exact .refl f
  | rest f _ _ _ => exact .refl f
  | deliver f X r hi ev f2 _ _ _ _ _ _ _ ih => exact (frame_deliverOut _ _ _ _ _ _).trans ih
  | drop f X r ev f2 _ _ _ _ _ _ _ ih => exact ⟨ih.1, ih.2, ih.3, ih.4, ih.5, ih.6, ih.7⟩

theorem deliverOut_onMessage (f : RFlow) (b1 : Buf) (data : Bytes) (sn count : Nat) (rc : Nat → React) (h : f.onMessage = false) :
    (deliverOut f b1 data sn count rc).1.buf = b1 := by
  rw [deliverOut]
  obtain ⟨r0, hr0⟩ : ∃ r0, r0 = if f.prevRwnd < 2 then f.scheduleAck true else (f, []) := ⟨_, rfl⟩
  have h0 : r0.1.onMessage = f.onMessage := by rw [hr0]; split <;> rfl
  simp only [← hr0]
  rw [if_neg (by rw [h0, h]; simp)]

/-! ### `tryDelivery` -/

theorem try_ok {st : St} (w : WFst st) {rc : Nat → React} (f : RFlow) (hint : Option Nat) (hb : BufOK st f.buf)
    (hr : RunInv st f.buf) (hcl : ∀ k, InBuf f.buf k → k ≤ f.csn → InBuf f.buf (k + 1) → k + 1 ≤ f.csn)
    (hh : ∀ h, hint = some h → ∃ X ∈ f.buf, ∃ hi, X.1 = h ∧ Run st f.buf X.2.sn hi ∧ IsMsg st X.2.sn hi) :
    ∃ f' f1 ev1 f2 ev2 ev3, f.tryDelivery hint rc = .ok (f', ev1 ++ ev2 ++ ev3) ∧ BufOK st f'.buf ∧ RunInv st f'.buf ∧
      (((hint = none ∨ f.order ≠ .network ∨ f.isOpen = false) ∧ f1 = f ∧ ev1 = []) ∨
        (f.order = .network ∧ f.isOpen = true ∧ ∃ X ∈ f.buf, ∃ hi, hint = some X.1 ∧ Run st f.buf X.2.sn hi ∧ IsMsg st X.2.sn hi ∧
          (f1, ev1) = deliverOut f (rem f.buf X.2.sn hi) (content st X.2.sn hi) X.2.sn (hi + 1 - X.2.sn) rc)) ∧
      Loop st f.csn rc f1 ev2 f2 ∧
      (((f2.finalSeen = true ∧ f2.finalSn ≤ f.csn ∧ f2.buf = []) ∧ (f', ev3) = f2.closeAndNotify false) ∨
        (¬ (f2.finalSeen = true ∧ f2.finalSn ≤ f.csn ∧ f2.buf = []) ∧ f' = f2 ∧ ev3 = [])) := by
  -- first stage
  have stage1 : ∃ f1 ev1, f.tryHint hint rc = .ok (f1, ev1) ∧ BufOK st f1.buf ∧ RunInv st f1.buf ∧ f1.csn = f.csn ∧
      (∀ k, InBuf f1.buf k → InBuf f.buf k) ∧
      (((hint = none ∨ f.order ≠ .network ∨ f.isOpen = false) ∧ f1 = f ∧ ev1 = []) ∨
        (f.order = .network ∧ f.isOpen = true ∧ ∃ X ∈ f.buf, ∃ hi, hint = some X.1 ∧ Run st f.buf X.2.sn hi ∧ IsMsg st X.2.sn hi ∧
          (f1, ev1) = deliverOut f (rem f.buf X.2.sn hi) (content st X.2.sn hi) X.2.sn (hi + 1 - X.2.sn) rc)) := by
    cases hint with
    | none => exact ⟨f, [], rfl, hb, hr, rfl, fun _ h => h, .inl ⟨.inl rfl, rfl, rfl⟩⟩
    | some h =>
      rw [tryHint]
      by_cases hgo : f.order = .network ∧ f.isOpen = true
      · rw [if_pos hgo]
        obtain ⟨X, hX, hi, e, hrun, hmsg⟩ := hh h rfl
        subst e
        rw [deliver_eq hb hX hrun.con.2.1 hmsg rc]
        obtain ⟨out, hout⟩ : ∃ out, out = deliverOut f (rem f.buf X.2.sn hi) (content st X.2.sn hi) X.2.sn (hi + 1 - X.2.sn) rc := ⟨_, rfl⟩
        have hob : out.1.buf = rem f.buf X.2.sn hi ∨ out.1.buf = [] := by rw [hout]; exact deliverOut_buf _ _ _ _ _ _
        have hfr : Frame f out.1 := by rw [hout]; exact frame_deliverOut _ _ _ _ _ _
        rw [← hout]
        refine ⟨out.1, out.2, rfl, ?_, ?_, hfr.csn, ?_, .inr ⟨hgo.1, hgo.2, X, hX, hi, rfl, hrun, hmsg, hout⟩⟩
        · rcases hob with e | e <;> rw [e]
          · exact hb.sub (rem_sublist _ _ _)
          · exact ⟨List.Pairwise.nil, by simp, by simp⟩
        · rcases hob with e | e <;> rw [e]
          · exact hr.rem w hb hrun.con.2.1 hmsg
          · intro x hx; simp at hx
        · intro k
          rcases hob with e | e <;> rw [e]
          · exact fun h => (InBuf_rem.mp h).1
          · rintro ⟨x, hx, _⟩; simp at hx
      · rw [if_neg hgo]
        refine ⟨f, [], rfl, hb, hr, rfl, fun _ h => h, .inl ⟨.inr ?_, rfl, rfl⟩⟩
        by_cases h1 : f.order = .network
        · right
          cases e : f.isOpen with
          | false => rfl
          | true => exact absurd ⟨h1, e⟩ hgo
        · exact .inl h1
  obtain ⟨f1, ev1, e1, hb1, hr1, hcsn, hsub, hst1⟩ := stage1
  obtain ⟨f2, ev2, e2, hloop, hb2, hr2⟩ := loop_ok (rc := rc) (c := f.csn) w (f1.buf.length + 1) f1 hb1 (hr1.toF _)
    (fun k a b d => hcl k (hsub k a) b (hsub _ d)) (by omega) (fun _ => hr1)
  have hbc : BufOK st (f2.closeAndNotify false).1.buf ∧ RunInv st (f2.closeAndNotify false).1.buf := by
    show BufOK st [] ∧ RunInv st []
    exact ⟨⟨List.Pairwise.nil, by simp, by simp⟩, fun x hx => by simp at hx⟩
  by_cases hfin : f2.finalSeen = true ∧ f2.finalSn ≤ f.csn ∧ f2.buf = []
  · refine ⟨(f2.closeAndNotify false).1, f1, ev1, f2, ev2, (f2.closeAndNotify false).2, ?_, hbc.1, hbc.2, hst1, hloop, .inl ⟨hfin, rfl⟩⟩
    rw [tryDelivery, e1]
    dsimp only
    rw [hcsn, e2]
    dsimp only
    rw [if_pos hfin]
  · refine ⟨f2, f1, ev1, f2, ev2, [], ?_, hb2, hr2, hst1, hloop, .inr ⟨hfin, rfl, rfl⟩⟩
    rw [tryDelivery, e1]
    dsimp only
    rw [hcsn, e2]
    dsimp only
    rw [if_neg hfin]

/-! ### `onData` -/

open IndexSet in
theorem csn_iff {f : RFlow} (hc : Canon f.seqs) (h0 : f.seqs = [] ∨ Mem f.seqs 0) (k : Nat) :
    k ≤ f.csn ↔ ∀ j, 1 ≤ j → j ≤ k → Mem f.seqs j := by
  rw [csn]
  cases hs : f.seqs with
  | nil =>
    simp only [List.head?_nil]
    constructor
    · intro h j h1 h2; omega
    · intro h
      rcases Nat.eq_zero_or_pos k with e | e
      · omega
      · have := h k e (Nat.le_refl _)
        simp [Mem] at this
  | cons r rest =>
    simp only [List.head?_cons]
    rw [hs] at hc h0
    have h0 : Mem (r :: rest) 0 := by rcases h0 with h | h; cases h; exact h
    have hr := Canon_stop _ hc r (by simp)
    have hgap : ∀ q ∈ rest, r.stop + 1 < q.start := by
      intro q hq
      exact hc.2.2.1 q hq
    have hstart : r.start = 0 := by
      obtain ⟨q, hq, h1, h2⟩ := h0
      simp only [List.mem_cons] at hq
      rcases hq with rfl | hq
      · omega
      · have := hgap q hq; omega
    constructor
    · intro h j h1 h2
      exact ⟨r, by simp, by omega, by omega⟩
    · intro h
      rcases Nat.lt_or_ge r.stop k with hlt | hge
      · have := h (r.stop + 1) (by omega) (by omega)
        obtain ⟨q, hq, h1, h2⟩ := this
        simp only [List.mem_cons] at hq
        rcases hq with rfl | hq
        · omega
        · have := hgap q hq; omega
      · exact hge

/-- what `onData` has done before it tries to deliver -/
structure Pre (st : St) (f : RFlow) (flags : UInt8) (sn fsn : Nat) (g : RFlow) (hint : Option Nat) : Prop where
  mem : ∀ k, IndexSet.Mem g.seqs k ↔ k ≤ fsn ∨ k = sn ∨ IndexSet.Mem f.seqs k
  canon : IndexSet.Canon g.seqs
  seqs : g.seqs = (f.arrival flags sn fsn).seqs
  buf : ∀ k, InBuf g.buf k ↔ (k = sn ∧ ¬ IndexSet.Mem f.seqs sn ∧ flags &&& USERDATA_FLAG_ABN = 0 ∧ f.state = .opened) ∨ InBuf f.buf k
  bufOK : BufOK st g.buf
  runInv : RunInv st g.buf
  finalSeen : g.finalSeen = (f.arrival flags sn fsn).finalSeen
  finalSn : g.finalSn = (f.arrival flags sn fsn).finalSn
  state : g.state = f.state ∨ (g.state = .completeLinger ∧ f.state.rank < RFState.completeLinger.rank ∧ g.finalSeen = true ∧ g.seqs.length = 1)
  same : g.baseOpen = f.baseOpen ∧ g.accepted = f.accepted ∧ g.order = f.order ∧ g.onMessage = f.onMessage ∧ g.onComplete = f.onComplete ∧
    g.prevRwnd = f.prevRwnd
  hintOk : ∀ h, hint = some h → ∃ X ∈ g.buf, ∃ hi, X.1 = h ∧ Run st g.buf X.2.sn hi ∧ IsMsg st X.2.sn hi
  hintRev : ∀ lo hi, Run st g.buf lo hi → IsMsg st lo hi → Run st f.buf lo hi ∨ hint ≠ none
  noIns : ¬ (¬ IndexSet.Mem f.seqs sn ∧ flags &&& USERDATA_FLAG_ABN = 0 ∧ f.state = .opened) → g.buf = f.buf ∧ hint = none
  hintRun : ∀ lo hi, Run st g.buf lo hi → IsMsg st lo hi → Run st f.buf lo hi ∨ (lo ≤ sn ∧ sn ≤ hi)

open IndexSet in
theorem data_ok {st : St} (w : WFst st) {rc : Nat → React} (f : RFlow) (flags : UInt8) (sn fsn : Nat) (data : Bytes) (nm : Nat)
    (hb : BufOK st f.buf) (hr : RunInv st f.buf) (hc : Canon f.seqs) (hsub : ∀ k, InBuf f.buf k → Mem f.seqs k)
    (hsn : sn < W64) (hfsn : fsn < W64) (hcons : flags &&& USERDATA_FLAG_ABN = 0 → st sn = some (Fra.ofFlags flags, data))
    (hnm : nm ∉ f.buf.map (·.1)) :
    ∃ g hint f3 ev ev', Pre st f flags sn fsn g hint ∧ g.tryDelivery hint rc = .ok (f3, ev) ∧
      f.onData flags sn fsn data nm rc = .ok ({ f3 with shouldAck := true }, ev ++ ev') ∧ msgsOf ev' = [] ∧ completesOf ev' = [] := by
  obtain ⟨m1, c1⟩ := add_mem f.seqs 0 fsn hfsn hc
  obtain ⟨m2, c2⟩ := add_mem (IndexSet.add f.seqs 0 fsn) sn sn hsn c1
  obtain ⟨a, ha⟩ : ∃ a, a = f.arrival flags sn fsn := ⟨_, rfl⟩
  have haseq : a.seqs = IndexSet.add (IndexSet.add f.seqs 0 fsn) sn sn := by rw [ha]; rfl
  have habuf : a.buf = f.buf := by rw [ha]; rfl
  have hast : a.state = f.state := by rw [ha]; rfl
  have hmem : ∀ k, Mem a.seqs k ↔ k ≤ fsn ∨ k = sn ∨ Mem f.seqs k := by
    intro k
    rw [haseq, m2, m1]
    constructor
    · rintro ((h | h) | h)
      · exact .inr (.inr h)
      · exact .inl h.2
      · exact .inr (.inl (by omega))
    · rintro (h | h | h)
      · exact .inl (.inr ⟨by omega, h⟩)
      · exact .inr (by omega)
      · exact .inl (.inl h)
  -- insertion
  obtain ⟨buf, hint, hins, hPre⟩ : ∃ buf hint, insertIf a.buf (!f.seqs.contains sn && !decide (flags &&& USERDATA_FLAG_ABN ≠ 0) &&
      decide (a.state = .opened)) nm sn flags data = .ok (buf, hint) ∧ Pre st f flags sn fsn ({ a with buf := buf } : RFlow).enterLinger hint := by
    have hstate : ∀ buf, ({ a with buf := buf } : RFlow).enterLinger.state = f.state ∨
        (({ a with buf := buf } : RFlow).enterLinger.state = .completeLinger ∧ f.state.rank < RFState.completeLinger.rank ∧
          ({ a with buf := buf } : RFlow).enterLinger.finalSeen = true ∧ ({ a with buf := buf } : RFlow).enterLinger.seqs.length = 1) := by
      intro buf
      simp only [enterLinger]
      by_cases h : ({ a with buf := buf } : RFlow).completes = true
      · rw [if_pos h]
        simp only [completes, Bool.and_eq_true, decide_eq_true_eq] at h
        exact .inr ⟨rfl, by rw [← hast]; exact h.1.2, h.1.1, h.2⟩
      · rw [if_neg h]; exact .inl hast
    have hsame : ∀ buf, ({ a with buf := buf } : RFlow).enterLinger.baseOpen = f.baseOpen ∧
        ({ a with buf := buf } : RFlow).enterLinger.accepted = f.accepted ∧ ({ a with buf := buf } : RFlow).enterLinger.order = f.order ∧
        ({ a with buf := buf } : RFlow).enterLinger.onMessage = f.onMessage ∧ ({ a with buf := buf } : RFlow).enterLinger.onComplete = f.onComplete ∧
        ({ a with buf := buf } : RFlow).enterLinger.prevRwnd = f.prevRwnd := by
      intro buf; rw [ha]; exact ⟨rfl, rfl, rfl, rfl, rfl, rfl⟩
    by_cases hin : ¬ Mem f.seqs sn ∧ flags &&& USERDATA_FLAG_ABN = 0 ∧ f.state = .opened
    · have hbo : (!f.seqs.contains sn && !decide (flags &&& USERDATA_FLAG_ABN ≠ 0) && decide (a.state = .opened)) = true := by
        rw [hast]
        have : f.seqs.contains sn = false := by
          rw [← Bool.not_eq_true, contains_iff]; exact hin.1
        rw [this]; simp [hin.2.1, hin.2.2]
      rw [hbo]
      obtain ⟨b', hint, e, hok, hri, hinb, hnames, X, hX, Y, hY, hrun, hXs, hYs, hh⟩ :=
        insert_ok w hb hr (hcons hin.2.1) (fun h => hin.1 (hsub _ h)) hnm
      have hisMsg : ((X.2.fra = .begin ∧ Y.2.fra = .end) ∨ X.2.fra = .whole) ↔ IsMsg st X.2.sn Y.2.sn := by
        have hXst := hok.cont X hX
        have hYst := hok.cont Y hY
        constructor
        · rintro (⟨h1, h2⟩ | h1)
          · right
            refine ⟨?_, ⟨_, by rw [hXst, h1]⟩, ⟨_, by rw [hYst, h2]⟩, hrun.con.2.2⟩
            rcases Nat.lt_or_ge X.2.sn Y.2.sn with h | h
            · exact h
            · have hh := hrun.con.1
              have := sorted_inj hok.sorted hX hY (by omega)
              rw [this, h2] at h1; cases h1
          · left
            refine ⟨?_, _, by rw [hXst, h1]⟩
            rcases Nat.lt_or_ge X.2.sn Y.2.sn with h | h
            · have := hrun.con.2.2 X.2.sn (Nat.le_refl _) h
              rw [link_iff hXst, h1] at this; simp at this
            · have hh := hrun.con.1; omega
        · rintro (⟨_, d, h⟩ | ⟨_, ⟨d, h1⟩, ⟨d', h2⟩, _⟩)
          · rw [hXst, Option.some.injEq, Prod.mk.injEq] at h; exact .inr h.1
          · rw [hXst, Option.some.injEq, Prod.mk.injEq] at h1
            rw [hYst, Option.some.injEq, Prod.mk.injEq] at h2
            exact .inl ⟨h1.1, h2.1⟩
      have hrunTo : ∀ lo hi, Run st b' lo hi → IsMsg st lo hi → Run st f.buf lo hi ∨ (lo ≤ sn ∧ sn ≤ hi) := by
        intro lo hi hrr hmm
        by_cases hcon : lo ≤ sn ∧ sn ≤ hi
        · exact .inr hcon
        · left
          refine ⟨⟨hrr.con.1, fun k p q => ?_, hrr.con.2.2⟩, fun k p q => hrr.pred k p ((hinb k).2 (.inr q)), fun p => hrr.succ ((hinb _).2 (.inr p))⟩
          rcases (hinb k).1 (hrr.con.2.1 k p q) with h | h
          · omega
          · exact h
      refine ⟨b', hint, by rw [insertIf, if_pos rfl, habuf]; exact e, ?_⟩
      refine ⟨hmem, by rw [← haseq] at c2; exact c2, by rw [← ha]; rfl, ?_, hok, hri, by rw [← ha]; rfl, by rw [← ha]; rfl, hstate b', hsame b', ?_, ?_, fun h => absurd hin h, hrunTo⟩
      · intro k
        refine (hinb k).trans ?_
        constructor
        · rintro (h | h)
          · exact .inl ⟨h, hin⟩
          · exact .inr h
        · rintro (h | h)
          · exact .inl h.1
          · exact .inr h
      · intro h eh
        rw [eh] at hh
        by_cases hm : (X.2.fra = .begin ∧ Y.2.fra = .end) ∨ X.2.fra = .whole
        · rw [if_pos hm] at hh
          cases hh
          exact ⟨X, hX, Y.2.sn, rfl, hrun, hisMsg.1 hm⟩
        · rw [if_neg hm] at hh; cases hh
      · intro lo hi hrr hmm
        rcases hrunTo lo hi hrr hmm with h | h
        · exact .inl h
        · right
          obtain ⟨e1, e2⟩ := hrr.unique hrun h.1 h.2 hXs hYs
          rw [e1, e2] at hmm
          rw [hh, if_pos (hisMsg.2 hmm)]
          simp
    · have hbo : (!f.seqs.contains sn && !decide (flags &&& USERDATA_FLAG_ABN ≠ 0) && decide (a.state = .opened)) = false := by
        rw [hast]
        rw [← Bool.not_eq_true]
        intro h
        simp only [Bool.and_eq_true, Bool.not_eq_true', decide_eq_true_eq, decide_eq_false_iff_not, Decidable.not_not] at h
        apply hin
        refine ⟨fun hm => ?_, h.1.2, h.2⟩
        rw [← contains_iff, h.1.1] at hm; cases hm
      rw [hbo]
      refine ⟨f.buf, none, by rw [insertIf, if_neg (by simp), habuf], ?_⟩
      refine ⟨hmem, by rw [← haseq] at c2; exact c2, by rw [← ha]; rfl, ?_, hb, hr, by rw [← ha]; rfl, by rw [← ha]; rfl, hstate f.buf, hsame f.buf, ?_, ?_, fun _ => ⟨rfl, rfl⟩, fun lo hi h _ => .inl h⟩
      · intro k
        show InBuf f.buf k ↔ _
        constructor
        · exact .inr
        · rintro (h | h)
          · exact absurd h.2 hin
          · exact h
      · intro h eh; cases eh
      · intro lo hi hrr hmm; exact .inl hrr
  obtain ⟨g, hg⟩ : ∃ g, g = ({ a with buf := buf } : RFlow).enterLinger := ⟨_, rfl⟩
  rw [← hg] at hPre
  have hsubg : ∀ k, InBuf g.buf k → Mem g.seqs k := by
    intro k hk
    rw [hPre.mem]
    rcases (hPre.buf k).1 hk with h | h
    · exact .inr (.inl h.1)
    · exact .inr (.inr (hsub k h))
  have hcl : ∀ k, InBuf g.buf k → k ≤ g.csn → InBuf g.buf (k + 1) → k + 1 ≤ g.csn := by
    intro k _ h1 h2
    have h0 : Mem g.seqs 0 := (hPre.mem 0).2 (.inl (by omega))
    rw [csn_iff hPre.canon (.inr h0)] at h1 ⊢
    intro j p q
    by_cases e : j = k + 1
    · subst e; exact hsubg _ h2
    · exact h1 j p (by omega)
  obtain ⟨f3, f1, ev1, f2, ev2, ev3, e, -⟩ := try_ok (rc := rc) w g hint hPre.bufOK hPre.runInv hcl hPre.hintOk
  refine ⟨g, hint, f3, ev1 ++ ev2 ++ ev3, ?_⟩
  rw [onData]
  simp only [← ha]
  rw [hins]
  dsimp only
  rw [← hg, e]
  dsimp only
  refine ⟨_, hPre, rfl, by rw [List.append_assoc]; rfl, ?_, ?_⟩
  · rw [msgsOf_append]; split <;> rfl
  · rw [completesOf_append]; split <;> rfl

end RFlow
end Rtmfp
