import Verif.Lemmas.RecvExec

/-! # What a receive flow does for any input at all -/

namespace Rtmfp
namespace RFlow
open Spec (Msg DataChunk Covered)
open IndexSet (Mem Canon)

/-- the event is a completion -/
def REv.isComplete : REv → Bool | .complete _ => true | _ => false
/-- the event is a message or a completion -/
def REv.isTold : REv → Bool | .complete _ => true | .msg _ _ _ => true | _ => false

/-- nothing is told to the user after a completion, nor once the flow is not open, and an open flow does not reopen -/
structure Life (f : RFlow) (ev : List REv) (f' : RFlow) : Prop where
  after : ev.Pairwise (fun a b => REv.isComplete a = true → REv.isTold b = false)
  shut : (∃ a ∈ ev, REv.isComplete a = true) → f'.baseOpen = false
  closed : f.baseOpen = false → f'.baseOpen = false ∧ ∀ a ∈ ev, REv.isTold a = false

theorem Life.nil {f f' : RFlow} (h : f'.baseOpen = f.baseOpen) : Life f [] f' :=
  ⟨List.Pairwise.nil, (fun ⟨_, ha, _⟩ => nomatch ha), fun hc => ⟨h.trans hc, fun a ha => by cases ha⟩⟩

theorem Life.plain {f f' : RFlow} {ev : List REv} (h : f'.baseOpen = f.baseOpen) (hn : ∀ a ∈ ev, REv.isTold a = false) : Life f ev f' := by
  have hc : ∀ a ∈ ev, REv.isComplete a = false := by
    intro a ha
    have := hn a ha
    cases a <;> simp_all [REv.isComplete, REv.isTold]
  refine ⟨?_, ?_, fun hcl => ⟨h.trans hcl, hn⟩⟩
  · exact List.pairwise_of_forall_mem_list (fun a ha b _ hh => by rw [hc a ha] at hh; cases hh)
  · rintro ⟨a, ha, h1⟩; rw [hc a ha] at h1; cases h1

theorem Life.trans {f g h : RFlow} {a b : List REv} (x : Life f a g) (y : Life g b h) : Life f (a ++ b) h := by
  refine ⟨?_, ?_, ?_⟩
  · rw [List.pairwise_append]
    refine ⟨x.after, y.after, fun p hp q hq hc => ?_⟩
    exact (y.closed (x.shut ⟨p, hp, hc⟩)).2 q hq
  · rintro ⟨p, hp, hc⟩
    rcases List.mem_append.mp hp with hp | hp
    · exact (y.closed (x.shut ⟨p, hp, hc⟩)).1
    · exact y.shut ⟨p, hp, hc⟩
  · intro hcl
    have h1 := x.closed hcl
    have h2 := y.closed h1.1
    refine ⟨h2.1, fun p hp => ?_⟩
    rcases List.mem_append.mp hp with hp | hp
    · exact h1.2 p hp
    · exact h2.2 p hp

theorem Life.of_buf {f f' g : RFlow} {ev : List REv} (h : Life f ev f') (e : g.baseOpen = f'.baseOpen) : Life f ev g :=
  ⟨h.after, fun hh => e.trans (h.shut hh), fun hc => ⟨e.trans (h.closed hc).1, (h.closed hc).2⟩⟩

theorem close_ev (f : RFlow) : ∀ a ∈ f.close.2, REv.isTold a = false := by
  simp only [close]
  split
  · intro a ha; simp only [scheduleAck, List.mem_singleton] at ha; subst ha; rfl
  · intro a ha; cases ha

theorem life_close (f : RFlow) : Life f f.close.2 f.close.1 := by
  have hn := close_ev f
  have hc : ∀ a ∈ f.close.2, REv.isComplete a = false := by
    intro a ha
    have := hn a ha
    cases a <;> simp_all [REv.isComplete, REv.isTold]
  refine ⟨?_, ?_, fun _ => ⟨rfl, hn⟩⟩
  · exact List.pairwise_of_forall_mem_list (fun a ha b _ hh => by rw [hc a ha] at hh; cases hh)
  · rintro ⟨a, ha, h1⟩; rw [hc a ha] at h1; cases h1

theorem life_closeAndNotify (f : RFlow) (e : Bool) : Life f (f.closeAndNotify e).2 (f.closeAndNotify e).1 := by
  simp only [closeAndNotify]
  have h1 := life_close { f with onComplete := false }
  refine ⟨?_, fun _ => rfl, fun hc => ⟨rfl, ?_⟩⟩
  · rw [List.pairwise_append]
    refine ⟨h1.after, ?_, fun a ha b hb hcc => ?_⟩
    · split
      · exact List.pairwise_singleton _ _
      · exact List.Pairwise.nil
    · have := close_ev _ a ha
      cases a <;> simp_all [REv.isComplete, REv.isTold]
  · have ho : f.isOpen = false := by rw [isOpen, hc]; rfl
    rw [ho]
    simp only [Bool.false_and, Bool.false_eq_true, if_false, List.append_nil]
    exact close_ev _

theorem life_abort (f : RFlow) : Life f f.abort.2 f.abort.1 := (life_closeAndNotify f true).of_buf rfl

theorem life_react (f : RFlow) (r : React) : Life f (f.react r).2 (f.react r).1 := by
  cases r with
  | none => exact .nil rfl
  | close => exact life_close f
  | order o => exact .nil rfl
  | abort => exact life_abort f

theorem life_msg (f : RFlow) (hop : f.baseOpen = true) (d : Bytes) (s c : Nat) (r : React) : Life f (.msg d s c :: (f.react r).2) (f.react r).1 := by
  have h := life_react f r
  refine ⟨?_, ?_, fun hc => by rw [hop] at hc; cases hc⟩
  · rw [List.pairwise_cons]
    exact ⟨fun b _ hh => (by cases hh), h.after⟩
  · rintro ⟨a, ha, hc⟩
    rcases List.mem_cons.mp ha with rfl | ha
    · cases hc
    · exact h.shut ⟨a, ha, hc⟩

/-- the first part of `deliverMessage` -/
theorem ackFirst (f : RFlow) : ∃ r0, r0 = (if f.prevRwnd < 2 then f.scheduleAck true else (f, [])) ∧ Frame f r0.1 ∧ Life f r0.2 r0.1 ∧ r0.1.buf = f.buf ∧
    r0.1.baseOpen = f.baseOpen := by
  refine ⟨_, rfl, ?_⟩
  split
  · refine ⟨⟨rfl, rfl, rfl, rfl, rfl, rfl, rfl⟩, .plain rfl ?_, rfl, rfl⟩
    intro a ha; simp only [scheduleAck, List.mem_singleton] at ha; subst ha; rfl
  · exact ⟨.refl f, .nil rfl, rfl, rfl⟩

theorem react_buf' (f : RFlow) (r : React) : (f.react r).1.buf = f.buf ∨ (f.react r).1.buf = [] := by
  cases r with
  | none => exact .inl rfl
  | order o => exact .inl rfl
  | close => exact .inr rfl
  | abort => exact .inr rfl

theorem filter_length_lt {α} {p : α → Bool} {l : List α} {x : α} (hx : x ∈ l) (hp : p x = false) : (l.filter p).length < l.length := by
  induction l with
  | nil => cases hx
  | cons a l ih =>
    rw [List.filter_cons]
    rcases List.mem_cons.mp hx with rfl | hx
    · rw [hp]
      simp only [Bool.false_eq_true, if_false, List.length_cons]
      have := List.length_filter_le p l
      omega
    · have := ih hx
      split <;> simp only [List.length_cons] <;> omega

theorem upToEnd_head {l part : List (Nat × RFrag)} {x : Nat × RFrag} (h : upToEnd (x :: l) = some part) : x ∈ part := by
  rw [upToEnd] at h
  split at h
  · cases h; simp
  · cases hu : upToEnd l with
    | none => rw [hu] at h; cases h
    | some p => rw [hu] at h; cases h; simp

theorem dropWhile_head {l : List (Nat × RFrag)} {n : Nat} (h : ∃ x ∈ l, x.1 = n) : ∃ x t, l.dropWhile (fun x => decide (x.1 ≠ n)) = x :: t ∧ x ∈ l ∧ x.1 = n := by
  induction l with
  | nil => obtain ⟨x, hx, _⟩ := h; cases hx
  | cons a l ih =>
    rw [List.dropWhile_cons]
    by_cases ha : a.1 = n
    · rw [if_neg (by simp [ha])]
      exact ⟨a, l, rfl, by simp, ha⟩
    · rw [if_pos (by simp [ha])]
      obtain ⟨x, t, h1, h2, h3⟩ := ih (by
        obtain ⟨x, hx, hn⟩ := h
        rcases List.mem_cons.mp hx with rfl | hx
        · exact absurd hn ha
        · exact ⟨x, hx, hn⟩)
      exact ⟨x, t, h1, by simp [h2], h3⟩

theorem at?_mem {b : List (Nat × RFrag)} {n : Nat} {fr : RFrag} (h : at? b n = some fr) : ∃ x ∈ b, x.1 = n := by
  rw [at?] at h
  cases hf : b.find? (fun x => x.1 == n) with
  | none => rw [hf] at h; cases h
  | some x =>
    exact ⟨x, List.mem_of_find?_eq_some hf, by simpa using List.find?_some hf⟩

/-- `deliverMessage` for any input -/
theorem deliverMessage_all (f : RFlow) (hop : f.baseOpen = true) (start : Nat) (rc : Nat → React) :
    f.deliverMessage start rc ≠ .error .fuel ∧
    ∀ f' ev, f.deliverMessage start rc = .ok (f', ev) → Frame f f' ∧ Life f ev f' ∧ f'.buf.length < f.buf.length := by
  obtain ⟨r0, hr0, hfr, hlife, hbuf, hbo⟩ := ackFirst f
  rw [deliverMessage]
  simp only [← hr0]
  rw [hbuf]
  cases hat : at? f.buf start with
  | none => exact ⟨by simp, by simp⟩
  | some frag =>
    obtain ⟨x, hx, hxn⟩ := at?_mem hat
    dsimp only
    have hop0 : r0.1.baseOpen = true := hbo.trans hop
    by_cases hw : frag.fra = .whole
    · rw [if_pos hw]
      refine ⟨by simp, ?_⟩
      intro f' ev h
      have hlt : (erase f.buf start).length < f.buf.length := filter_length_lt hx (by simp [hxn])
      have hpos : 0 < f.buf.length := by omega
      split at h
      · cases h
        have h1 := frame_react r0.1 (rc frag.sn)
        have h2 := life_msg r0.1 hop0 frag.data frag.sn 1 (rc frag.sn)
        refine ⟨?_, (hlife.trans h2).of_buf rfl, ?_⟩
        · have := hfr.trans h1
          exact ⟨this.1, this.2, this.3, this.4, this.5, this.6, this.7⟩
        · show (erase _ start).length < _
          rcases react_buf' r0.1 (rc frag.sn) with e | e <;> rw [e]
          · rw [hbuf]; exact hlt
          · simpa [erase] using hpos
      · cases h
        refine ⟨⟨hfr.1, hfr.2, hfr.3, hfr.4, hfr.5, hfr.6, hfr.7⟩, ?_, ?_⟩
        · rw [List.append_nil]; exact hlife.of_buf rfl
        · show (erase r0.1.buf start).length < _
          rw [hbuf]; exact hlt
    · rw [if_neg hw]
      obtain ⟨y, t, hy1, hy2, hy3⟩ := dropWhile_head ⟨x, hx, hxn⟩
      rw [hy1]
      cases hu : upToEnd (y :: t) with
      | none => exact ⟨by simp, by simp⟩
      | some part =>
        dsimp only
        refine ⟨by simp, ?_⟩
        intro f' ev h
        have hyp := upToEnd_head hu
        have hlt : (f.buf.filter (fun x => decide (x.1 ∉ part.map (fun y : Nat × RFrag => y.1)))).length < f.buf.length := by
          apply filter_length_lt hy2
          rw [decide_eq_false_iff_not, Decidable.not_not]
          exact List.mem_map.mpr ⟨y, hyp, rfl⟩
        obtain ⟨g, hg⟩ : ∃ g, g = ({ r0.1 with buf := f.buf.filter (fun x => decide (x.1 ∉ part.map (fun y : Nat × RFrag => y.1))) } : RFlow) := ⟨_, rfl⟩
        rw [← hg] at h
        have g1 : Frame f g := by rw [hg]; exact ⟨hfr.1, hfr.2, hfr.3, hfr.4, hfr.5, hfr.6, hfr.7⟩
        have g2 : Life f r0.2 g := by rw [hg]; exact hlife.of_buf rfl
        have g3 : g.buf.length < f.buf.length := by rw [hg]; exact hlt
        have g4 : g.baseOpen = true := by rw [hg]; exact hop0
        split at h
        · cases h
          refine ⟨g1.trans (frame_react _ _), g2.trans (life_msg g g4 _ _ _ _), ?_⟩
          rcases react_buf' g (rc frag.sn) with e | e
          · rw [e]; exact g3
          · rw [e]; simp only [List.length_nil]; omega
        · cases h
          rw [List.append_nil]
          exact ⟨g1, g2, g3⟩

theorem isOpen_base {f : RFlow} (h : f.isOpen = true) : f.baseOpen = true := by
  rw [isOpen, Bool.and_eq_true] at h; exact h.1

/-- the delivery loop for any input -/
theorem deliverLoop_all (c : Nat) (rc : Nat → React) : ∀ n (f : RFlow), f.buf.length < n →
    deliverLoop c rc n f ≠ .error .fuel ∧ ∀ f' ev, deliverLoop c rc n f = .ok (f', ev) → Frame f f' ∧ Life f ev f' := by
  intro n
  induction n with
  | zero => intro f h; omega
  | succ n ih =>
    intro f hn
    rw [deliverLoop]
    have stop : (Except.ok (f, []) : Except RErr (RFlow × List REv)) ≠ .error .fuel ∧
        ∀ f' ev, (Except.ok (f, []) : Except RErr (RFlow × List REv)) = .ok (f', ev) → Frame f f' ∧ Life f ev f' := by
      refine ⟨by simp, ?_⟩
      intro f' ev h
      cases h
      exact ⟨.refl f, .nil rfl⟩
    by_cases hgo : f.order ≠ .hold ∧ f.isOpen = true
    · rw [if_pos hgo]
      have hop := isOpen_base hgo.2
      cases hb : f.buf with
      | nil => exact stop
      | cons X rest =>
        obtain ⟨name, frag⟩ := X
        dsimp only
        have hlen : rest.length < n := by rw [hb] at hn; simp only [List.length_cons] at hn; omega
        have hdrop : deliverLoop c rc n { f with buf := rest } ≠ .error .fuel ∧
            ∀ f' ev, deliverLoop c rc n { f with buf := rest } = .ok (f', ev) → Frame f f' ∧ Life f ev f' := by
          have := ih { f with buf := rest } hlen
          refine ⟨this.1, fun f' ev h => ?_⟩
          have h2 := this.2 f' ev h
          refine ⟨⟨h2.1.1, h2.1.2, h2.1.3, h2.1.4, h2.1.5, h2.1.6, h2.1.7⟩, h2.2.after, h2.2.shut, h2.2.closed⟩
        have hdel : (match f.deliverMessage name rc with
              | .error e => (.error e : Except RErr (RFlow × List REv))
              | .ok (f, ev) => match deliverLoop c rc n f with
                | .error e => .error e
                | .ok (f, ev') => .ok (f, ev ++ ev')) ≠ .error .fuel ∧
            ∀ f' ev, (match f.deliverMessage name rc with
              | .error e => (.error e : Except RErr (RFlow × List REv))
              | .ok (f, ev) => match deliverLoop c rc n f with
                | .error e => .error e
                | .ok (f, ev') => .ok (f, ev ++ ev')) = .ok (f', ev) → Frame f f' ∧ Life f ev f' := by
          have hd := deliverMessage_all f hop name rc
          cases hdm : f.deliverMessage name rc with
          | error e =>
            rw [hdm] at hd
            exact ⟨hd.1, by intro f' ev h; cases h⟩
          | ok r =>
            obtain ⟨f1, ev1⟩ := r
            have h1 := hd.2 f1 ev1 hdm
            have h2 := ih f1 (by omega)
            dsimp only
            cases hl : deliverLoop c rc n f1 with
            | error e =>
              rw [hl] at h2
              exact ⟨h2.1, by intro f' ev h; cases h⟩
            | ok r2 =>
              obtain ⟨f2, ev2⟩ := r2
              have h3 := h2.2 f2 ev2 hl
              refine ⟨by simp, ?_⟩
              intro f' ev h
              cases h
              exact ⟨h1.1.trans h3.1, h1.2.1.trans h3.2⟩
        by_cases hsn : frag.sn > c
        · rw [if_pos hsn]; exact stop
        · rw [if_neg hsn]
          by_cases h1 : frag.fra = .whole
          · rw [if_pos h1]; exact hdel
          · rw [if_neg h1]
            by_cases h2 : frag.fra ≠ .begin
            · rw [if_pos h2]; exact hdrop
            · rw [if_neg h2]
              cases at? ((name, frag) :: rest) frag.segEnd with
              | none => exact ⟨by simp, by simp⟩
              | some e =>
                dsimp only
                by_cases h3 : e.fra = .end
                · rw [if_pos h3]; exact hdel
                · rw [if_neg h3]
                  by_cases h4 : e.sn < c
                  · rw [if_pos h4]; exact hdrop
                  · rw [if_neg h4]; exact stop
    · rw [if_neg hgo]; exact stop

theorem tryHint_all (f : RFlow) (hint : Option Nat) (rc : Nat → React) :
    f.tryHint hint rc ≠ .error .fuel ∧ ∀ f' ev, f.tryHint hint rc = .ok (f', ev) → Frame f f' ∧ Life f ev f' := by
  have stop : (Except.ok (f, []) : Except RErr (RFlow × List REv)) ≠ .error .fuel ∧
      ∀ f' ev, (Except.ok (f, []) : Except RErr (RFlow × List REv)) = .ok (f', ev) → Frame f f' ∧ Life f ev f' := by
    refine ⟨by simp, ?_⟩
    intro f' ev h
    cases h
    exact ⟨.refl f, .nil rfl⟩
  cases hint with
  | none => exact stop
  | some n =>
    rw [tryHint]
    by_cases h : f.order = .network ∧ f.isOpen = true
    · rw [if_pos h]
      have := deliverMessage_all f (isOpen_base h.2) n rc
      exact ⟨this.1, fun f' ev h => ⟨(this.2 f' ev h).1, (this.2 f' ev h).2.1⟩⟩
    · rw [if_neg h]; exact stop

/-- the delivery attempt for any input; in particular the loop ends -/
theorem tryDelivery_no_fuel (f : RFlow) (hint : Option Nat) (rc : Nat → React) :
    f.tryDelivery hint rc ≠ .error .fuel ∧ ∀ f' ev, f.tryDelivery hint rc = .ok (f', ev) → Frame f f' ∧ Life f ev f' := by
  rw [tryDelivery]
  have h1 := tryHint_all f hint rc
  cases ht : f.tryHint hint rc with
  | error e => rw [ht] at h1; exact ⟨h1.1, by intro f' ev h; cases h⟩
  | ok r =>
    obtain ⟨f1, ev1⟩ := r
    have a1 := h1.2 f1 ev1 ht
    dsimp only
    have h2 := deliverLoop_all f1.csn rc (f1.buf.length + 1) f1 (by omega)
    cases hl : deliverLoop f1.csn rc (f1.buf.length + 1) f1 with
    | error e => rw [hl] at h2; exact ⟨h2.1, by intro f' ev h; cases h⟩
    | ok r2 =>
      obtain ⟨f2, ev2⟩ := r2
      have a2 := h2.2 f2 ev2 hl
      dsimp only
      refine ⟨by simp, ?_⟩
      intro f' ev h
      split at h
      · cases h
        exact ⟨(a1.1.trans a2.1).trans (frame_closeAndNotify f2 false), (a1.2.trans a2.2).trans (life_closeAndNotify f2 false)⟩
      · cases h
        rw [List.append_nil]
        exact ⟨a1.1.trans a2.1, a1.2.trans a2.2⟩

theorem fixStart_err (b : List (Nat × RFrag)) (nm s t : Nat) (fra : Fra) : fixStart b nm s t fra ≠ .error .fuel := by
  rw [fixStart]
  split
  · split <;> simp
  · simp

theorem fixEnd_err (b : List (Nat × RFrag)) (nm s t : Nat) (fra : Fra) : fixEnd b nm s t fra ≠ .error .fuel := by
  rw [fixEnd]
  split
  · split <;> simp
  · simp

theorem insertIf_err (b : List (Nat × RFrag)) (x : Bool) (nm sn : Nat) (flags : UInt8) (d : Bytes) : insertIf b x nm sn flags d ≠ .error .fuel := by
  rw [insertIf]
  split
  · simp only [insertFragment]
    split
    · simp
    · split
      · next e he =>
        intro h
        cases h
        exact fixStart_err _ _ _ _ _ he
      · split
        · next e he =>
          intro h
          cases h
          exact fixEnd_err _ _ _ _ _ he
        · simp
  · simp

/-- a data chunk for any input -/
theorem onData_all (f : RFlow) (flags : UInt8) (sn fsn : Nat) (data : Bytes) (nm : Nat) (rc : Nat → React) :
    f.onData flags sn fsn data nm rc ≠ .error .fuel ∧ ∀ f' ev, f.onData flags sn fsn data nm rc = .ok (f', ev) →
      f'.seqs = (f.arrival flags sn fsn).seqs ∧ f'.forwardSn = (f.arrival flags sn fsn).forwardSn ∧ Life f ev f' := by
  rw [onData]
  dsimp only
  obtain ⟨a, ha⟩ : ∃ a, a = f.arrival flags sn fsn := ⟨_, rfl⟩
  rw [← ha]
  have habo : a.baseOpen = f.baseOpen := by rw [ha]; rfl
  generalize (!f.seqs.contains sn && !decide (flags &&& USERDATA_FLAG_ABN ≠ 0) && decide (a.state = .opened)) = b
  have hi := insertIf_err a.buf b nm sn flags data
  cases hins : insertIf a.buf b nm sn flags data with
  | error e => rw [hins] at hi; exact ⟨by simpa using hi, by intro f' ev h; cases h⟩
  | ok r =>
    obtain ⟨buf, hint⟩ := r
    dsimp only
    obtain ⟨g, hg⟩ : ∃ g, g = ({ a with buf := buf } : RFlow).enterLinger := ⟨_, rfl⟩
    rw [← hg]
    have ht := tryDelivery_no_fuel g hint rc
    have g1 : g.seqs = a.seqs := by rw [hg]; rfl
    have g2 : g.forwardSn = a.forwardSn := by rw [hg]; rfl
    have g3 : g.baseOpen = f.baseOpen := by rw [hg]; exact habo
    cases htd : g.tryDelivery hint rc with
    | error e => rw [htd] at ht; exact ⟨by simpa using ht.1, by intro f' ev h; cases h⟩
    | ok r2 =>
      obtain ⟨h', ev1⟩ := r2
      have a1 := ht.2 h' ev1 htd
      dsimp only
      refine ⟨by simp, ?_⟩
      intro f' ev h
      cases h
      refine ⟨a1.1.seqs.trans g1, a1.1.forwardSn.trans g2, ?_⟩
      have l1 : Life f ev1 h' := ⟨a1.2.after, a1.2.shut, fun hc => a1.2.closed (g3.trans hc)⟩
      rw [List.append_assoc]
      refine l1.trans (.plain rfl ?_)
      intro x hx
      rcases List.mem_append.mp hx with hx | hx
      · split at hx
        · rw [List.mem_singleton] at hx; subst hx; rfl
        · cases hx
      · simp only [scheduleAck, List.mem_singleton] at hx
        subst hx; rfl

/-- numbers in a chunk are 64-bit -/
def Op64 (_ : RFlow) : Op → Prop
  | .data _ sn fsn _ _ _ => sn < W64 ∧ fsn < W64
  | _ => True

/-- the largest forward sequence number in a history -/
def maxFsn (h : List DataChunk) : Nat := h.foldl (fun m c => max m c.fsn) 0

theorem step_all (f : RFlow) (op : Op) :
    f.step op ≠ .error .fuel ∧ ∀ f' ev, f.step op = .ok (f', ev) → Life f ev f' ∧
      match op with
      | .data flags sn fsn _ _ _ => f'.seqs = (f.arrival flags sn fsn).seqs ∧ f'.forwardSn = (f.arrival flags sn fsn).forwardSn
      | _ => f'.seqs = f.seqs ∧ f'.forwardSn = f.forwardSn := by
  have plain : ∀ (g : RFlow) (e : List REv), g.baseOpen = f.baseOpen → g.seqs = f.seqs → g.forwardSn = f.forwardSn → (∀ a ∈ e, REv.isTold a = false) →
      (Except.ok (g, e) : Except RErr (RFlow × List REv)) ≠ .error .fuel ∧
      ∀ f' ev, (Except.ok (g, e) : Except RErr (RFlow × List REv)) = .ok (f', ev) → Life f ev f' ∧ f'.seqs = f.seqs ∧ f'.forwardSn = f.forwardSn := by
    intro g e h1 h2 h3 h4
    refine ⟨by simp, ?_⟩
    intro f' ev h
    cases h
    exact ⟨.plain h1 h4, h2, h3⟩
  have ack : ∀ a ∈ [REv.scheduleAck true], REv.isTold a = false := by intro a ha; rw [List.mem_singleton] at ha; subst ha; rfl
  cases op with
  | accept => exact plain _ [] rfl rfl rfl (by intro a ha; cases ha)
  | setOrder o => exact plain _ [] rfl rfl rfl (by intro a ha; cases ha)
  | setOnMessage b => exact plain _ [] rfl rfl rfl (by intro a ha; cases ha)
  | setOnComplete b => exact plain _ [] rfl rfl rfl (by intro a ha; cases ha)
  | setOnMerge b => exact plain _ [] rfl rfl rfl (by intro a ha; cases ha)
  | setCapacity n => exact plain _ _ rfl rfl rfl ack
  | setWindowLimit n => exact plain _ _ rfl rfl rfl ack
  | probe => exact plain _ _ rfl rfl rfl ack
  | ackSent => exact plain _ [] rfl rfl rfl (by intro a ha; cases ha)
  | lingerAlarm =>
    refine plain f.lingerAlarm [] ?_ ?_ ?_ (by intro a ha; cases ha) <;> (rw [lingerAlarm]; split <;> rfl)
  | close r =>
    refine ⟨by simp [step], ?_⟩
    intro f' ev h
    cases h
    have h1 := life_close { f with exceptionCode := r }
    have h2 := frame_close { f with exceptionCode := r }
    exact ⟨⟨h1.after, h1.shut, h1.closed⟩, h2.seqs, h2.forwardSn⟩
  | reject =>
    refine ⟨by simp [step], ?_⟩
    intro f' ev h
    cases h
    exact ⟨life_closeAndNotify f true, (frame_closeAndNotify f true).seqs, (frame_closeAndNotify f true).forwardSn⟩
  | abort =>
    refine ⟨by simp [step], ?_⟩
    intro f' ev h
    cases h
    exact ⟨life_abort f, (frame_abort f).seqs, (frame_abort f).forwardSn⟩
  | deferredTry rc =>
    have := tryDelivery_no_fuel f none rc
    refine ⟨this.1, fun f' ev h => ?_⟩
    have h2 := this.2 f' ev h
    exact ⟨h2.2, h2.1.seqs, h2.1.forwardSn⟩
  | data flags sn fsn d nm rc =>
    have := onData_all f flags sn fsn d nm rc
    refine ⟨this.1, fun f' ev h => ?_⟩
    have h2 := this.2 f' ev h
    exact ⟨h2.2.2, h2.1, h2.2.1⟩

theorem exec_life {ok : RFlow → Op → Prop} {f0 : RFlow} {ops : List Op} {f : RFlow} {ev : List REv} (h : Exec ok f0 ops f ev) : Life f0 ev f := by
  induction h with
  | nil => exact .nil rfl
  | snoc _ _ hs ih => exact ih.trans ((step_all _ _).2 _ _ hs).1

theorem exec_seqs {ops : List Op} {f : RFlow} {ev : List REv} (h : Exec Op64 RFlow.init ops f ev) :
    Canon f.seqs ∧ (f.seqs = [] ∨ Mem f.seqs 0) ∧ (∀ k, Mem f.seqs k ↔ Covered (chunksOf ops) k) ∧ f.forwardSn = maxFsn (chunksOf ops) := by
  induction h with
  | nil =>
    refine ⟨trivial, .inl rfl, fun k => ?_, rfl⟩
    constructor
    · rintro ⟨x, hx, _⟩; cases hx
    · rintro ⟨x, hx, _⟩; cases hx
  | @snoc ops f ev op f' ev' _ hop hs ih =>
    obtain ⟨i1, i2, i3, i4⟩ := ih
    have h := ((step_all _ _).2 _ _ hs).2
    rw [chunksOf_append]
    have other : f'.seqs = f.seqs → f'.forwardSn = f.forwardSn → chunksOf [op] = [] →
        Canon f'.seqs ∧ (f'.seqs = [] ∨ Mem f'.seqs 0) ∧ (∀ k, Mem f'.seqs k ↔ Covered (chunksOf ops ++ chunksOf [op]) k) ∧ f'.forwardSn = maxFsn (chunksOf ops ++ chunksOf [op]) := by
      intro h1 h2 h3
      rw [h1, h2, h3, List.append_nil]
      exact ⟨i1, i2, i3, i4⟩
    cases op with
    | data flags sn fsn d nm rc =>
      have hop : sn < W64 ∧ fsn < W64 := hop
      obtain ⟨h1, h2⟩ := h
      obtain ⟨m1, c1⟩ := IndexSet.add_mem f.seqs 0 fsn hop.2 i1
      obtain ⟨m2, c2⟩ := IndexSet.add_mem (IndexSet.add f.seqs 0 fsn) sn sn hop.1 c1
      have hseq : f'.seqs = IndexSet.add (IndexSet.add f.seqs 0 fsn) sn sn := h1
      rw [show chunksOf [Op.data flags sn fsn d nm rc] = [⟨flags, sn, fsn⟩] from rfl, hseq]
      refine ⟨c2, .inr ((m2 0).2 (.inl ((m1 0).2 (.inr ⟨by omega, by omega⟩)))), fun k => ?_, ?_⟩
      · rw [m2, m1, i3, covered_snoc]
        constructor
        · rintro ((h | h) | h)
          · exact .inr (.inr h)
          · exact .inl h.2
          · exact .inr (.inl (by show k = sn; omega))
        · rintro (h | h | h)
          · exact .inl (.inr ⟨by omega, h⟩)
          · have h : k = sn := h
            exact .inr (by omega)
          · exact .inl (.inl h)
      · rw [h2, maxFsn, List.foldl_append]
        show _ = max (maxFsn (chunksOf ops)) fsn
        rw [← i4]
        simp only [arrival]
        split <;> omega
    | accept => exact other h.1 h.2 rfl
    | setOrder o => exact other h.1 h.2 rfl
    | setCapacity n => exact other h.1 h.2 rfl
    | setWindowLimit n => exact other h.1 h.2 rfl
    | close r => exact other h.1 h.2 rfl
    | setOnMessage b => exact other h.1 h.2 rfl
    | setOnComplete b => exact other h.1 h.2 rfl
    | setOnMerge b => exact other h.1 h.2 rfl
    | deferredTry rc => exact other h.1 h.2 rfl
    | probe => exact other h.1 h.2 rfl
    | ackSent => exact other h.1 h.2 rfl
    | reject => exact other h.1 h.2 rfl
    | abort => exact other h.1 h.2 rfl
    | lingerAlarm => exact other h.1 h.2 rfl

end RFlow
end Rtmfp
