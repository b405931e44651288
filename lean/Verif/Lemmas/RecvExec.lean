import Verif.Lemmas.RecvExact

/-! # Executions of a receive flow whose user leaves it open -/

namespace Rtmfp
namespace RFlow
open Spec (Msg DataChunk Covered InTime FinalIs)
open IndexSet (Mem Canon)

theorem covered_snoc (h : List DataChunk) (c : DataChunk) (k : Nat) : Covered (h ++ [c]) k ↔ k ≤ c.fsn ∨ k = c.sn ∨ Covered h k := by
  constructor
  · rintro ⟨x, hx, hk⟩
    rcases List.mem_append.mp hx with hx | hx
    · exact .inr (.inr ⟨x, hx, hk⟩)
    · rw [List.mem_singleton] at hx
      subst hx
      rcases hk with hk | hk
      · exact .inr (.inl hk.symm)
      · exact .inl hk
  · rintro (hk | hk | ⟨x, hx, hk⟩)
    · exact ⟨c, by simp, .inr hk⟩
    · exact ⟨c, by simp, .inl hk.symm⟩
    · exact ⟨x, by simp [hx], hk⟩

/-- splitting a list that ends with `c` -/
theorem snoc_split {α} {h pre post : List α} {c x : α} (e : h ++ [c] = pre ++ x :: post) :
    (pre = h ∧ x = c ∧ post = []) ∨ ∃ p, post = p ++ [c] ∧ h = pre ++ x :: p := by
  rcases List.eq_nil_or_concat post with rfl | ⟨p, y, rfl⟩
  · have := List.append_inj' e rfl
    exact .inl ⟨this.1.symm, by injection this.2 with a; exact a.symm, rfl⟩
  · right
    rw [List.concat_eq_append, ← List.cons_append, ← List.append_assoc] at e
    have := List.append_inj' e rfl
    refine ⟨p, ?_, this.1⟩
    injection this.2 with a
    rw [List.concat_eq_append, a]

theorem inTime_snoc (h : List DataChunk) (c : DataChunk) (k : Nat) :
    InTime (h ++ [c]) k ↔ InTime h k ∨ (k = c.sn ∧ c.flags &&& USERDATA_FLAG_ABN = 0 ∧ ¬ Covered h k) := by
  constructor
  · rintro ⟨pre, x, post, e, h1, h2, h3⟩
    rcases snoc_split e with ⟨rfl, rfl, rfl⟩ | ⟨p, rfl, e'⟩
    · exact .inr ⟨h1.symm, h2, h3⟩
    · exact .inl ⟨pre, x, p, e', h1, h2, h3⟩
  · rintro (⟨pre, x, post, e, h1, h2, h3⟩ | ⟨h1, h2, h3⟩)
    · exact ⟨pre, x, post ++ [c], by rw [e]; simp, h1, h2, h3⟩
    · exact ⟨h, c, [], rfl, h1.symm, h2, h3⟩

theorem inTime_covered {h : List DataChunk} {k : Nat} (hi : InTime h k) : Covered h k := by
  obtain ⟨pre, c, post, e, h1, _⟩ := hi
  exact ⟨c, by rw [e]; simp, .inl h1⟩

theorem FinalIs.unique {h : List DataChunk} {k k' : Nat} (a : FinalIs h k) (b : FinalIs h k') : k = k' := by
  obtain ⟨pre, c, post, e, h1, h2, h3, h4⟩ := a
  obtain ⟨pre', c', post', e', h1', h2', h3', h4'⟩ := b
  rw [e] at e'
  rcases List.append_eq_append_iff.mp e' with ⟨as, e1, e2⟩ | ⟨as, e1, e2⟩
  · cases as with
    | nil =>
      simp only [List.nil_append, List.cons.injEq] at e2
      rw [← h1, ← h1', e2.1]
    | cons y as =>
      simp only [List.cons_append, List.cons.injEq] at e2
      rw [← e2.1] at e1
      have := h4' pre c as e1 h2
      rw [h1] at this
      exact absurd this h3
  · cases as with
    | nil =>
      simp only [List.nil_append, List.cons.injEq] at e2
      rw [← h1, ← h1', e2.1]
    | cons y as =>
      simp only [List.cons_append, List.cons.injEq] at e2
      rw [← e2.1] at e1
      have := h4 pre' c' as e1 h2'
      rw [h1'] at this
      exact absurd this h3'

theorem finalIs_snoc (h : List DataChunk) (c : DataChunk) (k : Nat) :
    FinalIs (h ++ [c]) k ↔ FinalIs h k ∨ ((¬ ∃ j, FinalIs h j) ∧ k = c.sn ∧ c.flags &&& USERDATA_FLAG_FIN ≠ 0 ∧ ¬ Covered h k) := by
  constructor
  · rintro ⟨pre, x, post, e, h1, h2, h3, h4⟩
    rcases snoc_split e with ⟨rfl, rfl, rfl⟩ | ⟨p, rfl, e'⟩
    · refine .inr ⟨?_, h1.symm, h2, h3⟩
      rintro ⟨j, pre', c', post', e', g1, g2, g3, g4⟩
      have := h4 pre' c' post' e' g2
      rw [g1] at this
      exact g3 this
    · exact .inl ⟨pre, x, p, e', h1, h2, h3, h4⟩
  · rintro (⟨pre, x, post, e, h1, h2, h3, h4⟩ | ⟨h0, h1, h2, h3⟩)
    · exact ⟨pre, x, post ++ [c], by rw [e]; simp, h1, h2, h3, h4⟩
    · refine ⟨h, c, [], rfl, h1.symm, h2, h3, ?_⟩
      have key : ∀ n (h : List DataChunk), h.length = n → (¬ ∃ j, FinalIs h j) → ∀ pre' c' post', h = pre' ++ c' :: post' → c'.flags &&& USERDATA_FLAG_FIN ≠ 0 → Covered pre' c'.sn := by
        intro n
        induction n using Nat.strongRecOn with
        | ind n ih =>
          intro h hl h0 pre' c' post' e hf
          refine Classical.byContradiction (fun hc => h0 ⟨c'.sn, pre', c', post', e, rfl, hf, hc, ?_⟩)
          have hlt : pre'.length < n := by rw [← hl, e]; simp
          refine ih _ hlt pre' rfl ?_
          rintro ⟨j, p, x, q, e', r⟩
          exact h0 ⟨j, p, x, q ++ c' :: post', by rw [e, e']; simp, r⟩
      exact key _ h rfl h0

/-- the chunks among the calls -/
def chunksOf (ops : List Op) : List DataChunk := ops.filterMap (fun o => match o with | .data flags sn fsn _ _ _ => some ⟨flags, sn, fsn⟩ | _ => none)

theorem chunksOf_append (a b : List Op) : chunksOf (a ++ b) = chunksOf a ++ chunksOf b := List.filterMap_append

/-- A flow the user has accepted, with callbacks set, in the given order of reception. -/
def started (o : Order) : RFlow := { RFlow.init with accepted := true, onMessage := true, onComplete := true, order := o }

/-- Calls on a flow that the user leaves alone: chunks with fragments of the stream, in which the final mark is not on a number before the
end of the stream; the user does nothing in callbacks; and the things the session does by itself. -/
def OkQuiet (st : St) (N : Nat) (f : RFlow) : Op → Prop
  | .data flags sn fsn data nm rc => OkData st f flags sn fsn data nm ∧ rc = quiet ∧ (flags &&& USERDATA_FLAG_FIN ≠ 0 → N ≤ sn)
  | .deferredTry rc => rc = quiet
  | .probe => True
  | .ackSent => True
  | .setCapacity _ => True
  | .setWindowLimit _ => True
  | .setOnMerge _ => True
  | .lingerAlarm => f.state = .completeLinger
  | _ => False

/-- the invariant -/
structure E (st : St) (N : Nat) (o : Order) (h : List DataChunk) (f : RFlow) (ev : List REv) : Prop where
  inv : Inv st (InTime h) f (msgsOf ev)
  mem : ∀ k, Mem f.seqs k ↔ Covered h k
  cover : Cover st (InTime h) f.seqs f.buf (msgsOf ev)
  order : f.order = o
  rest : Rest st f.csn f.buf
  ordered : o = .sequence → Ordered f.csn f.buf (msgsOf ev)
  noMsg : o = .network → NoMsg st f.buf
  fin : ∀ k, FinalIs h k ↔ f.finalSeen = true ∧ f.finalSn = k
  finN : f.finalSeen = true → N ≤ f.finalSn
  phase : (f.isOpen = true ∧ f.onMessage = true ∧ f.onComplete = true ∧ (f.state = .opened ∨ N ≤ f.csn) ∧ completesOf ev = [] ∧
      ¬ (f.finalSeen = true ∧ f.finalSn ≤ f.csn)) ∨
    (f.baseOpen = false ∧ f.buf = [] ∧ N ≤ f.csn ∧ completesOf ev = [false] ∧ f.finalSeen = true ∧ f.finalSn ≤ f.csn)

theorem Keep.of_eq {f g : RFlow} (h : Keep f g) : g.isOpen = f.isOpen := h.isOpen

/-- calls that touch nothing the invariant mentions -/
theorem E.same {st : St} {N : Nat} {o : Order} {h : List DataChunk} {f f' : RFlow} {ev ev' : List REv} (e : E st N o h f ev)
    (hb : f'.buf = f.buf) (hs : f'.seqs = f.seqs) (ho : f'.order = f.order) (hfs : f'.finalSeen = f.finalSeen) (hfn : f'.finalSn = f.finalSn)
    (hop : f'.baseOpen = f.baseOpen) (hac : f'.accepted = f.accepted) (hm : f'.onMessage = f.onMessage) (hc : f'.onComplete = f.onComplete)
    (hst : f'.state = f.state ∨ N ≤ f.csn) (h1 : msgsOf ev' = []) (h2 : completesOf ev' = []) : E st N o h f' (ev ++ ev') := by
  have hcsn : f'.csn = f.csn := by rw [csn, csn, hs]
  have hm' : msgsOf (ev ++ ev') = msgsOf ev := by rw [msgsOf_append, h1, List.append_nil]
  have hc' : completesOf (ev ++ ev') = completesOf ev := by rw [completesOf_append, h2, List.append_nil]
  refine ⟨?_, ?_, ?_, ho.trans e.order, ?_, ?_, ?_, ?_, ?_, ?_⟩
  · rw [hm']; exact e.inv.same hb hs
  · rw [hs]; exact e.mem
  · rw [hm', hb, hs]; exact e.cover
  · rw [hcsn, hb]; exact e.rest
  · rw [hcsn, hb, hm']; exact e.ordered
  · rw [hb]; exact e.noMsg
  · rw [hfs, hfn]; exact e.fin
  · rw [hfs, hfn]; exact e.finN
  · rw [hcsn, hb, hc', hfs, hfn, hm, hc, hop, show f'.isOpen = f.isOpen by rw [isOpen, isOpen, hop, hac]]
    rcases e.phase with ⟨a, b, c, d, r⟩ | r
    · refine .inl ⟨a, b, c, ?_, r⟩
      rcases hst with hst | hst
      · rw [hst]; exact d
      · exact .inr hst
    · exact .inr r

/-- delivery attempts on a closed flow do nothing -/
theorem try_closed (f : RFlow) (hint : Option Nat) (hop : f.baseOpen = false) (hb : f.buf = []) (rc : Nat → React) :
    ∃ f' ev, f.tryDelivery hint rc = .ok (f', ev) ∧ f'.buf = [] ∧ Frame f f' ∧ f'.order = f.order ∧ f'.baseOpen = false ∧ msgsOf ev = [] ∧ completesOf ev = [] := by
  have hno : f.isOpen = false := by rw [isOpen, hop]; rfl
  have h1 : f.tryHint hint rc = .ok (f, []) := by
    cases hint with
    | none => rfl
    | some n => rw [tryHint, if_neg (by rw [hno]; simp)]
  have h2 : deliverLoop f.csn rc (f.buf.length + 1) f = .ok (f, []) := by
    rw [deliverLoop, if_neg (by rw [hno]; simp)]
  rw [tryDelivery, h1]
  dsimp only
  rw [h2]
  dsimp only
  by_cases hf : f.finalSeen = true ∧ f.finalSn ≤ f.csn ∧ f.buf = []
  · rw [if_pos hf]
    refine ⟨_, _, rfl, rfl, frame_closeAndNotify f false, ?_, rfl, ?_, ?_⟩
    · simp only [closeAndNotify, close]; split <;> rfl
    · simp only [List.nil_append]; exact msgsOf_closeAndNotify f false
    · simp only [closeAndNotify, hno, List.nil_append]
      rw [completesOf_append]
      simp only [close]
      split <;> rfl
  · rw [if_neg hf]
    exact ⟨_, _, rfl, hb, .refl _, rfl, hop, rfl, rfl⟩

theorem arrival_fin {f : RFlow} {h : List DataChunk} (c : DataChunk) (hmem : ∀ k, Mem f.seqs k ↔ Covered h k)
    (hfin : ∀ k, FinalIs h k ↔ f.finalSeen = true ∧ f.finalSn = k) (k : Nat) :
    FinalIs (h ++ [c]) k ↔ (f.arrival c.flags c.sn c.fsn).finalSeen = true ∧ (f.arrival c.flags c.sn c.fsn).finalSn = k := by
  rw [finalIs_snoc]
  have hne : (∃ j, FinalIs h j) ↔ f.finalSeen = true := by
    constructor
    · rintro ⟨j, hj⟩; exact ((hfin j).1 hj).1
    · intro hs; exact ⟨_, (hfin _).2 ⟨hs, rfl⟩⟩
  rw [hne, hfin]
  simp only [arrival]
  by_cases hs : f.finalSeen = true
  · rw [hs]
    simp
  · have hs' : f.finalSeen = false := by simpa using hs
    rw [hs']
    simp only [Bool.false_eq_true, false_and, false_or, not_false_eq_true, true_and, Bool.not_false, Bool.and_true, Bool.and_eq_true,
      Bool.false_or, Bool.not_eq_true', decide_eq_true_eq]
    have hcont : f.seqs.contains c.sn = false ↔ ¬ Covered h c.sn := by
      rw [← Bool.not_eq_true, IndexSet.contains_iff, hmem]
    constructor
    · rintro ⟨rfl, h2, h3⟩
      exact ⟨⟨hcont.2 h3, h2⟩, by rw [if_pos ⟨hcont.2 h3, h2⟩]⟩
    · rintro ⟨h1, h2⟩
      rw [if_pos h1] at h2
      subst h2
      exact ⟨rfl, h1.2, hcont.1 h1.1⟩

theorem one_range {f : RFlow} (hl : f.seqs.length = 1) (h0 : Mem f.seqs 0) {k : Nat} (hk : Mem f.seqs k) : k ≤ f.csn := by
  rw [csn]
  cases hs : f.seqs with
  | nil => rw [hs] at hl; simp at hl
  | cons r rest =>
    rw [hs] at hl hk
    have : rest = [] := by simpa using hl
    subst this
    obtain ⟨q, hq, h1, h2⟩ := hk
    simp only [List.mem_singleton] at hq
    subst hq
    exact h2

theorem E.step {st : St} (w : WFst st) {N : Nat} (hN : ∀ k x, st k = some x → k ≤ N) {o : Order} (hho : o ≠ .hold) {h : List DataChunk} {f : RFlow} {ev : List REv}
    (e : E st N o h f ev) {op : Op} (ho : OkQuiet st N f op) :
    ∃ f' ev', f.step op = .ok (f', ev') ∧ E st N o (h ++ chunksOf [op]) f' (ev ++ ev') := by
  have noChunk : ∀ h : List DataChunk, h ++ [] = h := List.append_nil
  cases op with
  | accept => exact ho.elim
  | setOrder o => exact ho.elim
  | setOnMessage b => exact ho.elim
  | setOnComplete b => exact ho.elim
  | close r => exact ho.elim
  | reject => exact ho.elim
  | abort => exact ho.elim
  | setCapacity n => exact ⟨_, _, rfl, by rw [show chunksOf [Op.setCapacity n] = [] from rfl, noChunk]; exact e.same rfl rfl rfl rfl rfl rfl rfl rfl rfl (.inl rfl) rfl rfl⟩
  | setWindowLimit n => exact ⟨_, _, rfl, by rw [show chunksOf [Op.setWindowLimit n] = [] from rfl, noChunk]; exact e.same rfl rfl rfl rfl rfl rfl rfl rfl rfl (.inl rfl) rfl rfl⟩
  | setOnMerge n => exact ⟨_, _, rfl, by rw [show chunksOf [Op.setOnMerge n] = [] from rfl, noChunk]; exact e.same rfl rfl rfl rfl rfl rfl rfl rfl rfl (.inl rfl) rfl rfl⟩
  | probe => exact ⟨_, _, rfl, by rw [show chunksOf [Op.probe] = [] from rfl, noChunk]; exact e.same rfl rfl rfl rfl rfl rfl rfl rfl rfl (.inl rfl) rfl rfl⟩
  | ackSent => exact ⟨_, _, rfl, by rw [show chunksOf [Op.ackSent] = [] from rfl, noChunk]; exact e.same rfl rfl rfl rfl rfl rfl rfl rfl rfl (.inl rfl) rfl rfl⟩
  | lingerAlarm =>
    have ho : f.state = .completeLinger := ho
    have hst : f.lingerAlarm = { f with state := .closed } := by rw [lingerAlarm, if_pos (by rw [ho]; decide)]
    refine ⟨_, _, rfl, ?_⟩
    rw [show chunksOf [Op.lingerAlarm] = [] from rfl, noChunk, hst]
    refine e.same rfl rfl rfl rfl rfl rfl rfl rfl rfl ?_ rfl rfl
    right
    rcases e.phase with ⟨_, _, _, d | d, _⟩ | ⟨_, _, d, _⟩
    · rw [ho] at d; cases d
    · exact d
    · exact d
  | deferredTry rc =>
    have hrc : rc = quiet := ho
    subst hrc
    rw [show chunksOf [Op.deferredTry quiet] = [] from rfl, noChunk]
    rcases e.phase with ⟨p1, p2, p3, p4, p5, p6⟩ | ⟨p1, p2, p3, p4, p5, p6⟩
    · obtain ⟨f', ev', a1, a2, a3, a4, a5, a6, a7, a8, a9⟩ := exact_try w hN e.inv e.cover p2 p3 p1 (by rw [e.order]; exact hho) (hint := none)
        (fun n hn => by cases hn) (by rw [e.order]; exact e.ordered)
        (by rw [e.order]; exact fun hnet lo hi hm hall => absurd hall (e.noMsg hnet lo hi hm)) e.finN
      refine ⟨f', ev', a1, ?_⟩
      rcases a9 with ⟨b1, b2, _⟩ | ⟨_, b2, b3⟩
      · exact absurd ⟨b1, b2⟩ p6
      · have hcsn := a7.csn
        refine ⟨by rw [msgsOf_append]; exact a2, by rw [a7.seqs]; exact e.mem, by rw [msgsOf_append, a7.seqs]; exact a3, a8.trans e.order,
          by rw [hcsn]; exact a4, by rw [hcsn, msgsOf_append, ← e.order]; exact a5, by rw [← e.order]; exact a6,
          by rw [a7.finalSeen, a7.finalSn]; exact e.fin, by rw [a7.finalSeen, a7.finalSn]; exact e.finN, ?_⟩
        left
        rw [b2.isOpen, b2.onMessage, b2.onComplete, b2.state, hcsn, completesOf_append, b3, List.append_nil, a7.finalSeen, a7.finalSn]
        exact ⟨p1, p2, p3, p4, p5, p6⟩
    · obtain ⟨f', ev', a1, a2, a3, a4, a5, a6, a7⟩ := try_closed f none p1 p2 quiet
      refine ⟨f', ev', a1, ?_⟩
      have hm' : msgsOf (ev ++ ev') = msgsOf ev := by rw [msgsOf_append, a6, List.append_nil]
      have hc' : completesOf (ev ++ ev') = completesOf ev := by rw [completesOf_append, a7, List.append_nil]
      have hcsn := a3.csn
      have hbb : f'.buf = f.buf := by rw [a2, p2]
      refine ⟨by rw [hm']; exact e.inv.same hbb a3.seqs, by rw [a3.seqs]; exact e.mem, by rw [hm', hbb, a3.seqs]; exact e.cover, a4.trans e.order,
        by rw [hbb, hcsn]; exact e.rest, by rw [hbb, hcsn, hm']; exact e.ordered, by rw [hbb]; exact e.noMsg, by rw [a3.finalSeen, a3.finalSn]; exact e.fin,
        by rw [a3.finalSeen, a3.finalSn]; exact e.finN, .inr ⟨a5, a2, by rw [hcsn]; exact p3, by rw [hc']; exact p4, by rw [a3.finalSeen]; exact p5,
          by rw [a3.finalSn, hcsn]; exact p6⟩⟩
  | data flags sn fsn data nm rc =>
    obtain ⟨hod, hrc, hfinN⟩ := ho
    subst hrc
    rw [show chunksOf [Op.data flags sn fsn data nm quiet] = [⟨flags, sn, fsn⟩] from rfl]
    obtain ⟨g, hint, f3, ev1, ev2, hp, t1, t2, t3, t4⟩ := data_ok (rc := quiet) w f flags sn fsn data nm e.inv.ok e.inv.run e.inv.canon
      (fun k hk => e.inv.insSeq k (e.inv.g.bufIns k hk)) hod.1 hod.2.1 hod.2.2.2 hod.2.2.1
    have hmem' : ∀ k, Mem g.seqs k ↔ Covered (h ++ [⟨flags, sn, fsn⟩]) k := by
      intro k
      rw [hp.mem, covered_snoc, e.mem]
    have hg0 : Mem g.seqs 0 := (hp.mem 0).2 (.inl (by omega))
    have hle : f.csn ≤ g.csn := by
      rw [csn_iff hp.canon (.inr hg0)]
      intro j a b
      rw [hp.mem]
      exact .inr (.inr ((csn_iff e.inv.canon e.inv.zero f.csn).1 (Nat.le_refl _) j a b))
    -- a fresh fragment arrives in an open flow
    have hst : ∀ k, N ≤ f.csn → st k ≠ none → Covered h k := by
      intro k hk hs
      cases hx : st k with
      | none => exact absurd hx hs
      | some x =>
        have h1 := hN k x hx
        have h2 : 1 ≤ k := by
          rcases Nat.eq_zero_or_pos k with z | z
          · rw [z, w.zero] at hx; cases hx
          · exact z
        exact (e.mem k).1 ((csn_iff e.inv.canon e.inv.zero f.csn).1 (Nat.le_refl _) k h2 (by omega))
    have hfresh : flags &&& USERDATA_FLAG_ABN = 0 → ¬ Covered h sn → f.state = .opened ∧ f.baseOpen = true := by
      intro h1 h2
      have hs := hod.2.2.2 h1
      have hlt : ¬ N ≤ f.csn := fun hh => h2 (hst sn hh (by rw [hs]; simp))
      rcases e.phase with ⟨p1, _, _, p4, _⟩ | ⟨_, _, p3, _⟩
      · refine ⟨p4.resolve_right hlt, ?_⟩
        rw [isOpen, Bool.and_eq_true] at p1
        exact p1.1
      · exact absurd p3 hlt
    have hinv : Inv st (InTime (h ++ [⟨flags, sn, fsn⟩])) g (msgsOf ev) := by
      refine e.inv.pre hp (fun k hk => (inTime_snoc _ _ _).2 (.inl hk)) ?_ ?_
      · intro h1 h2 _
        exact (inTime_snoc _ _ _).2 (.inr ⟨rfl, h2, by rw [← e.mem]; exact h1⟩)
      · intro k hk
        exact (hmem' k).2 (inTime_covered hk)
    have hcov : Cover st (InTime (h ++ [⟨flags, sn, fsn⟩])) g.seqs g.buf (msgsOf ev) := by
      intro k hk
      rcases (inTime_snoc _ _ _).1 hk with hk | ⟨rfl, h1, h2⟩
      · rcases e.cover k hk with h3 | h3 | ⟨k', a, b, c⟩
        · exact .inl ((hp.buf k).2 (.inr h3))
        · exact .inr (.inl h3)
        · refine .inr (.inr ⟨k', ?_, (hp.mem k').2 (.inr (.inr b)), c⟩)
          intro hi
          rcases (inTime_snoc _ _ _).1 hi with hi | ⟨_, _, hi⟩
          · exact a hi
          · exact hi ((e.mem k').1 b)
      · exact .inl ((hp.buf _).2 (.inl ⟨rfl, by rw [e.mem]; exact h2, h1, (hfresh h1 h2).1⟩))
    have hordg : o = .sequence → Ordered g.csn g.buf (msgsOf ev) := by
      intro hs
      have ord := e.ordered hs
      refine ⟨ord.sorted, fun d hd => Nat.le_trans (ord.le d hd) hle, fun d hd k hk => ?_⟩
      rcases (hp.buf k).1 hk with ⟨rfl, h1, h2, _⟩ | hk
      · have := ord.le d hd
        rcases Nat.lt_or_ge f.csn k with hlt | hge
        · omega
        · exfalso
          apply h1
          refine (csn_iff e.inv.canon e.inv.zero f.csn).1 (Nat.le_refl _) k ?_ hge
          rcases Nat.eq_zero_or_pos k with z | z
          · have := hod.2.2.2 h2
            rw [z, w.zero] at this; cases this
          · exact z
      · exact ord.lt d hd k hk
    have hnmg : o = .network → ∀ lo hi, IsMsg st lo hi → (∀ k, lo ≤ k → k ≤ hi → InBuf g.buf k) → ∃ X ∈ g.buf, hint = some X.1 ∧ X.2.sn = lo := by
      intro hn lo hi hm hall
      have hrun := hm.run w hp.bufOK hall
      have hnot : ∀ lo hi, IsMsg st lo hi → ¬ Run st f.buf lo hi := fun lo hi hm hr => e.noMsg hn lo hi hm hr.con.2.1
      cases hh : hint with
      | none =>
        rcases hp.hintRev lo hi hrun hm with hr | hr
        · exact absurd hr (hnot _ _ hm)
        · exact absurd hh hr
      | some n =>
        obtain ⟨X, hX, hi', hn', hr', hm'⟩ := hp.hintOk n hh
        refine ⟨X, hX, by rw [hn'], ?_⟩
        have c1 := (hp.hintRun lo hi hrun hm).resolve_left (hnot _ _ hm)
        have c2 := (hp.hintRun _ _ hr' hm').resolve_left (hnot _ _ hm')
        exact (hr'.unique hrun c2.1 c2.2 c1.1 c1.2).1
    have hfin' : ∀ k, FinalIs (h ++ [⟨flags, sn, fsn⟩]) k ↔ g.finalSeen = true ∧ g.finalSn = k := by
      intro k
      rw [hp.finalSeen, hp.finalSn]
      exact arrival_fin ⟨flags, sn, fsn⟩ e.mem e.fin k
    have hfinN' : g.finalSeen = true → N ≤ g.finalSn := by
      rw [hp.finalSeen, hp.finalSn]
      simp only [arrival]
      intro hs
      by_cases hc : (!f.seqs.contains sn && decide (flags &&& USERDATA_FLAG_FIN ≠ 0) && !f.finalSeen) = true
      · rw [if_pos hc]
        simp only [Bool.and_eq_true, decide_eq_true_eq] at hc
        exact hfinN hc.1.2
      · rw [if_neg hc]
        rw [Bool.not_eq_true] at hc
        rw [hc, Bool.or_false] at hs
        exact e.finN hs
    have hbo := hp.same
    rcases e.phase with ⟨p1, p2, p3, p4, p5, p6⟩ | ⟨p1, p2, p3, p4, p5, p6⟩
    · have hop : g.isOpen = true := by rw [isOpen, hbo.1, hbo.2.1]; exact p1
      obtain ⟨f', ev', a1, a2, a3, a4, a5, a6, a7, a8, a9⟩ := exact_try w hN hinv hcov (by rw [hbo.2.2.2.1]; exact p2) (by rw [hbo.2.2.2.2.1]; exact p3)
        hop (by rw [hbo.2.2.1, e.order]; exact hho) hp.hintOk (by rw [hbo.2.2.1, e.order]; exact hordg) (by rw [hbo.2.2.1, e.order]; exact hnmg) hfinN'
      rw [t1] at a1
      cases a1
      have hcsn := a7.csn
      have hgo : g.order = o := by rw [hbo.2.2.1, e.order]
      have hm' : msgsOf (ev ++ (ev1 ++ ev2)) = msgsOf ev ++ msgsOf ev1 := by rw [msgsOf_append, msgsOf_append, t3, List.append_nil]
      have hc' : completesOf (ev ++ (ev1 ++ ev2)) = completesOf ev ++ completesOf ev1 := by rw [completesOf_append, completesOf_append, t4, List.append_nil]
      refine ⟨_, _, t2, ?_⟩
      obtain ⟨f4, hf4⟩ : ∃ f4, f4 = { f3 with shouldAck := true } := ⟨_, rfl⟩
      rw [← hf4]
      have s1 : f4.buf = f3.buf := by rw [hf4]
      have s2 : f4.seqs = g.seqs := by rw [hf4]; exact a7.seqs
      have s3 : f4.csn = g.csn := by rw [csn, csn, s2]
      have s4 : f4.finalSeen = g.finalSeen := by rw [hf4]; exact a7.finalSeen
      have s5 : f4.finalSn = g.finalSn := by rw [hf4]; exact a7.finalSn
      refine ⟨by rw [hm']; exact a2.same s1 (s2.trans a7.seqs.symm), by rw [s2]; exact hmem', by rw [hm', s1, s2]; exact a3, by rw [hf4]; exact a8.trans hgo,
        by rw [s3, s1]; exact a4, by rw [s3, s1, hm', ← hgo]; exact a5, by rw [s1, ← hgo]; exact a6, by rw [s4, s5]; exact hfin', by rw [s4, s5]; exact hfinN', ?_⟩
      rw [s1, s3, s4, s5, hc', p5]
      rcases a9 with ⟨b1, b2, b3, b4, b5⟩ | ⟨b1, b2, b3⟩
      · have := hfinN' b1
        exact .inr ⟨by rw [hf4]; exact b3, b4, by omega, by rw [b5]; rfl, b1, b2⟩
      · refine .inl ⟨by rw [hf4]; exact b2.isOpen.trans hop, by rw [hf4]; exact b2.onMessage.trans (hbo.2.2.2.1.trans p2),
          by rw [hf4]; exact b2.onComplete.trans (hbo.2.2.2.2.1.trans p3), ?_, by rw [b3]; rfl, b1⟩
        have : f4.state = g.state := by rw [hf4]; exact b2.state
        rw [this]
        rcases hp.state with hs | ⟨_, _, hs1, hs2⟩
        · rw [hs]
          rcases p4 with p4 | p4
          · exact .inl p4
          · exact .inr (by omega)
        · exfalso
          apply b1
          refine ⟨hs1, one_range hs2 hg0 ?_⟩
          have hfi := (hfin' g.finalSn).2 ⟨hs1, rfl⟩
          rw [hmem']
          obtain ⟨pre, c, post, ee, hcs, _⟩ := hfi
          exact ⟨c, by rw [ee]; simp, .inl hcs⟩
    · have hgb : g.buf = [] := by
        have := hp.noIns (by
          rintro ⟨h1, h2, _⟩
          have := (hfresh h2 (by rw [← e.mem]; exact h1)).2
          rw [p1] at this; cases this)
        rw [this.1, p2]
      obtain ⟨f', ev', a1, a2, a3, a4, a5, a6, a7⟩ := try_closed g hint (by rw [hbo.1]; exact p1) hgb quiet
      rw [t1] at a1
      cases a1
      have hm' : msgsOf (ev ++ (ev1 ++ ev2)) = msgsOf ev := by rw [msgsOf_append, msgsOf_append, t3, a6]; simp
      have hc' : completesOf (ev ++ (ev1 ++ ev2)) = completesOf ev := by rw [completesOf_append, completesOf_append, t4, a7]; simp
      have hgo : g.order = o := by rw [hbo.2.2.1, e.order]
      have hfs : g.finalSeen = true ∧ g.finalSn = f.finalSn := by
        rw [hp.finalSeen, hp.finalSn]
        simp [arrival, p5]
      refine ⟨_, _, t2, ?_⟩
      obtain ⟨f4, hf4⟩ : ∃ f4, f4 = { f3 with shouldAck := true } := ⟨_, rfl⟩
      rw [← hf4]
      have s1 : f4.buf = g.buf := by rw [hf4, hgb]; exact a2
      have s2 : f4.seqs = g.seqs := by rw [hf4]; exact a3.seqs
      have s3 : f4.csn = g.csn := by rw [csn, csn, s2]
      have s4 : f4.finalSeen = g.finalSeen := by rw [hf4]; exact a3.finalSeen
      have s5 : f4.finalSn = g.finalSn := by rw [hf4]; exact a3.finalSn
      refine ⟨by rw [hm']; exact hinv.same s1 s2, by rw [s2]; exact hmem', by rw [hm', s1, s2]; exact hcov, by rw [hf4]; exact a4.trans hgo,
        by rw [s3, s1, hgb]; exact (fun X r hX => nomatch hX), by rw [s3, s1, hm']; exact hordg,
        fun _ lo hi hmm hall => ?_, by rw [s4, s5]; exact hfin', by rw [s4, s5]; exact hfinN',
        .inr ⟨by rw [hf4]; exact a5, by rw [s1, hgb], by rw [s3]; omega, by rw [hc']; exact p4, by rw [s4]; exact hfs.1, by rw [s5, s3, hfs.2]; omega⟩⟩
      rw [s1, hgb] at hall
      obtain ⟨x, hx, _⟩ := hall lo (Nat.le_refl _) hmm.le
      simp at hx

theorem E.init (st : St) (N : Nat) (o : Order) : E st N o [] (started o) [] := by
  have hno : ∀ k, ¬ InTime [] k := by
    rintro k ⟨pre, c, post, e, _⟩
    simp at e
  have hbuf : (started o).buf = [] := rfl
  refine ⟨⟨⟨List.Pairwise.nil, List.Pairwise.nil, fun x hx => (by cases hx)⟩, fun x hx => (by cases hx), trivial, .inl rfl, ⟨?_, fun d hd => (by cases hd), fun d hd => (by cases hd), List.Pairwise.nil⟩, fun k hk => absurd hk (hno k)⟩,
    ?_, fun k hk => absurd hk (hno k), rfl, fun X r hX => (by cases hX), fun _ => ⟨List.Pairwise.nil, fun d hd => (by cases hd), fun d hd => (by cases hd)⟩, ?_, ?_, fun h => (by cases h),
    .inl ⟨rfl, rfl, rfl, .inl rfl, rfl, fun h => by cases h.1⟩⟩
  · rintro k ⟨x, hx, _⟩; cases hx
  · intro k
    constructor
    · rintro ⟨x, hx, _⟩; cases hx
    · rintro ⟨x, hx, _⟩; cases hx
  · intro _ lo hi hm hall
    obtain ⟨x, hx, _⟩ := hall lo (Nat.le_refl _) hm.le
    cases hx
  · intro k
    constructor
    · rintro ⟨pre, c, post, e, _⟩; simp at e
    · rintro ⟨h, _⟩; cases h

theorem E.exec {st : St} (w : WFst st) {N : Nat} (hN : ∀ k x, st k = some x → k ≤ N) {o : Order} (hho : o ≠ .hold) {ops : List Op} {f : RFlow} {ev : List REv}
    (h : Exec (OkQuiet st N) (started o) ops f ev) : E st N o (chunksOf ops) f ev := by
  induction h with
  | nil => exact E.init st N o
  | snoc _ hop hs ih =>
    obtain ⟨f', ev', e1, e2⟩ := ih.step w hN hho hop
    rw [hs] at e1
    cases e1
    rw [chunksOf_append]
    exact e2

end RFlow
end Rtmfp
