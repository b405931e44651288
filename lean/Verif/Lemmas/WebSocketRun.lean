import Verif.Lemmas.WebSocket

/-! # Histories of a WebSocket: what arrives -/

namespace Rtmfp.WS

open Spec.Web

/-! ## The end of the header -/

theorem scan_append (g : Bool) (blk x y : Bytes) : scan g blk (x ++ y) =
    match scan g blk x with
    | (g', b', none) => scan g' b' y
    | (g', b', some r) => (g', b', some (r ++ y)) := by
  induction x generalizing g blk with
  | nil => rfl
  | cons c x ih =>
    simp only [List.cons_append, scan]
    split
    · split
      · rfl
      · exact ih _ _
    · exact ih _ _

/-- the bytes after the header -/
def bodyOf (r : Bytes) : Option Bytes := (scan false [] r).2.2

theorem bodyOf_append {r b : Bytes} (h : bodyOf r = some b) (z : Bytes) : bodyOf (r ++ z) = some (b ++ z) := by
  unfold bodyOf at h ⊢
  rw [scan_append]
  rcases hs : scan false [] r with ⟨g, k, o⟩
  rw [hs] at h
  simp only at h
  subst h
  rfl

theorem suffix_one (l : Bytes) (c : UInt8) : [c] <:+ l ++ [c] := ⟨l, rfl⟩

theorem last_of_suffix {l : Bytes} {c d : UInt8} (h : [c] <:+ l ++ [d]) : c = d := by
  obtain ⟨t, ht⟩ := h
  have := List.append_inj_right' ht rfl
  simpa using this

theorem two_suffix {l : Bytes} {c d : UInt8} (h : [c] <:+ l) : [c, d] <:+ l ++ [d] := by
  obtain ⟨t, ht⟩ := h
  exact ⟨t, by rw [← ht]; simp⟩

theorem scan_none (pre t : Bytes) (g : Bool) (hg : g = true ↔ [10] <:+ pre.filter (· ≠ 13))
    (hq : ∀ q, q <+: pre ++ t → pre.length < q.length → ¬ [10, 10] <:+ q.filter (· ≠ 13)) :
    ∃ g', scan g pre t = (g', pre ++ t, none) ∧ (g' = true ↔ [10] <:+ (pre ++ t).filter (· ≠ 13)) := by
  induction t generalizing pre g with
  | nil => exact ⟨g, by simp [scan], by simpa using hg⟩
  | cons c t ih =>
    have e : pre ++ c :: t = (pre ++ [c]) ++ t := by simp
    have hq' : ∀ q, q <+: (pre ++ [c]) ++ t → (pre ++ [c]).length < q.length → ¬ [10, 10] <:+ q.filter (· ≠ 13) := by
      intro q h1 h2
      exact hq q (by rw [e]; exact h1) (by rw [List.length_append] at h2; omega)
    rw [e]
    unfold scan
    by_cases hc : c = 0x0a
    · rw [if_pos hc]
      have hn : g = false := by
        cases g with
        | false => rfl
        | true =>
          refine absurd ?_ (hq (pre ++ [c]) ⟨t, by simp⟩ (by simp))
          rw [List.filter_append]
          subst hc
          exact two_suffix (hg.mp rfl)
      subst hn
      rw [if_neg (by decide)]
      refine ih (pre ++ [c]) true ?_ hq'
      subst hc
      simp only [List.filter_append, true_iff]
      exact suffix_one _ _
    · rw [if_neg hc]
      refine ih (pre ++ [c]) _ ?_ hq'
      by_cases hr : c = 0x0d
      · subst hr
        simpa using hg
      · rw [if_pos hr]
        simp only [Bool.false_eq_true, false_iff]
        intro h
        have : (pre ++ [c]).filter (· ≠ 13) = pre.filter (· ≠ 13) ++ [c] := by
          rw [List.filter_append, List.filter_cons_of_pos (by simpa using hr), List.filter_nil]
        rw [this] at h
        exact hc (last_of_suffix h).symm

theorem bodyOf_header {h : Bytes} (hh : HeaderBlock h) (y : Bytes) : bodyOf (h ++ y) = some y := by
  obtain ⟨t, rfl, h2, h3⟩ := hh
  have hnil : (false = true) ↔ [(10 : UInt8)] <:+ ([] : Bytes).filter (· ≠ 13) := by
    constructor
    · intro h; cases h
    · rintro ⟨k, hk⟩; simp at hk
  obtain ⟨g, hs, hg⟩ := scan_none [] t false hnil (fun q hq _ => h3 q (by simpa using hq))
  have : g = true := hg.mpr (by simpa using h2)
  subst this
  unfold bodyOf
  rw [List.append_assoc, scan_append, hs]
  simp [scan]

/-! ## Steps other than reads -/

theorem Calm.of {a b : St} (h1 : b.frag = a.frag) (h2 : b.fragOp = a.fragOp) (h3 : b.input = a.input) (h4 : b.headerComplete = a.headerComplete)
    (h5 : b.gotNewline = a.gotNewline) (h6 : b.block = a.block) (h7 : b.headers = a.headers) (h8 : b.startLine = a.startLine) (h9 : b.log = a.log)
    (h10 : b.phase = a.phase) (h11 : b.cbs = a.cbs) : Calm a b :=
  ⟨h1, h2, h3, h4, h5, h6, h7, h8, ⟨[], by simp [h9], rfl, by simp, by simp⟩, by unfold Inv; rw [h10, h11]; exact id,
    by rw [h10]; exact id, by rw [h10]; exact id⟩

theorem writeRaw_calm (st : St) : Calm st (writeRaw st).1 := by
  unfold writeRaw
  split
  · exact (emit_calm st (.put st.out) rfl (by simp) (by simp)).trans (Calm.of rfl rfl rfl rfl rfl rfl rfl rfl rfl rfl rfl)
  · exact Calm.refl st

theorem onWritable_calm (app : App) (st : St) : Calm st (onWritable app st) := by
  unfold onWritable
  split
  · exact writeRaw_calm st
  · split
    · have h1 := (emit_calm st .writable rfl (by simp) (by simp)).trans (callback_calm app st .writable)
      have h2 : Calm (callback app st .writable) (if app.again (emit st .writable).log then callback app st .writable else { callback app st .writable with onw := false }) := by
        split
        · exact Calm.refl _
        · exact Calm.of rfl rfl rfl rfl rfl rfl rfl rfl rfl rfl rfl
      exact (h1.trans h2).trans (writeRaw_calm _)
    · have h1 : Calm st (if st.phase = .closing then setClosed app st else st) := by
        split
        · exact (setClosed_spec app st).1
        · exact Calm.refl _
      exact h1.trans (Calm.of rfl rfl rfl rfl rfl rfl rfl rfl rfl rfl rfl)

theorem step_calm (app : App) (st : St) (o : Op) (h : ∀ b, o ≠ .read b) : Calm st (step app st o) := by
  unfold step
  cases o with
  | read b => exact absurd rfl (h b)
  | writable =>
    simp only
    split
    · exact onWritable_calm app st
    · exact Calm.refl st
  | lost =>
    simp only
    split
    · exact (setClosed_spec app st).1
    · exact Calm.refl st
  | call c => exact call_calm st c

/-! ## The header -/

theorem headersComplete_spec (app : App) (st : St) (hi : Inv st) :
    ∃ st', onHeadersComplete app st = st' ∧ Inv st' ∧ st'.frag = st.frag ∧ st'.fragOp = st.fragOp ∧ st'.input = st.input ∧ st'.headerComplete = st.headerComplete ∧
      arrivals st'.log = arrivals st.log ∧ (∃ l, st'.log = st.log ++ l ∧ (Ev.failed ∈ l → st'.phase = .error)) ∧
      (st'.phase = .opn → st.phase = .opn) ∧
      (Stays app → st.phase = .opn → (st'.phase = .opn ∧ Ev.opened ∈ st'.log) ∨ (st'.phase = .error ∧ ∃ l, st'.log = st.log ++ l ∧ Ev.opened ∉ l)) := by
  refine ⟨_, rfl, ?_⟩
  have h1 : Calm st (if st.cbs then callback app st .headers else st) := by
    split
    · exact (emit_calm st .headers rfl (by simp) (by simp)).trans (callback_calm app st .headers)
    · exact Calm.refl st
  have hph : Stays app → (if st.cbs then callback app st .headers else st).phase = st.phase := by
    intro hs; split
    · exact callback_phase app hs st _
    · rfl
  unfold onHeadersComplete
  generalize (if st.cbs then callback app st .headers else st) = st1 at h1 hph ⊢
  simp only
  split
  · have h2 := h1.trans (writeBytes_calm st1 (response app st1.headers))
    have hp2 : (writeBytes st1 (response app st1.headers)).phase = st1.phase := scheduleWrite_phase _
    generalize writeBytes st1 (response app st1.headers) = st2 at h2 hp2 ⊢
    have hi2 := h2.inv hi
    obtain ⟨l2, hl2, _, _, hf2⟩ := h2.log
    by_cases hc : st2.cbs = true
    · rw [if_pos hc]
      have h3 := callback_calm app st2 .opened
      obtain ⟨l, hl, ha, ho, hf⟩ := h3.log
      refine ⟨h3.inv hi2, h3.frag.trans h2.frag, h3.fragOp.trans h2.fragOp, h3.input.trans h2.input, h3.hc.trans h2.hc, ?_, ⟨l2 ++ [.opened] ++ l, ?_, ?_⟩, fun h => h2.opn (h3.opn h), ?_⟩
      · rw [h3.arrivals, ← h2.arrivals]; simp [emit, arrivals, arrive]
      · rw [hl]; simp [emit, hl2]
      · intro hm
        simp only [List.mem_append, List.mem_singleton, reduceCtorEq, or_false] at hm
        rcases hm with hm | hm
        · exact h3.err (hf2 hm)
        · exact hf hm
      · intro hs hop
        exact .inl ⟨by rw [callback_phase app hs, hp2, hph hs, hop], callback_mem _ _ _⟩
    · rw [if_neg hc]
      have hE : st2.phase = .error := by
        rw [hi2] at hc; simpa using hc
      refine ⟨hi2, h2.frag, h2.fragOp, h2.input, h2.hc, h2.arrivals, ⟨l2, hl2, hf2⟩, h2.opn, ?_⟩
      intro hs hop
      rw [hp2, hph hs, hop] at hE; cases hE
  · obtain ⟨g, g2, _⟩ := setClosed_spec app st1
    have h2 := h1.trans g
    obtain ⟨l2, hl2, _, ho2, hf2⟩ := h2.log
    exact ⟨h2.inv hi, h2.frag, h2.fragOp, h2.input, h2.hc, h2.arrivals, ⟨l2, hl2, hf2⟩, h2.opn, fun _ _ => .inr ⟨g2 (h1.inv hi), l2, hl2, ho2⟩⟩

theorem headerBlock_spec (app : App) (st : St) (hi : Inv st) :
    ∃ st', parseHeaderBlock app st = st' ∧ Inv st' ∧ st'.frag = st.frag ∧ st'.fragOp = st.fragOp ∧ st'.input = st.input ∧ st'.headerComplete = true ∧
      arrivals st'.log = arrivals st.log ∧ (∃ l, st'.log = st.log ++ l ∧ (Ev.failed ∈ l → st'.phase = .error)) ∧
      (st'.phase = .opn → st.phase = .opn) ∧
      (Stays app → st.phase = .opn → (st'.phase = .opn ∧ Ev.opened ∈ st'.log) ∨ (st'.phase = .error ∧ ∃ l, st'.log = st.log ++ l ∧ Ev.opened ∉ l)) := by
  refine ⟨_, rfl, ?_⟩
  unfold parseHeaderBlock
  simp only
  split
  · obtain ⟨g, g2, _⟩ := setClosed_spec app { st with headerComplete := true, startLine := (parseBlock st.block).1 }
    obtain ⟨l2, hl2, _, ho2, hf2⟩ := g.log
    exact ⟨g.inv hi, g.frag, g.fragOp, g.input, g.hc, g.arrivals, ⟨l2, hl2, hf2⟩, g.opn, fun _ _ => .inr ⟨g2 hi, l2, hl2, ho2⟩⟩
  · rename_i fields _
    obtain ⟨st', e, g⟩ := headersComplete_spec app { st with headerComplete := true, startLine := (parseBlock st.block).1, headers := fields } hi
    rw [e]
    exact g

/-! ## The invariant -/

/-- What the members have to do with the bytes received, `R`. -/
structure Good (st : St) (R : Bytes) : Prop where
  inv : Inv st
  pre : arrivals st.log = [] ∨ ∃ body, bodyOf R = some body ∧ ∀ z, ∃ y, say none (body ++ z) = seen st ++ y
  opn : st.phase = .opn →
    (st.headerComplete = false ∧ scan false [] R = (st.gotNewline, st.block, none) ∧ arrivals st.log = [] ∧ st.input = [] ∧ Pending st none) ∨
    (st.headerComplete = true ∧ ∃ body p, bodyOf R = some body ∧ Pending st p ∧ parse st.input = .more ∧ ∀ z, say none (body ++ z) = seen st ++ say p (st.input ++ z))
  fail : Ev.failed ∈ st.log → st.phase = .error
  op : Ev.opened ∈ st.log → ∃ body, bodyOf R = some body

theorem good_init : Good init [] :=
  ⟨rfl, .inl rfl, fun _ => .inl ⟨rfl, rfl, rfl, rfl, rfl, rfl⟩, by simp [init], by simp [init]⟩

theorem seen_calm {a b : St} (h : Calm a b) : seen b = seen a := by rw [seen, seen, h.arrivals]

theorem good_calm {st st' : St} {R : Bytes} (g : Good st R) (c : Calm st st') : Good st' R := by
  obtain ⟨l, hl, ha, ho, hf⟩ := c.log
  refine ⟨c.inv g.inv, ?_, ?_, ?_, ?_⟩
  · rw [c.arrivals, seen_calm c]; exact g.pre
  · intro h
    rw [c.arrivals, seen_calm c, c.hc, c.gn, c.bl, c.input]
    rcases g.opn (c.opn h) with ⟨h1, h2, h3, h4, h5⟩ | ⟨h1, body, p, h2, h3, h4⟩
    · exact .inl ⟨h1, h2, h3, h4, c.pending h5⟩
    · exact .inr ⟨h1, body, p, h2, c.pending h3, h4⟩
  · rw [hl]; intro h
    rcases List.mem_append.mp h with h | h
    · exact c.err (g.fail h)
    · exact hf h
  · rw [hl]; intro h
    rcases List.mem_append.mp h with h | h
    · exact g.op h
    · exact absurd h ho

theorem good_ignored {st : St} {R b : Bytes} (g : Good st R) (h : st.phase ≠ .opn) : Good st (R ++ b) := by
  refine ⟨g.inv, ?_, fun h1 => absurd h1 h, g.fail, ?_⟩
  · rcases g.pre with h1 | ⟨body, h1, h2⟩
    · exact .inl h1
    · exact .inr ⟨body ++ b, bodyOf_append h1 b, fun z => by rw [List.append_assoc]; exact h2 _⟩
  · intro h1
    obtain ⟨body, h2⟩ := g.op h1
    exact ⟨_, bodyOf_append h2 b⟩

/-- what `onBody` does after the loop -/
def endBody : St × Option Bytes → St
  | (st', some rest) => { st' with input := rest }
  | (st', none) => st'

/-- bytes of the body -/
theorem good_body (app : App) (st : St) (R body b : Bytes) (p : Option (Nat × Bytes)) (hi : Inv st) (hh : st.headerComplete = true) (hb : bodyOf R = some body)
    (hp : Pending st p) (hs : ∀ z, say none (body ++ z) = seen st ++ say p (st.input ++ z)) (he : st.phase ≠ .error) (hfail : Ev.failed ∉ st.log) :
    Good (onBody app st b) (R ++ b) ∧
    (Stays app → st.phase = .opn → (onBody app st b).phase = .opn ∨ ((onBody app st b).phase = .error ∧ (
      (Ev.failed ∈ (onBody app st b).log ∧ Ev.released ∈ (onBody app st b).log ∧ ∀ z, say none (body ++ b ++ z) = seen (onBody app st b) ++ [none]) ∨
      (∃ l, arrivals (onBody app st b).log = l ++ [.close])))) ∧
    (∃ l, (onBody app st b).log = st.log ++ l) := by
  have hbody := bodyOf_append hb b
  have L := loop_spec app (st.input ++ b).length { st with input := st.input ++ b } (st.input ++ b) p hi hp he (Nat.le_refl _)
  have hz : ∀ z, seen { st with input := st.input ++ b } ++ say p (st.input ++ b ++ z) = say none (body ++ b ++ z) := by
    intro z; rw [List.append_assoc, List.append_assoc, hs]; rfl
  have key : ∀ st', (∀ (r : St × Option Bytes), r = loop app (st.input ++ b).length { st with input := st.input ++ b } (st.input ++ b) →
      (st'.log = r.1.log ∧ st'.phase = r.1.phase ∧ st'.cbs = r.1.cbs ∧ st'.headerComplete = r.1.headerComplete ∧ st'.frag = r.1.frag ∧ st'.fragOp = r.1.fragOp ∧
        (∀ rest, r.2 = some rest → st'.input = rest))) →
      Good st' (R ++ b) ∧ (Stays app → st.phase = .opn → st'.phase = .opn ∨ (st'.phase = .error ∧ (
      (Ev.failed ∈ st'.log ∧ Ev.released ∈ st'.log ∧ ∀ z, say none (body ++ b ++ z) = seen st' ++ [none]) ∨ (∃ l, arrivals st'.log = l ++ [.close])))) ∧
      (∃ l, st'.log = st.log ++ l) := by
    intro st' h
    obtain ⟨k1, k2, k3, k4, k5, k6, k7⟩ := h _ rfl
    generalize loop app (st.input ++ b).length { st with input := st.input ++ b } (st.input ++ b) = r at L k1 k2 k3 k4 k5 k6 k7
    have hseen : seen st' = seen r.1 := by rw [seen, seen, k1]
    obtain ⟨l, hl, hl1, hl2⟩ := L.log
    refine ⟨⟨?_, ?_, ?_, ?_, ?_⟩, ?_, ⟨l, by rw [k1]; exact hl⟩⟩
    · have := L.inv; unfold Inv at this ⊢; rw [k2, k3]; exact this
    · refine .inr ⟨_, hbody, fun z => ?_⟩
      obtain ⟨y, hy⟩ := L.pre z
      exact ⟨y, by rw [hseen, ← hz z]; exact hy⟩
    · intro hop
      refine .inr ⟨by rw [k4, L.hc]; exact hh, ?_⟩
      obtain ⟨rest, p', j1, j2, j3, j4⟩ := L.opn (by rw [← k2, hop]; simp)
      refine ⟨_, p', hbody, ?_, by rw [k7 rest j1]; exact j2, fun z => by rw [hseen, k7 rest j1, ← hz z]; exact j4 z⟩
      cases p' with
      | none => exact ⟨k6.trans j3.1, k5.trans j3.2⟩
      | some x => exact ⟨k6.trans j3.1, j3.2.1, k5.trans j3.2.2⟩
    · intro hm
      rw [k2]
      rw [k1, hl] at hm
      rcases List.mem_append.mp hm with hm | hm
      · exact absurd hm hfail
      · exact hl2 hm
    · intro _; exact ⟨_, hbody⟩
    · intro hst hop
      rw [k2, k1, hseen]
      rcases L.stay hst with h | ⟨h1, h2⟩
      · exact .inl (h.trans hop)
      · refine .inr ⟨h1, ?_⟩
        rcases h2 with ⟨ha, hb', hc⟩ | h2
        · exact .inl ⟨ha, hb', fun z => by rw [← hz z]; exact hc z⟩
        · exact .inr h2
  refine key _ ?_
  intro r hr
  have e : onBody app st b = endBody r := by rw [hr]; rfl
  rw [e]
  rcases r with ⟨st1, _ | rest⟩
  · exact ⟨rfl, rfl, rfl, rfl, rfl, rfl, fun rest h => by cases h⟩
  · exact ⟨rfl, rfl, rfl, rfl, rfl, rfl, fun rest' h => by cases h; rfl⟩

/-- As long as the application stays: open, or ended for a reason. -/
def Fate (st : St) (R : Bytes) : Prop :=
  (st.phase = .opn ∧ (st.headerComplete = true → Ev.opened ∈ st.log)) ∨ (st.phase = .error ∧ (Ev.opened ∉ st.log ∨
    (Ev.failed ∈ st.log ∧ Ev.released ∈ st.log ∧ ∃ body, bodyOf R = some body ∧ ∀ z, say none (body ++ z) = seen st ++ [none]) ∨
    (∃ l, arrivals st.log = l ++ [.close])))

theorem good_read (app : App) (st : St) (R b : Bytes) (g : Good st R) :
    Good (onReceive app st b) (R ++ b) ∧ (Stays app → Fate st R → Fate (onReceive app st b) (R ++ b)) := by
  by_cases hop : st.phase = .opn
  · by_cases hb : b = []
    · subst hb
      have : onReceive app st [] = st := by simp [onReceive]
      rw [this, List.append_nil]
      exact ⟨g, fun _ => id⟩
    · have hfail : Ev.failed ∉ st.log := fun h => by have := g.fail h; rw [hop] at this; cases this
      rcases g.opn hop with ⟨h1, h2, h3, h4, h5⟩ | ⟨h1, body, p, h2, h3, h4, h5⟩
      · have hno : Ev.opened ∉ st.log := fun h => by
          obtain ⟨body, hb2⟩ := g.op h
          rw [bodyOf, h2] at hb2; cases hb2
        have hsc : scan false [] (R ++ b) = scan st.gotNewline st.block b := by rw [scan_append, h2]
        have e : onReceive app st b = if (onHeader app st b).1.phase = .opn ∧ (onHeader app st b).2 ≠ [] then onBody app (onHeader app st b).1 (onHeader app st b).2 else (onHeader app st b).1 := by
          simp only [onReceive, hop, hb, h1, ne_eq, not_false_eq_true, and_self, if_true, Bool.false_eq_true, if_false]
        rcases hs : scan st.gotNewline st.block b with ⟨g', k, _ | rest⟩
        · have e2 : onHeader app st b = ({ st with gotNewline := g', block := k }, []) := by simp only [onHeader, hs]
          rw [e, e2]
          simp only [ne_eq, not_true_eq_false, and_false, if_false]
          refine ⟨⟨g.inv, .inl h3, fun _ => .inl ⟨h1, hsc.trans hs, h3, h4, h5⟩, g.fail, fun h => absurd h hno⟩, fun _ _ => .inl ⟨hop, fun h => ?_⟩⟩
          rw [show ({ st with gotNewline := g', block := k } : St).headerComplete = st.headerComplete from rfl, h1] at h; cases h
        · have e2 : onHeader app st b = (parseHeaderBlock app { st with gotNewline := g', block := k }, rest) := by simp only [onHeader, hs]
          rw [e, e2]
          obtain ⟨st', q0, q1, q2, q3, q4, q5, q6, ⟨l, q7, q8⟩, q9, q10⟩ := headerBlock_spec app { st with gotNewline := g', block := k } g.inv
          rw [q0]
          have hbd : bodyOf (R ++ b) = some rest := by rw [bodyOf, hsc, hs]
          have hlog : st'.log = st.log ++ l := q7
          have hs0 : seen st' = [] := by rw [seen, q6]; simp [h3]
          have ha0 : arrivals st'.log = [] := by rw [q6]; exact h3
          have hP : Pending st' none := ⟨by rw [q3]; exact h5.1, by rw [q2]; exact h5.2⟩
          have hin : st'.input = [] := by rw [q4]; exact h4
          have hf1 : Ev.failed ∈ st'.log → st'.phase = .error := by
            rw [hlog]; intro h
            rcases List.mem_append.mp h with h | h
            · exact absurd h hfail
            · exact q8 h
          by_cases hcont : st'.phase = .opn ∧ rest ≠ []
          · rw [if_pos hcont]
            -- the body begins with nothing received of it
            have hR : ∃ R0, R ++ b = R0 ++ rest ∧ bodyOf R0 = some [] := by
              have : ∀ (x : Bytes) g blk g' k rest, scan g blk x = (g', k, some rest) → ∃ x0, x = x0 ++ rest ∧ scan g blk x0 = (g', k, some []) := by
                intro x
                induction x with
                | nil => intro g blk g' k rest h; simp [scan] at h
                | cons c x ih =>
                  intro g blk g' k rest h
                  unfold scan at h
                  by_cases hc : c = 0x0a
                  · rw [if_pos hc] at h
                    by_cases hg : g = true
                    · rw [if_pos hg] at h
                      cases h
                      exact ⟨[c], rfl, by simp [scan, hc, hg]⟩
                    · rw [if_neg hg] at h
                      obtain ⟨x0, e1, e2⟩ := ih _ _ _ _ _ h
                      exact ⟨c :: x0, by rw [e1]; rfl, by simp only [scan]; rw [if_pos hc, if_neg hg]; exact e2⟩
                  · rw [if_neg hc] at h
                    obtain ⟨x0, e1, e2⟩ := ih _ _ _ _ _ h
                    exact ⟨c :: x0, by rw [e1]; rfl, by simp only [scan]; rw [if_neg hc]; exact e2⟩
              obtain ⟨x0, e1, e2⟩ := this _ _ _ _ _ _ (hsc.trans hs)
              exact ⟨x0, e1, by rw [bodyOf, e2]⟩
            obtain ⟨R0, hR0, hb0⟩ := hR
            obtain ⟨k1, k2, ⟨l2, k3⟩⟩ := good_body app st' R0 [] rest none q1 q5 hb0 hP (fun z => by rw [hs0, hin]; rfl) (by rw [hcont.1]; simp) (fun h => by have := hf1 h; rw [hcont.1] at this; cases this)
            rw [hR0]
            refine ⟨k1, fun hst hF => ?_⟩
            have hopened : Ev.opened ∈ st'.log := by
              rcases q10 hst hop with h | h
              · exact h.2
              · rw [hcont.1] at h; cases h.1
            have hopened2 : Ev.opened ∈ (onBody app st' rest).log := by rw [k3]; exact List.mem_append_left _ hopened
            rcases k2 hst hcont.1 with h | ⟨h, h'⟩
            · exact .inl ⟨h, fun _ => hopened2⟩
            · refine .inr ⟨h, .inr ?_⟩
              rcases h' with ⟨ha, hb', hc⟩ | h'
              · exact .inl ⟨ha, hb', rest, by rw [← hR0]; exact hbd, fun z => by have := hc z; rw [List.nil_append] at this; exact this⟩
              · exact .inr h'
          · rw [if_neg hcont]
            refine ⟨⟨q1, .inl ha0, fun hop' => .inr ⟨q5, rest, none, hbd, hP, by rw [hin]; rfl, fun z => ?_⟩, hf1, fun _ => ⟨_, hbd⟩⟩, fun hst hF => ?_⟩
            · have : rest = [] := by
                by_cases hr : rest = []
                · exact hr
                · exact absurd ⟨hop', hr⟩ hcont
              rw [hs0, hin, this]; rfl
            · rcases q10 hst hop with ⟨h, h'⟩ | ⟨h, l', h', h''⟩
              · exact .inl ⟨h, fun _ => h'⟩
              · refine .inr ⟨h, .inl ?_⟩
                rw [h']
                intro hm
                rcases List.mem_append.mp hm with hm | hm
                · exact hno hm
                · exact h'' hm
      · have e : onReceive app st b = onBody app st b := by
          simp only [onReceive, hop, hb, h1, ne_eq, not_false_eq_true, and_self, if_true]
        rw [e]
        obtain ⟨k1, k2, ⟨l2, k3⟩⟩ := good_body app st R body b p g.inv h1 h2 h3 h5 (by rw [hop]; simp) hfail
        refine ⟨k1, fun hst hF => ?_⟩
        have hopened : Ev.opened ∈ st.log := by
          rcases hF with hF | hF
          · exact hF.2 h1
          · rw [hop] at hF; cases hF.1
        have hopened2 : Ev.opened ∈ (onBody app st b).log := by rw [k3]; exact List.mem_append_left _ hopened
        rcases k2 hst hop with h | ⟨h, h'⟩
        · exact .inl ⟨h, fun _ => hopened2⟩
        · refine .inr ⟨h, .inr ?_⟩
          rcases h' with ⟨ha, hb', hc⟩ | h'
          · exact .inl ⟨ha, hb', _, bodyOf_append h2 b, hc⟩
          · exact .inr h'
  · have e : onReceive app st b = st := by simp [onReceive, hop]
    rw [e]
    refine ⟨good_ignored g hop, fun _ hF => ?_⟩
    rcases hF with hF | ⟨hF, hF2⟩
    · exact absurd hF.1 hop
    · refine .inr ⟨hF, ?_⟩
      rcases hF2 with h | ⟨h1, h2, body, h3, h4⟩ | h
      · exact .inl h
      · exact .inr (.inl ⟨h1, h2, body ++ b, bodyOf_append h3 b, fun z => by rw [List.append_assoc]; exact h4 _⟩)
      · exact .inr (.inr h)

/-! ## Histories -/

/-- the bytes received in a history -/
def received (ops : List Op) : Bytes := ops.flatMap (fun | .read b => b | _ => [])

theorem good_run (app : App) (ops : List Op) (st : St) (R : Bytes) (g : Good st R) : Good (run app st ops) (R ++ received ops) := by
  induction ops generalizing st R with
  | nil => simpa [received, run] using g
  | cons o ops ih =>
    have h1 : Good (step app st o) (R ++ received [o]) := by
      cases o with
      | read b => simpa [received, step] using (good_read app st R b g).1
      | writable => simpa [received] using good_calm g (step_calm app st .writable (by simp))
      | lost => simpa [received] using good_calm g (step_calm app st .lost (by simp))
      | call c => simpa [received] using good_calm g (step_calm app st (.call c) (by simp))
    have h2 := ih _ _ h1
    rw [List.append_assoc] at h2
    rw [show received (o :: ops) = received [o] ++ received ops by simp [received]]
    exact h2

/-- the application stays: it neither closes nor shuts down from outside of callbacks, nor is the stream lost -/
def Lasts (ops : List Op) : Prop := Op.lost ∉ ops ∧ Op.call .close ∉ ops ∧ Op.call .shutdown ∉ ops

theorem writeRaw_phase (st : St) : (writeRaw st).1.phase = st.phase := by unfold writeRaw; split <;> rfl

theorem onWritable_phase (app : App) (hs : Stays app) (st : St) (h : st.phase = .opn) : (onWritable app st).phase = .opn := by
  unfold onWritable
  split
  · rw [writeRaw_phase, h]
  · split
    · simp only
      rw [writeRaw_phase]
      split
      · rw [callback_phase app hs, h]
      · exact (callback_phase app hs st _).trans h
    · simp only [h, reduceCtorEq, if_false]

theorem fate_step (app : App) (hs : Stays app) (st : St) (R : Bytes) (o : Op) (ho : ∀ b, o ≠ .read b) (h1 : o ≠ .lost) (h2 : o ≠ .call .close) (h3 : o ≠ .call .shutdown)
    (F : Fate st R) : Fate (step app st o) R := by
  have c := step_calm app st o ho
  obtain ⟨l, hl, _, hl2, _⟩ := c.log
  rcases F with ⟨F1, F2⟩ | ⟨F1, F2⟩
  · refine .inl ⟨?_, fun h => ?_⟩
    · cases o with
      | read b => exact absurd rfl (ho b)
      | lost => exact absurd rfl h1
      | writable =>
        unfold step
        simp only
        split
        · exact onWritable_phase app hs st F1
        · exact F1
      | call k =>
        exact (call_phase st k (fun h => h2 (by rw [h])) (fun h => h3 (by rw [h]))).trans F1
    · rw [hl]; exact List.mem_append_left _ (F2 (by rw [← c.hc]; exact h))
  · refine .inr ⟨c.err F1, ?_⟩
    rcases F2 with h | ⟨h1, h2, body, h3, h4⟩ | h
    · refine .inl ?_
      rw [hl]; intro hm
      rcases List.mem_append.mp hm with hm | hm
      · exact h hm
      · exact hl2 hm
    · refine .inr (.inl ⟨by rw [hl]; exact List.mem_append_left _ h1, by rw [hl]; exact List.mem_append_left _ h2, body, h3, fun z => by rw [seen_calm c]; exact h4 z⟩)
    · exact .inr (.inr (by rw [c.arrivals]; exact h))

theorem fate_run (app : App) (hs : Stays app) (ops : List Op) (st : St) (R : Bytes) (g : Good st R) (F : Fate st R) (hl : Lasts ops) :
    Fate (run app st ops) (R ++ received ops) := by
  induction ops generalizing st R with
  | nil => simpa [received, run] using F
  | cons o ops ih =>
    obtain ⟨l1, l2, l3⟩ := hl
    simp only [List.mem_cons, not_or] at l1 l2 l3
    have h1 : Good (step app st o) (R ++ received [o]) := good_run app [o] st R g
    have h3 : Fate (step app st o) (R ++ received [o]) := by
      have other : (∀ b, o ≠ .read b) → Fate (step app st o) R := fun ho => fate_step app hs st R o ho (Ne.symm l1.1) (Ne.symm l2.1) (Ne.symm l3.1) F
      cases o with
      | read b => simpa [received, step] using (good_read app st R b g).2 hs F
      | writable => simpa [received] using other (by simp)
      | lost => simpa [received] using other (by simp)
      | call c => simpa [received] using other (by simp)
    have h2 := ih _ _ h1 h3 ⟨l1.2, l2.2, l3.2⟩
    rw [List.append_assoc] at h2
    rw [show received (o :: ops) = received [o] ++ received ops by simp [received]]
    exact h2

theorem fate_init : Fate init [] := .inl ⟨rfl, by simp [init]⟩

end Rtmfp.WS
