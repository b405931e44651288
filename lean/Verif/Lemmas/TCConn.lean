import Verif.Spec.TCConn
namespace Rtmfp
namespace TCConn
open AMF (Val)

theorem sents_append (a b : List Ev) : sents (a ++ b) = sents a ++ sents b := by simp [sents]
theorem invs_append (a b : List Ev) : invs (a ++ b) = invs a ++ invs b := by simp [invs]

/-- what is still to be invoked -/
def pend (st : St) : List Tx := match st.closing with | some rest => rest | none => st.txs

structure Inv (st : St) (evs : List Ev) : Prop where
  ids : (sents evs).Pairwise (fun a b => a.tid < b.tid)
  lt : ∀ t ∈ sents evs, t.tid < st.nextTID
  nodup : (invs evs).Nodup
  sub : ∀ t ∈ invs evs, t ∈ sents evs
  pend : pend st = unanswered evs
  closing : st.closing.isSome = true → st.userOpen = false
  done : st.userOpen = false → st.closing = none → st.txs = []

theorem Inv.pendSorted {st : St} {evs : List Ev} (h : Inv st evs) : (TCConn.pend st).Pairwise (fun a b => a.tid < b.tid) := by
  rw [h.pend, unanswered]
  exact h.ids.filter _

theorem putTx_last (l : List Tx) (t : Tx) (h : ∀ a ∈ l, a.tid < t.tid) : putTx l t = l ++ [t] := by
  induction l with
  | nil => rfl
  | cons a l ih =>
    have h1 := h a (by simp)
    rw [putTx, if_neg (by omega), if_neg (by omega), ih (fun x hx => h x (by simp [hx]))]
    rfl

/-- steps that only change streams and observe nothing about transactions -/
structure Same (st st' : St) : Prop where
  userOpen : st'.userOpen = st.userOpen
  nextTID : st'.nextTID = st.nextTID
  txs : st'.txs = st.txs
  closing : st'.closing = st.closing

theorem netErase_same (st : St) (id : Nat) : Same st (netErase st id) := ⟨rfl, rfl, rfl, rfl⟩

theorem strmDelete_same (st : St) (i : Nat) : Same st (strmDelete st i) := by
  rw [strmDelete]
  split
  · exact ⟨rfl, rfl, rfl, rfl⟩
  · rename_i s hs
    by_cases h : s.streamID ≠ 0
    · simp only [if_pos h]; exact ⟨rfl, rfl, rfl, rfl⟩
    · simp only [if_neg h]; exact ⟨rfl, rfl, rfl, rfl⟩

/-- nothing about transactions is observed -/
def Silent (evs : List Ev) : Prop := sents evs = [] ∧ invs evs = []

theorem Inv.silent {st st' : St} {evs evs' : List Ev} (h : Inv st evs) (hs : Same st st') (hq : Silent evs') : Inv st' (evs ++ evs') := by
  obtain ⟨h1, h2, h3, h4, h5, h6, h7⟩ := h
  have e1 : sents (evs ++ evs') = sents evs := by rw [sents_append, hq.1, List.append_nil]
  have e2 : invs (evs ++ evs') = invs evs := by rw [invs_append, hq.2, List.append_nil]
  have e3 : unanswered (evs ++ evs') = unanswered evs := by rw [unanswered, e1, e2, unanswered]
  constructor
  · rw [e1]; exact h1
  · rw [e1, hs.nextTID]; exact h2
  · rw [e2]; exact h3
  · rw [e1, e2]; exact h4
  · rw [e3, ← h5, TCConn.pend, TCConn.pend, hs.closing, hs.txs]
  · rw [hs.closing, hs.userOpen]; exact h6
  · rw [hs.closing, hs.userOpen, hs.txs]; exact h7

/-- `basicTransact` -/
theorem Inv.transact {st : St} {evs : List Ev} (h : Inv st evs) (ho : st.userOpen = true) (hb : st.nextTID < 2 ^ 53) (x : Nat) (k : Kind) (w : Bool) :
    Inv (basicTransact st x k w).1 (evs ++ (basicTransact st x k w).2) := by
  obtain ⟨h1, h2, h3, h4, h5, h6, h7⟩ := h
  have hinc : incr st.nextTID = st.nextTID + 1 := by rw [incr, if_pos hb]
  have hcl : st.closing = none := by
    cases hc : st.closing with
    | none => rfl
    | some r => rw [hc] at h6; have := h6 rfl; rw [ho] at this; simp at this
  cases w with
  | false =>
    have e : basicTransact st x k false = ({ st with nextTID := incr st.nextTID }, []) := rfl
    rw [e]
    simp only [List.append_nil]
    exact ⟨h1, fun t ht => by have := h2 t ht; show t.tid < incr st.nextTID; omega, h3, h4, h5, h6, h7⟩
  | true =>
    have e : basicTransact st x k true = ({ st with nextTID := incr st.nextTID, txs := putTx st.txs ⟨st.nextTID, x, k⟩ }, [.sent st.nextTID x k]) := rfl
    rw [e]
    have e1 : sents (evs ++ [.sent st.nextTID x k]) = sents evs ++ [⟨st.nextTID, x, k⟩] := by rw [sents_append]; rfl
    have e2 : invs (evs ++ [.sent st.nextTID x k]) = invs evs := by rw [invs_append]; exact List.append_nil _
    have hfresh : (⟨st.nextTID, x, k⟩ : Tx) ∉ invs evs := by
      intro hm
      have := h2 _ (h4 _ hm)
      simp at this
    have hp : st.txs = unanswered evs := by rw [← h5, TCConn.pend, hcl]
    constructor
    · rw [e1, List.pairwise_append]
      refine ⟨h1, by simp, ?_⟩
      intro a ha b hb
      simp at hb
      subst hb
      exact h2 a ha
    · rw [e1]
      intro t ht
      show t.tid < incr st.nextTID
      rcases List.mem_append.mp ht with ht | ht
      · have := h2 t ht; omega
      · simp at ht; subst ht; simp [hinc]
    · rw [e2]; exact h3
    · rw [e1, e2]; intro t ht; exact List.mem_append_left _ (h4 t ht)
    · show TCConn.pend { st with nextTID := incr st.nextTID, txs := putTx st.txs ⟨st.nextTID, x, k⟩ } = _
      rw [unanswered, e1, e2, List.filter_append]
      simp only [TCConn.pend, hcl]
      rw [putTx_last, hp, unanswered]
      · simp [hfresh]
      · intro a ha
        rw [hp, unanswered] at ha
        exact h2 a (List.mem_filter.mp ha).1
    · exact h6
    · intro h; exact absurd ho (by rw [show st.userOpen = false from h]; simp)

theorem Inv.beginClose {st : St} {evs : List Ev} (h : Inv st evs) (e : Bool) : Inv (beginClose st e).1 (evs ++ (beginClose st e).2) := by
  rw [TCConn.beginClose]
  by_cases ho : st.userOpen = true
  · rw [if_neg (by simp [ho])]
    obtain ⟨h1, h2, h3, h4, h5, h6, h7⟩ := h
    have hcl : st.closing = none := by
      cases hc : st.closing with
      | none => rfl
      | some r => rw [hc] at h6; have := h6 rfl; rw [ho] at this; simp at this
    have e1 : ∀ f, sents (evs ++ [.status f]) = sents evs := by intro f; rw [sents_append]; exact List.append_nil _
    have e2 : ∀ f, invs (evs ++ [.status f]) = invs evs := by intro f; rw [invs_append]; exact List.append_nil _
    constructor
    · rw [e1]; exact h1
    · rw [e1]; exact h2
    · rw [e2]; exact h3
    · rw [e1, e2]; exact h4
    · rw [unanswered, e1, e2, ← unanswered, ← h5]
      simp [TCConn.pend, hcl]
    · intro _; rfl
    · intro _ hc; simp at hc
  · rw [if_pos (by simp [ho])]
    simpa using h

theorem beginClose_silent (st : St) (e : Bool) : Silent (beginClose st e).2 := by
  rw [beginClose]
  split
  · exact ⟨rfl, rfl⟩
  · exact ⟨rfl, rfl⟩

/-- the handler of a stream: after it the invariant holds if it did before -/
theorem Inv.stream {st : St} {evs : List Ev} (h : Inv st evs) (i : Nat) (s : Bool) (r : Option Val) :
    Inv (streamResponse st i s r).1 (evs ++ (streamResponse st i s r).2) := by
  rw [streamResponse]
  have hd : Inv (strmDelete st i) evs := by
    have := h.silent (strmDelete_same st i) (evs' := []) ⟨rfl, rfl⟩
    simpa using this
  split
  · split
    · exact hd.beginClose true
    · split
      · simpa using h
      · split
        · exact h.silent ⟨rfl, rfl, rfl, rfl⟩ ⟨rfl, rfl⟩
        · exact h.silent ⟨rfl, rfl, rfl, rfl⟩ ⟨rfl, rfl⟩
  · exact hd.beginClose true

theorem Inv.handler {st : St} {evs : List Ev} (h : Inv st evs) (t : Tx) (s : Bool) (r : Option Val) :
    Inv (handler st t s r).1 (evs ++ (handler st t s r).2) := by
  rw [TCConn.handler]
  split
  · simpa using h
  · exact h.silent ⟨rfl, rfl, rfl, rfl⟩ ⟨rfl, rfl⟩
  · exact h.stream _ s r

/-! ## finding -/

theorem findTx_mem {l : List Tx} {b : UInt64} {t : Tx} (h : findTx l b = some t) : t ∈ l := by
  rw [findTx] at h
  split at h
  · exact List.mem_of_head? h
  · exact List.mem_of_find?_eq_some h

theorem filter_remove (l : List Tx) (hl : l.Pairwise (fun a b => a.tid < b.tid)) (t : Tx) (ht : t ∈ l) :
    l.filter (fun x => x.tid != t.tid) = l.filter (fun x => decide (x ≠ t)) := by
  apply List.filter_congr
  intro x hx
  have : x.tid = t.tid → x = t := by
    intro he
    induction l with
    | nil => simp at hx
    | cons a l ih =>
      rw [List.pairwise_cons] at hl
      rcases List.mem_cons.mp hx with rfl | hx'
      · rcases List.mem_cons.mp ht with rfl | ht'
        · rfl
        · have := hl.1 t ht'; omega
      · rcases List.mem_cons.mp ht with rfl | ht'
        · have := hl.1 x hx'; omega
        · exact ih hl.2 ht' hx'
  by_cases he : x = t
  · simp [he]
  · have hn : x.tid ≠ t.tid := fun h => he (this h)
    simp [he, hn]

/-- a pending transaction is taken out and its handler invoked -/
theorem Inv.take {st st' : St} {evs : List Ev} (h : Inv st evs) (t : Tx) (ht : t ∈ TCConn.pend st) (s : Bool) (r : Option Val)
    (h1 : TCConn.pend st' = (TCConn.pend st).filter (fun x => decide (x ≠ t))) (h2 : st'.nextTID = st.nextTID) (h3 : st'.userOpen = st.userOpen)
    (h4 : st'.closing.isSome = st.closing.isSome) (h5 : st'.closing = none → st.txs = [] → st'.txs = []) :
    Inv st' (evs ++ [.invoked t.tid t.h t.kind s r]) := by
  have hp := h.pend
  obtain ⟨g1, g2, g3, g4, g5, g6, g7⟩ := h
  have e1 : sents (evs ++ [.invoked t.tid t.h t.kind s r]) = sents evs := by rw [sents_append]; exact List.append_nil _
  have e2 : invs (evs ++ [.invoked t.tid t.h t.kind s r]) = invs evs ++ [t] := by rw [invs_append]; rfl
  have htm : t ∈ sents evs ∧ t ∉ invs evs := by
    rw [hp, unanswered, List.mem_filter] at ht
    exact ⟨ht.1, by simpa using ht.2⟩
  constructor
  · rw [e1]; exact g1
  · rw [e1, h2]; exact g2
  · rw [e2, List.nodup_append]
    refine ⟨g3, by simp, ?_⟩
    intro a ha b hb he
    simp at hb
    subst hb; subst he
    exact htm.2 ha
  · rw [e1, e2]
    intro x hx
    rcases List.mem_append.mp hx with hx | hx
    · exact g4 x hx
    · simp at hx; subst hx; exact htm.1
  · rw [h1, hp, unanswered, unanswered, e1, e2, List.filter_filter]
    apply List.filter_congr
    intro x _
    by_cases hx : x = t <;> by_cases hy : x ∈ invs evs <;> simp [hx, hy]
  · rw [h3, h4]; exact g6
  · intro hu hc
    apply h5 hc
    apply g7 (by rw [← h3]; exact hu)
    cases hcc : st.closing with
    | none => rfl
    | some r => rw [hc, hcc] at h4; simp at h4

theorem fold_same (l : List (Nat × Nat)) : ∀ st : St, Same st (l.foldl (fun st e => strmDelete st e.2) st) := by
  induction l with
  | nil => intro st; exact ⟨rfl, rfl, rfl, rfl⟩
  | cons e l ih =>
    intro st
    have h1 := strmDelete_same st e.2
    have h2 := ih (strmDelete st e.2)
    exact ⟨h2.1.trans h1.1, h2.2.trans h1.2, h2.3.trans h1.3, h2.4.trans h1.4⟩

theorem transact_next (st : St) (x : Nat) (k : Kind) (w : Bool) : (basicTransact st x k w).1.nextTID ≤ st.nextTID + 1 := by
  have : incr st.nextTID ≤ st.nextTID + 1 := by rw [incr]; split <;> omega
  cases w
  · exact this
  · exact this

theorem beginClose_next (st : St) (e : Bool) : (beginClose st e).1.nextTID = st.nextTID := by
  rw [beginClose]; split <;> rfl

theorem stream_next (st : St) (i : Nat) (s : Bool) (r : Option Val) : (streamResponse st i s r).1.nextTID = st.nextTID := by
  rw [streamResponse]
  split
  · split
    · rw [beginClose_next, (strmDelete_same st i).nextTID]
    · split
      · rfl
      · split <;> rfl
  · rw [beginClose_next, (strmDelete_same st i).nextTID]

theorem handler_next (st : St) (t : Tx) (s : Bool) (r : Option Val) : (handler st t s r).1.nextTID = st.nextTID := by
  rw [handler]
  split
  · rfl
  · rfl
  · exact stream_next _ _ _ _

theorem guard_some {α : Type} {c : Bool} {x y : α} (h : (if c = true then none else some x) = some y) : c = false ∧ x = y := by
  cases c <;> simp_all

theorem step_next {st st' : St} {op : Op} {evs : List Ev} (h : step st op = some (st', evs)) : st'.nextTID ≤ st.nextTID + 1 := by
  cases op with
  | connect x w =>
    obtain ⟨-, h⟩ := guard_some h
    rw [connect] at h
    split at h
    · cases h; omega
    · have := transact_next st x .connect w; rw [h] at this; exact this
  | transact x name w =>
    obtain ⟨-, h⟩ := guard_some h
    rw [transact] at h
    split at h
    · cases h; omega
    · have := transact_next st x .user w; rw [h] at this; exact this
  | createStream w =>
    obtain ⟨-, h⟩ := guard_some h
    rw [createStream] at h
    split at h
    · cases h; omega
    · have := transact_next { st with streams := st.streams ++ [⟨true, 0⟩] } 0 (.stream st.streams.length) w; rw [h] at this; exact this
  | deleteStream i =>
    obtain ⟨-, h⟩ := guard_some h
    cases h
    rw [(strmDelete_same st i).nextTID]; omega
  | close e =>
    obtain ⟨-, h⟩ := guard_some h
    have := beginClose_next st e; rw [h] at this; rw [this]; omega
  | response s b args =>
    obtain ⟨-, h⟩ := guard_some h
    rw [onTransactionResponse] at h
    split at h
    · cases h; omega
    · cases h
      rw [handler_next]
      show st.nextTID ≤ _
      omega
  | connectEnd =>
    obtain ⟨-, h⟩ := guard_some h
    have := beginClose_next { st with connectFailed := false } true; rw [h] at this; rw [this]; show st.nextTID ≤ _; omega
  | closeNext =>
    rw [step] at h
    split at h
    · obtain ⟨-, h⟩ := guard_some h
      cases h
      rw [handler_next]
      show st.nextTID ≤ _
      omega
    · simp at h
  | closeEnd =>
    rw [step] at h
    split at h
    · obtain ⟨-, h⟩ := guard_some h
      rw [closeEnd] at h
      have hs := fold_same st.net { st with txs := [], closing := none }
      dsimp only at h
      split at h
      · cases h; rw [hs.nextTID]; show st.nextTID ≤ _; omega
      · cases h; show (st.net.foldl (fun st e => strmDelete st e.2) { st with txs := [], closing := none }).nextTID ≤ _; rw [hs.nextTID]; show st.nextTID ≤ _; omega
    · simp at h

theorem step_inv {st st' : St} {op : Op} {evs evs' : List Ev} (hI : Inv st evs) (hb : st.nextTID < 2 ^ 53) (h : step st op = some (st', evs')) :
    Inv st' (evs ++ evs') := by
  cases op with
  | connect x w =>
    obtain ⟨-, h⟩ := guard_some h
    rw [connect] at h
    split at h
    · cases h; simpa using hI
    · rename_i hc
      have ho : st.userOpen = true := by cases ho : st.userOpen <;> simp_all
      have := hI.transact ho hb x .connect w
      rw [h] at this
      exact this
  | transact x name w =>
    obtain ⟨-, h⟩ := guard_some h
    rw [transact] at h
    split at h
    · cases h; simpa using hI
    · rename_i hc
      have ho : st.userOpen = true := by
        cases ho : st.userOpen with
        | true => rfl
        | false => exfalso; apply hc; simp [validateCommandName, ho]
      have := hI.transact ho hb x .user w
      rw [h] at this
      exact this
  | createStream w =>
    obtain ⟨-, h⟩ := guard_some h
    rw [createStream] at h
    split at h
    · cases h; simpa using hI
    · rename_i hc
      have ho : st.userOpen = true := by cases ho : st.userOpen <;> simp_all
      have hI' : Inv { st with streams := st.streams ++ [⟨true, 0⟩] } evs := ⟨hI.1, hI.2, hI.3, hI.4, hI.5, hI.6, hI.7⟩
      have := hI'.transact ho hb 0 (.stream st.streams.length) w
      rw [h] at this
      exact this
  | deleteStream i =>
    obtain ⟨-, h⟩ := guard_some h
    cases h
    exact hI.silent (strmDelete_same st i) ⟨rfl, rfl⟩
  | close e =>
    obtain ⟨-, h⟩ := guard_some h
    have := hI.beginClose e
    rw [h] at this
    exact this
  | response s b args =>
    obtain ⟨hc, h⟩ := guard_some h
    rw [onTransactionResponse] at h
    have hcl : st.closing = none := by cases hcc : st.closing <;> simp_all
    split at h
    · cases h; simpa using hI
    · rename_i t ht
      cases h
      have hp : TCConn.pend st = st.txs := by rw [TCConn.pend, hcl]
      have htm : t ∈ TCConn.pend st := by rw [hp]; exact findTx_mem ht
      have hsort := hI.pendSorted
      have key : Inv { st with txs := st.txs.filter (fun x => x.tid != t.tid) } (evs ++ [.invoked t.tid t.h t.kind s (some (args.head?.getD .undef))]) := by
        apply hI.take t htm
        · rw [← filter_remove _ hsort t htm, hp]
          show TCConn.pend { st with txs := st.txs.filter (fun x => x.tid != t.tid) } = _
          simp only [TCConn.pend, hcl]
        · rfl
        · rfl
        · rfl
        · intro _ he; show st.txs.filter _ = []; rw [he]; rfl
      have := key.handler t s (some (args.head?.getD .undef))
      simpa using this
  | connectEnd =>
    obtain ⟨-, h⟩ := guard_some h
    have hI' : Inv { st with connectFailed := false } evs := ⟨hI.1, hI.2, hI.3, hI.4, hI.5, hI.6, hI.7⟩
    have := hI'.beginClose true
    rw [h] at this
    exact this
  | closeNext =>
    rw [step] at h
    split at h
    · rename_i t rest hcl
      obtain ⟨-, h⟩ := guard_some h
      cases h
      have hp : TCConn.pend st = t :: rest := by rw [TCConn.pend, hcl]
      have hsort := hI.pendSorted
      rw [hp, List.pairwise_cons] at hsort
      have key : Inv { st with closing := some rest } (evs ++ [.invoked t.tid t.h t.kind false none]) := by
        apply hI.take t (by rw [hp]; simp)
        · rw [hp]
          show rest = _
          rw [List.filter_cons_of_neg (by simp)]
          symm
          rw [List.filter_eq_self]
          intro x hx
          have := hsort.1 x hx
          have hne : x ≠ t := by intro he; subst he; omega
          simp [hne]
        · rfl
        · rfl
        · rw [hcl]; rfl
        · intro hx; simp at hx
      have := key.handler t false none
      simpa using this
    · simp at h
  | closeEnd =>
    rw [step] at h
    split at h
    · rename_i hcl
      obtain ⟨-, h⟩ := guard_some h
      have hu : st.userOpen = false := hI.closing (by rw [hcl]; rfl)
      have hp : TCConn.pend st = [] := by rw [TCConn.pend, hcl]
      have hI' : Inv { st with txs := [], closing := none } evs := by
        refine ⟨hI.1, hI.2, hI.3, hI.4, ?_, ?_, fun _ _ => rfl⟩
        · rw [← hI.pend, hp]; rfl
        · intro hx; simp at hx
      have hs := fold_same st.net { st with txs := [], closing := none }
      rw [closeEnd] at h
      dsimp only at h
      split at h
      · cases h; exact hI'.silent hs ⟨rfl, rfl⟩
      · cases h; exact hI'.silent (evs' := []) (st' := { (st.net.foldl (fun st e => strmDelete st e.2) { st with txs := [], closing := none }) with aborted := true }) ⟨hs.1, hs.2, hs.3, hs.4⟩ ⟨rfl, rfl⟩
    · simp at h

theorem run_inv {ops : List Op} {st : St} {evs : List Ev} (h : Run ops st evs) : st.nextTID ≤ ops.length + 1 ∧ (ops.length < 2 ^ 53 → Inv st evs) := by
  induction h with
  | nil =>
    refine ⟨by simp, fun _ => ⟨by simp [sents], by simp [sents], by simp [invs], by simp [invs], by simp [pend, unanswered, sents], by simp, by simp⟩⟩
  | @step ops st evs op st' evs' _ hs ih =>
    have := step_next hs
    refine ⟨by simp; omega, ?_⟩
    intro hl
    rw [List.length_append, List.length_singleton] at hl
    exact step_inv (ih.2 (by omega)) (by omega) hs

/-! ## numbers -/

theorem isNat_iff (b : UInt64) (n : Nat) (hn : 0 < n) : isNat b n = true ↔ IsWhole b n := by
  have hb : b.toNat < 18446744073709551616 := b.toNat_lt
  simp only [isNat, isPos, Bool.and_eq_true, beq_iff_eq, bne_iff_ne, IsWhole, dSign, dExp, dMan, scaled]
  have e52 : (2:Nat) ^ 52 = 4503599627370496 := by decide
  have e63 : (2:Nat) ^ 63 = 9223372036854775808 := by decide
  rw [e52, e63]
  constructor
  · rintro ⟨⟨h1, h2⟩, h3⟩
    have hlt : b.toNat < 9223372036854775808 := by omega
    have hexp : b.toNat / 4503599627370496 % 2048 = b.toNat / 4503599627370496 := by omega
    rw [hexp] at h2 h3
    by_cases h0 : b.toNat / 4503599627370496 = 0
    · exfalso
      rw [if_pos h0] at h3
      have hm : b.toNat % 4503599627370496 < 4503599627370496 := Nat.mod_lt _ (by decide)
      have : 2 ^ 1075 ≤ n * 2 ^ 1075 := Nat.le_mul_of_pos_left _ hn
      have h2' : (9007199254740992:Nat) ≤ 2 ^ 1075 := by
        have : (9007199254740992:Nat) = 2 ^ 53 := by decide
        rw [this]; exact Nat.pow_le_pow_right (by decide) (by decide)
      omega
    · rw [if_neg h0] at h3
      exact ⟨hlt, h0, h2, h3⟩
  · rintro ⟨hlt, h0, h2, h3⟩
    have hexp : b.toNat / 4503599627370496 % 2048 = b.toNat / 4503599627370496 := by omega
    refine ⟨⟨by omega, by rw [hexp]; exact h2⟩, ?_⟩
    rw [hexp, if_neg h0]
    exact h3

theorem isNaN_iff (b : UInt64) : isNaN b = true ↔ IsNaN b := by
  have e52 : (2:Nat) ^ 52 = 4503599627370496 := by decide
  simp only [isNaN, IsNaN, dExp, dMan, Bool.and_eq_true, beq_iff_eq, bne_iff_ne, e52]

theorem isWhole_unique (b : UInt64) (n m : Nat) (h1 : IsWhole b n) (h2 : IsWhole b m) : n = m := by
  have : n * 2 ^ 1075 = m * 2 ^ 1075 := h1.2.2.2.symm.trans h2.2.2.2
  exact Nat.eq_of_mul_eq_mul_right (Nat.pow_pos (by decide)) this

theorem isWhole_not_nan (b : UInt64) (n : Nat) (h : IsWhole b n) : isNaN b = false := by
  obtain ⟨h1, h2, h3, -⟩ := h
  cases hh : isNaN b with
  | false => rfl
  | true =>
    exfalso
    rw [isNaN_iff] at hh
    have := hh.1
    have e52 : (2:Nat) ^ 52 = 4503599627370496 := by decide
    have e63 : (2:Nat) ^ 63 = 9223372036854775808 := by decide
    rw [e52] at *
    rw [e63] at *
    omega

theorem mem_unanswered (evs : List Ev) (t : Tx) : t ∈ unanswered evs ↔ t ∈ sents evs ∧ t ∉ invs evs := by
  simp [unanswered]

theorem sents_pos {ops : List Op} {st : St} {evs : List Ev} (h : Run ops st evs) : 1 ≤ st.nextTID ∧ ∀ t ∈ sents evs, 1 ≤ t.tid := by
  have hx : ∀ (st : St) x k w, 1 ≤ st.nextTID → 1 ≤ (basicTransact st x k w).1.nextTID ∧ ∀ t ∈ sents (basicTransact st x k w).2, 1 ≤ t.tid := by
    intro st x k w h1
    have : 1 ≤ incr st.nextTID := by rw [incr]; split <;> omega
    cases w with
    | false => exact ⟨this, by simp [basicTransact, sents]⟩
    | true => exact ⟨this, by simpa [basicTransact, sents] using h1⟩
  have hs : ∀ evs, Silent evs → ∀ t ∈ sents evs, 1 ≤ t.tid := by intro evs h; rw [h.1]; simp
  have hst : ∀ (st : St) i s r, sents (streamResponse st i s r).2 = [] := by
    intro st i s r
    rw [streamResponse]
    split
    · split
      · exact (beginClose_silent _ _).1
      · split
        · rfl
        · split <;> rfl
    · exact (beginClose_silent _ _).1
  have hh : ∀ (st : St) t s r, sents (handler st t s r).2 = [] := by
    intro st t s r
    rw [handler]
    split
    · rfl
    · rfl
    · exact hst _ _ _ _
  induction h with
  | nil => exact ⟨Nat.le_refl _, by simp [sents]⟩
  | @step ops st evs op st' evs' _ h ih =>
    have key : 1 ≤ st'.nextTID ∧ ∀ t ∈ sents evs', 1 ≤ t.tid := by
      cases op with
      | connect x w =>
        obtain ⟨-, h⟩ := guard_some h
        rw [connect] at h
        split at h
        · cases h; exact ⟨ih.1, by simp [sents]⟩
        · have := hx st x .connect w ih.1; rw [h] at this; exact this
      | transact x name w =>
        obtain ⟨-, h⟩ := guard_some h
        rw [transact] at h
        split at h
        · cases h; exact ⟨ih.1, by simp [sents]⟩
        · have := hx st x .user w ih.1; rw [h] at this; exact this
      | createStream w =>
        obtain ⟨-, h⟩ := guard_some h
        rw [createStream] at h
        split at h
        · cases h; exact ⟨ih.1, by simp [sents]⟩
        · have := hx { st with streams := st.streams ++ [⟨true, 0⟩] } 0 (.stream st.streams.length) w ih.1; rw [h] at this; exact this
      | deleteStream i =>
        obtain ⟨-, h⟩ := guard_some h
        cases h
        rw [(strmDelete_same st i).nextTID]; exact ⟨ih.1, by simp [sents]⟩
      | close e =>
        obtain ⟨-, h⟩ := guard_some h
        have h1 := beginClose_next st e
        have h2 := hs _ (beginClose_silent st e)
        rw [h] at h1 h2
        exact ⟨by rw [h1]; exact ih.1, h2⟩
      | response s b args =>
        obtain ⟨-, h⟩ := guard_some h
        rw [onTransactionResponse] at h
        split at h
        · cases h; exact ⟨ih.1, by simp [sents]⟩
        · rename_i t ht
          cases h
          refine ⟨by rw [handler_next]; exact ih.1, ?_⟩
          have := hh { st with txs := st.txs.filter (fun x => x.tid != t.tid) } t s (some (args.head?.getD .undef))
          intro y hy
          have e : ∀ a b c d e (l : List Ev), sents (.invoked a b c d e :: l) = sents l := fun _ _ _ _ _ _ => rfl
          rw [e, this] at hy
          simp at hy
      | connectEnd =>
        obtain ⟨-, h⟩ := guard_some h
        have h1 := beginClose_next { st with connectFailed := false } true
        have h2 := hs _ (beginClose_silent { st with connectFailed := false } true)
        rw [h] at h1 h2
        exact ⟨by rw [h1]; exact ih.1, h2⟩
      | closeNext =>
        rw [step] at h
        split at h
        · rename_i t rest hcl
          obtain ⟨-, h⟩ := guard_some h
          cases h
          refine ⟨by rw [handler_next]; exact ih.1, ?_⟩
          have := hh { st with closing := some rest } t false none
          intro y hy
          have e : ∀ a b c d e (l : List Ev), sents (.invoked a b c d e :: l) = sents l := fun _ _ _ _ _ _ => rfl
          rw [e, this] at hy
          simp at hy
        · simp at h
      | closeEnd =>
        rw [step] at h
        split at h
        · obtain ⟨-, h⟩ := guard_some h
          rw [closeEnd] at h
          have hs := fold_same st.net { st with txs := [], closing := none }
          dsimp only at h
          split at h
          · cases h; rw [hs.nextTID]; exact ⟨ih.1, by simp [sents]⟩
          · cases h; exact ⟨by show 1 ≤ (st.net.foldl (fun st e => strmDelete st e.2) { st with txs := [], closing := none }).nextTID; rw [hs.nextTID]; exact ih.1, by simp [sents]⟩
        · simp at h
    refine ⟨key.1, ?_⟩
    intro t ht
    rw [sents_append] at ht
    rcases List.mem_append.mp ht with ht | ht
    · exact ih.2 t ht
    · exact key.2 t ht

/-! ## the end -/

structure Life (st : St) (evs : List Ev) : Prop where
  status : nStatus evs = if st.userOpen then 0 else 1
  closed : nClosed evs = if st.userOpen || st.closing.isSome || st.aborted then 0 else 1
  closing : st.closing.isSome = true → st.userOpen = false
  aborted : st.aborted = true → st.userOpen = false ∧ st.closing = none

theorem nStatus_append (a b : List Ev) : nStatus (a ++ b) = nStatus a + nStatus b := by simp [nStatus]
theorem nClosed_append (a b : List Ev) : nClosed (a ++ b) = nClosed a + nClosed b := by simp [nClosed]

theorem Life.same {st st' : St} {evs evs' : List Ev} (h : Life st evs) (h1 : st'.userOpen = st.userOpen) (h2 : st'.closing.isSome = st.closing.isSome) (h3 : st'.aborted = st.aborted)
    (h4 : nStatus evs' = 0) (h5 : nClosed evs' = 0) : Life st' (evs ++ evs') := by
  obtain ⟨g1, g2, g3, g4⟩ := h
  refine ⟨by rw [nStatus_append, h4, h1, g1, Nat.add_zero], by rw [nClosed_append, h5, h1, h2, h3, g2, Nat.add_zero], by rw [h1, h2]; exact g3, ?_⟩
  intro ha
  rw [h3] at ha
  refine ⟨by rw [h1]; exact (g4 ha).1, ?_⟩
  have := (g4 ha).2
  rw [this] at h2
  simpa using h2

theorem Life.beginClose {st : St} {evs : List Ev} (h : Life st evs) (ha : st.aborted = false) (e : Bool) : Life (beginClose st e).1 (evs ++ (beginClose st e).2) := by
  rw [TCConn.beginClose]
  cases ho : st.userOpen with
  | true =>
    rw [if_neg (by simp)]
    obtain ⟨g1, g2, g3, g4⟩ := h
    rw [ho] at g1 g2
    refine ⟨?_, ?_, ?_, ?_⟩
    · rw [nStatus_append, g1]; rfl
    · rw [nClosed_append, g2]; rfl
    · intro _; rfl
    · intro hx; rw [show st.aborted = true from hx] at ha; simp at ha
  | false =>
    rw [if_pos (by simp)]
    simpa using h

theorem strmDelete_aborted (st : St) (i : Nat) : (strmDelete st i).aborted = st.aborted := by
  rw [strmDelete]
  split
  · rfl
  · rename_i s hs
    by_cases h : s.streamID ≠ 0
    · simp only [if_pos h]; rfl
    · simp only [if_neg h]

theorem fold_aborted (l : List (Nat × Nat)) : ∀ st : St, (l.foldl (fun st e => strmDelete st e.2) st).aborted = st.aborted := by
  induction l with
  | nil => intro st; rfl
  | cons e l ih => intro st; rw [List.foldl_cons, ih, strmDelete_aborted]

theorem Life.stream {st : St} {evs : List Ev} (h : Life st evs) (ha : st.aborted = false) (i : Nat) (s : Bool) (r : Option Val) :
    Life (streamResponse st i s r).1 (evs ++ (streamResponse st i s r).2) := by
  rw [streamResponse]
  have hsame := strmDelete_same st i
  have hd : Life (strmDelete st i) evs := by
    have := h.same (st' := strmDelete st i) (evs' := []) hsame.userOpen (by rw [hsame.closing]) (strmDelete_aborted st i) rfl rfl
    simpa using this
  have hda : (strmDelete st i).aborted = false := by rw [strmDelete_aborted]; exact ha
  split
  · split
    · exact hd.beginClose hda true
    · split
      · simpa using h
      · split
        · exact h.same rfl rfl rfl rfl rfl
        · exact h.same rfl rfl rfl rfl rfl
  · exact hd.beginClose hda true

theorem Life.handler {st : St} {evs : List Ev} (h : Life st evs) (ha : st.aborted = false) (t : Tx) (s : Bool) (r : Option Val) :
    Life (handler st t s r).1 (evs ++ (handler st t s r).2) := by
  rw [TCConn.handler]
  split
  · simpa using h
  · exact h.same rfl rfl rfl rfl rfl
  · exact h.stream ha _ s r

theorem Life.transact {st : St} {evs : List Ev} (h : Life st evs) (x : Nat) (k : Kind) (w : Bool) :
    Life (basicTransact st x k w).1 (evs ++ (basicTransact st x k w).2) := by
  cases w with
  | false => exact h.same rfl rfl rfl rfl rfl
  | true => exact h.same rfl rfl rfl rfl rfl

theorem step_life {st st' : St} {op : Op} {evs evs' : List Ev} (hI : Life st evs) (h : step st op = some (st', evs')) : Life st' (evs ++ evs') := by
  cases op with
  | connect x w =>
    obtain ⟨-, h⟩ := guard_some h
    rw [connect] at h
    split at h
    · cases h; simpa using hI
    · have := hI.transact x .connect w; rw [h] at this; exact this
  | transact x name w =>
    obtain ⟨-, h⟩ := guard_some h
    rw [transact] at h
    split at h
    · cases h; simpa using hI
    · have := hI.transact x .user w; rw [h] at this; exact this
  | createStream w =>
    obtain ⟨-, h⟩ := guard_some h
    rw [createStream] at h
    split at h
    · cases h; simpa using hI
    · have hI' : Life { st with streams := st.streams ++ [⟨true, 0⟩] } evs := ⟨hI.1, hI.2, hI.3, hI.4⟩
      have := hI'.transact 0 (.stream st.streams.length) w; rw [h] at this; exact this
  | deleteStream i =>
    obtain ⟨-, h⟩ := guard_some h
    cases h
    have hsame := strmDelete_same st i
    exact hI.same hsame.userOpen (by rw [hsame.closing]) (strmDelete_aborted st i) rfl rfl
  | close e =>
    obtain ⟨ha, h⟩ := guard_some h
    have := hI.beginClose ha e; rw [h] at this; exact this
  | response s b args =>
    obtain ⟨hc, h⟩ := guard_some h
    have ha : st.aborted = false := by cases hh : st.aborted <;> simp_all
    rw [onTransactionResponse] at h
    split at h
    · cases h; simpa using hI
    · rename_i t ht
      cases h
      have key : Life { st with txs := st.txs.filter (fun x => x.tid != t.tid) } (evs ++ [.invoked t.tid t.h t.kind s (some (args.head?.getD .undef))]) :=
        hI.same rfl rfl rfl rfl rfl
      have := key.handler ha t s (some (args.head?.getD .undef))
      simpa using this
  | connectEnd =>
    obtain ⟨hc, h⟩ := guard_some h
    have ha : st.aborted = false := by cases hh : st.aborted <;> simp_all
    have hI' : Life { st with connectFailed := false } evs := ⟨hI.1, hI.2, hI.3, hI.4⟩
    have := hI'.beginClose ha true
    rw [h] at this
    exact this
  | closeNext =>
    rw [step] at h
    split at h
    · rename_i t rest hcl
      obtain ⟨ha, h⟩ := guard_some h
      cases h
      have key : Life { st with closing := some rest } (evs ++ [.invoked t.tid t.h t.kind false none]) := hI.same rfl (by rw [hcl]; rfl) rfl rfl rfl
      have := key.handler ha t false none
      simpa using this
    · simp at h
  | closeEnd =>
    rw [step] at h
    split at h
    · rename_i hcl
      obtain ⟨ha, h⟩ := guard_some h
      have hu : st.userOpen = false := hI.closing (by rw [hcl]; rfl)
      have hs := fold_same st.net { st with txs := [], closing := none }
      have hfa := fold_aborted st.net { st with txs := [], closing := none }
      have g1 := hI.status
      have g2 := hI.closed
      rw [hu] at g1 g2
      rw [hcl] at g2
      rw [closeEnd] at h
      dsimp only at h
      generalize hF : st.net.foldl (fun st e => strmDelete st e.2) { st with txs := [], closing := none } = F at h hs hfa
      have u1 : F.userOpen = false := hs.userOpen.trans hu
      have u2 : F.closing = none := hs.closing
      split at h
      · cases h
        refine ⟨?_, ?_, ?_, ?_⟩
        · rw [nStatus_append, g1, u1]; rfl
        · rw [nClosed_append, g2, u1, u2, hfa]
          show _ = if (false || false || st.aborted) = true then 0 else 1
          rw [ha]; rfl
        · rw [u2]; simp
        · intro _; exact ⟨u1, u2⟩
      · cases h
        refine ⟨?_, ?_, ?_, ?_⟩
        · rw [nStatus_append, g1]; show _ = if F.userOpen = true then 0 else 1; rw [u1]; rfl
        · rw [nClosed_append, g2]
          show _ = if (F.userOpen || F.closing.isSome || true) = true then 0 else 1
          simp [nClosed]
        · intro hx; exact u1
        · intro _; exact ⟨u1, u2⟩
    · simp at h

theorem run_life {ops : List Op} {st : St} {evs : List Ev} (h : Run ops st evs) : Life st evs := by
  induction h with
  | nil => exact ⟨rfl, rfl, by simp, by simp⟩
  | step _ hs ih => exact step_life ih hs

end TCConn
end Rtmfp
