import Verif.Lemmas.TCConn
namespace Rtmfp
namespace TCConn
open AMF (Val)

/-- the map of streams and the streams agree, apart from the id 0 -/
structure Core (st : St) : Prop where
  net : ∀ id i, (id, i) ∈ st.net → id ≠ 0 → st.streams[i]? = some ⟨true, id⟩
  str : ∀ i s, st.streams[i]? = some s → s.streamID ≠ 0 → (s.streamID, i) ∈ st.net ∧ s.userOpen = true
  keys : st.net.Pairwise (fun a b => a.1 ≠ b.1)

theorem strmDelete_net (st : St) (i : Nat) : (strmDelete st i).net = match st.streams[i]? with
    | none => st.net
    | some s => if s.streamID ≠ 0 then st.net.filter (fun e => e.1 != s.streamID) else st.net := by
  rw [strmDelete]
  cases st.streams[i]? with
  | none => rfl
  | some s =>
    by_cases h : s.streamID ≠ 0
    · simp only [if_pos h]; rfl
    · simp only [if_neg h]

theorem strmDelete_streams (st : St) (i : Nat) : (strmDelete st i).streams = st.streams.set i ⟨false, 0⟩ := by
  rw [strmDelete]
  cases h : st.streams[i]? with
  | none =>
    rw [List.getElem?_eq_none_iff] at h
    rw [List.set_eq_of_length_le h]
  | some s =>
    by_cases hs : s.streamID ≠ 0
    · simp only [if_pos hs]; rfl
    · simp only [if_neg hs]

theorem strmDelete_net_sub (st : St) (i : Nat) : ∀ e ∈ (strmDelete st i).net, e ∈ st.net := by
  intro e he
  rw [strmDelete_net] at he
  split at he
  · exact he
  · split at he
    · exact (List.mem_filter.mp he).1
    · exact he

theorem set_get (l : List Strm) (i j : Nat) (x : Strm) (h : i < l.length) : (l.set i x)[j]? = if i = j then some x else l[j]? := by
  rw [List.getElem?_set]
  by_cases hij : i = j
  · subst hij; simp [h]
  · simp [hij]

theorem set_get_le (l : List Strm) (i j : Nat) (s x : Strm) (h : (l.set i x)[j]? = some s) : (i = j ∧ s = x) ∨ (i ≠ j ∧ l[j]? = some s) := by
  rw [List.getElem?_set] at h
  by_cases hij : i = j
  · subst hij
    left
    by_cases hl : i < l.length
    · simp [hl] at h; exact ⟨rfl, h.symm⟩
    · simp [hl] at h
  · right
    simp [hij] at h
    exact ⟨hij, h⟩

theorem Core.delete {st : St} (h : Core st) (i : Nat) : Core (strmDelete st i) := by
  constructor
  · intro id j hm hid
    have hm0 := strmDelete_net_sub st i _ hm
    have hj := h.net id j hm0 hid
    rw [strmDelete_streams]
    have hne : i ≠ j := by
      intro he; subst he
      rw [strmDelete_net, hj] at hm
      simp only [if_pos hid] at hm
      have := (List.mem_filter.mp hm).2
      simp at this
    rw [List.getElem?_set]
    simp [hne, hj]
  · intro j s hs hid
    rw [strmDelete_streams] at hs
    rcases set_get_le _ _ _ _ _ hs with ⟨-, rfl⟩ | ⟨hne, hs⟩
    · exact absurd rfl hid
    · have := h.str j s hs hid
      refine ⟨?_, this.2⟩
      rw [strmDelete_net]
      split
      · exact this.1
      · rename_i s' hs'
        split
        · rename_i hs0
          rw [List.mem_filter]
          refine ⟨this.1, ?_⟩
          simp only [bne_iff_ne, ne_eq]
          intro he
          have h1 := h.str i s' hs' hs0
          have h2 := this.1
          rw [he] at h2
          -- the same key twice
          have hk := h.keys
          have := h.net _ _ h1.1 hs0
          have h3 := h.net _ _ h2 hs0
          have : i = j := by
            clear hs hs' this h3
            generalize st.net = l at hk h1 h2
            induction l with
            | nil => simp at h2
            | cons a l ih =>
              rw [List.pairwise_cons] at hk
              rcases List.mem_cons.mp h1.1 with ha | ha
              · rcases List.mem_cons.mp h2 with hb | hb
                · rw [← ha] at hb; simpa using hb.symm
                · have := hk.1 _ hb; rw [← ha] at this; simp at this
              · rcases List.mem_cons.mp h2 with hb | hb
                · have := hk.1 _ ha; rw [← hb] at this; simp at this
                · exact ih hk.2 ⟨ha, h1.2⟩ hb
          exact hne this
        · exact this.1
  · rw [strmDelete_net]
    split
    · exact h.keys
    · split
      · exact h.keys.filter _
      · exact h.keys

theorem Core.delete_gone {st : St} (h : Core st) (id i : Nat) (hid : id ≠ 0) : (id, i) ∉ (strmDelete st i).net := by
  intro hm
  have := (h.delete i).net id i hm hid
  rw [strmDelete_streams] at this
  rcases set_get_le _ _ _ _ _ this with ⟨-, he⟩ | ⟨hne, -⟩
  · cases he
  · exact hne rfl

theorem fold_net (l : List (Nat × Nat)) : ∀ st : St, Core st → (∀ e ∈ st.net, e.1 ≠ 0) → (∀ e ∈ st.net, e ∈ l) →
    (l.foldl (fun st e => strmDelete st e.2) st).net = [] := by
  induction l with
  | nil =>
    intro st _ _ h
    cases hn : st.net with
    | nil => exact hn
    | cons e t => rw [hn] at h; exact absurd (h e (by simp)) (by simp)
  | cons e l ih =>
    intro st hc h0 h
    rw [List.foldl_cons]
    apply ih _ (hc.delete e.2)
    · intro x hx; exact h0 x (strmDelete_net_sub st e.2 x hx)
    · intro x hx
      have hx0 := strmDelete_net_sub st e.2 x hx
      rcases List.mem_cons.mp (h x hx0) with rfl | hl
      · exact absurd hx (hc.delete_gone x.1 x.2 (h0 x hx0))
      · exact hl

theorem fold_core (l : List (Nat × Nat)) : ∀ st : St, Core st → Core (l.foldl (fun st e => strmDelete st e.2) st) := by
  induction l with
  | nil => intro st h; exact h
  | cons e l ih => intro st h; exact ih _ (h.delete e.2)

theorem opens_append (a b : List Ev) : opens (a ++ b) = opens a ++ opens b := by simp [opens]

structure SInv (st : St) (evs : List Ev) : Prop where
  core : Core st
  zero : ∀ i, (0, i) ∈ st.net → (i, 0) ∈ opens evs
  opened : (opens evs).Pairwise (fun a b => a.1 ≠ b.1)
  range : ∀ e ∈ opens evs, e.1 < st.streams.length
  pend : ∀ t ∈ pend st, ∀ i, t.kind = .stream i → i < st.streams.length ∧ (∀ s, st.streams[i]? = some s → s.streamID = 0) ∧ ∀ e ∈ opens evs, e.1 ≠ i
  distinct : ∀ t ∈ TCConn.pend st, ∀ t' ∈ TCConn.pend st, ∀ i, t.kind = .stream i → t'.kind = .stream i → t = t'
  dead : ∀ (i : Nat) (s : Strm), st.streams[i]? = some s → s.userOpen = false → s.streamID = 0

/-- nothing changes about streams, and what is pending was -/
theorem SInv.same {st st' : St} {evs evs' : List Ev} (h : SInv st evs) (h1 : st'.streams = st.streams) (h2 : st'.net = st.net)
    (h3 : ∀ t ∈ TCConn.pend st', t ∈ TCConn.pend st) (h4 : opens evs' = []) : SInv st' (evs ++ evs') := by
  have e : opens (evs ++ evs') = opens evs := by rw [opens_append, h4, List.append_nil]
  obtain ⟨⟨g1, g2, g3⟩, g4, g5, g6, g7, g8, g9⟩ := h
  refine ⟨⟨?_, ?_, ?_⟩, ?_, ?_, ?_, ?_, ?_, ?_⟩
  · rw [h1, h2]; exact g1
  · rw [h1, h2]; exact g2
  · rw [h2]; exact g3
  · rw [h2, e]; exact g4
  · rw [e]; exact g5
  · rw [e, h1]; exact g6
  · rw [e, h1]; exact fun t ht => g7 t (h3 t ht)
  · exact fun t ht t' ht' => g8 t (h3 t ht) t' (h3 t' ht')
  · rw [h1]; exact g9

theorem SInv.delete {st : St} {evs : List Ev} (h : SInv st evs) (i : Nat) : SInv (strmDelete st i) evs := by
  have hs := strmDelete_same st i
  have hp : TCConn.pend (strmDelete st i) = TCConn.pend st := by rw [TCConn.pend, TCConn.pend, hs.closing, hs.txs]
  refine ⟨h.core.delete i, ?_, h.opened, ?_, ?_, ?_, ?_⟩
  · intro j hj; exact h.zero j (strmDelete_net_sub st i _ hj)
  · rw [strmDelete_streams, List.length_set]; exact h.range
  · rw [hp, strmDelete_streams, List.length_set]
    intro t ht j hk
    obtain ⟨g1, g2, g3⟩ := h.pend t ht j hk
    refine ⟨g1, ?_, g3⟩
    intro s hh
    rcases set_get_le _ _ _ _ _ hh with ⟨-, rfl⟩ | ⟨-, hh⟩
    · rfl
    · exact g2 s hh
  · rw [hp]; exact h.distinct
  · rw [strmDelete_streams]
    intro j s hh ho
    rcases set_get_le _ _ _ _ _ hh with ⟨-, rfl⟩ | ⟨-, hh⟩
    · rfl
    · exact h.dead j s hh ho

theorem SInv.beginClose {st : St} {evs : List Ev} (h : SInv st evs) (hc : st.closing.isSome = true → st.userOpen = false) (e : Bool) : SInv (beginClose st e).1 (evs ++ (beginClose st e).2) := by
  rw [TCConn.beginClose]
  cases ho : st.userOpen with
  | false => rw [if_pos (by simp)]; simpa using h
  | true =>
    rw [if_neg (by simp)]
    have hcl : st.closing = none := by
      cases hx : st.closing with
      | none => rfl
      | some r => have := hc (by rw [hx]; rfl); rw [ho] at this; simp at this
    refine h.same rfl rfl ?_ rfl
    intro t ht
    have ht : t ∈ st.txs := ht
    rw [TCConn.pend, hcl]
    exact ht

theorem beginClose_ok (st : St) (hc : st.closing.isSome = true → st.userOpen = false) (e : Bool) :
    (beginClose st e).1.closing.isSome = true → (beginClose st e).1.userOpen = false := by
  rw [beginClose]
  split
  · exact hc
  · intro _; rfl

theorem SInv.stream {st : St} {evs : List Ev} (h : SInv st evs) (hc : st.closing.isSome = true → st.userOpen = false) (i : Nat) (sc : Bool) (r : Option Val)
    (h1 : i < st.streams.length) (h2 : ∀ s, st.streams[i]? = some s → s.streamID = 0) (h3 : ∀ e ∈ opens evs, e.1 ≠ i)
    (h4 : ∀ t ∈ TCConn.pend st, t.kind ≠ .stream i) : SInv (streamResponse st i sc r).1 (evs ++ (streamResponse st i sc r).2) := by
  have hs := strmDelete_same st i
  have hd := (h.delete i).beginClose (by rw [hs.closing, hs.userOpen]; exact hc) true
  rw [streamResponse]
  split
  · rename_i id hid
    split
    · exact hd
    · rename_i hnot
      have hnew : ∀ e ∈ st.net, e.1 ≠ id := by
        intro e he hh
        apply hnot
        rw [List.any_eq_true]
        exact ⟨e, he, by simp [hh]⟩
      split
      · simpa using h
      · rename_i s hsi
        have hs0 := h2 s hsi
        split
        · -- opened
          have eo : opens (evs ++ [.opened i id]) = opens evs ++ [(i, id)] := by rw [opens_append]; rfl
          refine ⟨⟨?_, ?_, ?_⟩, ?_, ?_, ?_, ?_, ?_, ?_⟩
          · intro id' j hm hne
            show (st.streams.set i ⟨true, id⟩)[j]? = _
            rw [set_get _ _ _ _ h1]
            rcases List.mem_append.mp hm with hm | hm
            · have hj := h.core.net id' j hm hne
              have : i ≠ j := by intro he; subst he; rw [hsi] at hj; cases hj; exact hne hs0
              rw [if_neg this]; exact hj
            · simp at hm; obtain ⟨rfl, rfl⟩ := hm; rw [if_pos rfl]
          · intro j s' hh hne
            rcases set_get_le _ _ _ _ _ hh with ⟨rfl, rfl⟩ | ⟨-, hh⟩
            · exact ⟨List.mem_append_right _ (by simp), rfl⟩
            · have := h.core.str j s' hh hne
              exact ⟨List.mem_append_left _ this.1, this.2⟩
          · show (st.net ++ [(id, i)]).Pairwise _
            rw [List.pairwise_append]
            refine ⟨h.core.keys, by simp, ?_⟩
            intro a ha b hb
            simp at hb
            subst hb
            exact hnew a ha
          · intro j hj
            rw [eo]
            rcases List.mem_append.mp hj with hj | hj
            · exact List.mem_append_left _ (h.zero j hj)
            · simp at hj; obtain ⟨rfl, rfl⟩ := hj; simp
          · rw [eo, List.pairwise_append]
            refine ⟨h.opened, by simp, ?_⟩
            intro a ha b hb
            simp at hb
            subst hb
            exact h3 a ha
          · rw [eo]
            show ∀ e ∈ opens evs ++ [(i, id)], e.1 < (st.streams.set i ⟨true, id⟩).length
            rw [List.length_set]
            intro e he
            rcases List.mem_append.mp he with he | he
            · exact h.range e he
            · simp at he; subst he; exact h1
          · rw [eo]
            intro t ht j hk
            have ht : t ∈ TCConn.pend st := ht
            obtain ⟨g1, g2, g3⟩ := h.pend t ht j hk
            have hij : i ≠ j := by intro he; subst he; exact h4 t ht hk
            refine ⟨?_, ?_, ?_⟩
            · show j < (st.streams.set i ⟨true, id⟩).length
              rw [List.length_set]; exact g1
            · intro s' hh
              rcases set_get_le _ _ _ _ _ hh with ⟨he, -⟩ | ⟨-, hh⟩
              · exact absurd he hij
              · exact g2 s' hh
            · intro e he
              rcases List.mem_append.mp he with he | he
              · exact g3 e he
              · simp at he; subst he; exact hij
          · exact h.distinct
          · intro j s' hh ho
            rcases set_get_le _ _ _ _ _ hh with ⟨-, rfl⟩ | ⟨-, hh⟩
            · simp at ho
            · exact h.dead j s' hh ho
        · -- deleted meanwhile: the map is as before
          have hn : (netErase { st with net := st.net ++ [(id, i)] } id).net = st.net := by
            show (st.net ++ [(id, i)]).filter (fun e => e.1 != id) = st.net
            rw [List.filter_append]
            have : st.net.filter (fun e => e.1 != id) = st.net := by
              rw [List.filter_eq_self]; intro e he; simpa using hnew e he
            rw [this]; simp
          exact h.same rfl hn (fun t ht => ht) rfl
  · exact hd

theorem handler_sinv {st : St} {evs : List Ev} (h : SInv st evs) (hc : st.closing.isSome = true → st.userOpen = false) (t : Tx) (sc : Bool) (r : Option Val)
    (ht : ∀ i, t.kind = .stream i → i < st.streams.length ∧ (∀ s, st.streams[i]? = some s → s.streamID = 0) ∧ (∀ e ∈ opens evs, e.1 ≠ i) ∧ ∀ t' ∈ TCConn.pend st, t'.kind ≠ .stream i) :
    SInv (handler st t sc r).1 (evs ++ (handler st t sc r).2) := by
  rw [handler]
  split
  · simpa using h
  · exact h.same rfl rfl (fun t ht => ht) rfl
  · rename_i i hk
    obtain ⟨g1, g2, g3, g4⟩ := ht i hk
    exact h.stream hc i sc r g1 g2 g3 g4

theorem SInv.transact {st : St} {evs : List Ev} (h : SInv st evs) (hcl : st.closing = none) (x : Nat) (k : Kind) (w : Bool) (hl : ∀ t ∈ st.txs, t.tid < st.nextTID)
    (hk : ∀ i, k = .stream i → i < st.streams.length ∧ (∀ s, st.streams[i]? = some s → s.streamID = 0) ∧ (∀ e ∈ opens evs, e.1 ≠ i) ∧ ∀ t' ∈ TCConn.pend st, t'.kind ≠ .stream i) :
    SInv (basicTransact st x k w).1 (evs ++ (basicTransact st x k w).2) := by
  cases w with
  | false => exact h.same rfl rfl (fun t ht => ht) rfl
  | true =>
    have e : basicTransact st x k true = ({ st with nextTID := incr st.nextTID, txs := putTx st.txs ⟨st.nextTID, x, k⟩ }, [.sent st.nextTID x k]) := rfl
    rw [e, putTx_last _ _ hl]
    have eo : opens (evs ++ [.sent st.nextTID x k]) = opens evs := by rw [opens_append]; exact List.append_nil _
    have ep : TCConn.pend { st with nextTID := incr st.nextTID, txs := st.txs ++ [⟨st.nextTID, x, k⟩] } = TCConn.pend st ++ [⟨st.nextTID, x, k⟩] := by
      simp only [TCConn.pend, hcl]
    refine ⟨⟨h.core.1, h.core.2, h.core.3⟩, by rw [eo]; exact h.zero, by rw [eo]; exact h.opened, by rw [eo]; exact h.range, ?_, ?_, h.dead⟩
    · show ∀ t ∈ TCConn.pend { st with nextTID := incr st.nextTID, txs := st.txs ++ [⟨st.nextTID, x, k⟩] }, _
      rw [ep, eo]
      intro t ht i hi
      rcases List.mem_append.mp ht with ht | ht
      · exact h.pend t ht i hi
      · simp at ht; subst ht
        obtain ⟨g1, g2, g3, -⟩ := hk i hi
        exact ⟨g1, g2, g3⟩
    · show ∀ t ∈ TCConn.pend { st with nextTID := incr st.nextTID, txs := st.txs ++ [⟨st.nextTID, x, k⟩] }, _
      rw [ep]
      intro t ht t' ht' i hi hi'
      rcases List.mem_append.mp ht with ht | ht
      · rcases List.mem_append.mp ht' with ht' | ht'
        · exact h.distinct t ht t' ht' i hi hi'
        · simp at ht'; subst ht'; exact absurd hi ((hk i hi').2.2.2 t ht)
      · simp at ht; subst ht
        rcases List.mem_append.mp ht' with ht' | ht'
        · exact absurd hi' ((hk i hi).2.2.2 t' ht')
        · simp at ht'; exact ht'.symm

theorem step_sinv {st st' : St} {op : Op} {evs evs' : List Ev} (hI : Inv st evs) (hb : st.nextTID < 2 ^ 53) (hS : SInv st evs) (h : step st op = some (st', evs')) :
    SInv st' (evs ++ evs') := by
  have hcl : st.userOpen = true → st.closing = none := by
    intro ho
    cases hx : st.closing with
    | none => rfl
    | some r => have := hI.closing (by rw [hx]; rfl); rw [ho] at this; simp at this
  have hlt : st.closing = none → ∀ t ∈ st.txs, t.tid < st.nextTID := by
    intro hc t ht
    have : t ∈ TCConn.pend st := by rw [TCConn.pend, hc]; exact ht
    rw [hI.pend, mem_unanswered] at this
    exact hI.lt t this.1
  cases op with
  | connect x w =>
    obtain ⟨-, h⟩ := guard_some h
    rw [connect] at h
    split at h
    · cases h; simpa using hS
    · rename_i hc
      have ho : st.userOpen = true := by cases ho : st.userOpen <;> simp_all
      have := hS.transact (hcl ho) x .connect w (hlt (hcl ho)) (by intro i hi; simp at hi)
      rw [h] at this
      exact this
  | transact x name w =>
    obtain ⟨-, h⟩ := guard_some h
    rw [transact] at h
    split at h
    · cases h; simpa using hS
    · rename_i hc
      have ho : st.userOpen = true := by
        cases ho : st.userOpen with
        | true => rfl
        | false => exfalso; apply hc; simp [validateCommandName, ho]
      have := hS.transact (hcl ho) x .user w (hlt (hcl ho)) (by intro i hi; simp at hi)
      rw [h] at this
      exact this
  | createStream w =>
    obtain ⟨-, h⟩ := guard_some h
    rw [createStream] at h
    split at h
    · cases h; simpa using hS
    · rename_i hc
      have ho : st.userOpen = true := by cases ho : st.userOpen <;> simp_all
      have hget : ∀ j s, (st.streams ++ [(⟨true, 0⟩ : Strm)])[j]? = some s → st.streams[j]? = some s ∨ (j = st.streams.length ∧ s = ⟨true, 0⟩) := by
        intro j s hj
        by_cases hlt : j < st.streams.length
        · rw [List.getElem?_append_left hlt] at hj; exact Or.inl hj
        · rw [List.getElem?_append_right (by omega)] at hj
          right
          have : j - st.streams.length = 0 := by
            rw [List.getElem?_eq_some_iff] at hj
            obtain ⟨hx, -⟩ := hj
            simp at hx
            omega
          rw [this] at hj
          simp at hj
          exact ⟨by omega, hj.symm⟩
      have hS' : SInv { st with streams := st.streams ++ [⟨true, 0⟩] } evs := by
        refine ⟨⟨?_, ?_, hS.core.keys⟩, hS.zero, hS.opened, ?_, ?_, hS.distinct, ?_⟩
        · intro id i hm hid
          have := hS.core.net id i hm hid
          show (st.streams ++ _)[i]? = _
          have hlt : i < st.streams.length := by rw [List.getElem?_eq_some_iff] at this; exact this.1
          rw [List.getElem?_append_left hlt]; exact this
        · intro i s hs hid
          rcases hget i s hs with hs | ⟨-, rfl⟩
          · exact hS.core.str i s hs hid
          · exact absurd rfl hid
        · intro e he
          have := hS.range e he
          show e.1 < (st.streams ++ _).length
          rw [List.length_append]; omega
        · intro t ht i hi
          obtain ⟨g1, g2, g3⟩ := hS.pend t ht i hi
          refine ⟨by show i < (st.streams ++ _).length; rw [List.length_append]; omega, ?_, g3⟩
          intro s hs
          rcases hget i s hs with hs | ⟨-, rfl⟩
          · exact g2 s hs
          · rfl
        · intro i s hs hu
          rcases hget i s hs with hs | ⟨-, rfl⟩
          · exact hS.dead i s hs hu
          · rfl
      have := hS'.transact (hcl ho) 0 (.stream st.streams.length) w (hlt (hcl ho)) (by
        intro i hi
        cases hi
        refine ⟨by show _ < (st.streams ++ _).length; rw [List.length_append]; simp, ?_, ?_, ?_⟩
        · intro s hs
          rcases hget _ s hs with hs | ⟨-, rfl⟩
          · rw [List.getElem?_eq_some_iff] at hs; obtain ⟨hx, -⟩ := hs; omega
          · rfl
        · intro e he; have := hS.range e he; omega
        · intro t ht hk
          obtain ⟨g1, -⟩ := hS.pend t ht _ hk
          omega)
      rw [h] at this
      exact this
  | deleteStream i =>
    obtain ⟨-, h⟩ := guard_some h
    cases h
    simpa using hS.delete i
  | close e =>
    obtain ⟨-, h⟩ := guard_some h
    have := hS.beginClose hI.closing e
    rw [h] at this
    exact this
  | response s b args =>
    obtain ⟨hc, h⟩ := guard_some h
    rw [onTransactionResponse] at h
    have hcn : st.closing = none := by cases hcc : st.closing <;> simp_all
    split at h
    · cases h; simpa using hS
    · rename_i t ht
      cases h
      have hp : TCConn.pend st = st.txs := by rw [TCConn.pend, hcn]
      have htm : t ∈ TCConn.pend st := by rw [hp]; exact findTx_mem ht
      have hp' : TCConn.pend { st with txs := st.txs.filter (fun x => x.tid != t.tid) } = st.txs.filter (fun x => x.tid != t.tid) := by
        simp only [TCConn.pend, hcn]
      have key : SInv { st with txs := st.txs.filter (fun x => x.tid != t.tid) } (evs ++ [.invoked t.tid t.h t.kind s (some (args.head?.getD .undef))]) := by
        refine hS.same rfl rfl ?_ rfl
        intro x hx
        rw [hp'] at hx
        rw [hp]; exact (List.mem_filter.mp hx).1
      have := handler_sinv key hI.closing t s (some (args.head?.getD .undef)) (by
        intro i hi
        obtain ⟨g1, g2, g3⟩ := hS.pend t htm i hi
        refine ⟨g1, g2, ?_, ?_⟩
        · rw [opens_append, show opens [Ev.invoked t.tid t.h t.kind s (some (args.head?.getD .undef))] = [] from rfl, List.append_nil]; exact g3
        · intro t' ht' hk
          rw [hp'] at ht'
          have hx := List.mem_filter.mp ht'
          have := hS.distinct t htm t' (by rw [hp]; exact hx.1) i hi hk
          subst this
          simp at hx)
      simpa using this
  | connectEnd =>
    obtain ⟨-, h⟩ := guard_some h
    have hS' : SInv { st with connectFailed := false } evs := by
      have := hS.same (st' := { st with connectFailed := false }) (evs' := []) rfl rfl (fun t ht => ht) rfl
      simpa using this
    have := hS'.beginClose hI.closing true
    rw [h] at this
    exact this
  | closeNext =>
    rw [step] at h
    split at h
    · rename_i t rest hcl
      obtain ⟨-, h⟩ := guard_some h
      cases h
      have hp : TCConn.pend st = t :: rest := by rw [TCConn.pend, hcl]
      have key : SInv { st with closing := some rest } (evs ++ [.invoked t.tid t.h t.kind false none]) := by
        refine hS.same rfl rfl ?_ rfl
        intro x hx
        have hx : x ∈ rest := hx
        rw [hp]; exact List.mem_cons_of_mem _ hx
      have hu := hI.closing (by rw [hcl]; rfl)
      have hsort := hI.pendSorted
      rw [hp, List.pairwise_cons] at hsort
      have := handler_sinv key (fun _ => hu) t false none (by
        intro i hi
        obtain ⟨g1, g2, g3⟩ := hS.pend t (by rw [hp]; simp) i hi
        refine ⟨g1, g2, ?_, ?_⟩
        · rw [opens_append, show opens [Ev.invoked t.tid t.h t.kind false none] = [] from rfl, List.append_nil]; exact g3
        · intro t' ht' hk
          have ht' : t' ∈ rest := ht'
          have := hS.distinct t (by rw [hp]; simp) t' (by rw [hp]; exact List.mem_cons_of_mem _ ht') i hi hk
          subst this
          have := hsort.1 t ht'
          omega)
      simpa using this
    · simp at h
  | closeEnd =>
    rw [step] at h
    split at h
    · obtain ⟨-, h⟩ := guard_some h
      have hS' : SInv { st with txs := [], closing := none } evs := by
        have := hS.same (st' := { st with txs := [], closing := none }) (evs' := []) rfl rfl (fun t ht => absurd (show t ∈ ([] : List Tx) from ht) (by simp)) rfl
        simpa using this
      have hf : ∀ (l : List (Nat × Nat)) (st : St), SInv st evs → SInv (l.foldl (fun st e => strmDelete st e.2) st) evs := by
        intro l
        induction l with
        | nil => intro st h; exact h
        | cons e l ih => intro st h; exact ih _ (h.delete e.2)
      have hF := hf st.net _ hS'
      rw [closeEnd] at h
      dsimp only at h
      split at h
      · cases h; exact hF.same rfl rfl (fun t ht => ht) rfl
      · cases h; exact hF.same (evs' := []) (st' := { (st.net.foldl (fun st e => strmDelete st e.2) { st with txs := [], closing := none }) with aborted := true }) rfl rfl (fun t ht => ht) rfl
    · simp at h

theorem run_sinv {ops : List Op} {st : St} {evs : List Ev} (h : Run ops st evs) (hl : ops.length < 2 ^ 53) : SInv st evs := by
  induction h with
  | nil =>
    refine ⟨⟨?_, ?_, ?_⟩, ?_, ?_, ?_, ?_, ?_, ?_⟩ <;> simp [opens, pend]
  | @step ops st evs op st' evs' hr hs ih =>
    rw [List.length_append, List.length_singleton] at hl
    have := run_inv hr
    exact step_sinv (this.2 (by omega)) (by omega) (ih (by omega)) hs

end TCConn
end Rtmfp
