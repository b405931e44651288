import Verif.Lemmas.RTWSendRun

/-!
# Sending flows: calls, callbacks and the steps that send
-/

namespace Rtmfp.RTWS

open Rtmfp.Spec.Flows

/-- What calls by the application can't change. -/
structure Keep (a b : St) : Prop where
  nS : a.nS ≤ b.nS
  trim : b.trimming = a.trimming
  held : a.trimming.isSome → b.up = a.up
  up : b.up = true → a.up = true
  flow : ∀ s, s < a.nS → (b.S s).opening = (a.S s).opening ∧ (b.S s).id = (a.S s).id ∧ (b.S s).shut = (a.S s).shut ∧
    (b.S s).sent = (a.S s).sent ∧ (b.S s).through = (a.S s).through ∧ (b.S s).acked = (a.S s).acked
  head : ∀ s m, s < a.nS → (a.S s).buf.head? = .some m → m.fin = true → (b.S s).buf.head? = .some m
  fin : ∀ s, (s < a.nS → ∀ m ∈ (a.S s).buf, m.fin = false) → s < b.nS → ∀ m ∈ (b.S s).buf, m.fin = false

theorem Keep.refl (a : St) : Keep a a :=
  ⟨Nat.le_refl _, rfl, fun _ => rfl, fun h => h, fun _ _ => ⟨rfl, rfl, rfl, rfl, rfl, rfl⟩, fun _ _ _ h _ => h, fun _ h hs => h hs⟩

theorem Keep.trans {a b c : St} (h : Keep a b) (k : Keep b c) : Keep a c where
  nS := Nat.le_trans h.nS k.nS
  trim := k.trim.trans h.trim
  held := fun x => (k.held (by rw [h.trim]; exact x)).trans (h.held x)
  up := fun x => h.up (k.up x)
  flow := fun s hs => by
    obtain ⟨a1, a2, a3, a4, a5, a6⟩ := h.flow s hs
    obtain ⟨b1, b2, b3, b4, b5, b6⟩ := k.flow s (Nat.lt_of_lt_of_le hs h.nS)
    exact ⟨b1.trans a1, b2.trans a2, b3.trans a3, b4.trans a4, b5.trans a5, b6.trans a6⟩
  head := fun s m hs hm hf => k.head s m (Nat.lt_of_lt_of_le hs h.nS) (h.head s m hs hm hf) hf
  fin := fun s hs hc => k.fin s (fun hb => h.fin s hs hb) hc

theorem SameS.keep {a b : St} (h : SameS a b) : Keep a b :=
  ⟨Nat.le_of_eq h.nS.symm, h.trim, fun _ => h.up, fun x => by rw [← h.up]; exact x,
    fun s _ => by rw [h.S]; exact ⟨rfl, rfl, rfl, rfl, rfl, rfl⟩, fun s m _ hm _ => by rw [h.S]; exact hm,
    fun s hs hb => by rw [h.S]; exact hs (by rw [← h.nS]; exact hb)⟩

/-- A change to one flow of the kind a call makes. -/
theorem keep_setS (st : St) (s : Nat) (f : SFlow) (h1 : f.opening = (st.S s).opening) (h2 : f.id = (st.S s).id)
    (h3 : f.shut = (st.S s).shut) (h4 : f.sent = (st.S s).sent) (h5 : f.through = (st.S s).through) (h6 : f.acked = (st.S s).acked)
    (h7 : ∀ m, (st.S s).buf.head? = .some m → m.fin = true → f.buf.head? = .some m)
    (h8 : ∀ m ∈ f.buf, m ∈ (st.S s).buf ∨ m.fin = false) : Keep st (setS st s f) where
  nS := Nat.le_refl _
  trim := rfl
  held := fun _ => rfl
  up := fun h => h
  flow := fun t _ => by
    by_cases e : t = s
    · subst e; simp [setS, *]
    · simp [setS, e]
  head := fun t m _ hm hf => by
    by_cases e : t = s
    · subst e; simp [setS, h7 m hm hf]
    · simp [setS, e, hm]
  fin := fun t ht hb m hm => by
    by_cases e : t = s
    · subst e
      simp only [setS, if_true] at hm
      rcases h8 m hm with h | h
      · exact ht hb m h
      · exact h
    · simp only [setS, if_neg e] at hm
      exact ht hb m hm

theorem keep_note (st : St) (e : Ev) : Keep st (note st e) :=
  ⟨Nat.le_refl _, rfl, fun _ => rfl, fun h => h, fun _ _ => ⟨rfl, rfl, rfl, rfl, rfl, rfl⟩, fun _ _ _ h _ => h, fun _ h hs => h hs⟩

theorem keep_openFlow (st : St) (id : Nat) (ret : Option Nat) (about : Bytes) (pri : Nat) : Keep st (openFlow st id ret about pri) := by
  unfold openFlow
  split
  · dsimp only
    refine Keep.trans ?_ (same_queueTx _ _).keep
    refine ⟨by simp, rfl, fun _ => rfl, fun h => h, ?_, ?_, ?_⟩
    · intro s hs
      have : s ≠ st.nS := by omega
      simp [setS, this]
    · intro s m hs hm _
      have : s ≠ st.nS := by omega
      simp [setS, this, hm]
    · intro s hs hb m hm
      by_cases e : s = st.nS
      · simp [setS, e] at hm
      · simp only [setS, if_neg e] at hm
        have hb' : s < st.nS + 1 := hb
        exact hs (by omega) m hm
  · exact Keep.refl _

theorem keep_write (st : St) (s : Nat) (b : Bytes) : Keep st (write st s b) := by
  unfold write
  dsimp only
  split
  · refine Keep.trans ?_ (same_queueTx _ _).keep
    refine Keep.trans ?_ (keep_note _ _)
    refine Keep.trans (b := { st with wild := st.wild || decide (st.trimming = .some s) }) ?_ (keep_setS _ _ _ rfl rfl rfl rfl rfl rfl ?_ ?_)
    · exact ⟨Nat.le_refl _, rfl, fun _ => rfl, fun h => h, fun _ _ => ⟨rfl, rfl, rfl, rfl, rfl, rfl⟩, fun _ _ _ h _ => h, fun _ h hs => h hs⟩
    · intro m hm _
      cases hb : (st.S s).buf with
      | nil => simp [hb] at hm
      | cons a l => simpa [hb] using hm
    · intro m hm
      simp only [List.mem_append, List.mem_singleton] at hm
      rcases hm with hm | hm
      · exact Or.inl hm
      · right; subst hm; rfl
  · exact Keep.refl _

theorem keep_closeS (st : St) (s : Nat) : Keep st (closeS st s) := by
  unfold closeS
  split
  · refine Keep.trans ?_ (same_queueTx _ _).keep
    apply keep_setS <;> first | rfl | exact fun _ h _ => h | exact fun _ h => Or.inl h
  · exact Keep.refl _

theorem keep_setPriority (st : St) (s p : Nat) : Keep st (setPriority st s p) := by
  unfold setPriority
  split
  · refine Keep.trans ?_ (same_queueTx _ _).keep
    apply keep_setS <;> first | rfl | exact fun _ h _ => h | exact fun _ h => Or.inl h
  · exact Keep.refl _

theorem keep_dropAll (s : Nat) : ∀ (n : Nat) (st : St), Keep st (dropAll n st s)
  | 0, st => Keep.refl _
  | n + 1, st => by
    unfold dropAll
    dsimp only
    split
    · exact Keep.refl _
    · rename_i m rest hb
      split
      · exact Keep.refl _
      · rename_i hf
        refine Keep.trans (Keep.trans (keep_note st (.dropped s m.num)) ?_) (keep_dropAll s n _)
        apply keep_setS <;> try rfl
        · intro x hx hx'
          simp [note, hb] at hx
          subst hx
          exact absurd hx' hf
        · intro x hx
          left; simp only [note, hb]; exact List.mem_cons_of_mem _ hx

theorem keep_endS (st : St) (s : Nat) : Keep st (endS st s) := by
  unfold endS
  dsimp only
  split
  · refine Keep.trans (Keep.trans ?_ (keep_note _ _)) (keep_dropAll _ _ _)
    apply keep_setS <;> first | rfl | exact fun _ h _ => h | exact fun _ h => Or.inl h
  · exact Keep.refl _

theorem keep_foldl {α : Type} (g : St → α → St) (hg : ∀ st a, Keep st (g st a)) :
    ∀ (l : List α) (st : St), Keep st (l.foldl g st)
  | [], st => Keep.refl st
  | a :: l, st => (hg st a).trans (keep_foldl g hg l _)

theorem keep_close (st : St) : Keep st (close st) := by
  unfold close
  split
  · exact Keep.refl _
  split
  · exact ⟨Nat.le_refl _, rfl, fun _ => rfl, fun h => h, fun _ _ => ⟨rfl, rfl, rfl, rfl, rfl, rfl⟩, fun _ _ _ h _ => h, fun _ h hs => h hs⟩
  · rename_i h1 h2
    dsimp only
    have hn : st.trimming = .none := by simpa using h2
    have k1 : Keep st { st with up := false, userUp := false, sIds := [] } :=
      ⟨Nat.le_refl _, rfl, fun h => by simp [hn] at h, fun h => by simp at h, fun _ _ => ⟨rfl, rfl, rfl, rfl, rfl, rfl⟩, fun _ _ _ h _ => h, fun _ h hs => h hs⟩
    have k2 := k1.trans (keep_foldl (fun (st : St) (p : Nat × Nat) => endS st p.2) (fun st p => keep_endS st p.2) st.sIds _)
    have k3 := k2.trans (SameS.keep (b := { List.foldl (fun st p => endS st p.2) { st with up := false, userUp := false, sIds := [] } st.sIds with rIds := [] })
      ⟨rfl, rfl, rfl, rfl, rfl, rfl⟩)
    have k4 := k3.trans (same_foldl (fun (st : St) (p : Nat × Nat) => endR st p.2) (fun st p => same_endR st p.2)
      (List.foldl (fun st p => endS st p.2) { st with up := false, userUp := false, sIds := [] } st.sIds).rIds _).keep
    refine k4.trans (SameS.keep ?_)
    exact ⟨rfl, rfl, rfl, rfl, rfl, rfl⟩

theorem keep_call (st : St) (c : Call) : Keep st (call st c) := by
  cases c <;> simp only [call]
  · split
    · exact keep_openFlow _ _ _ _ _
    · exact Keep.refl _
  · split
    · exact keep_openFlow _ _ _ _ _
    · exact Keep.refl _
  · exact keep_write _ _ _
  · exact keep_closeS _ _
  · exact keep_setPriority _ _ _
  · exact (same_accept _ _).keep
  · split
    · exact (same_closeR _ _ _ _).keep
    · exact Keep.refl _
  · split
    · exact (same_capacity _ _ _).keep
    · exact Keep.refl _
  · split
    · exact (same_pause _ _ _).keep
    · exact Keep.refl _
  · exact keep_close _

/-- The books are right and the numbers lead to flows. -/
structure Fine (st : St) : Prop where
  inv : SInv st
  table : Table st

theorem SameS.fine {a b : St} (h : SameS a b) (k : Fine a) : Fine b :=
  ⟨h.inv k.inv, fun p hp => by rw [h.nS]; exact k.table p (by rw [← h.sIds]; exact hp)⟩

theorem queueTx_sIds (st : St) (s : Nat) : (queueTx st s).sIds = st.sIds ∧ (queueTx st s).nS = st.nS :=
  ⟨(same_queueTx st s).sIds, (same_queueTx st s).nS⟩

theorem fine_openFlow {st : St} (k : Fine st) (id : Nat) (ret : Option Nat) (about : Bytes) (pri : Nat) : Fine (openFlow st id ret about pri) := by
  refine ⟨inv_openFlow k.inv _ _ _ _, ?_⟩
  unfold openFlow
  split
  · dsimp only
    intro p hp
    rw [(queueTx_sIds _ _).2]
    rw [(queueTx_sIds _ _).1] at hp
    simp only [List.mem_append, List.mem_singleton] at hp
    rcases hp with hp | hp
    · exact Nat.lt_succ_of_lt (k.table p hp)
    · subst hp; exact Nat.lt_succ_self _
  · exact k.table

theorem fine_call {st : St} (k : Fine st) (c : Call) : Fine (call st c) := by
  cases c <;> simp only [call]
  · split
    · exact fine_openFlow k _ _ _ _
    · exact k
  · split
    · exact fine_openFlow k _ _ _ _
    · exact k
  · rename_i s b
    refine ⟨inv_write k.inv s b, ?_⟩
    unfold write
    dsimp only
    split
    · intro p hp
      rw [(queueTx_sIds _ _).2]
      rw [(queueTx_sIds _ _).1] at hp
      exact k.table p hp
    · exact k.table
  · rename_i s
    refine ⟨inv_closeS k.inv s, ?_⟩
    unfold closeS
    split
    · intro p hp
      rw [(queueTx_sIds _ _).2]
      rw [(queueTx_sIds _ _).1] at hp
      exact k.table p hp
    · exact k.table
  · rename_i s pr
    refine ⟨inv_setPriority k.inv s pr, ?_⟩
    unfold setPriority
    split
    · intro p hp
      rw [(queueTx_sIds _ _).2]
      rw [(queueTx_sIds _ _).1] at hp
      exact k.table p hp
    · exact k.table
  · exact (same_accept _ _).fine k
  · split
    · exact (same_closeR _ _ _ _).fine k
    · exact k
  · split
    · exact (same_capacity _ _ _).fine k
    · exact k
  · split
    · exact (same_pause _ _ _).fine k
    · exact k
  · exact ⟨(inv_close k.inv k.table).1, (inv_close k.inv k.table).2⟩

theorem fine_calls : ∀ (cs : List Call) (st : St), Fine st → Fine (cs.foldl call st)
  | [], _, k => k
  | c :: cs, _, k => fine_calls cs _ (fine_call k c)

theorem fine_tell (app : App) (st : St) (e : Ev) (k : Fine (note st e)) : Fine (tell app st e) :=
  fine_calls _ _ k

theorem keep_tell (app : App) (st : St) (e : Ev) : Keep st (tell app st e) :=
  (keep_note st e).trans (keep_foldl call keep_call _ _)

theorem fine_tell_quiet (app : App) {st : St} {e : Ev} (k : Fine st) (h : isS e = false) : Fine (tell app st e) :=
  fine_tell app st e ((same_note h).fine k)

/-- One round of the loop of `trimSendBuffer`. -/
def dropFirst (app : App) (st : St) (s : Nat) (m : WMsg) : St :=
  let st := tell app { st with trimming := .some s } (.dropped s m.num)
  setS { st with trimming := .none } s { st.S s with buf := (st.S s).buf.tail, lost := (st.S s).lost + 1 }

theorem view_trim (st : St) (s t : Nat) (h : st.trimming = .none) :
    view { st with trimming := .some s } t = { view st t with mid := t == s } := by
  by_cases e : t = s
  · subst e; simp [view]
  · have : ¬ s = t := fun x => e x.symm
    simp [view, BEq.comm (a := s) (b := t)]

theorem drop_first (app : App) {st : St} (k : Fine st) (s : Nat) (hs : s < st.nS) (m : WMsg) (rest : List WMsg)
    (hb : (st.S s).buf = m :: rest) (hf : m.fin = false) (ht : st.trimming = .none) :
    Fine (dropFirst app st s m) ∧ (dropFirst app st s m).trimming = .none ∧ (dropFirst app st s m).up = st.up ∧
      st.nS ≤ (dropFirst app st s m).nS ∧ 0 < ((dropFirst app st s m).S s).lost ∧
      (∀ t, t < st.nS → ((dropFirst app st s m).S t).opening = (st.S t).opening ∧ ((dropFirst app st s m).S t).id = (st.S t).id ∧
        ((dropFirst app st s m).S t).shut = (st.S t).shut) ∧
      ((∀ t, t < st.nS → ∀ m ∈ (st.S t).buf, m.fin = false) →
        ∀ t, t < (dropFirst app st s m).nS → ∀ x ∈ ((dropFirst app st s m).S t).buf, x.fin = false) := by
  have h0 : Fine (note { st with trimming := .some s } (.dropped s m.num)) := by
    refine ⟨?_, k.table⟩
    refine SInv.one (a := st) k.inv s hs rfl ?_ ?_
    · intro t e
      rw [view_dropped, if_neg e, view_trim _ _ _ ht]
      have : ¬ s = t := fun x => e x.symm
      simp [view, e, ht]
    · rw [view_dropped, if_pos rfl, view_trim _ _ _ ht]
      have := (k.inv.good hs).dropNote m rest hb (by simp [view, ht]) hf
      simpa using this
  have h1 := fine_tell app _ _ h0
  have h2 := keep_tell app { st with trimming := .some s } (.dropped s m.num)
  unfold dropFirst
  dsimp only
  generalize hg : tell app { st with trimming := .some s } (.dropped s m.num) = st' at h1 h2
  have hs' : s < st'.nS := Nat.lt_of_lt_of_le hs h2.nS
  have htr : st'.trimming = .some s := h2.trim
  refine ⟨⟨?_, h1.table⟩, rfl, h2.held rfl, h2.nS, by simp [setS], ?_, ?_⟩
  · refine SInv.one (a := st') h1.inv s hs' rfl ?_ ?_
    · intro t e
      rw [view_setS_other _ _ _ _ e]
      have : ¬ s = t := fun x => e x.symm
      simp [view, htr, this]
    · have := (h1.inv.good hs').dropRemove (by simp [view, htr])
      rw [view_setS_self]
      exact this
  · intro t htn
    obtain ⟨a1, a2, a3, _⟩ := h2.flow t htn
    by_cases e : t = s
    · subst e; simp only [setS, if_true]; exact ⟨a1, a2, a3⟩
    · simp only [setS, if_neg e]; exact ⟨a1, a2, a3⟩
  · intro hn t htn x hx
    have h3 := h2.fin t (hn t) htn
    by_cases e : t = s
    · subst e; simp only [setS, if_true] at hx; exact h3 x (List.mem_of_mem_tail hx)
    · simp only [setS, if_neg e] at hx; exact h3 x hx

/-- Between steps no message is half finished, and no list is being trimmed. -/
structure Calm (st : St) : Prop where
  trim : st.trimming = .none
  fin : ∀ s, s < st.nS → ∀ m ∈ (st.S s).buf, m.fin = false

theorem Keep.calm {a b : St} (h : Keep a b) (k : Calm a) : Calm b :=
  ⟨h.trim.trans k.trim, fun s hs => h.fin s (k.fin s) hs⟩

theorem trimLoop_eq (app : App) (n : Nat) (st : St) (s : Nat) : trimLoop app (n + 1) st s =
    match (st.S s).buf with
    | [] => st
    | m :: _ => trimLoop app n (dropFirst app st s m) s := by
  rw [trimLoop]; rfl

/-- `trimSendBuffer` keeps the books right, and what it doesn't touch. -/
theorem trim_loop (app : App) (s : Nat) : ∀ (n : Nat) (st : St), Fine st → Calm st → s < st.nS →
    Fine (trimLoop app n st s) ∧ Calm (trimLoop app n st s) ∧ (trimLoop app n st s).up = st.up ∧
      st.nS ≤ (trimLoop app n st s).nS ∧
      ∀ t, t < st.nS → ((trimLoop app n st s).S t).opening = (st.S t).opening ∧ ((trimLoop app n st s).S t).id = (st.S t).id ∧
        ((trimLoop app n st s).S t).shut = (st.S t).shut
  | 0, st, k, c, _ => ⟨k, c, rfl, Nat.le_refl _, fun _ _ => ⟨rfl, rfl, rfl⟩⟩
  | n + 1, st, k, c, hs => by
    rw [trimLoop_eq]
    cases hb : (st.S s).buf with
    | nil => exact ⟨k, c, rfl, Nat.le_refl _, fun _ _ => ⟨rfl, rfl, rfl⟩⟩
    | cons m rest =>
      obtain ⟨d1, d2, d3, d4, _, d6, d7⟩ := drop_first app k s hs m rest hb (c.fin s hs m (by simp [hb])) c.trim
      obtain ⟨e1, e2, e3, e4, e5⟩ := trim_loop app s n (dropFirst app st s m) d1 ⟨d2, d7 c.fin⟩ (by omega)
      refine ⟨e1, e2, e3.trans d3, Nat.le_trans d4 e4, ?_⟩
      intro t ht
      obtain ⟨a1, a2, a3⟩ := d6 t ht
      obtain ⟨b1, b2, b3⟩ := e5 t (by omega)
      exact ⟨b1.trans a1, b2.trans a2, b3.trans a3⟩

theorem tx_up {st : St} (h : st.up = true) (w : Who) (m : Msg) : tx st w m = note st (.tx w m) := by simp [tx, h]

/-- One message on the wire and the flow changed. -/
theorem SInv.say {st : St} (k : SInv st) (s : Nat) (hs : s < st.nS) (m : Msg) (f : SFlow)
    (hg : Good { view st s with wire := (view st s).wire ++ [m], f := f }) :
    SInv (setS (note st (.tx (.s s) m)) s f) := by
  refine SInv.one (a := st) k s hs rfl ?_ ?_
  · intro t e
    rw [view_setS_other _ _ _ _ e, view_tx, if_neg e]
  · rw [view_setS_self, view_tx, if_pos rfl]; exact hg

theorem calm_setS {st : St} (c : Calm st) (s : Nat) (f : SFlow) (h : ∀ m ∈ f.buf, m.fin = false) : Calm (setS st s f) := by
  refine ⟨c.trim, ?_⟩
  intro t ht m hm
  by_cases e : t = s
  · subst e; simp only [setS, if_true] at hm; exact h m hm
  · simp only [setS, if_neg e] at hm; exact c.fin t ht m hm

/-- Sending one fragment. -/
theorem fragment_fine (app : App) {st : St} (k : Fine st) (c : Calm st) (s : Nat) (hs : s < st.nS) (hu : st.up = true)
    (hl : (st.S s).lost = 0) (ho : (st.S s).opening = .none) :
    Fine (fragment app st s).1 ∧ Calm (fragment app st s).1 := by
  unfold fragment
  dsimp only
  split
  · exact ⟨k, c⟩
  · rename_i m rest hb
    have hmf := c.fin s hs m (by simp [hb])
    split
    · exact ⟨k, c⟩
    · rename_i hz
      generalize hsz : min (2 ^ 20) (min st.chunk ((st.S s).through - (st.S s).sent)) = size at hz ⊢
      rw [tx_up hu]
      split
      · rename_i hlast
        simp only [decide_eq_true_eq] at hlast
        have hlast' : (decide (List.length m.bytes ≤ m.off + size)) = true := by simpa using hlast
        simp only [hlast', Bool.not_true]
        generalize hkk : (st.S s).sent + (Msg.encode (.data (st.S s).id false ((m.bytes.drop m.off).take size))).length = kk
        generalize hn : (note st (.tx (.s s) (.data (st.S s).id false ((m.bytes.drop m.off).take size)))).bytesSent +
          (Msg.encode (.data (st.S s).id false ((m.bytes.drop m.off).take size))).length = bs
        -- the state the callback begins in
        generalize hA : setS { note st (.tx (.s s) (.data (st.S s).id false ((m.bytes.drop m.off).take size))) with bytesSent := bs } s
          { st.S s with sent := kk, buf := { m with off := m.bytes.length, fin := true } :: rest } = A
        have hAn : A.nS = st.nS := by rw [← hA]; rfl
        have hAs : A.S s = { st.S s with sent := kk, buf := { m with off := m.bytes.length, fin := true } :: rest } := by
          rw [← hA]; simp [setS]
        have hAt : A.trimming = .none := by rw [← hA]; exact c.trim
        have hAo : ∀ t, t ≠ s → A.S t = st.S t := by
          intro t e; rw [← hA]; simp [setS, e, note]
        have hAl : A.log = st.log ++ [.tx (.s s) (.data (st.S s).id false ((m.bytes.drop m.off).take size))] := by
          rw [← hA]; rfl
        have hAi : A.sIds = st.sIds := by rw [← hA]; rfl
        have h0 : Fine (note A (.done s m.num)) := by
          refine ⟨?_, ?_⟩
          · refine SInv.one (a := st) k.inv s hs hAn ?_ ?_
            · intro t e
              rw [view_done, if_neg e]
              have h5 := view_tx st s t (.data (st.S s).id false ((m.bytes.drop m.off).take size))
              rw [if_neg e] at h5
              rw [← h5]
              simp [view, hAo t e, hAt, c.trim, hAl, note]
            · rw [view_done, if_pos rfl]
              have h6 := (k.inv.good hs).doneNote m rest hb hmf (by simp [view, c.trim]) hl ho size kk hlast
              have h5 := view_tx st s s (.data (st.S s).id false ((m.bytes.drop m.off).take size))
              rw [if_pos rfl] at h5
              have h7 : view A s = { view (note st (.tx (.s s) (.data (st.S s).id false ((m.bytes.drop m.off).take size)))) s with f := A.S s } := by
                simp [view, hAl, hAt, c.trim, note]
              rw [h7, h5, hAs]
              exact h6
          · intro p hp
            exact Nat.lt_of_lt_of_eq (k.table p (by rw [← hAi]; exact hp)) hAn.symm
        have h1 := fine_tell app A _ h0
        have h2 := keep_tell app A (.done s m.num)
        generalize tell app A (.done s m.num) = B at h1 h2 ⊢
        have hsB : s < B.nS := by have := h2.nS; omega
        have hhd : (B.S s).buf.head? = .some { m with off := m.bytes.length, fin := true } :=
          h2.head s _ (by omega) (by rw [hAs]; rfl) rfl
        obtain ⟨rb, hrb⟩ : ∃ rb, (B.S s).buf = { m with off := m.bytes.length, fin := true } :: rb := by
          cases hx : (B.S s).buf with
          | nil => simp [hx] at hhd
          | cons a l => simp only [hx, List.head?_cons, Option.some.injEq] at hhd; exact ⟨l, by rw [hhd]⟩
        have hgood := h1.inv.good hsB
        refine ⟨⟨?_, h1.table⟩, ?_⟩
        · refine SInv.one (a := B) h1.inv s hsB rfl (fun t e => view_setS_other _ _ _ _ e) ?_
          rw [view_setS_self]
          exact hgood.doneRemove _ rb hrb rfl
        · refine ⟨h2.trim.trans hAt, ?_⟩
          intro t ht x hx
          by_cases e : t = s
          · subst e
            simp only [setS, if_true] at hx
            exact (hgood.later x hx).2
          · simp only [setS, if_neg e] at hx
            refine h2.fin t ?_ ht x hx
            intro ht' y hy
            rw [hAo t e] at hy
            exact c.fin t (by omega) y hy
      · rename_i hlast
        simp only [decide_eq_true_eq] at hlast
        have hlast' : (decide (List.length m.bytes ≤ m.off + size)) = false := by simpa using hlast
        simp only [hlast', Bool.not_false]
        have h6 := (k.inv.good hs).more m rest hb hmf hl ho size
          ((st.S s).sent + (Msg.encode (.data (st.S s).id true ((m.bytes.drop m.off).take size))).length) (by omega) (by omega)
        refine ⟨⟨?_, k.table⟩, ?_⟩
        · exact SInv.say k.inv s hs _ _ h6
        · refine calm_setS ?_ s _ ?_
          · exact ⟨c.trim, c.fin⟩
          intro x hx
          simp only [List.mem_cons] at hx
          rcases hx with hx | hx
          · subst hx; exact hmf
          · exact c.fin s hs x (by simp [hb, hx])

end Rtmfp.RTWS
