import Verif.Lemmas.RtmpTell

/-! # A chunk of a message of the application -/

namespace Rtmfp.Rtmp

open Spec.Chunks Spec.Web

theorem findTurn_spec (t : Tx) (sid : UInt32) (type : UInt8) (i : Nat) (best : Option Nat) (hi : ∀ j, (t.streams j).h.initted = false → (t.streams j).busy = false)
    (hb : ∀ b, best = some b → (t.streams b).busy = false) :
    match findTurn t sid type i best with
    | .inl j => j = i ∧ (t.streams j).busy = false
    | .inr none => best = none ∧ (t.streams i).busy = true
    | .inr (some b) => (b = i ∨ best = some b) ∧ (t.streams b).busy = false := by
  unfold findTurn
  simp only
  by_cases h1 : (t.streams i).h.initted = false
  · rw [if_pos h1]; exact ⟨rfl, hi i h1⟩
  · rw [if_neg h1]
    by_cases h2 : (t.streams i).busy = true
    · rw [if_pos h2]
      cases best with
      | none => exact ⟨rfl, h2⟩
      | some b => exact ⟨.inr rfl, hb b rfl⟩
    · rw [if_neg h2]
      have h2 : (t.streams i).busy = false := by simpa using h2
      have hg : (best.getD i = i ∨ best = some (best.getD i)) ∧ (t.streams (best.getD i)).busy = false := by
        cases best with
        | none => exact ⟨.inl rfl, h2⟩
        | some b => exact ⟨.inr rfl, hb b rfl⟩
      by_cases h3 : sid = (t.streams i).h.sid ∧ type = (t.streams i).h.type
      · rw [if_pos h3]; exact ⟨rfl, h2⟩
      · rw [if_neg h3]
        by_cases h4 : (t.streams i).h.sid = sid
        · rw [if_pos h4]
          simp only
          have hg' : ((if (t.streams (best.getD i)).h.sid ≠ sid then i else best.getD i) = i ∨
              best = some (if (t.streams (best.getD i)).h.sid ≠ sid then i else best.getD i)) ∧
              (t.streams (if (t.streams (best.getD i)).h.sid ≠ sid then i else best.getD i)).busy = false := by
            by_cases h5 : (t.streams (best.getD i)).h.sid ≠ sid
            · rw [if_pos h5]; exact ⟨.inl rfl, h2⟩
            · rw [if_neg h5]; exact hg
          generalize (if (t.streams (best.getD i)).h.sid ≠ sid then i else best.getD i) = b' at *
          by_cases h6 : (t.streams i).lastUsed < (t.streams b').lastUsed
          · rw [if_pos h6]; exact ⟨.inl rfl, h2⟩
          · rw [if_neg h6]
            exact hg'
        · rw [if_neg h4]
          by_cases h7 : (t.streams (best.getD i)).h.sid ≠ sid ∧ (t.streams i).lastUsed < (t.streams (best.getD i)).lastUsed
          · rw [if_pos h7]; exact ⟨.inl rfl, h2⟩
          · rw [if_neg h7]; exact hg

theorem findLoop_spec (t : Tx) (sid : UInt32) (type : UInt8) (hi : ∀ j, (t.streams j).h.initted = false → (t.streams j).busy = false) (l : List Nat) :
    ∀ best : Option Nat, (∀ b, best = some b → (t.streams b).busy = false) →
    match findLoop t sid type l best with
    | none => best = none ∧ ∀ i ∈ l, (t.streams i).busy = true
    | some k => (k ∈ l ∨ best = some k) ∧ (t.streams k).busy = false := by
  induction l with
  | nil =>
    intro best hb
    unfold findLoop
    cases best with
    | none => exact ⟨rfl, by simp⟩
    | some b => exact ⟨.inr rfl, hb b rfl⟩
  | cons i l ih =>
    intro best hb
    have h := findTurn_spec t sid type i best hi hb
    unfold findLoop
    cases ht : findTurn t sid type i best with
    | inl j =>
      rw [ht] at h
      exact ⟨.inl (by rw [h.1]; simp), h.2⟩
    | inr o =>
      rw [ht] at h
      cases o with
      | none =>
        have h' := ih none (fun b hb => nomatch hb)
        simp only
        cases hl : findLoop t sid type l none with
        | none =>
          rw [hl] at h'
          refine ⟨h.1, fun j hj => ?_⟩
          rcases List.mem_cons.mp hj with rfl | hj
          · exact h.2
          · exact h'.2 j hj
        | some k =>
          rw [hl] at h'
          rcases h'.1 with g | g
          · exact ⟨.inl (by simp [g]), h'.2⟩
          · nomatch g
      | some b =>
        have h' := ih (some b) (fun x hx => by rw [← Option.some.inj hx]; exact h.2)
        simp only
        cases hl : findLoop t sid type l (some b) with
        | none => rw [hl] at h'; nomatch h'.1
        | some k =>
          rw [hl] at h'
          rcases h'.1 with g | g
          · exact ⟨.inl (by simp [g]), h'.2⟩
          · obtain rfl := Option.some.inj g
            rcases h.1 with e | e
            · exact ⟨.inl (by simp [e]), h'.2⟩
            · exact ⟨.inr e, h'.2⟩

/-- The chunk stream for a message is one that isn't busy. -/
theorem find_spec (t : Tx) (sid : UInt32) (type : UInt8) (len : Nat) (hi : ∀ j, (t.streams j).h.initted = false → (t.streams j).busy = false) :
    match findChunkStream t sid type len with
    | none => ∀ k, 3 ≤ k → k < 24 → (t.streams k).busy = true
    | some k => 2 ≤ k ∧ k < 24 ∧ (t.streams k).busy = false ∧ (k = 2 → len ≤ t.size) := by
  unfold findChunkStream
  by_cases h : sid = 0 ∧ type = 4 ∧ len ≤ t.size ∧ (t.streams 2).busy = false
  · rw [if_pos h]
    exact ⟨by omega, by omega, h.2.2.2, fun _ => h.2.2.1⟩
  · rw [if_neg h]
    have h' := findLoop_spec t sid type hi (List.range' 3 21) none (fun b hb => nomatch hb)
    cases hl : findLoop t sid type (List.range' 3 21) none with
    | none =>
      rw [hl] at h'
      intro k h3 h24
      exact h'.2 k (by rw [List.mem_range'_1]; omega)
    | some k =>
      rw [hl] at h'
      rcases h'.1 with g | g
      · rw [List.mem_range'_1] at g
        exact ⟨by omega, by omega, h'.2, fun _ => by omega⟩
      · nomatch g

theorem Fit.idle {t : Tx} {d : Dec} (h : Fit t d) (j : Nat) (hi : (t.streams j).h.initted = false) : (t.streams j).busy = false := by
  have := h.pair j
  cases hd : d.streams j with
  | none => rw [hd] at this; exact this.2
  | some s => rw [hd] at this; rw [this.1] at hi; nomatch hi

theorem obey_user (d : Dec) (m : Message) (h : isControl m.type = false) : d.obey m = some d := by
  unfold Dec.obey
  rw [if_pos h]

theorem users_one (m : Message) (h : isControl m.type = false) : users [m] = [m] := by
  unfold users
  simp [h]

/-- what is done with a chunk whose data is as much as it must be -/
theorem take_user (d : Dec) (c : Chunk) (s : Spec.Chunks.Stream) (hb : d.begin c = some s) (hd : c.data.length = min d.size (s.len - s.part.length))
    (hu : isControl s.type = false) :
    d.take c = if (s.part ++ c.data).length = s.len then some (d.set c.cs { s with part := [] }, [⟨s.sid, s.type, s.ts, s.part ++ c.data⟩])
      else some (d.set c.cs { s with part := s.part ++ c.data }, []) := by
  unfold Dec.take
  rw [hb]
  simp only [Option.bind_some]
  rw [if_neg (by rw [hd]; simp)]
  split
  · rw [obey_user _ _ hu]; rfl
  · rfl

theorem chunk_step (app : App) (st : St) (m : Msg) (p : Nat) (l : List Msg) (d : Dec) (F : Fit st.tx d) (L : Link' st.tx.queues d st.tx.streams)
    (hq : st.tx.queues p = m :: l) (t : Tx) (m1 : Msg) (h : chunkOf app st m = some (t, m1)) :
    ∃ k c d' ms, m1.cs = some k ∧ Chunk.Fits c ∧ d.take c = some (d', ms) ∧ t.out = st.tx.out ++ d.wire c ∧ Fit t d' ∧ t.queues = st.tx.queues ∧
      t.nextId = st.tx.nextId ∧ m1.key = m.key ∧
      ((t.streams k).busy = false → users ms = [m.key.2] ∧ Link' (put st.tx.queues p l) d' t.streams) ∧
      ((t.streams k).busy = true → users ms = [] ∧ Link' (put st.tx.queues p (m1 :: l)) d' t.streams) := by
  have hgood := L.good p m (by rw [hq]; simp)
  unfold chunkOf at h
  cases hc : m.cs with
  | none =>
    rw [hc] at h
    simp only at h
    have hf := find_spec st.tx m.sid m.type m.payload.length (fun j => F.idle j)
    cases hk : findChunkStream st.tx m.sid m.type m.payload.length with
    | none => rw [hk] at h; nomatch h
    | some k =>
      rw [hk] at h hf
      simp only [Option.map_some, Option.some.injEq, Prod.mk.injEq] at h
      obtain ⟨f1, f2, f3, f4⟩ := hf
      obtain ⟨c, eff, v, c1, c2, c3, c4, c5⟩ := start_chunk st.tx d (app.now st.log) k m.sid m.type m.ts m.payload (F.pair k) f3 f1 f2 hgood.1
      rw [c5] at h
      simp only at h
      obtain ⟨rfl, rfl⟩ := h
      have hlen : c.data.length = min m.payload.length st.tx.size := by rw [c3, List.length_take]; omega
      have ht := take_user d c _ c4 (by rw [hlen, F.size]; simp; omega) hgood.2
      simp only [List.nil_append, c2] at ht
      have hoff : ∀ q m' l', q ≠ p → st.tx.queues q = m' :: l' → m'.cs ≠ some k := by
        intro q m' l' _ e hcs
        have := (L.head q m' l' k e hcs).2.2.1
        rw [f3] at this; nomatch this
      by_cases ha : min m.payload.length st.tx.size = m.payload.length
      · have hdata : c.data = m.payload := by rw [c3, ha, List.take_length]
        rw [if_pos (by rw [hlen, ha]), hdata] at ht
        have hbf : decide (min m.payload.length st.tx.size < m.payload.length) = false := by simp; omega
        refine ⟨k, c, _, _, rfl, c1, ht, rfl, ?_, rfl, rfl, rfl, fun _ => ⟨users_one _ hgood.2, ?_⟩, fun g => ?_⟩
        · refine ⟨fun i => pair_put F.pair k _ _ ⟨rfl, rfl, rfl, rfl, rfl, rfl, fun _ => rfl, fun g => ?_⟩ i, F.size, ?_, F.lo, F.hi⟩
          · rw [hbf] at g; nomatch g
          · show SendCs.busy (put _ k _ 2) = false
            by_cases e : (2 : Nat) = k
            · subst e; rw [put_at]; exact hbf
            · rw [put_off _ e]; exact F.two
        · refine L.shift p m l hq k hoff (.inl hc) (fun i _ hi => if_neg hi) (fun i _ hi => put_off _ hi) ?_ ?_
          · show SendCs.busy (put _ k _ 2) = false
            by_cases e : (2 : Nat) = k
            · subst e; rw [put_at]; exact hbf
            · rw [put_off _ e]; exact F.two
          · show SendCs.busy (put _ k _ k) = false
            rw [put_at]; exact hbf
        · have g' : SendCs.busy (put st.tx.streams k ⟨⟨m.sid, m.ts, eff, m.payload.length, m.type, true, v⟩, app.now st.log, decide (min m.payload.length st.tx.size < m.payload.length)⟩ k) = true := g
          rw [put_at] at g'
          rw [hbf] at g'; nomatch g'
      · have hbt : decide (min m.payload.length st.tx.size < m.payload.length) = true := by simp; omega
        have hsz : min m.payload.length st.tx.size = st.tx.size := by omega
        rw [if_neg (by rw [hlen]; exact ha)] at ht
        have hlo := F.lo
        have hk2 : k ≠ 2 := fun e => by have := f4 e; omega
        refine ⟨k, c, _, _, rfl, c1, ht, rfl, ?_, rfl, rfl, rfl, fun g => ?_, fun _ => ⟨rfl, ?_⟩⟩
        · refine ⟨fun i => pair_put F.pair k _ _ ⟨rfl, rfl, rfl, rfl, rfl, rfl, fun g => ?_, fun _ => ⟨fun e => ?_, ?_⟩⟩ i, F.size, ?_, F.lo, F.hi⟩
          · rw [hbt] at g; nomatch g
          · have e : c.data = [] := e
            rw [e, List.length_nil] at hlen
            omega
          · show c.data.length < m.payload.length
            omega
          · show SendCs.busy (put _ k _ 2) = false
            rw [put_off _ (Ne.symm hk2)]; exact F.two
        · have g' : SendCs.busy (put st.tx.streams k ⟨⟨m.sid, m.ts, eff, m.payload.length, m.type, true, v⟩, app.now st.log, decide (min m.payload.length st.tx.size < m.payload.length)⟩ k) = false := g
          rw [put_at] at g'
          rw [hbt] at g'; nomatch g'
        · refine L.turn p m _ l hq k hoff (.inl hc) (fun i hi => if_neg hi) (fun i hi => put_off _ hi) ?_ (by omega) f2 rfl hgood ⟨_, if_pos rfl, rfl, rfl, rfl, rfl, ?_⟩
          · show SendCs.busy (put _ k _ k) = true
            rw [put_at]; exact hbt
          · exact c3
  | some k =>
    rw [hc] at h
    simp only [Option.some.injEq, Prod.mk.injEq] at h
    obtain ⟨k3, k24, kb, s, s1, s2, s3, s4, s5, s6⟩ := L.head p m l k hq hc
    have hP := F.pair k
    rw [s1] at hP
    obtain ⟨q1, q2⟩ := hP.2.2.2.2.2.2.2 kb
    have hoffs : m.offset < m.payload.length := by
      rw [s6, s5, List.length_take] at q2; omega
    have hpl : s.part.length = m.offset := by rw [s6, List.length_take]; omega
    obtain ⟨c, c1, c2, c3, c4, c5⟩ := next_chunk st.tx d k m.payload m.offset s s1 hP kb (by omega) k24
    rw [c5] at h
    simp only at h
    obtain ⟨rfl, rfl⟩ := h
    have hlen : c.data.length = min (s.len - m.offset) st.tx.size := by
      rw [c3, List.length_take, List.length_drop, s5]; omega
    have ht := take_user d c s c4 (by rw [hlen, F.size, hpl]; omega) (by rw [s3]; exact hgood.2)
    have hall : s.part ++ c.data = m.payload.take (m.offset + min (s.len - m.offset) st.tx.size) := by
      rw [s6, c3, List.take_add]
    rw [hall, c2] at ht
    have hoff : ∀ q m' l', q ≠ p → st.tx.queues q = m' :: l' → m'.cs ≠ some k := by
      intro q m' l' hqp e hcs
      exact hqp (L.once q p m' l' m l k e hq hcs hc)
    have hk2 : k ≠ 2 := by omega
    obtain ⟨P1, P2, P3, P4, P5, P6, P7, P8⟩ := hP
    have hlo := F.lo
    by_cases ha : m.offset + min (s.len - m.offset) st.tx.size = s.len
    · have hdata : m.payload.take (m.offset + min (s.len - m.offset) st.tx.size) = m.payload := by
        rw [ha, s5, List.take_length]
      rw [hdata, if_pos s5.symm] at ht
      have hbf : decide (m.offset + min (s.len - m.offset) st.tx.size < s.len) = false := by simp; omega
      refine ⟨k, c, _, _, rfl, c1, ht, rfl, ?_, rfl, rfl, rfl, fun _ => ⟨?_, ?_⟩, fun g => ?_⟩
      · refine ⟨fun i => pair_put F.pair k { st.tx.streams k with busy := decide (m.offset + min (s.len - m.offset) st.tx.size < s.len) } { s with part := [] } ⟨P1, P2, P3, P4, P5, P6, fun _ => rfl, fun g => ?_⟩ i, F.size, ?_, F.lo, F.hi⟩
        · rw [hbf] at g; nomatch g
        · show SendCs.busy (put _ k _ 2) = false
          rw [put_off _ (Ne.symm hk2)]; exact F.two
      · rw [s2, s3, s4]; exact users_one _ hgood.2
      · refine L.shift p m l hq k hoff (.inr hc) (fun i _ hi => if_neg hi) (fun i _ hi => put_off _ hi) ?_ ?_
        · show SendCs.busy (put _ k _ 2) = false
          rw [put_off _ (Ne.symm hk2)]; exact F.two
        · show SendCs.busy (put _ k _ k) = false
          rw [put_at]; exact hbf
      · have g' : SendCs.busy (put st.tx.streams k { st.tx.streams k with busy := decide (m.offset + min (s.len - m.offset) st.tx.size < s.len) } k) = true := g
        rw [put_at] at g'
        rw [hbf] at g'; nomatch g'
    · have hbt : decide (m.offset + min (s.len - m.offset) st.tx.size < s.len) = true := by simp; omega
      rw [if_neg (by rw [List.length_take]; omega)] at ht
      refine ⟨k, c, _, _, rfl, c1, ht, rfl, ?_, rfl, rfl, rfl, fun g => ?_, fun _ => ⟨rfl, ?_⟩⟩
      · refine ⟨fun i => pair_put F.pair k { st.tx.streams k with busy := decide (m.offset + min (s.len - m.offset) st.tx.size < s.len) } { s with part := m.payload.take (m.offset + min (s.len - m.offset) st.tx.size) } ⟨P1, P2, P3, P4, P5, P6, fun g => ?_, fun _ => ⟨fun e => ?_, ?_⟩⟩ i, F.size, ?_, F.lo, F.hi⟩
        · rw [hbt] at g; nomatch g
        · have e : m.payload.take (m.offset + min (s.len - m.offset) st.tx.size) = [] := e
          have e := congrArg List.length e
          rw [List.length_take, List.length_nil] at e
          omega
        · show (m.payload.take (m.offset + min (s.len - m.offset) st.tx.size)).length < s.len
          rw [List.length_take]; omega
        · show SendCs.busy (put _ k _ 2) = false
          rw [put_off _ (Ne.symm hk2)]; exact F.two
      · have g' : SendCs.busy (put st.tx.streams k { st.tx.streams k with busy := decide (m.offset + min (s.len - m.offset) st.tx.size < s.len) } k) = false := g
        rw [put_at] at g'
        rw [hbt] at g'; nomatch g'
      · refine L.turn p m _ l hq k hoff (.inr hc) (fun i hi => if_neg hi) (fun i hi => put_off _ hi) ?_ (by omega) k24 rfl hgood ⟨_, if_pos rfl, s2, s3, s4, s5, rfl⟩
        show SendCs.busy (put _ k _ k) = true
        rw [put_at]; exact hbt

end Rtmfp.Rtmp
