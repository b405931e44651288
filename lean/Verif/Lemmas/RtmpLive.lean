import Verif.Lemmas.RtmpFlush

/-! # An RTMP sends everything -/

namespace Rtmfp.Rtmp

open Spec.Chunks Spec.Web

/-- The application does nothing in callbacks, no message expires, and it sets no limit. -/
structure Easy (app : App) : Prop where
  react : ∀ l, app.react l = []
  fate : ∀ l id, app.fate l id = .stays
  thresh : ∀ l, 2 ^ 32 ≤ (app.thresh l).toNat

/-- what is left of a message -/
def rem (m : Msg) : Nat :=
  match m.cs with
  | none => m.payload.length + 1
  | some _ => m.payload.length - m.offset + 1

def total (f : Nat → Nat) : Nat := f 0 + f 1 + f 2 + f 3 + f 4 + f 5 + f 6 + f 7

theorem total_lt (f g : Nat → Nat) (p : Nat) (hp : p < 8) (h : ∀ q, q ≠ p → g q = f q) (hl : g p < f p) : total g < total f := by
  have key : ∀ q, g q ≤ f q := by
    intro q
    by_cases e : q = p
    · rw [e]; omega
    · rw [h q e]; omega
  have := key 0; have := key 1; have := key 2; have := key 3; have := key 4; have := key 5; have := key 6; have := key 7
  unfold total
  rcases (by omega : p = 0 ∨ p = 1 ∨ p = 2 ∨ p = 3 ∨ p = 4 ∨ p = 5 ∨ p = 6 ∨ p = 7) with rfl | rfl | rfl | rfl | rfl | rfl | rfl | rfl <;> omega

/-- what is left in the queues -/
def load (t : Tx) : Nat := total fun p => ((t.queues p).map rem).sum

/-- what is left to do -/
def work (st : St) : Nat := 3 * load st.tx + (if st.tx.anchor then 0 else 2) + (if st.tx.out = [] then 0 else 1)

theorem trim_plain (app : App) (h : ∀ l id, app.fate l id = .stays) (st : St) : trim app st = (st, false) := by
  have one : ∀ (r : St × Bool) (p : Nat), (if r.1.wild then r else trimOne app p ((r.1.tx.queues p).length + app.patience) r.1 r.2) = r := by
    intro r p
    split
    · rfl
    · obtain ⟨s, b⟩ := r
      dsimp only
      cases hq : s.tx.queues p with
      | nil =>
        cases hf : (([] : List Msg).length + app.patience) with
        | zero => simp [trimOne, hq]
        | succ n => simp only [trimOne, hq]
      | cons m l =>
        rw [show (m :: l).length + app.patience = (l.length + app.patience) + 1 by simp; omega]
        simp only [trimOne, hq]
        rw [if_pos (h _ _)]
  unfold trim
  generalize [7, 6, 5, 4, 3, 2, 1, 0] = l
  induction l with
  | nil => rfl
  | cons p l ih => rw [List.foldl_cons, one]; exact ih

theorem flow_plain (app : App) (h : Easy app) (st : St) (ho : Talking st) (hb : 2 ^ 32 ≤ st.tx.peerBw.toNat) : flowOpen app st = true := by
  unfold flowOpen
  have hn : (st.tx.sent - st.tx.acked).toUInt32.toUInt64.toNat < 2 ^ 32 := by
    rw [UInt32.toNat_toUInt64]; exact UInt32.toNat_lt _
  generalize (st.tx.sent - st.tx.acked).toUInt32.toUInt64 = n at *
  have h1 : n < st.tx.peerBw := UInt64.lt_iff_toNat_lt.mpr (by omega)
  have h2 : n < app.thresh st.log := UInt64.lt_iff_toNat_lt.mpr (by have := h.thresh st.log; omega)
  rcases ho with ho | ho <;> simp [h1, h2, ho]

/-- not abandoned -/
def kept : Ev → Bool
  | .dropped .. => false
  | _ => true

/-- a step of writing -/
structure Writes (a b : St) : Prop where
  phase : b.phase = a.phase
  wild : b.wild = a.wild
  asked : b.scheduled = a.scheduled
  limit : b.tx.peerBw = a.tx.peerBw
  log : ∃ l, b.log = a.log ++ l ∧ ∀ e ∈ l, kept e = true

theorem Writes.refl (a : St) : Writes a a := ⟨rfl, rfl, rfl, rfl, [], by simp, by simp⟩

theorem Writes.trans {a b c : St} (h : Writes a b) (g : Writes b c) : Writes a c := by
  obtain ⟨l, l1, l2⟩ := h.log
  obtain ⟨k, k1, k2⟩ := g.log
  refine ⟨g.phase.trans h.phase, g.wild.trans h.wild, g.asked.trans h.asked, g.limit.trans h.limit, l ++ k, by rw [k1, l1, List.append_assoc], fun e he => ?_⟩
  rcases List.mem_append.mp he with x | x
  · exact l2 e x
  · exact k2 e x

theorem refresh_rest (t : Tx) (now : Int) : (refreshWindow t now).anchor = t.anchor ∧ (refreshWindow t now).peerBw = t.peerBw := by
  unfold refreshWindow
  dsimp only
  split <;> exact ⟨rfl, rfl⟩

theorem raw_writes (app : App) (st : St) (ho : Talking st) : Writes st (writeRaw app st).1 ∧ (writeRaw app st).1.tx.queues = st.tx.queues ∧
    ((writeRaw app st).1.tx.anchor = true ∧ st.tx.anchor = false ∨ (writeRaw app st).1.tx.out = [] ∧ (writeRaw app st).1.tx.anchor = st.tx.anchor) := by
  unfold writeRaw
  split
  · dsimp only
    have hrest : Writes st (emit { st with tx := { st.tx with out := [], sent := st.tx.sent + UInt64.ofNat st.tx.out.length } } (.put st.tx.out)) :=
      ⟨rfl, rfl, rfl, rfl, [.put st.tx.out], rfl, by simp [kept]⟩
    split
    rotate_left
    · exact ⟨hrest, rfl, .inr ⟨rfl, rfl⟩⟩
    unfold startRTT emit
    dsimp only
    split
    · next hc =>
      refine ⟨⟨rfl, rfl, rfl, ?_, [.put st.tx.out], rfl, by simp [kept]⟩, ?_, .inl ⟨?_, hc.1⟩⟩
      · exact (refresh_rest _ _).2
      · exact (refresh_queues _ _).1
      · exact (refresh_rest _ _).1
    · exact ⟨⟨rfl, rfl, rfl, rfl, [.put st.tx.out], rfl, by simp [kept]⟩, rfl, .inr ⟨rfl, rfl⟩⟩
  · next hc =>
    refine ⟨.refl st, rfl, .inr ⟨?_, rfl⟩⟩
    by_cases e : st.tx.out = []
    · exact e
    · exact absurd ⟨e, by rcases ho with ho | ho <;> rw [ho] <;> decide⟩ hc

theorem raw_work (app : App) (st : St) (ho : Talking st) (hne : st.tx.out ≠ []) : work (writeRaw app st).1 < work st := by
  obtain ⟨_, q, h⟩ := raw_writes app st ho
  unfold work load
  rw [q, if_neg hne]
  rcases h with ⟨a, b⟩ | ⟨a, b⟩
  · rw [a, b]
    simp only [if_true, Bool.false_eq_true, if_false]
    split <;> omega
  · rw [a, b, if_pos rfl]
    omega

theorem chunkOf_rest {app : App} {st : St} {m m1 : Msg} {t : Tx} (h : chunkOf app st m = some (t, m1)) :
    t.queues = st.tx.queues ∧ t.anchor = st.tx.anchor ∧ t.peerBw = st.tx.peerBw := by
  unfold chunkOf at h
  cases hc : m.cs with
  | none =>
    rw [hc] at h
    simp only at h
    cases hf : findChunkStream st.tx m.sid m.type m.payload.length with
    | none => rw [hf] at h; nomatch h
    | some k =>
      rw [hf] at h
      simp only [Option.map_some, Option.some.injEq, Prod.mk.injEq] at h
      rw [← h.1]
      exact ⟨rfl, rfl, rfl⟩
  | some k =>
    rw [hc] at h
    simp only [Option.some.injEq, Prod.mk.injEq] at h
    rw [← h.1]
    exact ⟨rfl, rfl, rfl⟩

/-- A chunk makes what is left of a message less. -/
theorem chunkOf_rem {app : App} {st : St} {m m1 : Msg} {t : Tx} {d : Dec} (F : Fit st.tx d) (L : Link' st.tx.queues d st.tx.streams) (p : Nat) (l : List Msg)
    (hq : st.tx.queues p = m :: l) (h : chunkOf app st m = some (t, m1)) (k : Nat) (hk : m1.cs = some k) (hb : (t.streams k).busy = true) : rem m1 < rem m := by
  have hlo := F.lo
  unfold chunkOf at h
  cases hc : m.cs with
  | none =>
    rw [hc] at h
    simp only at h
    cases hf : findChunkStream st.tx m.sid m.type m.payload.length with
    | none => rw [hf] at h; nomatch h
    | some j =>
      rw [hf] at h
      simp only [Option.map_some, Option.some.injEq, Prod.mk.injEq] at h
      obtain ⟨rfl, rfl⟩ := h
      simp only [Option.some.injEq] at hk
      subst hk
      have hb' : SendCs.busy (put st.tx.streams j _ j) = true := hb
      rw [put_at] at hb'
      simp only [decide_eq_true_eq] at hb'
      unfold rem
      rw [hc]
      show m.payload.length - min m.payload.length st.tx.size + 1 < m.payload.length + 1
      omega
  | some j =>
    rw [hc] at h
    simp only [Option.some.injEq, Prod.mk.injEq] at h
    obtain ⟨rfl, rfl⟩ := h
    simp only [Option.some.injEq] at hk
    subst hk
    have hb' : SendCs.busy (put st.tx.streams j _ j) = true := hb
    rw [put_at] at hb'
    simp only [decide_eq_true_eq] at hb'
    obtain ⟨_, _, kb, s, s1, _, _, _, s5, s6⟩ := L.head p m l j hq hc
    have hP := F.pair j
    rw [s1] at hP
    have e := hP.2.2.2.2.1
    unfold rem
    rw [hc]
    dsimp only
    show m.payload.length - (m.offset + min ((st.tx.streams j).h.len - m.offset) st.tx.size) + 1 < m.payload.length - m.offset + 1
    omega

theorem send_work (app : App) (hpl : Easy app) (st : St) (h : Book st ∧ Talking st ∧ Tells st) (ho : Talking st) (hn : st.tx.out = []) (p : Nat) (m : Msg) (l : List Msg)
    (hq : st.tx.queues p = m :: l) : Writes st (sendOne app st p m) ∧ work (sendOne app st p m) < work st := by
  have hcf := chunk_found (app := app) h.2.2 m
  have hp8 := h.2.2.low p (by rw [hq]; nofun)
  obtain ⟨_, _, _, _, _, d, ms, _, _, _, _, _, F, L⟩ := h
  unfold sendOne
  cases hc : chunkOf app st m with
  | none => exact absurd hc hcf
  | some r =>
    obtain ⟨t, m1⟩ := r
    dsimp only
    obtain ⟨r1, r2, r3⟩ := chunkOf_rest hc
    obtain ⟨k, c, d', ns, c1, _⟩ := chunk_step app st m p l d F L hq t m1 hc
    have hrem := chunkOf_rem F L p l hq hc k c1
    rw [r1, hq, List.drop_one, List.tail_cons, c1]
    dsimp only [Option.map_some, Option.getD_some]
    have fin : ∀ s : St, Writes st s → Talking s → s.tx.anchor = st.tx.anchor → load s.tx < load st.tx →
        Writes st (writeRaw app s).1 ∧ work (writeRaw app s).1 < work st := by
      intro s hw hso ha hl
      obtain ⟨w1, w2, w3⟩ := raw_writes app s hso
      refine ⟨hw.trans w1, ?_⟩
      have hl' : load (writeRaw app s).1.tx = load s.tx := by unfold load; rw [w2]
      unfold work
      rw [hl', if_pos hn, ← ha]
      generalize (writeRaw app s).1 = u at *
      rcases w3 with ⟨a, b⟩ | ⟨a, b⟩
      · rw [a, b]
        simp only [if_true, Bool.false_eq_true, if_false]
        split <;> omega
      · rw [a, b, if_pos rfl]
        omega
    have hsum : ∀ l' : List Msg, (l'.map rem).sum < ((m :: l).map rem).sum → ∀ t' : Tx, t'.queues = put st.tx.queues p l' → load t' < load st.tx := by
      intro l' hl' t' ht'
      unfold load
      refine total_lt _ _ p hp8 (fun q hqp => ?_) ?_
      · rw [ht', put_off _ hqp]
      · rw [ht', put_at, hq]
        exact hl'
    by_cases hbz : (t.streams k).busy = true
    · rw [if_neg (by rw [hbz]; nofun)]
      refine fin _ ⟨rfl, rfl, rfl, r3, [], by simp, by simp⟩ ho r2 (hsum (m1 :: l) ?_ _ rfl)
      have := hrem hbz
      simp only [List.map_cons, List.sum_cons]
      omega
    · have hbz : (t.streams k).busy = false := by simpa using hbz
      rw [if_pos hbz]
      unfold callback
      rw [hpl.react]
      simp only [List.foldl_nil]
      refine fin _ ⟨rfl, rfl, rfl, r3, [.finished p m1.id m1.sid m1.type m1.ts m1.payload, .done m1.id], by simp [emit], by simp [kept]⟩ ho r2 (hsum l ?_ _ ?_)
      · simp only [List.map_cons, List.sum_cons]
        have : 0 < rem m := by unfold rem; split <;> omega
        omega
      · funext q
        dsimp only [emit]
        by_cases e : q = p
        · subst e
          rw [put_at, put_at, put_at]
          rfl
        · rw [put_off _ e, put_off _ e, put_off _ e]

/-- some writing, and everything is sent -/
def Flushed (app : App) (st : St) : Prop :=
  ∃ k, let u := run app st (List.replicate k .writable)
    u.phase = st.phase ∧ u.tx.peerBw = st.tx.peerBw ∧ u.scheduled = true ∧ u.wild = false ∧ u.tx.out = [] ∧ (∀ p, u.tx.queues p = []) ∧ ∃ l, u.log = st.log ++ l ∧ ∀ e ∈ l, kept e = true

/-- Everything is sent. -/
theorem flushes (app : App) (hpl : Easy app) (n : Nat) : ∀ st : St, work st ≤ n → Inv st → Talking st → st.wild = false → st.scheduled = true → 2 ^ 32 ≤ st.tx.peerBw.toNat →
    Flushed app st := by
  induction n with
  | zero =>
    intro st hn h ho hw hs hb
    refine ⟨0, ?_⟩
    unfold work at hn
    refine ⟨rfl, rfl, hs, hw, ?_, fun p => ?_, [], by simp [run], by simp⟩
    · show st.tx.out = []
      by_cases e : st.tx.out = []
      · exact e
      · rw [if_neg e] at hn; omega
    · show st.tx.queues p = []
      by_cases e : st.tx.queues p = []
      · exact e
      · have hp := h.low p e
        have : total (fun _ => 0) < load st.tx ∨ load st.tx ≠ 0 := by
          right
          intro h0
          cases hq : st.tx.queues p with
          | nil => exact e hq
          | cons m l =>
            have hz : ∀ q, q < 8 → ((st.tx.queues q).map rem).sum = 0 := by
              unfold load total at h0
              dsimp only at h0
              intro q hq8
              rcases (by omega : q = 0 ∨ q = 1 ∨ q = 2 ∨ q = 3 ∨ q = 4 ∨ q = 5 ∨ q = 6 ∨ q = 7) with rfl | rfl | rfl | rfl | rfl | rfl | rfl | rfl <;> omega
            have := hz p hp
            rw [hq] at this
            simp only [List.map_cons, List.sum_cons] at this
            have : 0 < rem m := by unfold rem; split <;> omega
            omega
        rcases this with g | g
        · simp only [total] at g; omega
        · omega
  | succ n ih =>
    intro st hn h ho hw hs hb
    have go : ∀ s : St, step app st .writable = s → Writes st s → work s < work st → Flushed app st := by
      intro s hs' hwr hlt
      have hinv := h.step app .writable
      rw [hs'] at hinv
      obtain ⟨k, k1, kb, k0, k2, k3, k4, l, k5, k6⟩ := ih s (by omega) hinv (by unfold Talking; rw [hwr.phase]; exact ho) (hwr.wild.trans hw) (hwr.asked.trans hs) (hwr.limit ▸ hb)
      obtain ⟨j, j1, j2⟩ := hwr.log
      have he : run app st (List.replicate (k + 1) .writable) = run app s (List.replicate k .writable) := by
        rw [List.replicate_succ]
        show run app (step app st .writable) _ = _
        rw [hs']
      refine ⟨k + 1, ?_⟩
      simp only
      rw [he]
      refine ⟨k1.trans hwr.phase, kb.trans hwr.limit, k0, k2, k3, k4, j ++ l, by rw [k5, j1, List.append_assoc], fun e hx => ?_⟩
      rcases List.mem_append.mp hx with x | x
      · exact j2 e x
      · exact k6 e x
    have hstep : step app st .writable = onWritable app st := by
      unfold step
      rw [if_neg (by simp [hw])]
      dsimp only
      rw [if_pos ⟨by rcases ho with ho | ho <;> rw [ho] <;> nofun, hs⟩]
    by_cases hout : st.tx.out = []
    · have hr : (writeRaw app st) = (st, false) := by
        unfold writeRaw
        rw [if_neg (by simp [hout])]
      cases hf : firstOf st.tx [7, 6, 5, 4, 3, 2, 1, 0] with
      | some r =>
        obtain ⟨p, m⟩ := r
        have hwrit : onWritable app st = sendOne app st p m := by
          unfold onWritable
          rw [hr]
          simp only [Bool.false_eq_true, if_false]
          rw [if_pos (flow_plain app hpl st ho hb), trim_plain app hpl.fate st]
          simp only [hw, Bool.false_eq_true, if_false, false_and, hf]
        obtain ⟨l, hl⟩ := firstOf_some hf
        obtain ⟨a, b⟩ := send_work app hpl st (h.talking ho) ho hout p m l hl
        exact go _ (hstep.trans hwrit) a b
      | none =>
        refine ⟨0, rfl, rfl, hs, hw, hout, fun p => ?_, [], by simp [run], by simp⟩
        show st.tx.queues p = []
        by_cases e : st.tx.queues p = []
        · exact e
        · exact firstOf_none hf p (by have := h.low p e; simp; omega)
    · have hr : (writeRaw app st).2 = true := by
        unfold writeRaw
        rw [if_pos ⟨hout, by rcases ho with ho | ho <;> rw [ho] <;> decide⟩]
      have hwrit : onWritable app st = (writeRaw app st).1 := by
        unfold onWritable
        rw [if_pos hr]
      exact go _ (hstep.trans hwrit) (raw_writes app st ho).1 (raw_work app st ho hout)

end Rtmfp.Rtmp
