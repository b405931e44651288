import Verif.Lemmas.RtmpWire

/-! # What an RTMP has said -/

namespace Rtmfp.Rtmp

open Spec.Chunks Spec.Web

/-- the application may have put messages into queues -/
def Grow (a b : St) : Prop :=
  ∃ l, b.log = a.log ++ l ∧ Fresh l ∧ (∀ p, b.tx.queues p = a.tx.queues p ++ newAt p l) ∧ b.tx.nextId = a.tx.nextId + (qids l).length ∧
    qids l = List.range' a.tx.nextId (qids l).length

theorem mute_new {l : List Ev} (h : Mute l) : (∀ p, newAt p l = []) ∧ qids l = [] := by
  induction l with
  | nil => exact ⟨fun _ => rfl, rfl⟩
  | cons e l ih =>
    obtain ⟨i1, i2⟩ := ih (fun x hx => h x (by simp [hx]))
    have g := h e (by simp)
    have k : (∀ p, newAt p (e :: l) = newAt p l) ∧ qids (e :: l) = qids l := by
      cases e <;> first | (simp [loud] at g; done) | exact ⟨fun _ => rfl, rfl⟩
    exact ⟨fun p => (k.1 p).trans (i1 p), k.2.trans i2⟩

theorem Grow.mute {a b : St} (l : List Ev) (hl : b.log = a.log ++ l) (hm : Mute l) (hq : b.tx.queues = a.tx.queues) (hn : b.tx.nextId = a.tx.nextId) : Grow a b := by
  obtain ⟨h1, h2⟩ := mute_new hm
  exact ⟨l, hl, hm.fresh, fun p => by rw [hq, h1, List.append_nil], by rw [h2, hn]; rfl, by rw [h2]; rfl⟩

theorem Grow.refl (a : St) : Grow a a := .mute [] (by simp) (by intro e he; simp at he) rfl rfl

theorem Grow.trans {a b c : St} (h : Grow a b) (g : Grow b c) : Grow a c := by
  obtain ⟨l, h1, h2, h3, h4, h5⟩ := h
  obtain ⟨k, g1, g2, g3, g4, g5⟩ := g
  refine ⟨l ++ k, by rw [g1, h1, List.append_assoc], h2.append g2, fun p => by rw [g3, h3, newAt_append, List.append_assoc], ?_, ?_⟩
  · rw [qids_append, List.length_append]; omega
  · rw [qids_append, List.length_append, ← List.range'_append_1, ← h5, ← h4, ← g5]

/-- the phases in which there are chunks -/
def Talking (st : St) : Prop := st.phase = .opn ∨ st.phase = .closing

/-- … with a chunk size that is allowed -/
def Able (st : St) : Prop := Talking st ∧ 128 ≤ st.tx.size

/-- What happens in callbacks, or because of what is received -/
def Adds (a b : St) : Prop := Grow a b ∧ Speak a.tx b.tx ∧ Able b

theorem Adds.trans {a b c : St} (h : Adds a b) (g : Adds b c) : Adds a c := ⟨h.1.trans g.1, h.2.1.trans g.2.1, g.2.2⟩

theorem Adds.refl {a : St} (h : Able a) : Adds a a := ⟨.refl a, .refl _, h⟩

/-- nothing is said -/
theorem Adds.mute {a b : St} (ha : Able a) (l : List Ev) (hl : b.log = a.log ++ l) (hm : Mute l) (hq : b.tx.queues = a.tx.queues) (hn : b.tx.nextId = a.tx.nextId)
    (hs : b.tx.streams = a.tx.streams) (ho : b.tx.out = a.tx.out) (hz : b.tx.size = a.tx.size) (hp : Talking b) : Adds a b :=
  ⟨.mute l hl hm hq hn, .of_eq ho hs hz, hp, by rw [hz]; exact ha.2⟩

theorem one_mute {e : Ev} (h : loud e = false) : Mute [e] := by
  intro x hx
  rw [List.mem_singleton] at hx
  rw [hx]; exact h

theorem nil_mute : Mute [] := by intro e he; simp at he

theorem emit_adds {a : St} (ha : Able a) (e : Ev) (h : loud e = false) : Adds a (emit a e) :=
  .mute ha [e] rfl (one_mute h) rfl rfl rfl rfl rfl ha.1

theorem scheduleWrite_tx (st : St) : (scheduleWrite st).tx = st.tx := by
  unfold scheduleWrite emit
  split <;> rfl

theorem scheduleWrite_log (st : St) : ∃ l, (scheduleWrite st).log = st.log ++ l ∧ Mute l := by
  unfold scheduleWrite emit
  split
  · exact ⟨[.ask], rfl, one_mute rfl⟩
  · exact ⟨[], by simp, nil_mute⟩

theorem scheduleWrite_server (st : St) : (scheduleWrite st).server = st.server := by
  unfold scheduleWrite emit
  split <;> rfl

theorem scheduleWrite_adds {a : St} (ha : Able a) : Adds a (scheduleWrite a) := by
  obtain ⟨l, h1, h2⟩ := scheduleWrite_log a
  exact .mute ha l h1 h2 (by rw [scheduleWrite_tx]) (by rw [scheduleWrite_tx]) (by rw [scheduleWrite_tx]) (by rw [scheduleWrite_tx]) (by rw [scheduleWrite_tx])
    (by unfold Talking; rw [scheduleWrite_phase]; exact ha.1)

theorem setPaused_tx (st : St) (b : Bool) : (setPaused st b).tx = st.tx ∧ (setPaused st b).phase = st.phase ∧ (setPaused st b).server = st.server ∧
    ∃ l, (setPaused st b).log = st.log ++ l ∧ Mute l := by
  unfold setPaused emit
  simp only
  split
  · exact ⟨rfl, rfl, rfl, [.later], rfl, one_mute rfl⟩
  · exact ⟨rfl, rfl, rfl, [], by simp, nil_mute⟩

theorem clamp_bounds (n : Nat) : 128 ≤ clamp n ∧ clamp n ≤ 0x7fffffff := by
  unfold clamp
  split <;> split <;> omega

theorem Talking.rank {st : St} (h : Talking st) : 4 ≤ st.phase.rank := by
  rcases h with g | g <;> rw [g] <;> decide

theorem Talking.rank' {st : St} (h : Talking st) : st.phase.rank < 6 := by
  rcases h with g | g <;> rw [g] <;> decide

theorem control_list (type : UInt8) : (type ∈ ([1, 2, 3, 5, 6] : List UInt8)) ↔ isControl type = true := by
  simp [isControl, or_assoc]

/-- a write, when it is taken -/
theorem enqueue_grow (st : St) (pri : Nat) (sid : UInt32) (type : UInt8) (ts : UInt32) (payload : Bytes)
    (h : ¬ (st.phase.rank ≥ 5 ∨ payload.length > 2 ^ 24 - 1 ∨ type ∈ ([1, 2, 3, 5, 6] : List UInt8) ∨ pri ≥ 8)) :
    Grow st (enqueue st pri sid type ts payload) := by
  have h1 : isControl type = false := by
    cases hc : isControl type with
    | false => rfl
    | true => exact absurd (.inr (.inr (.inl ((control_list type).mpr hc)))) h
  refine ⟨[.queued pri st.tx.nextId sid type ts payload], rfl, ?_, fun p => ?_, rfl, rfl⟩
  · intro e he
    rw [List.mem_singleton] at he
    subst he
    exact .inr ⟨_, _, _, _, _, _, rfl, by omega, by omega, h1⟩
  · show put st.tx.queues pri _ p = _
    by_cases e : p = pri
    · subst e
      rw [put_at]
      simp [newAt]
    · rw [put_off _ e]
      simp [newAt, Ne.symm e]

theorem scheduleTrim_facts (st : St) : (scheduleTrim st).tx = st.tx ∧ (scheduleTrim st).phase = st.phase ∧ (scheduleTrim st).server = st.server ∧
    ∃ l, (scheduleTrim st).log = st.log ++ l ∧ Mute l := by
  unfold scheduleTrim emit
  split
  · exact ⟨rfl, rfl, rfl, [], by simp, nil_mute⟩
  · exact ⟨rfl, rfl, rfl, [.later], rfl, one_mute rfl⟩

theorem wake_facts (st : St) : (wake st).tx = st.tx ∧ (wake st).phase = st.phase ∧ (wake st).server = st.server ∧ ∃ l, (wake st).log = st.log ++ l ∧ Mute l := by
  unfold wake
  split
  · exact ⟨scheduleWrite_tx st, scheduleWrite_phase st, scheduleWrite_server st, scheduleWrite_log st⟩
  · exact ⟨rfl, rfl, rfl, [], by simp, nil_mute⟩

/-- what a write does to everything else -/
theorem write_facts (st : St) (pri : Nat) (sid : UInt32) (type : UInt8) (ts : UInt32) (payload : Bytes) :
    let u := write st pri sid type ts payload
    Grow st u ∧ u.tx.out = st.tx.out ∧ u.tx.streams = st.tx.streams ∧ u.tx.size = st.tx.size ∧ u.phase = st.phase ∧ u.server = st.server := by
  simp only
  unfold write
  split
  · exact ⟨.refl st, rfl, rfl, rfl, rfl, rfl⟩
  · next h =>
    have g := enqueue_grow st pri sid type ts payload h
    have e1 : (enqueue st pri sid type ts payload).tx.out = st.tx.out := rfl
    have e2 : (enqueue st pri sid type ts payload).tx.streams = st.tx.streams := rfl
    have e3 : (enqueue st pri sid type ts payload).tx.size = st.tx.size := rfl
    have e4 : (enqueue st pri sid type ts payload).phase = st.phase := rfl
    have e5 : (enqueue st pri sid type ts payload).server = st.server := rfl
    generalize enqueue st pri sid type ts payload = s1 at *
    obtain ⟨w1, w2, w3, l, w4, w5⟩ := wake_facts s1
    generalize wake s1 = s2 at *
    obtain ⟨t1, t2, t3, k, t4, t5⟩ := scheduleTrim_facts s2
    generalize scheduleTrim s2 = s3 at *
    refine ⟨(g.trans (.mute l w4 w5 (by rw [w1]) (by rw [w1]))).trans (.mute k t4 t5 (by rw [t1]) (by rw [t1])), ?_, ?_, ?_, ?_, ?_⟩
    · rw [t1, w1, e1]
    · rw [t1, w1, e2]
    · rw [t1, w1, e3]
    · rw [t2, w2, e4]
    · rw [t3, w3, e5]

/-- The functions of the application, while there are chunks -/
theorem call_adds (app : App) (st : St) (ha : Able st) (c : Call) : Adds st (call app st c) := by
  have h0 := emit_adds ha (.did c) rfl
  have ha' := h0.2.2
  refine h0.trans ?_
  unfold call
  simp only
  generalize emit st (.did c) = s at *
  cases c with
  | init server =>
    simp only
    unfold start
    rw [if_pos (by have := ha'.1.rank; omega)]
    exact .refl ha'
  | chunkSize n =>
    simp only
    unfold setSize
    split
    · exact .refl ha'
    · next h =>
      rcases ha'.1 with g | g
      · rw [if_pos g]
        exact ⟨.mute [] (by simp) nil_mute rfl rfl, resize_speak s.tx (app.now s.log) (clamp n) (clamp_bounds n).1 (clamp_bounds n).2, ha'.1, (clamp_bounds n).1⟩
      · rw [g] at h
        exact absurd (.inl (by decide)) h
  | write pri sid type ts payload =>
    simp only
    obtain ⟨w1, w2, w3, w4, w5, _⟩ := write_facts s pri sid type ts payload
    exact ⟨w1, .of_eq w2 w3 w4, by unfold Talking; rw [w5]; exact ha'.1, by rw [w4]; exact ha'.2⟩
  | close =>
    simp only
    unfold close
    simp only
    have hc : Adds s (clear s) := .mute ha' [] (by simp [clear]) nil_mute rfl rfl rfl rfl rfl ha'.1
    refine hc.trans ?_
    have hc' := hc.2.2
    generalize clear s = s1 at *
    rcases hc'.1 with g | g
    · rw [if_pos g]
      have h2 : Adds s1 { s1 with phase := .closing } := .mute hc' [] (by simp) nil_mute rfl rfl rfl rfl rfl (.inr rfl)
      exact h2.trans (scheduleWrite_adds h2.2.2)
    · rw [if_neg (by rw [g]; nofun), if_pos g]
      exact .refl hc'
  | simple b => exact .mute ha' [] (by simp) nil_mute rfl rfl rfl rfl rfl ha'.1
  | pause b =>
    simp only
    obtain ⟨p1, p2, _, l, p3, p4⟩ := setPaused_tx s b
    exact .mute ha' l p3 p4 (by rw [p1]) (by rw [p1]) (by rw [p1]) (by rw [p1]) (by rw [p1]) (by unfold Talking; rw [p2]; exact ha'.1)

theorem calls_adds (app : App) (l : List Call) : ∀ st : St, Able st → Adds st (l.foldl (call app) st) := by
  induction l with
  | nil => intro st h; exact .refl h
  | cons c l ih => intro st h; exact (call_adds app st h c).trans (ih _ (call_adds app st h c).2.2)

theorem callback_adds (app : App) (st : St) (ha : Able st) (e : Ev) (he : loud e = false) : Adds st (callback app st e) :=
  (emit_adds ha e he).trans (calls_adds app _ _ (emit_adds ha e he).2.2)

end Rtmfp.Rtmp
