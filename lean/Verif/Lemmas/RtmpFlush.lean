import Verif.Lemmas.RtmpStep

/-! # An RTMP always finds a chunk stream, and what is flushed -/

namespace Rtmfp.Rtmp

open Spec.Chunks Spec.Web

theorem many (n : Nat) : ∀ l : List Nat, (∀ k, 3 ≤ k → k < 3 + n → k ∈ l) → n ≤ l.length := by
  induction n with
  | zero => intro l _; omega
  | succ n ih =>
    intro l h
    have hm := h (3 + n) (by omega) (by omega)
    have := ih (l.erase (3 + n)) (fun k h3 hk => (List.mem_erase_of_ne (by omega)).mpr (h k h3 (by omega)))
    rw [List.length_erase_of_mem hm] at this
    have := List.length_pos_of_mem hm
    omega

/-- There is always a chunk stream: each of the eight queues has at most one. -/
theorem always_found {t : Tx} {d : Dec} (F : Fit t d) (L : Link' t.queues d t.streams) (sid : UInt32) (type : UInt8) (len : Nat) : findChunkStream t sid type len ≠ none := by
  intro h
  have hf := find_spec t sid type len (fun j => F.idle j)
  rw [h] at hf
  have key : ∀ k, 3 ≤ k → k < 3 + 21 → k ∈ (List.range 8).map (fun p => match t.queues p with | [] => 0 | m :: _ => m.cs.getD 0) := by
    intro k h3 hk
    obtain ⟨p, m, l, e, hc⟩ := L.busy k (hf k h3 hk)
    refine List.mem_map.mpr ⟨p, List.mem_range.mpr (L.low p (by rw [e]; nofun)), ?_⟩
    simp only [e, hc, Option.getD_some]
  have := many 21 _ key
  simp at this

theorem chunk_found {app : App} {st : St} (h : Tells st) (m : Msg) : chunkOf app st m ≠ none := by
  obtain ⟨_, _, _, _, _, _, _, _, _, _, F, L⟩ := h
  unfold chunkOf
  cases hc : m.cs with
  | none =>
    dsimp only
    cases hf : findChunkStream st.tx m.sid m.type m.payload.length with
    | none => exact absurd hf (always_found F L _ _ _)
    | some k => simp
  | some k => simp

/-! ## Nothing goes wrong -/

/-- a call that leaves the queues alone -/
def Meek : Call → Prop
  | .write .. | .close => False
  | _ => True

theorem call_wild (app : App) (st : St) (c : Call) : (call app st c).wild = st.wild := by
  have := (call_calm app st c)
  exact this.1.wild

theorem calls_wild (app : App) (l : List Call) : ∀ st : St, (l.foldl (call app) st).wild = st.wild := by
  induction l with
  | nil => intro st; rfl
  | cons c l ih => intro st; exact (ih _).trans (call_wild app st c)

theorem meek_call (app : App) (st : St) (c : Call) (h : Meek c) : (call app st c).tx.queues = st.tx.queues ∧ (call app st c).tx.cap = st.tx.cap := by
  unfold call emit
  cases c with
  | write _ _ _ _ _ => exact h.elim
  | close => exact h.elim
  | init server =>
    dsimp only
    unfold start
    split
    · exact ⟨rfl, rfl⟩
    · dsimp only
      split
      · exact ⟨rfl, rfl⟩
      · unfold handshake01
        rw [scheduleWrite_tx]
        exact ⟨rfl, rfl⟩
  | chunkSize n =>
    dsimp only
    unfold setSize
    split
    · exact ⟨rfl, rfl⟩
    · split <;> exact ⟨rfl, rfl⟩
  | simple b => exact ⟨rfl, rfl⟩
  | pause b =>
    dsimp only
    rw [(setPaused_tx _ b).1]
    exact ⟨rfl, rfl⟩

theorem meek_calls (app : App) (l : List Call) : ∀ st : St, (∀ c ∈ l, Meek c) →
    (l.foldl (call app) st).tx.queues = st.tx.queues ∧ (l.foldl (call app) st).tx.cap = st.tx.cap := by
  induction l with
  | nil => intro st _; exact ⟨rfl, rfl⟩
  | cons c l ih =>
    intro st h
    obtain ⟨a, b⟩ := ih (call app st c) (fun x hx => h x (by simp [hx]))
    obtain ⟨e, f⟩ := meek_call app st c (h c (by simp))
    exact ⟨a.trans e, b.trans f⟩

/-- The application leaves the queues alone when it is told that a message was abandoned. -/
def Polite (app : App) : Prop := ∀ l id, ∀ c ∈ app.react (l ++ [.gone id]), Meek c

theorem trimOne_wild (app : App) (hp : Polite app) (p : Nat) (fuel : Nat) : ∀ (st : St) (part : Bool), (st.tx.queues p).length ≤ fuel → st.wild = false →
    (trimOne app p fuel st part).1.wild = false := by
  induction fuel with
  | zero =>
    intro st part h hw
    unfold trimOne
    rw [if_pos (List.length_eq_zero_iff.mp (by omega))]
    exact hw
  | succ fuel ih =>
    intro st part h hw
    unfold trimOne
    split
    · exact hw
    · next m l hq =>
      split
      · exact hw
      · dsimp only
        have h1 : (if app.fate st.log m.id = .before then st else callback app st (.gone m.id)).tx.queues = st.tx.queues ∧
            (if app.fate st.log m.id = .before then st else callback app st (.gone m.id)).tx.cap = st.tx.cap ∧
            (if app.fate st.log m.id = .before then st else callback app st (.gone m.id)).wild = st.wild := by
          split
          · exact ⟨rfl, rfl, rfl⟩
          · have := meek_calls app (app.react (emit st (.gone m.id)).log) (emit st (.gone m.id)) (fun c hc => hp st.log m.id c hc)
            exact ⟨this.1, this.2, (callback_calm app st (.gone m.id) rfl).1.wild⟩
        generalize (if app.fate st.log m.id = .before then st else callback app st (.gone m.id)) = s at *
        obtain ⟨a, b, c⟩ := h1
        rw [if_neg (by rw [a, b, hq]; simp)]
        refine ih _ _ ?_ ?_
        · rw [(dropFirst_log app s p m).2.1, put_at, a, hq]
          rw [hq] at h
          simp at h ⊢
          omega
        · have : (dropFirst app s p m).1.wild = s.wild := by
            unfold dropFirst emit; rfl
          rw [this, c, hw]

theorem trim_wild (app : App) (hp : Polite app) (st : St) (hw : st.wild = false) : (trim app st).1.wild = false := by
  have key : ∀ (l : List Nat) (r : St × Bool), r.1.wild = false →
      (l.foldl (fun r pri => if r.1.wild then r else trimOne app pri ((r.1.tx.queues pri).length + app.patience) r.1 r.2) r).1.wild = false := by
    intro l
    induction l with
    | nil => intro r h; exact h
    | cons p l ih =>
      intro r h
      rw [List.foldl_cons]
      refine ih _ ?_
      rw [if_neg (by simp [h])]
      exact trimOne_wild app hp p _ r.1 r.2 (by omega) h
  exact key [7, 6, 5, 4, 3, 2, 1, 0] (st, false) hw

theorem setClosed_wild (app : App) (st : St) : (setClosed app st).wild = st.wild := (setClosed_end app st).2.2.2.1

theorem writeRaw_wild (app : App) (st : St) : (writeRaw app st).1.wild = st.wild := (writeRaw_calm app st).1.wild

theorem sendOne_wild (app : App) (st : St) (p : Nat) (m : Msg) (h : Tells st) (hw : st.wild = false) : (sendOne app st p m).wild = false := by
  unfold sendOne
  cases hc : chunkOf app st m with
  | none => exact absurd hc (chunk_found h m)
  | some r =>
    obtain ⟨t, m1⟩ := r
    dsimp only
    rw [writeRaw_wild]
    split
    · dsimp only
      have := (callback_calm app (emit { st with tx := { t with queues := put t.queues p (m1 :: (t.queues p).drop 1) } } (.finished p m1.id m1.sid m1.type m1.ts m1.payload)) (.done m1.id) rfl).1.wild
      rw [this]
      exact hw
    · exact hw

theorem scheduleWrite_wild (st : St) : (scheduleWrite st).wild = st.wild := by
  unfold scheduleWrite emit
  split <;> rfl

theorem sendAck_wild (app : App) (st : St) : (sendAck app st).wild = st.wild := by
  unfold sendAck
  split
  · rw [scheduleWrite_wild]
  · rfl

theorem completed_wild (app : App) (st : St) (sid : UInt32) (type : UInt8) (ts : UInt32) (p : Bytes) : (onMessageCompleted app st sid type ts p).1.wild = st.wild := by
  unfold onMessageCompleted
  split
  · split
    · rfl
    · split
      · unfold onSetChunkSize
        split
        · rfl
        · dsimp only; split <;> rfl
      · split
        · unfold onAbort
          split
          · rfl
          · dsimp only
            split
            · rfl
            · split <;> rfl
        · split
          · unfold onAck
            split
            · rfl
            · dsimp only; rw [scheduleWrite_wild]
          · split
            · unfold onWindowAckSize
              split
              · rfl
              · dsimp only; rw [sendAck_wild]
            · unfold onSetPeerBandwidth
              split
              · rfl
              · dsimp only; split <;> rfl
  · dsimp only
    split
    · unfold callback
      rw [calls_wild]
      rfl
    · rfl

theorem input_wild (app : App) (st : St) (bs : Bytes) : (onInput app st bs).1.wild = st.wild := by
  have ho : (openInput app st bs).1.wild = st.wild := by
    unfold openInput
    split
    · rfl
    · rfl
    · next cs c n _ =>
      dsimp only
      split
      · have := completed_wild app { st with rx := { st.rx with streams := put st.rx.streams cs c } } c.h.sid c.h.type c.h.ts c.payload
        generalize onMessageCompleted app { st with rx := { st.rx with streams := put st.rx.streams cs c } } c.h.sid c.h.type c.h.ts c.payload = r at *
        split <;> exact this
      · rfl
  unfold onInput
  cases st.phase with
  | unknown => rfl
  | error => rfl
  | opn => exact ho
  | closing => exact ho
  | uninit =>
    dsimp only
    unfold uninitInput
    dsimp only
    split
    · rfl
    · dsimp only
      split
      · unfold handshake01; rw [scheduleWrite_wild]
      · rfl
  | versionSent =>
    dsimp only
    unfold versionInput
    split
    · rfl
    · dsimp only; rw [scheduleWrite_wild]
  | ackSent =>
    dsimp only
    unfold ackInput
    split
    · rfl
    · dsimp only
      generalize (if st.tx.size ≠ 128 then setChunk st.tx (app.now st.log) else st.tx) = t
      have hw := scheduleWrite_wild { st with phase := .opn, tx := refreshWindow t (app.now st.log) }
      generalize scheduleWrite { st with phase := .opn, tx := refreshWindow t (app.now st.log) } = s at *
      split
      · unfold callback
        rw [calls_wild]
        exact hw
      · exact hw

theorem loop_wild (app : App) (fuel : Nat) : ∀ (st : St) (buf : Bytes), (loop app fuel st buf).1.wild = st.wild := by
  induction fuel with
  | zero => intro st buf; rfl
  | succ fuel ih =>
    intro st buf
    unfold loop
    split
    · rfl
    · have h1 := input_wild app st buf
      generalize onInput app st buf = r at *
      obtain ⟨s, o⟩ := r
      cases o with
      | none => exact (setClosed_wild app s).trans h1
      | some n =>
        dsimp only
        split
        · exact h1
        · exact (ih _ _).trans h1

theorem receive_wild (app : App) (st : St) (b : Bytes) : (onReceive app st b).wild = st.wild := by
  unfold onReceive
  split
  · exact setClosed_wild app st
  · dsimp only
    have := loop_wild app (st.rx.input ++ b).length { st with rx := { st.rx with received := st.rx.received + UInt64.ofNat b.length, input := st.rx.input ++ b } } (st.rx.input ++ b)
    generalize loop app (st.rx.input ++ b).length { st with rx := { st.rx with received := st.rx.received + UInt64.ofNat b.length, input := st.rx.input ++ b } } (st.rx.input ++ b) = r at *
    obtain ⟨u, o⟩ := r
    cases o with
    | none => exact this
    | some rest =>
      dsimp only
      split
      · rw [sendAck_wild]; exact this
      · exact this

/-- Nothing undefined is done if the application leaves the queues alone when it is told that a message was abandoned. -/
theorem step_wild (app : App) (hp : Polite app) (st : St) (h : Inv st) (hw : st.wild = false) (o : Op) : (step app st o).wild = false := by
  unfold step
  rw [if_neg (by simp [hw])]
  cases o with
  | read b => dsimp only; split; exact (receive_wild app st b).trans hw; exact hw
  | lost => dsimp only; split; exact (setClosed_wild app st).trans hw; exact hw
  | trim => dsimp only; split; exact trim_wild app hp _ hw; exact hw
  | resume => dsimp only; split; exact (receive_wild app _ []).trans hw; exact hw
  | call c => exact (call_wild app st c).trans hw
  | writable =>
    dsimp only
    split
    · unfold onWritable
      split
      · exact (writeRaw_wild app st).trans hw
      · split
        · next hf =>
          dsimp only
          have tw := trim_wild app hp st hw
          obtain ⟨a, b⟩ := h.trim app
          have b := b (flow_talking hf)
          generalize trim app st = r at *
          rw [if_neg (by simp [tw])]
          split
          · exact (writeRaw_wild app r.1).trans tw
          · split
            · next p m hm => exact sendOne_wild app r.1 p m (a.talking b).2.2 tw
            · split
              · exact (setClosed_wild app r.1).trans tw
              · exact tw
        · exact hw
    · exact hw

theorem run_wild (app : App) (hp : Polite app) (ops : List Op) : ∀ st, Inv st → st.wild = false → (run app st ops).wild = false := by
  induction ops with
  | nil => intro st _ h; exact h
  | cons o ops ih => intro st h hw; exact ih _ (h.step app o) (step_wild app hp st h hw o)

/-! ## When all is written -/

/-- All messages sent are in what was given to the stream. -/
def Given (st : St) : Prop :=
  ∃ (h : Bytes) (cs : List Chunk) (b : Bytes) (d : Dec) (ms : List Message), h.length = 3072 ∧ (∀ c ∈ cs, c.Fits) ∧ Dec.init.hear cs = some (b, d, ms) ∧
    puts st.log = 3 :: (h ++ b) ∧ users ms = fins st.log

/-- nothing is given to the stream, and nothing is sent -/
def Still (a b : St) : Prop := puts b.log = puts a.log ∧ fins b.log = fins a.log

theorem Given.still {a b : St} (h : Given a) (g : Still a b) : Given b := by
  unfold Given
  rw [g.1, g.2]
  exact h

theorem Still.trans {a b c : St} (h : Still a b) (g : Still b c) : Still a c := ⟨g.1.trans h.1, g.2.trans h.2⟩

theorem Shed.still {a b : St} (h : Shed a b) : Still a b := ⟨h.puts, h.fins⟩

theorem Grow.still {a b : St} (h : Grow a b) : Still a b := by
  obtain ⟨l, h1, h2, _⟩ := h
  obtain ⟨f1, f2, _⟩ := h2.facts
  exact ⟨by rw [h1, puts_append, f1, List.append_nil], by rw [h1, fins_append, f2, List.append_nil]⟩

theorem setClosed_shed (app : App) (st : St) : Shed { st with phase := .error } (setClosed app st) := by
  unfold setClosed
  split
  · dsimp only
    have t1 := (trimAll_shed app { st with phase := .error }).1
    generalize trimAll app { st with phase := .error } = s at *
    have e1 : Shed s (emit s .released) := .mute [.released] rfl (one_mute rfl) rfl rfl rfl
    have e2 : Shed (emit s .released) (clear (emit s .released)) := .mute [] (by simp [clear]) nil_mute rfl rfl rfl
    have e3 := (t1.trans e1).trans e2
    generalize emit s .released = u at *
    split
    · exact e3.trans (callbackOver_shed app _ _ rfl).1
    · exact e3
  · next h =>
    have h : st.phase = .error := by simpa using h
    exact .mute [] (by simp [clear]) nil_mute rfl rfl h

theorem setClosed_still (app : App) (st : St) : Still st (setClosed app st) := (setClosed_shed app st).still

theorem dropFirst_still (app : App) (st : St) (p : Nat) (m : Msg) : Still st (dropFirst app st p m).1 := by
  have d1 := (dropFirst_log app st p m).1
  exact ⟨by rw [d1, puts_append]; simp [puts], by rw [d1, fins_append]; simp [fins]⟩

theorem callback_still {st : St} (h : Inv st) (app : App) (e : Ev) (he : loud e = false) (ht : Talking st) : Still st (callback app st e) :=
  (callback_adds app st (inv_able (h.talking ht)) e he).1.still

theorem trimOne_still (app : App) (p : Nat) (fuel : Nat) : ∀ {st : St} (part : Bool), Inv st → Talking st → Still st (trimOne app p fuel st part).1 := by
  induction fuel with
  | zero =>
    intro st part h _
    unfold trimOne
    split <;> exact ⟨rfl, rfl⟩
  | succ fuel ih =>
    intro st part h ht
    unfold trimOne
    split
    · exact ⟨rfl, rfl⟩
    · next m l hq =>
      split
      · exact ⟨rfl, rfl⟩
      · dsimp only
        have h1 : Inv (if app.fate st.log m.id = .before then st else callback app st (.gone m.id)) ∧
            Talking (if app.fate st.log m.id = .before then st else callback app st (.gone m.id)) ∧
            ((∃ k, (if app.fate st.log m.id = .before then st else callback app st (.gone m.id)).tx.queues p = st.tx.queues p ++ k) ∨
              (if app.fate st.log m.id = .before then st else callback app st (.gone m.id)).tx.queues p = []) ∧
            Still st (if app.fate st.log m.id = .before then st else callback app st (.gone m.id)) := by
          split
          · exact ⟨h, ht, .inl ⟨[], by simp⟩, rfl, rfl⟩
          · obtain ⟨a, b, c⟩ := h.callback app (.gone m.id) rfl
            exact ⟨a, b ht, c p, callback_still h app _ rfl ht⟩
        generalize (if app.fate st.log m.id = .before then st else callback app st (.gone m.id)) = s at *
        obtain ⟨a, b, c, d⟩ := h1
        split
        · exact d
        · next hn =>
          rcases c with ⟨k, c⟩ | c
          · rw [hq, List.cons_append] at c
            have e := a.drop app p m (l ++ k) c
            refine (d.trans (dropFirst_still app s p m)).trans (ih _ e ?_)
            unfold Talking
            rw [(dropFirst_log app s p m).2.2.2.1]
            exact b
          · exact absurd (.inr c) hn

theorem trim_still {st : St} (h : Inv st) (ht : Talking st) (app : App) : Still st (trim app st).1 := by
  have key : ∀ (l : List Nat) (r : St × Bool), Inv r.1 → Talking r.1 →
      Still r.1 (l.foldl (fun r pri => if r.1.wild then r else trimOne app pri ((r.1.tx.queues pri).length + app.patience) r.1 r.2) r).1 := by
    intro l
    induction l with
    | nil => intro r _ _; exact ⟨rfl, rfl⟩
    | cons p l ih =>
      intro r h ht
      rw [List.foldl_cons]
      have h1 : Inv (if r.1.wild then r else trimOne app p ((r.1.tx.queues p).length + app.patience) r.1 r.2).1 ∧
          Talking (if r.1.wild then r else trimOne app p ((r.1.tx.queues p).length + app.patience) r.1 r.2).1 ∧
          Still r.1 (if r.1.wild then r else trimOne app p ((r.1.tx.queues p).length + app.patience) r.1 r.2).1 := by
        split
        · exact ⟨h, ht, rfl, rfl⟩
        · exact ⟨(Inv.trimOne app p _ r.2 h).1, (Inv.trimOne app p _ r.2 h).2 ht, trimOne_still app p _ r.2 h ht⟩
      generalize (if r.1.wild then r else trimOne app p ((r.1.tx.queues p).length + app.patience) r.1 r.2) = r' at *
      exact h1.2.2.trans (ih r' h1.1 h1.2.1)
  exact key [7, 6, 5, 4, 3, 2, 1, 0] (st, false) h ht

theorem firstOf_none {t : Tx} {l : List Nat} (h : firstOf t l = none) : ∀ p ∈ l, t.queues p = [] := by
  induction l with
  | nil => intro p hp; nomatch hp
  | cons q l ih =>
    unfold firstOf at h
    cases hq : t.queues q with
    | cons a b => rw [hq] at h; nomatch h
    | nil =>
      rw [hq] at h
      intro p hp
      rcases List.mem_cons.mp hp with rfl | hp
      · exact hq
      · exact ih h p hp

theorem Tells.given {st : St} (h : Tells st) (ho : st.tx.out = []) : Given st := by
  obtain ⟨hs, cs, x, d, ms, h1, h2, h3, h4, h5, _, _⟩ := h
  refine ⟨hs, cs, x, d, ms, h1, h2, h3, ?_, h5⟩
  unfold said at h4
  rw [ho, List.append_nil] at h4
  exact h4

theorem writeRaw_flag (app : App) (st : St) (h : (writeRaw app st).2 = false) (hp : st.phase.rank < 6) : st.tx.out = [] := by
  unfold writeRaw at h
  split at h
  · nomatch h
  · next hc =>
    by_cases e : st.tx.out = []
    · exact e
    · exact absurd ⟨e, hp⟩ hc

theorem writeRaw_asked (app : App) (st : St) : (writeRaw app st).1.scheduled = st.scheduled := by
  unfold writeRaw
  split
  · dsimp only
    split
    · unfold startRTT
      dsimp only
      split <;> rfl
    · rfl
  · rfl

end Rtmfp.Rtmp
