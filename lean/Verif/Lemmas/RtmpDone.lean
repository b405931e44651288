import Verif.Lemmas.RtmpLive

/-! # When an RTMP stops asking for the stream -/

namespace Rtmfp.Rtmp

open Spec.Chunks Spec.Web

theorem setPaused_asked (st : St) (b : Bool) : (setPaused st b).scheduled = st.scheduled := by
  unfold setPaused
  dsimp only
  split <;> rfl

theorem callOver_asked (st : St) (c : Call) : (callOver st c).scheduled = st.scheduled := by
  unfold callOver
  dsimp only
  cases c with
  | pause b => exact setPaused_asked _ b
  | _ => rfl

theorem callsOver_asked (l : List Call) : ∀ st : St, (l.foldl callOver st).scheduled = st.scheduled := by
  induction l with
  | nil => intro st; rfl
  | cons c l ih => intro st; rw [List.foldl_cons, ih, callOver_asked]

theorem callbackOver_asked (app : App) (st : St) (e : Ev) : (callbackOver app st e).scheduled = st.scheduled := callsOver_asked _ _

theorem dropFirst_asked (app : App) (st : St) (p : Nat) (m : Msg) : (dropFirst app st p m).1.scheduled = st.scheduled := rfl

theorem trimAllOne_asked (app : App) (p : Nat) (fuel : Nat) : ∀ st : St, (trimAllOne app p fuel st).scheduled = st.scheduled := by
  induction fuel with
  | zero => intro st; rfl
  | succ fuel ih =>
    intro st
    unfold trimAllOne
    split
    · rfl
    · dsimp only
      rw [ih, dropFirst_asked]
      split
      · rfl
      · exact callbackOver_asked app st _

theorem trimAll_asked (app : App) (st : St) : (trimAll app st).scheduled = st.scheduled := by
  unfold trimAll
  generalize [7, 6, 5, 4, 3, 2, 1, 0] = l
  induction l generalizing st with
  | nil => rfl
  | cons p l ih => rw [List.foldl_cons, ih, trimAllOne_asked]

theorem setClosed_asked (app : App) (st : St) : (setClosed app st).scheduled = st.scheduled := by
  unfold setClosed
  split
  · have h := trimAll_asked app { st with phase := .error }
    dsimp only
    generalize trimAll app { st with phase := .error } = s at *
    split
    · rw [callbackOver_asked]; exact h
    · exact h
  · rfl

theorem scheduleWrite_asked (st : St) (h : st.scheduled = true) : (scheduleWrite st).scheduled = true := by
  unfold scheduleWrite
  split
  · rfl
  · exact h

theorem call_asked (app : App) (st : St) (c : Call) (h : st.scheduled = true) : (call app st c).scheduled = true := by
  unfold call
  dsimp only
  have h : (emit st (.did c)).scheduled = true := h
  generalize emit st (.did c) = s at *
  cases c with
  | init server =>
    dsimp only
    unfold start
    dsimp only
    split
    · exact h
    · split
      · exact h
      · exact scheduleWrite_asked _ h
  | chunkSize n =>
    dsimp only
    unfold setSize
    split
    · exact h
    · split <;> exact h
  | write pri sid type ts payload =>
    dsimp only
    unfold write
    split
    · exact h
    · have h1 : (enqueue s pri sid type ts payload).scheduled = true := h
      generalize enqueue s pri sid type ts payload = u at *
      have h2 : (wake u).scheduled = true := by
        unfold wake
        split
        · exact scheduleWrite_asked _ h1
        · exact h1
      generalize wake u = v at *
      unfold scheduleTrim
      split <;> exact h2
  | close =>
    dsimp only
    unfold close
    dsimp only
    have h : (clear s).scheduled = true := h
    generalize clear s = u at *
    split
    · exact scheduleWrite_asked _ h
    · split
      · exact h
      · rw [setClosed_asked]; exact h
  | simple b => exact h
  | pause b => exact (setPaused_asked s b).trans h

theorem calls_asked (app : App) (l : List Call) : ∀ st : St, st.scheduled = true → (l.foldl (call app) st).scheduled = true := by
  induction l with
  | nil => intro st h; exact h
  | cons c l ih => intro st h; exact ih _ (call_asked app st c h)

theorem callback_asked (app : App) (st : St) (e : Ev) (h : st.scheduled = true) : (callback app st e).scheduled = true := calls_asked app _ _ h

theorem trimOne_asked (app : App) (p : Nat) (fuel : Nat) : ∀ (st : St) (part : Bool), st.scheduled = true → (trimOne app p fuel st part).1.scheduled = true := by
  induction fuel with
  | zero =>
    intro st part h
    unfold trimOne
    split <;> exact h
  | succ fuel ih =>
    intro st part h
    unfold trimOne
    split
    · exact h
    · next m l hq =>
      split
      · exact h
      · dsimp only
        have h1 : (if app.fate st.log m.id = .before then st else callback app st (.gone m.id)).scheduled = true := by
          split
          · exact h
          · exact callback_asked app st _ h
        generalize (if app.fate st.log m.id = .before then st else callback app st (.gone m.id)) = s at *
        split
        · exact h1
        · exact ih _ _ h1

theorem trim_asked (app : App) (st : St) (h : st.scheduled = true) : (trim app st).1.scheduled = true := by
  have key : ∀ (l : List Nat) (r : St × Bool), r.1.scheduled = true →
      (l.foldl (fun r pri => if r.1.wild then r else trimOne app pri ((r.1.tx.queues pri).length + app.patience) r.1 r.2) r).1.scheduled = true := by
    intro l
    induction l with
    | nil => intro r h; exact h
    | cons p l ih =>
      intro r h
      rw [List.foldl_cons]
      refine ih _ ?_
      split
      · exact h
      · exact trimOne_asked app p _ _ _ h
  exact key [7, 6, 5, 4, 3, 2, 1, 0] (st, false) h

theorem sendOne_asked (app : App) (st : St) (p : Nat) (m : Msg) (h : st.scheduled = true) : (sendOne app st p m).scheduled = true := by
  unfold sendOne
  split
  · exact h
  · next t m1 hc =>
    dsimp only
    rw [writeRaw_asked]
    split
    · exact callback_asked app _ _ h
    · exact h

/-- the stream may be given nothing more -/
def Closed (app : App) (st : St) : Prop :=
  st.tx.peerBw ≤ (st.tx.sent - st.tx.acked).toUInt32.toUInt64 ∨ app.thresh st.log ≤ (st.tx.sent - st.tx.acked).toUInt32.toUInt64

theorem flow_closed {app : App} {st : St} (h : flowOpen app st = false) (ht : Talking st) : Closed app st := by
  unfold flowOpen at h
  unfold Closed
  generalize (st.tx.sent - st.tx.acked).toUInt32.toUInt64 = n at *
  have hp : (decide (st.phase = .opn) || decide (st.phase = .closing)) = true := by rcases ht with e | e <;> simp [e]
  simp only [hp, Bool.and_true, Bool.and_eq_false_iff, decide_eq_false_iff_not] at h
  rcases h with h | h
  · exact .inl (UInt64.not_lt.mp h)
  · exact .inr (UInt64.not_lt.mp h)

/-- Everything was sent, or the limits don't allow more. -/
theorem writable_done (app : App) {st : St} (h : Inv st) (ht : Talking st) (hs : st.scheduled = true) (hd : (onWritable app st).scheduled = false)
    (hw : (onWritable app st).wild = false) : Given (onWritable app st) ∧ (Closed app st ∧ (onWritable app st).log = st.log ∨ ∀ p, (onWritable app st).tx.queues p = []) := by
  revert hd hw
  unfold onWritable
  have hr := writeRaw_asked app st
  split
  · intro hd _; rw [hr, hs] at hd; nomatch hd
  · next hraw =>
    have hraw : (writeRaw app st).2 = false := by simpa using hraw
    have hrank : st.phase.rank < 6 := by rcases ht with e | e <;> rw [e] <;> decide
    have hout := writeRaw_flag app st hraw hrank
    have hg := (h.talking ht).2.2.given hout
    split
    · next hf =>
      dsimp only
      have hi := h.trim app
      have hst := trim_still h ht app
      have ha := trim_asked app st hs
      generalize trim app st = r at *
      split
      · next hwr =>
        intro _ hw
        rw [hwr] at hw; nomatch hw
      · split
        · intro hd _; rw [writeRaw_asked, ha] at hd; nomatch hd
        · split
          · next p m hp =>
            intro hd _; rw [sendOne_asked app _ _ _ ha] at hd; nomatch hd
          · next hp =>
            intro _ _
            have hq : ∀ p, r.1.tx.queues p = [] := by
              intro p
              by_cases e : r.1.tx.queues p = []
              · exact e
              · exact firstOf_none hp p (by have := hi.1.low p e; simp; omega)
            have hgr := hg.still hst
            split
            · have hsh := setClosed_shed app r.1
              refine ⟨hgr.still (setClosed_still app r.1), .inr fun p => ?_⟩
              have := hsh.queues p
              rw [show ({ r.1 with phase := .error } : St).tx.queues p = [] from hq p] at this
              exact List.suffix_nil.mp this
            · exact ⟨hgr, .inr hq⟩
    · next hf =>
      intro _ _
      exact ⟨hg, .inl ⟨flow_closed (by simpa using hf) ht, rfl⟩⟩

theorem sendOne_talking (app : App) (st : St) (p : Nat) (m : Msg) (h : Talking st) : Talking (sendOne app st p m) := by
  unfold sendOne
  split
  · exact h
  · next t m1 hc =>
    dsimp only
    refine (writeRaw_calm app _).1.talk ?_
    split
    · exact (foldl_calm (call_calm app) _ (emit (emit _ _) _)).talk h
    · exact h

/-- It only ends by itself when everything was sent. -/
theorem writable_over (app : App) {st : St} (h : Inv st) (ht : Talking st) (hs : st.scheduled = true) (hd : (onWritable app st).phase = .error) :
    st.tx.out = [] ∧ (onWritable app st).scheduled = false ∧ ((∀ l id, app.fate l id = .stays) → ∀ p, st.tx.queues p = []) := by
  have bad : ∀ s : St, Talking s → s.phase = .error → False := by
    intro s hx hy
    rcases hx with e | e <;> rw [hy] at e <;> nomatch e
  revert hd
  unfold onWritable
  split
  · intro hd; exact (bad _ ((h.raw app).2 ht) hd).elim
  · next hraw =>
    have hraw : (writeRaw app st).2 = false := by simpa using hraw
    have hrank : st.phase.rank < 6 := by rcases ht with e | e <;> rw [e] <;> decide
    have hout := writeRaw_flag app st hraw hrank
    split
    · dsimp only
      have hi := h.trim app
      have hp := trim_plain app (st := st)
      generalize trim app st = r at *
      split
      · intro hd; exact (bad _ (hi.2 ht) hd).elim
      · split
        · intro hd; exact (bad _ ((hi.1.raw app).2 (hi.2 ht)) hd).elim
        · split
          · intro hd; exact (bad _ (sendOne_talking app _ _ _ (hi.2 ht)) hd).elim
          · next hf =>
            intro hd
            refine ⟨hout, rfl, fun hn p => ?_⟩
            rw [hp hn] at hf
            by_cases e : st.tx.queues p = []
            · exact e
            · exact firstOf_none hf p (by have := h.low p e; simp; omega)
    · intro hd; exact (bad st ht hd).elim

theorem trimAll_empty (app : App) (st : St) (h : ∀ p, st.tx.queues p = []) : trimAll app st = st := by
  unfold trimAll
  generalize [7, 6, 5, 4, 3, 2, 1, 0] = l
  induction l with
  | nil => rfl
  | cons p l ih =>
    rw [List.foldl_cons, h p]
    exact ih

theorem setClosed_empty (app : App) (st : St) (hq : ∀ p, st.tx.queues p = []) (hr : ∀ l, app.react l = []) :
    ∃ l, (setClosed app st).log = st.log ++ l ∧ ∀ e ∈ l, kept e = true := by
  unfold setClosed
  split
  · rw [trimAll_empty app { st with phase := .error } hq]
    dsimp only
    split
    · unfold callbackOver
      rw [hr]
      exact ⟨[.released, .failed], by simp [emit, clear], by simp [kept]⟩
    · exact ⟨[.released], rfl, by simp [kept]⟩
  · exact ⟨[], by simp [clear], by simp⟩

/-- After `close`, everything is sent, and it ends. -/
theorem closes (app : App) (hpl : Easy app) (st : St) (h : Inv st) (hc : st.phase = .closing) (hw : st.wild = false) (hs : st.scheduled = true)
    (hb : 2 ^ 32 ≤ st.tx.peerBw.toNat) :
    ∃ k, let u := run app st (List.replicate k .writable)
      u.phase = .error ∧ Given u ∧ ∃ l, u.log = st.log ++ l ∧ ∀ e ∈ l, kept e = true := by
  obtain ⟨k, k1, kb, k0, k2, k3, k4, l, k5, k6⟩ := flushes app hpl _ st (Nat.le_refl _) h (.inr hc) hw hs hb
  refine ⟨k + 1, ?_⟩
  have hinv : Inv (run app st (List.replicate k .writable)) := h.run app _
  have hpb : 2 ^ 32 ≤ (run app st (List.replicate k .writable)).tx.peerBw.toNat := by rw [kb]; exact hb
  have e : run app st (List.replicate (k + 1) .writable) = step app (run app st (List.replicate k .writable)) .writable := by
    rw [List.replicate_succ', run_append]; rfl
  simp only
  rw [e]
  generalize run app st (List.replicate k .writable) = s at *
  rw [hc] at k1
  have hr : writeRaw app s = (s, false) := by
    unfold writeRaw
    rw [if_neg (by simp [k3])]
  have hf : firstOf s.tx [7, 6, 5, 4, 3, 2, 1, 0] = none := by simp [firstOf, k4]
  have hstep : step app s .writable = { setClosed app s with scheduled := false } := by
    unfold step
    rw [if_neg (by simp [k2])]
    dsimp only
    rw [if_pos ⟨by rw [k1]; nofun, k0⟩]
    unfold onWritable
    rw [hr]
    simp only [Bool.false_eq_true, if_false]
    rw [if_pos (flow_plain app hpl s (.inr k1) hpb), trim_plain app hpl.fate s]
    simp only [k2, Bool.false_eq_true, if_false, false_and, hf, k1, if_true]
  rw [hstep]
  obtain ⟨j, j1, j2⟩ := setClosed_empty app s k4 hpl.react
  refine ⟨(setClosed_end app s).1, ?_, l ++ j, ?_, fun e he => ?_⟩
  · exact (((hinv.talking (.inr k1)).2.2.given k3).still (setClosed_still app s) : Given (setClosed app s))
  · show (setClosed app s).log = _
    rw [j1, k5, List.append_assoc]
  · rcases List.mem_append.mp he with x | x
    · exact k6 e x
    · exact j2 e x

end Rtmfp.Rtmp
