import Verif.Lemmas.RecvHist

/-! # Invariants of a receive flow that gets fragments of a well-formed stream -/

namespace Rtmfp
namespace RFlow
open Spec (Msg)
open IndexSet (Mem Canon)

/-- what has been delivered -/
structure G (st : St) (Ins : Nat → Prop) (f : RFlow) (D : List Msg) : Prop where
  bufIns : ∀ k, InBuf f.buf k → Ins k
  msg : ∀ d ∈ D, IsMsg st d.sn d.last ∧ d.count = d.last + 1 - d.sn ∧ d.data = content st d.sn d.last
  gone : ∀ d ∈ D, ∀ k, d.sn ≤ k → k ≤ d.last → Ins k ∧ ¬ InBuf f.buf k
  disj : D.Pairwise (fun a b => a.last < b.sn ∨ b.last < a.sn)

theorem G.sub {st : St} {Ins : Nat → Prop} {f f' : RFlow} {D : List Msg} (h : G st Ins f D)
    (hs : ∀ k, InBuf f'.buf k → InBuf f.buf k) : G st Ins f' D :=
  ⟨fun k hk => h.bufIns k (hs k hk), h.msg, fun d hd k a b => ⟨(h.gone d hd k a b).1, fun hk => (h.gone d hd k a b).2 (hs k hk)⟩, h.disj⟩

theorem G.deliverOut {st : St} {Ins : Nat → Prop} {f : RFlow} {D : List Msg} (h : G st Ins f D) {lo hi : Nat}
    (hc : ∀ k, lo ≤ k → k ≤ hi → InBuf f.buf k) (hm : IsMsg st lo hi) (rc : Nat → React) :
    G st Ins (deliverOut f (rem f.buf lo hi) (content st lo hi) lo (hi + 1 - lo) rc).1
      (D ++ msgsOf (RFlow.deliverOut f (rem f.buf lo hi) (content st lo hi) lo (hi + 1 - lo) rc).2) := by
  have hle := hm.le
  have hbuf := deliverOut_buf f (rem f.buf lo hi) (content st lo hi) lo (hi + 1 - lo) rc
  have hs : ∀ k, InBuf (RFlow.deliverOut f (rem f.buf lo hi) (content st lo hi) lo (hi + 1 - lo) rc).1.buf k → InBuf f.buf k ∧ ¬ (lo ≤ k ∧ k ≤ hi) := by
    intro k hk
    rcases hbuf with e | e <;> rw [e] at hk
    · exact InBuf_rem.mp hk
    · obtain ⟨x, hx, _⟩ := hk; simp at hx
  rw [msgsOf_deliverOut]
  by_cases ho : f.onMessage = true
  · rw [if_pos ho]
    have hlast : (⟨content st lo hi, lo, hi + 1 - lo⟩ : Msg).last = hi := by simp only [Msg.last]; omega
    refine ⟨fun k hk => h.bufIns k (hs k hk).1, ?_, ?_, ?_⟩
    · intro d hd
      rcases List.mem_append.mp hd with hd | hd
      · exact h.msg d hd
      · rw [List.mem_singleton] at hd
        subst hd
        rw [hlast]
        exact ⟨hm, rfl, rfl⟩
    · intro d hd k a b
      rcases List.mem_append.mp hd with hd | hd
      · exact ⟨(h.gone d hd k a b).1, fun hk => (h.gone d hd k a b).2 (hs k hk).1⟩
      · rw [List.mem_singleton] at hd
        subst hd
        rw [hlast] at b
        exact ⟨h.bufIns k (hc k a b), fun hk => (hs k hk).2 ⟨a, b⟩⟩
    · rw [List.pairwise_append]
      refine ⟨h.disj, List.pairwise_singleton _ _, ?_⟩
      intro d hd e he
      rw [List.mem_singleton] at he
      subst he
      rw [hlast]
      have hdl := (h.msg d hd).1.le
      -- otherwise they share a number, which is both in the buffer and not
      rcases Nat.lt_or_ge d.last lo with h1 | h1
      · exact .inl h1
      · rcases Nat.lt_or_ge hi d.sn with h2 | h2
        · exact .inr h2
        · have hb := hc (max d.sn lo) (by omega) (by omega)
          exact absurd hb (h.gone d hd (max d.sn lo) (by omega) (by omega)).2
  · rw [if_neg ho, List.append_nil]
    exact h.sub (fun k hk => (hs k hk).1)

theorem G.loop {st : St} {Ins : Nat → Prop} {c : Nat} {rc : Nat → React} {f f' : RFlow} {ev : List REv} (hl : Loop st c rc f ev f') :
    ∀ {D}, G st Ins f D → G st Ins f' (D ++ msgsOf ev) := by
  induction hl with
  | stop f _ => intro D h; simpa [msgsOf] using h
  | rest f _ _ _ => intro D h; simpa [msgsOf] using h
  | deliver f X r hi ev f2 _ _ hbf _ hrun hmsg _ ih =>
    intro D h
    rw [msgsOf_append, ← List.append_assoc]
    exact ih (h.deliverOut hrun.con.2.1 hmsg rc)
  | drop f X r ev f2 _ _ hbf _ _ _ _ ih =>
    intro D h
    refine ih (h.sub (fun k hk => ?_))
    rw [hbf]
    exact InBuf_cons.mpr (.inr hk)

/-- the invariant -/
structure Inv (st : St) (Ins : Nat → Prop) (f : RFlow) (D : List Msg) : Prop where
  ok : BufOK st f.buf
  run : RunInv st f.buf
  canon : Canon f.seqs
  zero : f.seqs = [] ∨ Mem f.seqs 0
  g : G st Ins f D
  insSeq : ∀ k, Ins k → Mem f.seqs k

theorem Inv.closure {st : St} {Ins : Nat → Prop} {f : RFlow} {D : List Msg} (h : Inv st Ins f D) :
    ∀ k, InBuf f.buf k → k ≤ f.csn → InBuf f.buf (k + 1) → k + 1 ≤ f.csn := by
  intro k _ h1 h2
  rw [csn_iff h.canon h.zero] at h1 ⊢
  intro j p q
  by_cases e : j = k + 1
  · subst e; exact h.insSeq _ (h.g.bufIns _ h2)
  · exact h1 j p (by omega)

theorem Inv.noBuf {st : St} {Ins : Nat → Prop} {f f' : RFlow} {D : List Msg} (h : Inv st Ins f D) (hb : f'.buf = []) (hs : f'.seqs = f.seqs) :
    Inv st Ins f' D := by
  refine ⟨?_, ?_, by rw [hs]; exact h.canon, by rw [hs]; exact h.zero, h.g.sub ?_, fun k hk => by rw [hs]; exact h.insSeq k hk⟩
  · rw [hb]; exact ⟨List.Pairwise.nil, by simp, by simp⟩
  · rw [hb]; intro x hx; simp at hx
  · rw [hb]; rintro k ⟨x, hx, _⟩; simp at hx

theorem Inv.same {st : St} {Ins : Nat → Prop} {f f' : RFlow} {D : List Msg} (h : Inv st Ins f D) (hb : f'.buf = f.buf) (hs : f'.seqs = f.seqs) :
    Inv st Ins f' D := by
  refine ⟨by rw [hb]; exact h.ok, by rw [hb]; exact h.run, by rw [hs]; exact h.canon, by rw [hs]; exact h.zero, h.g.sub ?_,
    fun k hk => by rw [hs]; exact h.insSeq k hk⟩
  rw [hb]; exact fun k hk => hk

theorem close_buf (f : RFlow) : f.close.1.buf = [] := rfl
theorem closeAndNotify_buf (f : RFlow) (e : Bool) : (f.closeAndNotify e).1.buf = [] := rfl

/-- delivery attempts keep the invariant and do not fail -/
theorem Inv.try {st : St} (w : WFst st) {Ins : Nat → Prop} {f : RFlow} {D : List Msg} (h : Inv st Ins f D) (rc : Nat → React) (hint : Option Nat)
    (hh : ∀ n, hint = some n → ∃ X ∈ f.buf, ∃ hi, X.1 = n ∧ Run st f.buf X.2.sn hi ∧ IsMsg st X.2.sn hi) :
    ∃ f' ev, f.tryDelivery hint rc = .ok (f', ev) ∧ Inv st Ins f' (D ++ msgsOf ev) := by
  obtain ⟨f', f1, ev1, f2, ev2, ev3, e, hb, hr, h1, h2, h3⟩ := try_ok (rc := rc) w f hint h.ok h.run h.closure hh
  refine ⟨f', _, e, ?_⟩
  have g1 : G st Ins f1 (D ++ msgsOf ev1) ∧ Frame f f1 := by
    rcases h1 with ⟨_, rfl, rfl⟩ | ⟨_, _, X, hX, hi, _, hrun, hmsg, eo⟩
    · exact ⟨by simpa [msgsOf] using h.g, .refl _⟩
    · have := h.g.deliverOut hrun.con.2.1 hmsg rc
      rw [← eo] at this
      refine ⟨this, ?_⟩
      have := frame_deliverOut f (rem f.buf X.2.sn hi) (content st X.2.sn hi) X.2.sn (hi + 1 - X.2.sn) rc
      rw [← eo] at this
      exact this
  have g2 := g1.1.loop h2
  have fr2 := g1.2.trans (frame_loop h2)
  rw [List.append_assoc, ← msgsOf_append] at g2
  have g3 : G st Ins f' (D ++ msgsOf (ev1 ++ ev2 ++ ev3)) ∧ Frame f f' := by
    rcases h3 with ⟨_, e3⟩ | ⟨_, rfl, rfl⟩
    · have em : msgsOf ev3 = [] := by
        have := msgsOf_closeAndNotify f2 false
        rw [← e3] at this; exact this
      have ef : f' = (f2.closeAndNotify false).1 := by rw [← e3]
      rw [msgsOf_append _ ev3, em, List.append_nil]
      refine ⟨g2.sub ?_, ?_⟩
      · rw [ef, closeAndNotify_buf]; rintro k ⟨x, hx, _⟩; simp at hx
      · rw [ef]; exact fr2.trans (frame_closeAndNotify f2 false)
    · rw [List.append_nil]; exact ⟨g2, fr2⟩
  exact ⟨hb, hr, by rw [g3.2.seqs]; exact h.canon, by rw [g3.2.seqs]; exact h.zero, g3.1, fun k hk => by rw [g3.2.seqs]; exact h.insSeq k hk⟩

/-- what a data chunk must satisfy: 64-bit numbers, a name not in use, and unless it is an abandonment notice, a fragment of the stream -/
def OkData (st : St) (f : RFlow) (flags : UInt8) (sn fsn : Nat) (data : Bytes) (nm : Nat) : Prop :=
  sn < W64 ∧ fsn < W64 ∧ nm ∉ f.buf.map (·.1) ∧ (flags &&& USERDATA_FLAG_ABN = 0 → st sn = some (Fra.ofFlags flags, data))

theorem Inv.pre {st : St} {Ins Ins' : Nat → Prop} {f g : RFlow} {D : List Msg} (h : Inv st Ins f D) {flags : UInt8} {sn fsn : Nat}
    {hint : Option Nat} (hp : Pre st f flags sn fsn g hint)
    (hsub : ∀ k, Ins k → Ins' k) (hnew : ¬ Mem f.seqs sn → flags &&& USERDATA_FLAG_ABN = 0 → f.state = .opened → Ins' sn)
    (hins : ∀ k, Ins' k → Mem g.seqs k) : Inv st Ins' g D := by
  refine ⟨hp.bufOK, hp.runInv, hp.canon, .inr ((hp.mem 0).2 (.inl (by omega))), ⟨?_, h.g.msg, ?_, h.g.disj⟩, hins⟩
  · intro k hk
    rcases (hp.buf k).1 hk with ⟨rfl, a, b, c⟩ | hk
    · exact hnew a b c
    · exact hsub k (h.g.bufIns k hk)
  · intro d hd k a b
    have := h.g.gone d hd k a b
    refine ⟨hsub k this.1, fun hk => ?_⟩
    rcases (hp.buf k).1 hk with ⟨rfl, hn, _⟩ | hk
    · exact hn (h.insSeq _ this.1)
    · exact this.2 hk

/-- a data chunk keeps the invariant and does not fail -/
theorem Inv.data {st : St} (w : WFst st) {Ins Ins' : Nat → Prop} {f : RFlow} {D : List Msg} (h : Inv st Ins f D) {flags : UInt8} {sn fsn : Nat}
    {data : Bytes} {nm : Nat} (ho : OkData st f flags sn fsn data nm) (rc : Nat → React)
    (hsub : ∀ k, Ins k → Ins' k) (hnew : ¬ Mem f.seqs sn → flags &&& USERDATA_FLAG_ABN = 0 → f.state = .opened → Ins' sn)
    (hins : ∀ k, Ins' k → k ≤ fsn ∨ k = sn ∨ Mem f.seqs k) :
    ∃ f' ev, f.onData flags sn fsn data nm rc = .ok (f', ev) ∧ Inv st Ins' f' (D ++ msgsOf ev) ∧
      (∀ k, Mem f'.seqs k ↔ k ≤ fsn ∨ k = sn ∨ Mem f.seqs k) := by
  obtain ⟨g, hint, f3, ev, ev', hp, e1, e2, e3, _⟩ := data_ok (rc := rc) w f flags sn fsn data nm h.ok h.run h.canon
    (fun k hk => h.insSeq k (h.g.bufIns k hk)) ho.1 ho.2.1 ho.2.2.2 ho.2.2.1
  have hg := h.pre hp hsub hnew (fun k hk => (hp.mem k).2 (hins k hk))
  obtain ⟨f4, ev4, e4, hi⟩ := hg.try w rc hint hp.hintOk
  rw [e1] at e4
  cases e4
  refine ⟨_, _, e2, ?_, ?_⟩
  · rw [msgsOf_append, e3, List.append_nil]
    exact hi.same rfl rfl
  · intro k
    rw [← hp.mem]
    have : f3.seqs = g.seqs := by
      obtain ⟨f', f1, ev1, f2, ev2, ev3, e, hb, hr, h1, h2, h3⟩ := try_ok (rc := rc) w g hint hp.bufOK hp.runInv hg.closure hp.hintOk
      rw [e1] at e
      cases e
      have fr1 : Frame g f1 := by
        rcases h1 with ⟨_, rfl, rfl⟩ | ⟨_, _, X, hX, hi, _, hrun, hmsg, eo⟩
        · exact .refl _
        · have := frame_deliverOut g (rem g.buf X.2.sn hi) (content st X.2.sn hi) X.2.sn (hi + 1 - X.2.sn) rc
          rw [← eo] at this
          exact this
      have fr2 := fr1.trans (frame_loop h2)
      rcases h3 with ⟨_, e3⟩ | ⟨_, rfl, _⟩
      · have ef : f3 = (f2.closeAndNotify false).1 := by rw [← e3]
        rw [ef]; exact (fr2.trans (frame_closeAndNotify f2 false)).seqs
      · exact fr2.seqs
    show Mem f3.seqs k ↔ _
    rw [this]

/-- calls the theorems allow: data chunks carry fragments of the stream -/
def OkOp (st : St) (f : RFlow) : Op → Prop
  | .data flags sn fsn data nm _ => OkData st f flags sn fsn data nm
  | _ => True

/-- every call keeps the invariant (with everything received as `Ins`) and does not fail -/
theorem Inv.step {st : St} (w : WFst st) {f : RFlow} {D : List Msg} (h : Inv st (Mem f.seqs) f D) {op : Op} (ho : OkOp st f op) :
    ∃ f' ev, f.step op = .ok (f', ev) ∧ Inv st (Mem f'.seqs) f' (D ++ msgsOf ev) ∧ (∀ k, Mem f.seqs k → Mem f'.seqs k) := by
  have close0 : ∀ (f' : RFlow) (ev : List REv), f'.buf = [] → f'.seqs = f.seqs → msgsOf ev = [] →
      Inv st (Mem f'.seqs) f' (D ++ msgsOf ev) ∧ (∀ k, Mem f.seqs k → Mem f'.seqs k) := by
    intro f' ev hb hs hm
    rw [hm, List.append_nil, hs]
    exact ⟨h.noBuf hb hs, fun k hk => hk⟩
  have same0 : ∀ (f' : RFlow) (ev : List REv), f'.buf = f.buf → f'.seqs = f.seqs → msgsOf ev = [] →
      Inv st (Mem f'.seqs) f' (D ++ msgsOf ev) ∧ (∀ k, Mem f.seqs k → Mem f'.seqs k) := by
    intro f' ev hb hs hm
    rw [hm, List.append_nil, hs]
    exact ⟨h.same hb hs, fun k hk => hk⟩
  cases op with
  | accept => exact ⟨_, _, rfl, same0 _ _ rfl rfl rfl⟩
  | setOrder o => exact ⟨_, _, rfl, same0 _ _ rfl rfl rfl⟩
  | setCapacity n => exact ⟨_, _, rfl, same0 _ _ rfl rfl rfl⟩
  | setWindowLimit n => exact ⟨_, _, rfl, same0 _ _ rfl rfl rfl⟩
  | setOnMessage b => exact ⟨_, _, rfl, same0 _ _ rfl rfl rfl⟩
  | setOnComplete b => exact ⟨_, _, rfl, same0 _ _ rfl rfl rfl⟩
  | setOnMerge b => exact ⟨_, _, rfl, same0 _ _ rfl rfl rfl⟩
  | probe => exact ⟨_, _, rfl, same0 _ _ rfl rfl rfl⟩
  | ackSent => exact ⟨_, _, rfl, same0 _ _ rfl rfl rfl⟩
  | close r => exact ⟨_, _, rfl, close0 _ _ rfl (frame_close _).seqs (msgsOf_close _)⟩
  | reject => exact ⟨_, _, rfl, close0 _ _ rfl (frame_closeAndNotify f true).seqs (msgsOf_closeAndNotify f true)⟩
  | abort => exact ⟨_, _, rfl, close0 _ _ rfl (frame_abort _).seqs (msgsOf_abort _)⟩
  | lingerAlarm =>
    refine ⟨_, _, rfl, same0 _ _ ?_ ?_ rfl⟩ <;> (simp only [lingerAlarm]; split <;> rfl)
  | deferredTry rc =>
    obtain ⟨f', ev, e, hi⟩ := h.try w rc none (fun n hn => by cases hn)
    obtain ⟨_, f1, ev1, f2, ev2, ev3, e', hb, hr, h1, h2, h3⟩ := try_ok (rc := rc) w f none h.ok h.run h.closure (fun n hn => by cases hn)
    rw [e] at e'
    cases e'
    have fr1 : Frame f f1 := by
      rcases h1 with ⟨_, rfl, rfl⟩ | ⟨_, _, X, hX, hi, hn, _⟩
      · exact .refl _
      · cases hn
    have fr2 := fr1.trans (frame_loop h2)
    have hs : f'.seqs = f.seqs := by
      rcases h3 with ⟨_, e3⟩ | ⟨_, rfl, _⟩
      · have ef : f' = (f2.closeAndNotify false).1 := by rw [← e3]
        rw [ef]; exact (fr2.trans (frame_closeAndNotify f2 false)).seqs
      · exact fr2.seqs
    refine ⟨f', _, e, ?_, fun k hk => by rw [hs]; exact hk⟩
    rw [hs]; exact hi
  | data flags sn fsn data nm rc =>
    obtain ⟨f', ev, e, hi, hm⟩ := h.data w (Ins' := fun k => k ≤ fsn ∨ k = sn ∨ Mem f.seqs k) ho rc (fun k hk => .inr (.inr hk))
      (fun _ _ _ => .inr (.inl rfl)) (fun k hk => hk)
    refine ⟨f', ev, e, ?_, fun k hk => (hm k).2 (.inr (.inr hk))⟩
    have : (fun k => k ≤ fsn ∨ k = sn ∨ Mem f.seqs k) = Mem f'.seqs := by
      funext k; rw [hm]
    rw [this] at hi
    exact hi

theorem Inv.init (st : St) : Inv st (Mem RFlow.init.seqs) RFlow.init [] := by
  refine ⟨⟨List.Pairwise.nil, by simp [RFlow.init], by simp [RFlow.init]⟩, by intro x hx; simp [RFlow.init] at hx, trivial, .inl rfl, ⟨?_, by simp, by simp, List.Pairwise.nil⟩, fun k hk => hk⟩
  rintro k ⟨x, hx, _⟩
  simp [RFlow.init] at hx

theorem Inv.exec {st : St} (w : WFst st) {ops : List Op} {f : RFlow} {ev : List REv} (h : Exec (OkOp st) RFlow.init ops f ev) :
    Inv st (Mem f.seqs) f (msgsOf ev) := by
  induction h with
  | nil => exact Inv.init st
  | snoc _ ho hs ih =>
    obtain ⟨f', ev', e, hi, _⟩ := ih.step w ho
    rw [hs] at e
    cases e
    rw [msgsOf_append]
    exact hi

end RFlow
end Rtmfp
