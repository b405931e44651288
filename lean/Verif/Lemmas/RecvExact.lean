import Verif.Lemmas.RecvInv
import Verif.Lemmas.Stream

/-! # Exactness of delivery -/

namespace Rtmfp
namespace RFlow
open Spec (Msg)
open IndexSet (Mem Canon)

/-- `k` and `k'` belong to the same message -/
def Same (st : St) (k k' : Nat) : Prop := ∀ j, min k k' ≤ j → j < max k k' → Link st j

theorem Same.trans {st : St} {a b c : Nat} (h1 : Same st a b) (h2 : Same st b c) : Same st a c := by
  intro j p q
  by_cases h : min a b ≤ j ∧ j < max a b
  · exact h1 j h.1 h.2
  · exact h2 j (by omega) (by omega)

theorem Same.step {st : St} {k : Nat} (h : Link st k) : Same st (k + 1) k ∧ Same st k (k + 1) := by
  constructor <;>
  · intro j p q
    have : j = k := by omega
    rw [this]; exact h

theorem Con.same {st : St} {b : Buf} {lo hi : Nat} (h : Con st b lo hi) : Same st lo hi := by
  intro j p q
  have := h.1
  exact h.2.2 j (by omega) (by omega)

/-- `k` cannot be delivered any more: a fragment of its message was skipped -/
def Lost (st : St) (Ins : Nat → Prop) (S : List Range) (k : Nat) : Prop := ∃ k', ¬ Ins k' ∧ Mem S k' ∧ Same st k k'

/-- every fragment that was taken is still buffered, or was delivered, or cannot be delivered -/
def Cover (st : St) (Ins : Nat → Prop) (S : List Range) (b : Buf) (D : List Msg) : Prop :=
  ∀ k, Ins k → InBuf b k ∨ (∃ d ∈ D, d.sn ≤ k ∧ k ≤ d.last) ∨ Lost st Ins S k

theorem IsMsg.same_mem {st : St} (w : WFst st) {lo hi k k' : Nat} (h : IsMsg st lo hi) (h1 : lo ≤ k) (h2 : k ≤ hi) (hs : Same st k k') :
    lo ≤ k' ∧ k' ≤ hi := by
  constructor
  · rcases Nat.lt_or_ge k' lo with hlt | hge
    · have hl := hs (lo - 1) (by omega) (by omega)
      obtain ⟨d, hd⟩ : ∃ x, st (lo - 1) = some x := by
        obtain ⟨d, hl | hl⟩ := hl <;> exact ⟨_, hl⟩
      exact absurd hl (h.not_link_pred w (by omega) hd)
    · exact hge
  · rcases Nat.lt_or_ge hi k' with hlt | hge
    · exact absurd (hs hi (by omega) (by omega)) h.not_link
    · exact hge

/-- fields a delivery does not change when the user does nothing in the callback -/
structure Keep (f g : RFlow) : Prop where
  baseOpen : g.baseOpen = f.baseOpen
  accepted : g.accepted = f.accepted
  order : g.order = f.order
  onMessage : g.onMessage = f.onMessage
  onComplete : g.onComplete = f.onComplete
  state : g.state = f.state

theorem Keep.refl (f : RFlow) : Keep f f := ⟨rfl, rfl, rfl, rfl, rfl, rfl⟩
theorem Keep.trans {f g h : RFlow} (a : Keep f g) (b : Keep g h) : Keep f h :=
  ⟨b.1.trans a.1, b.2.trans a.2, b.3.trans a.3, b.4.trans a.4, b.5.trans a.5, b.6.trans a.6⟩
theorem Keep.isOpen {f g : RFlow} (a : Keep f g) : g.isOpen = f.isOpen := by rw [RFlow.isOpen, RFlow.isOpen, a.baseOpen, a.accepted]

/-- the user does nothing in message callbacks -/
abbrev quiet : Nat → React := fun _ => .none

theorem deliverOut_quiet (f : RFlow) (b1 : Buf) (data : Bytes) (sn count : Nat) :
    (deliverOut f b1 data sn count quiet).1.buf = b1 ∧ Keep f (deliverOut f b1 data sn count quiet).1 ∧
      completesOf (deliverOut f b1 data sn count quiet).2 = [] := by
  rw [deliverOut]
  obtain ⟨r0, hr0⟩ : ∃ r0, r0 = if f.prevRwnd < 2 then f.scheduleAck true else (f, []) := ⟨_, rfl⟩
  have h0 : Keep f r0.1 := by rw [hr0]; split <;> exact ⟨rfl, rfl, rfl, rfl, rfl, rfl⟩
  have h1 : completesOf r0.2 = [] := by rw [hr0]; split <;> rfl
  simp only [← hr0]
  have h2 : Keep f { r0.1 with buf := b1 } := ⟨h0.1, h0.2, h0.3, h0.4, h0.5, h0.6⟩
  split
  · refine ⟨rfl, h2, ?_⟩
    rw [completesOf_append, h1]; rfl
  · exact ⟨rfl, h2, h1⟩

/-- nothing more can be delivered in order -/
def Rest (st : St) (c : Nat) (b : Buf) : Prop :=
  ∀ X r, b = X :: r → c < X.2.sn ∨ (X.2.fra = .begin ∧ ∃ hi, Run st b X.2.sn hi ∧ ¬ IsMsg st X.2.sn hi ∧ c ≤ hi)

theorem loop_quiet {st : St} {c : Nat} {f f' : RFlow} {ev : List REv} (hl : Loop st c quiet f ev f') :
    Keep f f' ∧ completesOf ev = [] ∧ (f.order ≠ .hold → f.isOpen = true → Rest st c f'.buf) ∧ (∀ k, InBuf f'.buf k → InBuf f.buf k) := by
  induction hl with
  | stop f h =>
    refine ⟨.refl f, rfl, fun h1 h2 => ?_, fun k hk => hk⟩
    rcases h with h | h
    · exact absurd h h1
    · rw [h2] at h; cases h
  | rest f h1 h2 h3 => exact ⟨.refl f, rfl, fun _ _ => h3, fun k hk => hk⟩
  | deliver f X r hi ev f2 h1 h2 hbf _ hrun hmsg _ ih =>
    obtain ⟨e1, e2, e3⟩ := deliverOut_quiet f (rem f.buf X.2.sn hi) (content st X.2.sn hi) X.2.sn (hi + 1 - X.2.sn)
    obtain ⟨i1, i2, i3, i4⟩ := ih
    refine ⟨e2.trans i1, by rw [completesOf_append, e3, i2]; rfl, fun _ _ => i3 (by rw [e2.order]; exact h1) (by rw [e2.isOpen]; exact h2), ?_⟩
    intro k hk
    have := i4 k hk
    rw [e1] at this
    exact (InBuf_rem.mp this).1
  | drop f X r ev f2 h1 h2 hbf _ _ _ _ ih =>
    obtain ⟨i1, i2, i3, i4⟩ := ih
    refine ⟨⟨i1.1, i1.2, i1.3, i1.4, i1.5, i1.6⟩, i2, fun _ _ => i3 h1 h2, ?_⟩
    intro k hk
    rw [hbf]
    exact InBuf_cons.mpr (.inr (i4 k hk))

theorem Cover.deliver {st : St} {Ins : Nat → Prop} {S : List Range} {b : Buf} {D : List Msg} (h : Cover st Ins S b D) {lo hi : Nat}
    (hm : IsMsg st lo hi) (d : Bytes) : Cover st Ins S (rem b lo hi) (D ++ [⟨d, lo, hi + 1 - lo⟩]) := by
  intro k hk
  have hle := hm.le
  by_cases hin : lo ≤ k ∧ k ≤ hi
  · right; left
    refine ⟨_, List.mem_append.mpr (.inr (List.mem_singleton.mpr rfl)), hin.1, ?_⟩
    simp only [Msg.last]; omega
  · rcases h k hk with h | ⟨e, he, h⟩ | h
    · exact .inl (InBuf_rem.mpr ⟨h, hin⟩)
    · exact .inr (.inl ⟨e, List.mem_append.mpr (.inl he), h⟩)
    · exact .inr (.inr h)

/-- an incomplete run that starts with the beginning of a message goes on -/
theorem Run.open {st : St} (w : WFst st) {b : Buf} (hb : BufOK st b) {X : Nat × RFrag} (hX : X ∈ b) (hbeg : X.2.fra = .begin) {hi : Nat}
    (hrun : Run st b X.2.sn hi) (hnm : ¬ IsMsg st X.2.sn hi) : Link st hi := by
  have hXs := hb.cont X hX
  obtain ⟨Y, hY, hYs⟩ := hrun.con.2.1 hi hrun.con.1 (Nat.le_refl _)
  have hYst := hb.cont Y hY
  rw [hYs] at hYst
  rw [link_iff hYst]
  have hlo : X.2.sn = hi → Y = X := fun e => sorted_inj hb.sorted hY hX (by omega)
  cases hf : Y.2.fra with
  | begin => exact .inl rfl
  | middle => exact .inr rfl
  | whole =>
    exfalso
    rcases Nat.lt_or_ge X.2.sn hi with h1 | h1
    · have hl := hrun.con.2.2 (hi - 1) (by omega) (by omega)
      have e : hi - 1 + 1 = hi := by omega
      rw [← e] at hYst
      obtain ⟨x, hx⟩ : ∃ x, st (hi - 1) = some x := by
        obtain ⟨d, hl | hl⟩ := hl <;> exact ⟨_, hl⟩
      rw [link_iff_next w hYst hx, hf] at hl
      simp at hl
    · have := hlo (by have := hrun.con.1; omega)
      rw [this, hbeg] at hf; cases hf
  | «end» =>
    exfalso
    apply hnm
    right
    refine ⟨?_, ⟨_, by rw [hXs, hbeg]⟩, ⟨_, by rw [hYst, hf]⟩, hrun.con.2.2⟩
    rcases Nat.lt_or_ge X.2.sn hi with h1 | h1
    · exact h1
    · have := hlo (by have := hrun.con.1; omega)
      rw [this, hbeg] at hf; cases hf

/-- a fragment that is dropped cannot be delivered -/
theorem Cover.drop {st : St} (w : WFst st) {Ins : Nat → Prop} {S : List Range} {c : Nat} {f : RFlow} {D : List Msg} {X : Nat × RFrag} {r : Buf}
    (h : Cover st Ins S f.buf D) (hg : G st Ins f D) (hb : BufOK st f.buf) (hbf : f.buf = X :: r) (hXc : X.2.sn ≤ c) (hw : X.2.fra ≠ .whole)
    (hd : X.2.fra ≠ .begin ∨ ∃ hi, Run st f.buf X.2.sn hi ∧ hi < c ∧ ¬ IsMsg st X.2.sn hi)
    (hS : ∀ k, 1 ≤ k → k ≤ c → Mem S k) : Cover st Ins S r D := by
  have hX : X ∈ f.buf := by rw [hbf]; simp
  have hXs := hb.cont X hX
  -- X itself is lost
  have key : ∀ k', Mem S k' → ¬ InBuf f.buf k' → Same st X.2.sn k' → Lost st Ins S X.2.sn := by
    intro k' h1 h2 h3
    by_cases hi : Ins k'
    · rcases h k' hi with h4 | ⟨d, hd, h5, h6⟩ | ⟨k2, a, b, c⟩
      · exact absurd h4 h2
      · exfalso
        have hsym : Same st k' X.2.sn := fun j p q => h3 j (by omega) (by omega)
        have := (hg.msg d hd).1.same_mem w h5 h6 hsym
        exact (hg.gone d hd X.2.sn this.1 this.2).2 ⟨X, hX, rfl⟩
      · exact ⟨k2, a, b, h3.trans c⟩
    · exact ⟨k', hi, h1, h3⟩
  have hlost : Lost st Ins S X.2.sn := by
    rcases Classical.em (X.2.fra = .begin) with hbeg | hnb
    · rcases hd with hd | ⟨hi, hrun, hlt, hnm⟩
      · exact absurd hbeg hd
      · have hlink : Link st hi := hrun.open w hb hX hbeg hnm
        have hle := hrun.con.1
        refine key (hi + 1) (hS _ (by omega) (by omega)) (fun hb' => hrun.succ hb' hlink) ?_
        exact hrun.con.same.trans (Same.step hlink).2
    · obtain ⟨j, ej, hl⟩ := w.back X.2.sn X.2.fra X.2.data hXs (by cases hf : X.2.fra <;> simp_all)
      have hj : 1 ≤ j := by
        rcases Nat.eq_zero_or_pos j with e | e
        · obtain ⟨d, hl | hl⟩ := hl <;> rw [e, w.zero] at hl <;> cases hl
        · exact e
      refine key j (hS j hj (by omega)) ?_ ?_
      · intro hjb
        rw [hbf] at hjb
        have hs := hb.sorted
        rw [hbf, List.pairwise_cons] at hs
        rcases InBuf_cons.mp hjb with e | ⟨x, hx, e⟩
        · omega
        · have := hs.1 x hx; omega
      · rw [← ej]; exact (Same.step hl).1
  intro k hk
  rcases h k hk with h1 | h1 | h1
  · rw [hbf] at h1
    rcases InBuf_cons.mp h1 with e | h1
    · rw [e]; exact .inr (.inr hlost)
    · exact .inl h1
  · exact .inr (.inl h1)
  · exact .inr (.inr h1)

theorem BufOK.deliverOut {st : St} {f : RFlow} (hb : BufOK st f.buf) (lo hi : Nat) (d : Bytes) (sn n : Nat) (rc : Nat → React) :
    BufOK st (deliverOut f (rem f.buf lo hi) d sn n rc).1.buf := by
  rcases deliverOut_buf f (rem f.buf lo hi) d sn n rc with e | e <;> rw [e]
  · exact hb.sub (rem_sublist _ _ _)
  · exact ⟨List.Pairwise.nil, by simp, by simp⟩

/-- in order: everything delivered is before everything buffered -/
structure Ordered (c : Nat) (b : Buf) (D : List Msg) : Prop where
  sorted : D.Pairwise (fun a b => a.last < b.sn)
  le : ∀ d ∈ D, d.last ≤ c
  lt : ∀ d ∈ D, ∀ k, InBuf b k → d.last < k

theorem exact_loop {st : St} (w : WFst st) {Ins : Nat → Prop} {S : List Range} {c : Nat} {f f' : RFlow} {ev : List REv}
    (hl : Loop st c quiet f ev f') (hS : ∀ k, 1 ≤ k → k ≤ c → Mem S k) :
    ∀ {D}, f.onMessage = true → BufOK st f.buf → G st Ins f D → Cover st Ins S f.buf D →
      (∀ k, InBuf f.buf k → k ≤ c → InBuf f.buf (k + 1) → k + 1 ≤ c) →
      Cover st Ins S f'.buf (D ++ msgsOf ev) ∧ (Ordered c f.buf D → Ordered c f'.buf (D ++ msgsOf ev)) := by
  induction hl with
  | stop f _ => intro D _ _ _ h _; simp only [msgsOf, List.filterMap_nil, List.append_nil]; exact ⟨h, fun h => h⟩
  | rest f _ _ _ => intro D _ _ _ h _; simp only [msgsOf, List.filterMap_nil, List.append_nil]; exact ⟨h, fun h => h⟩
  | deliver f X r hi ev f2 h1 h2 hbf hXc hrun hmsg _ ih =>
    intro D ho hb hg hcov hcl
    obtain ⟨e1, e2, e3⟩ := deliverOut_quiet f (rem f.buf X.2.sn hi) (content st X.2.sn hi) X.2.sn (hi + 1 - X.2.sn)
    have hg' := hg.deliverOut hrun.con.2.1 hmsg quiet
    have hb' : BufOK st (RFlow.deliverOut f (rem f.buf X.2.sn hi) (content st X.2.sn hi) X.2.sn (hi + 1 - X.2.sn) quiet).1.buf := hb.deliverOut _ _ _ _ _ _
    have hmsgs := msgsOf_deliverOut f (rem f.buf X.2.sn hi) (content st X.2.sn hi) X.2.sn (hi + 1 - X.2.sn) quiet
    rw [if_pos ho] at hmsgs
    have hcov' := hcov.deliver hmsg (content st X.2.sn hi)
    rw [← hmsgs] at hcov'
    have hcov' : Cover st Ins S (RFlow.deliverOut f (rem f.buf X.2.sn hi) (content st X.2.sn hi) X.2.sn (hi + 1 - X.2.sn) quiet).1.buf
        (D ++ msgsOf (RFlow.deliverOut f (rem f.buf X.2.sn hi) (content st X.2.sn hi) X.2.sn (hi + 1 - X.2.sn) quiet).2) := by
      rw [e1]; exact hcov'
    have := ih (by rw [e2.onMessage]; exact ho) hb' hg' hcov' (by
      rw [e1]
      intro k a b d
      exact hcl k (InBuf_rem.mp a).1 b (InBuf_rem.mp d).1)
    rw [msgsOf_append, ← List.append_assoc]
    refine ⟨this.1, fun hord => this.2 ?_⟩
    rw [hmsgs, e1]
    have hle := hmsg.le
    have hlast : (⟨content st X.2.sn hi, X.2.sn, hi + 1 - X.2.sn⟩ : Msg).last = hi := by simp only [Msg.last]; omega
    have hhic : ∀ j, X.2.sn + j ≤ hi → X.2.sn + j ≤ c := by
      intro j
      induction j with
      | zero => intro _; exact hXc
      | succ j ihj =>
        intro hj
        have h1 := ihj (by omega)
        have := hcl (X.2.sn + j) (hrun.con.2.1 _ (by omega) (by omega)) h1 (hrun.con.2.1 (X.2.sn + j + 1) (by omega) (by omega))
        omega
    have hhi : hi ≤ c := by have := hhic (hi - X.2.sn) (by omega); omega
    refine ⟨?_, ?_, ?_⟩
    · rw [List.pairwise_append]
      refine ⟨hord.sorted, List.pairwise_singleton _ _, fun d hd e he => ?_⟩
      rw [List.mem_singleton] at he
      subst he
      exact hord.lt d hd X.2.sn ⟨X, by rw [hbf]; simp, rfl⟩
    · intro d hd
      rcases List.mem_append.mp hd with hd | hd
      · exact hord.le d hd
      · rw [List.mem_singleton] at hd
        rw [hd, hlast]; exact hhi
    · intro d hd k hk
      have hk' := InBuf_rem.mp hk
      rcases List.mem_append.mp hd with hd | hd
      · exact hord.lt d hd k hk'.1
      · rw [List.mem_singleton] at hd
        rw [hd, hlast]
        have hkX : X.2.sn ≤ k := by
          have := hk'.1
          rw [hbf] at this
          have hs := hb.sorted
          rw [hbf, List.pairwise_cons] at hs
          rcases InBuf_cons.mp this with e | ⟨x, hx, e⟩
          · omega
          · have := hs.1 x hx; omega
        omega
  | drop f X r ev f2 h1 h2 hbf hXc hw hd _ ih =>
    intro D ho hb hg hcov hcl
    have hb' : BufOK st r := hb.sub (by rw [hbf]; exact List.sublist_cons_self _ _)
    have hg' : G st Ins { f with buf := r } D := hg.sub (fun k hk => by rw [hbf]; exact InBuf_cons.mpr (.inr hk))
    have hcov' := hcov.drop w hg hb hbf hXc hw hd hS
    have := ih (D := D) ho hb' hg' hcov' (by
      intro k a b d
      rw [hbf] at hcl
      exact hcl k (InBuf_cons.mpr (.inr a)) b (InBuf_cons.mpr (.inr d)))
    refine ⟨this.1, fun hord => this.2 ⟨hord.sorted, hord.le, fun d hd k hk => hord.lt d hd k ?_⟩⟩
    rw [hbf]; exact InBuf_cons.mpr (.inr hk)

/-- the messages of which every fragment is buffered -/
def NoMsg (st : St) (b : Buf) : Prop := ∀ lo hi, IsMsg st lo hi → ¬ ∀ k, lo ≤ k → k ≤ hi → InBuf b k

theorem IsMsg.run {st : St} (w : WFst st) {b : Buf} (hb : BufOK st b) {lo hi : Nat} (h : IsMsg st lo hi) (hi' : ∀ k, lo ≤ k → k ≤ hi → InBuf b k) :
    Run st b lo hi := by
  refine ⟨⟨h.le, hi', ?_⟩, ?_, fun _ => h.not_link⟩
  · rcases h with ⟨e, _⟩ | ⟨_, _, _, h⟩
    · intro k a b; omega
    · exact h
  · intro k e hk
    obtain ⟨x, hx⟩ := InBuf_st hb hk
    have : k = lo - 1 := by omega
    subst this
    exact h.not_link_pred w (by omega) hx

/-- a delivery attempt on an open flow -/
theorem exact_try {st : St} (w : WFst st) {N : Nat} (hN : ∀ k x, st k = some x → k ≤ N) {Ins : Nat → Prop} {g : RFlow} {D : List Msg} {hint : Option Nat}
    (h : Inv st Ins g D) (hcov : Cover st Ins g.seqs g.buf D) (hm : g.onMessage = true) (hc : g.onComplete = true) (hop : g.isOpen = true)
    (hho : g.order ≠ .hold)
    (hh : ∀ n, hint = some n → ∃ X ∈ g.buf, ∃ hi, X.1 = n ∧ Run st g.buf X.2.sn hi ∧ IsMsg st X.2.sn hi)
    (hord : g.order = .sequence → Ordered g.csn g.buf D)
    (hnm : g.order = .network → ∀ lo hi, IsMsg st lo hi → (∀ k, lo ≤ k → k ≤ hi → InBuf g.buf k) → ∃ X ∈ g.buf, hint = some X.1 ∧ X.2.sn = lo)
    (hfin : g.finalSeen = true → N ≤ g.finalSn) :
    ∃ f' ev, g.tryDelivery hint quiet = .ok (f', ev) ∧ Inv st Ins f' (D ++ msgsOf ev) ∧ Cover st Ins g.seqs f'.buf (D ++ msgsOf ev) ∧
      Rest st g.csn f'.buf ∧ (g.order = .sequence → Ordered g.csn f'.buf (D ++ msgsOf ev)) ∧ (g.order = .network → NoMsg st f'.buf) ∧
      Frame g f' ∧ f'.order = g.order ∧
      ((g.finalSeen = true ∧ g.finalSn ≤ g.csn ∧ f'.baseOpen = false ∧ f'.buf = [] ∧ completesOf ev = [false]) ∨
        (¬ (g.finalSeen = true ∧ g.finalSn ≤ g.csn) ∧ Keep g f' ∧ completesOf ev = [])) := by
  obtain ⟨f', ev, e, hi⟩ := h.try w quiet hint hh
  refine ⟨f', ev, e, hi, ?_⟩
  obtain ⟨_, f1, ev1, f2, ev2, ev3, e', hb, hr, h1, h2, h3⟩ := try_ok (rc := quiet) w g hint h.ok h.run h.closure hh
  rw [e] at e'
  cases e'
  have hS : ∀ k, 1 ≤ k → k ≤ g.csn → Mem g.seqs k := fun k a b => (csn_iff h.canon h.zero k).1 b k a (Nat.le_refl _)
  -- the hint
  have s1 : BufOK st f1.buf ∧ G st Ins f1 (D ++ msgsOf ev1) ∧ Cover st Ins g.seqs f1.buf (D ++ msgsOf ev1) ∧
      (g.order = .sequence → Ordered g.csn f1.buf (D ++ msgsOf ev1)) ∧ (g.order = .network → NoMsg st f1.buf) ∧ Frame g f1 ∧ Keep g f1 ∧ completesOf ev1 = [] ∧
      (∀ k, InBuf f1.buf k → InBuf g.buf k) := by
    rcases h1 with ⟨hno, rfl, rfl⟩ | ⟨ho, _, X, hX, hi, hhint, hrun, hmsg, eo⟩
    · simp only [msgsOf, List.filterMap_nil, List.append_nil]
      refine ⟨h.ok, h.g, hcov, hord, fun ho => ?_, .refl _, .refl _, rfl, fun k hk => hk⟩
      intro lo hi hmm hall
      obtain ⟨X, _, hX, _⟩ := hnm ho lo hi hmm hall
      rcases hno with h | h | h
      · rw [hX] at h; cases h
      · exact h ho
      · rw [hop] at h; cases h
    · have e1 : f1 = (RFlow.deliverOut g (rem g.buf X.2.sn hi) (content st X.2.sn hi) X.2.sn (hi + 1 - X.2.sn) quiet).1 := by rw [← eo]
      have e2 : ev1 = (RFlow.deliverOut g (rem g.buf X.2.sn hi) (content st X.2.sn hi) X.2.sn (hi + 1 - X.2.sn) quiet).2 := by rw [← eo]
      obtain ⟨q1, q2, q3⟩ := deliverOut_quiet g (rem g.buf X.2.sn hi) (content st X.2.sn hi) X.2.sn (hi + 1 - X.2.sn)
      have hg' := h.g.deliverOut hrun.con.2.1 hmsg quiet
      have hb' := h.ok.deliverOut X.2.sn hi (content st X.2.sn hi) X.2.sn (hi + 1 - X.2.sn) quiet
      have hmsgs := msgsOf_deliverOut g (rem g.buf X.2.sn hi) (content st X.2.sn hi) X.2.sn (hi + 1 - X.2.sn) quiet
      rw [if_pos hm] at hmsgs
      have hfr := frame_deliverOut g (rem g.buf X.2.sn hi) (content st X.2.sn hi) X.2.sn (hi + 1 - X.2.sn) quiet
      rw [← e1] at hg' hb' hfr q1 q2
      rw [← e2] at hg' hmsgs q3
      refine ⟨hb', hg', ?_, fun hs => (by rw [ho] at hs; cases hs), fun _ => ?_, hfr, q2, q3, fun k hk => ?_⟩
      · rw [q1, hmsgs]; exact hcov.deliver hmsg _
      · intro lo hi2 hmm hall
        rw [q1] at hall
        obtain ⟨Y, hY, hYh, hYlo⟩ := hnm ho lo hi2 hmm (fun k a b => (InBuf_rem.mp (hall k a b)).1)
        rw [hhint] at hYh
        have : X = Y := names_inj h.ok.names hX hY (by injection hYh)
        subst this
        have hle := hmm.le
        have hle' := hmsg.le
        exact (InBuf_rem.mp (hall lo (Nat.le_refl _) hle)).2 (by omega)
      · rw [q1] at hk; exact (InBuf_rem.mp hk).1
  obtain ⟨hb1, hg1, hcov1, hord1, hnm1, hfr1, hk1, hc1, hsub1⟩ := s1
  -- the loop
  obtain ⟨hk2, hc2, hrest, hsub2⟩ := loop_quiet h2
  have hrest := hrest (by rw [hk1.order]; exact hho) (by rw [hk1.isOpen]; exact hop)
  obtain ⟨hcov2, hord2⟩ := exact_loop w h2 hS (by rw [hk1.onMessage]; exact hm) hb1 hg1 hcov1
    (fun k a b c => h.closure k (hsub1 k a) b (hsub1 _ c))
  have hnm2 : g.order = .network → NoMsg st f2.buf := fun ho lo hi hmm hall => hnm1 ho lo hi hmm (fun k a b => hsub2 k (hall k a b))
  have hfr2 := hfr1.trans (frame_loop h2)
  have hk := hk1.trans hk2
  have hd : D ++ msgsOf ev1 ++ msgsOf ev2 = D ++ msgsOf (ev1 ++ ev2) := by rw [msgsOf_append, List.append_assoc]
  rw [hd] at hcov2 hord2
  rcases h3 with ⟨⟨x1, x2, x3⟩, e3⟩ | ⟨hno, rfl, rfl⟩
  · have ef : f' = (f2.closeAndNotify false).1 := by rw [← e3]
    have ee : ev3 = (f2.closeAndNotify false).2 := by rw [← e3]
    have em : msgsOf ev3 = [] := by rw [ee]; exact msgsOf_closeAndNotify f2 false
    have hbuf : f'.buf = [] := by rw [ef]; rfl
    rw [x3] at hcov2 hord2 hnm2 hrest
    rw [hfr2.finalSeen] at x1
    rw [hfr2.finalSn] at x2
    rw [msgsOf_append _ ev3, em, List.append_nil, hbuf]
    refine ⟨hcov2, hrest, fun ho => hord2 (hord1 ho), hnm2, ?_, ?_, .inl ⟨x1, x2, by rw [ef]; rfl, rfl, ?_⟩⟩
    · rw [ef]; exact hfr2.trans (frame_closeAndNotify f2 false)
    · rw [ef, ← hk.order]
      simp only [closeAndNotify, close]; split <;> rfl
    · rw [completesOf_append, completesOf_append, hc1, hc2, ee]
      have a1 : f2.isOpen = true := by rw [hk.isOpen]; exact hop
      have a2 : f2.onComplete = true := by rw [hk.onComplete]; exact hc
      simp only [closeAndNotify]
      rw [a1, a2, completesOf_append]
      simp only [close]
      split <;> rfl
  · rw [List.append_nil]
    refine ⟨hcov2, hrest, fun ho => hord2 (hord1 ho), hnm2, hfr2, hk.order, .inr ⟨?_, hk, by rw [completesOf_append, hc1, hc2]; rfl⟩⟩
    rintro ⟨x1, x2⟩
    apply hno
    refine ⟨by rw [hfr2.finalSeen]; exact x1, by rw [hfr2.finalSn]; exact x2, ?_⟩
    -- nothing is left
    cases hbuf : f'.buf with
    | nil => rfl
    | cons X r =>
      exfalso
      have hX : X ∈ f'.buf := by rw [hbuf]; simp
      have hXN := hN _ _ (hb.cont X hX)
      have hNc := hfin x1
      rcases hrest X r hbuf with hlt | ⟨hbeg, hi, hrun, hnmsg, hle⟩
      · omega
      · have hl := hrun.open w hb hX hbeg hnmsg
        obtain ⟨x, hx⟩ := w.fwd hi hl
        have := hN _ _ hx
        omega

end RFlow
end Rtmfp
