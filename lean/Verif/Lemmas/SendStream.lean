import Verif.Lemmas.SendFate
import Verif.Lemmas.Stream

/-! # The stream of a flow

What is in the queue of a flow are fragments of the stream of all messages ever accepted for it (and the empty one that may be added by closing it).
-/

namespace Rtmfp
namespace SS
open Spec

/-- a flow that was given the messages `W`, cut into `ms` -/
structure Streamed (f : SF) (ms : List (List Bytes)) (W : List Msg) : Prop where
  ne : ∀ m ∈ ms, m ≠ []
  next : (stream ms).length + 1 = f.nextSn
  queue : ∀ x ∈ f.queue, fragAt ms x.sn = some (x.fra, x.data)
  final : f.finalSn = 0 ∨ f.finalSn + 1 = f.nextSn ∧ f.state ≠ .opened
  text : messages ms = W ∨ (∃ sn, messages ms = W ++ [⟨[], sn, 1⟩]) ∧ f.state ≠ .opened

/-- nothing is added -/
structure Keeps (f g : SF) : Prop where
  next : g.nextSn = f.nextSn
  final : g.finalSn = f.finalSn
  sub : ∀ x ∈ g.queue, ∃ y ∈ f.queue, Alike y x
  state : f.state ≠ .opened → g.state ≠ .opened

/-- nothing is added but perhaps the fragment for the final mark, when the flow is closed -/
structure Follows (f g : SF) : Prop where
  state : f.state ≠ .opened → g.state ≠ .opened
  more : ∀ ms W, Streamed f ms W → ∃ ms', ms <+: ms' ∧ Streamed g ms' W ∧ (f.state ≠ .opened → ms' = ms)
  le : f.nextSn ≤ g.nextSn
  queue : ∀ x ∈ g.queue, (∃ y ∈ f.queue, Alike y x) ∨ f.nextSn ≤ x.sn

theorem Keeps.refl (f : SF) : Keeps f f := ⟨rfl, rfl, fun x hx => ⟨x, hx, Alike.refl x⟩, fun h => h⟩

theorem Keeps.trans {f g h : SF} (a : Keeps f g) (b : Keeps g h) : Keeps f h := by
  refine ⟨b.next.trans a.next, b.final.trans a.final, fun x hx => ?_, fun k => b.state (a.state k)⟩
  obtain ⟨y, hy, e⟩ := b.sub x hx
  obtain ⟨z, hz, e'⟩ := a.sub y hy
  exact ⟨z, hz, e'.trans e⟩

theorem Keeps.follows {f g : SF} (k : Keeps f g) : Follows f g := by
  refine ⟨k.state, fun ms W h => ⟨ms, List.prefix_refl _, ?_, fun _ => rfl⟩, Nat.le_of_eq k.next.symm, fun x hx => Or.inl (k.sub x hx)⟩
  refine ⟨h.ne, by rw [k.next]; exact h.next, ?_, ?_, ?_⟩
  · intro x hx
    obtain ⟨y, hy, e⟩ := k.sub x hx
    rw [e.sn, e.fra, e.data]; exact h.queue y hy
  · rw [k.final, k.next]
    rcases h.final with e | ⟨e1, e2⟩
    · exact Or.inl e
    · exact Or.inr ⟨e1, k.state e2⟩
  · rcases h.text with e | ⟨e1, e2⟩
    · exact Or.inl e
    · exact Or.inr ⟨e1, k.state e2⟩

theorem Follows.refl (f : SF) : Follows f f := (Keeps.refl f).follows

theorem Follows.trans {f g h : SF} (a : Follows f g) (b : Follows g h) : Follows f h := by
  refine ⟨fun k => b.1 (a.1 k), fun ms W k => ?_, Nat.le_trans a.le b.le, fun x hx => ?_⟩
  · obtain ⟨m1, p1, s1, e1⟩ := a.2 ms W k
    obtain ⟨m2, p2, s2, e2⟩ := b.2 m1 W s1
    exact ⟨m2, p1.trans p2, s2, fun k => (e2 (a.1 k)).trans (e1 k)⟩
  · rcases b.queue x hx with ⟨y, hy, e⟩ | k
    · rcases a.queue y hy with ⟨z, hz, e'⟩ | k
      · exact Or.inl ⟨z, hz, e'.trans e⟩
      · exact Or.inr (by rw [e.sn]; exact k)
    · exact Or.inr (Nat.le_trans a.le k)

/-- all flows -/
def FollowsAll (s t : SS) : Prop := ∀ j, Follows (s.flow j) (t.flow j)

theorem FollowsAll.refl (s : SS) : FollowsAll s s := fun _ => Follows.refl _
theorem FollowsAll.trans {s t u : SS} (a : FollowsAll s t) (b : FollowsAll t u) : FollowsAll s u := fun j => (a j).trans (b j)

theorem follows_set {s : SS} {i : Nat} {f : SF} (h : Follows (s.flow i) f) : FollowsAll s (s.setFlow i f) := by
  intro j
  by_cases e : j = i
  · subst e; rw [setFlow_same]; exact h
  · rw [setFlow_other _ _ e]; exact Follows.refl _

/-- only members not mentioned change -/
theorem keeps_same {f g : SF} (h1 : g.nextSn = f.nextSn) (h2 : g.finalSn = f.finalSn) (h3 : g.queue = f.queue) (h4 : g.state = f.state) : Keeps f g :=
  ⟨h1, h2, fun x hx => ⟨x, by rw [← h3]; exact hx, Alike.refl x⟩, fun k => by rw [h4]; exact k⟩

theorem follows_same {f g : SF} (h1 : g.nextSn = f.nextSn) (h2 : g.finalSn = f.finalSn) (h3 : g.queue = f.queue) (h4 : g.state = f.state) : Follows f g :=
  (keeps_same h1 h2 h3 h4).follows

theorem stream_append (a b : List (List Bytes)) : stream (a ++ b) = stream a ++ stream b := by simp [stream]

theorem stream_one (ps : List Bytes) : stream [ps] = fragsOfPieces ps := by simp [stream]

theorem fragAt_prefix {ms ms' : List (List Bytes)} (h : ms <+: ms') {sn : Nat} {x : Fra × Bytes} (k : fragAt ms sn = some x) : fragAt ms' sn = some x := by
  obtain ⟨l, rfl⟩ := h
  rw [fragAt] at k ⊢
  by_cases e : sn = 0
  · rw [if_pos e] at k; cases k
  · rw [if_neg e] at k ⊢
    rw [stream_append, List.getElem?_append_left]
    · exact k
    · exact (List.getElem?_eq_some_iff.mp k).1

theorem fragAt_new (ms : List (List Bytes)) (ps : List Bytes) (n : Nat) (x : Fra × Bytes) (h : (fragsOfPieces ps)[n]? = some x) :
    fragAt (ms ++ [ps]) ((stream ms).length + 1 + n) = some x := by
  rw [fragAt, if_neg (by omega), stream_append, stream_one, List.getElem?_append_right (by omega)]
  rw [← h]; congr 1; omega

theorem number_get (rid : Nat) (names : Nat → Nat) (fs : List (Fra × Bytes)) : ∀ sn, ∀ x ∈ number rid names sn fs,
    ∃ n, x.sn = sn + n ∧ fs[n]? = some (x.fra, x.data) := by
  induction fs with
  | nil => intro sn x hx; cases hx
  | cons f fs ih =>
    intro sn x hx
    obtain ⟨fra, d⟩ := f
    rw [number] at hx
    rcases List.mem_cons.mp hx with rfl | hx
    · exact ⟨0, rfl, rfl⟩
    · obtain ⟨n, h1, h2⟩ := ih (sn + 1) x hx
      exact ⟨n + 1, by omega, by simpa using h2⟩

theorem numbered_append (a b : List (List Bytes)) : ∀ s, numbered s (a ++ b) = numbered s a ++ numbered (s + (stream a).length) b := by
  induction a with
  | nil => intro s; simp [numbered, stream]
  | cons m a ih =>
    intro s
    rw [List.cons_append, numbered, numbered, ih, List.cons_append]
    congr 3
    rw [show stream (m :: a) = fragsOfPieces m ++ stream a from rfl, List.length_append, frags_length]; omega

/-- a message is queued -/
theorem Streamed.queued {f : SF} {ms : List (List Bytes)} {W : List Msg} (h : Streamed f ms W) (ho : f.state = .opened) (rid : Nat) (names : Nat → Nat)
    (ps : List Bytes) (hp : ps ≠ []) :
    Streamed { f with queue := f.queue ++ number rid names f.nextSn (fragsOfPieces ps), nextSn := f.nextSn + (fragsOfPieces ps).length } (ms ++ [ps])
      (W ++ [⟨ps.flatten, f.nextSn, ps.length⟩]) := by
  refine ⟨?_, ?_, ?_, ?_, ?_⟩
  · intro m hm
    rcases List.mem_append.mp hm with hm | hm
    · exact h.ne m hm
    · rw [List.mem_singleton.mp hm]; exact hp
  · dsimp only
    rw [stream_append, stream_one, List.length_append, ← h.next]; omega
  · intro x hx
    rcases List.mem_append.mp hx with hx | hx
    · exact fragAt_prefix (List.prefix_append _ _) (h.queue x hx)
    · obtain ⟨n, e1, e2⟩ := number_get _ _ _ _ x hx
      rw [e1, ← h.next]
      exact fragAt_new ms ps n _ e2
  · rcases h.final with e | ⟨_, e2⟩
    · exact Or.inl e
    · exact absurd ho e2
  · rcases h.text with e | ⟨_, e2⟩
    · left; rw [← e, messages, numbered_append, Nat.add_comm, h.next]; rfl
    · exact absurd ho e2

theorem gotoClosed_follows (s : SS) (i : Nat) : FollowsAll s (s.gotoClosed i) := by
  intro j
  by_cases e : j = i
  · subst e
    rw [gotoClosed_flow]
    split
    · exact Follows.refl _
    · refine Keeps.follows ⟨rfl, rfl, fun x hx => ⟨x, hx, Alike.refl x⟩, ?_⟩
      intro _; simp
  · rw [gotoClosed_other _ _ e]; exact Follows.refl _

theorem closeState_follows (s : SS) (i : Nat) (now : Int) (rid : Nat) (names : Nat → Nat) : FollowsAll s (s.closeState i now rid names) := by
  rw [closeState]
  split
  case isFalse => exact FollowsAll.refl s
  rename_i ho
  split
  case isFalse => exact gotoClosed_follows s i
  dsimp only
  intro j
  by_cases e : j = i
  case neg =>
    rw [setFlow_other _ _ e]
    rcases addFin_cases s i now rid names with ⟨_, e'⟩ | ⟨_, e'⟩ <;> rw [e']
    · exact Follows.refl _
    · rw [queueFrags_other _ _ _ _ _ _ _ _ e]; exact Follows.refl _
  subst e
  rw [setFlow_same]
  refine ⟨fun k => absurd ho k, fun ms W h => ?_, ?_, ?_⟩
  case refine_2 =>
    rcases addFin_cases s j now rid names with ⟨hn, e'⟩ | ⟨_, e'⟩ <;> rw [e']
    · exact Nat.le_refl _
    · rw [queueFrags_flow]; exact Nat.le_add_right _ _
  case refine_3 =>
    rcases addFin_cases s j now rid names with ⟨hn, e'⟩ | ⟨_, e'⟩ <;> rw [e']
    · exact fun x hx => Or.inl ⟨x, hx, Alike.refl x⟩
    · rw [queueFrags_flow]
      intro x hx
      rcases List.mem_append.mp hx with hx | hx
      · exact Or.inl ⟨x, hx, Alike.refl x⟩
      · obtain ⟨n, e1, _⟩ := number_get _ _ _ _ x hx
        exact Or.inr (by omega)
  rcases addFin_cases s j now rid names with ⟨hn, e'⟩ | ⟨_, e'⟩ <;> rw [e']
  · refine ⟨ms, List.prefix_refl _, ⟨h.ne, h.next, h.queue, Or.inr ⟨?_, by simp⟩, ?_⟩, fun k => absurd ho k⟩
    · rw [needsFin] at hn
      show lastSn (s.flow j) + 1 = (s.flow j).nextSn
      rw [lastSn]
      have := h.next
      cases hl : (s.flow j).queue.getLast? with
      | none => rw [hl] at hn; cases hn
      | some l =>
        rw [hl] at hn
        simp only [Bool.or_eq_false_iff, decide_eq_false_iff_not, Classical.not_not] at hn
        dsimp only
        omega
    · rcases h.text with e | ⟨_, e2⟩
      · exact Or.inl e
      · exact absurd ho e2
  · have hq := h.queued ho rid names [[]] (by simp)
    rw [queueFrags_flow]
    refine ⟨ms ++ [[[]]], List.prefix_append _ _, ⟨hq.ne, hq.next, hq.queue, Or.inr ⟨?_, by simp⟩, ?_⟩, fun k => absurd ho k⟩
    · show lastSn _ + 1 = (s.flow j).nextSn + _
      rw [lastSn]
      simp [number, SFrag.new]
    · rcases hq.text with e | ⟨_, e2⟩
      · exact Or.inr ⟨⟨_, e⟩, by simp⟩
      · exact absurd ho e2

theorem close_follows (s : SS) (i : Nat) (now : Int) (rid : Nat) (names : Nat → Nat) : FollowsAll s (s.close i now rid names) := by
  rw [close]
  have h1 : FollowsAll s ((s.setFlow i { s.flow i with onException := false, baseOpen := false }).closeState i now rid names) :=
    FollowsAll.trans (follows_set (s := s) (i := i) (f := { s.flow i with onException := false, baseOpen := false }) (follows_same rfl rfl rfl rfl)) (closeState_follows _ i now rid names)
  dsimp only
  split
  · exact h1.trans (gotoClosed_follows _ _)
  · exact h1

theorem exceptionReport_follows (s : SS) (i : Nat) (now : Int) (rid : Nat) (names : Nat → Nat) :
    FollowsAll s (s.onExceptionReport i now rid names).1 := by
  rw [onExceptionReport]
  dsimp only
  exact FollowsAll.trans (follows_set (s := s) (i := i) (f := { s.flow i with exception := true }) (follows_same rfl rfl rfl rfl)) (close_follows _ i now rid names)

theorem didClose_follows (s : SS) (i : Nat) (now : Int) (rid : Nat) (names : Nat → Nat) :
    FollowsAll s (s.onSessionDidClose i now rid names).1 := by
  rw [onSessionDidClose]
  refine (exceptionReport_follows s i now rid names).trans (follows_set (Keeps.follows ?_))
  exact ⟨rfl, rfl, fun x hx => by simp at hx, fun k => k⟩

theorem closeFlows_follows (now : Int) (l : List Nat) : ∀ s : SS, FollowsAll s (closeFlows now s l).1 := by
  induction l with
  | nil => intro s; exact FollowsAll.refl s
  | cons i l ih => intro s; rw [closeFlows]; exact (didClose_follows s i now 0 _).trans (ih _)

theorem trim_follows (s : SS) (i : Nat) (now : Int) : FollowsAll s (s.trim i now).1 := by
  rw [trim]
  refine follows_set (s := s) (i := i) (f := { s.flow i with queue := (trimLoop now s.receipts (s.flow i).queue).2.1 }) (Keeps.follows ?_)
  obtain ⟨k, e, _⟩ := trimLoop_queue now (s.flow i).queue s.receipts
  refine ⟨rfl, rfl, ?_, fun k => k⟩
  intro x hx
  dsimp only at hx
  rw [e] at hx
  exact ⟨x, List.mem_of_mem_drop hx, Alike.refl x⟩

theorem assembleData_follows (s : SS) (i : Nat) (p : PA) (hp : p.Inv) (pri : Nat) (now : Int) (gone : Bool) :
    FollowsAll s (s.assembleData i p pri now gone).s := by
  rw [assembleData]
  split
  · exact FollowsAll.refl s
  split
  · exact FollowsAll.refl s
  dsimp only
  refine (trim_follows s i now).trans ?_
  generalize (s.trim i now).1 = t
  obtain ⟨o, a, hd⟩ := dropOptions_eq (t.flow i) gone
  rw [hd]
  dsimp only
  generalize findForward t.receipts now (t.flow i).queue = w
  have hst := startAt_append (t.flow i).lastName (t.flow i).queue
  generalize (startAt (t.flow i).lastName (t.flow i).queue).1 = q0 at *
  generalize (startAt (t.flow i).lastName (t.flow i).queue).2 = q1 at *
  generalize (Ctx.mk _ _ _ _ _ _ _ _) = c at *
  generalize hx : (Fill.mk _ _ _ _ _ _ _ _ _ _) = x at *
  obtain ⟨fs, ps, g3, _⟩ := fill_puts c q1 x (by rw [← hx]; exact hp)
  have g4 : Alikes (t.flow i).queue (q0 ++ (fill c x q1).2) := by
    rw [← hst]; exact (Alikes.refl q0).append g3.alikes
  refine follows_set (s := t) (i := i)
    (f := { t.flow i with options := o, assoc := a, outstanding := (fill c x q1).1.outstanding, lastName := (fill c x q1).1.lastName, queue := q0 ++ (fill c x q1).2 })
    (Keeps.follows ⟨rfl, rfl, ?_, fun k => k⟩)
  intro y hy
  exact g4.mem hy

theorem ackRange_sub (i lo hi : Nat) (q : List SFrag) : ∀ a : AckAcc, ∀ x ∈ (ackRange i lo hi a q).2.1 ++ (ackRange i lo hi a q).2.2, x ∈ q := by
  induction q with
  | nil => intro a x hx; simp [ackRange] at hx
  | cons f q ih =>
    intro a x hx
    rw [ackRange] at hx
    split at hx
    · rcases List.mem_cons.mp hx with rfl | hx
      · simp
      · exact List.mem_cons_of_mem _ (ih a x hx)
    split at hx
    · simpa using hx
    · exact List.mem_cons_of_mem _ (ih _ x hx)

theorem ackRanges_sub (i : Nat) (rs : List (Nat × Nat)) : ∀ (q : List SFrag) (a : AckAcc), ∀ x ∈ (ackRanges i rs a q).2, x ∈ q := by
  induction rs with
  | nil => intro q a x hx; exact hx
  | cons r rs ih =>
    intro q a x hx
    obtain ⟨lo, hi⟩ := r
    rw [ackRanges] at hx
    refine ackRange_sub i lo hi q a x ?_
    rcases List.mem_append.mp hx with hx | hx
    · exact List.mem_append_left _ hx
    · exact List.mem_append_right _ (ih _ _ x hx)

theorem onAck_follows (s : SS) (i b : Nat) (rs : List (Nat × Nat)) : FollowsAll s (s.onAck i b rs).1 := by
  rw [onAck]
  dsimp only
  split
  · exact FollowsAll.refl s
  · have hsub := ackRanges_sub i rs (s.flow i).queue ⟨s.receipts, (s.flow i).outstanding, s.outs, s.outSum, s.maxTsnAck, []⟩
    generalize ackRanges i rs _ _ = x at *
    generalize (if (s.flow i).options = [] then (s.flow i).assoc else false) = as
    refine follows_set (s := s) (i := i) (f := lingerIf _) (Keeps.follows ?_)
    rw [lingerIf]
    split
    · exact ⟨rfl, rfl, fun y hy => ⟨y, hsub y hy, Alike.refl y⟩, fun _ => by simp⟩
    · exact ⟨rfl, rfl, fun y hy => ⟨y, hsub y hy, Alike.refl y⟩, fun k => k⟩

theorem lose_follows (s : SS) (o : OutRef) : FollowsAll s (lose s o) := by
  rw [lose]
  exact follows_set (Keeps.follows ⟨rfl, rfl, fun y hy => (modFrag_alikes (s.flow o.flow).queue o.sn _ (fun x => by constructor <;> rfl)).mem hy, fun k => k⟩)

theorem nakFrag_follows (s : SS) (o : OutRef) : FollowsAll s (nakFrag s o) := by
  rw [nakFrag]
  exact follows_set (Keeps.follows ⟨rfl, rfl, fun y hy => (modFrag_alikes (s.flow o.flow).queue o.sn _ (fun x => by constructor <;> rfl)).mem hy, fun k => k⟩)

theorem loseAll_follows (l : List OutRef) : ∀ s : SS, FollowsAll s (l.foldl lose s) := by
  induction l with
  | nil => intro s; exact FollowsAll.refl s
  | cons o l ih => intro s; exact (lose_follows s o).trans (ih _)

theorem nakLoop_follows (l : List OutRef) : ∀ (s : SS) (k : Nak), FollowsAll s (nakLoop s k l).1 := by
  induction l with
  | nil => intro s k; exact FollowsAll.refl s
  | cons o l ih =>
    intro s k
    rw [nakLoop]
    split
    · exact FollowsAll.refl s
    dsimp only
    split
    · exact (nakFrag_follows s o).trans (ih _ _)
    · split
      · refine ((nakFrag_follows s o).trans (lose_follows _ o)).trans ?_
        intro j
        refine Follows.trans ?_ (ih _ _ j)
        exact Follows.refl _
      · exact (nakFrag_follows s o).trans (ih _ _)

/-- what an operation does to the stream of a flow: the flow is opened, a message is accepted, or nothing -/
theorem step_follows {ops : List Op} {s t : SS} {op : Op} {es : List Ev} (ha : Allowed ops s op) (hs : step s op = some (t, es)) (j : Nat) :
    (∃ m a p, op = .openFlow j m a p ∧ es = [] ∧ t.flow j = SF.init (startupOptions m a) a.isSome p) ∨
    (∃ r a n M, es = [.accepted j r a n M]) ∨
    (Follows (s.flow j) (t.flow j) ∧ ∀ r a n M, Ev.accepted j r a n M ∉ es) := by
  have nofin : ∀ l r a n M, Ev.accepted j r a n M ∉ fins l := by intro l r a n M h; simp [fins] at h
  have noexc : ∀ (l : List Nat) r a n M, Ev.accepted j r a n M ∉ l.map Ev.exception := by intro l r a n M h; simp at h
  cases op with
  | openFlow i m a p =>
    rw [step] at hs
    simp only [Option.some.injEq, Prod.mk.injEq] at hs
    rw [← hs.1, ← hs.2, openFlow]
    by_cases hm : m.length > MAX_METADATA_LENGTH
    · rw [if_pos hm, if_pos hm]; exact Or.inr (Or.inr ⟨Follows.refl _, by simp⟩)
    · rw [if_neg hm, if_neg hm]
      by_cases e : j = i
      · subst e; left; exact ⟨m, a, p, rfl, rfl, by simp⟩
      · right; right; rw [setFlow_other _ _ e]; exact ⟨Follows.refl _, by simp⟩
  | sessionOpen =>
    rw [step] at hs
    simp only [Option.some.injEq, Prod.mk.injEq] at hs
    rw [← hs.1, ← hs.2]; exact Or.inr (Or.inr ⟨Follows.refl _, by simp⟩)
  | bind i fid =>
    rw [step] at hs
    simp only [Option.some.injEq, Prod.mk.injEq] at hs
    rw [← hs.1, ← hs.2, bind]
    refine Or.inr (Or.inr ⟨?_, by simp⟩)
    split
    · exact Follows.refl _
    · exact follows_set (s := s) (i := i) (f := { s.flow i with bound := true, flowId := fid }) (follows_same rfl rfl rfl rfl) j
  | write i msg now a b rid names =>
    rw [step] at hs
    simp only [Option.some.injEq] at hs
    cases hw : s.write i msg now a b rid names with
    | none => rw [hw, writeRes] at hs; rw [← (Prod.mk.inj hs).1, ← (Prod.mk.inj hs).2]; exact Or.inr (Or.inr ⟨Follows.refl _, by simp⟩)
    | some u =>
      rw [hw, writeRes] at hs; rw [← (Prod.mk.inj hs).1, ← (Prod.mk.inj hs).2]
      obtain ⟨_, fs, _, e, _⟩ := write_queue hw
      by_cases hij : j = i
      · subst hij; exact Or.inr (Or.inl ⟨_, _, _, _, rfl⟩)
      · right; right
        rw [e, queueFrags_other _ _ _ _ _ _ _ _ hij]
        refine ⟨Follows.refl _, ?_⟩
        intro r a n M h
        simp only [List.mem_singleton, Ev.accepted.injEq] at h
        exact hij h.1
  | close i now rid names =>
    rw [step] at hs
    simp only [Option.some.injEq, Prod.mk.injEq] at hs
    rw [← hs.1, ← hs.2]; exact Or.inr (Or.inr ⟨close_follows s i now rid names j, by simp⟩)
  | setOnException i =>
    rw [step] at hs
    simp only [Option.some.injEq, Prod.mk.injEq] at hs
    rw [← hs.1, ← hs.2]
    exact Or.inr (Or.inr ⟨follows_set (s := s) (i := i) (f := { s.flow i with onException := true }) (follows_same rfl rfl rfl rfl) j, by simp⟩)
  | setPriority i pri =>
    rw [step, setPriority] at hs
    dsimp only at hs
    split at hs
    · cases hs
    · simp only [priRes, Option.some.injEq, Prod.mk.injEq] at hs
      rw [← hs.1, ← hs.2]
      exact Or.inr (Or.inr ⟨follows_set (s := s) (i := i) (f := { s.flow i with priority := pri }) (follows_same rfl rfl rfl rfl) j, by simp⟩)
  | receipt op =>
    rw [step] at hs
    simp only [Option.some.injEq, Prod.mk.injEq] at hs
    rw [← hs.1, ← hs.2]; exact Or.inr (Or.inr ⟨Follows.refl _, nofin _⟩)
  | trim i now =>
    rw [step] at hs
    simp only [Option.some.injEq, Prod.mk.injEq] at hs
    rw [← hs.1, ← hs.2]; exact Or.inr (Or.inr ⟨trim_follows s i now j, nofin _⟩)
  | transmit i p pri now gone =>
    rw [step] at hs
    simp only [sentRes, Option.some.injEq, Prod.mk.injEq] at hs
    rw [← hs.1, ← hs.2]
    right; right
    refine ⟨?_, ?_⟩
    · have := assembleData_follows s i p ha.2 pri now gone j
      rw [afterSend]; split <;> exact this
    · intro r a n M h
      rcases List.mem_append.mp h with h | h
      · exact nofin _ _ _ _ _ h
      · split at h <;> simp at h
  | ack i b rs =>
    rw [step] at hs
    simp only [Option.some.injEq, Prod.mk.injEq] at hs
    rw [← hs.1, ← hs.2]; exact Or.inr (Or.inr ⟨onAck_follows s i b rs j, nofin _⟩)
  | afterAcks c =>
    rw [step] at hs
    simp only [Option.some.injEq, Prod.mk.injEq] at hs
    rw [← hs.1, ← hs.2]; exact Or.inr (Or.inr ⟨nakLoop_follows _ _ _ j, by simp⟩)
  | exceptionReport i now rid names =>
    rw [step] at hs
    simp only [Option.some.injEq, Prod.mk.injEq] at hs
    rw [← hs.1, ← hs.2]
    refine Or.inr (Or.inr ⟨exceptionReport_follows s i now rid names j, ?_⟩)
    intro r a n M h
    rcases List.mem_append.mp h with h | h
    · exact noexc _ _ _ _ _ h
    · exact nofin _ _ _ _ _ h
  | timeout =>
    rw [step] at hs
    simp only [Option.some.injEq, Prod.mk.injEq] at hs
    rw [← hs.1, ← hs.2]; exact Or.inr (Or.inr ⟨loseAll_follows s.outs s j, by simp⟩)
  | lingerAlarm i =>
    rw [step] at hs
    simp only [Option.some.injEq, Prod.mk.injEq] at hs
    rw [← hs.1, ← hs.2]; exact Or.inr (Or.inr ⟨gotoClosed_follows s i j, by simp⟩)
  | closeSession now =>
    rw [step] at hs
    simp only [Option.some.injEq, Prod.mk.injEq] at hs
    rw [← hs.1, ← hs.2]
    refine Or.inr (Or.inr ⟨closeFlows_follows now s.sendFlows { s with isOpen := false } j, ?_⟩)
    intro r a n M h
    rcases List.mem_append.mp h with h | h
    · exact noexc _ _ _ _ _ h
    · exact nofin _ _ _ _ _ h
  | openingFailed i now =>
    rw [step] at hs
    simp only [Option.some.injEq, Prod.mk.injEq] at hs
    rw [← hs.1, ← hs.2]
    refine Or.inr (Or.inr ⟨didClose_follows s i now 0 _ j, ?_⟩)
    intro r a n M h
    rcases List.mem_append.mp h with h | h
    · exact noexc _ _ _ _ _ h
    · exact nofin _ _ _ _ _ h

/-- the messages accepted for a flow -/
def writtenOf (i : Nat) (evs : List Ev) : List Msg :=
  evs.filterMap fun e => match e with | .accepted j _ a n M => if j = i then some ⟨M, a, n⟩ else none | _ => none

theorem mem_writtenOf {i : Nat} {evs : List Ev} {m : Msg} : m ∈ writtenOf i evs ↔ ∃ r, Ev.accepted i r m.sn m.count m.data ∈ evs := by
  rw [writtenOf, List.mem_filterMap]
  constructor
  · rintro ⟨e, he, h⟩
    cases e with
    | accepted j r a n M =>
      dsimp only at h
      by_cases hj : j = i
      · rw [if_pos hj] at h
        cases h
        subst hj
        exact ⟨r, he⟩
      · rw [if_neg hj] at h; cases h
    | _ => cases h
  · rintro ⟨r, he⟩
    exact ⟨_, he, by simp⟩

theorem writtenOf_append (i : Nat) (a b : List Ev) : writtenOf i (a ++ b) = writtenOf i a ++ writtenOf i b := by simp [writtenOf]

theorem writtenOf_none {i : Nat} {es : List Ev} (h : ∀ r a n M, Ev.accepted i r a n M ∉ es) : writtenOf i es = [] := by
  rw [writtenOf, List.filterMap_eq_nil_iff]
  intro e he
  cases e with
  | accepted j r a n M =>
    dsimp only
    rw [if_neg]
    rintro rfl
    exact h r a n M he
  | _ => rfl

theorem messages_prefix {ms ms' : List (List Bytes)} (h : ms <+: ms') {m : Msg} (k : m ∈ messages ms) : m ∈ messages ms' := by
  obtain ⟨l, rfl⟩ := h
  rw [messages, numbered_append]
  exact List.mem_append_left _ k

/-- the stream of flow `i` after `ops`, with `evs` observed -/
structure StreamOf (ops : List Op) (s : SS) (evs : List Ev) (i : Nat) (ms : List (List Bytes)) : Prop where
  str : Streamed (s.flow i) ms (writtenOf i evs)
  unopened : (∀ m a p, Op.openFlow i m a p ∉ ops) → ms = []
  accepted : ∀ r a n M, Ev.accepted i r a n M ∈ evs → ⟨M, a, n⟩ ∈ messages ms
  own : ∀ r a n M, Ev.accepted i r a n M ∈ evs → ∀ x ∈ (s.flow i).queue, a ≤ x.sn → x.sn < a + n → x.receipt = r

theorem StreamOf.nil (i : Nat) : StreamOf [] init [] i [] :=
  ⟨⟨by simp, rfl, fun x hx => by simp [init, SF.init] at hx, Or.inl rfl, Or.inl rfl⟩, fun _ => rfl, (fun r a n M h => by cases h), (fun r a n M h => by cases h)⟩

/-- one more step; the stream is only continued -/
theorem StreamOf.step {ops : List Op} {s : SS} {evs : List Ev} {i : Nat} {ms : List (List Bytes)} (h : StreamOf ops s evs i ms) (he : Exec ops s evs)
    {op : Op} {t : SS} {es : List Ev} (ha : Allowed ops s op) (hs : SS.step s op = some (t, es)) :
    ∃ ms', ms <+: ms' ∧ StreamOf (ops ++ [op]) t (evs ++ es) i ms' ∧ ((s.flow i).state ≠ .opened → ms' = ms ∧ ((∃ m a p, Op.openFlow i m a p ∈ ops) → (t.flow i).state ≠ .opened)) := by
  have hbk := exec_books he
  have acc : ∀ ms', ms <+: ms' → (∀ r a n M, Ev.accepted i r a n M ∈ es → ⟨M, a, n⟩ ∈ messages ms') →
      ∀ r a n M, Ev.accepted i r a n M ∈ evs ++ es → ⟨M, a, n⟩ ∈ messages ms' := by
    intro ms' hp h2 r a n M hm
    rcases List.mem_append.mp hm with hm | hm
    · exact messages_prefix hp (h.accepted r a n M hm)
    · exact h2 r a n M hm
  rcases step_follows ha hs i with ⟨m, a, p, rfl, rfl, e⟩ | ⟨r, a, n, M, rfl⟩ | ⟨hf, hno⟩
  · have hms : ms = [] := h.unopened ha.2.1
    subst hms
    have hW : writtenOf i evs = [] := by
      rcases h.str.text with e | ⟨e, _⟩
      · exact e.symm
      · obtain ⟨sn, e⟩ := e
        simp [messages, numbered] at e
    refine ⟨[], List.prefix_refl _, ⟨?_, fun _ => rfl, acc _ (List.prefix_refl _) (by simp), ?_⟩, fun _ => ⟨rfl, fun ⟨m', a', p', k⟩ => absurd k (ha.2.1 m' a' p')⟩⟩
    case refine_2 => intro r a n M _ x hx; rw [e] at hx; simp [SF.init] at hx
    rw [e, List.append_nil, hW]
    exact ⟨by simp, rfl, fun x hx => by simp [SF.init] at hx, Or.inl rfl, Or.inl rfl⟩
  · obtain ⟨msg, now, x, y, names, fs, rfl, ho, rfl, ha1, hn, h0, hc, _, rfl⟩ := accepted_step hs (by simp : Ev.accepted i r a n M ∈ [Ev.accepted i r a n M])
    have hst : (s.flow i).state = .opened := (hbk.flow i).ok.opened ho
    have hopt : (s.flow i).options.length ≤ 529 := by
      rcases (exec_ident he i).opts with ⟨e, _⟩ | ⟨m, a, p, _, h2, h3, e⟩
      · rw [e]; simp
      · rw [e]; exact (options_length m a (by simpa [MAX_METADATA_LENGTH] using h2) h3).2
    have hmf : maxFrag (s.flow i).options = 1161 - (s.flow i).options.length := by
      rw [maxFrag, MAX_DATA_FRAG_LENGTH, sub64_le (by omega) (by omega)]
    obtain ⟨ps, h1, g⟩ := cut_first (maxFrag (s.flow i).options) (by omega) msg
    rw [h1] at hc
    simp only [Option.some.injEq] at hc
    subst hc
    refine ⟨ms ++ [ps], List.prefix_append _ _, ⟨?_, ?_, acc _ (List.prefix_append _ _) ?_, ?_⟩, fun k => absurd hst k⟩
    · rw [queueFrags_flow, writtenOf_append]
      have := h.str.queued hst r names ps g.ne
      rw [g.whole] at this
      rw [frags_length] at hn
      simpa [writtenOf, ha1, hn] using this
    · intro hno
      obtain ⟨m, a, p, k, _⟩ := opened_was_opened he (j := i) (by rw [hst]; simp)
      exact absurd (List.mem_append_left _ k) (hno m a p)
    · intro r' a' n' M' hm
      simp only [List.mem_singleton, Ev.accepted.injEq] at hm
      obtain ⟨_, rfl, rfl, rfl, rfl⟩ := hm
      rw [messages, numbered_append]
      refine List.mem_append_right _ ?_
      rw [numbered, List.mem_cons]
      left
      rw [g.whole, hn, frags_length, ha1, ← h.str.next, Nat.add_comm]
    · intro r' a' n' M' hm x hx h1 h2
      rw [queueFrags_flow] at hx
      rcases List.mem_append.mp hm with hm | hm
      · have hw := (exec_fate he).wrote i r' a' n' M' hm
        rcases List.mem_append.mp hx with hx | hx
        · exact h.own r' a' n' M' hm x hx h1 h2
        · obtain ⟨n, e1, _⟩ := number_get _ _ _ _ x hx
          omega
      · simp only [List.mem_singleton, Ev.accepted.injEq] at hm
        obtain ⟨_, rfl, rfl, rfl, rfl⟩ := hm
        rcases List.mem_append.mp hx with hx | hx
        · have := (hbk.flow i).ok.range x hx
          omega
        · exact (number_new _ _ _ _ x hx).2.2.2.1
  · obtain ⟨ms', hp, hst, hu⟩ := hf.2 ms _ h.str
    refine ⟨ms', hp, ⟨?_, ?_, acc _ hp (fun r a n M hm => absurd hm (hno r a n M)), ?_⟩, fun k => ⟨hu k, fun _ => hf.1 k⟩⟩
    · rw [writtenOf_append, writtenOf_none hno, List.append_nil]; exact hst
    · intro hno
      have hno' : ∀ m a p, Op.openFlow i m a p ∉ ops := fun m a p k => hno m a p (List.mem_append_left _ k)
      rw [hu ?_, h.unopened hno']
      intro ho
      obtain ⟨m, a, p, k, _⟩ := opened_was_opened he (j := i) (by rw [ho]; simp)
      exact hno' m a p k
    · intro r a n M hm x hx h1 h2
      rcases List.mem_append.mp hm with hm | hm
      · rcases hf.queue x hx with ⟨y, hy, e⟩ | k
        · rw [e.receipt]
          rw [e.sn] at h1 h2
          exact h.own r a n M hm y hy h1 h2
        · have := (exec_fate he).wrote i r a n M hm
          omega
      · exact absurd hm (hno r a n M)

theorem exec_stream {ops : List Op} {s : SS} {evs : List Ev} (h : Exec ops s evs) (i : Nat) : ∃ ms, StreamOf ops s evs i ms := by
  induction h with
  | nil => exact ⟨[], StreamOf.nil i⟩
  | snoc he ha hs ih =>
    obtain ⟨ms, h⟩ := ih
    obtain ⟨ms', _, h', _⟩ := h.step he ha hs
    exact ⟨ms', h'⟩

end SS
end Rtmfp
