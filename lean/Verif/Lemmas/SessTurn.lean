import Verif.Lemmas.SendFate
import Verif.Lemmas.SendLined
import Verif.Props.C13_Fits

/-! # How flows change, as far as it matters for going on with sending -/

namespace Rtmfp
namespace SS

/-- there is something to send, and room for it at the other end -/
def Wants (f : SF) : Prop := f.bound = true ∧ (∃ x ∈ f.queue, x.inFlight = false) ∧ f.outstanding < f.rxBuffer

/-- A change of a flow by anything but acknowledgement, loss and transmission. -/
structure Turn (f g : SF) : Prop where
  pri : g.priority = f.priority
  rx : g.rxBuffer = f.rxBuffer
  out : g.outstanding = f.outstanding
  bound : g.bound = true → f.bound = true
  rank : f.state.rank ≤ g.state.rank
  next : f.nextSn ≤ g.nextSn
  gone : g.bound = false → f.bound = true → g.state = .closed ∧ g.queue = []
  closed : f.state = .closed → f.queue = [] → g.state = .closed ∧ g.queue = []
  queue : g.nextSn = f.nextSn → ∀ x ∈ g.queue, x.inFlight = false → x ∈ f.queue
  kept : f.bound = true → f.queue ≠ [] → g.bound = true ∧ g.queue ≠ []

theorem Turn.refl (f : SF) : Turn f f :=
  ⟨rfl, rfl, rfl, fun h => h, Nat.le_refl _, Nat.le_refl _, (fun a b => by rw [a] at b; cases b), fun a b => ⟨a, b⟩, fun _ _ h _ => h, fun a b => ⟨a, b⟩⟩

theorem Turn.wants {f g : SF} (h : Turn f g) (hn : g.nextSn = f.nextSn) (hw : Wants g) : Wants f := by
  obtain ⟨a, ⟨x, hx, hi⟩, c⟩ := hw
  exact ⟨h.bound a, ⟨x, h.queue hn x hx hi, hi⟩, by rw [← h.out, ← h.rx]; exact c⟩

/-- nothing changes but members that don't matter -/
theorem Turn.same {f g : SF} (h1 : g.priority = f.priority) (h2 : g.rxBuffer = f.rxBuffer) (h3 : g.outstanding = f.outstanding) (h4 : g.bound = f.bound)
    (h5 : g.state = f.state) (h6 : g.nextSn = f.nextSn) (h7 : g.queue = f.queue) : Turn f g := by
  refine ⟨h1, h2, h3, fun h => by rw [← h4]; exact h, by rw [h5]; exact Nat.le_refl _, by rw [h6]; exact Nat.le_refl _, ?_, ?_, ?_, ?_⟩
  · intro a b; rw [h4, b] at a; cases a
  · intro a b; rw [h5, h7]; exact ⟨a, b⟩
  · intro _ x hx _; rw [← h7]; exact hx
  · intro a b; rw [h4, h7]; exact ⟨a, b⟩

/-- changes of all flows, which leave the books alone -/
structure Turns (s t : SS) (i : Nat) : Prop where
  flow : Turn (s.flow i) (t.flow i)
  other : ∀ j, j ≠ i → t.flow j = s.flow j
  outs : t.outs = s.outs
  sum : t.outSum = s.outSum
  isOpen : t.isOpen = s.isOpen

theorem Turns.all {s t : SS} {i : Nat} (h : Turns s t i) (j : Nat) : Turn (s.flow j) (t.flow j) := by
  by_cases e : j = i
  · subst e; exact h.flow
  · rw [h.other j e]; exact .refl _

theorem Turns.refl (s : SS) (i : Nat) : Turns s s i := ⟨.refl _, fun _ _ => rfl, rfl, rfl, rfl⟩

theorem Turns.set {s : SS} {i : Nat} {f : SF} (h : Turn (s.flow i) f) : Turns s (s.setFlow i f) i :=
  ⟨by rw [setFlow_same]; exact h, fun j hj => setFlow_other _ _ hj, rfl, rfl, rfl⟩

theorem queued_turn (f : SF) (hl : f.state ≠ .closed) (l : List SFrag) (n : Nat) (hn : 0 < n) : Turn f { f with queue := f.queue ++ l, nextSn := f.nextSn + n } := by
  refine ⟨rfl, rfl, rfl, fun h => h, Nat.le_refl _, by dsimp only; omega, ?_, ?_, ?_, ?_⟩
  · intro a b; rw [show f.bound = false from a] at b; cases b
  · intro a; exact absurd a hl
  · intro h; dsimp only at h; omega
  · intro a b; exact ⟨a, by simp [b]⟩

theorem write_turn {s t : SS} (h : Books s) {i : Nat} {msg : Bytes} {now a b : Int} {rid : Nat} {names : Nat → Nat} (hw : s.write i msg now a b rid names = some t) :
    Turns s t i := by
  obtain ⟨ho, fs, _, rfl, hf, _⟩ := write_queue hw
  refine ⟨?_, fun j hj => queueFrags_other s i fs now a b rid names hj, rfl, rfl, rfl⟩
  rw [queueFrags_flow]
  exact queued_turn _ (by rw [((h.flow i).ok.opened ho)]; simp) _ _ hf

/-- a flow with nothing in its queue is closed -/
theorem gotoClosed_turn {s : SS} {i : Nat} (hq : (s.flow i).bound = true → (s.flow i).queue = []) : Turns s (s.gotoClosed i) i := by
  obtain ⟨r1, r2, r3, _⟩ := gotoClosed_rest s i
  refine ⟨?_, fun j hj => gotoClosed_other _ _ hj, r1, r2, r3⟩
  rw [gotoClosed_flow]
  split
  · exact .refl _
  · rename_i hc
    refine ⟨rfl, rfl, rfl, (fun h => by cases h), ?_, Nat.le_refl _, fun _ b => ⟨rfl, hq b⟩, fun a => absurd a hc, fun _ x hx _ => hx, ?_⟩
    · show _ ≤ 3; cases (s.flow i).state <;> simp [SFState.rank]
    · intro a b; exact absurd (hq a) b

theorem closeState_turn {s : SS} (h : Books s) (i : Nat) (now : Int) (rid : Nat) (names : Nat → Nat) : Turns s (s.closeState i now rid names) i := by
  rw [closeState]
  split
  · rename_i ho
    split
    · rcases addFin_cases s i now rid names with ⟨_, e⟩ | ⟨_, e⟩
      · rw [e]
        refine .set ⟨rfl, rfl, rfl, fun h => h, by rw [ho]; simp [SFState.rank], Nat.le_refl _, ?_, ?_, fun _ x hx _ => hx, fun a b => ⟨a, b⟩⟩
        · intro a b; rw [show (s.flow i).bound = false from a] at b; cases b
        · intro a; rw [ho] at a; cases a
      · dsimp only
        rw [e]
        refine ⟨?_, fun j hj => by rw [setFlow_other _ _ hj]; exact queueFrags_other s i _ now _ _ rid names hj, rfl, rfl, rfl⟩
        rw [setFlow_same, queueFrags_flow]
        refine ⟨rfl, rfl, rfl, fun h => h, by rw [ho]; simp [SFState.rank], by simp, ?_, ?_, ?_, ?_⟩
        · intro a b; rw [show (s.flow i).bound = false from a] at b; cases b
        · intro a; rw [ho] at a; cases a
        · intro h; simp at h
        · intro a b; exact ⟨a, by simp [b]⟩
    · rename_i hn
      refine gotoClosed_turn fun hb => ?_
      exact (h.flow i).ok.noQueue fun hn2 => hn ⟨hb, h.isOpen i hb, hn2⟩
  · exact .refl _ _

theorem close_turn {s : SS} (h : Books s) (i : Nat) (now : Int) (rid : Nat) (names : Nat → Nat) : Turns s (s.close i now rid names) i := by
  rw [close]
  dsimp only
  have ok := (h.flow i).ok
  have hb : Books (s.setFlow i { s.flow i with onException := false, baseOpen := false }) := by
    refine h.one i rfl rfl rfl rfl (by simp) (fun j hj => setFlow_other _ _ hj) ?_
    rw [setFlow_same]
    exact ⟨⟨ok.sorted, ok.range, ok.next, ok.unbound, ok.zero, ok.linger, (fun k => by cases k), ok.closed⟩, (h.flow i).perm, (h.flow i).out⟩
  have k := closeState_turn hb i now rid names
  generalize (s.setFlow i { s.flow i with onException := false, baseOpen := false }).closeState i now rid names = u at *
  have kf := k.flow
  rw [setFlow_same] at kf
  rw [if_neg]
  · exact ⟨⟨kf.pri, kf.rx, kf.out, kf.bound, kf.rank, kf.next, kf.gone, kf.closed, kf.queue, kf.kept⟩, fun j hj => by rw [k.other j hj, setFlow_other _ _ hj], k.outs, k.sum, k.isOpen⟩
  · rintro ⟨a, b⟩
    have := h.isOpen i (kf.bound a)
    rw [k.isOpen] at b
    rw [show s.isOpen = false from b] at this; cases this

theorem exceptionReport_turn {s : SS} (h : Books s) (i : Nat) (now : Int) (rid : Nat) (names : Nat → Nat) : Turns s (s.onExceptionReport i now rid names).1 i := by
  rw [onExceptionReport]
  dsimp only
  have ok := (h.flow i).ok
  have hb : Books (s.setFlow i { s.flow i with exception := true }) := by
    refine h.one i rfl rfl rfl rfl (by simp) (fun j hj => setFlow_other _ _ hj) ?_
    rw [setFlow_same]
    exact ⟨⟨ok.sorted, ok.range, ok.next, ok.unbound, ok.zero, ok.linger, ok.opened, ok.closed⟩, (h.flow i).perm, (h.flow i).out⟩
  have k := close_turn hb i now rid names
  have kf := k.flow
  rw [setFlow_same] at kf
  exact ⟨⟨kf.pri, kf.rx, kf.out, kf.bound, kf.rank, kf.next, kf.gone, kf.closed, kf.queue, kf.kept⟩, fun j hj => by
    show ((s.setFlow i { s.flow i with exception := true }).close i now rid names).flow j = _
    rw [k.other j hj, setFlow_other _ _ hj], k.outs, k.sum, k.isOpen⟩

theorem trimLoop_ne (now : Int) (q : List SFrag) : ∀ r, q ≠ [] → (trimLoop now r q).2.1 ≠ [] := by
  induction q with
  | nil => intro r h; exact absurd rfl h
  | cons a q ih =>
    intro r _
    cases q with
    | nil => simp [trimLoop]
    | cons b q =>
      rw [trimLoop]
      split
      · simp
      · dsimp only
        split
        · simp
        · exact ih _ (by simp)

theorem trim_turn (s : SS) (i : Nat) (now : Int) : Turns s (s.trim i now).1 i := by
  rw [trim]
  dsimp only
  obtain ⟨k, hk, _⟩ := trimLoop_queue now (s.flow i).queue s.receipts
  refine ⟨?_, fun j hj => setFlow_other _ _ hj, rfl, rfl, rfl⟩
  show Turn _ ((s.setFlow i _).flow i)
  rw [setFlow_same]
  refine ⟨rfl, rfl, rfl, fun h => h, Nat.le_refl _, Nat.le_refl _, ?_, ?_, ?_, ?_⟩
  · intro a b; rw [show (s.flow i).bound = false from a] at b; cases b
  · intro a b; refine ⟨a, ?_⟩; dsimp only; rw [hk, b]; simp
  · intro _ x hx _; dsimp only at hx; rw [hk] at hx; exact List.mem_of_mem_drop hx
  · intro a b; exact ⟨a, trimLoop_ne _ _ _ b⟩

/-! ## transmission -/

/-- a change of a flow by transmission or loss -/
structure Like (f g : SF) : Prop where
  pri : g.priority = f.priority
  bound : g.bound = f.bound
  state : g.state = f.state
  next : g.nextSn = f.nextSn
  rx : g.rxBuffer = f.rxBuffer
  fid : g.flowId = f.flowId
  empty : g.queue = [] ↔ f.queue = []

theorem Like.refl (f : SF) : Like f f := ⟨rfl, rfl, rfl, rfl, rfl, rfl, Iff.rfl⟩
theorem Like.trans {f g h : SF} (a : Like f g) (b : Like g h) : Like f h :=
  ⟨b.pri.trans a.pri, b.bound.trans a.bound, b.state.trans a.state, b.next.trans a.next, b.rx.trans a.rx, b.fid.trans a.fid, b.empty.trans a.empty⟩

theorem Alikes.nil_iff {p q : List SFrag} (h : Alikes p q) : q = [] ↔ p = [] := by
  cases h <;> simp

theorem fill_first (c : Ctx) (q : List SFrag) : ∀ s : Fill, s.first = false → (fill c s q).1.first = false := by
  induction q with
  | nil => intro s h; exact h
  | cons frag rest ih =>
    intro s h
    rw [fill]
    split
    · exact h
    split
    · exact ih s h
    dsimp only
    split
    · exact h
    · exact ih _ rfl

/-- nothing was put in the packet -/
theorem fill_none (c : Ctx) (q : List SFrag) : ∀ s : Fill, s.packet.Inv → s.first = true → (fill c s q).1.first = true →
    (fill c s q).2 = q ∧ (fill c s q).1.outs = s.outs ∧ (fill c s q).1.outSum = s.outSum ∧ (fill c s q).1.outstanding = s.outstanding ∧
    Unchanged s.packet (fill c s q).1.packet := by
  induction q with
  | nil => intro s h _ _; exact ⟨rfl, rfl, rfl, rfl, h, PA.Same.refl _, rfl, rfl⟩
  | cons frag rest ih =>
    intro s hp hf h
    rw [fill] at h ⊢
    split at h
    · rename_i h1
      rw [if_pos h1]; exact ⟨rfl, rfl, rfl, rfl, hp, PA.Same.refl _, rfl, rfl⟩
    rename_i h1
    rw [if_neg h1]
    split at h
    · rename_i h2
      rw [if_pos h2]
      obtain ⟨a, b⟩ := ih s hp hf h
      exact ⟨by dsimp only; rw [a], b⟩
    rename_i h2
    rw [if_neg h2]
    dsimp only at h ⊢
    split at h
    · rename_i h3
      rw [if_pos h3]
      exact ⟨rfl, rfl, rfl, rfl, (putChunk_spec hp _).2.1 h3⟩
    · exfalso
      rw [fill_first _ _ _ rfl] at h
      cases h

/-- a flow may put data in a packet -/
theorem assembleData_like (s : SS) (i : Nat) (p : PA) (pri : Nat) (now : Int) (gone : Bool) :
    (∀ j, Like (s.flow j) ((s.assembleData i p pri now gone).s.flow j)) ∧ (∀ j, j ≠ i → (s.assembleData i p pri now gone).s.flow j = s.flow j) ∧
    (s.assembleData i p pri now gone).s.isOpen = s.isOpen ∧ (s.assembleData i p pri now gone).s.sendFlows = s.sendFlows := by
  rw [assembleData]
  split
  · exact ⟨fun _ => .refl _, fun _ _ => rfl, rfl, rfl⟩
  split
  · exact ⟨fun _ => .refl _, fun _ _ => rfl, rfl, rfl⟩
  dsimp only
  have ht := trim_turn s i now
  have htq : ((s.trim i now).1.flow i).queue = [] ↔ (s.flow i).queue = [] := by
    rw [trim]
    dsimp only
    show ((s.setFlow i _).flow i).queue = [] ↔ _
    rw [setFlow_same]
    dsimp only
    obtain ⟨k, hk, _⟩ := trimLoop_queue now (s.flow i).queue s.receipts
    refine ⟨fun h => ?_, fun h => by rw [hk, h]; simp⟩
    apply Classical.byContradiction
    intro h2; exact trimLoop_ne _ _ _ h2 h
  have htf : ∃ q, (s.trim i now).1.flow i = { s.flow i with queue := q } := by
    rw [trim]; exact ⟨_, setFlow_same _ _ _⟩
  have hts : (s.trim i now).1.sendFlows = s.sendFlows := rfl
  have hto : (s.trim i now).1.isOpen = s.isOpen := rfl
  generalize (s.trim i now).1 = t at *
  obtain ⟨q, hq⟩ := htf
  obtain ⟨o, a, hd⟩ := dropOptions_eq (t.flow i) gone
  rw [hd]
  dsimp only
  refine ⟨fun j => ?_, fun j hj => ?_, hto, hts⟩
  · by_cases e : j = i
    · subst e
      show Like _ ((t.setFlow j _).flow j)
      rw [setFlow_same]
      generalize hc : (Ctx.mk _ _ _ _ _ _ _ _) = c
      generalize hx : (Fill.mk _ _ _ _ _ _ _ _ _ _) = x
      obtain ⟨new, k⟩ := fill_books c (startAt (t.flow j).lastName (t.flow j).queue).2 x
      refine ⟨?_, ?_, ?_, ?_, ?_, ?_, ?_⟩
      · simp [hq]
      · simp [hq]
      · simp [hq]
      · simp [hq]
      · simp [hq]
      · simp [hq]
      · dsimp only
        rw [← htq]
        have := ((Alikes.refl (startAt (t.flow j).lastName (t.flow j).queue).1).append k.alike).nil_iff
        rw [startAt_append] at this
        exact this
    · show Like _ ((t.setFlow i _).flow j)
      rw [setFlow_other _ _ e, ht.other j e]; exact .refl _
  · show (t.setFlow i _).flow j = _
    rw [setFlow_other _ _ hj, ht.other j hj]

/-- a flow puts nothing in a packet -/
theorem assembleData_none (s : SS) (i : Nat) {p : PA} (hp : p.Inv) (pri : Nat) (now : Int) (gone : Bool) (h : (s.assembleData i p pri now gone).sent = false) :
    (s.assembleData i p pri now gone).s.outs = s.outs ∧ (s.assembleData i p pri now gone).s.outSum = s.outSum ∧
    ((s.assembleData i p pri now gone).s.flow i).outstanding = (s.flow i).outstanding ∧ Unchanged p (s.assembleData i p pri now gone).packet := by
  rw [assembleData] at h ⊢
  split at h
  · rename_i h1
    rw [if_pos h1]; exact ⟨rfl, rfl, rfl, hp, PA.Same.refl _, rfl, rfl⟩
  rename_i h1
  rw [if_neg h1]
  split at h
  · rename_i h2
    rw [if_pos h2]; exact ⟨rfl, rfl, rfl, hp, PA.Same.refl _, rfl, rfl⟩
  rename_i h2
  rw [if_neg h2]
  dsimp only at h ⊢
  have hto : (s.trim i now).1.outs = s.outs := rfl
  have hts : (s.trim i now).1.outSum = s.outSum := rfl
  have htf : ((s.trim i now).1.flow i).outstanding = (s.flow i).outstanding := (trim_turn s i now).flow.out
  generalize (s.trim i now).1 = t at *
  obtain ⟨o, a, hd⟩ := dropOptions_eq (t.flow i) gone
  rw [hd] at h ⊢
  dsimp only at h ⊢
  generalize hc : (Ctx.mk _ _ _ _ _ _ _ _) = c at *
  generalize hx : (Fill.mk _ _ _ _ _ _ _ _ _ _) = x at *
  have hxp : x.packet = p := by rw [← hx]
  have hxf : x.first = true := by rw [← hx]
  have hxo : x.outs = t.outs := by rw [← hx]
  have hxs : x.outSum = t.outSum := by rw [← hx]
  have hxn : x.outstanding = (t.flow i).outstanding := by rw [← hx]
  obtain ⟨k1, k2, k3, k4, k5⟩ := fill_none c _ x (by rw [hxp]; exact hp) hxf (by simpa using h)
  refine ⟨by rw [k2, hxo, hto], by rw [k3, hxs, hts], ?_, ?_⟩
  · show ((t.setFlow i _).flow i).outstanding = _
    rw [setFlow_same]
    dsimp only
    rw [k4, hxn, htf]
  · rw [h, timeCritical]
    rw [hxp] at k5
    exact k5

/-- data was put in a packet: the books are longer -/
theorem assembleData_sent (s : SS) (i : Nat) {p : PA} (hp : p.Inv) (pri : Nat) (now : Int) (gone : Bool) (hs : Sorted (s.flow i).queue)
    (h : (s.assembleData i p pri now gone).sent = true) : (s.assembleData i p pri now gone).s.outs ≠ [] := by
  obtain ⟨c, q0, q1, q1', fs, ps, P, k⟩ := assembleData_spec hs hp pri now gone h
  rw [k.outs]
  have := k.puts.length
  have hn := k.ne
  cases fs with
  | nil => cases ps <;> simp_all
  | cons a l => simp

/-! ## loss -/

theorem modFrag_nil (q : List SFrag) (sn : Nat) (g : SFrag → SFrag) : modFrag q sn g = [] ↔ q = [] := by simp [modFrag]

theorem lose_like (s : SS) (o : OutRef) : (∀ j, Like (s.flow j) ((lose s o).flow j)) ∧ ∀ j, j ≠ o.flow → (lose s o).flow j = s.flow j := by
  rw [lose]
  refine ⟨fun j => ?_, fun j hj => setFlow_other _ _ hj⟩
  by_cases e : j = o.flow
  · subst e; rw [setFlow_same]; exact ⟨rfl, rfl, rfl, rfl, rfl, rfl, modFrag_nil _ _ _⟩
  · rw [setFlow_other _ _ e]; exact .refl _

theorem nakFrag_like (s : SS) (o : OutRef) : (∀ j, Like (s.flow j) ((nakFrag s o).flow j)) ∧ (∀ j, Wants ((nakFrag s o).flow j) → Wants (s.flow j)) := by
  rw [nakFrag]
  refine ⟨fun j => ?_, fun j => ?_⟩
  · by_cases e : j = o.flow
    · subst e; rw [setFlow_same]; exact ⟨rfl, rfl, rfl, rfl, rfl, rfl, modFrag_nil _ _ _⟩
    · rw [setFlow_other _ _ e]; exact .refl _
  · by_cases e : j = o.flow
    · subst e; rw [setFlow_same]
      rintro ⟨a, ⟨x, hx, hi⟩, c⟩
      refine ⟨a, ?_, c⟩
      simp only [modFrag, List.mem_map] at hx
      obtain ⟨y, hy, rfl⟩ := hx
      refine ⟨y, hy, ?_⟩
      split at hi <;> exact hi
    · rw [setFlow_other _ _ e]; exact fun h => h

/-! ## acknowledgement -/

/-- a flow of which something may have been acknowledged -/
structure AckLike (b : Nat) (f g : SF) : Prop where
  pri : g.priority = f.priority
  bound : g.bound = f.bound
  state : g.state = f.state ∨ (g.state = .completeLinger ∧ g.queue = [])
  next : g.nextSn = f.nextSn
  rx : g.rxBuffer = b
  sub : g.queue.Sublist f.queue

theorem ackOne_outs_keep (i : Nat) (a : AckAcc) (f : SFrag) : (ackOne i a f).outs ≠ [] → a.outs ≠ [] := by
  rw [ackOne]
  dsimp only
  split
  · intro h e
    apply h
    simp [e]
  · exact fun h => h

theorem ackRange_outs_keep (i lo hi : Nat) (q : List SFrag) : ∀ a : AckAcc, (ackRange i lo hi a q).1.outs ≠ [] → a.outs ≠ [] := by
  induction q with
  | nil => intro a h; exact h
  | cons f q ih =>
    intro a
    rw [ackRange]
    split
    · exact ih a
    · split
      · exact fun h => h
      · intro h; exact ackOne_outs_keep i a f (ih _ h)

theorem ackRanges_outs_keep (i : Nat) (rs : List (Nat × Nat)) : ∀ (a : AckAcc) (q : List SFrag), (ackRanges i rs a q).1.outs ≠ [] → a.outs ≠ [] := by
  induction rs with
  | nil => intro a q h; exact h
  | cons r rs ih =>
    intro a q h
    exact ackRange_outs_keep i r.1 r.2 q a (ih _ _ h)

theorem onAck_like (s : SS) (i b : Nat) (rs : List (Nat × Nat)) : (∀ j, j ≠ i → (s.onAck i b rs).1.flow j = s.flow j) ∧
    (s.onAck i b rs).1.isOpen = s.isOpen ∧ (s.onAck i b rs).1.sendFlows = s.sendFlows ∧
    ((s.onAck i b rs).1.outs ≠ [] → s.outs ≠ []) ∧
    ((s.flow i).state.rank ≥ 2 → s.onAck i b rs = (s, [])) ∧ (¬ (s.flow i).state.rank ≥ 2 → AckLike b (s.flow i) ((s.onAck i b rs).1.flow i)) := by
  rw [onAck]
  dsimp only
  split
  · rename_i h
    exact ⟨fun _ _ => rfl, rfl, rfl, fun h => h, fun _ => rfl, fun h2 => absurd h h2⟩
  · rename_i hr
    have ho := ackRanges_outs_keep i rs ⟨s.receipts, (s.flow i).outstanding, s.outs, s.outSum, s.maxTsnAck, []⟩ (s.flow i).queue
    have hsub := ackRanges_sublist i rs (s.flow i).queue ⟨s.receipts, (s.flow i).outstanding, s.outs, s.outSum, s.maxTsnAck, []⟩
    generalize ackRanges i rs _ _ = x at *
    generalize (if (s.flow i).options = [] then (s.flow i).assoc else false) = as
    refine ⟨fun j hj => setFlow_other _ _ hj, rfl, rfl, ho, fun h => absurd h hr, fun _ => ?_⟩
    show AckLike b _ ((s.setFlow i _).flow i)
    rw [setFlow_same, lingerIf]
    split
    · rename_i h
      exact ⟨rfl, rfl, Or.inr ⟨rfl, h.2⟩, rfl, rfl, hsub⟩
    · exact ⟨rfl, rfl, Or.inl rfl, rfl, rfl, hsub⟩

/-! ## the end of the session -/

theorem gotoClosed_pri (s : SS) (i j : Nat) : ((s.gotoClosed i).flow j).priority = (s.flow j).priority := by
  by_cases e : j = i
  · subst e; rw [gotoClosed_flow]; split <;> rfl
  · rw [gotoClosed_other _ _ e]

theorem close_pri (s : SS) (i j : Nat) (now : Int) (rid : Nat) (names : Nat → Nat) : ((s.close i now rid names).flow j).priority = (s.flow j).priority := by
  by_cases e : j = i
  · subst e
    have h1 : ∀ t : SS, ((t.closeState j now rid names).flow j).priority = (t.flow j).priority := by
      intro t
      rw [closeState]
      split
      · split
        · dsimp only
          rw [setFlow_same]
          rcases addFin_cases t j now rid names with ⟨_, e⟩ | ⟨_, e⟩
          · rw [e]
          · rw [e, queueFrags_flow]
        · exact gotoClosed_pri _ _ _
      · rfl
    rw [close]
    dsimp only
    split
    · rw [gotoClosed_pri, h1, setFlow_same]
    · rw [h1, setFlow_same]
  · rw [close_other _ _ _ _ _ e]

theorem didClose_pri (s : SS) (i : Nat) (now : Int) : ((s.onSessionDidClose i now 0 id).1.flow i).priority = (s.flow i).priority := by
  rw [onSessionDidClose]
  dsimp only
  rw [setFlow_same]
  show (((s.setFlow i _).close i now 0 id).flow i).priority = _
  rw [close_pri, setFlow_same]

theorem didClose_other (s : SS) {i j : Nat} (now : Int) (h : j ≠ i) : (s.onSessionDidClose i now 0 id).1.flow j = s.flow j := by
  rw [onSessionDidClose]
  dsimp only
  rw [setFlow_other _ _ h]
  show ((s.setFlow i _).close i now 0 id).flow j = _
  rw [close_other _ _ _ _ _ h, setFlow_other _ _ h]

theorem closeSession_like {s : SS} (h : Books s) (now : Int) : (∀ i, ((s.closeSession now).1.flow i).bound = false) ∧ (s.closeSession now).1.isOpen = false ∧
    (s.closeSession now).1.outs = [] ∧ (s.closeSession now).1.sendFlows = [] ∧ (∀ n, (∀ i, (s.flow i).priority < n) → ∀ i, ((s.closeSession now).1.flow i).priority < n) := by
  obtain ⟨k1, k2, k3, k4⟩ := closeFlows_ok now s.sendFlows { s with isOpen := false } (fun i => (h.flow i).ok) rfl h.nodup h.bound rfl
  refine ⟨k2, k4, rfl, k3, fun n hn => closeFlows_keep now s.sendFlows (fun f => f.priority < n) _ hn fun t i ht _ j => ?_⟩
  by_cases e : j = i
  · subst e
    have : ((t.onSessionDidClose j now 0 id).1.flow j).priority = (t.flow j).priority := didClose_pri t j now
    rw [this]; exact ht j
  · rw [didClose_other t now e]; exact ht j

end SS
end Rtmfp
