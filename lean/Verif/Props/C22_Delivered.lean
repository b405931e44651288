import Verif.Lemmas.System
import Verif.Lemmas.SendDemo
import Verif.Props.C20_Forward
import Verif.Props.C14_C16_RecvFlow

/-! # C22: "delivered" is the truth; C62: a flow from end to end

The system is `Sys` (Verif/Model/System.lean): the sending side with all its flows, the receiving flow of flow `i`, and a network that loses, repeats and reorders.
-/

namespace Rtmfp
open Spec SS
open RFlow (sorted_prefix mem_messages' chunksOf msgsOf completesOf started inTime_covered)

/-! ## lemmas -/

theorem started_untouched (o : Order) : Untouched (started o) :=
  ⟨[.accept, .setOnMessage true, .setOnComplete true, .setOrder o], _, .snoc (.snoc (.snoc (.snoc .nil trivial rfl) trivial rfl) trivial rfl) trivial rfl, rfl⟩

theorem init_untouched : Untouched RFlow.init := ⟨[], [], .nil, rfl⟩

theorem msg_pieces {ms : List (List Bytes)} {m : Msg} (h : m ∈ messages ms) :
    ∃ ps : List Bytes, ps.length = m.count ∧ ps.flatten = m.data ∧ ∀ k (hk : k < ps.length), ∃ fra, fragAt ms (m.sn + k) = some (fra, ps[k]) := by
  rw [messages, numbered_eq, List.mem_map] at h
  obtain ⟨b, hb, rfl⟩ := h
  exact ⟨b.2, rfl, rfl, fun k hk => ⟨_, by rw [fragAt_eq]; exact fragFrom_at hb k hk⟩⟩

theorem msg_of_number {ms : List (List Bytes)} {k : Nat} (h1 : 1 ≤ k) (h2 : k ≤ (stream ms).length) : ∃ m ∈ messages ms, m.sn ≤ k ∧ k < m.sn + m.count := by
  have : fragFrom 1 ms k = some ((stream ms)[k - 1]'(by omega)) := by
    rw [fragFrom, if_neg (by omega), List.getElem?_eq_getElem]
  obtain ⟨b, hb, h3, h4, _⟩ := (fragFrom_iff ms 1 k _).mp this
  refine ⟨⟨b.2.flatten, b.1, b.2.length⟩, ?_, h3, by dsimp only; omega⟩
  rw [messages, numbered_eq]
  exact List.mem_map.mpr ⟨b, hb, rfl⟩

theorem pairwise_cases {α : Type} {R : α → α → Prop} {l : List α} (h : l.Pairwise R) {a b : α} (ha : a ∈ l) (hb : b ∈ l) : a = b ∨ R a b ∨ R b a := by
  induction h with
  | nil => cases ha
  | cons h1 _ ih =>
    rcases List.mem_cons.mp ha with e | ha <;> rcases List.mem_cons.mp hb with e' | hb
    · exact Or.inl (e.trans e'.symm)
    · exact Or.inr (Or.inl (e ▸ h1 _ hb))
    · exact Or.inr (Or.inr (e' ▸ h1 _ ha))
    · exact ih ha hb

theorem acked_of_acked {d : Ack.Decoded} {rs : List (Nat × Nat)} (e : d.ranges = rs) {k : Nat} (h : ∃ x ∈ rs, x.1 ≤ k ∧ k ≤ x.2) : Rtmfp.Acked d k := by
  rw [← e] at h; exact h

/-- the numbers of a message reported delivered arrived in time -/
theorem SysInv.delivered {i : Nat} {f0 : RFlow} {user : RFlow → RFlow.Op → Prop} {w : Two} {ms : List (List Bytes)} (h : SysInv i f0 user w ms)
    {r a n : Nat} {M : Bytes} (hm : Ev.accepted i r a n M ∈ w.evs) (hf : Ev.finished r false ∈ w.evs) {k : Nat} (h1 : a ≤ k) (h2 : k < a + n) :
    InTime (chunksOf w.rops) k := by
  obtain ⟨o1, b, rs, o2, e, _, hx⟩ := delivered_was_acknowledged h.exec hm hf h1 h2
  obtain ⟨d, hd, e'⟩ := h.ackop b rs (by rw [e]; simp)
  have hw := (exec_fate h.exec).wrote i r a n M hm
  have hc := h.acked d hd k (by omega) (acked_of_acked e' hx)
  rcases h.cov r a n M hm k h1 h2 hc with hk | hk
  · exact hk
  · obtain ⟨rops, k1, _, _⟩ := (exec_fate h.exec).rb.hist
    obtain ⟨x, _⟩ := (RStore.hist_inv k1 r).repFalse (mem_finsOf.mpr hf)
    rw [x] at hk; cases hk

/-- what the stream has besides the accepted messages: at most the empty one added when the flow is closed -/
def Closing (w : Two) (i : Nat) (tail : List Msg) : Prop := tail = [] ∨ (∃ sn, tail = [⟨[], sn, 1⟩]) ∧ (w.s.flow i).state ≠ .opened

theorem SysInv.text {i : Nat} {f0 : RFlow} {user : RFlow → RFlow.Op → Prop} {w : Two} {ms : List (List Bytes)} (h : SysInv i f0 user w ms) :
    ∃ tail, Closing w i tail ∧ messages ms = writtenOf i w.evs ++ tail := by
  rcases h.str.str.text with e | ⟨⟨sn, e⟩, k⟩
  · exact ⟨[], Or.inl rfl, by rw [e, List.append_nil]⟩
  · exact ⟨_, Or.inr ⟨⟨sn, rfl⟩, k⟩, e⟩

theorem SysInv.bound {i : Nat} {f0 : RFlow} {user : RFlow → RFlow.Op → Prop} {w : Two} {ms : List (List Bytes)} (h : SysInv i f0 user w ms)
    (hn : (w.s.flow i).nextSn ≤ 2 ^ 64) : (stream ms).length < 2 ^ 64 := by
  have := h.str.str.next
  omega

theorem Msg.le_last {ms : List (List Bytes)} (hne : ∀ m ∈ ms, m ≠ []) {m : Msg} (h : m ∈ messages ms) : m.sn ≤ m.last :=
  ((mem_messages' hne m).1 h).1.le

/-- a message before a message is not the closing one -/
theorem before_written {ms : List (List Bytes)} (hne : ∀ m ∈ ms, m ≠ []) {W tail : List Msg} (e : messages ms = W ++ tail) (ht : tail = [] ∨ ∃ c, tail = [c]) {x y : Msg}
    (hx : x ∈ messages ms) (hy : y ∈ messages ms) (hlt : y.last < x.sn) : y ∈ W := by
  have hy' := hy
  rw [e] at hy'
  rcases List.mem_append.mp hy' with hy' | hy'
  · exact hy'
  · exfalso
    rcases ht with rfl | ⟨c, rfl⟩
    · cases hy'
    · rw [List.mem_singleton] at hy'
      subst hy'
      have hs := messages_sorted hne
      have hle := Msg.le_last hne hy
      have hxl := Msg.le_last hne hx
      rw [e] at hx hs
      rcases List.mem_append.mp hx with hx | hx
      · have := (List.pairwise_append.mp hs).2.2 x hx y (by simp)
        omega
      · rw [List.mem_singleton] at hx
        subst hx
        omega

theorem Closing.one {w : Two} {i : Nat} {tail : List Msg} (h : Closing w i tail) : tail = [] ∨ ∃ c, tail = [c] := by
  rcases h with h | ⟨⟨sn, h⟩, _⟩
  · exact Or.inl h
  · exact Or.inr ⟨_, h⟩

/-! ## C22 -/

/-- **C22.** If a message of flow `i` is reported delivered then all of it arrived at the receiving flow: each of its pieces, in a data chunk that isn't marked abandoned, at a time
when its number had not been skipped. Whatever the network and the receiver's user did. -/
theorem C22_delivered_arrived {i : Nat} {f0 : RFlow} (hf0 : Untouched f0) {user : RFlow → RFlow.Op → Prop} {w : Two} (h : Sys i f0 user w)
    {r first count : Nat} {msg : Bytes} (ha : Ev.accepted i r first count msg ∈ w.evs) (hf : Ev.finished r false ∈ w.evs) :
    ∃ pieces : List Bytes, pieces.length = count ∧ pieces.flatten = msg ∧ ∀ k (hk : k < pieces.length), InTime (chunksOf w.rops) (first + k) ∧
      ∃ flags fsn nm rc, RFlow.Op.data flags (first + k) fsn pieces[k] nm rc ∈ w.rops ∧ flags &&& USERDATA_FLAG_ABN = 0 := by
  obtain ⟨ms, inv⟩ := sys_inv hf0 h
  obtain ⟨ps, e1, e2, e3⟩ := msg_pieces (inv.str.accepted r first count msg ha)
  refine ⟨ps, e1, e2, fun k hk => ?_⟩
  dsimp only at e1 e3
  have hin : InTime (chunksOf w.rops) (first + k) := inv.delivered ha hf (by omega) (by omega)
  refine ⟨hin, ?_⟩
  obtain ⟨pre, c, post, e, hc1, hc2, _⟩ := hin
  obtain ⟨data, nm, rc, hop⟩ := mem_chunksOf.mp (show c ∈ chunksOf w.rops by rw [e]; simp)
  obtain ⟨u, hu, u1, u2, u3, u4⟩ := fromWire_chunks inv.recv _ _ _ _ _ _ hop
  have hl := inv.live u hu (by rw [u1]; exact hc2)
  obtain ⟨fra, hfr⟩ := e3 k hk
  rw [u2, hc1, hfr] at hl
  simp only [Option.some.injEq, Prod.mk.injEq] at hl
  refine ⟨c.flags, c.fsn, nm, rc, ?_, hc2⟩
  rw [← hc1, hl.2, u4]
  exact hop

/-- **C22.** If the receiving user takes messages in network order, has set a callback and leaves the flow alone, then a message reported delivered to the sender was given to the receiving user, once. -/
theorem C22_delivered_reached_user {i : Nat} {w : Two} (h : Sys i (started .network) Idle w) (hn : (w.s.flow i).nextSn ≤ 2 ^ 64)
    {r first count : Nat} {msg : Bytes} (ha : Ev.accepted i r first count msg ∈ w.evs) (hf : Ev.finished r false ∈ w.evs) :
    (⟨msg, first, count⟩ : Msg) ∈ msgsOf w.revs ∧ (msgsOf w.revs).Nodup := by
  obtain ⟨ms, inv⟩ := sys_inv (started_untouched _) h
  obtain ⟨h1, h2⟩ := C15_exact ms inv.str.str.ne (inv.bound hn) w.rops w.f w.revs inv.okQuiet
  refine ⟨(h2 _).2 ⟨inv.str.accepted r first count msg ha, fun k k1 k2 => inv.delivered ha hf k1 ?_⟩, h1⟩
  have hw := (exec_fate inv.exec).wrote i r first count msg ha
  simp only [Msg.last] at k2
  omega

/-! ## C62 -/

/-- **C62.** Whatever the network and the receiving user do: the messages given to the receiving user are messages that were accepted for the flow, with exactly their contents, each at most once; or the empty message
that closing the flow may add (which is sent as abandoned if the clock doesn't go backward). -/
theorem C62_only_written {i : Nat} {user : RFlow → RFlow.Op → Prop} {w : Two} (h : Sys i RFlow.init user w) (hn : (w.s.flow i).nextSn ≤ 2 ^ 64) :
    (msgsOf w.revs).Nodup ∧ ∀ m ∈ msgsOf w.revs, (∃ r, Ev.accepted i r m.sn m.count m.data ∈ w.evs) ∨ m.data = [] ∧ m.count = 1 ∧ (w.s.flow i).state ≠ .opened := by
  obtain ⟨ms, inv⟩ := sys_inv init_untouched h
  obtain ⟨h1, h2⟩ := C15_only_sent ms inv.str.str.ne (inv.bound hn) w.rops w.f w.revs inv.okOp
  refine ⟨h1, fun m hm => ?_⟩
  have := h2 m hm
  obtain ⟨tail, ht, e⟩ := inv.text
  rw [e] at this
  rcases List.mem_append.mp this with this | this
  · exact Or.inl (mem_writtenOf.mp this)
  · rcases ht with rfl | ⟨⟨sn, rfl⟩, k⟩
    · cases this
    · rw [List.mem_singleton] at this
      subst this
      exact Or.inr ⟨rfl, rfl, k⟩

/-- **C62.** In sequence order: what the receiving user was given are the accepted messages in the order they were written, perhaps with some missing. -/
theorem C62_in_order {i : Nat} {w : Two} (h : Sys i (started .sequence) Idle w) (hn : (w.s.flow i).nextSn ≤ 2 ^ 64) :
    ∃ tail, Closing w i tail ∧ (msgsOf w.revs).Sublist (writtenOf i w.evs ++ tail) := by
  obtain ⟨ms, inv⟩ := sys_inv (started_untouched _) h
  obtain ⟨tail, ht, e⟩ := inv.text
  refine ⟨tail, ht, ?_⟩
  rw [← e]
  exact (C14_exact ms inv.str.str.ne (inv.bound hn) w.rops w.f w.revs inv.okQuiet).1

/-- **C62.** In sequence order, if no message of the flow is abandoned: none is missing. At every moment what the receiving user was given is a prefix of what was written. -/
theorem C62_reliable {i : Nat} {w : Two} (h : Sys i (started .sequence) Idle w) (hn : (w.s.flow i).nextSn ≤ 2 ^ 64)
    (hr : ∀ r a n M, Ev.accepted i r a n M ∈ w.evs → (w.s.receipts.r r).isAbandoned = false) :
    ∃ tail, Closing w i tail ∧ msgsOf w.revs <+: writtenOf i w.evs ++ tail := by
  obtain ⟨ms, inv⟩ := sys_inv (started_untouched _) h
  obtain ⟨tail, ht, e⟩ := inv.text
  refine ⟨tail, ht, ?_⟩
  have hne := inv.str.str.ne
  obtain ⟨h1, h2⟩ := C14_exact ms hne (inv.bound hn) w.rops w.f w.revs inv.okQuiet
  rw [← e]
  refine sorted_prefix (fun m hm => Msg.le_last hne hm) (messages_sorted hne) h1 ?_
  intro x hx y hy hlt
  have hxm := h1.subset hx
  have hxl := Msg.le_last hne hxm
  have hyl := Msg.le_last hne hy
  have hcov := ((h2 x hxm).1 hx).2
  obtain ⟨r, hacc⟩ := mem_writtenOf.mp (before_written hne e ht.one hxm hy hlt)
  have hw := (exec_fate inv.exec).wrote i r _ _ _ hacc
  rw [h2 y hy]
  refine ⟨fun k k1 k2 => ?_, fun k k1 k2 => hcov k k1 (by omega)⟩
  rcases inv.cov r _ _ _ hacc k k1 (by simp only [Msg.last] at k2; omega) (hcov k (by omega) (by omega)) with hk | hk
  · exact hk
  · have := hr r _ _ _ hacc
    rw [Receipt.isAbandoned, hk] at this; cases this

/-- **C62.** In sequence order: once all messages written to the flow are reported delivered, the receiving user was given all of them, in order. -/
theorem C62_all_delivered {i : Nat} {w : Two} (h : Sys i (started .sequence) Idle w) (hn : (w.s.flow i).nextSn ≤ 2 ^ 64)
    (hr : ∀ r a n M, Ev.accepted i r a n M ∈ w.evs → Ev.finished r false ∈ w.evs) :
    ∃ tail, Closing w i tail ∧ msgsOf w.revs = writtenOf i w.evs ++ tail := by
  obtain ⟨ms, inv⟩ := sys_inv (started_untouched _) h
  obtain ⟨tail, ht, e⟩ := inv.text
  have hne := inv.str.str.ne
  obtain ⟨h1, h2⟩ := C14_exact ms hne (inv.bound hn) w.rops w.f w.revs inv.okQuiet
  have hs := messages_sorted hne
  have hin : ∀ y ∈ writtenOf i w.evs, ∀ k, y.sn ≤ k → k < y.sn + y.count → InTime (chunksOf w.rops) k := by
    intro y hy k k1 k2
    obtain ⟨r, hacc⟩ := mem_writtenOf.mp hy
    exact inv.delivered hacc (hr r _ _ _ hacc) k1 k2
  have hall : ∀ y ∈ writtenOf i w.evs, y ∈ msgsOf w.revs := by
    intro y hy
    have hym : y ∈ messages ms := by rw [e]; exact List.mem_append_left _ hy
    have hyl := Msg.le_last hne hym
    have hw : 0 < y.count := by
      obtain ⟨r, hacc⟩ := mem_writtenOf.mp hy
      exact ((exec_fate inv.exec).wrote i r _ _ _ hacc).2.2.2.1
    rw [h2 y hym]
    refine ⟨fun k k1 k2 => hin y hy k k1 (by simp only [Msg.last] at k2; omega), fun k k1 k2 => ?_⟩
    have hkl : k ≤ (stream ms).length := by
      obtain ⟨x, hx⟩ : ∃ x, fragAt ms y.last = some x := by
        rcases ((mem_messages' hne y).1 hym).1 with ⟨e, d, hd⟩ | ⟨_, _, ⟨d, hd⟩, _⟩
        · exact ⟨_, by rw [← e]; exact hd⟩
        · exact ⟨_, hd⟩
      have := RFlow.fragAt_le _ _ hx
      omega
    obtain ⟨m, hm, m1, m2⟩ := msg_of_number k1 hkl
    by_cases hmw : m ∈ writtenOf i w.evs
    · exact inTime_covered (hin m hmw k m1 m2)
    · have : m = y := by
        apply Classical.byContradiction
        intro hmy
        have hml := Msg.le_last hne hm
        rcases Nat.lt_or_ge m.last y.sn with hlt | hge
        · exact hmw (before_written hne e ht.one hym hm hlt)
        · have : y.last < m.sn := by
            have := pairwise_cases hs hm hym
            rcases this with h | h | h
            · exact absurd h hmy
            · omega
            · exact h
          omega
      exact absurd (this ▸ hy) hmw
  rw [e] at h1 hs
  obtain ⟨l1, l2, e1, s1, s2⟩ := List.sublist_append_iff.mp h1
  have hl1 : l1 = writtenOf i w.evs := by
    refine List.Sublist.eq_of_length_le s1 (List.Sublist.length_le (RFlow.sorted_sublist ?_ (List.pairwise_append.mp hs).1 ((List.pairwise_append.mp hs).1.sublist s1) ?_))
    · intro m hm
      exact Msg.le_last hne (by rw [e]; exact List.mem_append_left _ (s1.subset hm))
    · intro y hy
      have := hall y hy
      rw [e1] at this
      rcases List.mem_append.mp this with this | this
      · exact this
      · exfalso
        have hlt := (List.pairwise_append.mp hs).2.2 y hy y (s2.subset this)
        have := Msg.le_last hne (show y ∈ messages ms by rw [e]; exact List.mem_append_left _ hy)
        omega
  refine ⟨l2, ?_, by rw [e1, hl1]⟩
  rcases ht with rfl | ⟨⟨sn, rfl⟩, k⟩
  · left; exact List.sublist_nil.mp s2
  · cases l2 with
    | nil => exact Or.inl rfl
    | cons x l2 =>
      right
      have hlen := s2.length_le
      simp only [List.length_cons, List.length_nil] at hlen
      have h0 : l2 = [] := List.length_eq_zero_iff.mp (by omega)
      subst h0
      have := s2.subset (List.mem_singleton_self x)
      rw [List.mem_singleton] at this
      exact ⟨⟨sn, by rw [this]⟩, k⟩

/-- **C62.** If the receiving flow reports that it is complete, the sender has closed the flow and every message that was written to it and isn't abandoned was given to the receiving user. -/
theorem C62_complete_means_all {i : Nat} {o : Order} (ho : o ≠ .hold) {w : Two} (h : Sys i (started o) Idle w) (hn : (w.s.flow i).nextSn ≤ 2 ^ 64)
    (hc : completesOf w.revs ≠ []) :
    completesOf w.revs = [false] ∧ (w.s.flow i).state ≠ .opened ∧
    ∀ r a n M, Ev.accepted i r a n M ∈ w.evs → (w.s.receipts.r r).isAbandoned = false → (⟨M, a, n⟩ : Msg) ∈ msgsOf w.revs := by
  obtain ⟨ms, inv⟩ := sys_inv (started_untouched _) h
  have hne := inv.str.str.ne
  rcases C14_completes ms (inv.bound hn) o ho w.rops w.f w.revs inv.okQuiet with ⟨h1, n, h2, h3⟩ | ⟨h1, _⟩
  case inr => exact absurd h1 hc
  obtain ⟨pre, c, post, e, c1, c2, _⟩ := h2
  obtain ⟨u, hu, u1, u2, _⟩ := arrived_wire inv.recv (show c ∈ chunksOf w.rops by rw [e]; simp)
  obtain ⟨f1, f2⟩ := inv.fin u hu (by rw [u1]; exact c2)
  refine ⟨h1, f2, fun r a n' M hacc hna => ?_⟩
  have hmm := inv.str.accepted r a n' M hacc
  have hw := (exec_fate inv.exec).wrote i r a n' M hacc
  have hnx := inv.str.str.next
  have hcov : ∀ k, 1 ≤ k → k < a + n' → Covered (chunksOf w.rops) k := fun k k1 k2 => h3 k k1 (by omega)
  have hint : ∀ k, a ≤ k → k < a + n' → InTime (chunksOf w.rops) k := by
    intro k k1 k2
    rcases inv.cov r a n' M hacc k k1 k2 (hcov k (by omega) k2) with hk | hk
    · exact hk
    · rw [Receipt.isAbandoned, hk] at hna; cases hna
  cases o with
  | hold => exact absurd rfl ho
  | sequence =>
    rw [(C14_exact ms hne (inv.bound hn) w.rops w.f w.revs inv.okQuiet).2 _ hmm]
    exact ⟨fun k k1 k2 => hint k k1 (by simp only [Msg.last] at k2; omega), fun k k1 k2 => hcov k k1 (by simp only [Msg.last] at k2; omega)⟩
  | network =>
    rw [(C15_exact ms hne (inv.bound hn) w.rops w.f w.revs inv.okQuiet).2 _]
    exact ⟨hmm, fun k k1 k2 => hint k k1 (by simp only [Msg.last] at k2; omega)⟩

/-! ## an example -/

/-- A message is written to a flow and a callback installed; it is sent, arrives, is acknowledged, and reported delivered; the flow is closed. -/
def sysOps : List Op :=
  [.openFlow 0 [0x61] none 3, .sessionOpen, .bind 0 2, .write 0 [1, 2, 3] 0 1000000000 1000000000 1 (demoNames 1), .receipt (.setCallback 1),
   .transmit 0 demoPacket 3 1 false, .ack 0 65536 [(0, 1)], .close 0 3 3 (demoNames 2), .transmit 0 demoPacket 3 4 false]

/-- the state and what was observed after the first `n` of them -/
def sysDemo : Nat → SS × List Ev
  | 0 => (init, [])
  | n + 1 => match sysOps[n]? with
    | none => sysDemo n
    | some op => ((go (sysDemo n).1 op).1, (sysDemo n).2 ++ (go (sysDemo n).1 op).2)

/-- the data that was sent -/
def sysData : UserData := ⟨128, 2, 1, 0, none, some [0x61], [1, 2, 3], false⟩

/-- the receiving flow with the data -/
def sysRecv (o : Order) : RFlow × List REv := match (started o).step (.data 128 1 0 [1, 2, 3] 2 RFlow.quiet) with
  | .ok x => x
  | .error _ => (started o, [])

def sysTwo (o : Order) : Two :=
  ⟨sysOps.take 7, (sysDemo 7).1, (sysDemo 7).2, [.data 128 1 0 [1, 2, 3] 2 RFlow.quiet], (sysRecv o).1, (sysRecv o).2, [sysData], [⟨2, 65536, [(0, 1)]⟩]⟩

theorem sys_step (f0 : RFlow) (user : RFlow → RFlow.Op → Prop) (n : Nat) (op : Op) (hop : sysOps[n]? = some op)
    (h : Sys 0 f0 user ⟨sysOps.take n, (sysDemo n).1, (sysDemo n).2, [], f0, [], [], []⟩)
    (ha : Allowed (sysOps.take n) (sysDemo n).1 op) (ho : (step (sysDemo n).1 op).isSome = true) (h1 : ∀ b rs, op ≠ .ack 0 b rs) (h2 : ∀ p pri now gone, op ≠ .transmit 0 p pri now gone) :
    Sys 0 f0 user ⟨sysOps.take (n + 1), (sysDemo (n + 1)).1, (sysDemo (n + 1)).2, [], f0, [], [], []⟩ := by
  obtain ⟨x, hx⟩ := Option.isSome_iff_exists.mp ho
  have := h.send (op := op) (t := x.1) (es := x.2) ha hx h1 h2
  rw [sysDemo, hop, List.take_succ, hop]
  dsimp only
  rw [go, hx]
  exact this

theorem sys5 (f0 : RFlow) (user : RFlow → RFlow.Op → Prop) : Sys 0 f0 user ⟨sysOps.take 5, (sysDemo 5).1, (sysDemo 5).2, [], f0, [], [], []⟩ := by
  have s0 : Sys 0 f0 user ⟨sysOps.take 0, (sysDemo 0).1, (sysDemo 0).2, [], f0, [], [], []⟩ := .start
  have s1 := sys_step f0 user 0 _ rfl s0 ⟨rfl, by simp, by simp⟩ rfl (by simp) (by simp)
  have s2 := sys_step f0 user 1 _ rfl s1 trivial rfl (by simp) (by simp)
  have s3 := sys_step f0 user 2 _ rfl s2 ⟨rfl, by decide +kernel, by decide, by decide +kernel⟩ rfl (by simp) (by simp)
  have s4 := sys_step f0 user 3 _ rfl s3 ⟨by decide, demoNames_good _ (by decide) _ (by decide +kernel), by decide⟩ rfl (by simp) (by simp)
  exact sys_step f0 user 4 _ rfl s4 (by show ((sysDemo 4).1.receipts.r 1).isFinished = false; decide +kernel) rfl (by simp) (by simp)

theorem sysBytes : ∃ t cs pk, step (sysDemo 5).1 (.transmit 0 demoPacket 3 1 false) = some (t, [.sent 0 0 cs pk]) ∧
    t = (sysDemo 6).1 ∧ (sysDemo 6).2 = (sysDemo 5).2 ++ [.sent 0 0 cs pk] ∧ pk.toVector.drop demoPacket.cursor = [16, 0, 11, 128, 2, 1, 1, 2, 0, 97, 0, 1, 2, 3] :=
  ⟨_, _, _, rfl, rfl, rfl, by decide +kernel⟩

theorem sys6 (f0 : RFlow) (user : RFlow → RFlow.Op → Prop) : Sys 0 f0 user ⟨sysOps.take 6, (sysDemo 6).1, (sysDemo 6).2, [], f0, [], [sysData], []⟩ := by
  obtain ⟨t, cs, pk, h1, h2, h3, h4⟩ := sysBytes
  have := (sys5 f0 user).transmit (us := [sysData]) 0 .init ⟨by dsimp only; decide +kernel, demoPacket_inv⟩ h1 (by decide) (by decide) (by dsimp only; decide +kernel) (by
    intro u hu
    rw [List.mem_singleton] at hu
    subst hu
    refine ⟨_, _, _, List.mem_singleton_self _, ?_⟩
    rw [h4]
    have : chunksIn 0 [16, 0, 11, 128, 2, 1, 1, 2, 0, 97, 0, 1, 2, 3] = [(16, [128, 2, 1, 1, 2, 0, 97, 0, 1, 2, 3])] := by
      simp [chunksIn, parseChunks]
    rw [this]
    decide +kernel)
  rw [h3, ← h2]
  exact this

theorem sysTwo_reached {o : Order} (ho : o = .network ∨ o = .sequence) : Sys 0 (started o) Idle (sysTwo o) := by
  have s7 : Sys 0 (started o) Idle ⟨sysOps.take 6, (sysDemo 6).1, (sysDemo 6).2, [.data 128 1 0 [1, 2, 3] 2 RFlow.quiet], (sysRecv o).1, (sysRecv o).2, [sysData], []⟩ := by
    have hs : (started o).step (.data 128 1 0 [1, 2, 3] 2 RFlow.quiet) = .ok (sysRecv o) := by
      rcases ho with rfl | rfl <;> rfl
    exact (sys6 (started o) Idle).arrive (u := sysData) (nm := 2) (rc := RFlow.quiet) (List.mem_singleton_self _) (by rcases ho with rfl | rfl <;> decide) rfl hs
  have hack : ∃ q, Ack.assemble demoPacket (sysRecv o).1 2 none false = some (q, true) ∧ q.toVector.drop demoPacket.cursor = [81, 0, 3, 2, 64, 1] := by
    rcases ho with rfl | rfl <;> exact ⟨_, rfl, by decide +kernel⟩
  obtain ⟨q, hq, hb⟩ := hack
  have s8 := s7.acknowledge (pos := 0) (pad := []) (pl := [2, 64, 1]) (d := ⟨2, 65536, [(0, 1)]⟩) demoPacket_inv (by decide) (by decide) hq ⟨by simp, by simp⟩ (by
    rw [hb]; simp [chunksIn, parseChunks, CHUNK_ACK_RANGES]) (by decide +kernel)
  exact s8.ack (List.mem_singleton_self _) (by show ((sysDemo 6).1.flow 0).bound = true; decide +kernel) rfl

/-- the receiving flow when the end arrived -/
def sysEnd (o : Order) : RFlow × List REv := match (sysRecv o).1.step (.data 3 2 2 [] 4 RFlow.quiet) with
  | .ok x => x
  | .error _ => (started o, [])

/-- then the flow is closed, which is sent and arrives -/
def sysDone (o : Order) : Two :=
  ⟨sysOps.take 9, (sysDemo 9).1, (sysDemo 9).2, (sysTwo o).rops ++ [.data 3 2 2 [] 4 RFlow.quiet], (sysEnd o).1, (sysRecv o).2 ++ (sysEnd o).2,
    [sysData, ⟨3, 2, 2, 2, none, none, [], false⟩], [⟨2, 65536, [(0, 1)]⟩]⟩

theorem sysBytes2 : ∃ t cs pk, step (sysDemo 8).1 (.transmit 0 demoPacket 3 4 false) = some (t, [.sent 0 2 cs pk]) ∧
    t = (sysDemo 9).1 ∧ (sysDemo 9).2 = (sysDemo 8).2 ++ [.sent 0 2 cs pk] ∧ pk.toVector.drop demoPacket.cursor = [16, 0, 4, 3, 2, 2, 0] :=
  ⟨_, _, _, rfl, rfl, rfl, by decide +kernel⟩

theorem sysDone_reached {o : Order} (ho : o = .network ∨ o = .sequence) : Sys 0 (started o) Idle (sysDone o) := by
  have s8 : Sys 0 (started o) Idle { sysTwo o with ops := sysOps.take 8, s := (sysDemo 8).1, evs := (sysDemo 8).2 } := by
    have h : step (sysDemo 7).1 (.close 0 3 3 (demoNames 2)) = some ((sysDemo 8).1, []) := rfl
    have := (sysTwo_reached ho).send (op := .close 0 3 3 (demoNames 2)) ⟨by dsimp only [sysTwo]; decide +kernel, demoNames_good _ (by decide) _ (by dsimp only [sysTwo]; decide +kernel)⟩ h (by simp) (by simp)
    exact this
  obtain ⟨t, cs, pk, h1, h2, h3, h4⟩ := sysBytes2
  have s9 := s8.transmit (us := [⟨3, 2, 2, 2, none, none, [], false⟩]) 0 .init ⟨by dsimp only; decide +kernel, demoPacket_inv⟩ h1 (by decide) (by decide) (by dsimp only; decide +kernel) (by
    intro u hu
    rw [List.mem_singleton] at hu
    subst hu
    refine ⟨_, _, _, List.mem_singleton_self _, ?_⟩
    rw [h4]
    have : chunksIn 0 [16, 0, 4, 3, 2, 2, 0] = [(16, [3, 2, 2, 0])] := by
      simp [chunksIn, parseChunks]
    rw [this]
    decide +kernel)
  dsimp only at s9
  rw [← h3, h2] at s9
  have hs : (sysRecv o).1.step (.data 3 2 2 [] 4 RFlow.quiet) = .ok (sysEnd o) := by
    rcases ho with rfl | rfl <;> rfl
  exact s9.arrive (u := ⟨3, 2, 2, 2, none, none, [], false⟩) (nm := 4) (rc := RFlow.quiet) (by simp) (by dsimp only [sysTwo]; rcases ho with rfl | rfl <;> decide +kernel) rfl hs

/-- The receiving flow is complete and the message was given to the user. -/
example : Sys 0 (started .sequence) Idle (sysDone .sequence) ∧ completesOf (sysDone .sequence).revs = [false] ∧ ((sysDone .sequence).s.flow 0).nextSn ≤ 2 ^ 64 ∧
    msgsOf (sysDone .sequence).revs = [⟨[1, 2, 3], 1, 1⟩] :=
  ⟨sysDone_reached (.inr rfl), by decide +kernel, by decide +kernel, by decide +kernel⟩

/-- The hypotheses of the theorems are met: the message is reported delivered and was given to the user. -/
example : Sys 0 (started .network) Idle (sysTwo .network) ∧ Ev.accepted 0 1 1 1 [1, 2, 3] ∈ (sysTwo .network).evs ∧ Ev.finished 1 false ∈ (sysTwo .network).evs ∧
    ((sysTwo .network).s.flow 0).nextSn ≤ 2 ^ 64 ∧ msgsOf (sysTwo .network).revs = [⟨[1, 2, 3], 1, 1⟩] :=
  ⟨sysTwo_reached (.inl rfl), List.mem_of_getElem? (i := 0) rfl, List.mem_of_getElem? (i := 2) rfl, by decide +kernel, by decide +kernel⟩

/-- In sequence order; no message is abandoned, all are reported delivered. -/
example : Sys 0 (started .sequence) Idle (sysTwo .sequence) ∧ ((sysTwo .sequence).s.flow 0).nextSn ≤ 2 ^ 64 ∧ ((sysTwo .sequence).s.receipts.r 1).isAbandoned = false ∧
    writtenOf 0 (sysTwo .sequence).evs = [⟨[1, 2, 3], 1, 1⟩] ∧ msgsOf (sysTwo .sequence).revs = [⟨[1, 2, 3], 1, 1⟩] :=
  ⟨sysTwo_reached (.inr rfl), by decide +kernel, by decide +kernel, by decide +kernel, by decide +kernel⟩

end Rtmfp
