import Verif.Lemmas.RTWMeek
import Verif.Lemmas.RTWSendAll

/-!
# What is owed to the other end: the accounts of bytes
-/

namespace Rtmfp.RTWS

/-- The bytes that have arrived and aren't acknowledged yet, of flows with certain numbers. -/
def gotSum (P : Nat → Bool) (st : St) : Nat := ((List.range st.nR).map fun r => if P (st.R r).id then (st.R r).got else 0).sum

/-- All flows. -/
def any : Nat → Bool := fun _ => true

/-- What an arriving message adds to what has to be acknowledged, to what is acknowledged, and the
window it asks for. -/
def dLen (P : Nat → Bool) (len : Nat) : Msg → Nat
  | .data id _ _ => if P id then len else 0
  | _ => 0
def kLen : Msg → Nat
  | .ack _ d _ => d
  | _ => 0
def wLen : Msg → Nat
  | .window n => n
  | _ => 0

/-- The accounts, of the flows with certain numbers: `D` bytes have arrived that have to be acknowledged, `K` bytes have been acknowledged
by the other end, which asked for windows of at most `M`.  Flows in `X` may have something to
acknowledge without being in the list. -/
structure Owe (P : Nat → Bool) (X : Nat → Prop) (D K M : Nat) (st : St) : Prop where
  books : On st → ackedLen P st.log + gotSum P st = D
  less : ackedLen P st.log ≤ D
  fresh : ∀ r, st.nR ≤ r → (st.R r).got = 0
  over : ∀ r, (st.R r).over = true → (st.R r).got = 0
  wait : On st → ∀ r, 0 < (st.R r).got → ¬ X r → r ∈ st.ackFlows
  big : 2800 ≤ st.ackWin
  win : st.ackWin ≤ max M 2800
  asked : On st → st.ackNow = true → st.sendNow = true
  sent : On st → sentLen st.log = st.bytesSent
  acked : On st → st.bytesAcked = K
  user : On st → st.userUp = true
  wnd : ∀ e ∈ st.log, windowOf e ≤ 11200
  op : Op1 st

/-- Numbers of flows lead to flows that haven't ended, each at most once. -/
structure Tab (st : St) : Prop where
  flow : ∀ p ∈ st.rIds, p.2 < st.nR ∧ (st.R p.2).ended = false ∧ (st.R p.2).over = false ∧ (st.R p.2).id = p.1
  one : ∀ p ∈ st.rIds, ∀ q ∈ st.rIds, p.2 = q.2 → p.1 = q.1

/-- Unless acknowledgements are about to be sent, no more than the window is owed. -/
def Due (x : Nat) (st : St) : Prop := On st → st.ackNow = false → gotSum any st + x ≤ st.acc

theorem Meek.sum {a b : St} (k : Meek a b) (P : Nat → Bool) : gotSum P b = gotSum P a := by
  unfold gotSum
  rw [k.nR]
  exact congrArg List.sum (List.map_congr_left (fun r _ => by rw [k.got r, k.rid r]))

theorem Meek.owe {P : Nat → Bool} {X : Nat → Prop} {D K M : Nat} {a b : St} (k : Meek a b) (h : Owe P X D K M a) : Owe P X D K M b where
  books o := by rw [k.log, k.sum]; exact h.books (k.on o)
  less := by rw [k.log]; exact h.less
  fresh r hr := by rw [k.got]; exact h.fresh r (k.nR ▸ hr)
  over r hr := by rw [k.got]; exact h.over r (k.over r ▸ hr)
  wait o r hr hx := k.acks o r (h.wait (k.on o) r (k.got r ▸ hr) hx)
  big := by rw [k.win]; exact h.big
  win := by rw [k.win]; exact h.win
  asked o e := by
    rcases k.new o e with e' | e'
    · exact k.sn (h.asked (k.on o) e')
    · exact e'
  sent o := by have := k.sent o; have := h.sent (k.on o); omega
  acked o := by rw [k.acked]; exact h.acked (k.on o)
  user o := by rw [k.user o]; exact h.user (k.on o)
  wnd e he := (k.wnd e he).elim (h.wnd e) id
  op := k.op h.op

theorem Meek.table {a b : St} (k : Meek a b) (h : Tab a) : Tab b := by
  rcases k.tab with e | ⟨e, he⟩
  · exact ⟨fun p hp => by rw [e] at hp; simp at hp, fun p hp => by rw [e] at hp; simp at hp⟩
  · exact ⟨fun p hp => by rw [e] at hp; rw [k.nR, he, k.over, k.rid]; exact h.flow p hp, fun p hp q hq => by rw [e] at hp hq; exact h.one p hp q hq⟩

theorem Meek.due {x : Nat} {a b : St} (k : Meek a b) (h : Due x a) : Due x b := fun o e => by
  rw [k.sum, k.acc]
  refine h (k.on o) ?_
  cases ha : a.ackNow with
  | false => rfl
  | true => rw [k.an ha] at e; exact e

/-- A closed connection owes nothing. -/
theorem Owe.off {P : Nat → Bool} {X : Nat → Prop} {D K M : Nat} {st : St} (h : Owe P X D K M st) (o : ¬ On st) {D' K' M' : Nat} (hD : D ≤ D') (hM : M ≤ M') : Owe P X D' K' M' st where
  books e := absurd e o
  less := Nat.le_trans h.less hD
  fresh := h.fresh
  over := h.over
  wait e := absurd e o
  big := h.big
  win := by have := h.win; omega
  asked e := absurd e o
  sent e := absurd e o
  acked e := absurd e o
  user e := absurd e o
  wnd := h.wnd
  op := h.op

theorem sum_one (f : Nat → Nat) (r x : Nat) : ∀ n : Nat, (((List.range n).map fun i => if i = r then x else f i).sum) + (if r < n then f r else 0) =
    ((List.range n).map f).sum + (if r < n then x else 0)
  | 0 => by simp
  | n + 1 => by
    have ih := sum_one f r x n
    rw [List.range_succ, List.map_append, List.map_append, List.sum_append, List.sum_append]
    simp only [List.map_cons, List.map_nil, List.sum_cons, List.sum_nil]
    by_cases h1 : r < n
    · rw [if_pos h1, if_pos h1] at ih
      rw [if_neg (by omega), if_pos (by omega), if_pos (by omega)]
      omega
    · rw [if_neg h1, if_neg h1] at ih
      by_cases h2 : n = r
      · subst h2
        rw [if_pos rfl, if_pos (by omega), if_pos (by omega)]
        omega
      · rw [if_neg h2, if_neg (by omega), if_neg (by omega)]
        omega

theorem sum_setR (P : Nat → Bool) (st : St) (r : Nat) (f : RFlow) (hi : f.id = (st.R r).id) (hr : r < st.nR) :
    gotSum P (setR st r f) + (if P (st.R r).id then (st.R r).got else 0) = gotSum P st + (if P (st.R r).id then f.got else 0) := by
  have h := sum_one (fun i => if P (st.R i).id then (st.R i).got else 0) r (if P f.id then f.got else 0) st.nR
  rw [if_pos hr, if_pos hr] at h
  unfold gotSum
  have e : (fun t => if P ((setR st r f).R t).id then ((setR st r f).R t).got else 0) = fun i => if i = r then (if P f.id then f.got else 0) else if P (st.R i).id then (st.R i).got else 0 := by
    funext t
    simp only [setR]
    by_cases ht : t = r
    · subst ht; simp
    · simp [ht]
  rw [e, ← hi]
  rw [← hi] at h
  exact h

theorem sum_le (P : Nat → Bool) (st : St) : gotSum P st ≤ gotSum any st := by
  unfold gotSum
  generalize List.range st.nR = l
  induction l with
  | nil => exact Nat.le_refl _
  | cons a l ih =>
    simp only [List.map_cons, List.sum_cons]
    have : (if P (st.R a).id then (st.R a).got else 0) ≤ (if any (st.R a).id then (st.R a).got else 0) := by
      simp only [any, if_true]
      split <;> omega
    omega

/-- nothing is owed of flows that have got nothing -/
theorem sum_congr (P : Nat → Bool) {a b : St} (hn : b.nR = a.nR) (hi : ∀ r, (b.R r).id = (a.R r).id) (hg : ∀ r, (b.R r).got = (a.R r).got) : gotSum P b = gotSum P a := by
  unfold gotSum
  rw [hn]
  exact congrArg List.sum (List.map_congr_left (fun r _ => by rw [hg r, hi r]))

/-- The end of a flow is acknowledged. -/
theorem owe_closeAck {P : Nat → Bool} {X : Nat → Prop} {D K M : Nat} {u : St} (r id : Nat) (hou : On u) (h : Owe P X D K M u) (t : Tab u) (hz : (u.R r).got = 0) (he : (u.R r).ended = true) :
    let w := setR (tx u (.r r) (.closeAck id)) r { u.R r with over := true }
    Owe P X D K M w ∧ Tab w ∧ On w ∧ w.ackNow = u.ackNow ∧ w.ackFlows = u.ackFlows ∧ w.nR = u.nR ∧ (∀ i, (w.R i).got = (u.R i).got) ∧ w.acc = u.acc ∧ w.ackWin = u.ackWin := by
  intro w
  have l2 := meek_tx u (.r r) (.closeAck id) rfl
  have o2 := l2.owe h
  have t2 := l2.table t
  have htu : tx u (.r r) (.closeAck id) = note u (.tx (.r r) (.closeAck id)) := by unfold tx; rw [if_pos hou.1]
  have hw : w = setR (note u (.tx (.r r) (.closeAck id))) r { u.R r with over := true } := by rw [← htu]
  rw [htu] at o2 t2
  rw [hw]
  have hvR : (note u (.tx (.r r) (.closeAck id))).R = u.R := rfl
  have hvo : On (note u (.tx (.r r) (.closeAck id))) := ⟨hou.1, hou.2⟩
  have e1 : (note u (.tx (.r r) (.closeAck id))).ackNow = u.ackNow ∧ (note u (.tx (.r r) (.closeAck id))).ackFlows = u.ackFlows ∧ (note u (.tx (.r r) (.closeAck id))).nR = u.nR ∧
    (note u (.tx (.r r) (.closeAck id))).acc = u.acc ∧ (note u (.tx (.r r) (.closeAck id))).ackWin = u.ackWin := ⟨rfl, rfl, rfl, rfl, rfl⟩
  generalize note u (.tx (.r r) (.closeAck id)) = v at o2 t2 hvR hvo e1 ⊢
  have hg2 : ∀ i, ((setR v r { u.R r with over := true }).R i).got = (u.R i).got := by
    intro i; simp only [setR, hvR]; split
    · rename_i hi; rw [hi]
    · rfl
  have hs2 : gotSum P (setR v r { u.R r with over := true }) = gotSum P v :=
    sum_congr P rfl (fun i => by
      simp only [setR, hvR]; split
      · rename_i hi; rw [hi]
      · rfl) (fun i => by rw [hg2, hvR])
  refine ⟨⟨fun o => ?_, o2.less, fun i hi => ?_, fun i hi => ?_, fun o i hi hx => ?_, o2.big, o2.win, o2.asked, o2.sent, o2.acked, o2.user, o2.wnd, o2.op⟩,
    ⟨fun p hp => ?_, t2.one⟩, ⟨hvo.1, hvo.2⟩, e1.1, e1.2.1, e1.2.2.1, hg2, e1.2.2.2⟩
  · rw [hs2]; exact o2.books o
  · rw [hg2, ← hvR]; exact o2.fresh i hi
  · rw [hg2]
    simp only [setR] at hi
    split at hi
    · rename_i hi'; rw [hi', hz]
    · rw [← hvR]; exact o2.over i hi
  · rw [hg2, ← hvR] at hi; exact o2.wait o i hi hx
  · have hp1 := t2.flow p hp
    have hne : p.2 ≠ r := fun hpr => by
      have := hp1.2.1
      rw [hpr, hvR, he] at this
      exact absurd this (by simp)
    simp only [setR, if_neg hne]
    exact hp1

/-- One acknowledgement. -/
theorem owe_sendAck {P : Nat → Bool} {X : Nat → Prop} {D K M : Nat} {st : St} (r : Nat) (hu : On st) (h : Owe P X D K M st) (t : Tab st) :
    Owe P X D K M (sendAck st r) ∧ Tab (sendAck st r) ∧ On (sendAck st r) ∧ (sendAck st r).ackNow = st.ackNow ∧ (sendAck st r).ackFlows = st.ackFlows ∧
    (sendAck st r).nR = st.nR ∧ ((sendAck st r).R r).got = 0 ∧ (∀ i, ((sendAck st r).R i).got = 0 ∨ ((sendAck st r).R i).got = (st.R i).got) ∧
    (sendAck st r).acc = st.acc ∧ (sendAck st r).ackWin = st.ackWin := by
  by_cases ho : (st.R r).over = true
  · have e : sendAck st r = st := by unfold sendAck; dsimp only; rw [if_pos ho]
    rw [e]
    exact ⟨h, t, hu, rfl, rfl, rfl, h.over r ho, fun _ => Or.inr rfl, rfl, rfl⟩
  have key : ∃ u : St, u = setR (tx (setR st r { st.R r with thresh := advert (st.R r) / 2 }) (.r r) (.ack (st.R r).id (st.R r).got (advert (st.R r)))) r
      { (tx (setR st r { st.R r with thresh := advert (st.R r) / 2 }) (.r r) (.ack (st.R r).id (st.R r).got (advert (st.R r)))).R r with got := 0 } := ⟨_, rfl⟩
  obtain ⟨u, hud⟩ := key
  have hv : (setR st r { st.R r with thresh := advert (st.R r) / 2 }).up = true := hu.1
  have htx : tx (setR st r { st.R r with thresh := advert (st.R r) / 2 }) (.r r) (.ack (st.R r).id (st.R r).got (advert (st.R r))) =
      note (setR st r { st.R r with thresh := advert (st.R r) / 2 }) (.tx (.r r) (.ack (st.R r).id (st.R r).got (advert (st.R r)))) := by
    unfold tx; rw [if_pos hv]
  rw [htx] at hud
  have hg : ∀ i, (u.R i).got = if i = r then 0 else (st.R i).got := by
    intro i; rw [hud]; simp only [setR, note]; by_cases hi : i = r
    · simp [hi]
    · simp [hi]
  have hov : ∀ i, (u.R i).over = (st.R i).over := by
    intro i; rw [hud]; simp only [setR, note]; by_cases hi : i = r
    · simp [hi]
    · simp [hi]
  have hen : ∀ i, (u.R i).ended = (st.R i).ended := by
    intro i; rw [hud]; simp only [setR, note]; by_cases hi : i = r
    · simp [hi]
    · simp [hi]
  have hid : ∀ i, (u.R i).id = (st.R i).id := by
    intro i; rw [hud]; simp only [setR, note]; by_cases hi : i = r
    · simp [hi]
    · simp [hi]
  have hlog : u.log = st.log ++ [.tx (.r r) (.ack (st.R r).id (st.R r).got (advert (st.R r)))] := by rw [hud]; rfl
  have hsum : gotSum P u + (if P (st.R r).id then (st.R r).got else 0) = gotSum P st := by
    have e1 := sum_one (fun i => if P (st.R i).id then (st.R i).got else 0) r 0 st.nR
    have e2 : gotSum P u = ((List.range st.nR).map fun i => if i = r then 0 else if P (st.R i).id then (st.R i).got else 0).sum := by
      unfold gotSum
      have : u.nR = st.nR := by rw [hud]; rfl
      rw [this]
      exact congrArg List.sum (List.map_congr_left (fun i _ => by
        rw [hg i, hid i]
        by_cases hi : i = r
        · rw [if_pos hi, if_pos hi]; split <;> rfl
        · rw [if_neg hi, if_neg hi]))
    rw [e2]
    unfold gotSum
    by_cases hr : r < st.nR
    · rw [if_pos hr, if_pos hr] at e1; exact e1
    · rw [if_neg hr, if_neg hr] at e1
      rw [h.fresh r (by omega)]
      simp only [ite_self]
      omega
  have hack : ackedLen P u.log = ackedLen P st.log + (if P (st.R r).id then (st.R r).got else 0) := by rw [hlog]; simp [ackedLen, ackOf]
  have hon : On u → On st := by rw [hud]; exact fun o => ⟨o.1, o.2⟩
  have hsn : u.sendNow = st.sendNow := by rw [hud]; rfl
  have han : u.ackNow = st.ackNow := by rw [hud]; rfl
  have haf : u.ackFlows = st.ackFlows := by rw [hud]; rfl
  have hri : u.rIds = st.rIds := by rw [hud]; rfl
  have hnR : u.nR = st.nR := by rw [hud]; rfl
  have ho1 : Owe P X D K M u := by
    refine ⟨fun o => ?_, ?_, fun i hi => ?_, fun i hi => ?_, fun o i hi hx => ?_, ?_, ?_, fun o e => ?_, fun o => ?_, fun o => ?_, fun o => ?_, fun e he => ?_, ?_⟩
    · have := h.books (hon o); omega
    · have := h.books hu; omega
    · rw [hg]; split
      · rfl
      · exact h.fresh i (hnR ▸ hi)
    · rw [hg]; split
      · rfl
      · exact h.over i (hov i ▸ hi)
    · rw [hg] at hi
      split at hi
      · omega
      · rw [haf]; exact h.wait (hon o) i hi hx
    · rw [hud]; exact h.big
    · rw [hud]; exact h.win
    · rw [hsn]; exact h.asked (hon o) (han ▸ e)
    · have := h.sent (hon o)
      have e2 : u.bytesSent = st.bytesSent := by rw [hud]; rfl
      rw [e2, ← this, hlog]
      simp [sentLen, dataOf]
    · have e2 : u.bytesAcked = st.bytesAcked := by rw [hud]; rfl
      rw [e2]; exact h.acked (hon o)
    · have e2 : u.userUp = st.userUp := by rw [hud]; rfl
      rw [e2]; exact h.user (hon o)
    · rw [hlog] at he
      simp only [List.mem_append, List.mem_singleton] at he
      rcases he with he | he
      · exact h.wnd e he
      · rw [he]; simp [windowOf]
    · rw [hud]; exact h.op
  have ht1 : Tab u := ⟨fun p hp => by rw [hnR, hen, hov, hid]; exact t.flow p (hri ▸ hp), fun p hp q hq => t.one p (hri ▸ hp) q (hri ▸ hq)⟩
  have hou : On u := by rw [hud]; exact ⟨hu.1, hu.2⟩
  have hacc : u.acc = st.acc := by rw [hud]; rfl
  have hwin : u.ackWin = st.ackWin := by rw [hud]; rfl
  have hi1 : ∀ i, (u.R i).got = 0 ∨ (u.R i).got = (st.R i).got := fun i => by
    rw [hg]; split
    · exact Or.inl rfl
    · exact Or.inr rfl
  by_cases he : (st.R r).ended = true
  · have e : sendAck st r = setR (tx u (.r r) (.closeAck (st.R r).id)) r { u.R r with over := true } := by
      unfold sendAck; dsimp only; rw [if_neg ho, if_pos he, htx, ← hud]
    clear hud
    obtain ⟨c1, c2, c3, c4, c5, c6, c7, c8, c9⟩ := owe_closeAck r (st.R r).id hou ho1 ht1 (by rw [hg]; simp) (by rw [hen]; exact he)
    rw [e]
    exact ⟨c1, c2, c3, c4.trans han, c5.trans haf, c6.trans hnR, (c7 r).trans (by rw [hg]; simp), fun i => (hi1 i).imp (c7 i).trans (c7 i).trans, c8.trans hacc, c9.trans hwin⟩
  · have e : sendAck st r = u := by unfold sendAck; dsimp only; rw [if_neg ho, if_neg he, htx, ← hud]
    rw [e]
    exact ⟨ho1, ht1, hou, han, haf, hnR, by rw [hg]; simp, hi1, hacc, hwin⟩

theorem owe_acks {P : Nat → Bool} {X : Nat → Prop} {D K M : Nat} : ∀ (l : List Nat) {st : St}, On st → Owe P X D K M st → Tab st →
    Owe P X D K M (l.foldl sendAck st) ∧ Tab (l.foldl sendAck st) ∧ On (l.foldl sendAck st) ∧ (l.foldl sendAck st).ackNow = st.ackNow ∧
    (∀ i, ((l.foldl sendAck st).R i).got = 0 ∨ (((l.foldl sendAck st).R i).got = (st.R i).got ∧ i ∉ l)) ∧ (l.foldl sendAck st).acc = st.acc ∧ (l.foldl sendAck st).ackWin = st.ackWin
  | [], st, o, h, t => ⟨h, t, o, rfl, fun _ => Or.inr ⟨rfl, by simp⟩, rfl, rfl⟩
  | r :: l, st, o, h, t => by
    obtain ⟨h1, t1, o1, a1, f1, n1, g1, i1, c1, w1⟩ := owe_sendAck r o h t
    obtain ⟨h2, t2, o2, a2, i2, c2, w2⟩ := owe_acks l o1 h1 t1
    refine ⟨h2, t2, o2, a2.trans a1, fun i => ?_, c2.trans c1, w2.trans w1⟩
    simp only [List.foldl_cons]
    rcases i2 i with e | ⟨e, ne⟩
    · exact Or.inl e
    · rcases i1 i with e' | e'
      · exact Or.inl (e.trans e')
      · by_cases hi : i = r
        · subst hi; exact Or.inl (e.trans g1)
        · exact Or.inr ⟨e.trans e', by simp [hi, ne]⟩

/-- Nothing is in the middle of a change. -/
def nil : Nat → Prop := fun _ => False

theorem sum_zero (f : Nat → Nat) (h : ∀ i, f i = 0) : ∀ l : List Nat, (l.map f).sum = 0
  | [] => rfl
  | a :: l => by simp [h a, sum_zero f h l]

/-- The accounts, as they are between steps. -/
structure Sound (P : Nat → Bool) (D K M : Nat) (st : St) : Prop where
  owe : Owe P nil D K M st
  tab : Tab st
  due : Due 0 st
  lt : st.acc < st.ackWin

theorem Meek.sound {P : Nat → Bool} {D K M : Nat} {a b : St} (k : Meek a b) (h : Sound P D K M a) : Sound P D K M b :=
  ⟨k.owe h.owe, k.table h.tab, k.due h.due, by rw [k.acc, k.win]; exact h.lt⟩

theorem Sound.off {P : Nat → Bool} {D K M : Nat} {st : St} (h : Sound P D K M st) (o : ¬ On st) {D' K' M' : Nat} (hD : D ≤ D') (hM : M ≤ M') : Sound P D' K' M' st :=
  ⟨h.owe.off o hD hM, h.tab, h.due, h.lt⟩

theorem sound_sendAcks {P : Nat → Bool} {D K M : Nat} {st : St} (o : On st) (h : Sound P D K M st) : Sound P D K M (sendAcks st) ∧ (∀ P, gotSum P (sendAcks st) = 0) ∧ ∀ i, ((sendAcks st).R i).got = 0 := by
  have h0 : Owe P nil D K M { st with ackNow := false } :=
    ⟨h.owe.books, h.owe.less, h.owe.fresh, h.owe.over, h.owe.wait, h.owe.big, h.owe.win, fun _ e => absurd e (by simp), h.owe.sent, h.owe.acked, h.owe.user, h.owe.wnd, h.owe.op⟩
  obtain ⟨h1, t1, o1, a1, i1, c1, w1⟩ := owe_acks st.ackFlows (st := { st with ackNow := false }) ⟨o.1, o.2⟩ h0 ⟨h.tab.flow, h.tab.one⟩
  unfold sendAcks
  generalize st.ackFlows.foldl sendAck { st with ackNow := false } = u at h1 t1 o1 a1 i1 c1 w1 ⊢
  have hz : ∀ i, (u.R i).got = 0 := by
    intro i
    rcases i1 i with e | ⟨e, ne⟩
    · exact e
    · rw [e]
      refine Nat.eq_zero_of_not_pos (fun hp => ne (h.owe.wait o i hp (fun x => x)))
  have hs : ∀ P, gotSum P u = 0 := fun P => sum_zero _ (fun i => by rw [hz i]; split <;> rfl) _
  refine ⟨⟨⟨h1.books, h1.less, h1.fresh, h1.over, fun _ i hi => ?_, h1.big, h1.win, h1.asked, h1.sent, h1.acked, h1.user, h1.wnd, h1.op⟩, ⟨t1.flow, t1.one⟩, fun _ _ => ?_, ?_⟩, hs, hz⟩
  · have := hz i; have : 0 < (u.R i).got := hi; omega
  · have : gotSum any { u with ackFlows := [] } = 0 := hs any
    rw [this]; omega
  · show u.acc < u.ackWin
    rw [c1, w1]; exact h.lt

theorem owe_ackIfNeeded {P : Nat → Bool} {X : Nat → Prop} {x D K M : Nat} {st : St} (h : Owe P X D K M st) (t : Tab st) (d : Due x st) :
    Owe P X D K M (ackIfNeeded st) ∧ Tab (ackIfNeeded st) ∧ Due x (ackIfNeeded st) ∧ (ackIfNeeded st).acc < (ackIfNeeded st).ackWin := by
  unfold ackIfNeeded
  split
  · have k := meek_scheduleAck st
    have hn := scheduleAck_ack st
    have h1 := k.owe h
    have t1 := k.table t
    have hw : (scheduleAck st).ackWin = st.ackWin := k.win
    generalize scheduleAck st = u at k hn h1 t1 hw ⊢
    refine ⟨⟨h1.books, h1.less, h1.fresh, h1.over, h1.wait, h1.big, h1.win, h1.asked, h1.sent, h1.acked, h1.user, h1.wnd, h1.op⟩, ⟨t1.flow, t1.one⟩, fun _ e => ?_, ?_⟩
    · have : u.ackNow = false := e
      rw [hn] at this; exact absurd this (by simp)
    · show st.acc % st.ackWin < u.ackWin
      rw [hw]
      exact Nat.mod_lt _ (by have := h.big; omega)
  · rename_i hn
    exact ⟨h, t, d, by omega⟩

theorem sound_newR {P : Nat → Bool} {D K M : Nat} {st : St} (h : Sound P D K M st) (id : Nat) (b : Bytes) : Sound P D K M (newR st id b) := by
  have hg : ∀ i, ((newR st id b).R i).got = (st.R i).got := by
    intro i
    simp only [newR, setR]
    split
    · rename_i hi; rw [hi, h.owe.fresh st.nR (Nat.le_refl _)]
    · rfl
  have hs : ∀ P, gotSum P (newR st id b) = gotSum P st := by
    intro P
    have e : (newR st id b).nR = st.nR + 1 := rfl
    have z : ((newR st id b).R st.nR).got = 0 := by simp [newR, setR]
    unfold gotSum
    rw [e, List.range_succ, List.map_append, List.sum_append]
    simp only [List.map_cons, List.map_nil, List.sum_cons, List.sum_nil, z, ite_self]
    rw [Nat.add_zero, Nat.add_zero]
    refine congrArg List.sum (List.map_congr_left (fun i hi => ?_))
    have hne : i ≠ st.nR := by have := List.mem_range.1 hi; omega
    simp only [newR, setR, if_neg hne]
  refine ⟨⟨fun o => ?_, h.owe.less, fun i hi => ?_, fun i hi => ?_, fun o i hi hx => ?_, h.owe.big, h.owe.win, h.owe.asked, h.owe.sent, h.owe.acked, h.owe.user, h.owe.wnd, h.owe.op⟩,
    ⟨fun p hp => ?_, fun p hp q hq => ?_⟩, fun o e => ?_, h.lt⟩
  · rw [hs]; exact h.owe.books o
  · rw [hg]; exact h.owe.fresh i (by have : st.nR + 1 ≤ i := hi; omega)
  · rw [hg]
    simp only [newR, setR] at hi
    split at hi
    · simp at hi
    · exact h.owe.over i hi
  · rw [hg] at hi; exact h.owe.wait o i hi hx
  · simp only [newR, List.mem_append, List.mem_singleton] at hp
    rcases hp with hp | hp
    · have hf := h.tab.flow p hp
      have hne : p.2 ≠ st.nR := by omega
      simp only [newR, setR, if_neg hne]
      exact ⟨by omega, hf.2⟩
    · rw [hp]
      simp [newR, setR]
  · simp only [newR, List.mem_append, List.mem_singleton] at hp hq
    rcases hp with hp | hp
    · rcases hq with hq | hq
      · exact h.tab.one p hp q hq
      · intro e; have := (h.tab.flow p hp).1; rw [e, hq] at this; simp at this
    · rcases hq with hq | hq
      · intro e; have := (h.tab.flow q hq).1; rw [← e, hp] at this; simp at this
      · intro _; rw [hp, hq]
  · rw [hs]; exact h.due o e

/-- A piece of a message arrives. -/
theorem sound_data {P : Nat → Bool} {D K M : Nat} {st : St} (h : Sound P D K M st) (id r len : Nat) (more : Bool) (b : Bytes) (e : Ev) (he : plainEv e = true) (hr : (id, r) ∈ st.rIds) :
    Sound P (D + if P id then len else 0) K M (onData (note (ackIfNeeded { st with acc := st.acc + len }) e) r more b len) := by
  have h0 : Owe P nil D K M { st with acc := st.acc + len } :=
    ⟨h.owe.books, h.owe.less, h.owe.fresh, h.owe.over, h.owe.wait, h.owe.big, h.owe.win, h.owe.asked, h.owe.sent, h.owe.acked, h.owe.user, h.owe.wnd, h.owe.op⟩
  have d0 : Due len { st with acc := st.acc + len } := fun o e => by
    have := h.due o e
    show gotSum any st + len ≤ st.acc + len
    omega
  obtain ⟨h1, t1, d1, l1⟩ := owe_ackIfNeeded h0 ⟨h.tab.flow, h.tab.one⟩ d0
  have hr1 : (id, r) ∈ (ackIfNeeded { st with acc := st.acc + len }).rIds := by
    unfold ackIfNeeded
    split
    · show (id, r) ∈ (scheduleAck { st with acc := st.acc + len }).rIds
      have : (scheduleAck { st with acc := st.acc + len }).rIds = st.rIds := by
        unfold scheduleAck schedule
        split
        · rfl
        · split <;> rfl
      rw [this]; exact hr
    · exact hr
  generalize ackIfNeeded { st with acc := st.acc + len } = u at h1 t1 d1 l1 hr1 ⊢
  have kn : Meek u (note u e) := meek_note he
  have h2 := kn.owe h1
  have t2 := kn.table t1
  have d2 := kn.due d1
  have l2 : (note u e).acc < (note u e).ackWin := l1
  have hr2 : (id, r) ∈ (note u e).rIds := hr1
  generalize note u e = v at h2 t2 d2 l2 hr2 ⊢
  obtain ⟨hlt, hen, hov, hid⟩ := t2.flow _ hr2
  unfold onData
  have hf : ∀ f : RFlow, (f = match (v.R r).buf.getLast? with
      | .some m => if m.whole then { v.R r with got := (v.R r).got + len, size := (v.R r).size + b.length, buf := (v.R r).buf ++ [⟨(v.R r).next, b, !more⟩], next := (v.R r).next + 1 } else
          { v.R r with got := (v.R r).got + len, size := (v.R r).size + b.length, buf := (v.R r).buf.dropLast ++ [⟨m.num, m.bytes ++ b, !more⟩] }
      | .none => { v.R r with got := (v.R r).got + len, size := (v.R r).size + b.length, buf := [⟨(v.R r).next, b, !more⟩], next := (v.R r).next + 1 }) →
      f.got = (v.R r).got + len ∧ f.over = (v.R r).over ∧ f.ended = (v.R r).ended ∧ f.id = (v.R r).id := by
    intro f hf
    cases hb : (v.R r).buf.getLast? with
    | none => rw [hb] at hf; rw [hf]; exact ⟨rfl, rfl, rfl, rfl⟩
    | some m =>
      rw [hb] at hf
      dsimp only at hf
      split at hf <;> (rw [hf]; exact ⟨rfl, rfl, rfl, rfl⟩)
  obtain ⟨f, hfd⟩ : ∃ f : RFlow, f = match (v.R r).buf.getLast? with
      | .some m => if m.whole then { v.R r with got := (v.R r).got + len, size := (v.R r).size + b.length, buf := (v.R r).buf ++ [⟨(v.R r).next, b, !more⟩], next := (v.R r).next + 1 } else
          { v.R r with got := (v.R r).got + len, size := (v.R r).size + b.length, buf := (v.R r).buf.dropLast ++ [⟨m.num, m.bytes ++ b, !more⟩] }
      | .none => { v.R r with got := (v.R r).got + len, size := (v.R r).size + b.length, buf := [⟨(v.R r).next, b, !more⟩], next := (v.R r).next + 1 } := ⟨_, rfl⟩
  obtain ⟨f1, f2, f3, f4⟩ := hf f hfd
  suffices hgoal : Sound P (D + if P id then len else 0) K M (queueAck (if more = true then setR v r f else queueDelivery (setR v r f) r) r
      (decide (((if more = true then setR v r f else queueDelivery (setR v r f) r).R r).thresh ≤ ((if more = true then setR v r f else queueDelivery (setR v r f) r).R r).got))) by
    rw [hfd] at hgoal; exact hgoal
  have hsum : ∀ P : Nat → Bool, gotSum P (setR v r f) = gotSum P v + if P id then len else 0 := by
    intro P
    have := sum_setR P v r f f4 hlt
    have hid' : (v.R r).id = id := hid
    rw [hid', f1] at this
    split at this <;> simp_all <;> omega
  have hall : gotSum any (setR v r f) = gotSum any v + len := hsum any
  have hw : Owe P (fun t => t = r) (D + if P id then len else 0) K M (setR v r f) := by
    refine ⟨fun o => ?_, ?_, fun i hi => ?_, fun i hi => ?_, fun o i hi hx => ?_, h2.big, h2.win, h2.asked, h2.sent, h2.acked, h2.user, h2.wnd, h2.op⟩
    · rw [hsum]; have := h2.books o; show ackedLen P v.log + _ = _; omega
    · have := h2.less; show ackedLen P v.log ≤ _; omega
    · have hne : i ≠ r := by have : v.nR ≤ i := hi; omega
      simp only [setR, if_neg hne]; exact h2.fresh i hi
    · by_cases hir : i = r
      · subst hir
        simp only [setR, if_pos] at hi
        rw [f2, hov] at hi
        exact absurd hi (by simp)
      · simp only [setR, if_neg hir] at hi ⊢; exact h2.over i hi
    · have hx' : i ≠ r := hx
      simp only [setR, if_neg hx'] at hi
      exact h2.wait o i hi (fun x => x)
  have tw : Tab (setR v r f) := ⟨fun p hp => by
      have := t2.flow p hp
      by_cases hpr : p.2 = r
      · simp only [setR, if_pos hpr]; rw [f2, f3, f4]; exact ⟨by rw [hpr]; exact hlt, hen, hov, by rw [hpr] at this; exact this.2.2.2⟩
      · simp only [setR, if_neg hpr]; exact this, t2.one⟩
  have dw : Due 0 (setR v r f) := fun o e => by have := d2 o e; rw [hall]; exact this
  have lw : (setR v r f).acc < (setR v r f).ackWin := l2
  have nw : r < (setR v r f).nR := hlt
  generalize setR v r f = w at hw tw dw lw nw ⊢
  have k1 : Meek w (if more = true then w else queueDelivery w r) := by
    split
    · exact Meek.refl _
    · exact meek_queueDelivery _ _
  generalize (if more = true then w else queueDelivery w r) = y at k1 ⊢
  have k2 := meek_queueAck y r (decide ((y.R r).thresh ≤ (y.R r).got)) (fun _ => k1.nR ▸ nw)
  have hm := queueAck_mem y r (decide ((y.R r).thresh ≤ (y.R r).got))
  generalize queueAck y r (decide ((y.R r).thresh ≤ (y.R r).got)) = z at k2 hm ⊢
  have k := k1.trans k2
  have hz := k.owe hw
  refine ⟨⟨hz.books, hz.less, hz.fresh, hz.over, fun o i hi _ => ?_, hz.big, hz.win, hz.asked, hz.sent, hz.acked, hz.user, hz.wnd, hz.op⟩, k.table tw, k.due dw, by rw [k.acc, k.win]; exact lw⟩
  by_cases hir : i = r
  · rw [hir]; exact hm o
  · exact hz.wait o i hi hir

/-- The end of a flow arrives. -/
theorem sound_closes {P : Nat → Bool} {D K M : Nat} {st : St} (h : Sound P D K M st) (id r : Nat) (hr : (id, r) ∈ st.rIds) :
    Sound P D K M { onClose st r with rIds := (onClose st r).rIds.filter fun p => p.1 != id } := by
  have hg : ∀ t, ((setR st r { st.R r with ended := true }).R t).got = (st.R t).got ∧ ((setR st r { st.R r with ended := true }).R t).over = (st.R t).over ∧ ((setR st r { st.R r with ended := true }).R t).id = (st.R t).id := by
    intro t
    simp only [setR]
    split
    · rename_i ht; subst ht; exact ⟨rfl, rfl, rfl⟩
    · exact ⟨rfl, rfl, rfl⟩
  have hs : ∀ P, gotSum P (setR st r { st.R r with ended := true }) = gotSum P st :=
    fun P => sum_congr P rfl (fun i => (hg i).2.2) (fun i => (hg i).1)
  have h1 : Owe P nil D K M (setR st r { st.R r with ended := true }) :=
    ⟨fun o => by rw [hs]; exact h.owe.books o, h.owe.less, fun i hi => by rw [(hg i).1]; exact h.owe.fresh i hi, fun i hi => by rw [(hg i).1]; exact h.owe.over i ((hg i).2.1 ▸ hi),
      fun o i hi hx => h.owe.wait o i ((hg i).1 ▸ hi) hx, h.owe.big, h.owe.win, h.owe.asked, h.owe.sent, h.owe.acked, h.owe.user, h.owe.wnd, h.owe.op⟩
  have d1 : Due 0 (setR st r { st.R r with ended := true }) := fun o e => by rw [hs]; exact h.due o e
  have hen : ∀ t, t ≠ r → ((setR st r { st.R r with ended := true }).R t).ended = (st.R t).ended := fun t ht => by simp only [setR, if_neg ht]
  have hri : (setR st r { st.R r with ended := true }).rIds = st.rIds := rfl
  have hnR : (setR st r { st.R r with ended := true }).nR = st.nR := rfl
  have hl : (setR st r { st.R r with ended := true }).acc < (setR st r { st.R r with ended := true }).ackWin := h.lt
  unfold onClose
  generalize setR st r { st.R r with ended := true } = v at hg hs h1 d1 hen hri hnR hl ⊢
  have hlt : r < v.nR := by rw [hnR]; exact (h.tab.flow _ hr).1
  have k0 := (meek_onAbandon v r 0 (fun _ => hlt)).trans (meek_queueDelivery _ r)
  have k := k0.trans (meek_queueAck _ r true (fun _ => k0.nR ▸ hlt))
  generalize queueAck (queueDelivery (onAbandon v r 0) r) r true = w at k ⊢
  have h2 := k.owe h1
  have d2 := k.due d1
  refine ⟨⟨h2.books, h2.less, h2.fresh, h2.over, h2.wait, h2.big, h2.win, h2.asked, h2.sent, h2.acked, h2.user, h2.wnd, h2.op⟩, ⟨fun p hp => ?_, fun p hp q hq => ?_⟩, d2, by
    show w.acc < w.ackWin
    rw [k.acc, k.win]; exact hl⟩
  · simp only [List.mem_filter] at hp
    rcases k.tab with e | ⟨e, he⟩
    · rw [e] at hp; simp at hp
    · rw [e, hri] at hp
      have hne : p.2 ≠ r := fun hpr => by
        have := h.tab.one p hp.1 _ hr hpr
        rw [this] at hp
        simp at hp
      show p.2 < w.nR ∧ (w.R p.2).ended = false ∧ (w.R p.2).over = false ∧ (w.R p.2).id = p.1
      rw [k.nR, hnR, he, hen _ hne, k.over, (hg _).2.1, k.rid, (hg _).2.2]
      exact h.tab.flow p hp.1
  · simp only [List.mem_filter] at hp hq
    rcases k.tab with e | ⟨e, he⟩
    · rw [e] at hp; simp at hp
    · rw [e, hri] at hp hq
      exact h.tab.one p hp.1 q hq.1

end Rtmfp.RTWS
