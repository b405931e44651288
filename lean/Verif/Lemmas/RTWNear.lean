import Verif.Lemmas.RTWFull

/-!
# What a receiving flow has let the other end send
-/

namespace Rtmfp.RTWS

/-- How many more bytes the acknowledgements of a flow number allow, in order. -/
def advOf (id : Nat) : Ev → Option Nat
  | .tx _ (.ack i _ a) => if i = id then .some a else .none
  | _ => .none
def advs (id : Nat) (l : List Ev) : List Nat := l.filterMap (advOf id)

theorem advs_filter (id : Nat) : ∀ l : List Ev, advs id (l.filter isAck) = advs id l
  | [] => rfl
  | e :: l => by
    have ih := advs_filter id l
    unfold advs at ih ⊢
    cases h : isAck e with
    | true => rw [List.filter_cons_of_pos h, List.filterMap_cons, List.filterMap_cons, ih]
    | false =>
      have : advOf id e = .none := by
        cases e with
        | tx w m => cases m <;> simp_all [isAck, advOf]
        | _ => rfl
      rw [List.filter_cons_of_neg (by simp [h]), ih, List.filterMap_cons, this]

/-- Half of what was allowed last. -/
def half : Option Nat → Nat
  | .none => 0
  | .some a => a / 2

/-- No other receiving flow has the number. -/
def Sole (st : St) (r : Nat) : Prop := ∀ t, t < st.nR → (st.R t).id = (st.R r).id → t = r

/-- Acknowledgements are due when half of what was allowed has come, except for the flows in `X`. -/
structure Near (X : Nat → Prop) (st : St) : Prop where
  mem : On st → ∀ r ∈ st.ackFlows, r < st.nR
  known : ∀ e ∈ st.log, ∀ w id d a, e = .tx w (.ack id d a) → ∃ r, r < st.nR ∧ (st.R r).id = id
  thr : On st → ∀ r, r < st.nR → Sole st r → (st.R r).thresh = half (advs (st.R r).id st.log).getLast?
  due : On st → st.ackNow = false → ∀ r, ¬ X r → (st.R r).got = 0 ∨ (st.R r).got < (st.R r).thresh

/-- Changes of what isn't spoken of. -/
theorem Near.like {X : Nat → Prop} {a b : St} (h : Near X a) (hg : ∀ r, (b.R r).got = (a.R r).got) (hi : ∀ r, (b.R r).id = (a.R r).id) (ht : ∀ r, (b.R r).thresh = (a.R r).thresh)
    (hn : b.nR = a.nR) (hs : b.log.filter isAck = a.log.filter isAck) (ho : On b → On a) (hm : On b → ∀ r ∈ b.ackFlows, r ∈ a.ackFlows ∨ r < a.nR)
    (ha : b.ackNow = false → a.ackNow = false) : Near X b := by
  refine ⟨fun o r hr => ?_, fun e he w id d x ee => ?_, fun o r hr hu => ?_, fun o e r hx => ?_⟩
  · rw [hn]; exact (hm o r hr).elim (h.mem (ho o) r) id
  · have : e ∈ b.log.filter isAck := List.mem_filter.2 ⟨he, by rw [ee]; rfl⟩
    rw [hs] at this
    obtain ⟨r, hr, e'⟩ := h.known e (List.mem_filter.1 this).1 w id d x ee
    exact ⟨r, hn ▸ hr, by rw [hi]; exact e'⟩
  · rw [ht, hi, ← advs_filter, hs, advs_filter]
    exact h.thr (ho o) r (hn ▸ hr) (fun t h1 h2 => hu t (hn ▸ h1) (by rw [hi, hi]; exact h2))
  · rw [hg, ht]; exact h.due (ho o) (ha e) r hx

theorem Meek.near {X : Nat → Prop} {a b : St} (k : Meek a b) (h : Near X a) : Near X b :=
  h.like k.got k.rid k.thr k.nR k.says k.on k.mem (fun e => by
    cases ha : a.ackNow with
    | false => rfl
    | true => rw [k.an ha] at e; exact absurd e (by simp))

theorem near_sendAck {X : Nat → Prop} {st : St} (r : Nat) (hu : On st) (hr : r < st.nR) (h : Near X st) : Near X (sendAck st r) := by
  by_cases ho : (st.R r).over = true
  · have e : sendAck st r = st := by unfold sendAck; dsimp only; rw [if_pos ho]
    rw [e]; exact h
  have hv : (setR st r { st.R r with thresh := advert (st.R r) / 2 }).up = true := hu.1
  have htx : tx (setR st r { st.R r with thresh := advert (st.R r) / 2 }) (.r r) (.ack (st.R r).id (st.R r).got (advert (st.R r))) =
      note (setR st r { st.R r with thresh := advert (st.R r) / 2 }) (.tx (.r r) (.ack (st.R r).id (st.R r).got (advert (st.R r)))) := by
    unfold tx; rw [if_pos hv]
  obtain ⟨u, hud⟩ : ∃ u : St, u = setR (note (setR st r { st.R r with thresh := advert (st.R r) / 2 }) (.tx (.r r) (.ack (st.R r).id (st.R r).got (advert (st.R r))))) r
      { (note (setR st r { st.R r with thresh := advert (st.R r) / 2 }) (.tx (.r r) (.ack (st.R r).id (st.R r).got (advert (st.R r))))).R r with got := 0 } := ⟨_, rfl⟩
  have hR : ∀ i, u.R i = if i = r then { st.R r with thresh := advert (st.R r) / 2, got := 0 } else st.R i := by
    intro i; rw [hud]; simp only [setR, note]; by_cases hi : i = r
    · simp [hi]
    · simp [hi]
  have hid : ∀ i, (u.R i).id = (st.R i).id := by
    intro i; rw [hR]; split
    · rename_i hi; rw [hi]
    · rfl
  have hlog : u.log = st.log ++ [.tx (.r r) (.ack (st.R r).id (st.R r).got (advert (st.R r)))] := by rw [hud]; rfl
  have hnR : u.nR = st.nR := by rw [hud]; rfl
  have haf : u.ackFlows = st.ackFlows := by rw [hud]; rfl
  have han : u.ackNow = st.ackNow := by rw [hud]; rfl
  have hon : On u → On st := by rw [hud]; exact fun o => ⟨o.1, o.2⟩
  have hn : Near X u := by
    refine ⟨fun o i hi => ?_, fun e he w id d a ee => ?_, fun o i hi hs => ?_, fun o e i hx => ?_⟩
    · rw [hnR]; exact h.mem (hon o) i (haf ▸ hi)
    · rw [hlog] at he
      simp only [List.mem_append, List.mem_singleton] at he
      rcases he with he | he
      · obtain ⟨t, ht, e'⟩ := h.known e he w id d a ee
        exact ⟨t, hnR ▸ ht, by rw [hid]; exact e'⟩
      · rw [ee] at he
        simp only [Ev.tx.injEq, Msg.ack.injEq] at he
        exact ⟨r, hnR ▸ hr, by rw [hid]; exact he.2.1.symm⟩
    · have hs' : Sole st i := fun t h1 h2 => hs t (hnR ▸ h1) (by rw [hid, hid]; exact h2)
      rw [hid, hlog]
      unfold advs
      rw [List.filterMap_append]
      by_cases hir : i = r
      · subst hir
        simp [hR, advOf, half]
      · have hne : ¬ (st.R r).id = (st.R i).id := fun e => hir (hs' r hr e).symm
        have := h.thr (hon o) i (hnR ▸ hi) hs'
        simp only [hR, if_neg hir, List.filterMap_cons, advOf, if_neg hne, List.filterMap_nil, List.append_nil]
        exact this
    · rw [hR]
      split
      · exact Or.inl rfl
      · exact h.due (hon o) (han ▸ e) i hx
  by_cases he : (st.R r).ended = true
  · have e : sendAck st r = setR (tx u (.r r) (.closeAck (st.R r).id)) r { u.R r with over := true } := by
      unfold sendAck; dsimp only; rw [if_neg ho, if_pos he, htx, ← hud]
    rw [e]
    clear hud e
    have k := meek_tx u (.r r) (.closeAck (st.R r).id) rfl
    have hR2 : (tx u (.r r) (.closeAck (st.R r).id)).R = u.R := by unfold tx; split <;> rfl
    have n2 := k.near hn
    generalize tx u (.r r) (.closeAck (st.R r).id) = v at k hR2 n2 ⊢
    have hf : ∀ i, (setR v r { u.R r with over := true }).R i = if i = r then { u.R r with over := true } else u.R i := by
      intro i; simp only [setR, hR2]
    refine n2.like (fun i => ?_) (fun i => ?_) (fun i => ?_) rfl rfl (fun o => o) (fun _ _ h => Or.inl h) (fun e => e)
    all_goals
      rw [hf, hR2]
      split
      · rename_i hi; rw [hi]
      · rfl
  · have e : sendAck st r = u := by unfold sendAck; dsimp only; rw [if_neg ho, if_neg he, htx, ← hud]
    rw [e]; exact hn

theorem sendAck_on (st : St) (r : Nat) : (On st → On (sendAck st r)) ∧ (sendAck st r).nR = st.nR := by
  unfold sendAck tx note setR
  dsimp only
  repeat' split
  all_goals exact ⟨fun o => ⟨o.1, o.2⟩, rfl⟩

theorem near_acks {X : Nat → Prop} : ∀ (l : List Nat) {st : St}, On st → (∀ r ∈ l, r < st.nR) → Near X st → Near X (l.foldl sendAck st)
  | [], _, _, _, h => h
  | r :: l, st, o, hl, h => by
    obtain ⟨e1, e2⟩ := sendAck_on st r
    exact near_acks l (e1 o) (fun t ht => by rw [e2]; exact hl t (List.mem_cons_of_mem _ ht)) (near_sendAck r o (hl r List.mem_cons_self) h)

theorem near_sendAcks {P : Nat → Bool} {D K M : Nat} {st : St} (o : On st) (h : Near nil st) (k : Sound P D K M st) : Near nil (sendAcks st) := by
  have hz := (sound_sendAcks o k).2.2
  have h0 : Near (fun _ => True) { st with ackNow := false } := ⟨h.mem, h.known, h.thr, fun _ _ r hx => absurd trivial hx⟩
  have h1 := near_acks st.ackFlows (st := { st with ackNow := false }) ⟨o.1, o.2⟩ (h.mem o) h0
  unfold sendAcks at hz ⊢
  generalize st.ackFlows.foldl sendAck { st with ackNow := false } = u at hz h1 ⊢
  exact ⟨fun _ r hr => by simp at hr, h1.known, h1.thr, fun _ _ r _ => Or.inl (hz r)⟩

theorem near_ackIfNeeded {X : Nat → Prop} {st : St} (h : Near X st) : Near X (ackIfNeeded st) := by
  unfold ackIfNeeded
  split
  · have h1 := (meek_scheduleAck st).near h
    generalize scheduleAck st = u at h1 ⊢
    exact ⟨h1.mem, h1.known, h1.thr, h1.due⟩
  · exact h

theorem near_newR {X : Nat → Prop} {st : St} (h : Near X st) (id : Nat) (b : Bytes) : Near X (newR st id b) := by
  have hR : ∀ i, (newR st id b).R i = if i = st.nR then { id := id, about := b } else st.R i := fun _ => rfl
  have hn : (newR st id b).nR = st.nR + 1 := rfl
  have hold : ∀ i, i < st.nR → (newR st id b).R i = st.R i := fun i hi => by rw [hR, if_neg (by omega)]
  refine ⟨fun o r hr => ?_, fun e he w id' d a ee => ?_, fun o r hr hs => ?_, fun o e r hx => ?_⟩
  · rw [hn]; exact Nat.lt_succ_of_lt (h.mem o r hr)
  · obtain ⟨r, hr, e'⟩ := h.known e he w id' d a ee
    exact ⟨r, by omega, by rw [hold r hr]; exact e'⟩
  · by_cases hrn : r = st.nR
    · have hid : ((newR st id b).R r).id = id := by rw [hR, if_pos hrn]
      have hth : ((newR st id b).R r).thresh = 0 := by rw [hR, if_pos hrn]
      have : advs id (newR st id b).log = [] := by
        unfold advs
        rw [List.filterMap_eq_nil_iff]
        intro e he
        cases e with
        | tx w m =>
          cases m with
          | ack i d a =>
            simp only [advOf]
            split
            · rename_i hi
              obtain ⟨t, ht, e'⟩ := h.known _ he w i d a rfl
              have := hs t (by omega) (by rw [hold t ht, hid, e', hi])
              omega
            · rfl
          | _ => rfl
        | _ => rfl
      rw [hth, hid, this]; rfl
    · have hlt : r < st.nR := by omega
      rw [hold r hlt]
      refine h.thr o r hlt (fun t h1 h2 => hs t (by omega) ?_)
      rw [hold t h1, hold r hlt]; exact h2
  · rw [hR]
    split
    · exact Or.inl rfl
    · exact h.due o e r hx

theorem queueAck_now (st : St) (r : Nat) (h : On (queueAck st r true)) : (queueAck st r true).ackNow = true := by
  unfold queueAck at h ⊢
  split at h
  · rename_i hu
    rw [if_pos hu]
    dsimp only at h ⊢
    rw [if_pos rfl]
    exact scheduleAck_ack _
  · rename_i hu
    exact absurd h.1 (by simpa using hu)

theorem near_onData {st : St} (h : Near nil st) (r : Nat) (hr : r < st.nR) (more : Bool) (b : Bytes) (len : Nat) : Near nil (onData st r more b len) := by
  unfold onData
  obtain ⟨f, hfd⟩ : ∃ f : RFlow, f = match (st.R r).buf.getLast? with
      | .some m => if m.whole then { st.R r with got := (st.R r).got + len, size := (st.R r).size + b.length, buf := (st.R r).buf ++ [⟨(st.R r).next, b, !more⟩], next := (st.R r).next + 1 } else
          { st.R r with got := (st.R r).got + len, size := (st.R r).size + b.length, buf := (st.R r).buf.dropLast ++ [⟨m.num, m.bytes ++ b, !more⟩] }
      | .none => { st.R r with got := (st.R r).got + len, size := (st.R r).size + b.length, buf := [⟨(st.R r).next, b, !more⟩], next := (st.R r).next + 1 } := ⟨_, rfl⟩
  have hf : f.id = (st.R r).id ∧ f.thresh = (st.R r).thresh := by
    cases hb : (st.R r).buf.getLast? with
    | none => rw [hb] at hfd; rw [hfd]; exact ⟨rfl, rfl⟩
    | some m =>
      rw [hb] at hfd
      dsimp only at hfd
      split at hfd <;> (rw [hfd]; exact ⟨rfl, rfl⟩)
  suffices hgoal : Near nil (queueAck (if more = true then setR st r f else queueDelivery (setR st r f) r) r
      (decide (((if more = true then setR st r f else queueDelivery (setR st r f) r).R r).thresh ≤ ((if more = true then setR st r f else queueDelivery (setR st r f) r).R r).got))) by
    rw [hfd] at hgoal; exact hgoal
  have hn : (setR st r f).nR = st.nR := rfl
  have h1 : Near (fun t => t = r) (setR st r f) := by
    have e : ∀ t, ((setR st r f).R t).id = (st.R t).id ∧ ((setR st r f).R t).thresh = (st.R t).thresh := by
      intro t
      simp only [setR]
      split
      · rename_i ht; rw [ht]; exact hf
      · exact ⟨rfl, rfl⟩
    refine ⟨h.mem, fun x hx w id d a ee => ?_, fun o i hi hs => ?_, fun o ea i hx => ?_⟩
    · obtain ⟨t, ht, e'⟩ := h.known x hx w id d a ee
      exact ⟨t, ht, by rw [(e t).1]; exact e'⟩
    · rw [(e i).1, (e i).2]
      exact h.thr o i hi (fun t h1 h2 => hs t h1 (by rw [(e t).1, (e i).1]; exact h2))
    · have hx' : i ≠ r := hx
      simp only [setR, if_neg hx']
      exact h.due o ea i (fun x => x)
  generalize setR st r f = w at h1 hn ⊢
  have k1 : Meek w (if more = true then w else queueDelivery w r) := by
    split
    · exact Meek.refl _
    · exact meek_queueDelivery _ _
  generalize (if more = true then w else queueDelivery w r) = y at k1 ⊢
  have k2 := meek_queueAck y r (decide ((y.R r).thresh ≤ (y.R r).got)) (fun _ => by rw [k1.nR, hn]; exact hr)
  have hz := k2.near (k1.near h1)
  refine ⟨hz.mem, hz.known, hz.thr, fun o e i _ => ?_⟩
  by_cases hir : i = r
  · rw [hir]
    by_cases hd : (y.R r).thresh ≤ (y.R r).got
    · rw [decide_eq_true hd] at o e
      rw [queueAck_now y r o] at e
      exact absurd e (by simp)
    · rw [k2.got, k2.thr]; omega
  · exact hz.due o e i hir

theorem near_closes {P : Nat → Bool} {D K M : Nat} {st : St} (k : Sound P D K M st) (h : Near nil st) (id r : Nat) (hr : (id, r) ∈ st.rIds) : Near nil (onClose st r) := by
  have hlt := (k.tab.flow _ hr).1
  have h1 : Near nil (setR st r { st.R r with ended := true }) := by
    refine h.like (fun t => ?_) (fun t => ?_) (fun t => ?_) rfl rfl (fun o => o) (fun _ _ h => Or.inl h) (fun e => e)
    all_goals
      simp only [setR]
      split
      · rename_i ht; rw [ht]
      · rfl
  have hnR : (setR st r { st.R r with ended := true }).nR = st.nR := rfl
  unfold onClose
  generalize setR st r { st.R r with ended := true } = v at h1 hnR ⊢
  have hlt' : r < v.nR := by rw [hnR]; exact hlt
  have k0 := (meek_onAbandon v r 0 (fun _ => hlt')).trans (meek_queueDelivery _ r)
  exact (k0.trans (meek_queueAck _ r true (fun _ => k0.nR ▸ hlt'))).near h1

theorem near_act (app : App) {P : Nat → Bool} {D K M : Nat} {st : St} (len : Nat) (m : Msg) (k : Sound P D K M st) (h : Near nil st) : Near nil (act app st len m).1 := by
  cases m with
  | ping b => exact (meek_tx st .self (.pong b) rfl).near h
  | pong b => exact h
  | window n => exact near_ackIfNeeded (st := { st with ackWin := max n 2800 }) ⟨h.mem, h.known, h.thr, h.due⟩
  | opens id ret about =>
    simp only [act]
    by_cases hf : (find st.rIds id).isSome = true
    · rw [if_pos hf]; exact h
    · rw [if_neg hf]
      have h1 : Near nil (note (newR st id about) (.heard st.nR (.opens id ret about))) := (meek_note rfl).near (near_newR h id about)
      cases ret with
      | none => exact (meek_offer app _ _ _ (fun _ => Nat.lt_succ_self _)).near h1
      | some t =>
        dsimp only
        split
        · exact (meek_closeR _ _ _ _ (fun _ => Nat.lt_succ_self _)).near h1
        · split
          · exact (meek_offer app _ _ _ (fun _ => Nat.lt_succ_self _)).near h1
          · exact (meek_closeR _ _ _ _ (fun _ => Nat.lt_succ_self _)).near h1
  | data id more b =>
    simp only [act]
    cases hf : find st.rIds id with
    | none => exact h
    | some r =>
      have hlt := (k.tab.flow _ (find_mem hf)).1
      dsimp only
      have h1 := near_ackIfNeeded (st := { st with acc := st.acc + len }) ⟨h.mem, h.known, h.thr, h.due⟩
      have hn : (ackIfNeeded { st with acc := st.acc + len }).nR = st.nR := by
        unfold ackIfNeeded scheduleAck schedule
        repeat' split
        all_goals rfl
      refine near_onData ((meek_note rfl).near h1) r ?_ _ _ _
      show r < (ackIfNeeded { st with acc := st.acc + len }).nR
      rw [hn]; exact hlt
  | abandon id extra =>
    simp only [act]
    cases hf : find st.rIds id with
    | none => exact h
    | some r => exact ((meek_note rfl).trans (meek_onAbandon _ _ _ (fun _ => (k.tab.flow _ (find_mem hf)).1))).near h
  | closes id =>
    simp only [act]
    cases hf : find st.rIds id with
    | none => exact h
    | some r =>
      have kn : Meek st (note st (.heard r (.closes id))) := meek_note rfl
      have h1 := near_closes (kn.sound k) (kn.near h) id r (find_mem hf)
      dsimp only
      generalize onClose (note st (.heard r (.closes id))) r = u at h1 ⊢
      exact ⟨h1.mem, h1.known, h1.thr, h1.due⟩
  | ack id d a =>
    simp only [act]
    cases hf : find st.sIds id with
    | none => exact h
    | some s =>
      have h1 : Near nil { st with bytesAcked := st.bytesAcked + d } := ⟨h.mem, h.known, h.thr, h.due⟩
      exact ((meek_setS { st with bytesAcked := st.bytesAcked + d } s { st.S s with acked := (st.S s).acked + d, through := (st.S s).acked + d + a } (fun m h => h)).trans (meek_queueTx _ _)).near h1
  | closeAck id =>
    simp only [act]
    cases hf : find st.sIds id with
    | none => exact h
    | some s =>
      dsimp only
      split
      · exact h
      · exact ⟨h.mem, h.known, h.thr, h.due⟩
  | refuse id reason text =>
    simp only [act]
    cases hf : find st.sIds id with
    | none => exact h
    | some s => exact (meek_onRefuse app _ _ _ _).near h

theorem near_step (app : App) {P : Nat → Bool} {D K M : Nat} {st : St} (o : Op) (k : Sound P D K M st) (htk : ∀ r ∈ st.tasks, r < st.nR) (h : Near nil st) : Near nil (step app st o) := by
  unfold step
  by_cases hw : st.wild = true
  · rw [if_pos hw]; exact h
  rw [if_neg hw]
  cases o with
  | call c => exact (meek_call st c).near h
  | recv b =>
    dsimp only
    split
    · unfold arrive
      cases hd : Msg.decode b with
      | none => exact (meek_fail app st).near h
      | some x =>
        cases x with
        | none => exact h
        | some m =>
          dsimp only
          have h1 := near_act app b.length m k h
          by_cases e : (act app st b.length m).2 = true
          · rw [if_pos e]; exact h1
          · rw [if_neg e]; exact (meek_fail app _).near h1
    · exact h
  | transmit exp probe =>
    dsimp only
    unfold transmit
    by_cases h1 : (!st.up || !st.sendNow) = true
    · rw [if_pos h1]; exact h
    · rw [if_neg h1]
      have hu : st.up = true := by cases h' : st.up <;> simp_all
      by_cases ha : st.ackNow = true
      · rw [if_pos ha]; exact near_sendAcks ⟨hu, by simpa using hw⟩ h k
      · rw [if_neg ha]
        dsimp only
        have l1 : Meek st (if inFlight st < st.thresh then tryAll app exp probe 8 st else (st, false)).1 := by
          split
          · exact meek_tryAll app exp probe 8 st k.owe.op
          · exact Meek.refl _
        generalize (if inFlight st < st.thresh then tryAll app exp probe 8 st else (st, false)) = r at l1 ⊢
        have h2 := l1.near h
        split
        · exact h2
        · exact ⟨h2.mem, h2.known, h2.thr, h2.due⟩
  | task =>
    dsimp only
    split
    · exact h
    · rename_i r rest ht
      exact (Meek.trans (b := { st with tasks := rest }) meek_eq (meek_deliver app _ r (fun _ => htk r (by rw [ht]; exact List.mem_cons_self)))).near h
  | trim s exp =>
    dsimp only
    split
    · exact (meek_trimLoop app s _ st).near h
    · exact h
  | gone =>
    dsimp only
    split
    · exact (meek_fail app st).near h
    · exact h
  | limit a b c => exact ⟨h.mem, h.known, h.thr, h.due⟩

theorem near_run (app : App) : ∀ (os : List Op) {D K M : Nat} {st : St}, Sound any D K M st → Rec Nobody Nobody st → Near nil st → Near nil (run app st os)
  | [], _, _, _, _, _, _, h => h
  | o :: os, _, _, _, _, k, r, h => near_run app os (sound_step app o k r.due) (rec_step app r o) (near_step app o k r.due h)

theorem near_all (app : App) (os : List Op) : Near nil (run app init os) :=
  near_run app os (sound_all app any []) rec_init ⟨fun _ r hr => absurd hr (by simp [run, init]), fun e he => absurd he (by simp [init]), fun _ r hr => absurd hr (by simp [init]), fun _ _ _ _ => Or.inl rfl⟩

end Rtmfp.RTWS
