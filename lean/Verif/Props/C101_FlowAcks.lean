import Verif.Lemmas.RTWNear
import Verif.Lemmas.RTWHear
import Verif.Spec.RTWAcks
import Verif.Props.C100_FlowTurns

/-!
# C101: what an `RTWebSocket` acknowledges, and that two of them don't wait for each other
-/

namespace Rtmfp

open RTWS Spec.Flows

theorem weight_came : ∀ os : List Op, (os.map (opData RTWS.any)).sum = weight (came os)
  | [] => rfl
  | o :: os => by
    have ih := weight_came os
    cases o with
    | recv b =>
      simp only [List.map_cons, List.sum_cons, ih, came, List.filterMap_cons, weight, opData, dataIn]
      congr 1
      cases hd : Msg.decode b with
      | none => rfl
      | some x =>
        cases x with
        | none => rfl
        | some m => cases m <;> rfl
    | _ => simpa [came, opData] using ih

theorem acks_came : ∀ os : List Op, (os.map opAck).sum = acknowledged (saying (came os))
  | [] => rfl
  | o :: os => by
    have ih := acks_came os
    cases o with
    | recv b =>
      have hc : came (.recv b :: os) = b :: came os := rfl
      rw [hc]
      simp only [List.map_cons, List.sum_cons, ih, opAck, ackIn]
      unfold saying
      rw [List.filterMap_cons]
      cases hd : Msg.decode b with
      | none => simp
      | some x =>
        cases x with
        | none => simp
        | some m => cases m <;> simp [acknowledged, kLen]
    | _ => simpa [came, opAck] using ih

theorem win_came (N : Nat) : ∀ (os : List Op) (M : Nat), M ≤ N → (∀ n, .window n ∈ saying (came os) → n ≤ N) → (os.map opWin).foldl max M ≤ N
  | [], _, h, _ => h
  | o :: os, M, h, hw => by
    simp only [List.map_cons, List.foldl_cons]
    cases o with
    | recv b =>
      have hc : came (.recv b :: os) = b :: came os := rfl
      rw [hc] at hw
      unfold saying at hw
      rw [List.filterMap_cons] at hw
      refine win_came N os _ ?_ ?_
      · simp only [opWin, winIn]
        cases hd : Msg.decode b with
        | none => simpa using h
        | some x =>
          cases x with
          | none => simpa using h
          | some m =>
            rw [hd] at hw
            cases m with
            | window n =>
              have := hw n (List.mem_cons_self)
              simp only [wLen]; omega
            | _ => simpa [wLen] using h
      · intro n hn
        refine hw n ?_
        cases hd : Msg.decode b with
        | none => exact hn
        | some x =>
          cases x with
          | none => exact hn
          | some m => exact List.mem_cons_of_mem _ hn
    | _ =>
      refine win_came N os _ ?_ (by simpa [came] using hw)
      simpa [opWin] using h

theorem acked_wire : ∀ l : List Ev, ackedLen RTWS.any l = acknowledged (wire l)
  | [] => rfl
  | e :: l => by
    have ih := acked_wire l
    unfold ackedLen at ih ⊢
    rw [List.map_cons, List.sum_cons, ih]
    cases e with
    | tx w m => cases m <;> simp [wire, acknowledged, ackOf, RTWS.any]
    | _ => simp [wire, ackOf]

theorem sent_wire : ∀ l : List Ev, (∀ m ∈ wire l, sayable m) → sentLen l = weight ((wire l).map Msg.encode)
  | [], _ => rfl
  | e :: l, h => by
    have ih := fun h => sent_wire l h
    unfold sentLen at ih ⊢
    rw [List.map_cons, List.sum_cons]
    cases e with
    | tx w m =>
      have hw : wire (.tx w m :: l) = m :: wire l := rfl
      rw [hw] at h ⊢
      rw [ih (fun m hm => h m (List.mem_cons_of_mem _ hm))]
      simp only [List.map_cons, weight, List.sum_cons]
      rw [C98_codec m (h m List.mem_cons_self)]
      congr 1
      cases m <;> rfl
    | _ =>
      rw [ih h]
      simp [dataOf, wire]

theorem saying_encode : ∀ ms : List Msg, (∀ m ∈ ms, sayable m) → saying (ms.map Msg.encode) = ms
  | [], _ => rfl
  | m :: ms, h => by
    have ih := saying_encode ms (fun m hm => h m (List.mem_cons_of_mem _ hm))
    unfold saying at ih ⊢
    rw [List.map_cons, List.filterMap_cons, C98_codec m (h m List.mem_cons_self), ih]

theorem weight_prefix {a b : List Bytes} (h : a <+: b) : weight a ≤ weight b := by
  obtain ⟨c, rfl⟩ := h
  simp [weight]

theorem acknowledged_prefix {a b : List Bytes} (h : a <+: b) : acknowledged (saying a) ≤ acknowledged (saying b) := by
  obtain ⟨c, rfl⟩ := h
  simp [saying, acknowledged]

/-- No more is acknowledged than has arrived, whatever arrives and whatever the application does. -/
theorem C101_never_more (app : App) (os : List Op) : acknowledged (wire (run app init os).log) ≤ weight (came os) := by
  rw [← acked_wire, ← weight_came]
  exact (sound_all app RTWS.any os).owe.less

/-- While the connection is up and asks for no transmission, what has arrived and isn't acknowledged is
less than the window: the largest the other end has asked for, and 2800 at least. -/
theorem C101_due (app : App) (os : List Op) (N : Nat) (hN : 2800 ≤ N) (hw : ∀ n, .window n ∈ saying (came os) → n ≤ N)
    (hu : (run app init os).up = true) (hd : (run app init os).wild = false) (hn : (run app init os).sendNow = false) :
    weight (came os) < acknowledged (wire (run app init os).log) + N := by
  have h := sound_all app RTWS.any os
  have hb := h.owe.books ⟨hu, hd⟩
  rw [acked_wire, weight_came] at hb
  have ha : (run app init os).ackNow = false := by
    cases e : (run app init os).ackNow with
    | false => rfl
    | true =>
      have := h.owe.asked ⟨hu, hd⟩ e
      rw [hn] at this
      exact absurd this (by simp)
  have h1 := h.due ⟨hu, hd⟩ ha
  have h2 := h.lt
  have h3 := h.owe.win
  have h4 := win_came N os 0 (Nat.zero_le _) hw
  omega

/-- When acknowledgements are due, the next time the transport has room everything that has arrived is
acknowledged. -/
theorem C101_flush (app : App) (os : List Op) (exp : Nat → Nat) (probe : Bool) (hu : (run app init os).up = true)
    (hd : (run app init os).wild = false) (ha : (run app init os).ackNow = true) :
    acknowledged (wire (run app init (os ++ [.transmit exp probe])).log) = weight (came os) := by
  have h := sound_all app RTWS.any os
  have hs := h.owe.asked ⟨hu, hd⟩ ha
  have e : run app init (os ++ [.transmit exp probe]) = sendAcks (run app init os) := by
    have : run app init (os ++ [.transmit exp probe]) = step app (run app init os) (.transmit exp probe) := by simp [run]
    rw [this]
    unfold step
    rw [if_neg (by simp [hd])]
    show transmit app exp probe (run app init os) = _
    unfold transmit
    rw [if_neg (by simp [hu, hs]), if_pos ha]
  obtain ⟨h1, h2⟩ := sound_sendAcks ⟨hu, hd⟩ h
  rw [e]
  have hon : On (sendAcks (run app init os)) := by
    have hup : (sendAcks (run app init os)).up = (run app init os).up := (idle_sendAcks _).up
    refine ⟨hup.trans hu, ?_⟩
    have := sound_all app RTWS.any (os ++ [.transmit exp probe])
    have hwild : ∀ (l : List Nat) (st : St), (l.foldl sendAck st).wild = st.wild := by
      intro l
      induction l with
      | nil => intro st; rfl
      | cons r l ih =>
        intro st
        rw [List.foldl_cons, ih]
        unfold sendAck tx note setR
        dsimp only
        repeat' split
        all_goals rfl
    show ((run app init os).ackFlows.foldl sendAck { run app init os with ackNow := false }).wild = false
    rw [hwild]; exact hd
  have hb := h1.owe.books hon
  have h2 := h2.1 RTWS.any
  rw [acked_wire, weight_came] at hb
  omega

/-- Two ends, each of which has heard a first part of what the other said: the bytes in flight are those
sent that aren't acknowledged; the difference never wraps. -/
theorem C101_in_flight (appA appB : App) (osA osB : List Op) (hu : (run appA init osA).up = true) (hd : (run appA init osA).wild = false)
    (hA : ∀ m ∈ wire (run appA init osA).log, sayable m) (hB : ∀ m ∈ wire (run appB init osB).log, sayable m)
    (h1 : came osB <+: (wire (run appA init osA).log).map Msg.encode) (h2 : came osA <+: (wire (run appB init osB).log).map Msg.encode) :
    acknowledged (saying (came osA)) ≤ weight ((wire (run appA init osA).log).map Msg.encode) ∧
    inFlight (run appA init osA) = weight ((wire (run appA init osA).log).map Msg.encode) - acknowledged (saying (came osA)) := by
  have h := sound_all appA RTWS.any osA
  have hs := h.owe.sent ⟨hu, hd⟩
  have hk := h.owe.acked ⟨hu, hd⟩
  rw [sent_wire _ hA] at hs
  rw [acks_came] at hk
  have l1 := acknowledged_prefix h2
  rw [saying_encode _ hB] at l1
  have l2 := C101_never_more appB osB
  have l3 := weight_prefix h1
  refine ⟨by omega, ?_⟩
  unfold inFlight
  rw [if_pos (by omega)]
  omega

/-- Two ends that have heard all the other said and ask for no transmission: neither waits for the
other.  If the limit on the bytes in flight is at least 11200, the largest window it asks for, no flow of
the first end has anything to say that its own window allows. -/
theorem C101_no_stall (appA appB : App) (osA osB : List Op) (hst : Steady appA init osA)
    (hu : (run appA init osA).up = true) (hd : (run appA init osA).wild = false) (hn : (run appA init osA).sendNow = false)
    (hu' : (run appB init osB).up = true) (hd' : (run appB init osB).wild = false) (hn' : (run appB init osB).sendNow = false)
    (hA : ∀ m ∈ wire (run appA init osA).log, sayable m) (hB : ∀ m ∈ wire (run appB init osB).log, sayable m)
    (h1 : came osB = (wire (run appA init osA).log).map Msg.encode) (h2 : came osA = (wire (run appB init osB).log).map Msg.encode)
    (ht : 11200 ≤ (run appA init osA).thresh) (s : Nat) (hs : s < (run appA init osA).nS) :
    ¬ hasToSay (run appA init osA) s := by
  obtain ⟨f1, f2⟩ := C101_in_flight appA appB osA osB hu hd hA hB (h1 ▸ List.prefix_refl _) (h2 ▸ List.prefix_refl _)
  have hw : ∀ n, .window n ∈ saying (came osB) → n ≤ 11200 := by
    intro n hm
    rw [h1, saying_encode _ hA] at hm
    unfold wire at hm
    rw [List.mem_filterMap] at hm
    obtain ⟨e, he, hx⟩ := hm
    cases e with
    | tx w m =>
      simp only [Option.some.injEq] at hx
      have := (sound_all appA RTWS.any osA).owe.wnd _ he
      rw [hx] at this
      exact this
    | _ => simp at hx
  have l := C101_due appB osB 11200 (by omega) hw hu' hd' hn'
  rw [h1] at l
  rw [h2, saying_encode _ hB] at f2
  refine C100_rest_partial appA osA hst hu hn ?_ s hs
  omega

/-- the number of a flow -/
def only (id : Nat) : Nat → Bool := fun i => i == id

theorem told_came : ∀ os : List Op, os.flatMap opTold = (saying (came os)).flatMap toldBy
  | [] => rfl
  | o :: os => by
    have ih := told_came os
    cases o with
    | recv b =>
      have hc : came (.recv b :: os) = b :: came os := rfl
      rw [hc, List.flatMap_cons, ih]
      unfold saying
      rw [List.filterMap_cons]
      simp only [opTold]
      cases hd : Msg.decode b with
      | none => rfl
      | some x =>
        cases x with
        | none => rfl
        | some m => rfl
    | _ => simpa [came, opTold] using ih

theorem told_wire (id : Nat) : ∀ l : List Ev, toldSum id ((wire l).flatMap toldBy) = ackedLen (only id) l
  | [] => rfl
  | e :: l => by
    have ih := told_wire id l
    unfold ackedLen toldSum at ih ⊢
    rw [List.map_cons, List.sum_cons, ← ih]
    cases e with
    | tx w m =>
      have hw : wire (.tx w m :: l) = m :: wire l := rfl
      rw [hw, List.flatMap_cons]
      cases m with
      | ack i d a =>
        by_cases h : i = id
        · simp [toldBy, ackOf, only, h]
        · simp [toldBy, ackOf, only, h]
      | _ => simp [toldBy, ackOf]
    | _ => simp [wire, ackOf]

theorem told_adverts (id : Nat) : ∀ ms : List Msg, ((ms.flatMap toldBy).filter fun h => h.1 == id).map (fun h => h.2.2) = adverts id ms
  | [] => rfl
  | m :: ms => by
    have ih := told_adverts id ms
    unfold adverts at ih ⊢
    rw [List.flatMap_cons, List.filter_append, List.map_append, ih, List.filterMap_cons]
    cases m with
    | ack i d a =>
      by_cases h : i = id
      · simp [toldBy, h]
      · simp [toldBy, h]
    | _ => simp [toldBy]

theorem allowed_wire (id : Nat) (l : List Ev) : allowed id ((wire l).flatMap toldBy) =
    match (adverts id (wire l)).getLast? with | .none => 65536 | .some a => ackedLen (only id) l + a := by
  rw [← told_adverts, ← told_wire]
  unfold allowed
  rw [List.getLast?_map]
  cases (((wire l).flatMap toldBy).filter fun h => h.1 == id).getLast? <;> rfl

theorem data_came (P : Nat → Bool) : ∀ os : List Op, (os.map (opData P)).sum = ((came os).map (dataIn P)).sum
  | [] => rfl
  | o :: os => by
    have ih := data_came P os
    cases o with
    | recv b =>
      have hc : came (.recv b :: os) = b :: came os := rfl
      rw [hc, List.map_cons, List.map_cons, List.sum_cons, List.sum_cons, ih]
      rfl
    | _ => simpa [came, opData] using ih

theorem data_wire (st : St) (s : Nat) (hu : ∀ t, t < st.nS → (st.S t).id = (st.S s).id → t = s) : ∀ l : List Ev, (∀ m ∈ wire l, sayable m) →
    (∀ e ∈ l, isDat e = true → ∃ t id more b, e = .tx (.s t) (.data id more b) ∧ t < st.nS ∧ (st.S t).id = id) →
    (((wire l).map Msg.encode).map (dataIn (only (st.S s).id))).sum = sentSum s l
  | [], _, _ => rfl
  | e :: l, h, hl => by
    have ih := fun h => data_wire st s hu l h (fun e he => hl e (List.mem_cons_of_mem _ he))
    unfold sentSum at ih ⊢
    rw [List.map_cons (f := sentOf s), List.sum_cons]
    cases e with
    | tx w m =>
      have hw : wire (.tx w m :: l) = m :: wire l := rfl
      rw [hw] at h ⊢
      rw [List.map_cons, List.map_cons, List.sum_cons, ih (fun m hm => h m (List.mem_cons_of_mem _ hm))]
      congr 1
      unfold dataIn
      rw [C98_codec m (h m List.mem_cons_self)]
      dsimp only
      cases hd : isDat (.tx w m) with
      | false =>
        rw [sentOf_plain s _ hd]
        cases m <;> simp_all [isDat, dLen]
      | true =>
        obtain ⟨t, id, more, b, e1, e2, e3⟩ := hl _ List.mem_cons_self hd
        simp only [Ev.tx.injEq] at e1
        rw [e1.1, e1.2]
        simp only [dLen, sentOf, only]
        by_cases hts : t = s
        · subst hts; simp [e3]
        · have : id ≠ (st.S s).id := fun e => hts (hu t e2 (e3.trans e))
          simp [this, hts]
    | _ =>
      rw [sentOf_plain s _ rfl, Nat.zero_add]
      exact ih h

/-- The books of a flow whose number no other has: it has sent what was acknowledged, and what the other
end has yet to acknowledge; it may send what the other end said last. -/
theorem flow_books (appA appB : App) (osA osB : List Op)
    (hu : (run appA init osA).up = true) (hd : (run appA init osA).wild = false)
    (hu' : (run appB init osB).up = true) (hd' : (run appB init osB).wild = false)
    (hA : ∀ m ∈ wire (run appA init osA).log, sayable m) (hB : ∀ m ∈ wire (run appB init osB).log, sayable m)
    (h1 : came osB = (wire (run appA init osA).log).map Msg.encode) (h2 : came osA = (wire (run appB init osB).log).map Msg.encode)
    (s : Nat) (hs : s < (run appA init osA).nS)
    (hid : ∀ t, t < (run appA init osA).nS → ((run appA init osA).S t).id = ((run appA init osA).S s).id → t = s) :
    ((run appA init osA).S s).sent = ackedLen (only ((run appA init osA).S s).id) (run appB init osB).log + gotSum (only ((run appA init osA).S s).id) (run appB init osB) ∧
    ((run appA init osA).S s).through = match (adverts ((run appA init osA).S s).id (wire (run appB init osB).log)).getLast? with
      | .none => 65536
      | .some a => ackedLen (only ((run appA init osA).S s).id) (run appB init osB).log + a := by
  have f := fl_all appA osA
  have b := (sound_all appB (only ((run appA init osA).S s).id) osB).owe.books ⟨hu', hd'⟩
  rw [data_came, h1, data_wire _ s hid _ hA f.src] at b
  refine ⟨by rw [b]; exact f.sent ⟨hu, hd⟩ s hs, ?_⟩
  have := (f.acks ⟨hu, hd⟩ s hs hid).2
  rw [told_came, h2, saying_encode _ hB, allowed_wire] at this
  exact this

theorem advs_wire (id : Nat) : ∀ l : List Ev, advs id l = adverts id (wire l)
  | [] => rfl
  | e :: l => by
    have ih := advs_wire id l
    unfold advs adverts at ih ⊢
    rw [List.filterMap_cons, ih]
    cases e with
    | tx w m =>
      have hw : wire (.tx w m :: l) = m :: wire l := rfl
      rw [hw, List.filterMap_cons]
      cases m <;> rfl
    | _ => rfl

theorem advs_none (id : Nat) : ∀ l : List Ev, advs id l = [] → ackedLen (only id) l = 0
  | [], _ => rfl
  | e :: l, h => by
    unfold advs at h
    rw [List.filterMap_cons] at h
    have ih := advs_none id l
    unfold ackedLen at ih ⊢
    unfold advs at ih
    rw [List.map_cons, List.sum_cons]
    cases e with
    | tx w m =>
      cases m with
      | ack i d a =>
        by_cases hi : i = id
        · simp [advOf, hi] at h
        · simp only [advOf, if_neg hi] at h
          rw [ih h]
          simp [ackOf, only, hi]
      | _ => simpa [ackOf] using ih h
    | _ => simpa [ackOf] using ih h

theorem sum_sole (f : Nat → Nat) (p : Nat → Bool) (r n : Nat) (hr : r < n) (hp : p r = true) (hu : ∀ t, t < n → p t = true → t = r) :
    ((List.range n).map fun i => if p i then f i else 0).sum = f r := by
  have h := sum_one (fun i => if p i then f i else 0) r 0 n
  rw [if_pos hr, if_pos hr, if_pos hp] at h
  have e : ((List.range n).map fun i => if i = r then 0 else if p i then f i else 0) = (List.range n).map fun _ => 0 := by
    refine List.map_congr_left (fun i hi => ?_)
    split
    · rfl
    · rename_i hir
      split
      · rename_i hpi; exact absurd (hu i (List.mem_range.1 hi) hpi) hir
      · rfl
  rw [e, sum_zero _ (fun _ => rfl)] at h
  omega

theorem flow_came : ∀ os : List Op, os.flatMap opFlow = (saying (came os)).filter isFlow
  | [] => rfl
  | o :: os => by
    have ih := flow_came os
    cases o with
    | recv b =>
      have hc : came (.recv b :: os) = b :: came os := rfl
      rw [hc, List.flatMap_cons, ih]
      unfold saying
      rw [List.filterMap_cons]
      simp only [opFlow]
      cases hd : Msg.decode b with
      | none => rfl
      | some x =>
        cases x with
        | none => rfl
        | some m =>
          simp only [flowIn, List.filter_cons]
          cases isFlow m <;> rfl
    | _ => simpa [came, opFlow] using ih

theorem heard_sole (st : St) (r : Nat) (hr : r < st.nR) (hs : ∀ t, t < st.nR → (st.R t).id = (st.R r).id → t = r) : ∀ l : List Ev,
    (∀ t m, .heard t m ∈ l → t < st.nR ∧ (st.R t).id = flowOf m) → heardBy r l = (heardAll l).filter (fun m => flowOf m == (st.R r).id)
  | [], _ => rfl
  | e :: l, h => by
    have ih := heard_sole st r hr hs l (fun t m hm => h t m (List.mem_cons_of_mem _ hm))
    unfold heardBy heardAll at ih ⊢
    rw [List.filterMap_cons, List.filterMap_cons, ih]
    cases e with
    | heard t m =>
      obtain ⟨h1, h2⟩ := h t m List.mem_cons_self
      by_cases ht : t = r
      · subst ht
        simp [h2]
      · have : flowOf m ≠ (st.R r).id := fun e => ht (hs t h1 (h2.trans e))
        simp [ht, this]
    | _ => rfl

theorem sent_sole (st : St) (s : Nat) (hu : ∀ t, t < st.nS → (st.S t).id = (st.S s).id → t = s) : ∀ l : List Ev,
    (∀ t m, .tx (.s t) m ∈ l → t < st.nS ∧ isFlow m = true ∧ flowOf m = (st.S t).id) → (∀ e ∈ l, own e = true) →
    sentBy s l = ((wire l).filter isFlow).filter (fun m => flowOf m == (st.S s).id)
  | [], _, _ => rfl
  | e :: l, h, ho => by
    have ih := sent_sole st s hu l (fun t m hm => h t m (List.mem_cons_of_mem _ hm)) (fun e he => ho e (List.mem_cons_of_mem _ he))
    unfold sentBy wire at ih ⊢
    rw [List.filterMap_cons, List.filterMap_cons, ih]
    cases e with
    | tx w m =>
      cases w with
      | s t =>
        obtain ⟨h1, h2, h3⟩ := h t m List.mem_cons_self
        by_cases ht : t = s
        · subst ht
          simp [h2, h3]
        · have : flowOf m ≠ (st.S s).id := fun e => ht (hu t h1 (h3.symm.trans e))
          simp [ht, this, List.filter_cons, h2]
      | _ =>
        have := ho _ List.mem_cons_self
        simp only [own, Bool.not_eq_true'] at this
        simp [List.filter_cons, this]
    | _ => rfl

theorem tx_flow (app : App) (os : List Op) (t : Nat) (m : Msg) (h : .tx (.s t) m ∈ (run app init os).log) :
    t < (run app init os).nS ∧ isFlow m = true ∧ flowOf m = ((run app init os).S t).id := by
  have hm : m ∈ sentBy t (run app init os).log := by
    unfold sentBy
    rw [List.mem_filterMap]
    exact ⟨_, h, by simp⟩
  have k := (whole_all app os).okay.fine.inv
  by_cases hs : t < (run app init os).nS
  · refine ⟨hs, ?_⟩
    have hf := (k.good hs).framed
    unfold Framed at hf
    have e1 : (view (run app init os) t).f = (run app init os).S t := rfl
    have e2 : (view (run app init os) t).wire = sentBy t (run app init os).log := rfl
    rw [e1, e2] at hf
    split at hf
    · rw [hf.1] at hm; simp at hm
    · obtain ⟨ret, about, body, h1, h2⟩ := hf
      rw [h1] at hm
      simp only [List.mem_cons, List.mem_append] at hm
      rcases hm with hm | hm | hm
      · rw [hm]; exact ⟨rfl, rfl⟩
      · rcases h2 m hm with ⟨more, b, e⟩ | ⟨n, e⟩ <;> rw [e] <;> exact ⟨rfl, rfl⟩
      · split at hm
        · simp only [List.mem_singleton] at hm
          rw [hm]; exact ⟨rfl, rfl⟩
        · simp at hm
  · have := k t
    rw [if_neg hs] at this
    have e : sentBy t (run app init os).log = [] := this.1
    rw [e] at hm
    simp at hm

theorem two_count {α : Type} (p : α → Bool) {a b : α} (hab : a ≠ b) (pa : p a = true) (pb : p b = true) : ∀ l : List α, a ∈ l → b ∈ l → 2 ≤ l.countP p
  | [], h, _ => by simp at h
  | e :: l, ha, hb => by
    rw [List.countP_cons]
    rcases List.mem_cons.1 ha with ha | ha
    · rcases List.mem_cons.1 hb with hb | hb
      · exact absurd (ha.trans hb.symm) hab
      · have : 0 < l.countP p := List.countP_pos_iff.2 ⟨b, hb, pb⟩
        rw [← ha, if_pos pa]; omega
    · rcases List.mem_cons.1 hb with hb | hb
      · have : 0 < l.countP p := List.countP_pos_iff.2 ⟨a, ha, pa⟩
        rw [← hb, if_pos pb]; omega
      · have := two_count p hab pa pb l ha hb
        omega

/-- whether a message opens the flow with this number -/
def isOpen (id : Nat) : Msg → Bool
  | .opens i _ _ => i == id
  | _ => false

/-- If no two flows of the first end have had the number, then none at the second end have. -/
theorem met_once (appA appB : App) (osA osB : List Op)
    (hu' : (run appB init osB).up = true) (hd' : (run appB init osB).wild = false)
    (hA : ∀ m ∈ wire (run appA init osA).log, sayable m) (h1 : came osB <+: (wire (run appA init osA).log).map Msg.encode)
    (s : Nat) (hid : ∀ t, t < (run appA init osA).nS → ((run appA init osA).S t).id = ((run appA init osA).S s).id → t = s)
    (r t : Nat) (hr : r < (run appB init osB).nR) (ht : t < (run appB init osB).nR) (er : ((run appB init osB).R r).id = ((run appA init osA).S s).id)
    (et : ((run appB init osB).R t).id = ((run appA init osA).S s).id) : r = t := by
  refine Classical.byContradiction (fun hne => ?_)
  have b := hrd_all appB osB
  have ball := b.all ⟨hu', hd'⟩
  rw [flow_came] at ball
  have e2 := sent_sole _ s hid _ (fun t m h => tx_flow appA osA t m h) (hrd_all appA osA).src
  have hf := C99_framed appA osA s
  dsimp only at hf
  obtain ⟨ret, about, m1⟩ := b.born r hr
  obtain ⟨ret', about', m2⟩ := b.born t ht
  rw [er] at m1
  rw [et] at m2
  generalize ((run appA init osA).S s).id = id at *
  have c1 : (sentBy s (run appA init osA).log).countP (isOpen id) ≤ 1 := by
    rcases hf with hf | ⟨id', ret, about, body, fin, f1, f2, f3⟩
    · rw [hf]; simp
    · have z1 : body.countP (isOpen id) = 0 := List.countP_eq_zero.2 (fun m hm => by
        rcases f2 m hm with ⟨_, _, e⟩ | ⟨_, e⟩ <;> rw [e] <;> simp [isOpen])
      have z2 : fin.countP (isOpen id) = 0 := by
        rcases f3 with e | ⟨e, _⟩ <;> rw [e] <;> simp [isOpen]
      rw [f1, List.countP_cons, List.countP_append, z1, z2]
      split <;> omega
  have c2 : 2 ≤ (heardAll (run appB init osB).log).countP (isOpen id) := by
    unfold heardAll
    rw [List.countP_filterMap]
    exact two_count _ (a := Ev.heard r (.opens id ret about)) (b := Ev.heard t (.opens id ret' about')) (by simp [hne]) (by simp [isOpen]) (by simp [isOpen]) _ m1 m2
  have hp : (heardAll (run appB init osB).log).filter (fun m => flowOf m == id) <+: sentBy s (run appA init osA).log := by
    rw [ball, e2]
    refine List.IsPrefix.filter _ (List.IsPrefix.filter _ ?_)
    rw [← saying_encode _ hA]
    exact List.IsPrefix.filterMap _ h1
  have c3 := hp.sublist.countP_le (p := isOpen id)
  rw [List.countP_filter] at c3
  have c4 : (heardAll (run appB init osB).log).countP (fun m => isOpen id m && flowOf m == id) = (heardAll (run appB init osB).log).countP (isOpen id) := by
    congr 1
    funext m
    cases m <;> simp [isOpen, flowOf]
  omega

theorem flows_meet (appA appB : App) (osA osB : List Op)
    (hu' : (run appB init osB).up = true) (hd' : (run appB init osB).wild = false)
    (s : Nat) (hid : ∀ t, t < (run appA init osA).nS → ((run appA init osA).S t).id = ((run appA init osA).S s).id → t = s)
    (r : Nat) (hr : r < (run appB init osB).nR) (hrs : ((run appB init osB).R r).id = ((run appA init osA).S s).id)
    (hid' : ∀ t, t < (run appB init osB).nR → ((run appB init osB).R t).id = ((run appA init osA).S s).id → t = r) :
    heardBy r (run appB init osB).log = ((saying (came osB)).filter isFlow).filter (fun m => flowOf m == ((run appA init osA).S s).id) ∧
    sentBy s (run appA init osA).log = ((wire (run appA init osA).log).filter isFlow).filter (fun m => flowOf m == ((run appA init osA).S s).id) := by
  have b := hrd_all appB osB
  refine ⟨?_, sent_sole _ s hid _ (fun t m h => tx_flow appA osA t m h) (hrd_all appA osA).src⟩
  rw [heard_sole _ r hr (fun t ht e => hid' t ht (e.trans hrs)) _ b.who, b.all ⟨hu', hd'⟩, flow_came, hrs]

/-- Two ends that have heard all the other said and ask for no transmission.  For a flow of the first whose
number no other flow of it has had: if the last acknowledgement of it, if there was any, left
the window open, then every message written to it is settled, and if it is closed, that was said. -/
theorem C101_all_said (appA appB : App) (osA osB : List Op) (hst : Steady appA init osA)
    (hu : (run appA init osA).up = true) (hd : (run appA init osA).wild = false) (hn : (run appA init osA).sendNow = false)
    (hu' : (run appB init osB).up = true) (hd' : (run appB init osB).wild = false) (hn' : (run appB init osB).sendNow = false)
    (hA : ∀ m ∈ wire (run appA init osA).log, sayable m) (hB : ∀ m ∈ wire (run appB init osB).log, sayable m)
    (h1 : came osB = (wire (run appA init osA).log).map Msg.encode) (h2 : came osA = (wire (run appB init osB).log).map Msg.encode)
    (ht : 11200 ≤ (run appA init osA).thresh) (s : Nat) (hs : s < (run appA init osA).nS)
    (hid : ∀ t, t < (run appA init osA).nS → ((run appA init osA).S t).id = ((run appA init osA).S s).id → t = s)
    (hw : ∀ a, (adverts ((run appA init osA).S s).id (wire (run appB init osB).log)).getLast? = .some a → 0 < a) :
    let l := (run appA init osA).log
    (settled s l).map (·.1) = List.range' 1 (written s l).length ∧
    (((run appA init osA).S s).up = false → ∃ id, .closes id ∈ sentBy s l) := by
  have hid' := met_once appA appB osA osB hu' hd' hA (h1 ▸ List.prefix_rfl) s hid
  have hno := C101_no_stall appA appB osA osB hst hu hd hn hu' hd' hn' hA hB h1 h2 ht s hs
  obtain ⟨b1, b2⟩ := flow_books appA appB osA osB hu hd hu' hd' hA hB h1 h2 s hs hid
  have hnear := near_all appB osB
  have hB' := sound_all appB RTWS.any osB
  have ha : (run appB init osB).ackNow = false := by
    cases e : (run appB init osB).ackNow with
    | false => rfl
    | true =>
      have := hB'.owe.asked ⟨hu', hd'⟩ e
      rw [hn'] at this
      exact absurd this (by simp)
  obtain ⟨k, hk, hset⟩ := C99_settled appA osA s
  have hlt : ((run appA init osA).S s).sent < ((run appA init osA).S s).through := by
    rw [b1, b2]
    generalize ((run appA init osA).S s).id = id at *
    have hgot : gotSum (only id) (run appB init osB) = 0 ∨ ∃ a, (adverts id (wire (run appB init osB).log)).getLast? = .some a ∧ gotSum (only id) (run appB init osB) < a / 2 := by
      by_cases hex : ∃ r, r < (run appB init osB).nR ∧ ((run appB init osB).R r).id = id
      · obtain ⟨r, hr, er⟩ := hex
        have e : gotSum (only id) (run appB init osB) = ((run appB init osB).R r).got :=
          sum_sole (fun i => ((run appB init osB).R i).got) (fun i => only id ((run appB init osB).R i).id) r _ hr (by simp [only, er])
            (fun t ht hp => hid' t r ht hr (by simpa [only] using hp) er)
        have hth := hnear.thr ⟨hu', hd'⟩ r hr (fun t ht et => hid' t r ht hr (et.trans er) er)
        rw [er, advs_wire] at hth
        rcases hnear.due ⟨hu', hd'⟩ ha r (fun x => x) with hz | hz
        · exact Or.inl (e.trans hz)
        · rw [hth] at hz
          cases hl : (adverts id (wire (run appB init osB).log)).getLast? with
          | none => rw [hl] at hz; simp [half] at hz
          | some a => rw [hl] at hz; exact Or.inr ⟨a, rfl, by rw [e]; exact hz⟩
      · refine Or.inl ?_
        unfold gotSum
        have : ((List.range (run appB init osB).nR).map fun r => if only id ((run appB init osB).R r).id then ((run appB init osB).R r).got else 0) =
            (List.range (run appB init osB).nR).map fun _ => 0 := by
          refine List.map_congr_left (fun i hi => ?_)
          rw [if_neg]
          intro h
          exact hex ⟨i, List.mem_range.1 hi, by simpa [only] using h⟩
        rw [this, sum_zero _ (fun _ => rfl)]
    cases hl : (adverts id (wire (run appB init osB).log)).getLast? with
    | none =>
      have hz : gotSum (only id) (run appB init osB) = 0 := by
        rcases hgot with e | ⟨a, e, _⟩
        · exact e
        · rw [hl] at e; simp at e
      have : ackedLen (only id) (run appB init osB).log = 0 := advs_none id _ (by rw [advs_wire]; exact List.getLast?_eq_none_iff.1 hl)
      rw [hz, this]; decide
    | some a =>
      have := hw a hl
      rcases hgot with e | ⟨a', e, e'⟩
      · rw [e]; show _ + 0 < _ + a; omega
      · rw [hl] at e
        simp only [Option.some.injEq] at e
        subst e
        show _ < _ + a
        omega
  intro l
  have hall : k = (written s l).length := by
    have hlen := congrArg List.length hset
    simp only [List.length_map, List.length_range'] at hlen
    refine Nat.le_antisymm hk (Nat.le_of_not_lt (fun h => hno (Or.inr (Or.inl ⟨?_, hlt⟩))))
    rw [hlen]; exact h
  refine ⟨by rw [hset, hall], fun hup => ?_⟩
  have hlen := congrArg List.length hset
  simp only [List.length_map, List.length_range'] at hlen
  refine Classical.byContradiction (fun hc => hno (Or.inr (Or.inr (Or.inl ⟨hup, hlen.trans hall, fun id h => hc ⟨id, h⟩⟩))))

/-- Two ends.  A flow of the first and one of the second with the same number, that no other flow
of the first has had: if what has arrived at the second end is a beginning of what the first said, then the reader has been
given a beginning of the messages that were sent, as they were written. -/
theorem C101_carried (appA appB : App) (osA osB : List Op)
    (hu' : (run appB init osB).up = true) (hd' : (run appB init osB).wild = false)
    (hA : ∀ m ∈ wire (run appA init osA).log, sayable m) (h1 : came osB <+: (wire (run appA init osA).log).map Msg.encode)
    (s : Nat) (hid : ∀ t, t < (run appA init osA).nS → ((run appA init osA).S t).id = ((run appA init osA).S s).id → t = s)
    (r : Nat) (hr : r < (run appB init osB).nR) (hrs : ((run appB init osB).R r).id = ((run appA init osA).S s).id) :
    heardBy r (run appB init osB).log <+: sentBy s (run appA init osA).log ∧
    given r (run appB init osB).log <+: carried s (run appA init osA).log := by
  obtain ⟨e1, e2⟩ := flows_meet appA appB osA osB hu' hd' s hid r hr hrs (fun t ht e => met_once appA appB osA osB hu' hd' hA h1 s hid t r ht hr e hrs)
  have hp : heardBy r (run appB init osB).log <+: sentBy s (run appA init osA).log := by
    rw [e1, e2]
    refine List.IsPrefix.filter _ (List.IsPrefix.filter _ ?_)
    rw [← saying_encode _ hA]
    exact List.IsPrefix.filterMap _ h1
  exact ⟨hp, C99_both appA appB osA osB s r hp⟩

/-- And a flow that has said anything is there at the other end, when all has arrived; its reader has been given
all the messages that were sent, if it is neither closed nor paused and no delivery is waiting to run. -/
theorem C101_delivered (appA appB : App) (osA osB : List Op)
    (hu' : (run appB init osB).up = true) (hd' : (run appB init osB).wild = false)
    (hA : ∀ m ∈ wire (run appA init osA).log, sayable m) (h1 : came osB = (wire (run appA init osA).log).map Msg.encode)
    (s : Nat) (hid : ∀ t, t < (run appA init osA).nS → ((run appA init osA).S t).id = ((run appA init osA).S s).id → t = s) :
    let B := run appB init osB
    (sentBy s (run appA init osA).log ≠ [] → ∃ r, r < B.nR ∧ (B.R r).id = ((run appA init osA).S s).id) ∧
    ∀ r, r < B.nR → (B.R r).id = ((run appA init osA).S s).id → heardBy r B.log = sentBy s (run appA init osA).log ∧
      (B.tasks = [] → (B.R r).up = true → (B.R r).paused = false → given r B.log = carried s (run appA init osA).log) := by
  have hid' := met_once appA appB osA osB hu' hd' hA (h1 ▸ List.prefix_rfl) s hid
  intro B
  have hsay : saying (came osB) = wire (run appA init osA).log := by rw [h1]; exact saying_encode _ hA
  refine ⟨fun hne => ?_, fun r hr hrs => ?_⟩
  · have e2 := sent_sole _ s hid _ (fun t m h => tx_flow appA osA t m h) (hrd_all appA osA).src
    have b := hrd_all appB osB
    have ball := b.all ⟨hu', hd'⟩
    rw [flow_came, hsay] at ball
    rw [← ball] at e2
    cases hl : sentBy s (run appA init osA).log with
    | nil => exact absurd hl hne
    | cons m ms =>
      have hm : m ∈ (heardAll (run appB init osB).log).filter (fun m => flowOf m == ((run appA init osA).S s).id) := by
        rw [← e2, hl]; exact List.mem_cons_self
      obtain ⟨hm1, hm2⟩ := List.mem_filter.1 hm
      unfold heardAll at hm1
      obtain ⟨e, he, hx⟩ := List.mem_filterMap.1 hm1
      cases e with
      | heard r m' =>
        simp only [Option.some.injEq] at hx
        subst hx
        obtain ⟨q1, q2⟩ := b.who r m' he
        exact ⟨r, q1, q2.trans (by simpa using hm2)⟩
      | _ => simp at hx
  · obtain ⟨e1, e2⟩ := flows_meet appA appB osA osB hu' hd' s hid r hr hrs (fun t ht e => hid' t r ht hr e hrs)
    have he : heardBy r B.log = sentBy s (run appA init osA).log := by rw [e1, e2, hsay]
    exact ⟨he, fun ht ho hp => C99_all appA appB osA osB s r he hu' ht hr ho hp⟩

/-- While the other end is up, its reader is told that the flow is complete only when the writer has closed it, every
message written has been settled, and the reader has been given all that were sent. -/
theorem C101_ended (appA appB : App) (osA osB : List Op)
    (hu' : (run appB init osB).up = true) (hd' : (run appB init osB).wild = false)
    (hA : ∀ m ∈ wire (run appA init osA).log, sayable m) (h1 : came osB <+: (wire (run appA init osA).log).map Msg.encode)
    (s : Nat) (hid : ∀ t, t < (run appA init osA).nS → ((run appA init osA).S t).id = ((run appA init osA).S s).id → t = s)
    (r : Nat) (hr : r < (run appB init osB).nR) (hrs : ((run appB init osB).R r).id = ((run appA init osA).S s).id)
    (he : 0 < endings r (run appB init osB).log) :
    given r (run appB init osB).log = carried s (run appA init osA).log ∧
    (settled s (run appA init osA).log).map (·.1) = List.range' 1 (written s (run appA init osA).log).length := by
  have hp := (C101_carried appA appB osA osB hu' hd' hA h1 s hid r hr hrs).1
  have := C98_once appB osB r
  exact C99_complete_partial appA appB osA osB s r hp ((sound_all appB RTWS.any osB).owe.user ⟨hu', hd'⟩) (by omega)

/-- So when both are at rest, the window is open, nothing was abandoned and the reader reads, the reader
has been given exactly what was written. -/
theorem C101_whole (appA appB : App) (osA osB : List Op) (hst : Steady appA init osA)
    (hu : (run appA init osA).up = true) (hd : (run appA init osA).wild = false) (hn : (run appA init osA).sendNow = false)
    (hu' : (run appB init osB).up = true) (hd' : (run appB init osB).wild = false) (hn' : (run appB init osB).sendNow = false)
    (hA : ∀ m ∈ wire (run appA init osA).log, sayable m) (hB : ∀ m ∈ wire (run appB init osB).log, sayable m)
    (h1 : came osB = (wire (run appA init osA).log).map Msg.encode) (h2 : came osA = (wire (run appB init osB).log).map Msg.encode)
    (ht : 11200 ≤ (run appA init osA).thresh) (s : Nat) (hs : s < (run appA init osA).nS)
    (hid : ∀ t, t < (run appA init osA).nS → ((run appA init osA).S t).id = ((run appA init osA).S s).id → t = s)
    (hw : ∀ a, (adverts ((run appA init osA).S s).id (wire (run appB init osB).log)).getLast? = .some a → 0 < a)
    (hl : ∀ k, (k, false) ∉ settled s (run appA init osA).log)
    (hk : (run appB init osB).tasks = []) (r : Nat) (hr : r < (run appB init osB).nR) (hrs : ((run appB init osB).R r).id = ((run appA init osA).S s).id)
    (ho : ((run appB init osB).R r).up = true) (hp : ((run appB init osB).R r).paused = false) :
    (given r (run appB init osB).log).map (·.2) = written s (run appA init osA).log := by
  have hset := (C101_all_said appA appB osA osB hst hu hd hn hu' hd' hn' hA hB h1 h2 ht s hs hid hw).1
  rw [((C101_delivered appA appB osA osB hu' hd' hA h1 s hid).2 r hr hrs).2 hk ho hp]
  have hall : settled s (run appA init osA).log = (List.range' 1 (written s (run appA init osA).log).length).map (fun k => (k, true)) := by
    rw [← hset, List.map_map]
    refine (List.map_id _).symm.trans (List.map_congr_left (fun p hp => ?_))
    obtain ⟨k, b⟩ := p
    cases b with
    | true => rfl
    | false => exact absurd hp (hl k)
  unfold carried
  rw [hall]
  generalize written s (run appA init osA).log = w
  rw [List.filterMap_map, List.map_filterMap]
  have : (List.range' 1 w.length).filterMap (fun x => ((fun p : Nat × Bool => if p.2 = true then Option.some (p.1, (w[p.1 - 1]?).getD []) else .none) ∘ fun k => (k, true)) x |>.map (·.2)) =
      (List.range' 1 w.length).map (fun k => (w[k - 1]?).getD []) := by
    rw [← List.filterMap_eq_map]; rfl
  refine this.trans (List.ext_getElem (by simp) (fun i h3 h4 => ?_))
  simp [List.getElem_range', h4]

/-- One end opens a flow and writes to it. -/
def talk : List Op := [.call (.opens 5 [] 3), .call (.write 0 [1, 2, 3]), .transmit (fun _ => 0) false, .transmit (fun _ => 0) false]

/-- The other hears it, and acknowledges. -/
def hears : List Op := [.recv (Msg.encode (.opens 5 .none [])), .transmit (fun _ => 0) false, .recv (Msg.encode (.data 5 false [1, 2, 3])), .task, .transmit (fun _ => 0) false]

/-- The first end hears the answer, and all has been said. -/
def talked : List Op := talk ++ [.recv (Msg.encode (.ack 5 0 2097151)), .transmit (fun _ => 0) false]

example : let a := run quiet init talked
    let b := run acceptsAll init hears
    Steady quiet init talked ∧ a.up = true ∧ a.wild = false ∧ a.sendNow = false ∧ b.up = true ∧ b.wild = false ∧ b.sendNow = false ∧
    wire a.log = [.opens 5 .none [], .data 5 false [1, 2, 3]] ∧ wire b.log = [.ack 5 0 2097151] ∧
    came hears = (wire a.log).map Msg.encode ∧ came talked = (wire b.log).map Msg.encode ∧ 11200 ≤ a.thresh ∧ a.nS = 1 ∧
    inFlight a = 5 ∧ given 0 b.log = [(1, [1, 2, 3])] := by
  decide +kernel

/-- the flow of `talked` is the only one with its number, its window is open, and its message is settled -/
example : let a := run quiet init talked
    let b := run acceptsAll init hears
    a.nS = 1 ∧ b.nR = 1 ∧ (a.S 0).id = 5 ∧ (b.R 0).id = 5 ∧ adverts 5 (wire b.log) = [2097151] ∧
    settled 0 a.log = [(1, true)] ∧ written 0 a.log = [[1, 2, 3]] ∧ b.tasks = [] ∧ (b.R 0).up = true ∧ (b.R 0).paused = false := by
  decide +kernel

/-- the ends of `C99` meet the conditions of `C101_ended` -/
example : let a := run quiet init twoOut
    let b := run acceptsAll init twoIn
    b.up = true ∧ b.wild = false ∧ came twoIn = (wire a.log).map Msg.encode ∧ a.nS = 1 ∧ b.nR = 1 ∧ (a.S 0).id = 5 ∧ (b.R 0).id = 5 ∧
    endings 0 b.log = 1 ∧ given 0 b.log = [(1, [1, 2, 3]), (2, [4])] := by
  decide +kernel

/-- Two flows with messages in pieces of two bytes. -/
def talk2 : List Op := [.limit 65536 65536 2, .call (.opens 5 [] 3), .call (.opens 6 [] 3), .call (.write 0 [1, 2, 3]), .call (.write 1 [4]), .call (.write 0 [5])] ++
  List.replicate 8 (.transmit (fun _ => 0) false)

/-- The other end of `talk2`. -/
def hears2 : List Op := (wire (run quiet init talk2).log).map (fun m => .recv m.encode) ++ [.task, .task, .task] ++ List.replicate 2 (.transmit (fun _ => 0) false)

/-- And the first, when it has heard the answer. -/
def talked2 : List Op := talk2 ++ (wire (run acceptsAll init hears2).log).map (fun m => .recv m.encode) ++ List.replicate 2 (.transmit (fun _ => 0) false)

/-- the same with two flows -/
example : let a := run quiet init talked2
    let b := run acceptsAll init hears2
    Steady quiet init talked2 ∧ a.up = true ∧ a.wild = false ∧ a.sendNow = false ∧ b.up = true ∧ b.wild = false ∧ b.sendNow = false ∧
    wire a.log = [.opens 5 .none [], .opens 6 .none [], .data 5 true [1, 2], .data 6 false [4], .data 5 false [3], .data 5 false [5]] ∧
    came hears2 = (wire a.log).map Msg.encode ∧ came talked2 = (wire b.log).map Msg.encode ∧ 11200 ≤ a.thresh ∧ a.nS = 2 ∧ (a.S 0).id = 5 ∧ (a.S 1).id = 6 ∧
    (adverts 5 (wire b.log)).getLast? = .some 2097151 ∧ (adverts 6 (wire b.log)).getLast? = .some 2097151 ∧ b.tasks = [] ∧
    (b.R 0).up = true ∧ (b.R 1).up = true ∧ (b.R 0).paused = false ∧ (b.R 1).paused = false ∧
    given 0 b.log = [(1, [1, 2, 3]), (2, [5])] ∧ given 1 b.log = [(1, [4])] := by
  decide +kernel

/-- when the last acknowledgement closes the window, a message may wait: here the reader has no room -/
example : let hears' := hears ++ [.call (.capacity 0 0), .transmit (fun _ => 0) false, .transmit (fun _ => 0) false]
    let talked' := talked ++ [.recv (Msg.encode (.ack 5 5 0)), .call (.write 0 [4]), .transmit (fun _ => 0) false]
    let a := run quiet init talked'
    let b := run acceptsAll init hears'
    a.sendNow = false ∧ b.sendNow = false ∧ came hears' = (wire a.log).map Msg.encode ∧ came talked' = (wire b.log).map Msg.encode ∧
    adverts 5 (wire b.log) = [2097151, 0] ∧ settled 0 a.log = [(1, true)] ∧ (written 0 a.log).length = 2 := by
  decide +kernel

/-- what is owed is acknowledged when an acknowledgement is due: here, because the reader has changed the
capacity -/
example : let os := hears ++ [.call (.capacity 0 1000)]
    (run acceptsAll init os).up = true ∧ (run acceptsAll init os).wild = false ∧ (run acceptsAll init os).ackNow = true ∧
    wire (run acceptsAll init (os ++ [.transmit (fun _ => 0) false])).log = [.ack 5 0 2097151, .ack 5 5 1000] := by
  decide +kernel

end Rtmfp
