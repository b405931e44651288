import Verif.Lemmas.RTWOwe
import Verif.Lemmas.RTWRecvStep

/-!
# What is owed to the other end: all histories
-/

namespace Rtmfp.RTWS

theorem sound_act (app : App) {P : Nat → Bool} {D K M : Nat} {st : St} (len : Nat) (m : Msg) (h : Sound P D K M st) :
    ((act app st len m).2 = true → Sound P (D + dLen P len m) (K + kLen m) (max M (wLen m)) (act app st len m).1) ∧ ((act app st len m).2 = false → (act app st len m).1 = st) := by
  have h0 : Sound P (D + 0) (K + 0) (max M 0) st := by
    rw [Nat.max_eq_left (Nat.zero_le _)]; exact h
  cases m with
  | ping b => exact ⟨fun _ => (meek_tx st .self (.pong b) rfl).sound h0, fun e => by simp [act] at e⟩
  | pong b => exact ⟨fun _ => h0, fun e => by simp [act] at e⟩
  | window n =>
    refine ⟨fun _ => ?_, fun e => by simp [act] at e⟩
    have h1 : Owe P nil D K (max M n) { st with ackWin := max n 2800 } :=
      ⟨h.owe.books, h.owe.less, h.owe.fresh, h.owe.over, h.owe.wait, Nat.le_max_right _ _, by show max n 2800 ≤ max (max M n) 2800; omega, h.owe.asked, h.owe.sent, h.owe.acked, h.owe.user, h.owe.wnd, h.owe.op⟩
    obtain ⟨a, b, c, d⟩ := owe_ackIfNeeded h1 ⟨h.tab.flow, h.tab.one⟩ (x := 0) (fun o e => h.due o e)
    exact ⟨a, b, c, d⟩
  | opens id ret about =>
    simp only [act]
    by_cases hf : (find st.rIds id).isSome = true
    · rw [if_pos hf]; exact ⟨fun e => by simp at e, fun _ => rfl⟩
    · rw [if_neg hf]
      have h1 : Sound P (D + dLen P len (.opens id ret about)) (K + kLen (.opens id ret about)) (max M (wLen (.opens id ret about))) (note (newR st id about) (.heard st.nR (.opens id ret about))) :=
        (meek_note rfl).sound (sound_newR h0 id about)
      cases ret with
      | none => exact ⟨fun _ => (meek_offer app _ _ _ (fun _ => Nat.lt_succ_self _)).sound h1, fun e => by simp at e⟩
      | some t =>
        dsimp only
        split
        · exact ⟨fun _ => (meek_closeR _ _ _ _ (fun _ => Nat.lt_succ_self _)).sound h1, fun e => by simp at e⟩
        · split
          · exact ⟨fun _ => (meek_offer app _ _ _ (fun _ => Nat.lt_succ_self _)).sound h1, fun e => by simp at e⟩
          · exact ⟨fun _ => (meek_closeR _ _ _ _ (fun _ => Nat.lt_succ_self _)).sound h1, fun e => by simp at e⟩
  | data id more b =>
    simp only [act]
    cases hf : find st.rIds id with
    | none => exact ⟨fun e => by simp at e, fun _ => rfl⟩
    | some r =>
      refine ⟨fun _ => ?_, fun e => by simp at e⟩
      have e0 : max M (wLen (.data id more b)) = M := Nat.max_eq_left (Nat.zero_le _)
      rw [e0]
      exact sound_data h id r len more b (.heard r (.data id more b)) rfl (find_mem hf)
  | abandon id extra =>
    simp only [act]
    cases hf : find st.rIds id with
    | none => exact ⟨fun e => by simp at e, fun _ => rfl⟩
    | some r => exact ⟨fun _ => ((meek_note rfl).trans (meek_onAbandon _ _ _ (fun _ => (h.tab.flow _ (find_mem hf)).1))).sound h0, fun e => by simp at e⟩
  | closes id =>
    simp only [act]
    cases hf : find st.rIds id with
    | none => exact ⟨fun e => by simp at e, fun _ => rfl⟩
    | some r =>
      refine ⟨fun _ => ?_, fun e => by simp at e⟩
      exact sound_closes ((meek_note (e := .heard r (.closes id)) rfl).sound h0) id r (find_mem hf)
  | ack id d a =>
    simp only [act]
    cases hf : find st.sIds id with
    | none => exact ⟨fun e => by simp at e, fun _ => rfl⟩
    | some s =>
      refine ⟨fun _ => ?_, fun e => by simp at e⟩
      have e0 : max M (wLen (.ack id d a)) = M := Nat.max_eq_left (Nat.zero_le _)
      rw [e0]
      have h1 : Sound P D (K + d) M { st with bytesAcked := st.bytesAcked + d } :=
        ⟨⟨h.owe.books, h.owe.less, h.owe.fresh, h.owe.over, h.owe.wait, h.owe.big, h.owe.win, h.owe.asked, h.owe.sent, fun o => by
          have := h.owe.acked o
          show st.bytesAcked + d = K + d
          rw [this], h.owe.user, h.owe.wnd, h.owe.op⟩, ⟨h.tab.flow, h.tab.one⟩, h.due, h.lt⟩
      exact ((meek_setS { st with bytesAcked := st.bytesAcked + d } s { st.S s with acked := (st.S s).acked + d, through := (st.S s).acked + d + a } (fun m h => h)).trans (meek_queueTx _ _)).sound h1
  | closeAck id =>
    simp only [act]
    cases hf : find st.sIds id with
    | none => exact ⟨fun e => by simp at e, fun _ => rfl⟩
    | some s =>
      dsimp only
      split
      · exact ⟨fun e => by simp at e, fun _ => rfl⟩
      · exact ⟨fun _ => Meek.sound meek_eq h0, fun e => by simp at e⟩
  | refuse id reason text =>
    simp only [act]
    cases hf : find st.sIds id with
    | none => exact ⟨fun e => by simp at e, fun _ => rfl⟩
    | some s => exact ⟨fun _ => (meek_onRefuse app _ _ _ _).sound h0, fun e => by simp at e⟩

/-- The bytes of an arriving message that have to be acknowledged, those it acknowledges, and the
window it asks for. -/
def dataIn (P : Nat → Bool) (b : Bytes) : Nat := match Msg.decode b with | .some (.some m) => dLen P b.length m | _ => 0
def ackIn (b : Bytes) : Nat := match Msg.decode b with | .some (.some m) => kLen m | _ => 0
def winIn (b : Bytes) : Nat := match Msg.decode b with | .some (.some m) => wLen m | _ => 0

theorem sound_fail (app : App) {P : Nat → Bool} {D K M : Nat} {st : St} (h : Sound P D K M st) {D' K' M' : Nat} (hD : D ≤ D') (hM : M ≤ M') : Sound P D' K' M' (fail app st) :=
  ((meek_fail app st).sound h).off (fail_off app st h.owe.user) hD hM

theorem sound_arrive (app : App) {P : Nat → Bool} {D K M : Nat} {st : St} (b : Bytes) (h : Sound P D K M st) : Sound P (D + dataIn P b) (K + ackIn b) (max M (winIn b)) (arrive app st b) := by
  unfold arrive dataIn ackIn winIn
  cases hd : Msg.decode b with
  | none => exact sound_fail app h (Nat.le_add_right _ _) (Nat.le_max_left _ _)
  | some o =>
    cases o with
    | none =>
      show Sound P (D + 0) (K + 0) (max M 0) st
      rw [Nat.max_eq_left (Nat.zero_le _)]; exact h
    | some m =>
      dsimp only
      obtain ⟨a1, a2⟩ := sound_act app b.length m h
      split
      · rename_i e; exact a1 e
      · rename_i e
        rw [a2 (by simpa using e)]
        exact sound_fail app h (Nat.le_add_right _ _) (Nat.le_max_left _ _)

theorem transmitS_still (app : App) (st : St) (s pri exp : Nat) (h : (transmitS app st s pri exp).2 = false) : (transmitS app st s pri exp).1 = st := by
  unfold transmitS at h ⊢
  by_cases hp : pri ≠ (st.S s).pri
  · rw [if_pos hp]
  rw [if_neg hp] at h ⊢
  cases ho : (st.S s).opening with
  | some m => rw [ho] at h; simp at h
  | none =>
    rw [ho] at h
    dsimp only at h ⊢
    have ht := trimLoop_lost app s (if (st.S s).exc then (st.S s).buf.length else exp) st
    rw [← trim] at ht
    by_cases hl : 0 < ((trim app st s exp).S s).lost
    · rw [if_pos hl] at h; simp at h
    rw [if_neg hl] at h ⊢
    have e : trim app st s exp = st := ht.resolve_right hl
    rw [e] at h hl ⊢
    by_cases hs : (!(st.S s).up && (st.S s).buf.isEmpty && !(st.S s).shut) = true
    · rw [if_pos hs] at h; simp at h
    rw [if_neg hs] at h ⊢
    by_cases hw : (st.S s).through ≤ (st.S s).sent
    · rw [if_pos hw]
    · rw [if_neg hw] at h ⊢
      unfold fragment at h ⊢
      dsimp only at h ⊢
      cases hb : (st.S s).buf with
      | nil => rfl
      | cons m rest =>
        rw [hb] at h
        dsimp only at h ⊢
        by_cases hz : min (2 ^ 20) (min st.chunk ((st.S s).through - (st.S s).sent)) = 0
        · rw [if_pos hz]
        · rw [if_neg hz] at h
          split at h <;> simp at h

theorem tryPri_ack (app : App) (exp : Nat → Nat) (probe : Bool) (pri : Nat) : ∀ (n : Nat) (st : St), (tryPri app exp probe n st pri).2 = false →
    (tryPri app exp probe n st pri).1.ackNow = st.ackNow
  | 0, _, _ => rfl
  | n + 1, st, h => by
    unfold tryPri at h ⊢
    cases hw : st.work pri with
    | nil => rfl
    | cons s ws =>
      rw [hw] at h
      dsimp only at h ⊢
      cases hr : (transmitS app st s pri (exp s)).2 with
      | true => rw [hr] at h; simp at h
      | false =>
        rw [hr] at h
        rw [if_neg (by simp)] at h ⊢
        rw [transmitS_still app st s pri (exp s) hr] at h ⊢
        exact tryPri_ack app exp probe pri n _ h

theorem tryAll_ack (app : App) (exp : Nat → Nat) (probe : Bool) : ∀ (n : Nat) (st : St), (tryAll app exp probe n st).2 = false →
    (tryAll app exp probe n st).1.ackNow = st.ackNow
  | 0, _, _ => rfl
  | n + 1, st, h => by
    unfold tryAll at h ⊢
    dsimp only at h ⊢
    cases hr : (tryPri app exp probe (st.work n).length st n).2 with
    | true => rw [hr, if_pos rfl] at h; rw [hr] at h; simp at h
    | false =>
      rw [hr, if_neg (by simp)] at h
      rw [if_neg (by simp)]
      exact (tryAll_ack app exp probe n _ h).trans (tryPri_ack app exp probe n _ st hr)

theorem sound_transmit (app : App) (exp : Nat → Nat) (probe : Bool) {P : Nat → Bool} {D K M : Nat} {st : St} (hw : st.wild = false) (h : Sound P D K M st) : Sound P D K M (transmit app exp probe st) := by
  unfold transmit
  by_cases h1 : (!st.up || !st.sendNow) = true
  · rw [if_pos h1]; exact h
  · rw [if_neg h1]
    have hu : st.up = true := by cases h' : st.up <;> simp_all
    by_cases ha : st.ackNow = true
    · rw [if_pos ha]; exact (sound_sendAcks ⟨hu, hw⟩ h).1
    · rw [if_neg ha]
      dsimp only
      have l1 : Meek st (if inFlight st < st.thresh then tryAll app exp probe 8 st else (st, false)).1 := by
        split
        · exact meek_tryAll app exp probe 8 st h.owe.op
        · exact Meek.refl _
      have l2 : (if inFlight st < st.thresh then tryAll app exp probe 8 st else (st, false)).2 = false →
          (if inFlight st < st.thresh then tryAll app exp probe 8 st else (st, false)).1.ackNow = st.ackNow := by
        split
        · exact tryAll_ack app exp probe 8 st
        · exact fun _ => rfl
      generalize (if inFlight st < st.thresh then tryAll app exp probe 8 st else (st, false)) = r at l1 l2 ⊢
      have h2 := l1.sound h
      split
      · exact h2
      · rename_i hr
        have e := l2 (by simpa using hr)
        refine ⟨⟨h2.owe.books, h2.owe.less, h2.owe.fresh, h2.owe.over, h2.owe.wait, h2.owe.big, h2.owe.win, fun _ e' => ?_, h2.owe.sent, h2.owe.acked, h2.owe.user, h2.owe.wnd, h2.owe.op⟩, ⟨h2.tab.flow, h2.tab.one⟩, h2.due, h2.lt⟩
        have : r.1.ackNow = true := e'
        rw [e] at this
        exact absurd this ha

/-- The same for a step. -/
def opData (P : Nat → Bool) : Op → Nat | .recv b => dataIn P b | _ => 0
def opAck : Op → Nat | .recv b => ackIn b | _ => 0
def opWin : Op → Nat | .recv b => winIn b | _ => 0

theorem sound_step (app : App) {P : Nat → Bool} {D K M : Nat} {st : St} (o : Op) (h : Sound P D K M st) (htk : ∀ r ∈ st.tasks, r < st.nR) : Sound P (D + opData P o) (K + opAck o) (max M (opWin o)) (step app st o) := by
  have h0 : Sound P (D + 0) (K + 0) (max M 0) st := by
    rw [Nat.max_eq_left (Nat.zero_le _)]; exact h
  unfold step
  by_cases hw : st.wild = true
  · rw [if_pos hw]
    exact h.off (fun o => by rw [o.2] at hw; exact absurd hw (by simp)) (Nat.le_add_right _ _) (Nat.le_max_left _ _)
  rw [if_neg hw]
  have hw' : st.wild = false := by simpa using hw
  cases o with
  | call c => exact (meek_call st c).sound h0
  | recv b =>
    dsimp only
    split
    · exact sound_arrive app b h
    · rename_i hu
      exact h.off (fun o => hu (h.owe.user o)) (Nat.le_add_right _ _) (Nat.le_max_left _ _)
  | transmit exp probe => exact sound_transmit app exp probe hw' h0
  | task =>
    dsimp only
    split
    · exact h0
    · rename_i r rest ht
      exact (Meek.trans (b := { st with tasks := rest }) meek_eq (meek_deliver app _ r (fun _ => htk r (by rw [ht]; exact List.mem_cons_self)))).sound h0
  | trim s exp =>
    dsimp only
    split
    · exact (meek_trimLoop app s _ st).sound h0
    · exact h0
  | gone =>
    dsimp only
    split
    · exact sound_fail app h (Nat.le_add_right _ _) (Nat.le_max_left _ _)
    · exact h0
  | limit a b c => exact Meek.sound meek_eq h0

theorem sound_run (app : App) {P : Nat → Bool} : ∀ (os : List Op) {D K M : Nat} {st : St}, Sound P D K M st → Rec Nobody Nobody st →
    Sound P (D + (os.map (opData P)).sum) (K + (os.map opAck).sum) ((os.map opWin).foldl max M) (run app st os)
  | [], _, _, _, _, h, _ => h
  | o :: os, D, K, M, st, h, k => by
    have ih := sound_run app os (sound_step app o h k.due) (rec_step app k o)
    simp only [List.map_cons, List.sum_cons, List.foldl_cons]
    rw [← Nat.add_assoc, ← Nat.add_assoc]
    exact ih

theorem sound_all (app : App) (P : Nat → Bool) (os : List Op) : Sound P ((os.map (opData P)).sum) ((os.map opAck).sum) ((os.map opWin).foldl max 0) (run app init os) := by
  have h : Sound P 0 0 0 init := by
    refine ⟨⟨fun _ => rfl, Nat.le_refl _, fun _ _ => rfl, fun _ _ => rfl, fun _ r hr _ => ?_, Nat.le_refl _, Nat.le_refl _, fun _ e => ?_, fun _ => rfl, fun _ => rfl, fun _ => rfl, fun e he => ?_, fun s m hm => ?_⟩,
      ⟨fun p hp => ?_, fun p hp => ?_⟩, fun _ _ => Nat.le_refl _, by decide⟩
    · have : 0 < 0 := hr
      omega
    · exact absurd e (by decide)
    · exact absurd he (by simp [init])
    · exact absurd hm (by simp [init])
    · exact absurd hp (by simp [init])
    · exact absurd hp (by simp [init])
  have := sound_run app os h rec_init
  simpa using this

end Rtmfp.RTWS
