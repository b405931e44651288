import Verif.Lemmas.RTWRecvAll

/-!
# Receiving flows: arrivals and deliveries
-/

namespace Rtmfp.RTWS

open Rtmfp.Spec.Flows

/-- Nobody is exempt. -/
abbrev Nobody : Nat → Prop := fun _ => False

theorem heardBy_note (st : St) (r t : Nat) (m : Msg) : heardBy t (note st (.heard r m)).log =
    if t = r then heardBy t st.log ++ [m] else heardBy t st.log := by
  simp only [note, heardBy, List.filterMap_append]
  by_cases h : t = r
  · simp [h]
  · simp [h, Ne.symm h]

theorem given_heard (st : St) (r t : Nat) (m : Msg) : given t (note st (.heard r m)).log = given t st.log := by
  simp [note, given]

theorem endings_heard (st : St) (r t : Nat) (m : Msg) : endings t (note st (.heard r m)).log = endings t st.log := by
  simp [note, endings]

theorem rv_heard_other (st : St) (r t : Nat) (m : Msg) (f : RFlow) (h : t ≠ r) : rv (setR (note st (.heard r m)) r f) t = rv st t := by
  rw [rv_setR_other _ _ _ _ h]
  simp only [rv, heardBy_note, given_heard, endings_heard, if_neg h]
  rfl

theorem rv_heard_self (st : St) (r : Nat) (m : Msg) (f : RFlow) : rv (setR (note st (.heard r m)) r f) r =
    { rv st r with f := f, heard := heardBy r st.log ++ [m] } := by
  rw [rv_setR_self]
  simp only [rv, heardBy_note, given_heard, endings_heard, if_true]

theorem addData_whole (f : RFlow) (b : Bytes) (h : hasWhole (addData f true b)) : hasWhole f := by
  obtain ⟨m, hm, hw⟩ := h
  unfold addData at hm
  rcases snoc_cases f.buf with hb | ⟨a, x, hb⟩
  · simp [hb] at hm
    subst hm; simp at hw
  · simp only [hb, List.getLast?_append, List.getLast?_singleton, Option.some_or, List.dropLast_concat] at hm
    split at hm
    · simp only [List.mem_append, List.mem_singleton] at hm
      rcases hm with (hm | hm) | hm
      · exact ⟨m, by simp [hb, hm], hw⟩
      · exact ⟨m, by simp [hb, hm], hw⟩
      · subst hm; simp at hw
    · simp only [List.mem_append, List.mem_singleton] at hm
      rcases hm with hm | hm
      · exact ⟨m, by simp [hb, hm], hw⟩
      · subst hm; simp at hw

theorem cutData_whole (f : RFlow) (n : Nat) (h : hasWhole (cutData f n)) : hasWhole f := by
  obtain ⟨m, hm, hw⟩ := h
  refine ⟨m, ?_, hw⟩
  unfold cutData at hm
  split at hm
  · split at hm
    · exact hm
    · exact List.dropLast_subset _ hm
  · exact hm

theorem rec_onData {st : St} (k : Rec Nobody Nobody st) (r id : Nat) (more : Bool) (b : Bytes) (len : Nat) (hr : (id, r) ∈ st.rIds) :
    Rec Nobody Nobody (onData (note st (.heard r (.data id more b))) r more b len) := by
  obtain ⟨hn, hid, he⟩ := k.table _ hr
  dsimp only at hn hid he
  have e1 : onData (note st (.heard r (.data id more b))) r more b len =
      (let st' := setR (note st (.heard r (.data id more b))) r
          (addData { st.R r with got := (st.R r).got + len, size := (st.R r).size + b.length } more b)
       let st'' := if more then st' else queueDelivery st' r
       queueAck st'' r (decide ((st''.R r).thresh ≤ (st''.R r).got))) := rfl
  rw [e1]
  dsimp only
  refine (samer_queueAck _ _ _).recd ?_
  obtain ⟨s1, s2, s3, s4, s5, s6, s7, s8⟩ := addData_same { st.R r with got := (st.R r).got + len, size := (st.R r).size + b.length } more b
  have k1 : Rec Nobody (fun t => Nobody t ∨ t = r) (setR (note st (.heard r (.data id more b))) r
      (addData { st.R r with got := (st.R r).got + len, size := (st.R r).size + b.length } more b)) := by
    refine k.one r hn rfl rfl rfl (fun p hp => ⟨hp, fun _ => ?_⟩) (fun x hx => hx) (fun x hx => Or.inl hx) (fun t ht => rv_heard_other _ _ _ _ _ ht) ?_ ?_ ?_ ?_
    · rw [setR_R, s1]; exact he
    · rw [rv_heard_self]
      exact (k.good r hn).data he (k.calm r hn (fun h => h)) _ id more b
    · rw [setR_R, s5]
    · rw [setR_R, s7]; exact fun _ h => Or.inl h
    · rw [setR_R, s2, s3]; exact fun h => Or.inl ⟨h, fun h => h⟩
  split
  · rename_i hm
    subst hm
    refine k1.restore (Or.inr ?_)
    intro hu hp hup hy hw
    rw [setR_R] at hp hup hy hw ⊢
    rw [s7]
    refine k.wake r hn (fun h => h) hu (by rw [← s8]; exact hp) (by rw [← s2]; exact hup) (by rw [← s3]; exact hy) ?_
    rcases hw with hw | hw
    · exact Or.inl (addData_whole { st.R r with got := (st.R r).got + len, size := (st.R r).size + b.length } b hw)
    · rw [s1] at hw; exact Or.inr hw
  · exact rec_queueDelivery k1 hn

theorem rec_onAbandon {st : St} (k : Rec Nobody Nobody st) (r id n : Nat) (hr : (id, r) ∈ st.rIds) :
    Rec Nobody Nobody (onAbandon (note st (.heard r (.abandon id n))) r n) := by
  obtain ⟨hn, hid, he⟩ := k.table _ hr
  dsimp only at hn hid he
  rw [onAbandon_eq]
  refine (samer_queueAck _ _ _).recd ?_
  show Rec Nobody Nobody (setR (note st (.heard r (.abandon id n))) r (cutData (st.R r) n))
  obtain ⟨s1, s2, s3, s4, s5, s6, s7⟩ := cutData_same (st.R r) n
  have k1 : Rec Nobody (fun t => Nobody t ∨ t = r) (setR (note st (.heard r (.abandon id n))) r (cutData (st.R r) n)) := by
    refine k.one r hn rfl rfl rfl (fun p hp => ⟨hp, fun _ => ?_⟩) (fun x hx => hx) (fun x hx => Or.inl hx) (fun t ht => rv_heard_other _ _ _ _ _ ht) ?_ ?_ ?_ ?_
    · rw [setR_R, s1]; exact he
    · rw [rv_heard_self]
      exact (k.good r hn).abandon he id n
    · rw [setR_R, s5]
    · rw [setR_R, s6]; exact fun _ h => Or.inl h
    · rw [setR_R, s2, s3]; exact fun h => Or.inl ⟨h, fun h => h⟩
  refine k1.restore (Or.inr ?_)
  intro hu hp hup hy hw
  rw [setR_R] at hp hup hy hw ⊢
  rw [s6]
  refine k.wake r hn (fun h => h) hu (by rw [← s7]; exact hp) (by rw [← s2]; exact hup) (by rw [← s3]; exact hy) ?_
  rcases hw with hw | hw
  · exact Or.inl (cutData_whole _ _ hw)
  · rw [s1] at hw; exact Or.inr hw

theorem setR_setR (st : St) (r : Nat) (f g : RFlow) : setR (setR st r f) r g = setR st r g := by
  unfold setR
  congr 1
  funext i
  by_cases h : i = r <;> simp [h]

theorem queueAck_ids (st : St) (r : Nat) (n : Bool) (l : List (Nat × Nat)) :
    { queueAck st r n with rIds := l } = queueAck { st with rIds := l } r n := by
  simp only [queueAck, scheduleAck, schedule]
  repeat' split
  all_goals first | rfl | simp_all

theorem queueDelivery_ids (st : St) (r : Nat) (l : List (Nat × Nat)) :
    { queueDelivery st r with rIds := l } = queueDelivery { st with rIds := l } r := by
  unfold queueDelivery
  dsimp only
  split
  · cases h : st.up <;> simp [setR, h]
  · rfl

theorem queueAck_R (st : St) (r : Nat) (n : Bool) : (queueAck st r n).R = st.R := (samer_queueAck st r n).R

theorem rec_onClose {st : St} (k : Rec Nobody Nobody st) (r id : Nat) (hr : (id, r) ∈ st.rIds) :
    Rec Nobody Nobody { onClose (note st (.heard r (.closes id))) r with rIds := (onClose (note st (.heard r (.closes id))) r).rIds.filter fun p => p.1 != id } := by
  obtain ⟨hn, hid, he⟩ := k.table _ hr
  dsimp only at hn hid he
  generalize hl : ((onClose (note st (.heard r (.closes id))) r).rIds.filter fun p => p.1 != id) = l
  have hids : (onClose (note st (.heard r (.closes id))) r).rIds = st.rIds := by
    unfold onClose
    rw [onAbandon_eq, (samer_queueAck _ _ _).ids]
    have : ∀ x : St, (queueDelivery x r).rIds = x.rIds := by
      intro x; unfold queueDelivery; dsimp only; split
      · split <;> rfl
      · rfl
    rw [this, (samer_queueAck _ _ _).ids]
    rfl
  rw [hids] at hl
  have e1 : { onClose (note st (.heard r (.closes id))) r with rIds := l } =
      queueAck (queueDelivery (queueAck { setR (note st (.heard r (.closes id))) r (cutData { st.R r with ended := true } 0) with rIds := l } r true) r) r true := by
    unfold onClose
    rw [onAbandon_eq, setR_R, setR_setR, queueAck_ids, queueDelivery_ids, queueAck_ids]
    rfl
  rw [e1]
  refine (samer_queueAck _ _ _).recd ?_
  obtain ⟨s1, s2, s3, s4, s5, s6, s7⟩ := cutData_same { st.R r with ended := true } 0
  have hv : ∀ t, rv { setR (note st (.heard r (.closes id))) r (cutData { st.R r with ended := true } 0) with rIds := l } t =
      rv (setR (note st (.heard r (.closes id))) r (cutData { st.R r with ended := true } 0)) t := fun _ => rfl
  have hR : { setR (note st (.heard r (.closes id))) r (cutData { st.R r with ended := true } 0) with rIds := l }.R r = cutData { st.R r with ended := true } 0 := by
    show (setR _ _ _).R r = _
    rw [setR_R]
  refine rec_queueDelivery ((samer_queueAck _ _ _).recd ?_) (by rw [(samer_queueAck _ _ _).nR]; exact hn)
  refine k.one r hn rfl rfl rfl (fun p hp => ?_) (fun x hx => hx) (fun x hx => Or.inl hx) (fun t ht => by rw [hv]; exact rv_heard_other _ _ _ _ _ ht) ?_ ?_ ?_ ?_
  · have hp' : p ∈ l := hp
    rw [← hl, List.mem_filter] at hp'
    refine ⟨hp'.1, fun h => ?_⟩
    have h4 := (k.table p hp'.1).2.1
    rw [h, hid] at h4
    simp [h4] at hp'
  · rw [hv, rv_heard_self]
    refine (k.good r hn).ends (k.calm r hn (fun h => h)) _ ?_ (fun _ => ?_) (fun _ => he)
    · show (listen (heardBy r st.log ++ [.closes id])).out = _
      rw [listen_more]; rfl
    · rw [listen_more]; rfl
  · rw [hR, s5]
  · rw [hR, s6]; exact fun _ h => Or.inl h
  · rw [hR, s2, s3]; exact fun h => Or.inl ⟨h, fun h => h⟩

theorem rec_newR {st : St} (k : Rec Nobody Nobody st) (id : Nat) (ret : Option Nat) (about : Bytes) :
    Rec (fun t => t = st.nR) Nobody (note (newR st id about) (.heard st.nR (.opens id ret about))) := by
  have hu := k.unborn st.nR (Nat.le_refl _)
  have hR : ∀ t, (note (newR st id about) (.heard st.nR (.opens id ret about))).R t = if t = st.nR then { id := id, about := about } else st.R t := fun _ => rfl
  have hl : ∀ t, heardBy t (note (newR st id about) (.heard st.nR (.opens id ret about))).log =
      if t = st.nR then heardBy t st.log ++ [.opens id ret about] else heardBy t st.log := fun t => by
    rw [heardBy_note]; rfl
  have hg : ∀ t, given t (note (newR st id about) (.heard st.nR (.opens id ret about))).log = given t st.log := fun t => by
    rw [given_heard]; rfl
  have hen : ∀ t, endings t (note (newR st id about) (.heard st.nR (.opens id ret about))).log = endings t st.log := fun t => by
    rw [endings_heard]; rfl
  have hn : (note (newR st id about) (.heard st.nR (.opens id ret about))).nR = st.nR + 1 := rfl
  refine ⟨?_, ?_, ?_, ?_, ?_, ?_, k.users, fun x hx => Nat.lt_succ_of_lt (k.due x hx)⟩
  · intro t ht
    by_cases h : t = st.nR
    · subst h
      show RGood st.userUp ⟨_, _, _, _⟩
      rw [hR, hl, hg, hen, if_pos rfl, if_pos rfl, hu.1, hu.2.1, hu.2.2]
      refine ⟨rfl, by simp, fun _ => ⟨rfl, rfl, rfl⟩, by simp, fun _ => rfl, rfl, by simp, by simp, by simp, fun _ _ => ⟨rfl, rfl⟩⟩
    · have := k.good t (by omega)
      show RGood st.userUp ⟨_, _, _, _⟩
      rw [hR, hl, hg, hen, if_neg h, if_neg h]; exact this
  · intro t ht
    have h : t ≠ st.nR := by omega
    rw [hl, hg, hen, if_neg h]
    exact k.unborn t (by omega)
  · intro p hp
    have hp' : p ∈ st.rIds ++ [(id, st.nR)] := hp
    simp only [List.mem_append, List.mem_singleton] at hp'
    rw [hR, hn]
    rcases hp' with hp' | hp'
    · obtain ⟨h1, h2, h3⟩ := k.table p hp'
      rw [if_neg (by omega)]
      exact ⟨by omega, h2, h3⟩
    · subst hp'
      simp
  · intro t ht hup hp
    rw [hR] at hp
    by_cases h : t = st.nR
    · rw [if_pos h] at hp; simp at hp
    · rw [if_neg h] at hp; exact k.pend t (by omega) hup hp
  · intro t ht hd
    unfold Woken
    rw [hR]
    by_cases h : t = st.nR
    · rw [if_pos h]
      intro _ _ _ hy
      simp at hy
    · rw [if_neg h]; exact k.wake t (by omega) hd
  · intro t ht he hup
    rw [hR, if_neg he] at hup ⊢
    exact k.calm t (by omega) (fun h => h) hup

/-- The flow that was offered is settled. -/
theorem Rec.decided {D : Nat → Prop} {st : St} {r : Nat} (k : Rec (fun t => t = r) D st) (h : (st.R r).up = true → (st.R r).yes = true) : Rec Nobody D st :=
  ⟨k.good, k.unborn, k.table, k.pend, k.wake, fun t ht _ hu => by
    by_cases h' : t = r
    · subst h'; exact h hu
    · exact k.calm t ht h' hu, k.users, k.due⟩

theorem rec_offer (app : App) {st : St} {r : Nat} (k : Rec (fun t => t = r) Nobody st) (hr : r < st.nR) (on : Option Nat) : Rec Nobody Nobody (offer app st r on) := by
  unfold offer
  dsimp only
  refine (samer_queueAck _ _ _).recd ?_
  have k1 := rec_tell app (e := .offered r on) k rfl
  have hn := (lean_tell app st (.offered r on)).nR
  generalize tell app st (.offered r on) = a at k1 hn
  split
  · rename_i h
    simp only [Bool.and_eq_true] at h
    exact k1.decided (fun _ => h.2)
  · exact (rec_closeR k1 r 0 [] (by omega)).decided (fun h => by rw [closeR_up] at h; simp at h)

theorem Rec.trimmed {E D : Nat → Prop} {st : St} (k : Rec E D st) (x : Option Nat) : Rec E D { st with trimming := x } :=
  SameR.recd (a := st) ⟨rfl, rfl, rfl, rfl, rfl, rfl, rfl⟩ k

theorem rec_trimLoop {E D : Nat → Prop} (app : App) (s : Nat) : ∀ (n : Nat) (st : St), Rec E D st → Rec E D (trimLoop app n st s)
  | 0, _, k => k
  | n + 1, st, k => by
    simp only [trimLoop]
    split
    · exact k
    · refine rec_trimLoop app s n _ ?_
      refine (samer_setS _ _ _).recd (Rec.trimmed ?_ _)
      exact rec_tell app (k.trimmed _) rfl

theorem rec_fragment {E D : Nat → Prop} (app : App) {st : St} (k : Rec E D st) (s : Nat) : Rec E D (fragment app st s).1 := by
  unfold fragment
  dsimp only
  split
  · exact k
  · split
    · exact k
    · rename_i m rest _ _
      have k1 : ∀ (n : Nat) (msg : Msg), Rec E D { tx st (.s s) msg with bytesSent := n } := fun n msg =>
        SameR.recd (a := tx st (.s s) msg) ⟨rfl, rfl, rfl, rfl, rfl, rfl, rfl⟩ ((samer_tx st (.s s) msg).recd k)
      split
      · refine (samer_setS _ _ _).recd ?_
        exact rec_tell app ((samer_setS _ _ _).recd (k1 _ _)) rfl
      · exact (samer_setS _ _ _).recd (k1 _ _)

theorem rec_transmitS {E D : Nat → Prop} (app : App) {st : St} (k : Rec E D st) (s pri exp : Nat) : Rec E D (transmitS app st s pri exp).1 := by
  unfold transmitS
  split
  · exact k
  · split
    · exact (samer_setS _ _ _).recd ((samer_tx _ _ _).recd k)
    · dsimp only
      have k1 : Rec E D (trim app st s exp) := rec_trimLoop app s _ st k
      generalize trim app st s exp = a at k1
      split
      · exact (samer_setS _ _ _).recd ((samer_tx _ _ _).recd k1)
      · split
        · exact (samer_setS _ _ _).recd ((samer_tx _ _ _).recd k1)
        · split
          · exact k1
          · exact rec_fragment app k1 s

theorem rec_work {E D : Nat → Prop} {st : St} (k : Rec E D st) (w : Nat → List Nat) : Rec E D { st with work := w } :=
  SameR.recd (a := st) ⟨rfl, rfl, rfl, rfl, rfl, rfl, rfl⟩ k

theorem rec_tryPri {E D : Nat → Prop} (app : App) (exp : Nat → Nat) (probe : Bool) (pri : Nat) : ∀ (n : Nat) (st : St), Rec E D st →
    Rec E D (tryPri app exp probe n st pri).1
  | 0, _, k => k
  | n + 1, st, k => by
    simp only [tryPri]
    split
    · exact k
    · rename_i s _ _
      have k1 := rec_transmitS app k s pri (exp s)
      generalize transmitS app st s pri (exp s) = a at k1
      split
      · refine (samer_startRTT _ _).recd ?_
        split
        · exact rec_work k1 _
        · exact k1
      · exact rec_tryPri app exp probe pri n _ (rec_work k1 _)

theorem rec_tryAll {E D : Nat → Prop} (app : App) (exp : Nat → Nat) (probe : Bool) : ∀ (n : Nat) (st : St), Rec E D st →
    Rec E D (tryAll app exp probe n st).1
  | 0, _, k => k
  | n + 1, st, k => by
    simp only [tryAll]
    have k1 := rec_tryPri app exp probe n (st.work n).length st k
    split
    · exact k1
    · exact rec_tryAll app exp probe n _ k1

theorem lean_sendAck (st : St) (r : Nat) : (sendAck st r).nR = st.nR := by
  unfold sendAck
  dsimp only
  split
  · rfl
  · split
    · show (tx _ _ _).nR = _
      rw [(samer_tx _ _ _).nR]; show (tx _ _ _).nR = _; rw [(samer_tx _ _ _).nR]; rfl
    · show (tx _ _ _).nR = _
      rw [(samer_tx _ _ _).nR]; rfl

theorem rec_setR_out {E D : Nat → Prop} {st : St} (k : Rec E D st) (r : Nat) (hr : st.nR ≤ r) (f : RFlow) : Rec E D (setR st r f) := by
  have hR : ∀ t, t < st.nR → (setR st r f).R t = st.R t := fun t h => by
    have : t ≠ r := by omega
    simp [setR, this]
  refine ⟨?_, k.unborn, ?_, ?_, ?_, ?_, k.users, k.due⟩
  · intro t ht
    have h : t ≠ r := by have : t < st.nR := ht; omega
    rw [rv_setR_other _ _ _ _ h]; exact k.good t ht
  · intro p hp
    have h := k.table p hp
    rw [hR _ h.1]; exact h
  · intro t ht
    rw [hR t ht]; exact k.pend t ht
  · intro t ht hd
    unfold Woken
    rw [hR t ht]; exact k.wake t ht hd
  · intro t ht
    rw [hR t ht]; exact k.calm t ht

theorem rec_sendAck_any {E D : Nat → Prop} {st : St} (k : Rec E D st) (r : Nat) : Rec E D (sendAck st r) := by
  by_cases hr : r < st.nR
  · exact (rec_sendAck k r hr).1
  · have hr : st.nR ≤ r := by omega
    have key : ∀ (x : St), Rec E D x ∧ x.nR = st.nR → ∀ f, Rec E D (setR x r f) ∧ (setR x r f).nR = st.nR :=
      fun x h f => ⟨rec_setR_out h.1 r (by rw [h.2]; exact hr) f, h.2⟩
    have key2 : ∀ (x : St), Rec E D x ∧ x.nR = st.nR → ∀ w m, Rec E D (tx x w m) ∧ (tx x w m).nR = st.nR :=
      fun x h w m => ⟨(samer_tx x w m).recd h.1, by rw [(samer_tx x w m).nR, h.2]⟩
    unfold sendAck
    dsimp only
    split
    · exact k
    · have k1 := key st ⟨k, rfl⟩ { st.R r with thresh := advert (st.R r) / 2 }
      have k2 := key2 _ k1 (.r r) (.ack (st.R r).id (st.R r).got (advert (st.R r)))
      split
      · exact (key _ (key2 _ (key _ k2 _) _ _) _).1
      · exact (key _ k2 _).1

theorem rec_sendAcks {E D : Nat → Prop} {st : St} (k : Rec E D st) : Rec E D (sendAcks st) := by
  unfold sendAcks
  refine SameR.recd (a := st.ackFlows.foldl sendAck { st with ackNow := false }) ⟨rfl, rfl, rfl, rfl, rfl, rfl, rfl⟩ ?_
  have : ∀ (l : List Nat) (x : St), Rec E D x → Rec E D (l.foldl sendAck x) := by
    intro l
    induction l with
    | nil => exact fun _ k => k
    | cons r l ih => exact fun x k => ih _ (rec_sendAck_any k r)
  exact this _ _ (SameR.recd (a := st) ⟨rfl, rfl, rfl, rfl, rfl, rfl, rfl⟩ k)

theorem given_note (st : St) (r t k : Nat) (b : Bytes) : given t (note st (.message r k b)).log =
    if t = r then given t st.log ++ [(k, b)] else given t st.log := by
  simp only [note, given, List.filterMap_append]
  by_cases h : t = r
  · simp [h]
  · simp [h, Ne.symm h]

theorem rec_deliverLoop {E D : Nat → Prop} (app : App) (r : Nat) (hD : D r) : ∀ (n : Nat) (st : St), Rec E D st → r < st.nR →
    Rec E D (deliverLoop app n st r) ∧ (deliverLoop app n st r).nR = st.nR
  | 0, _, k, _ => ⟨k, rfl⟩
  | n + 1, st, k, hr => by
    simp only [deliverLoop]
    split
    · exact ⟨k, rfl⟩
    · rename_i m rest hb
      split
      · exact ⟨k, rfl⟩
      · rename_i hc
        simp only [Bool.or_eq_true, Bool.not_eq_true', not_or, Bool.not_eq_true, Bool.not_eq_false] at hc
        have k1 : Rec E D (note (setR st r { st.R r with buf := rest, size := (st.R r).size - m.bytes.length }) (.message r m.num m.bytes)) := by
          refine (k.one (b := note (setR st r { st.R r with buf := rest, size := (st.R r).size - m.bytes.length }) (.message r m.num m.bytes)) r hr rfl rfl rfl (fun p hp => ⟨hp, fun h => ?_⟩) (fun x hx => hx) (fun x hx => Or.inl hx) (fun t ht => ?_) ?_ ?_ ?_ ?_).restore (Or.inl hD)
          · show ((setR st r _).R r).ended = false
            rw [setR_R, ← h]; exact (k.table p hp).2.2
          · simp [rv, given_note, ht]
            simp [note, setR, heardBy, endings, ht]
          · have := (k.good r hr).pass m rest hb hc.2
            simp only [rv, given_note, if_true]
            simpa [note, setR, heardBy, endings, rv] using this
          · show ((setR st r _).R r).id = _
            rw [setR_R]
          · show _ → ((setR st r { st.R r with buf := rest, size := (st.R r).size - m.bytes.length }).R r).pending = true → _
            rw [setR_R]; exact fun _ h => Or.inl h
          · show ((setR st r { st.R r with buf := rest, size := (st.R r).size - m.bytes.length }).R r).up = true →
              (_ ∧ (_ → ((setR st r { st.R r with buf := rest, size := (st.R r).size - m.bytes.length }).R r).yes = true)) ∨ _
            rw [setR_R]; exact fun h => Or.inl ⟨h, fun h => h⟩
        have hn := (lean_tell app (setR st r { st.R r with buf := rest, size := (st.R r).size - m.bytes.length }) (.message r m.num m.bytes)).nR
        have := rec_deliverLoop app r hD n _ (rec_told app k1) (by rw [hn]; exact hr)
        exact ⟨this.1, by rw [this.2, hn]; rfl⟩

/-- Why the loop stops. -/
theorem deliverLoop_stop {E D : Nat → Prop} (app : App) (r : Nat) (hD : D r) : ∀ (n : Nat) (st : St), Rec E D st → r < st.nR → (st.R r).buf.length ≤ n →
    let f := (deliverLoop app n st r).R r
    f.paused = true ∨ f.up = false ∨ f.yes = false ∨ ∀ m ∈ f.buf, m.whole = false
  | 0, st, _, _, hn => by
    simp only [deliverLoop]
    have : (st.R r).buf = [] := List.length_eq_zero_iff.mp (by omega)
    simp [this]
  | n + 1, st, k, hr, hn => by
    have hstep := rec_deliverLoop app r hD (n + 1) st k hr
    simp only [deliverLoop] at hstep ⊢
    cases hb : (st.R r).buf with
    | nil => simp [hb]
    | cons m rest =>
      simp only
      by_cases hc : ((st.R r).paused || !((st.R r).up && (st.R r).yes) || !m.whole) = true
      · rw [if_pos hc]
        simp only [Bool.or_eq_true, Bool.not_eq_true', Bool.and_eq_false_iff] at hc
        rcases hc with (hc | hc | hc) | hc
        · exact Or.inl hc
        · exact Or.inr (Or.inl hc)
        · exact Or.inr (Or.inr (Or.inl hc))
        · refine Or.inr (Or.inr (Or.inr ?_))
          cases rest with
          | nil => rw [hb]; simp [hc]
          | cons x l =>
            have := (k.good r hr).init m (by simp [rv, hb])
            simp [hc] at this
      · rw [if_neg hc]
        simp only [Bool.or_eq_true, Bool.not_eq_true', not_or, Bool.not_eq_true, Bool.not_eq_false] at hc
        have k1 : Rec E D (note (setR st r { st.R r with buf := rest, size := (st.R r).size - m.bytes.length }) (.message r m.num m.bytes)) := by
          have h := rec_deliverLoop (E := E) (D := D) ⟨fun _ => []⟩ r hD 1 st k hr
          simp only [deliverLoop, hb] at h
          rw [if_neg (by simp [hc])] at h
          exact h.1
        have hl := lean_tell app (setR st r { st.R r with buf := rest, size := (st.R r).size - m.bytes.length }) (.message r m.num m.bytes)
        refine deliverLoop_stop app r hD n _ (rec_told app k1) (by rw [hl.nR]; exact hr) ?_
        have := hl.len r
        rw [setR_R] at this
        rw [hb] at hn
        simp only [List.length_cons] at hn
        exact Nat.le_trans this (by show rest.length ≤ n; omega)

theorem rec_endFlow {E D : Nat → Prop} (app : App) {st : St} {r : Nat} (k : Rec E (fun t => D t ∨ t = r) st) (hr : r < st.nR)
    (he : (st.R r).ended = true ∧ (st.R r).buf = []) : Rec E D (endFlow app st r) := by
  unfold endFlow
  dsimp only
  have k1 : ∃ b, (if (st.R r).told then st else if (st.R r).up && (st.R r).yes then tell app (setR st r { st.R r with told := true }) (.complete r)
      else setR st r { st.R r with told := true }) = b ∧ Rec E (fun t => D t ∨ t = r) b ∧ b.nR = st.nR := by
    split
    · exact ⟨_, rfl, k, rfl⟩
    · rename_i ht
      simp only [Bool.not_eq_true] at ht
      split
      · refine ⟨_, rfl, rec_told app ?_, (lean_tell app _ _).nR⟩
        refine (k.one (b := note (setR st r { st.R r with told := true }) (.complete r)) r hr rfl rfl rfl
            (fun p hp => ⟨hp, fun h => ?_⟩) (fun x hx => hx) (fun x hx => Or.inl hx) (fun t ht => ?_) ?_ ?_ ?_ ?_).restore (Or.inl (Or.inr rfl))
        · show ((setR st r _).R r).ended = false
          rw [setR_R, ← h]; exact (k.table p hp).2.2
        · simp [rv, note, setR, heardBy, given, endings, ht, Ne.symm ht]
        · have h := (k.good r hr).tells ht (fun _ => he)
          simpa [rv, note, setR, heardBy, given, endings] using h
        · show ((setR st r _).R r).id = _
          rw [setR_R]
        · show _ → ((setR st r { st.R r with told := true }).R r).pending = true → _
          rw [setR_R]; exact fun _ h => Or.inl h
        · show ((setR st r { st.R r with told := true }).R r).up = true → (_ ∧ (_ → ((setR st r { st.R r with told := true }).R r).yes = true)) ∨ _
          rw [setR_R]; exact fun h => Or.inl ⟨h, fun h => h⟩
      · refine ⟨_, rfl, ?_, rfl⟩
        exact (k.ctl r hr { st.R r with told := true } rfl rfl rfl rfl (fun _ => rfl) rfl (fun h => h) (fun h => ⟨h, fun h => h⟩)).restore (Or.inl (Or.inr rfl))
  obtain ⟨b, hb, k2, hn⟩ := k1
  rw [hb]
  refine (rec_closeR k2 r 0 [] (by omega)).restore (Or.inr ?_)
  intro _ _ hu
  rw [closeR_up] at hu; simp at hu

theorem rec_deliver (app : App) {st : St} {r : Nat} {rest : List Nat} (k : Rec Nobody Nobody st) (ht : st.tasks = r :: rest) :
    Rec Nobody Nobody (deliver app { st with tasks := rest } r) := by
  have hr : r < st.nR := k.due r (by rw [ht]; simp)
  unfold deliver
  dsimp only
  have k1 : Rec Nobody (fun t => Nobody t ∨ t = r) (setR { st with tasks := rest } r { st.R r with pending := false }) := by
    have hR : ∀ t, t ≠ r → (setR { st with tasks := rest } r { st.R r with pending := false }).R t = st.R t := fun t h => by simp [setR, h]
    refine ⟨?_, k.unborn, ?_, ?_, ?_, ?_, k.users, fun x hx => k.due x (by rw [ht]; exact List.mem_cons_of_mem _ hx)⟩
    · intro t htn
      by_cases h : t = r
      · subst h
        rw [rv_setR_self]
        exact (k.good t hr).ctl _ rfl rfl rfl rfl (fun h => h) (fun a b => ⟨a, b⟩)
      · rw [rv_setR_other _ _ _ _ h]; exact k.good t htn
    · intro p hp
      obtain ⟨h1, h2, h3⟩ := k.table p hp
      by_cases h : p.2 = r
      · rw [h, setR_R]; rw [h] at h1 h2 h3; exact ⟨h1, h2, h3⟩
      · rw [hR _ h]; exact ⟨h1, h2, h3⟩
    · intro t htn hu hp
      by_cases h : t = r
      · subst h; rw [setR_R] at hp; simp at hp
      · rw [hR _ h] at hp
        have := k.pend t htn hu hp
        rw [ht, List.mem_cons] at this
        exact this.resolve_left h
    · intro t htn hd
      have h : t ≠ r := fun h => hd (Or.inr h)
      unfold Woken
      rw [hR _ h]
      exact k.wake t htn (fun h => h)
    · intro t htn he hup
      by_cases h : t = r
      · subst h; rw [setR_R] at hup ⊢; exact k.calm t htn (fun h => h) hup
      · rw [hR _ h] at hup ⊢; exact k.calm t htn (fun h => h) hup
  have k2 := rec_deliverLoop app r (D := fun t => Nobody t ∨ t = r) (Or.inr rfl) ((setR { st with tasks := rest } r { st.R r with pending := false }).R r).buf.length _ k1 hr
  have k3 := deliverLoop_stop app r (D := fun t => Nobody t ∨ t = r) (Or.inr rfl) ((setR { st with tasks := rest } r { st.R r with pending := false }).R r).buf.length _ k1 hr (Nat.le_refl _)
  generalize deliverLoop app ((setR { st with tasks := rest } r { st.R r with pending := false }).R r).buf.length _ r = a at k2 k3
  have hn : r < a.nR := by rw [k2.2]; exact hr
  split
  · rename_i h
    simp only [Bool.and_eq_true, List.isEmpty_iff] at h
    exact rec_endFlow app k2.1 hn h
  · rename_i h
    simp only [Bool.and_eq_true, List.isEmpty_iff] at h
    refine k2.1.restore (Or.inr ?_)
    intro _ hp hup hy hw
    rcases k3 with k3 | k3 | k3 | k3
    · simp [hp] at k3
    · simp [hup] at k3
    · simp [hy] at k3
    · rcases hw with ⟨m, hm, hw⟩ | hw
      · simp [k3 m hm] at hw
      · have hall := (k2.1.good r hn).ended hw
        cases hb : (a.R r).buf with
        | nil => exact absurd ⟨hw, hb⟩ h
        | cons m l =>
          have h1 := hall m (by simp [rv, hb])
          have h2 := k3 m (by simp [hb])
          simp [h1] at h2

theorem rec_transmit {E D : Nat → Prop} (app : App) (exp : Nat → Nat) (probe : Bool) {st : St} (k : Rec E D st) : Rec E D (transmit app exp probe st) := by
  unfold transmit
  split
  · exact k
  · split
    · exact rec_sendAcks k
    · dsimp only
      have k1 : Rec E D (if inFlight st < st.thresh then tryAll app exp probe 8 st else (st, false)).1 := by
        split
        · exact rec_tryAll app exp probe 8 st k
        · exact k
      generalize (if inFlight st < st.thresh then tryAll app exp probe 8 st else (st, false)) = a at k1
      split
      · exact k1
      · exact SameR.recd (a := a.1) ⟨rfl, rfl, rfl, rfl, rfl, rfl, rfl⟩ k1

theorem rec_fail {E D : Nat → Prop} (app : App) {st : St} (k : Rec E D st) : Rec E D (fail app st) := rec_close (rec_tell app k rfl)

theorem rec_onRefuse {E D : Nat → Prop} (app : App) {st : St} (k : Rec E D st) (s reason : Nat) (text : Bytes) : Rec E D (onRefuse app st s reason text) := by
  unfold onRefuse
  dsimp only
  refine (samer_queueTx _ _).recd (rec_trimLoop app s _ _ ?_)
  split
  · exact rec_tell app ((samer_closeS _ _).recd ((samer_setS _ _ _).recd k)) rfl
  · exact (samer_setS _ _ _).recd k

theorem find_in {t : List (Nat × Nat)} {id s : Nat} (h : find t id = .some s) : (id, s) ∈ t := by
  unfold find at h
  cases hf : t.find? (fun p => p.1 == id) with
  | none => simp [hf] at h
  | some p =>
    simp only [hf, Option.map_some, Option.some.injEq] at h
    have h1 := List.mem_of_find?_eq_some hf
    have h2 := List.find?_some hf
    simp only [beq_iff_eq] at h2
    rw [← h2, ← h]; exact h1

theorem rec_act (app : App) {st : St} (k : Rec Nobody Nobody st) (len : Nat) (m : Msg) : Rec Nobody Nobody (act app st len m).1 := by
  cases m with
  | ping b => exact (samer_tx _ _ _).recd k
  | pong b => exact k
  | window n =>
    exact (samer_ackIfNeeded _).recd (SameR.recd (a := st) (b := { st with ackWin := max n 2800 }) ⟨rfl, rfl, rfl, rfl, rfl, rfl, rfl⟩ k)
  | opens id ret about =>
    simp only [act]
    split
    · exact k
    · have k1 := rec_newR k id ret about
      have hn : st.nR < (note (newR st id about) (.heard st.nR (.opens id ret about))).nR := Nat.lt_succ_self _
      generalize note (newR st id about) (.heard st.nR (.opens id ret about)) = a at k1 hn
      have k2 : Rec Nobody Nobody (closeR a st.nR 0 []) :=
        (rec_closeR k1 st.nR 0 [] hn).decided (fun h => by rw [closeR_up] at h; simp at h)
      split
      · exact rec_offer app k1 hn _
      · split
        · exact k2
        · split
          · exact rec_offer app k1 hn _
          · exact k2
  | data id more b =>
    simp only [act]
    split
    · exact k
    · rename_i r hf
      have hs : SameR st (ackIfNeeded { st with acc := st.acc + len }) :=
        SameR.trans (b := { st with acc := st.acc + len }) ⟨rfl, rfl, rfl, rfl, rfl, rfl, rfl⟩ (samer_ackIfNeeded _)
      exact rec_onData (hs.recd k) r id more b len (by rw [hs.ids]; exact find_in hf)
  | abandon id n =>
    simp only [act]
    split
    · exact k
    · rename_i r hf
      exact rec_onAbandon k r id n (find_in hf)
  | closes id =>
    simp only [act]
    split
    · exact k
    · rename_i r hf
      exact rec_onClose k r id (find_in hf)
  | ack id d a =>
    simp only [act]
    split
    · exact k
    · refine (samer_queueTx _ _).recd ((samer_setS _ _ _).recd ?_)
      exact SameR.recd (a := st) ⟨rfl, rfl, rfl, rfl, rfl, rfl, rfl⟩ k
  | closeAck id =>
    simp only [act]
    split
    · exact k
    · split
      · exact k
      · exact SameR.recd (a := st) ⟨rfl, rfl, rfl, rfl, rfl, rfl, rfl⟩ k
  | refuse id reason text =>
    simp only [act]
    split
    · exact k
    · exact rec_onRefuse app k _ reason text

theorem rec_step (app : App) {st : St} (k : Rec Nobody Nobody st) (o : Op) : Rec Nobody Nobody (step app st o) := by
  unfold step
  split
  · exact k
  · cases o with
    | call c => exact rec_call k c
    | recv b =>
      dsimp only
      split
      · unfold arrive
        split
        · exact rec_fail app k
        · exact k
        · dsimp only
          split
          · exact rec_act app k _ _
          · exact rec_fail app (rec_act app k _ _)
      · exact k
    | transmit exp probe => exact rec_transmit app exp probe k
    | task =>
      dsimp only
      split
      · exact k
      · rename_i h
        exact rec_deliver app k h
    | trim s exp =>
      dsimp only
      split
      · exact rec_trimLoop app s _ st k
      · exact k
    | gone =>
      dsimp only
      split
      · exact rec_fail app k
      · exact k
    | limit a b c => exact SameR.recd (a := st) ⟨rfl, rfl, rfl, rfl, rfl, rfl, rfl⟩ k

theorem rec_init : Rec Nobody Nobody init :=
  ⟨fun r h => absurd h (Nat.not_lt_zero r), fun _ _ => ⟨rfl, rfl, rfl⟩, fun _ h => by simp [init] at h, fun r h => absurd h (Nat.not_lt_zero r),
    fun r h => absurd h (Nat.not_lt_zero r), fun r h => absurd h (Nat.not_lt_zero r), fun _ => rfl, fun _ h => by simp [init] at h⟩

theorem rec_run (app : App) : ∀ (os : List Op) (st : St), Rec Nobody Nobody st → Rec Nobody Nobody (run app st os)
  | [], _, k => k
  | o :: os, _, k => rec_run app os _ (rec_step app k o)

theorem rec_all (app : App) (os : List Op) : Rec Nobody Nobody (run app init os) := rec_run app os init rec_init

end Rtmfp.RTWS
