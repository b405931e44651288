import Verif.Lemmas.RTWRecvRun

/-!
# Receiving flows: all histories
-/

namespace Rtmfp.RTWS

open Rtmfp.Spec.Flows

/-- What calls leave: no flow more or less, and no list longer. -/
structure Lean (a b : St) : Prop where
  nR : b.nR = a.nR
  len : ∀ r, (b.R r).buf.length ≤ (a.R r).buf.length

theorem Lean.refl (a : St) : Lean a a := ⟨rfl, fun _ => Nat.le_refl _⟩
theorem Lean.trans {a b c : St} (h : Lean a b) (k : Lean b c) : Lean a c :=
  ⟨k.nR.trans h.nR, fun r => Nat.le_trans (k.len r) (h.len r)⟩
theorem SameR.lean {a b : St} (h : SameR a b) : Lean a b := ⟨h.nR, fun r => by rw [h.R]; exact Nat.le_refl _⟩

theorem lean_setR (st : St) (r : Nat) (f : RFlow) (h : f.buf.length ≤ (st.R r).buf.length) : Lean st (setR st r f) := by
  refine ⟨rfl, fun t => ?_⟩
  by_cases ht : t = r
  · subst ht; simpa [setR] using h
  · simp [setR, ht]

theorem lean_capacity (st : St) (r n : Nat) : Lean st (capacity st r n) := by
  unfold capacity
  dsimp only
  have hs : SameR st (if n = (st.R r).cap then st else queueAck st r true) := by
    split
    · exact SameR.refl _
    · exact samer_queueAck _ _ _
  generalize (if n = (st.R r).cap then st else queueAck st r true) = st' at hs
  exact hs.lean.trans (lean_setR _ _ _ (Nat.le_refl _))

theorem lean_closeR (st : St) (r n : Nat) (t : Bytes) : Lean st (closeR st r n t) := by
  unfold closeR
  split
  · dsimp only
    have k := (lean_setR st r { st.R r with up := false, yes := false } (Nat.le_refl _)).trans (lean_capacity _ r 0)
    split
    · exact k
    · exact k.trans (samer_tx _ _ _).lean
  · exact Lean.refl _

theorem lean_queueDelivery (st : St) (r : Nat) : Lean st (queueDelivery st r) := by
  unfold queueDelivery
  dsimp only
  split
  · have k := lean_setR st r { st.R r with pending := true } (Nat.le_refl _)
    split
    · exact k.trans ⟨rfl, fun _ => Nat.le_refl _⟩
    · exact k
  · exact Lean.refl _

theorem lean_pause (st : St) (r : Nat) (y : Bool) : Lean st (pause st r y) := by
  unfold pause
  dsimp only
  have k := lean_setR st r { st.R r with paused := y } (Nat.le_refl _)
  split
  · exact k
  · split
    · exact k.trans ((lean_queueDelivery _ _).trans (samer_queueAck _ _ _).lean)
    · exact k.trans (lean_queueDelivery _ _)

theorem cutData_len (f : RFlow) (n : Nat) : (cutData f n).buf.length ≤ f.buf.length := by
  unfold cutData
  split
  · split <;> simp
  · simp

theorem onAbandon_eq (st : St) (r n : Nat) : onAbandon st r n = queueAck (setR st r (cutData (st.R r) n)) r true := rfl

theorem lean_onClose (st : St) (r : Nat) : Lean st (onClose st r) := by
  unfold onClose
  rw [onAbandon_eq]
  refine Lean.trans ?_ (samer_queueAck _ _ _).lean
  refine Lean.trans ?_ (lean_queueDelivery _ _)
  refine Lean.trans ?_ (samer_queueAck _ _ _).lean
  refine (lean_setR st r { st.R r with ended := true } (Nat.le_refl _)).trans (lean_setR _ _ _ (cutData_len _ _))

theorem lean_endQuietly (st : St) (r : Nat) : Lean st (endQuietly st r) := by
  unfold endQuietly
  dsimp only
  refine Lean.trans ?_ (lean_closeR _ _ _ _)
  split
  · exact Lean.refl _
  · have k := lean_setR st r { st.R r with told := true } (Nat.le_refl _)
    split
    · exact k.trans ⟨rfl, fun _ => Nat.le_refl _⟩
    · exact k

theorem lean_endR (st : St) (r : Nat) : Lean st (endR st r) := by
  unfold endR
  split
  · exact (lean_onClose _ _).trans (lean_endQuietly _ _)
  · exact Lean.refl _

theorem lean_foldl {α : Type} (g : St → α → St) (hg : ∀ st a, Lean st (g st a)) : ∀ (l : List α) (st : St), Lean st (l.foldl g st)
  | [], st => Lean.refl _
  | a :: l, st => (hg st a).trans (lean_foldl g hg l _)

theorem lean_close (st : St) : Lean st (close st) := by
  unfold close
  split
  · exact Lean.refl _
  · split
    · exact ⟨rfl, fun _ => Nat.le_refl _⟩
    · dsimp only
      have k1 : Lean st (st.sIds.foldl (fun st p => endS st p.2) { st with up := false, userUp := false, sIds := [] }) :=
        Lean.trans (b := { st with up := false, userUp := false, sIds := [] }) ⟨rfl, fun _ => Nat.le_refl _⟩
          (samer_foldl (fun st (p : Nat × Nat) => endS st p.2) (fun st p => samer_endS st p.2) _ _).lean
      generalize st.sIds.foldl (fun st p => endS st p.2) { st with up := false, userUp := false, sIds := [] } = a at k1
      have k2 : Lean a (a.rIds.foldl (fun st p => endR st p.2) { a with rIds := [] }) :=
        Lean.trans (b := { a with rIds := [] }) ⟨rfl, fun _ => Nat.le_refl _⟩ (lean_foldl (fun st (p : Nat × Nat) => endR st p.2) (fun st p => lean_endR st p.2) _ _)
      exact (k1.trans k2).trans ⟨rfl, fun _ => Nat.le_refl _⟩

theorem lean_call (st : St) (c : Call) : Lean st (call st c) := by
  cases c with
  | opens =>
    simp only [call]
    split
    · exact (samer_openFlow _ _ _ _ _).lean
    · exact Lean.refl _
  | back =>
    simp only [call]
    split
    · exact (samer_openFlow _ _ _ _ _).lean
    · exact Lean.refl _
  | write => exact (samer_write _ _ _).lean
  | closeS => exact (samer_closeS _ _).lean
  | priority => exact (samer_setPriority _ _ _).lean
  | accept r =>
    simp only [call, accept]; split
    · exact lean_setR _ _ _ (Nat.le_refl _)
    · exact Lean.refl _
  | closeR =>
    simp only [call]
    split
    · exact lean_closeR _ _ _ _
    · exact Lean.refl _
  | capacity =>
    simp only [call]
    split
    · exact lean_capacity _ _ _
    · exact Lean.refl _
  | pause =>
    simp only [call]
    split
    · exact lean_pause _ _ _
    · exact Lean.refl _
  | close => exact lean_close _

theorem lean_tell (app : App) (st : St) (e : Ev) : Lean st (tell app st e) := by
  unfold tell
  exact Lean.trans (b := note st e) ⟨rfl, fun _ => Nat.le_refl _⟩ (lean_foldl _ (fun st c => lean_call st c) _ _)

/-- The connection is being closed: nothing is promised about deliveries any more. -/
theorem RGood.lax {u : Bool} {v : Rw} (h : RGood u v) : RGood false v :=
  ⟨h.out, h.init, h.going, h.ended, fun h => by simp at h, h.size, h.once, h.told, fun h => by simp at h, h.fresh⟩

theorem rec_endR {E D : Nat → Prop} {st : St} (k : Rec E D st) (r : Nat) (hr : r < st.nR) (hu : st.up = false) (hx : st.userUp = false)
    (hi : st.rIds = []) : Rec E D (endR st r) ∧ (endR st r).up = false ∧ (endR st r).userUp = false ∧ (endR st r).rIds = [] := by
  unfold endR
  split
  · rename_i hc
    simp only [Bool.and_eq_true] at hc
    have h1 : onClose st r = queueAck (queueDelivery (setR st r (cutData { st.R r with ended := true } 0)) r) r true := by
      unfold onClose
      rw [onAbandon_eq]
      have e1 : queueAck (setR (setR st r { st.R r with ended := true }) r (cutData ((setR st r { st.R r with ended := true }).R r) 0)) r true =
          setR st r (cutData { st.R r with ended := true } 0) := by
        rw [setR_R]
        unfold queueAck
        have : (setR (setR st r { st.R r with ended := true }) r (cutData { st.R r with ended := true } 0)).up = false := hu
        rw [if_neg (by rw [this]; simp)]
        unfold setR
        congr 1
        funext i
        by_cases h : i = r <;> simp [h]
      rw [e1]
    obtain ⟨s1, s2, s3, s4, s5, s6, s7⟩ := cutData_same { st.R r with ended := true } 0
    have k1 : Rec E D (setR st r (cutData { st.R r with ended := true } 0)) := by
      refine (k.one (b := setR st r (cutData { st.R r with ended := true } 0)) r hr rfl rfl rfl (fun p hp => ?_) (fun x hx => hx) (fun x hx => Or.inl hx) (fun t ht => rv_setR_other _ _ _ _ ht) ?_ ?_ ?_ ?_).restore (Or.inr ?_)
      · exact absurd hp (by show p ∉ st.rIds; rw [hi]; simp)
      · rw [rv_setR_self, hx]
        exact (k.good r hr).lax.ends (fun _ => hc.2) _ rfl (fun h => by simp at h) (fun h => by simp at h)
      · rw [setR_R, s5]
      · intro h; exact absurd h (by show ¬ st.up = true; simp [hu])
      · rw [setR_R, s2, s3]; exact fun h => Or.inl ⟨h, fun h => h⟩
      · intro h; exact absurd h (by show ¬ st.up = true; simp [hu])
    have k2 : Rec E D (onClose st r) := by
      rw [h1]
      exact (samer_queueAck _ _ _).recd (rec_queueDelivery (k1.more (fun _ h => h) (fun _ h => Or.inl h)) hr)
    have f2 : (onClose st r).up = false ∧ (onClose st r).userUp = false ∧ (onClose st r).rIds = [] ∧ (onClose st r).nR = st.nR := by
      have hq := samer_queueAck (queueDelivery (setR st r (cutData { st.R r with ended := true } 0)) r) r true
      rw [h1, hq.up, hq.user, hq.ids, hq.nR]
      unfold queueDelivery
      dsimp only
      split
      · split <;> exact ⟨hu, hx, hi, rfl⟩
      · exact ⟨hu, hx, hi, rfl⟩
    obtain ⟨f2, f3, f4, f5⟩ := f2
    generalize onClose st r = a at k2 f2 f3 f4 f5
    unfold endQuietly
    dsimp only
    have k3 : ∃ b, (if (a.R r).told then a else if (a.R r).up && (a.R r).yes then note (setR a r { a.R r with told := true }) (.complete r) else
        setR a r { a.R r with told := true }) = b ∧ Rec E D b ∧ b.up = false ∧ b.userUp = false ∧ b.rIds = [] ∧ b.nR = st.nR := by
      split
      · exact ⟨_, rfl, k2, f2, f3, f4, f5⟩
      · rename_i ht
        simp only [Bool.not_eq_true] at ht
        split
        · refine ⟨_, rfl, ?_, f2, f3, f4, f5⟩
          refine (k2.one (b := note (setR a r { a.R r with told := true }) (.complete r)) r (by omega) rfl rfl rfl
            (fun p hp => ?_) (fun x hx => hx) (fun x hx => Or.inl hx) (fun t ht => ?_) ?_ ?_ ?_ ?_).restore (Or.inr ?_)
          · exact absurd hp (by show p ∉ a.rIds; rw [f4]; simp)
          · simp [rv, note, setR, heardBy, given, endings, ht, Ne.symm ht]
          · have h := (k2.good r (by omega)).tells ht (fun h => by rw [f3] at h; simp at h)
            simpa [rv, note, setR, heardBy, given, endings] using h
          · show ((setR a r _).R r).id = _
            rw [setR_R]
          · intro h; exact absurd h (by show ¬ a.up = true; simp [f2])
          · show ((setR a r { a.R r with told := true }).R r).up = true → (_ ∧ (_ → ((setR a r { a.R r with told := true }).R r).yes = true)) ∨ _
            rw [setR_R]; exact fun h => Or.inl ⟨h, fun h => h⟩
          · intro h; exact absurd h (by show ¬ a.up = true; simp [f2])
        · refine ⟨_, rfl, ?_, f2, f3, f4, f5⟩
          refine (k2.ctl r (by omega) { a.R r with told := true } rfl rfl rfl rfl (fun _ => rfl) rfl (fun h => h) (fun h => ⟨h, fun h => h⟩)).restore (Or.inr ?_)
          intro h; exact absurd h (by show ¬ a.up = true; simp [f2])
    obtain ⟨b, hb, k4, b1, b2, b3, b4⟩ := k3
    rw [hb]
    refine ⟨rec_closeR k4 r 0 [] (by omega), ?_⟩
    unfold closeR
    split
    · dsimp only
      have hcap : ∀ (x : St), x.up = false ∧ x.userUp = false ∧ x.rIds = [] → (capacity x r 0).up = false ∧ (capacity x r 0).userUp = false ∧ (capacity x r 0).rIds = [] := by
        intro x h
        unfold capacity
        dsimp only
        split
        · exact h
        · have hq := samer_queueAck x r true
          show (queueAck x r true).up = false ∧ (queueAck x r true).userUp = false ∧ (queueAck x r true).rIds = []
          rw [hq.up, hq.user, hq.ids]; exact h
      have h := hcap (setR b r { b.R r with up := false, yes := false }) ⟨b1, b2, b3⟩
      split
      · exact h
      · rw [(samer_tx _ _ _).up, (samer_tx _ _ _).user, (samer_tx _ _ _).ids]; exact h
    · exact ⟨b1, b2, b3⟩
  · exact ⟨k, hu, hx, hi⟩

theorem rec_endRs {E D : Nat → Prop} : ∀ (l : List (Nat × Nat)) (st : St), Rec E D st → (∀ p ∈ l, p.2 < st.nR) → st.up = false →
    st.userUp = false → st.rIds = [] → Rec E D (l.foldl (fun st p => endR st p.2) st)
  | [], _, k, _, _, _, _ => k
  | p :: l, st, k, hl, hu, hx, hi => by
    obtain ⟨k1, h1, h2, h3⟩ := rec_endR k p.2 (hl p (by simp)) hu hx hi
    exact rec_endRs l _ k1 (fun q hq => by rw [(lean_endR st p.2).nR]; exact hl q (by simp [hq])) h1 h2 h3

theorem rec_close {E D : Nat → Prop} {st : St} (k : Rec E D st) : Rec E D (close st) := by
  unfold close
  split
  · exact k
  · split
    · exact SameR.recd (a := st) ⟨rfl, rfl, rfl, rfl, rfl, rfl, rfl⟩ k
    · dsimp only
      have k0 : Rec E D { st with up := false, userUp := false, sIds := [] } :=
        ⟨fun r hr => (k.good r hr).lax, k.unborn, k.table, fun _ _ h => by simp at h, fun _ _ _ h => by simp at h, k.calm, fun h => by simp at h, k.due⟩
      have hs := samer_foldl (fun st (p : Nat × Nat) => endS st p.2) (fun st p => samer_endS st p.2) st.sIds { st with up := false, userUp := false, sIds := [] }
      have k1 := hs.recd k0
      have hu := hs.up
      have hx := hs.user
      generalize st.sIds.foldl (fun st p => endS st p.2) { st with up := false, userUp := false, sIds := [] } = a at k1 hu hx
      have k2 : Rec E D { a with rIds := [] } :=
        ⟨k1.good, k1.unborn, fun p hp => by simp at hp, k1.pend, k1.wake, k1.calm, k1.users, k1.due⟩
      exact SameR.recd (a := a.rIds.foldl (fun st p => endR st p.2) { a with rIds := [] }) ⟨rfl, rfl, rfl, rfl, rfl, rfl, rfl⟩ (rec_endRs a.rIds { a with rIds := [] } k2 (fun p hp => (k1.table p hp).1) hu hx rfl)

theorem rec_call {E D : Nat → Prop} {st : St} (k : Rec E D st) (c : Call) : Rec E D (call st c) := by
  cases c with
  | opens =>
    simp only [call]
    split
    · exact (samer_openFlow _ _ _ _ _).recd k
    · exact k
  | back =>
    simp only [call]
    split
    · exact (samer_openFlow _ _ _ _ _).recd k
    · exact k
  | write => exact (samer_write _ _ _).recd k
  | closeS => exact (samer_closeS _ _).recd k
  | priority => exact (samer_setPriority _ _ _).recd k
  | accept r => exact rec_accept k r
  | closeR r n t =>
    simp only [call]
    split
    · rename_i h; exact rec_closeR k r n t h
    · exact k
  | capacity r n =>
    simp only [call]
    split
    · rename_i h; exact rec_capacity k r n h
    · exact k
  | pause r y =>
    simp only [call]
    split
    · rename_i h; exact rec_pause k r y h
    · exact k
  | close => exact rec_close k

theorem rec_calls {E D : Nat → Prop} : ∀ (cs : List Call) (st : St), Rec E D st → Rec E D (cs.foldl call st)
  | [], _, k => k
  | c :: cs, _, k => rec_calls cs _ (rec_call k c)

theorem rec_told {E D : Nat → Prop} (app : App) {st : St} {e : Ev} (k : Rec E D (note st e)) : Rec E D (tell app st e) :=
  rec_calls _ _ k

theorem rec_tell {E D : Nat → Prop} (app : App) {st : St} {e : Ev} (k : Rec E D st) (h : isR e = false) : Rec E D (tell app st e) :=
  rec_told app ((samer_note h).recd k)

end Rtmfp.RTWS
