import Verif.Lemmas.RTWBusy

/-!
# Sending flows: whose turn it is, and what is said in it
-/

namespace Rtmfp.RTWS

open Spec.Flows

/-- No sending flow says anything. -/
def Hush (a b : St) : Prop := ∀ t, sentBy t b.log = sentBy t a.log

theorem Hush.refl (a : St) : Hush a a := fun _ => rfl
theorem Hush.trans {a b c : St} (h : Hush a b) (k : Hush b c) : Hush a c := fun t => (k t).trans (h t)
theorem SameS.hush {a b : St} (h : SameS a b) : Hush a b := fun t => by
  rw [← sentBy_isS t b.log, h.log, sentBy_isS]
theorem hush_eq {a b : St} (h : b.log = a.log) : Hush a b := fun t => by rw [h]
theorem hush_note {st : St} {e : Ev} (h : ∀ s m, e ≠ .tx (.s s) m) : Hush st (note st e) := fun t => by
  unfold note sentBy
  rw [List.filterMap_append]
  cases e with
  | tx w m =>
    cases w with
    | s i => exact absurd rfl (h i m)
    | _ => simp
  | _ => simp
theorem hush_setS (st : St) (s : Nat) (f : SFlow) : Hush st (setS st s f) := fun _ => rfl

theorem hush_openFlow (st : St) (id : Nat) (ret : Option Nat) (about : Bytes) (pri : Nat) : Hush st (openFlow st id ret about pri) := by
  unfold openFlow
  split
  · exact Hush.trans (hush_eq rfl) (same_queueTx _ _).hush
  · exact Hush.refl _

theorem hush_write (st : St) (s : Nat) (b : Bytes) : Hush st (write st s b) := by
  unfold write
  dsimp only
  split
  · refine Hush.trans ?_ (same_queueTx _ _).hush
    refine Hush.trans ?_ (hush_note (by simp))
    exact hush_eq rfl
  · exact Hush.refl _

theorem hush_closeS (st : St) (s : Nat) : Hush st (closeS st s) := by
  unfold closeS
  split
  · exact (hush_setS _ _ _).trans (same_queueTx _ _).hush
  · exact Hush.refl _

theorem hush_setPriority (st : St) (s p : Nat) : Hush st (setPriority st s p) := by
  unfold setPriority
  split
  · exact (hush_setS _ _ _).trans (same_queueTx _ _).hush
  · exact Hush.refl _

theorem hush_dropAll (s : Nat) : ∀ (n : Nat) (st : St), Hush st (dropAll n st s)
  | 0, _ => Hush.refl _
  | n + 1, st => by
    unfold dropAll
    dsimp only
    split
    · exact Hush.refl _
    · split
      · exact Hush.refl _
      · exact ((hush_note (by simp)).trans (hush_setS _ _ _)).trans (hush_dropAll s n _)

theorem hush_endS (st : St) (s : Nat) : Hush st (endS st s) := by
  unfold endS
  dsimp only
  split
  · exact ((hush_setS _ _ _).trans (hush_note (by simp))).trans (hush_dropAll _ _ _)
  · exact Hush.refl _

theorem hush_foldl {α : Type} (g : St → α → St) (hg : ∀ st a, Hush st (g st a)) : ∀ (l : List α) (st : St), Hush st (l.foldl g st)
  | [], _ => Hush.refl _
  | a :: l, st => (hg st a).trans (hush_foldl g hg l _)

theorem hush_close (st : St) : Hush st (close st) := by
  unfold close
  split
  · exact Hush.refl _
  · split
    · exact hush_eq rfl
    · dsimp only
      have k1 := hush_foldl (fun (st : St) (p : Nat × Nat) => endS st p.2) (fun st p => hush_endS st p.2) st.sIds { st with up := false, userUp := false, sIds := [] }
      generalize st.sIds.foldl (fun st p => endS st p.2) { st with up := false, userUp := false, sIds := [] } = u at k1 ⊢
      have k2 := hush_foldl (fun (st : St) (p : Nat × Nat) => endR st p.2) (fun st p => (same_endR st p.2).hush) u.rIds { u with rIds := [] }
      generalize u.rIds.foldl (fun st p => endR st p.2) { u with rIds := [] } = v at k2 ⊢
      exact fun t => (k2 t).trans (k1 t)

theorem hush_call (st : St) (c : Call) : Hush st (call st c) := by
  cases c <;> simp only [call]
  · split
    · exact hush_openFlow _ _ _ _ _
    · exact Hush.refl _
  · split
    · exact hush_openFlow _ _ _ _ _
    · exact Hush.refl _
  · exact hush_write _ _ _
  · exact hush_closeS _ _
  · exact hush_setPriority _ _ _
  · exact (same_accept _ _).hush
  · split
    · exact (same_closeR _ _ _ _).hush
    · exact Hush.refl _
  · split
    · exact (same_capacity _ _ _).hush
    · exact Hush.refl _
  · split
    · exact (same_pause _ _ _).hush
    · exact Hush.refl _
  · exact hush_close _

theorem hush_tell (app : App) (st : St) (e : Ev) (h : ∀ s m, e ≠ .tx (.s s) m) : Hush st (tell app st e) := by
  unfold tell
  exact (hush_note h).trans (hush_foldl call hush_call _ _)

theorem hush_trimLoop (app : App) (s : Nat) : ∀ (n : Nat) (st : St), Hush st (trimLoop app n st s)
  | 0, _ => Hush.refl _
  | n + 1, st => by
    unfold trimLoop
    split
    · exact Hush.refl _
    · rename_i m rest hb
      dsimp only
      have h := hush_tell app { st with trimming := .some s } (.dropped s m.num) (by simp)
      generalize tell app { st with trimming := .some s } (.dropped s m.num) = u at h ⊢
      exact Hush.trans (b := u) (fun t => h t) (Hush.trans (fun t => rfl) (hush_trimLoop app s n _))

theorem hush_trim (app : App) (st : St) (s e : Nat) : Hush st (trim app st s e) := hush_trimLoop app s _ st

/-- Sending flow `s` says `m`, and no other says anything. -/
def Says (a b : St) (s : Nat) (m : Msg) : Prop :=
  sentBy s b.log = sentBy s a.log ++ [m] ∧ ∀ t, t ≠ s → sentBy t b.log = sentBy t a.log

theorem Hush.says {a b c : St} {s : Nat} {m : Msg} (h : Hush a b) (k : Says b c s m) : Says a c s m :=
  ⟨by rw [k.1, h s], fun t ht => (k.2 t ht).trans (h t)⟩
theorem Says.hush {a b c : St} {s : Nat} {m : Msg} (h : Says a b s m) (k : Hush b c) : Says a c s m :=
  ⟨by rw [k s, h.1], fun t ht => (k t).trans (h.2 t ht)⟩

theorem says_tx {st : St} (hu : st.up = true) (s : Nat) (m : Msg) : Says st (tx st (.s s) m) s m := by
  unfold tx
  rw [if_pos hu]
  unfold note
  constructor
  · simp [sentBy]
  · intro t ht
    have : ¬ s = t := fun e => ht e.symm
    simp [sentBy, this]

theorem hush_tx_down {st : St} (hu : st.up = false) (w : Who) (m : Msg) : Hush st (tx st w m) := by
  unfold tx
  rw [if_neg (by simp [hu])]
  exact Hush.refl _

/-- What a message may be, of a flow: data within its window and the size of a piece. -/
def Fits (st : St) (s : Nat) (m : Msg) : Prop :=
  ∀ id more b, m = .data id more b → b.length ≤ st.chunk ∧ b.length + (st.S s).sent ≤ (st.S s).through

theorem says_fragment (app : App) {st : St} (hu : st.up = true) (s : Nat) (h : (fragment app st s).2 = true) :
    ∃ m, Says st (fragment app st s).1 s m ∧ Fits st s m := by
  unfold fragment at h ⊢
  dsimp only at h ⊢
  cases hb : (st.S s).buf with
  | nil => rw [hb] at h; simp at h
  | cons m rest =>
    rw [hb] at h
    dsimp only at h ⊢
    by_cases hz : min (2 ^ 20) (min st.chunk ((st.S s).through - (st.S s).sent)) = 0
    · rw [if_pos hz] at h; simp at h
    rw [if_neg hz]
    clear h
    generalize hm : Msg.data (st.S s).id (!decide (m.bytes.length ≤ m.off + min (2 ^ 20) (min st.chunk ((st.S s).through - (st.S s).sent))))
        (List.take (min (2 ^ 20) (min st.chunk ((st.S s).through - (st.S s).sent))) (List.drop m.off m.bytes)) = msg
    refine ⟨msg, ?_, ?_⟩
    · have s1 : Says st { tx st (.s s) msg with bytesSent := (tx st (.s s) msg).bytesSent + msg.encode.length } s msg := says_tx hu s msg
      generalize ({ tx st (.s s) msg with bytesSent := (tx st (.s s) msg).bytesSent + msg.encode.length } : St) = u at s1 ⊢
      split
      · refine s1.hush ?_
        exact ((hush_setS _ _ _).trans (hush_tell app _ _ (by simp))).trans (hush_setS _ _ _)
      · exact s1.hush (hush_setS _ _ _)
    · intro id more b e
      rw [← hm] at e
      simp only [Msg.data.injEq] at e
      rw [← e.2.2, List.length_take]
      constructor <;> omega

theorem okay_opens {st : St} (k : Okay st) {s : Nat} (hs : s < st.nS) (m : Msg) (hm : (st.S s).opening = .some m) (id : Nat) (more : Bool) (b : Bytes) :
    m ≠ .data id more b := by
  intro e
  have hfr := (k.fine.inv.good hs).framed
  unfold Framed at hfr
  change (match (st.S s).opening with | .some m => _ | .none => _) at hfr
  rw [hm] at hfr
  obtain ⟨_, ret, about, h⟩ := hfr
  rw [e] at h; simp at h

/-- When a flow sends something, it says one thing, and nobody else does. -/
theorem says_transmitS (app : App) {st : St} (hu : st.up = true) (s pri exp : Nat)
    (k : Okay st) (hs : s < st.nS) (h : (transmitS app st s pri exp).2 = true) :
    (st.S s).pri = pri ∧ ∃ m, Says st (transmitS app st s pri exp).1 s m ∧ Fits st s m := by
  unfold transmitS at h ⊢
  by_cases hp : pri ≠ (st.S s).pri
  · rw [if_pos hp] at h; simp at h
  rw [if_neg hp] at h ⊢
  refine ⟨(Decidable.not_not.mp hp).symm, ?_⟩
  cases ho : (st.S s).opening with
  | some m =>
    dsimp only
    exact ⟨m, (says_tx hu s m).hush (hush_setS _ _ _), fun id more b e => absurd e (okay_opens k hs m ho id more b)⟩
  | none =>
    rw [ho] at h
    dsimp only at h ⊢
    have ht := trimLoop_lost app s (if (st.S s).exc then (st.S s).buf.length else exp) st
    rw [← trim] at ht
    have hh := hush_trim app st s exp
    have hup : (trim app st s exp).up = true := (trim_loop app s _ st k.fine k.calm hs).2.2.1.trans hu
    have one : ∀ (u : St) (m : Msg) (f : SFlow), Hush st u → u.up = true → (∀ id more b, m ≠ .data id more b) →
        ∃ m', Says st (setS (tx u (.s s) m) s f) s m' ∧ Fits st s m' := by
      intro u m f hu' hup hm
      exact ⟨m, (hu'.says (says_tx hup s m)).hush (hush_setS _ _ _), fun id more b e => absurd e (hm id more b)⟩
    by_cases hl : 0 < ((trim app st s exp).S s).lost
    · rw [if_pos hl]
      exact one _ _ _ hh hup (by simp)
    rw [if_neg hl] at h ⊢
    have e : trim app st s exp = st := ht.resolve_right hl
    rw [e] at h hl ⊢
    by_cases hsh : (!(st.S s).up && (st.S s).buf.isEmpty && !(st.S s).shut) = true
    · rw [if_pos hsh]
      exact one _ _ _ (Hush.refl _) hu (by simp)
    rw [if_neg hsh] at h ⊢
    by_cases hw : (st.S s).through ≤ (st.S s).sent
    · rw [if_pos hw] at h; simp at h
    · rw [if_neg hw] at h ⊢
      exact says_fragment app hu s h

/-- A turn: a flow of this priority says one thing, and nobody else does. -/
def Turn (a b : St) (pri : Nat) : Prop :=
  ∃ s, s < a.nS ∧ (a.S s).pri = pri ∧ ∃ m, Says a b s m ∧ Fits a s m

theorem turn_tryPri (app : App) (exp : Nat → Nat) (probe : Bool) (pri : Nat) : ∀ (n : Nat) {st : St}, st.up = true → 0 < st.chunk →
    (∀ p s, s ∈ st.work p → s < st.nS) → Okay st → (tryPri app exp probe n st pri).2 = true → Turn st (tryPri app exp probe n st pri).1 pri
  | 0, _, _, _, _, _, h => by simp [tryPri] at h
  | n + 1, st, hu, hc, hi, ho, h => by
    unfold tryPri at h ⊢
    cases hw : st.work pri with
    | nil => rw [hw] at h; simp at h
    | cons s ws =>
      rw [hw] at h
      dsimp only at h ⊢
      have hs : s < st.nS := hi pri s (by rw [hw]; exact List.mem_cons_self)
      cases hr : (transmitS app st s pri (exp s)).2 with
      | true =>
        rw [if_pos rfl]
        obtain ⟨e, ht⟩ := says_transmitS app hu s pri (exp s) ho hs hr
        refine ⟨s, hs, e, ?_⟩
        have hq : ∀ u : St, Hush u (startRTT (if s ∈ u.work pri then { u with work := fun p => if p = pri then (u.work p).erase s ++ [s] else u.work p } else u) probe) := by
          intro u
          refine Hush.trans ?_ (same_startRTT _ _).hush
          split
          · exact hush_eq rfl
          · exact Hush.refl _
        obtain ⟨m, hm, hf⟩ := ht
        exact ⟨m, hm.hush (hq _), hf⟩
      | false =>
        rw [if_neg (by simp [hr])] at h
        rw [if_neg (by simp)]
        obtain ⟨e, _⟩ := transmitS_no app st s pri (exp s) hc hr
        rw [e] at h ⊢
        have hi' : ∀ p t, t ∈ ({ st with work := fun p => if p = pri then (st.work p).erase s else st.work p } : St).work p → t < st.nS := by
          intro p t ht
          dsimp only at ht
          split at ht
          · exact hi p t (List.mem_of_mem_erase ht)
          · exact hi p t ht
        exact turn_tryPri app exp probe pri n (st := { st with work := fun p => if p = pri then (st.work p).erase s else st.work p }) hu hc hi' (okay_work ho _) h

theorem Drained.turn {a b c : St} {pri : Nat} (d : Drained a b) (h : Turn b c pri) : Turn a c pri := by
  have e : ∀ (w : Nat → List Nat), Turn { a with work := w } c pri → Turn a c pri := fun _ h => h
  refine e b.work ?_
  rw [← d.same]; exact h

theorem turn_tryAll (app : App) (exp : Nat → Nat) (probe : Bool) : ∀ (n : Nat) {st : St}, st.up = true → st.sendNow = true → Live nobody st → Okay st →
    (tryAll app exp probe n st).2 = true →
    ∃ p, p < n ∧ Turn st (tryAll app exp probe n st).1 p ∧ ∀ t, t < st.nS → p < (st.S t).pri → (st.S t).pri < n → ¬ Busy st t
  | 0, _, _, _, _, _, h => by simp [tryAll] at h
  | n + 1, st, hu, hn, k, ho, h => by
    unfold tryAll at h ⊢
    dsimp only at h ⊢
    have l1 := live_tryPri app exp probe n (st.work n).length (Nat.le_refl _) hu hn k
    cases hr : (tryPri app exp probe (st.work n).length st n).2 with
    | true =>
      rw [if_pos rfl]
      exact ⟨n, Nat.lt_succ_self _, turn_tryPri app exp probe n _ hu k.chunk k.inw ho hr, fun t _ h1 h2 => by omega⟩
    | false =>
      rw [if_neg (by simp [hr])] at h
      rw [if_neg (by simp)]
      obtain ⟨d, hz⟩ := l1.2 hr
      generalize (tryPri app exp probe (st.work n).length st n).1 = u at l1 d hz h ⊢
      have hS : u.S = st.S := by rw [d.same]
      have hnS : u.nS = st.nS := by rw [d.same]
      have huu : u.up = true := by rw [d.same]; exact hu
      have hun : u.sendNow = true := by rw [d.same]; exact hn
      have huo : Okay u := by rw [d.same]; exact okay_work ho _
      obtain ⟨p, hp, ht, hq⟩ := turn_tryAll app exp probe n huu hun l1.1 huo h
      refine ⟨p, by omega, d.turn ht, fun t h1 h2 h3 hb => ?_⟩
      have hb' : Busy u t := by unfold Busy; rw [hS]; exact hb
      by_cases e : (st.S t).pri = n
      · have := l1.1.work huu t (by omega) (fun h => h) hb'
        unfold Enq at this
        rw [hS, e, hz] at this
        simp at this
      · refine hq t (by omega) (by rw [hS]; exact h2) (by rw [hS]; omega) hb'

/-- One call of `transmit` when it is a flow's turn. -/
theorem turn_transmit (app : App) (exp : Nat → Nat) (probe : Bool) {st : St} (hu : st.up = true) (hn : st.sendNow = true) (ha : st.ackNow = false)
    (hf : inFlight st < st.thresh) (k : Live nobody st) (ho : Okay st) :
    (Hush st (transmit app exp probe st) ∧ (transmit app exp probe st).sendNow = false ∧ ∀ t, t < st.nS → ¬ Busy st t) ∨
    ∃ p, Turn st (transmit app exp probe st) p ∧ ∀ t, t < st.nS → p < (st.S t).pri → ¬ Busy st t := by
  unfold transmit
  rw [if_neg (by simp [hu, hn]), if_neg (by simp [ha])]
  dsimp only
  rw [if_pos hf]
  cases hr : (tryAll app exp probe 8 st).2 with
  | true =>
    rw [if_pos rfl]
    obtain ⟨p, hp, ht, hq⟩ := turn_tryAll app exp probe 8 hu hn k ho hr
    exact Or.inr ⟨p, ht, fun t h1 h2 => hq t h1 h2 (k.pri t h1)⟩
  | false =>
    rw [if_neg (by simp)]
    have l1 := live_tryAll app exp probe 8 hu hn k
    obtain ⟨d, hz⟩ := l1.2 hr
    generalize (tryAll app exp probe 8 st).1 = u at l1 d hz ⊢
    have hS : u.S = st.S := by rw [d.same]
    have hnS : u.nS = st.nS := by rw [d.same]
    have huu : u.up = true := by rw [d.same]; exact hu
    refine Or.inl ⟨?_, rfl, fun t ht hb => ?_⟩
    · exact hush_eq (show u.log = st.log by rw [d.same])
    · have hb' : Busy u t := by unfold Busy; rw [hS]; exact hb
      have := l1.1.work huu t (by omega) (fun h => h) hb'
      unfold Enq at this
      rw [hz _ (l1.1.pri t (by omega))] at this
      simp at this

end Rtmfp.RTWS
