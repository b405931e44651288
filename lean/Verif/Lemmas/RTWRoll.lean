import Verif.Lemmas.RTWBusy

/-!
# Sending flows: an open flow is in the table, and closing the connection settles it
-/

namespace Rtmfp.RTWS

/-- While the connection isn't closed by its user, every open flow is in the table, under its number. -/
def Roll (st : St) : Prop :=
  st.userUp = true → (st.sIds.map (·.1)).Nodup ∧ ∀ s, s < st.nS → (st.S s).up = true → ((st.S s).id, s) ∈ st.sIds

theorem Idle.roll {a b : St} (h : Idle a b) (k : Roll a) : Roll b := by
  unfold Roll
  rw [h.user, h.sIds, h.nS, h.S]; exact k

theorem roll_setS {st : St} (k : Roll st) (s : Nat) (f : SFlow) (hu : f.up = true → (st.S s).up = true) (hi : f.id = (st.S s).id) : Roll (setS st s f) := by
  intro h
  obtain ⟨k1, k2⟩ := k h
  refine ⟨k1, fun t ht hup => ?_⟩
  by_cases e : t = s
  · subst e
    simp only [setS, if_true] at hup ⊢
    rw [hi]
    exact k2 t ht (hu hup)
  · simp only [setS, if_neg e] at hup ⊢
    exact k2 t ht hup

theorem roll_queueTx {st : St} (k : Roll st) (s : Nat) : Roll (queueTx st s) := by
  obtain ⟨e1, e2, e3⟩ := queueTx_SnS st s
  obtain ⟨_, c2, _⟩ := queueTx_more st s
  have e4 : (queueTx st s).userUp = st.userUp := by
    unfold queueTx
    rw [(idle_schedule _).user]
    split <;> rfl
  unfold Roll
  rw [e1, e2, c2, e4]; exact k

theorem roll_openFlow {st : St} (k : Roll st) (id : Nat) (ret : Option Nat) (about : Bytes) (pri : Nat) : Roll (openFlow st id ret about pri) := by
  unfold openFlow
  split
  · rename_i hc
    dsimp only
    refine roll_queueTx ?_ _
    intro h
    obtain ⟨k1, k2⟩ := k h
    constructor
    · show ((st.sIds ++ [(id, st.nS)]).map (·.1)).Nodup
      rw [List.map_append, List.nodup_append]
      refine ⟨k1, by simp, fun a ha b hb e => ?_⟩
      simp only [List.map_cons, List.map_nil, List.mem_singleton] at hb
      subst hb
      subst e
      obtain ⟨p, hp, e'⟩ := List.mem_map.mp ha
      have : (st.sIds.any fun p => p.1 == a) = true := List.any_eq_true.mpr ⟨p, hp, by simp [e']⟩
      rw [this] at hc; simp at hc
    · intro t ht hup
      by_cases e : t = st.nS
      · subst e
        show (((setS st st.nS _).S st.nS).id, st.nS) ∈ st.sIds ++ [(id, st.nS)]
        simp [setS]
      · have ht' : t < st.nS := by have : t < st.nS + 1 := ht; omega
        have hs : ∀ f, (setS st st.nS f).S t = st.S t := fun f => by simp [setS, e]
        change ((setS st st.nS _).S t).up = true at hup
        show (((setS st st.nS _).S t).id, t) ∈ st.sIds ++ [(id, st.nS)]
        rw [hs] at hup ⊢
        exact List.mem_append_left _ (k2 t ht' hup)
  · exact k

theorem roll_wild {st : St} (k : Roll st) (w : Bool) : Roll { st with wild := w } := k

theorem roll_write {st : St} (k : Roll st) (s : Nat) (b : Bytes) : Roll (write st s b) := by
  unfold write
  dsimp only
  split
  · refine roll_queueTx ((idle_note _ _).roll ?_) _
    exact roll_setS (roll_wild k _) _ _ (fun h => h) rfl
  · exact k

theorem roll_closeS {st : St} (k : Roll st) (s : Nat) : Roll (closeS st s) := by
  unfold closeS
  split
  · have h : Roll (setS st s { st.S s with up := false }) := roll_setS k s { st.S s with up := false } (fun h => by simp at h) rfl
    exact roll_queueTx h s
  · exact k

theorem roll_setPriority {st : St} (k : Roll st) (s p : Nat) : Roll (setPriority st s p) := by
  unfold setPriority
  split
  · have h : Roll (setS st s { st.S s with pri := p }) := roll_setS k s { st.S s with pri := p } (fun h => h) rfl
    exact roll_queueTx h s
  · exact k

theorem user_dropAll (s : Nat) : ∀ (n : Nat) (st : St), (dropAll n st s).userUp = st.userUp
  | 0, _ => rfl
  | n + 1, st => by
    unfold dropAll
    dsimp only
    split
    · rfl
    · split
      · rfl
      · rw [user_dropAll s n]; rfl

theorem user_endS (st : St) (s : Nat) : (endS st s).userUp = st.userUp := by
  unfold endS
  dsimp only
  split
  · rw [user_dropAll]; rfl
  · rfl

theorem user_foldl {α : Type} (g : St → α → St) (hg : ∀ st a, (g st a).userUp = st.userUp) : ∀ (l : List α) (st : St), (l.foldl g st).userUp = st.userUp
  | [], _ => rfl
  | a :: l, st => by rw [List.foldl_cons, user_foldl g hg l, hg]

theorem roll_close {st : St} (k : Roll st) : Roll (close st) := by
  unfold close
  split
  · exact k
  · split
    · exact roll_wild k _
    · dsimp only
      have k1 := user_foldl (fun (st : St) (p : Nat × Nat) => endS st p.2) (fun st p => user_endS st p.2) st.sIds { st with up := false, userUp := false, sIds := [] }
      generalize st.sIds.foldl (fun st p => endS st p.2) { st with up := false, userUp := false, sIds := [] } = u at k1 ⊢
      have k2 := user_foldl (fun (st : St) (p : Nat × Nat) => endR st p.2) (fun st p => (idle_endR st p.2).user) u.rIds { u with rIds := [] }
      generalize u.rIds.foldl (fun st p => endR st p.2) { u with rIds := [] } = v at k2 ⊢
      intro h
      have h' : v.userUp = true := h
      rw [k2] at h'
      have h2 : u.userUp = true := h'
      rw [k1] at h2
      simp at h2

theorem roll_call {st : St} (k : Roll st) (c : Call) : Roll (call st c) := by
  cases c <;> simp only [call]
  · split
    · exact roll_openFlow k _ _ _ _
    · exact k
  · split
    · exact roll_openFlow k _ _ _ _
    · exact k
  · exact roll_write k _ _
  · exact roll_closeS k _
  · exact roll_setPriority k _ _
  · exact (idle_accept _ _).roll k
  · split
    · exact (idle_closeR _ _ _ _).roll k
    · exact k
  · split
    · exact (idle_capacity _ _ _).roll k
    · exact k
  · split
    · exact (idle_pause _ _ _).roll k
    · exact k
  · exact roll_close k

theorem roll_calls : ∀ (cs : List Call) {st : St}, Roll st → Roll (cs.foldl call st)
  | [], _, k => k
  | c :: cs, _, k => roll_calls cs (roll_call k c)

theorem roll_tell (app : App) {st : St} (k : Roll st) (e : Ev) : Roll (tell app st e) := by
  unfold tell
  exact roll_calls _ ((idle_note st e).roll k)

theorem roll_trimLoop (app : App) (s : Nat) : ∀ (n : Nat) {st : St}, Roll st → Roll (trimLoop app n st s)
  | 0, _, k => k
  | n + 1, st, k => by
    unfold trimLoop
    split
    · exact k
    · rename_i m rest hb
      dsimp only
      have h : Roll (tell app { st with trimming := .some s } (.dropped s m.num)) := roll_tell app (show Roll { st with trimming := .some s } from k) _
      generalize tell app { st with trimming := .some s } (.dropped s m.num) = u at h ⊢
      exact roll_trimLoop app s n (roll_setS (show Roll { u with trimming := .none } from h) _ _ (fun h => h) rfl)

theorem roll_fragment (app : App) {st : St} (k : Roll st) (s : Nat) : Roll (fragment app st s).1 := by
  unfold fragment
  dsimp only
  split
  · exact k
  · rename_i m rest hb
    split
    · exact k
    · generalize Msg.data (st.S s).id (!decide (m.bytes.length ≤ m.off + min (2 ^ 20) (min st.chunk ((st.S s).through - (st.S s).sent))))
        (List.take (min (2 ^ 20) (min st.chunk ((st.S s).through - (st.S s).sent))) (List.drop m.off m.bytes)) = msg
      have i1 := idle_tx st (.s s) msg
      have l1 : Roll { tx st (.s s) msg with bytesSent := (tx st (.s s) msg).bytesSent + msg.encode.length } := i1.roll k
      have hS : (tx st (.s s) msg).S s = st.S s := by rw [i1.S]
      generalize hu : ({ tx st (.s s) msg with bytesSent := (tx st (.s s) msg).bytesSent + msg.encode.length } : St) = u at l1 ⊢
      have hS' : u.S s = st.S s := by rw [← hu]; exact hS
      split
      · refine roll_setS (roll_tell app (roll_setS l1 _ _ (fun h => by rw [hS']; exact h) (by rw [hS'])) _) _ _ (fun h => h) rfl
      · exact roll_setS l1 _ _ (fun h => by rw [hS']; exact h) (by rw [hS'])

theorem roll_transmitS (app : App) {st : St} (k : Roll st) (s pri exp : Nat) : Roll (transmitS app st s pri exp).1 := by
  unfold transmitS
  have lone : ∀ {u : St} (msg : Msg) (f : SFlow), Roll u → (f.up = true → (u.S s).up = true) → f.id = (u.S s).id → Roll (setS (tx u (.s s) msg) s f) := by
    intro u msg f ku h1 h2
    have i1 := idle_tx u (.s s) msg
    exact roll_setS (i1.roll ku) _ _ (by rw [i1.S]; exact h1) (by rw [i1.S]; exact h2)
  split
  · exact k
  · split
    · exact lone _ _ k (fun h => h) rfl
    · have l1 := roll_trimLoop app s (if (st.S s).exc then (st.S s).buf.length else exp) k
      rw [← trim] at l1
      dsimp only
      generalize trim app st s exp = u at l1 ⊢
      split
      · exact lone _ _ l1 (fun h => h) rfl
      · split
        · exact lone _ _ l1 (fun h => h) rfl
        · split
          · exact l1
          · exact roll_fragment app l1 s

theorem roll_work {st : St} (k : Roll st) (w : Nat → List Nat) : Roll { st with work := w } := k

theorem roll_tryPri (app : App) (exp : Nat → Nat) (probe : Bool) (pri : Nat) : ∀ (n : Nat) {st : St}, Roll st → Roll (tryPri app exp probe n st pri).1
  | 0, _, k => k
  | n + 1, st, k => by
    unfold tryPri
    split
    · exact k
    · rename_i s ws hw
      dsimp only
      have l1 := roll_transmitS app k s pri (exp s)
      split
      · refine (idle_startRTT _ _).roll ?_
        split
        · exact roll_work l1 _
        · exact l1
      · exact roll_tryPri app exp probe pri n (roll_work l1 _)

theorem roll_tryAll (app : App) (exp : Nat → Nat) (probe : Bool) : ∀ (n : Nat) {st : St}, Roll st → Roll (tryAll app exp probe n st).1
  | 0, _, k => k
  | n + 1, st, k => by
    unfold tryAll
    dsimp only
    have l1 := roll_tryPri app exp probe n (st.work n).length k
    split
    · exact l1
    · exact roll_tryAll app exp probe n l1

theorem roll_transmit (app : App) (exp : Nat → Nat) (probe : Bool) {st : St} (k : Roll st) : Roll (transmit app exp probe st) := by
  unfold transmit
  split
  · exact k
  · split
    · exact (idle_sendAcks st).roll k
    · dsimp only
      have l1 : Roll (if inFlight st < st.thresh then tryAll app exp probe 8 st else (st, false)).1 := by
        split
        · exact roll_tryAll app exp probe 8 k
        · exact k
      generalize (if inFlight st < st.thresh then tryAll app exp probe 8 st else (st, false)) = r at l1 ⊢
      split
      · exact l1
      · exact l1

theorem roll_deliverLoop (app : App) (r : Nat) : ∀ (n : Nat) {st : St}, Roll st → Roll (deliverLoop app n st r)
  | 0, _, k => k
  | n + 1, st, k => by
    unfold deliverLoop
    dsimp only
    split
    · exact k
    · split
      · exact k
      · exact roll_deliverLoop app r n (roll_tell app ((idle_setR st r _).roll k) _)

theorem roll_endFlow (app : App) (r : Nat) {st : St} (k : Roll st) : Roll (endFlow app st r) := by
  unfold endFlow
  dsimp only
  refine (idle_closeR _ _ _ _).roll ?_
  split
  · exact k
  · split
    · exact roll_tell app ((idle_setR st r _).roll k) _
    · exact (idle_setR st r _).roll k

theorem roll_deliver (app : App) (r : Nat) {st : St} (k : Roll st) : Roll (deliver app st r) := by
  unfold deliver
  dsimp only
  have l1 := roll_deliverLoop app r ((setR st r { st.R r with pending := false }).R r).buf.length ((idle_setR st r { st.R r with pending := false }).roll k)
  split
  · exact roll_endFlow app r l1
  · exact l1

theorem roll_fail (app : App) {st : St} (k : Roll st) : Roll (fail app st) := roll_close (roll_tell app k .error)

theorem roll_onRefuse (app : App) {st : St} (s reason : Nat) (text : Bytes) (k : Roll st) : Roll (onRefuse app st s reason text) := by
  unfold onRefuse
  dsimp only
  refine roll_queueTx ?_ _
  have l1 : Roll (setS st s { st.S s with exc := true }) := roll_setS k _ _ (fun h => h) rfl
  unfold trim
  split
  · exact roll_trimLoop app s _ (roll_tell app (roll_closeS l1 s) _)
  · exact roll_trimLoop app s _ l1

theorem roll_offer (app : App) {st : St} (r : Nat) (on : Option Nat) (k : Roll st) : Roll (offer app st r on) := by
  unfold offer
  dsimp only
  refine (idle_queueAck _ _ _).roll ?_
  have l1 := roll_tell app k (.offered r on)
  split
  · exact l1
  · exact (idle_closeR _ _ _ _).roll l1

theorem find_first {t : List (Nat × Nat)} {id s : Nat} (hn : (t.map (·.1)).Nodup) (h : (id, s) ∈ t) : find t id = .some s := by
  induction t with
  | nil => simp at h
  | cons p t ih =>
    unfold find at ih ⊢
    rw [List.map_cons, List.nodup_cons] at hn
    rcases List.mem_cons.mp h with e | h
    · subst e; simp
    · have : p.1 ≠ id := fun e => hn.1 (List.mem_map.mpr ⟨_, h, e.symm⟩)
      rw [List.find?_cons_of_neg (by simpa using this)]
      exact ih hn.2 h

theorem roll_act (app : App) {st : St} (len : Nat) (m : Msg) (k : Roll st) : Roll (act app st len m).1 := by
  cases m with
  | ping b => exact (idle_tx _ _ _).roll k
  | pong b => exact k
  | window n =>
    simp only [act]
    exact (idle_ackIfNeeded _).roll (show Roll { st with ackWin := max n 2800 } from k)
  | opens id ret about =>
    simp only [act]
    split
    · exact k
    · have l1 := ((idle_newR st id about).trans (idle_note _ (.heard st.nR (.opens id ret about)))).roll k
      cases ret with
      | none => exact roll_offer app _ _ l1
      | some t =>
        dsimp only
        split
        · exact (idle_closeR _ _ _ _).roll l1
        · split
          · exact roll_offer app _ _ l1
          · exact (idle_closeR _ _ _ _).roll l1
  | data id more b =>
    simp only [act]
    split
    · exact k
    · refine ((idle_note _ _).trans (idle_onData _ _ _ _ _)).roll ?_
      exact (idle_ackIfNeeded _).roll (show Roll { st with acc := st.acc + len } from k)
  | abandon id n =>
    simp only [act]
    split
    · exact k
    · exact ((idle_note _ _).trans (idle_onAbandon _ _ _)).roll k
  | closes id =>
    simp only [act]
    split
    · exact k
    · rename_i r hf
      have l1 := ((idle_note st (.heard r (.closes id))).trans (idle_onClose _ r)).roll k
      generalize onClose (note st (.heard r (.closes id))) r = u at l1 ⊢
      exact l1
  | ack id d a =>
    simp only [act]
    split
    · exact k
    · rename_i s hf
      have h : Roll (setS { st with bytesAcked := st.bytesAcked + d } s { st.S s with acked := (st.S s).acked + d, through := (st.S s).acked + d + a }) :=
        roll_setS (show Roll { st with bytesAcked := st.bytesAcked + d } from k) s { st.S s with acked := (st.S s).acked + d, through := (st.S s).acked + d + a } (fun h => h) rfl
      exact roll_queueTx h s
  | closeAck id =>
    simp only [act]
    split
    · exact k
    · rename_i s hf
      split
      · exact k
      · rename_i hdown
        intro hu
        obtain ⟨k1, k2⟩ := k hu
        refine ⟨(List.filter_sublist.map _).nodup k1, fun t ht hup => ?_⟩
        have hm := k2 t ht hup
        refine List.mem_filter.mpr ⟨hm, ?_⟩
        simp only [bne_iff_ne, ne_eq]
        intro e
        rw [e] at hm
        have := find_first k1 hm
        rw [hf] at this
        simp only [Option.some.injEq] at this
        subst this
        exact hdown hup
  | refuse id reason text =>
    simp only [act]
    split
    · exact k
    · exact roll_onRefuse app _ reason text k

theorem roll_step (app : App) {st : St} (o : Op) (k : Roll st) : Roll (step app st o) := by
  unfold step
  split
  · exact k
  · cases o with
    | call c => exact roll_call k c
    | recv b =>
      dsimp only
      split
      · unfold arrive
        split
        · exact roll_fail app k
        · exact k
        · dsimp only
          split
          · exact roll_act app _ _ k
          · exact roll_fail app (roll_act app _ _ k)
      · exact k
    | transmit exp probe => exact roll_transmit app exp probe k
    | task =>
      dsimp only
      split
      · exact k
      · exact roll_deliver app _ (show Roll { st with tasks := _ } from k)
    | trim s e =>
      dsimp only
      split
      · exact roll_trimLoop app s _ k
      · exact k
    | gone =>
      dsimp only
      split
      · exact roll_fail app k
      · exact k
    | limit a b c => exact k

theorem roll_run (app : App) : ∀ (os : List Op) {st : St}, Roll st → Roll (run app st os)
  | [], _, k => k
  | o :: os, _, k => roll_run app os (roll_step app o k)

theorem roll_all (app : App) (os : List Op) : Roll (run app init os) :=
  roll_run app os (fun _ => ⟨by simp [init], fun s hs => absurd hs (Nat.not_lt_zero s)⟩)

/-! ### Closing the connection -/

theorem dropAll_other {s t : Nat} (h : t ≠ s) : ∀ (n : Nat) (st : St), (dropAll n st s).S t = st.S t
  | 0, _ => rfl
  | n + 1, st => by
    unfold dropAll
    dsimp only
    split
    · rfl
    · split
      · rfl
      · rw [dropAll_other h n]; simp [setS, note, h]

theorem dropAll_empty (s : Nat) : ∀ (n : Nat) (st : St), (∀ m ∈ (st.S s).buf, m.fin = false) → (st.S s).buf.length ≤ n →
    ((dropAll n st s).S s).buf = [] ∧ ((dropAll n st s).S s).up = (st.S s).up
  | 0, st, _, h => ⟨List.length_eq_zero_iff.mp (by simpa [dropAll] using h), rfl⟩
  | n + 1, st, hf, h => by
    unfold dropAll
    dsimp only
    split
    · rename_i hb; exact ⟨hb, rfl⟩
    · rename_i m rest hb
      rw [hb] at hf h
      rw [if_neg (by simp [hf m List.mem_cons_self])]
      have ih := dropAll_empty s n (setS (note st (.dropped s m.num)) s { st.S s with buf := rest, lost := (st.S s).lost + 1 })
        (by simp only [setS, if_true]; exact fun m hm => hf m (List.mem_cons_of_mem _ hm))
        (by simp only [setS, if_true]; simpa using h)
      refine ⟨ih.1, ih.2.trans ?_⟩
      simp [setS]

theorem endS_other (st : St) {s t : Nat} (h : t ≠ s) : (endS st s).S t = st.S t := by
  unfold endS
  dsimp only
  split
  · rw [dropAll_other h]; simp [setS, note, h]
  · rfl

theorem endS_empty (st : St) (s : Nat) (hf : ∀ m ∈ (st.S s).buf, m.fin = false) (hu : (st.S s).up = true) :
    ((endS st s).S s).buf = [] ∧ ((endS st s).S s).up = false := by
  unfold endS
  dsimp only
  rw [if_pos hu]
  have := dropAll_empty s _ (note (setS st s { st.S s with exc := true, up := false }) (.refused s 0 []))
    (by simp only [note, setS, if_true]; exact hf) (Nat.le_refl _)
  refine ⟨this.1, this.2.trans ?_⟩
  simp [note, setS]

theorem endS_down (st : St) (s : Nat) (hu : (st.S s).up = false) : endS st s = st := by
  unfold endS
  dsimp only
  rw [if_neg (by simp [hu])]

theorem ends_empty (s : Nat) : ∀ (l : List (Nat × Nat)) (st : St),
    ((∃ p ∈ l, p.2 = s) ∧ (st.S s).up = true ∧ (∀ m ∈ (st.S s).buf, m.fin = false)) ∨ ((st.S s).up = false ∧ (st.S s).buf = []) →
    ((l.foldl (fun st p => endS st p.2) st).S s).buf = []
  | [], st, h => by
    rcases h with ⟨⟨p, hp, _⟩, _⟩ | h
    · simp at hp
    · exact h.2
  | p :: l, st, h => by
    rw [List.foldl_cons]
    refine ends_empty s l _ ?_
    by_cases e : p.2 = s
    · rcases h with ⟨_, hu, hf⟩ | h
      · rw [e]
        have := endS_empty st s hf hu
        exact Or.inr ⟨this.2, this.1⟩
      · rw [e, endS_down st s h.1]; exact Or.inr h
    · have e' : s ≠ p.2 := fun x => e x.symm
      rw [endS_other st e']
      rcases h with ⟨⟨q, hq, hqs⟩, h2⟩ | h
      · refine Or.inl ⟨⟨q, ?_, hqs⟩, h2⟩
        rcases List.mem_cons.mp hq with x | x
        · exact absurd (x ▸ hqs) e
        · exact x
      · exact Or.inr h

/-- Closing the connection leaves nothing in an open flow. -/
theorem close_empty {st : St} (k : Roll st) (c : Calm st) (hu : st.userUp = true) (s : Nat) (hs : s < st.nS) (h : (st.S s).up = true) :
    ((close st).S s).buf = [] ∧ (close st).nS = st.nS := by
  unfold close
  rw [if_neg (by simp [hu]), if_neg (by simp [c.trim])]
  dsimp only
  have k1 := ends_empty s st.sIds { st with up := false, userUp := false, sIds := [] } (Or.inl ⟨⟨_, (k hu).2 s hs h, rfl⟩, h, c.fin s hs⟩)
  have k3 := kin_foldl (fun st p => endS st p.2) (fun st p => kin_endS st p.2) st.sIds { st with up := false, userUp := false, sIds := [] }
  generalize st.sIds.foldl (fun st p => endS st p.2) { st with up := false, userUp := false, sIds := [] } = u at k1 k3 ⊢
  have k2 := idle_foldl (fun (st : St) (p : Nat × Nat) => endR st p.2) (fun st p => idle_endR st p.2) u.rIds { u with rIds := [] }
  generalize u.rIds.foldl (fun st p => endR st p.2) { u with rIds := [] } = v at k2 ⊢
  refine ⟨?_, k2.nS.trans k3.nS⟩
  show (v.S s).buf = []
  rw [k2.S]; exact k1

end Rtmfp.RTWS
