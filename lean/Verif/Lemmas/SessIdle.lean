import Verif.Lemmas.SessKeep

/-! # Sessions without flows -/

namespace Rtmfp
namespace Sess

/-- the idle timer of an open session -/
structure IdleInv (s : Sess) : Prop where
  last : s.lastIdle ≤ s.now
  limit : 0 ≤ s.idleLimit
  set : s.ss.isOpen = true → ∃ f, s.idleTimer = some f ∧ f ≤ s.now + s.idleLimit

theorem Next.inv {P J : Sess → Prop} {responder : Bool} {dest : Nat} {ops ops' : List Op} {s t : Sess} {out out' : List SOut} (h : Run responder dest ops s out) (k : Next P ops s ops' t out')
    (h0 : P s → J s) (hj : ∀ (ops : List Op) (u v : Sess) (op : Op) (os : List SOut), Inv (used ops) u → P u → J u → Allowed ops u op → Way u op v os → P v → J v) : J t := by
  induction k with
  | nil hp => exact h0 hp
  | snoc q ha hs hp ih => obtain ⟨r, hp'⟩ := q.run h; exact hj _ _ _ _ _ (run_inv r) hp' ih ha (step_way hs) hp

theorem Next.restate {P Q : Sess → Prop} {responder : Bool} {dest : Nat} {ops ops' : List Op} {s t : Sess} {out out' : List SOut} (h : Run responder dest ops s out) (k : Next P ops s ops' t out')
    (hq : ∀ (ops : List Op) (u : Sess) (out : List SOut), Run responder dest ops u out → P u → Q u) : Next Q ops s ops' t out' := by
  induction k with
  | nil hp => exact .nil (hq _ _ _ h hp)
  | snoc q ha hs hp ih => exact .snoc ih ha hs (hq _ _ _ (.snoc (q.run h).1 ha hs) hp)

theorem idle_inv {responder : Bool} {dest : Nat} {ops : List Op} {s : Sess} {out : List SOut} (h : Run responder dest ops s out) : IdleInv s := by
  induction h with
  | nil => exact ⟨Int.le_refl _, Int.le_refl _, fun h => by cases h⟩
  | snoc r ha hs ih =>
    rename_i ops s out op t os
    have k := run_inv r
    have w := step_way hs
    obtain ⟨h1, h2⟩ := way_time ha w
    have ho := way_open k ha w
    obtain ⟨a, b, c⟩ := ih
    have hm : (0 : Int) < MIN_PERIOD := by decide
    have hl : t.lastIdle ≤ t.now := by rcases h2 with h2 | h2 <;> omega
    have hc : t.ss.isOpen = false → 0 ≤ t.idleLimit → IdleInv t := fun q q2 => ⟨hl, q2, fun h => by rw [q] at h; cases h⟩
    have same : t.idleTimer = s.idleTimer → t.idleLimit = s.idleLimit → t.ss.isOpen = s.ss.isOpen → IdleInv t := by
      intro e1 e2 e3
      refine ⟨hl, by rw [e2]; exact b, fun h => ?_⟩
      obtain ⟨f, c1, c2⟩ := c (by rw [← e3]; exact h)
      exact ⟨f, by rw [e1]; exact c1, by rw [e2]; omega⟩
    have hbk := k.traced.books
    cases w with
    | opened p l d => exact ⟨hl, by show 0 ≤ max d MIN_PERIOD; omega, fun _ => ⟨_, rfl, by show s.now ≤ s.now + max d MIN_PERIOD; omega⟩⟩
    | setIdle hq =>
      rename_i d it
      refine ⟨hl, by show 0 ≤ max d MIN_PERIOD; omega, fun h => ?_⟩
      rcases hq with ⟨q1, q2⟩ | ⟨q1, q2⟩
      · exact ⟨_, q2, by show s.now ≤ s.now + max d MIN_PERIOD; omega⟩
      · have h' : s.ss.isOpen = true := h; rw [q1] at h'; cases h'
    | gaveUp => exact hc (closeSession_open (s := { s with alarm := none, burst := MAX_BURST }) hbk) b
    | idle => exact hc (closeSession_open hbk) b
    | close => exact hc (closeSession_open hbk) b
    | idleEarly => exact ⟨hl, b, fun _ => ⟨_, rfl, by show s.lastIdle + s.idleLimit ≤ s.now + s.idleLimit; omega⟩⟩
    | idleLater => exact ⟨hl, b, fun _ => ⟨_, rfl, Int.le_refl _⟩⟩
    | flow h a b c => exact same rfl rfl (calls_same hbk ha.1 ha.2.2 h).1
    | writable w =>
      cases w with
      | nothing => exact same rfl rfl (offer_same _ _ _ _ _ _ _).1
      | data => exact same rfl rfl (offer_same _ _ _ _ _ _ _).1
      | _ => exact same rfl rfl rfl
    | ack => exact same rfl rfl (SS.onAck_like _ _ _ _).2.1
    | exception => exact same rfl rfl (SS.exceptionReport_turn hbk _ _ _ _).isOpen
    | afterAcks => exact same rfl rfl (nakLoop_same _ _ _).1
    | lost => exact same rfl rfl (timeout_same hbk).1
    | again => exact same rfl rfl (timeout_same hbk).1
    | _ => exact same rfl rfl rfl

theorem idled_way {s t : Sess} {op : Op} {os : List SOut} (w : Way s op t os) (h : SOut.idled ∈ os) :
    s.lastIdle + s.idleLimit ≤ s.now ∧ s.ss.sendFlows = [] ∧ s.recvFlows = [] ∧ s.ss.isOpen = true := by
  cases w with
  | idle h1 h2 h3 h4 h5 => exact ⟨h3, h4, h5, h2⟩
  | flow => simp at h
  | writable w => cases w <;> simp at h
  | ack => simp at h
  | exception => simp at h
  | gaveUp => simp [closeSession] at h
  | close => simp [closeSession] at h
  | _ => simp at h

/-- when the last flow goes, the time is noted -/
theorem busy_way {ops : List Op} {s t : Sess} {op : Op} {os : List SOut} (k : Inv (used ops) s) (ha : Allowed ops s op) (w : Way s op t os) (hb : s.ss.sendFlows ≠ [] ∨ s.recvFlows ≠ []) :
    (t.ss.sendFlows ≠ [] ∨ t.recvFlows ≠ []) ∨ t.lastIdle = s.now := by
  have hbk := k.traced.books
  have same : t.ss.sendFlows = s.ss.sendFlows → t.recvFlows = s.recvFlows → (t.ss.sendFlows ≠ [] ∨ t.recvFlows ≠ []) ∨ t.lastIdle = s.now := by
    intro h1 h2; rw [h1, h2]; exact Or.inl hb
  cases w with
  | flow h a b c =>
    rename_i op ss es rd li ps lt
    dsimp only
    rcases hb with hb | hb
    · by_cases he : ss.sendFlows = []
      · right
        rcases c (by rw [he]; exact List.length_pos_iff.mpr hb) with c | c
        · exact c
        · exfalso
          rcases (calls_same hbk ha.1 ha.2.2 h).2.2 with q | ⟨i, x, y, z, rfl⟩ | ⟨i, rfl⟩
          · obtain ⟨x, hx⟩ := List.exists_mem_of_ne_nil _ hb
            have := q x hx
            rw [he] at this; cases this
          · exact (c i).2.1 _ _ _ rfl
          · exact (c i).2.2 rfl
      · exact Or.inl (Or.inl he)
    · exact Or.inl (Or.inr hb)
  | writable w =>
    cases w with
    | nothing => exact same (offer_same _ _ _ _ _ _ _).2 rfl
    | data => exact same (offer_same _ _ _ _ _ _ _).2 rfl
    | _ => exact same rfl rfl
  | ack => exact same (SS.onAck_like _ _ _ _).2.2.1 rfl
  | exception a b =>
    rename_i i rid names rd li ps lt es
    dsimp only
    rcases hb with hb | hb
    · by_cases he : (s.ss.onExceptionReport i s.now rid names).1.sendFlows = []
      · right
        rw [b, if_pos (by rw [he]; exact List.length_pos_iff.mpr hb)]
      · exact Or.inl (Or.inl he)
    · exact Or.inl (Or.inr hb)
  | afterAcks => exact same (nakLoop_same _ _ _).2 rfl
  | recvOpen r => exact Or.inl (Or.inr (by simp))
  | recvClose r => exact Or.inr rfl
  | gaveUp => exact Or.inr rfl
  | lost => exact same (timeout_same hbk).2 rfl
  | again => exact same (timeout_same hbk).2 rfl
  | idle => exact Or.inr rfl
  | close => exact Or.inr rfl
  | _ => exact same rfl rfl

/-- since there were flows, or since before the session opened -/
theorem since_way {ops : List Op} {s t : Sess} {op : Op} {os : List SOut} {x : Int} (k : Inv (used ops) s) (ha : Allowed ops s op) (w : Way s op t os) (hx : x ≤ s.now)
    (h : (s.ss.sendFlows ≠ [] ∨ s.recvFlows ≠ []) ∨ s.ss.isOpen = false ∨ x ≤ s.lastIdle) :
    x ≤ t.now ∧ ((t.ss.sendFlows ≠ [] ∨ t.recvFlows ≠ []) ∨ t.ss.isOpen = false ∨ x ≤ t.lastIdle) := by
  obtain ⟨h1, h2⟩ := way_time ha w
  refine ⟨by omega, ?_⟩
  rcases h with h | h | h
  · rcases busy_way k ha w h with h | h
    · exact Or.inl h
    · exact Or.inr (Or.inr (by rw [h]; exact hx))
  · rcases way_open k ha w with ⟨e, _⟩ | ⟨e, _⟩ | ⟨a, b, c, rfl⟩
    · exact Or.inr (Or.inl (by rw [e]; exact h))
    · exact Or.inr (Or.inl e)
    · cases w; exact Or.inr (Or.inr hx)
  · right; right
    rcases h2 with h2 | h2 <;> omega

/-- an open session without flows: how long -/
structure Idles (T L : Int) (t : Sess) : Prop where
  last : t.lastIdle ≤ T
  set : ∃ f, t.idleTimer = some f ∧ f ≤ T + L

theorem idles_way {ops : List Op} {T L : Int} {s t : Sess} {op : Op} {os : List SOut} (k : Inv (used ops) s) (ha : Allowed ops s op) (w : Way s op t os) (ho : t.ss.isOpen = true) (h1 : s.ss.sendFlows = [])
    (h2 : s.recvFlows = []) (h3 : s.idleLimit ≤ L) (h4 : ∀ f, s.idleTimer = some f → s.now ≤ f) (so : s.ss.isOpen = true) (h : Idles T L s) : Idles T L t := by
  obtain ⟨a, f, b, c⟩ := h
  have same : t.idleTimer = s.idleTimer → t.lastIdle = s.lastIdle → Idles T L t := fun e1 e2 => ⟨by rw [e2]; exact a, f, by rw [e1]; exact b, c⟩
  have hbk := k.traced.books
  cases w with
  | opened => obtain ⟨q, _⟩ := ha; rw [so] at q; cases q
  | flow _ _ e =>
    refine same rfl ?_
    rcases e with e | ⟨_, e⟩
    · exact e
    · rw [h1] at e; exact absurd e (Nat.not_lt_zero _)
  | writable w => cases w <;> exact same rfl rfl
  | exception _ e =>
    refine same rfl ?_
    dsimp only
    rw [e, h1]; exact if_neg (Nat.not_lt_zero _)
  | recvClose r => rw [Allowed, h2] at ha; cases ha
  | setIdle hq =>
    rename_i d it
    refine ⟨a, s.now, ?_, by have := h4 f b; omega⟩
    rcases hq with ⟨_, q⟩ | ⟨q, _⟩
    · exact q
    · rw [so] at q; cases q
  | idleEarly => exact ⟨a, _, rfl, by show s.lastIdle + s.idleLimit ≤ T + L; omega⟩
  | idleLater _ _ _ q => exact absurd ⟨h1, h2⟩ q
  | gaveUp => rw [closeSession_open (s := { s with alarm := none, burst := MAX_BURST }) hbk] at ho; cases ho
  | idle => rw [closeSession_open hbk] at ho; cases ho
  | close => rw [closeSession_open hbk] at ho; cases ho
  | _ => exact same rfl rfl

end Sess
end Rtmfp
