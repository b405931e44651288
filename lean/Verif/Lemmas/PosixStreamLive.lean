import Verif.Lemmas.PosixStream
namespace Rtmfp
namespace PosixStream
open Spec.StreamAdapter

/-- not moved between run loops -/
def Stays (c : Call) : Prop := c ≠ .attach ∧ c ≠ .detach

/-- and nothing written -/
def Mute (c : Call) : Prop := Stays c ∧ ∀ b, c ≠ .write b

/-- the client keeps to what the interface says: it writes only when it is called for that; and it does not move the adapter -/
structure Proper (app : App) : Prop where
  stays : ∀ l c, c ∈ app.react l → Stays c
  inside : ∀ l b, .write b ∈ app.react l → ∃ l' f, l = l' ++ [.writable f]

/-- what is waiting is on its way -/
def Going (st : St) : Prop := st.runs = true ∧ st.wild = false ∧ (st.out ≠ [] → st.up = true → st.regW = true)

/-- while the action for writing runs -/
def Busy (st : St) : Prop := st.runs = true ∧ st.wild = false ∧ (st.up = true → st.regW = true)

theorem Busy.going {st : St} (h : Busy st) : Going st := ⟨h.1, h.2.1, fun _ => h.2.2⟩

theorem callOver_busy {st : St} (h : Busy st) {c : Call} (hc : Stays c) : Busy (callOver st c) := by
  obtain ⟨h1, h2, h3⟩ := h
  obtain ⟨c1, c2⟩ := hc
  cases c with
  | attach => exact absurd rfl c1
  | detach => exact absurd rfl c2
  | _ =>
    cases hu : st.up <;> simp [callOver, body, note, tryW, tryR, closeIfDone, drop, Busy, hu, h1, h2] at h3 ⊢ <;> (repeat' split) <;> simp_all

theorem callOver_going {st : St} (h : Going st) {c : Call} (hc : Mute c) : Going (callOver st c) := by
  obtain ⟨h1, h2, h3⟩ := h
  obtain ⟨⟨c1, c2⟩, c3⟩ := hc
  cases c with
  | attach => exact absurd rfl c1
  | detach => exact absurd rfl c2
  | write b => exact absurd rfl (c3 b)
  | _ =>
    cases hu : st.up <;> simp [callOver, body, note, tryW, tryR, closeIfDone, drop, Going, hu, h1, h2] at h3 ⊢ <;> (repeat' split) <;> simp_all

theorem fold_over_busy {st : St} (h : Busy st) {cs : List Call} (hc : ∀ c, c ∈ cs → Stays c) : Busy (cs.foldl callOver st) := by
  induction cs generalizing st with
  | nil => exact h
  | cons c cs ih => exact ih (callOver_busy h (hc c (by simp))) (fun x hx => hc x (by simp [hx]))

theorem fold_over_going {st : St} (h : Going st) {cs : List Call} (hc : ∀ c, c ∈ cs → Mute c) : Going (cs.foldl callOver st) := by
  induction cs generalizing st with
  | nil => exact h
  | cons c cs ih => exact ih (callOver_going h (hc c (by simp))) (fun x hx => hc x (by simp [hx]))

theorem Proper.mute {app : App} (h : Proper app) {l : List Ev} {e : Ev} (he : ∀ f, e ≠ .writable f) {c : Call} (hc : c ∈ app.react (l ++ [e])) : Mute c := by
  refine ⟨h.stays _ _ hc, ?_⟩
  rintro b rfl
  obtain ⟨l', f, hl⟩ := h.inside _ _ hc
  have := List.append_inj' hl rfl
  exact he f (by simpa using this.2)

theorem finish_busy {app : App} (ha : Proper app) {st : St} (h : Busy st) : Busy (finish app st) := by
  unfold finish
  split
  · exact fold_over_busy (by exact h) (fun c hc => ha.stays _ _ hc)
  · exact h

theorem finish_going {app : App} (ha : Proper app) {st : St} (h : Going st) : Going (finish app st) := by
  unfold finish
  split
  · exact fold_over_going (by exact h) (fun c hc => ha.mute (by nofun) hc)
  · exact h

theorem call_busy {app : App} (ha : Proper app) {st : St} (h : Busy st) {c : Call} (hc : Stays c) : Busy (call app st c) := by
  unfold call
  dsimp only
  split
  · exact finish_busy ha (callOver_busy h hc)
  · exact callOver_busy h hc

theorem call_going {app : App} (ha : Proper app) {st : St} (h : Going st) {c : Call} (hc : Mute c) : Going (call app st c) := by
  unfold call
  dsimp only
  split
  · exact finish_going ha (callOver_going h hc)
  · exact callOver_going h hc

theorem back_busy {app : App} (ha : Proper app) {st : St} (h : Busy st) (e : Ev) : Busy (back app st e) := by
  unfold back
  have hc : ∀ c, c ∈ app.react (st.log ++ [e]) → Stays c := fun c hc => ha.stays _ _ hc
  have hs : Busy (note st e) := h
  generalize note st e = s at hs ⊢
  generalize app.react (st.log ++ [e]) = cs at hc ⊢
  clear h
  induction cs generalizing s with
  | nil => exact hs
  | cons c cs ih => exact ih _ (call_busy ha hs (hc c (by simp))) (fun x hx => hc x (by simp [hx]))

theorem back_going {app : App} (ha : Proper app) {st : St} (h : Going st) {e : Ev} (he : ∀ f, e ≠ .writable f) : Going (back app st e) := by
  unfold back
  have hc : ∀ c, c ∈ app.react (st.log ++ [e]) → Mute c := fun c hc => ha.mute he hc
  have hs : Going (note st e) := h
  generalize note st e = s at hs ⊢
  generalize app.react (st.log ++ [e]) = cs at hc ⊢
  clear h
  induction cs generalizing s with
  | nil => exact hs
  | cons c cs ih => exact ih _ (call_going ha hs (hc c (by simp))) (fun x hx => hc x (by simp [hx]))

theorem drop_going {st : St} (h : Going st) : Going (drop st) := by
  unfold drop Going at *
  split <;> simp_all [note]

theorem fail_going {app : App} (ha : Proper app) {st : St} (h : Going st) : Going (fail app st) := by
  unfold fail close
  have := finish_going ha (drop_going h)
  dsimp only
  generalize finish app (drop st) = s at *
  split
  · exact back_going ha this (by nofun)
  · exact this

theorem onReadable_going {app : App} (ha : Proper app) {st : St} (h : Going st) (g : Got) : Going (onReadable app st g) := by
  unfold onReadable
  split
  · exact h
  · cases g with
    | again => exact h
    | eof => exact fail_going ha h
    | bad => exact fail_going ha h
    | some b =>
      dsimp only
      have hn : Going (note st (.recv b)) := h
      split
      · exact hn
      · split
        · exact fail_going ha hn
        · cases ho : (note st (.recv b)).onR with
          | none => exact hn
          | some f =>
            dsimp only
            have := back_going ha hn (e := .data f b) (by nofun)
            split
            · exact this
            · exact this

theorem fill_busy {app : App} (ha : Proper app) (n : Nat) {st : St} (h : Busy st) : Busy (fill app n st) := by
  induction n generalizing st with
  | zero =>
    unfold fill
    split
    · exact h
    · exact h
  | succ n ih =>
    unfold fill
    split
    · cases ho : st.onW with
      | none => exact h
      | some f =>
        dsimp only
        apply ih
        have := back_busy ha h (.writable f)
        split
        · exact this
        · exact this
    · exact h

theorem settle_going {st : St} (h : Busy st) : Going (settle st) := by
  unfold settle closeIfDone Going
  obtain ⟨h1, h2, h3⟩ := h
  by_cases ho : st.out = [] ∧ st.runs = true ∧ st.onW = none
  · rw [if_pos ho]
    split <;> simp_all [note]
  · rw [if_neg ho]
    split <;> simp_all [note]

theorem onWritable_going {app : App} (ha : Proper app) {st : St} (h : Busy st) (p : Put) : Going (onWritable app st p) := by
  unfold onWritable
  have := fill_busy ha st.turns h
  dsimp only
  generalize fill app st.turns st = s at *
  split
  · exact this.going
  · unfold push
    split
    · exact settle_going this
    · split
      · exact fail_going ha this.going
      · cases p with
        | again => exact this.going
        | bad => exact fail_going ha this.going
        | some n => exact settle_going (by exact this)

theorem step_going {app : App} (ha : Proper app) {st : St} (h : Going st) {op : Op} (ho : ∀ c, op = .call c → Mute c) : Going (step app st op) := by
  cases op with
  | call c =>
    simp only [step]
    split
    · exact h
    · exact call_going ha h (ho c rfl)
  | readable g =>
    simp only [step]
    split
    · exact h
    · exact onReadable_going ha h g
  | writable p =>
    simp only [step]
    split
    · exact h
    · rename_i hx
      exact onWritable_going ha ⟨h.1, h.2.1, fun _ => by simp_all⟩ p
  | task =>
    simp only [step]
    split
    · exact h
    · unfold onTask
      split
      · exact h
      · dsimp only
        split
        · exact back_going ha (by exact h) (by nofun)
        · exact h

theorem run_going {app : App} (ha : Proper app) {st : St} (h : Going st) {ops : List Op} (ho : ∀ c, .call c ∈ ops → Mute c) : Going (run app st ops) := by
  induction ops generalizing st with
  | nil => exact h
  | cons op ops ih =>
    refine ih (step_going ha h ?_) (fun c hc => ho c (by simp [hc]))
    rintro c rfl
    exact ho c (by simp)

theorem settle_out (st : St) : (settle st).out = st.out := by
  unfold settle closeIfDone
  (repeat' split) <;> rfl

theorem settle_log (st : St) : Onward st.log (settle st).log := by
  unfold settle
  have := closeIfDone_on (if st.out = [] ∧ st.runs = true ∧ st.onW = none then { st with regW := false } else st)
  have e : (if st.out = [] ∧ st.runs = true ∧ st.onW = none then { st with regW := false } else st).log = st.log := by split <;> rfl
  rw [e] at this
  exact this

/-- while the kernel takes everything, nothing is left after the action for writing -/
theorem push_out {app : App} {st : St} (h : Kept st) (hf : Flow st) (n : Nat) :
    Ev.closed ∈ (push app st (.some n)).log ∨ (push app st (.some n)).out = st.out.drop n := by
  have hh := push_held (app := app) h hf (.some n)
  unfold push at hh ⊢
  by_cases ho : st.out = []
  · rw [if_pos ho, settle_out]
    simp [ho]
  · rw [if_neg ho] at hh ⊢
    by_cases hu : st.up = false
    · rw [if_pos hu] at hh ⊢
      left
      have hc : Ev.closed ∈ st.log := by
        by_cases hx : Ev.closed ∈ st.log
        · exact hx
        · have := h.inv.up.2 hx
          simp_all
      have ho := close_on app st
      obtain ⟨es, he, -⟩ := ho
      unfold fail
      dsimp only
      split
      · obtain ⟨es', he', -⟩ := back_on app (close app st) (.lost ‹_›)
        rw [he', he]
        simp [hc]
      · rw [he]
        simp [hc]
    · rw [if_neg hu] at hh ⊢
      right
      dsimp only
      rw [settle_out]
      rfl

/-- the callback for writing writes whenever it wants to be called again -/
def Diligent (app : App) : Prop :=
  ∀ l f, app.answer (l ++ [.writable f]) = true → .close ∉ app.react (l ++ [.writable f]) ∧ ∃ b, .write b ∈ app.react (l ++ [.writable f]) ∧ b ≠ []

theorem callOver_keeps (st : St) {c : Call} (hc : c ≠ .close) :
    (callOver st c).up = st.up ∧ (callOver st c).size = st.size ∧ (callOver st c).stuck = st.stuck ∧
      (callOver st c).out = st.out ++ (match c with | .write b => if st.up then b else [] | _ => []) := by
  cases hu : st.up <;> cases hr : st.runs <;> cases c <;> simp [callOver, body, note, tryW, tryR, closeIfDone, hu, hr] at hc ⊢ <;> (repeat' split) <;> simp_all

theorem fold_grows {app : App} (cs : List Call) (hc : Call.close ∉ cs) (st : St) (hu : st.up = true) :
    (cs.foldl (call app) st).up = true ∧ (cs.foldl (call app) st).size = st.size ∧ (cs.foldl (call app) st).stuck = st.stuck ∧
      st.out.length ≤ (cs.foldl (call app) st).out.length ∧
      ((∃ b, .write b ∈ cs ∧ b ≠ []) → st.out.length < (cs.foldl (call app) st).out.length) := by
  induction cs generalizing st with
  | nil => simp [hu]
  | cons c cs ih =>
    have hcc : c ≠ .close := by
      rintro rfl
      simp at hc
    have e : call app st c = callOver st c := by
      unfold call
      simp [hcc]
    obtain ⟨k1, k2, k3, k4⟩ := callOver_keeps st hcc
    obtain ⟨i1, i2, i3, i4, i5⟩ := ih (by intro hx; exact hc (by simp [hx])) (callOver st c) (k1.trans hu)
    rw [List.foldl_cons, e]
    have hl : st.out.length ≤ (callOver st c).out.length := by rw [k4]; simp
    refine ⟨i1, i2.trans k2, i3.trans k3, by omega, ?_⟩
    rintro ⟨b, hb, hn⟩
    rcases List.mem_cons.1 hb with hb | hb
    · subst hb
      have hp := List.length_pos_iff.2 hn
      simp only [hu, if_true] at k4
      have : (callOver st (.write b)).out.length = st.out.length + b.length := by rw [k4]; simp
      omega
    · have := i5 ⟨b, hb, hn⟩
      omega

theorem call_stuck {app : App} (st : St) (c : Call) : (call app st c).stuck = st.stuck := by
  have body_stuck : ∀ (st : St) (c : Call), (callOver st c).stuck = st.stuck := by
    intro st c
    cases hu : st.up <;> cases hr : st.runs <;> cases c <;> simp [callOver, body, note, tryW, tryR, closeIfDone, drop, hu, hr] <;> (repeat' split) <;> rfl
  have over : ∀ (cs : List Call) (st : St), (cs.foldl callOver st).stuck = st.stuck := by
    intro cs
    induction cs with
    | nil => exact fun _ => rfl
    | cons c cs ih => exact fun st => (ih _).trans (body_stuck st c)
  unfold call
  dsimp only
  split
  · unfold finish
    split
    · exact (over _ _).trans (body_stuck st c)
    · exact body_stuck st c
  · exact body_stuck st c

theorem back_stuck {app : App} (st : St) (e : Ev) : (back app st e).stuck = st.stuck := by
  unfold back
  have : ∀ (cs : List Call) (st : St), (cs.foldl (call app) st).stuck = st.stuck := by
    intro cs
    induction cs with
    | nil => exact fun _ => rfl
    | cons c cs ih => exact fun st => (ih _).trans (call_stuck st c)
  exact this _ _

theorem fill_none {app : App} (n : Nat) (st : St) (h : st.onW = none) : fill app n st = st := by
  cases n with
  | zero => simp [fill, h]
  | succ n =>
    unfold fill
    simp [h]

theorem fill_free {app : App} (ha : Diligent app) (n : Nat) (st : St) (hu : st.up = true) (hs : st.stuck = false) (hn : st.size ≤ st.out.length + n) :
    (fill app n st).stuck = false := by
  induction n generalizing st with
  | zero =>
    unfold fill
    rw [if_neg]
    · exact hs
    · simp
      intro _
      omega
  | succ n ih =>
    unfold fill
    by_cases hl : st.out.length < st.size
    · rw [if_pos hl]
      cases ho : st.onW with
      | none => exact hs
      | some f =>
        dsimp only
        by_cases hw : app.answer (st.log ++ [.writable f]) = true
        · rw [if_pos hw]
          obtain ⟨h1, h2⟩ := ha st.log f hw
          obtain ⟨g1, g2, g3, g4, g5⟩ := fold_grows (app := app) _ h1 (note st (.writable f)) hu
          apply ih
          · exact g1
          · exact g3.trans hs
          · have := g5 h2
            unfold back
            rw [g2]
            simp only [note] at this ⊢
            omega
        · rw [if_neg hw, fill_none _ _ rfl]
          exact (back_stuck st (.writable f)).trans hs
    · rw [if_neg hl]
      exact hs

end PosixStream
end Rtmfp
