import Verif.Lemmas.InstanceLife
/-! # Instances: who is bound, who waits -/
namespace Rtmfp
namespace Inst

attribute [grind] answered Sess.new SFlow.new

theorem glared_mem {C : Crypto} {st : St} {r : Req} {fr : Frame} (h : fr ∈ glared C st r) :
    ∃ g : Nat, fr = .abort g ∧ g ∈ st.openingS ∧ (st.sess g).state = .keying := by
  rw [glared] at h
  split at h
  · rename_i g hg
    split at h
    · rename_i hk
      simp at h
      exact ⟨g, h, List.mem_of_find?_eq_some hg, hk.1⟩
    · simp at h
  · simp at h

grind_pattern glared_mem => fr ∈ glared C st r

/-- who is bound, who waits -/
structure Bnd (st : St) : Prop where
  listed : ∀ s f : Nat, f ∈ (st.sess s).sendFlows ↔ (st.flow f).sess = some s
  bound : ∀ f : Nat, (st.flow f).sess ≠ none → (st.flow f).opening = none ∧ f ∉ st.openingF
  closed : ∀ f : Nat, (st.flow f).state = .closed → (st.flow f).sess = none ∧ (st.flow f).opening = none
  waits : ∀ f : Nat, (st.flow f).opening ≠ none → (st.flow f).state = .opened ∧ f ∈ st.openingF
  late : ∀ f : Nat, (st.flow f).state = .closing ∨ (st.flow f).state = .linger → (st.flow f).sess ≠ none
  pending : ∀ f : Nat, .flowClose f ∈ st.stack ∨ .notOpening f ∈ st.stack → (st.flow f).opening = none
  unlisted : ∀ f ∈ st.openingF, (st.flow f).opening = none → .flowClose f ∈ st.stack ∨ .notOpening f ∈ st.stack
  linger : ∀ f : Nat, .linger f ∈ st.timers → (st.flow f).state = .linger ∨ (st.flow f).state = .closed
  recv : ∀ s r : Nat, r ∈ (st.sess s).recvFlows → (st.rflow r).sess = s ∧ r < st.nR

theorem Rng.newS {st : St} (h : Rng st) : st.sess st.nS = Sess.new := h.fresh _ (Nat.le_refl _)
theorem Rng.newF {st : St} (h : Rng st) : st.flow st.nF = SFlow.new 0 := h.freshF _ (Nat.le_refl _)
theorem Rng.newF_stack {st : St} (h : Rng st) : .flowClose st.nF ∉ st.stack ∧ .notOpening st.nF ∉ st.stack := by
  constructor <;> (intro h'; have := h.framesF _ h' st.nF (by simp [Frame.fids]); omega)
theorem Rng.newF_timers {st : St} (h : Rng st) : .linger st.nF ∉ st.timers := by
  intro h'; have := h.timersF _ h' st.nF (by simp [Tm.fids]); omega

/-- the flows that are still to hear that a session opened wait -/
def Heard (st : St) : Prop := ∀ s f fs rest, st.stack = .tellOpened s (f :: fs) :: rest → (st.flow f).sess = none → (st.flow f).opening ≠ none

section
variable {C : Crypto} {st st' : St} {ev : List Ev}

theorem Bnd.way_listed (hr : Rng st) (h : Bnd st) (w : Way C st st' ev) : ∀ s f : Nat, f ∈ (st'.sess s).sendFlows ↔ (st'.flow f).sess = some s := by
  have b1 := hr.newS
  have b2 := hr.newF
  have b6 := hr.sendFlows
  have h1 := h.listed
  have h2 := h.closed
  have b7 : ∀ s : Nat, st.nF ∉ (st.sess s).sendFlows := fun s h => by have := b6 s _ h; omega
  clear hr h b6
  cases w
  case openBound epd x ht hs => intro s f; simp; grind
  all_goals grind

theorem Bnd.way_bound (hr : Rng st) (h : Bnd st) (w : Way C st st' ev) (ht : Heard st) :
    ∀ f : Nat, (st'.flow f).sess ≠ none → (st'.flow f).opening = none ∧ f ∉ st'.openingF := by
  have b2 := hr.newF
  have b5 := hr.openingF
  have h1 := h.bound
  clear hr h
  cases w <;> grind [Heard]

theorem Bnd.way_closed (hr : Rng st) (h : Bnd st) (w : Way C st st' ev) (ht : Heard st) :
    ∀ f : Nat, (st'.flow f).state = .closed → (st'.flow f).sess = none ∧ (st'.flow f).opening = none := by
  have b2 := hr.newF
  have h1 := h.bound
  have h2 := h.closed
  have h3 := h.waits
  clear hr h
  cases w <;> grind [Heard]

theorem Bnd.way_waits (hr : Rng st) (h : Bnd st) (w : Way C st st' ev) (ht : Heard st) :
    ∀ f : Nat, (st'.flow f).opening ≠ none → (st'.flow f).state = .opened ∧ f ∈ st'.openingF := by
  have b2 := hr.newF
  have h1 := h.bound
  have h3 := h.waits
  have h4 := h.pending
  clear hr h
  cases w <;> grind [Heard]

theorem Bnd.way_late (hr : Rng st) (h : Bnd st) (w : Way C st st' ev) :
    ∀ f : Nat, (st'.flow f).state = .closing ∨ (st'.flow f).state = .linger → (st'.flow f).sess ≠ none := by
  have b2 := hr.newF
  have h1 := h.late
  clear hr h
  cases w <;> grind

theorem Bnd.way_pending (hr : Rng st) (h : Bnd st) (w : Way C st st' ev) :
    ∀ f : Nat, .flowClose f ∈ st'.stack ∨ .notOpening f ∈ st'.stack → (st'.flow f).opening = none := by
  have b2 := hr.newF
  have b3 := hr.newF_stack
  have h1 := h.pending
  have h3 := h.waits
  have h4 := h.bound
  clear hr h
  cases w <;> grind

theorem Bnd.way_unlisted (hr : Rng st) (h : Bnd st) (w : Way C st st' ev) (ht : Heard st) (hc : st'.crashed = false) :
    ∀ f ∈ st'.openingF, (st'.flow f).opening = none → .flowClose f ∈ st'.stack ∨ .notOpening f ∈ st'.stack := by
  have b2 := hr.newF
  have b5 := hr.openingF
  have h1 := h.unlisted
  have h2 := h.bound
  have h3 := h.linger
  have h4 := h.late
  clear hr h
  cases w <;> grind [Heard]

theorem Bnd.way_linger (hr : Rng st) (h : Bnd st) (w : Way C st st' ev) :
    ∀ f : Nat, .linger f ∈ st'.timers → (st'.flow f).state = .linger ∨ (st'.flow f).state = .closed := by
  have b2 := hr.newF
  have b3 := hr.newF_timers
  have h1 := h.linger
  clear hr h
  cases w <;> grind

theorem Bnd.way_recv (hr : Rng st) (h : Bnd st) (w : Way C st st' ev) : ∀ s r : Nat, r ∈ (st'.sess s).recvFlows → (st'.rflow r).sess = s ∧ r < st'.nR := by
  have b1 := hr.newS
  have h1 := h.recv
  clear hr h
  cases w <;> grind

theorem Bnd.way (hr : Rng st) (h : Bnd st) (w : Way C st st' ev) (ht : Heard st) (hc : st'.crashed = false) : Bnd st' :=
  ⟨h.way_listed hr w, h.way_bound hr w ht, h.way_closed hr w ht, h.way_waits hr w ht, h.way_late hr w, h.way_pending hr w, h.way_unlisted hr w ht hc,
   h.way_linger hr w, h.way_recv hr w⟩
end

end Inst
end Rtmfp
