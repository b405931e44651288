import Verif.Lemmas.InstanceBound
/-! # Instances: how many wait for a session -/
namespace Rtmfp
namespace Inst

/-- `n` flows wait for the session -/
def Wf (op : Nat → Option Nat) (s n : Nat) : Prop := ∃ l : List Nat, l.Nodup ∧ l.length = n ∧ ∀ f : Nat, f ∈ l ↔ op f = some s

theorem Wf.same {op op' : Nat → Option Nat} {s n m : Nat} (h : Wf op s n) (hm : m = n) (e : ∀ f, op' f = some s ↔ op f = some s) : Wf op' s m := by
  obtain ⟨l, h1, h2, h3⟩ := h
  exact ⟨l, h1, by omega, fun f => by rw [h3, e]⟩

theorem Wf.del {op op' : Nat → Option Nat} {s n m : Nat} (f : Nat) (h : Wf op s n) (hm : m = n - 1) (hf : op f = some s)
    (e : ∀ g, op' g = some s ↔ op g = some s ∧ g ≠ f) : Wf op' s m := by
  obtain ⟨l, h1, h2, h3⟩ := h
  have := (h3 f).mpr hf
  exact ⟨l.erase f, h1.erase f, by rw [List.length_erase_of_mem this]; omega, fun g => by rw [h1.mem_erase_iff, h3, e, and_comm]⟩

theorem Wf.add {op op' : Nat → Option Nat} {s n m : Nat} (f : Nat) (h : Wf op s n) (hm : m = n + 1) (hf : op f ≠ some s)
    (e : ∀ g, op' g = some s ↔ op g = some s ∨ g = f) : Wf op' s m := by
  obtain ⟨l, h1, h2, h3⟩ := h
  have : f ∉ l := fun h' => hf ((h3 f).mp h')
  exact ⟨f :: l, List.nodup_cons.mpr ⟨this, h1⟩, by simp; omega, fun g => by rw [List.mem_cons, h3, e, or_comm]⟩

/-- the count that a session keeps is that of the flows that wait for it -/
def Counts (st : St) : Prop := ∀ s : Nat, Wf (fun f => (st.flow f).opening) s (st.sess s).interest

section
variable {C : Crypto} {st st' : St} {ev : List Ev}

theorem Counts.way (hr : Rng st) (hb : Bnd st) (h : Counts st) (w : Way C st st' ev) : Counts st' := by
  have b1 := hr.newS
  have b2 := hr.newF
  have b3 := hr.opening
  have h1 := hb.bound
  have h2 := hb.closed
  clear hr hb
  intro s
  have hs := h s
  cases w
  case flowDidClose f x rest h hn =>
    by_cases hx : hard (setStack st rest) f = true ∧ (st.flow f).opening = some s
    · refine hs.del f ?_ hx.2 ?_ <;> grind
    · refine hs.same ?_ ?_ <;> grind
  case closeF f _ _ =>
    by_cases hx : hard st f = true ∧ (st.flow f).opening = some s
    · refine hs.del f ?_ hx.2 ?_ <;> grind
    · refine hs.same ?_ ?_ <;> grind
  case excChunk x f _ _ _ =>
    by_cases hx : hard st f = true ∧ (st.flow f).opening = some s
    · refine hs.del f ?_ hx.2 ?_ <;> grind
    · refine hs.same ?_ ?_ <;> grind
  case flowCloseGoto f x rest h _ _ =>
    by_cases hx : (st.flow f).state ≠ .closed ∧ (st.flow f).opening = some s
    · refine hs.del f ?_ hx.2 ?_ <;> grind
    · refine hs.same ?_ ?_ <;> grind
  case linger i f _ _ =>
    by_cases hx : (st.flow f).state ≠ .closed ∧ (st.flow f).opening = some s
    · refine hs.del f ?_ hx.2 ?_ <;> grind
    · refine hs.same ?_ ?_ <;> grind
  case tellOpened x f fs rest h _ _ =>
    by_cases hx : (st.flow f).opening = some s
    · refine hs.del f ?_ hx ?_ <;> grind
    · refine hs.same ?_ ?_ <;> grind
  case tellWillOpen x f o fs rest h _ ho hne hi =>
    by_cases hx : s = o
    · refine hs.del f ?_ (by grind) ?_ <;> grind
    · by_cases hy : s = x
      · refine hs.add f ?_ (by grind) ?_ <;> grind
      · refine hs.same ?_ ?_ <;> grind
  case openBound epd x _ _ =>
    refine hs.same ?_ ?_ <;> grind
  case openWait epd x _ _ _ _ _ =>
    by_cases hx : s = x
    · refine hs.add st.nF ?_ (by grind) ?_ <;> grind
    · refine hs.same ?_ ?_ <;> grind
  case openInit epd _ _ _ _ =>
    by_cases hx : s = st.nS
    · have : Wf (fun f => (st.flow f).opening) s 0 := by
        subst hx; rw [b1] at hs; exact hs
      refine this.add st.nF ?_ (by grind) ?_ <;> grind
    · refine hs.same ?_ ?_ <;> grind
  case respond r rest h =>
    by_cases hx : s = st.nS
    · subst hx
      rw [b1] at hs
      refine hs.same ?_ ?_ <;> grind
    · refine hs.same ?_ ?_ <;> grind
  all_goals (refine hs.same ?_ ?_ <;> grind)

theorem Counts.none {s f : Nat} (h : Counts st) (h0 : (st.sess s).interest = 0) : (st.flow f).opening ≠ some s := by
  obtain ⟨l, h1, h2, h3⟩ := h s
  intro h4
  have := (h3 f).mpr h4
  rw [h0] at h2
  cases l <;> simp_all

theorem Counts.one {s f g : Nat} (h : Counts st) (h0 : (st.sess s).interest - 1 = 0) (hf : (st.flow f).opening = some s) (hg : (st.flow g).opening = some s) : f = g := by
  obtain ⟨l, h1, h2, h3⟩ := h s
  have a1 := (h3 f).mpr hf
  have a2 := (h3 g).mpr hg
  match l, h1, a1, a2, h2 with
  | [], _, a1, _, _ => simp at a1
  | [x], _, a1, a2, _ => simp at a1 a2; omega
  | x :: y :: l, _, _, _, h2 => simp at h2; omega

theorem Counts.pos {s f : Nat} (h : Counts st) (hf : (st.flow f).opening = some s) : 0 < (st.sess s).interest := by
  rcases Nat.eq_zero_or_pos (st.sess s).interest with h0 | h0
  · exact absurd hf (h.none h0)
  · exact h0

end
end Inst
end Rtmfp
