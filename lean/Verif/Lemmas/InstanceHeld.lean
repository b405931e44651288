import Verif.Lemmas.InstanceSafe
/-! # Instances: which sessions are opening, in use or waited for -/
namespace Rtmfp
namespace Inst

structure Held (st : St) : Prop where
  opening : ∀ s : Nat, s ∈ st.openingS ↔ ((st.sess s).state = .ihello ∨ (st.sess s).state = .keying ∨ ((st.sess s).state = .closed ∧ s ∈ st.openingS ∧ .didClose s true ∈ st.stack))
  table : ∀ s ∈ st.table, (st.sess s).state ≠ .closed ∨ .didClose s true ∈ st.stack
  kept : ∀ s : Nat, s < st.nS → (st.sess s).state ≠ .closed → s ∈ st.table
  once : st.table.Nodup
  made : ∀ s : Nat, s < st.nS → (st.sess s).state ≠ .unknown
  leave : ∀ s : Nat, .didClose s true ∈ st.stack → (st.sess s).state = .closed

section
variable {C : Crypto} {st st' : St} {ev : List Ev}

theorem Inv.rest (h : Inv C st) : ∀ e x : Nat, st.byEpd e = some x → st.stack = [] → (st.sess x).state = .opened := by
  intro e x hx hs
  have := (h.maps.epd _ _ hx).2.2
  simpa [Listed, hs] using this

theorem Inv.unleft (h : Inv C st) (b : Bool) : .didClose st.nS b ∉ st.stack := by intro h'; have := h.rng.frames _ h' st.nS (by simp [Frame.sids]); omega

theorem Inv.uncrashed (h : Inv C st) (w : Way C st st' ev) : st'.crashed = false := by rw [h.chk.safe h.bnd w]; exact h.safe

theorem Held.way_leave (hi : Inv C st) (h : Held st) (w : Way C st st' ev) : ∀ s : Nat, .didClose s true ∈ st'.stack → (st'.sess s).state = .closed := by
  have h1 := h.leave
  have h2 := hi.unleft true
  clear h hi
  cases w <;> grind

theorem Held.way_made (hi : Inv C st) (h : Held st) (w : Way C st st' ev) : ∀ s : Nat, s < st'.nS → (st'.sess s).state ≠ .unknown := by
  have h1 := h.made
  clear h
  cases w <;> grind

theorem Held.way_once (hi : Inv C st) (h : Held st) (w : Way C st st' ev) : st'.table.Nodup := by
  have h1 := h.once
  have h2 := hi.rng.table
  clear h hi
  cases w <;> grind

theorem Held.way_table (hi : Inv C st) (h : Held st) (w : Way C st st' ev) :
    ∀ s ∈ st'.table, (st'.sess s).state ≠ .closed ∨ .didClose s true ∈ st'.stack := by
  have h1 := h.table
  have h2 := hi.uncrashed w
  clear h hi
  cases w <;> grind

theorem Held.way_kept (hi : Inv C st) (h : Held st) (w : Way C st st' ev) :
    ∀ s : Nat, s < st'.nS → (st'.sess s).state ≠ .closed → s ∈ st'.table := by
  have h1 := h.kept
  have h2 := hi.rng.newS
  have h4 := h.leave
  clear h hi
  cases w <;> grind

theorem Held.way_opening (hi : Inv C st) (h : Held st) (w : Way C st st' ev) :
    ∀ s : Nat, s ∈ st'.openingS ↔ ((st'.sess s).state = .ihello ∨ (st'.sess s).state = .keying ∨ ((st'.sess s).state = .closed ∧ s ∈ st'.openingS ∧ .didClose s true ∈ st'.stack)) := by
  have h1 := h.opening
  have h2 := hi.rng.newS
  have h6 := hi.uncrashed w
  have h3 := hi.rest
  have h4 := h.leave
  have h5 : ∀ s b, .didClose s b ∈ st.stack → 4 ≤ (st.sess s).state.rank := by
    intro s b h'; have := hi.leaving _ h'; grind
  clear h hi
  cases w <;> grind

theorem Held.way (hi : Inv C st) (h : Held st) (w : Way C st st' ev) : Held st' :=
  ⟨h.way_opening hi w, h.way_table hi w, h.way_kept hi w, h.way_once hi w, h.way_made hi w, h.way_leave hi w⟩

theorem Held.init : Held Inst.init := by
  constructor <;> simp [Inst.init, Sess.new]

@[grind] def Frame.opens (o f : Nat) : Frame → Prop
  | .tellOpened s fs => s = o ∧ f ∈ fs
  | _ => False

@[grind] def Frame.closes (o f : Nat) : Frame → Prop
  | .tellOpening s fs => s = o ∧ f ∈ fs
  | .flowDidClose g s => s = o ∧ g = f
  | _ => False

/-- some frame will tell the flow that the session opened -/
def Opens (o f : Nat) (l : List Frame) : Prop := ∃ fr ∈ l, fr.opens o f

/-- some frame will tell the flow that the session closed -/
def Closes (o f : Nat) (l : List Frame) : Prop := ∃ fr ∈ l, fr.closes o f

@[simp, grind =] theorem Opens.nil {o f : Nat} : Opens o f [] ↔ False := by simp [Opens]
@[simp, grind =] theorem Opens.cons {o f : Nat} {fr : Frame} {l : List Frame} : Opens o f (fr :: l) ↔ fr.opens o f ∨ Opens o f l := by simp [Opens]
@[simp, grind =] theorem Opens.append {o f : Nat} {a l : List Frame} : Opens o f (a ++ l) ↔ Opens o f a ∨ Opens o f l := by
  simp only [Opens, List.mem_append]; grind
@[simp, grind =] theorem Closes.nil {o f : Nat} : Closes o f [] ↔ False := by simp [Closes]
@[simp, grind =] theorem Closes.cons {o f : Nat} {fr : Frame} {l : List Frame} : Closes o f (fr :: l) ↔ fr.closes o f ∨ Closes o f l := by simp [Closes]
@[simp, grind =] theorem Closes.append {o f : Nat} {a l : List Frame} : Closes o f (a ++ l) ↔ Closes o f a ∨ Closes o f l := by
  simp only [Closes, List.mem_append]; grind

/-- a flow waits for a session that is opening, or is just about to hear what came of it -/
@[grind] def Awaits (st : St) (f o : Nat) : Prop :=
  (st.sess o).state = .ihello ∨ (st.sess o).state = .keying ∨ ((st.sess o).state = .opened ∧ Opens o f st.stack) ∨
  ((st.sess o).state = .closed ∧ (.didClose o true ∈ st.stack ∨ Closes o f st.stack))

def Waits (st : St) : Prop := ∀ f o : Nat, (st.flow f).opening = some o → Awaits st f o

theorem Shape.opens {l : List Frame} {o f : Nat} (h : Shape st l) (ho : Opens o f l) : (st.sess o).state = .opened := by
  induction l with
  | nil => simp at ho
  | cons x l ih =>
    rcases Opens.cons.mp ho with h1 | h1
    · have := h.2.1
      clear ih h ho
      cases x <;> grind
    · exact ih h.2.2 h1

theorem Waits.way (hi : Inv C st) (hi' : Inv C st') (hh : Held st) (h : Waits st) (w : Way C st st' ev) : Waits st' := by
  have h2 := hi'.safe
  have h3 := hi.bnd.waits
  have h4 := hi.bnd.bound
  have h5 := hi.rng.newS
  have h6 : ∀ s fs rest, st.stack = .tellWillOpen s fs :: rest → (st.sess s).state = .keying := by
    intro s fs rest e; have := hi.shape; rw [e] at this; exact this.2.1
  have h7 : ∀ s : Nat, s ∈ st.openingS → (st.sess s).state = .ihello ∨ (st.sess s).state = .keying ∨ ((st.sess s).state = .closed ∧ .didClose s true ∈ st.stack) := by
    intro s hs; have := (hh.opening s).mp hs; grind
  have h8 := hh.leave
  have h9 := hi.rng.opening
  have h10 : ∀ o f, Opens o f st'.stack → (st'.sess o).state = .opened := fun o f => hi'.shape.opens
  clear hi hi' hh
  unfold Waits at h ⊢
  intro f o
  replace h := h f
  cases w
  all_goals grind

end
end Inst
end Rtmfp
