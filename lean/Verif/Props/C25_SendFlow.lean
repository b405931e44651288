import Verif.Lemmas.SendEvolve
import Verif.Lemmas.SendFate
import Verif.Lemmas.SendDemo

/-! # C25 (sending side): notifications and refusals -/

namespace Rtmfp
namespace SS

/-- no calls of the user are answered or made any more -/
def Shut (f : SF) : Prop := f.baseOpen = false ∧ f.onException = false

theorem Evolves.shut {d : Bool} {f g : SF} (h : Evolves d f g) (hf : Shut f) : Shut g :=
  ⟨Bool.eq_false_iff.mpr fun k => absurd (h.base k) (by simp [hf.1]), Bool.eq_false_iff.mpr fun k => absurd (h.exc k) (by simp [hf.2])⟩

theorem close_shut (s : SS) (i : Nat) (now : Int) (rid : Nat) (names : Nat → Nat) : Shut ((s.close i now rid names).flow i) := by
  rw [close]
  have h0 : Shut ((s.setFlow i { s.flow i with onException := false, baseOpen := false }).flow i) := by rw [setFlow_same]; exact ⟨rfl, rfl⟩
  have h1 := (closeState_evolves _ i now rid names i).shut h0
  dsimp only
  split
  · exact (gotoClosed_evolves _ _ i).shut h1
  · exact h1

theorem exceptionReport_shut (s : SS) (i : Nat) (now : Int) (rid : Nat) (names : Nat → Nat) :
    Shut ((s.onExceptionReport i now rid names).1.flow i) ∧ (s.onExceptionReport i now rid names).2.1 = (s.flow i).onException := by
  rw [onExceptionReport]
  exact ⟨close_shut _ i now rid names, rfl⟩

theorem didClose_shut (s : SS) (i : Nat) (now : Int) (rid : Nat) (names : Nat → Nat) :
    Shut ((s.onSessionDidClose i now rid names).1.flow i) ∧ (s.onSessionDidClose i now rid names).2.1 = (s.flow i).onException := by
  rw [onSessionDidClose]
  obtain ⟨a, b⟩ := exceptionReport_shut s i now rid names
  exact ⟨by rw [setFlow_same]; exact a, b⟩

/-- how often the exception callback of a flow is called -/
def excCount (i : Nat) (evs : List Ev) : Nat := evs.countP fun e => match e with | .exception j => j == i | _ => false

theorem excCount_append (i : Nat) (a b : List Ev) : excCount i (a ++ b) = excCount i a + excCount i b := List.countP_append

theorem excCount_fins (i : Nat) (l : List (Nat × Bool)) : excCount i (fins l) = 0 := by
  rw [excCount, List.countP_eq_zero]
  intro e he
  obtain ⟨x, _, rfl⟩ := List.mem_map.mp he
  simp

theorem excCount_exc (i j : Nat) (b : Bool) : excCount i ((excOf j b).map Ev.exception) = if j = i ∧ b = true then 1 else 0 := by
  rw [excOf]
  cases b
  · simp [excCount]
  · by_cases h : j = i <;> simp [excCount, h]

theorem closeFlows_exc (now : Int) (i : Nat) (l : List Nat) : ∀ s : SS, l.Nodup →
    (excCount i ((closeFlows now s l).2.1.map Ev.exception) = 0 ∨
    (excCount i ((closeFlows now s l).2.1.map Ev.exception) = 1 ∧ i ∈ l ∧ (s.flow i).onException = true ∧ Shut ((closeFlows now s l).1.flow i))) := by
  induction l with
  | nil => intro s _; left; simp [closeFlows, excCount]
  | cons j l ih =>
    intro s hn
    rw [closeFlows]
    dsimp only
    obtain ⟨a, b⟩ := didClose_shut s j now 0 id
    rw [List.map_append, excCount_append, excCount_exc, b]
    have hrest := closeFlows_evolves now l (s.onSessionDidClose j now 0 id).1
    by_cases e : j = i
    · subst e
      have h0 : excCount j ((closeFlows now (s.onSessionDidClose j now 0 id).1 l).2.1.map Ev.exception) = 0 := by
        rcases ih (s.onSessionDidClose j now 0 id).1 hn.of_cons with h | ⟨_, h, _⟩
        · exact h
        · exact absurd h (List.nodup_cons.mp hn).1
      rw [h0]
      by_cases ho : (s.flow j).onException = true
      · right; rw [if_pos ⟨rfl, ho⟩]; exact ⟨rfl, by simp, ho, (hrest j).shut a⟩
      · left; rw [if_neg (fun h => ho h.2)]
    · rw [if_neg (fun h => e h.1), Nat.zero_add]
      rcases ih (s.onSessionDidClose j now 0 id).1 hn.of_cons with h | ⟨h1, h2, h3, h4⟩
      · exact Or.inl h
      · exact Or.inr ⟨h1, List.mem_cons_of_mem _ h2, (didClose_evolves s j now 0 id i).exc h3, h4⟩

/-- one thing happens: the callback of a flow is called at most once, and then not any more -/
theorem step_exc {ops : List Op} {s t : SS} {evs : List Ev} {op : Op} {es : List Ev} (h : Exec ops s evs) (ha : Allowed ops s op) (hs : step s op = some (t, es)) (i : Nat) :
    excCount i es = 0 ∨ (excCount i es = 1 ∧ (s.flow i).onException = true ∧ (s.flow i).state ≠ .closed ∧ Shut (t.flow i)) := by
  have hb := exec_books h
  cases op with
  | openFlow j m a p =>
    rw [step] at hs
    simp only [Option.some.injEq, Prod.mk.injEq] at hs
    rw [← hs.2]; left; split <;> rfl
  | sessionOpen => rw [step] at hs; simp only [Option.some.injEq, Prod.mk.injEq] at hs; rw [← hs.2]; exact Or.inl rfl
  | bind j fid => rw [step] at hs; simp only [Option.some.injEq, Prod.mk.injEq] at hs; rw [← hs.2]; exact Or.inl rfl
  | write j msg now a b rid names =>
    rw [step] at hs
    simp only [Option.some.injEq] at hs
    left
    cases hw : s.write j msg now a b rid names with
    | none => rw [hw, writeRes] at hs; rw [← (Prod.mk.inj hs).2]; rfl
    | some u => rw [hw, writeRes] at hs; rw [← (Prod.mk.inj hs).2]; rfl
  | close j now rid names => rw [step] at hs; simp only [Option.some.injEq, Prod.mk.injEq] at hs; rw [← hs.2]; exact Or.inl rfl
  | setOnException j => rw [step] at hs; simp only [Option.some.injEq, Prod.mk.injEq] at hs; rw [← hs.2]; exact Or.inl rfl
  | setPriority j pri =>
    rw [step, setPriority] at hs
    dsimp only at hs
    split at hs
    · cases hs
    · simp only [priRes, Option.some.injEq, Prod.mk.injEq] at hs
      rw [← hs.2]; exact Or.inl rfl
  | receipt op => rw [step] at hs; simp only [Option.some.injEq, Prod.mk.injEq] at hs; rw [← hs.2]; exact Or.inl (excCount_fins _ _)
  | trim j now => rw [step] at hs; simp only [Option.some.injEq, Prod.mk.injEq] at hs; rw [← hs.2]; exact Or.inl (excCount_fins _ _)
  | transmit j p pri now gone =>
    rw [step] at hs
    simp only [sentRes, Option.some.injEq, Prod.mk.injEq] at hs
    rw [← hs.2, excCount_append, excCount_fins]
    left; split <;> rfl
  | ack j b rs => rw [step] at hs; simp only [Option.some.injEq, Prod.mk.injEq] at hs; rw [← hs.2]; exact Or.inl (excCount_fins _ _)
  | afterAcks c => rw [step] at hs; simp only [Option.some.injEq, Prod.mk.injEq] at hs; rw [← hs.2]; exact Or.inl rfl
  | exceptionReport j now rid names =>
    rw [step] at hs
    simp only [Option.some.injEq, Prod.mk.injEq] at hs
    obtain ⟨a, b⟩ := exceptionReport_shut s j now rid names
    rw [← hs.2, ← hs.1, excCount_append, excCount_fins, excCount_exc, b]
    by_cases e : j = i ∧ (s.flow j).onException = true
    · obtain ⟨rfl, e2⟩ := e
      right; rw [if_pos ⟨rfl, e2⟩]
      refine ⟨rfl, e2, fun k => ?_, a⟩
      have h1 : (s.flow j).bound = true := ha.1
      rw [((hb.flow j).ok.closed k)] at h1; cases h1
    · left; rw [if_neg e]
  | timeout => rw [step] at hs; simp only [Option.some.injEq, Prod.mk.injEq] at hs; rw [← hs.2]; exact Or.inl rfl
  | lingerAlarm j => rw [step] at hs; simp only [Option.some.injEq, Prod.mk.injEq] at hs; rw [← hs.2]; exact Or.inl rfl
  | closeSession now =>
    rw [step] at hs
    simp only [Option.some.injEq, Prod.mk.injEq] at hs
    rw [← hs.2, ← hs.1, excCount_append, excCount_fins, closeSession]
    rcases closeFlows_exc now i s.sendFlows { s with isOpen := false } hb.nodup with h | ⟨h1, h2, h3, h4⟩
    · exact Or.inl h
    · right
      refine ⟨h1, h3, fun k => ?_, h4⟩
      have := (hb.bound i).mp h2
      rw [((hb.flow i).ok.closed k)] at this; cases this
  | openingFailed j now =>
    rw [step] at hs
    simp only [Option.some.injEq, Prod.mk.injEq] at hs
    obtain ⟨a, b⟩ := didClose_shut s j now 0 id
    rw [← hs.2, ← hs.1, excCount_append, excCount_fins, excCount_exc, b]
    by_cases e : j = i ∧ (s.flow j).onException = true
    · obtain ⟨rfl, e2⟩ := e
      right; rw [if_pos ⟨rfl, e2⟩]
      refine ⟨rfl, e2, fun k => ?_, a⟩
      have h1 : (s.flow j).state = .opened := ha.2
      rw [k] at h1; cases h1
    · left; rw [if_neg e]

/-- a flow whose user closed it, or was told of its end, stays shut -/
theorem step_shut {ops : List Op} {s t : SS} {op : Op} {es : List Ev} (ha : Allowed ops s op) (hs : step s op = some (t, es)) {i : Nat} {m : Bytes} {a : Option Nat} {p : Nat}
    (ho : Op.openFlow i m a p ∈ ops) (h : Shut (s.flow i)) : Shut (t.flow i) := by
  rcases step_evolves hs i with e | ⟨m', a', p', rfl, _, _⟩ | ⟨fid, rfl, _, e⟩ | ⟨rfl, e⟩
  · exact e.shut h
  · exact absurd ho (ha.2.1 m a p)
  · rw [e]; exact h
  · have h1 : (s.flow i).baseOpen = true := ha
    rw [h.1] at h1; cases h1

theorem exec_exc {ops : List Op} {s : SS} {evs : List Ev} (h : Exec ops s evs) (i : Nat) :
    excCount i evs ≤ 1 ∧ (excCount i evs = 1 → Shut (s.flow i) ∧ ∃ m a p, Op.openFlow i m a p ∈ ops) := by
  induction h with
  | nil => exact ⟨Nat.zero_le _, fun k => by cases k⟩
  | @snoc ops s evs op t es he ha hs ih =>
    rw [excCount_append]
    rcases step_exc he ha hs i with h0 | ⟨h1, h2, h3, h4⟩
    · rw [h0]
      refine ⟨ih.1, fun k => ?_⟩
      obtain ⟨k1, m, a, p, k2⟩ := ih.2 k
      exact ⟨step_shut ha hs k2 k1, m, a, p, List.mem_append_left _ k2⟩
    · have hz : excCount i evs = 0 := by
        have := ih.1
        have hne : excCount i evs ≠ 1 := fun k => by rw [(ih.2 k).1.2] at h2; cases h2
        omega
      obtain ⟨m, a, p, ho, _⟩ := opened_was_opened he h3
      rw [hz, h1]
      exact ⟨Nat.le_refl _, fun _ => ⟨h4, m, a, p, List.mem_append_left _ ho⟩⟩

theorem refused_write {s : SS} {i : Nat} (h : Shut (s.flow i)) (msg : Bytes) (now a b : Int) (rid : Nat) (names : Nat → Nat) :
    step s (.write i msg now a b rid names) = some (s, [.refused]) := by
  rw [step, write, h.1]; rfl

end SS

open SS

/-- C25. The exception callback of a flow is called at most once, whatever happens; and afterwards what is written to the flow is refused. -/
theorem C25_exception_once {ops : List Op} {s : SS} {evs : List Ev} (h : SS.Exec ops s evs) (i : Nat) :
    (evs.countP fun e => match e with | .exception j => j == i | _ => false) ≤ 1 ∧
    (Ev.exception i ∈ evs → ∀ msg now a b rid names, step s (.write i msg now a b rid names) = some (s, [.refused])) := by
  obtain ⟨h1, h2⟩ := exec_exc h i
  refine ⟨h1, fun hm msg now a b rid names => refused_write (h2 ?_).1 _ _ _ _ _ _⟩
  have : 0 < excCount i evs := List.countP_pos_iff.mpr ⟨_, hm, by simp⟩
  omega

/-- a session closes under a flow that has an exception callback -/
def excOps : List Op := [.openFlow 0 [0x61] none 3, .sessionOpen, .bind 0 2, .setOnException 0, .closeSession 5]

/-- the states after them -/
def excDemo : Nat → SS × List Ev
  | 0 => (init, [])
  | n + 1 => match excOps[n]? with
    | none => excDemo n
    | some op => ((go (excDemo n).1 op).1, (excDemo n).2 ++ (go (excDemo n).1 op).2)

theorem excDemo5 : SS.Exec excOps (excDemo 5).1 (excDemo 5).2 := by
  have h0 : SS.Exec (excOps.take 0) (excDemo 0).1 (excDemo 0).2 := .nil
  have h1 : SS.Exec (excOps.take 1) (excDemo 1).1 (excDemo 1).2 := h0.then _ ⟨rfl, by simp, by simp⟩ rfl
  have h2 : SS.Exec (excOps.take 2) (excDemo 2).1 (excDemo 2).2 := h1.then .sessionOpen trivial rfl
  have h3 : SS.Exec (excOps.take 3) (excDemo 3).1 (excDemo 3).2 := h2.then (.bind 0 2) ⟨rfl, by decide +kernel, by decide, by decide +kernel⟩ rfl
  have h4 : SS.Exec (excOps.take 4) (excDemo 4).1 (excDemo 4).2 :=
    h3.then (.setOnException 0) (by show ((excDemo 3).1.flow 0).baseOpen = true; decide +kernel) rfl
  exact h4.then (.closeSession 5) trivial rfl

example : SS.Exec excOps (excDemo 5).1 (excDemo 5).2 ∧ Ev.exception 0 ∈ (excDemo 5).2 := ⟨excDemo5, List.mem_of_getElem? (i := 0) rfl⟩

/-- C25. What is written to a flow after its user closed it is refused, whatever happened in between. -/
theorem C25_closed_refuses {ops : List Op} {s : SS} {evs : List Ev} (h : SS.Exec ops s evs) (i : Nat) {before after : List Op} {now : Int} {rid : Nat} {names : Nat → Nat}
    (hc : ops = before ++ Op.close i now rid names :: after) {m : Bytes} {a : Option Nat} {p : Nat} (ho : Op.openFlow i m a p ∈ before)
    (msg : Bytes) (now' a' b' : Int) (rid' : Nat) (names' : Nat → Nat) :
    step s (.write i msg now' a' b' rid' names') = some (s, [.refused]) := by
  refine refused_write ?_ _ _ _ _ _ _
  clear msg now' a' b' rid' names'
  induction h generalizing after with
  | nil => simp at hc
  | @snoc ops s evs op t es he ha hs ih =>
    rcases List.eq_nil_or_concat after with rfl | ⟨after', x, rfl⟩
    · obtain ⟨hc1, hc2⟩ := List.append_inj' hc (by simp)
      have hop : op = .close i now rid names := by simpa using hc2
      subst hop
      rw [step] at hs
      simp only [Option.some.injEq, Prod.mk.injEq] at hs
      rw [← hs.1]; exact close_shut _ _ _ _ _
    · have hc' : ops ++ [op] = (before ++ Op.close i now rid names :: after') ++ [x] := by rw [hc]; simp
      obtain ⟨hc1, hc2⟩ := List.append_inj' hc' rfl
      refine step_shut ha hs (i := i) (m := m) (a := a) (p := p) ?_ (ih hc1)
      rw [hc1]; exact List.mem_append_left _ ho

example : ∃ before after now rid names, demoOps = before ++ Op.close 0 now rid names :: after ∧ Op.openFlow 0 [0x61] none 3 ∈ before ∧
    SS.Exec demoOps (demo 11).1 (demo 11).2 :=
  ⟨demoOps.take 9, demoOps.drop 10, 3, 3, demoNames 1, rfl, by simp [demoOps], demo11⟩

end Rtmfp
