import Verif.Lemmas.Writable
import Verif.Lemmas.SendDemo

/-! # C84: being told that a flow can be written to -/

namespace Rtmfp
open Writable

/-- Specification: a flow can be written to: it belongs to a session, which is open, it was not closed, and the bytes of the messages it keeps (with 64 for every fragment) are less than the
capacity set for it. -/
def CanWrite (ops : List Writable.Op) (w : Writable.WS) (i : Nat) : Prop :=
  (w.ss.flow i).bound = true ∧ w.ss.isOpen = true ∧ (w.ss.flow i).baseOpen = true ∧ ((w.ss.flow i).queue.map (fun f => f.data.length + 64)).sum < capOf i ops

namespace Writable

theorem canWrite_iff {ops : List Op} {w : WS} {evs : List Ev} (h : Exec ops w evs) (i : Nat) : CanWrite ops w i ↔ isWritable w i = true := by
  rw [isWritable_iff, (exec_flag h i).cap]
  exact Iff.rfl

/-- a call of the callback comes from the loop -/
theorem loop_told {w t : WS} {i j : Nat} {es : List Ev} (h : loop w i = (t, es)) (he : Ev.told j ∈ es) :
    j = i ∧ es = [.told i] ∧ (w.flag i).should = true ∧ isWritable w i = true ∧ t = { w with running := some i } := by
  rw [loop] at h
  split at h
  · rename_i hc
    split at h
    · obtain ⟨h1, h2⟩ := Prod.mk.inj h
      rw [← h2] at he ⊢
      simp at he
      exact ⟨he, rfl, hc.1, hc.2, h1.symm⟩
    · rw [← (Prod.mk.inj h).2] at he; cases he
  · rw [← (Prod.mk.inj h).2] at he; cases he

theorem step_told {w t : WS} {op : Op} {j : Nat} {es : List Ev} (h : step w op = some (t, es)) (he : Ev.told j ∈ es) :
    (op = .run j ∨ op = .ret j true) ∧ es = [.told j] ∧ isWritable t j = true ∧ (op = .run j → (w.flag j).should = true) := by
  cases op with
  | lib o =>
    rw [step] at h
    cases hst : w.ss.step o with
    | none => rw [hst] at h; cases h
    | some x =>
      rw [hst, libRes] at h
      simp only [Option.some.injEq, Prod.mk.injEq] at h
      rw [← h.2] at he
      simp at he
  | notify i => simp only [step, Option.some.injEq, Prod.mk.injEq] at h; rw [← h.2] at he; cases he
  | setCapacity i n => simp only [step, Option.some.injEq, Prod.mk.injEq] at h; rw [← h.2] at he; cases he
  | setHandler i => simp only [step, Option.some.injEq, Prod.mk.injEq] at h; rw [← h.2] at he; cases he
  | run i =>
    simp only [step, Option.some.injEq] at h
    obtain ⟨rfl, h2, h3, h4, h5⟩ := loop_told h he
    refine ⟨Or.inl rfl, h2, ?_, fun _ => by simpa using h3⟩
    rw [h5]; exact h4
  | ret i b =>
    simp only [step, Option.some.injEq] at h
    obtain ⟨rfl, h2, h3, h4, h5⟩ := loop_told h he
    simp only [setFlag_flag, if_true] at h3
    refine ⟨Or.inr (by rw [h3]), h2, ?_, fun e => by cases e⟩
    rw [h5]; exact h4

/-! ## executions to show that hypotheses can be met -/

/-- a step that is possible -/
def go (w : WS) (op : Op) : WS × List Ev := (step w op).getD (w, [])

/-- state and events after the first `n` of some operations -/
def after (ops : List Op) : Nat → WS × List Ev
  | 0 => (init, [])
  | n + 1 => match ops[n]? with
    | none => after ops n
    | some op => ((go (after ops n).1 op).1, (after ops n).2 ++ (go (after ops n).1 op).2)

theorem after_step {ops : List Op} (n : Nat) (op : Op) (hop : ops[n]? = some op) (h : Exec (ops.take n) (after ops n).1 (after ops n).2)
    (ha : Allowed (ops.take n) (after ops n).1 op) (ho : (step (after ops n).1 op).isSome = true) : Exec (ops.take (n + 1)) (after ops (n + 1)).1 (after ops (n + 1)).2 := by
  obtain ⟨x, hx⟩ := Option.isSome_iff_exists.mp ho
  rw [after, hop, List.take_succ, hop]
  refine .snoc h ha ?_
  dsimp only
  rw [go, hx]
  rfl

/-- A flow with little room asks to be told before its session is open; it is told when it is bound, fills its buffer, and is told again when what it wrote was acknowledged. -/
def demoA : List Op :=
  [.lib (.openFlow 0 [0x61] none 3), .setHandler 0, .setCapacity 0 100, .notify 0, .lib .sessionOpen, .lib (.bind 0 2), .run 0,
   .lib (.write 0 (List.replicate 40 7) 0 1000000000 1000000000 1 (SS.demoNames 1)), .ret 0 true, .lib (.transmit 0 SS.demoPacket 3 1 false), .lib (.ack 0 5000 [(0, 1)]), .run 0, .ret 0 false]

theorem demoA0 : Exec (demoA.take 0) (after demoA 0).1 (after demoA 0).2 := .nil
theorem demoA1 : Exec (demoA.take 1) (after demoA 1).1 (after demoA 1).2 := after_step 0 _ rfl demoA0 ⟨rfl, by simp [libOps], by simp⟩ rfl
theorem demoA2 : Exec (demoA.take 2) (after demoA 2).1 (after demoA 2).2 := after_step 1 _ rfl demoA1 ⟨_, _, _, by simp [demoA]; exact ⟨rfl, rfl, rfl⟩⟩ rfl
theorem demoA3 : Exec (demoA.take 3) (after demoA 3).1 (after demoA 3).2 := after_step 2 _ rfl demoA2 ⟨_, _, _, by simp [demoA]; exact ⟨rfl, rfl, rfl⟩⟩ rfl
theorem demoA4 : Exec (demoA.take 4) (after demoA 4).1 (after demoA 4).2 := after_step 3 _ rfl demoA3 (by show Op.setHandler 0 ∈ _; simp [demoA]) rfl
theorem demoA5 : Exec (demoA.take 5) (after demoA 5).1 (after demoA 5).2 := after_step 4 _ rfl demoA4 trivial rfl
theorem demoA6 : Exec (demoA.take 6) (after demoA 6).1 (after demoA 6).2 := after_step 5 _ rfl demoA5 ⟨rfl, by decide +kernel, by decide, by decide +kernel⟩ rfl
theorem demoA7 : Exec (demoA.take 7) (after demoA 7).1 (after demoA 7).2 := after_step 6 _ rfl demoA6 ⟨by decide +kernel, by decide +kernel⟩ rfl
theorem demoA8 : Exec (demoA.take 8) (after demoA 8).1 (after demoA 8).2 :=
  after_step 7 _ rfl demoA7 ⟨by decide +kernel, SS.demoNames_good _ (by decide) _ (by decide +kernel), by decide⟩ rfl
theorem demoA9 : Exec (demoA.take 9) (after demoA 9).1 (after demoA 9).2 := after_step 8 _ rfl demoA8 (by show (after demoA 8).1.running = some 0; decide +kernel) rfl
theorem demoA10 : Exec (demoA.take 10) (after demoA 10).1 (after demoA 10).2 := after_step 9 _ rfl demoA9 ⟨by decide +kernel, SS.demoPacket_inv⟩ rfl
theorem demoA11 : Exec (demoA.take 11) (after demoA 11).1 (after demoA 11).2 :=
  after_step 10 _ rfl demoA10 (by show ((after demoA 10).1.ss.flow 0).bound = true; decide +kernel) rfl
theorem demoA12 : Exec (demoA.take 12) (after demoA 12).1 (after demoA 12).2 := after_step 11 _ rfl demoA11 ⟨by decide +kernel, by decide +kernel⟩ rfl

/-- A flow asks to be told while its buffer has no room at all, and then its capacity is raised. -/
def demoB : List Op := [.lib (.openFlow 0 [0x61] none 3), .setHandler 0, .setCapacity 0 0, .notify 0, .lib .sessionOpen, .lib (.bind 0 2), .run 0, .setCapacity 0 1000]

theorem demoB0 : Exec (demoB.take 0) (after demoB 0).1 (after demoB 0).2 := .nil
theorem demoB1 : Exec (demoB.take 1) (after demoB 1).1 (after demoB 1).2 := after_step 0 _ rfl demoB0 ⟨rfl, by simp [libOps], by simp⟩ rfl
theorem demoB2 : Exec (demoB.take 2) (after demoB 2).1 (after demoB 2).2 := after_step 1 _ rfl demoB1 ⟨_, _, _, by simp [demoB]; exact ⟨rfl, rfl, rfl⟩⟩ rfl
theorem demoB3 : Exec (demoB.take 3) (after demoB 3).1 (after demoB 3).2 := after_step 2 _ rfl demoB2 ⟨_, _, _, by simp [demoB]; exact ⟨rfl, rfl, rfl⟩⟩ rfl
theorem demoB4 : Exec (demoB.take 4) (after demoB 4).1 (after demoB 4).2 := after_step 3 _ rfl demoB3 (by show Op.setHandler 0 ∈ _; simp [demoB]) rfl
theorem demoB5 : Exec (demoB.take 5) (after demoB 5).1 (after demoB 5).2 := after_step 4 _ rfl demoB4 trivial rfl
theorem demoB6 : Exec (demoB.take 6) (after demoB 6).1 (after demoB 6).2 := after_step 5 _ rfl demoB5 ⟨rfl, by decide +kernel, by decide, by decide +kernel⟩ rfl
theorem demoB7 : Exec (demoB.take 7) (after demoB 7).1 (after demoB 7).2 := after_step 6 _ rfl demoB6 ⟨by decide +kernel, by decide +kernel⟩ rfl
theorem demoB8 : Exec demoB (after demoB 8).1 (after demoB 8).2 :=
  after_step (ops := demoB) 7 (.setCapacity 0 1000) rfl demoB7 ⟨_, _, _, by simp [demoB]; exact ⟨rfl, rfl, rfl⟩⟩ rfl

end Writable

/-- A flow that can be written to, and whose user wants to be told (asked, or answered true the last time), is being told, or the task that will tell it has been given to the platform; when
it runs, the callback is called. -/
theorem C84_told_partial {ops : List Writable.Op} {w : Writable.WS} {evs : List Writable.Ev} (h : Writable.Exec ops w evs) (i : Nat) (hw : wants i ops = true) (hc : CanWrite ops w i)
    (hr : raised i ops = false) :
    w.running = some i ∨ (0 < (w.flag i).tasks ∧ (w.running = none → ∃ t, Writable.step w (.run i) = some (t, [.told i]) ∧ t.running = some i)) := by
  have k := exec_flag h i
  have hs : (w.flag i).should = true := by rw [k.should]; exact hw
  have hi := (canWrite_iff h i).mp hc
  rcases k.wake hs hi hr with e | e
  · refine Or.inr ⟨by rw [exec_tasks h i, e]; decide, fun _ => ⟨{ w.setFlag i { w.flag i with pending := false, tasks := (w.flag i).tasks - 1 } with running := some i }, ?_, rfl⟩⟩
    have hh : (w.flag i).handler = true := (k.hand (k.asked hs)).resolve_right (by rw [hc.2.2.1]; simp)
    have hi2 : isWritable (w.setFlag i { w.flag i with pending := false, tasks := (w.flag i).tasks - 1 }) i = true := by
      rw [isWritable_iff] at hi ⊢
      simpa using hi
    rw [Writable.step, loop, if_pos ⟨by simpa using hs, hi2⟩, if_pos (by simpa using hh)]
  · exact Or.inl e

example : Writable.Exec (demoA.take 11) (after demoA 11).1 (after demoA 11).2 ∧ wants 0 (demoA.take 11) = true ∧ CanWrite (demoA.take 11) (after demoA 11).1 0 ∧ raised 0 (demoA.take 11) = false ∧
    ¬ CanWrite (demoA.take 10) (after demoA 10).1 0 :=
  ⟨demoA11, by decide, ⟨by decide +kernel, by decide +kernel, by decide +kernel, by decide +kernel⟩, by decide, fun h => absurd h.2.2.2 (by decide +kernel)⟩

/-- A task that was given to the platform is not forgotten until it runs. -/
theorem C84_kept {w t : Writable.WS} {es : List Writable.Ev} {op : Writable.Op} (hs : Writable.step w op = some (t, es)) (i : Nat) (hop : op ≠ .run i) :
    (w.flag i).tasks ≤ (t.flag i).tasks := (step_tasks hs i).1.resolve_right (fun k => hop k.1)

example : ((after demoA 11).1.flag 0).tasks = 1 ∧ ((after demoA 10).1.flag 0).tasks = 0 := by decide +kernel

/-- The platform is never given a second task for a flow while it has one. -/
theorem C84_one {ops : List Writable.Op} {w : Writable.WS} {evs : List Writable.Ev} (h : Writable.Exec ops w evs) (i : Nat) : (w.flag i).tasks ≤ 1 := by
  rw [exec_tasks h i]
  split <;> omega

/-- asking again when a task is pending -/
example : Writable.Exec (demoA.take 11) (after demoA 11).1 (after demoA 11).2 ∧ Writable.Allowed (demoA.take 11) (after demoA 11).1 (.notify 0) :=
  ⟨demoA11, by show Writable.Op.setHandler 0 ∈ _; simp [demoA]⟩

/-- The callback is called only when the flow can be written to and its user wants to be told, once for every time the task runs or the callback answers true. -/
theorem C84_only {ops : List Writable.Op} {w t : Writable.WS} {evs es : List Writable.Ev} {op : Writable.Op} (h : Writable.Exec ops w evs) (ha : Writable.Allowed ops w op)
    (hs : Writable.step w op = some (t, es)) (i : Nat) (he : Writable.Ev.told i ∈ es) :
    es = [.told i] ∧ (op = .run i ∨ op = .ret i true) ∧ wants i (ops ++ [op]) = true ∧ CanWrite (ops ++ [op]) t i := by
  obtain ⟨h1, h2, h3, h4⟩ := step_told hs he
  refine ⟨h2, h1, ?_, (canWrite_iff (h.snoc ha hs) i).mpr h3⟩
  rw [wants_snoc]
  rcases h1 with rfl | rfl
  · show wants i ops = true
    rw [← (exec_flag h i).should]; exact h4 rfl
  · simp [wantsStep]

/-- told when the flow is bound, and again when there is room -/
example : (after demoA 7).2.length = 1 ∧ Writable.Ev.told 0 ∈ (go (after demoA 6).1 (.run 0)).2 ∧ Writable.Ev.told 0 ∈ (go (after demoA 11).1 (.run 0)).2 := ⟨rfl, .head _, .head _⟩

/-- After the callback answered, it is called again at once if it answered true and the flow can still be written to, and not otherwise. -/
theorem C84_again {ops : List Writable.Op} {w : Writable.WS} {evs : List Writable.Ev} (h : Writable.Exec ops w evs) (i : Nat) (b : Bool) (ha : Writable.Allowed ops w (.ret i b)) :
    ∃ t es, Writable.step w (.ret i b) = some (t, es) ∧ (b = true ∧ CanWrite ops w i → es = [.told i]) ∧ (¬ (b = true ∧ CanWrite ops w i) → es = [] ∧ t.running = none) := by
  have k := exec_flag h i
  have hrun : w.running = some i := ha
  have hw : isWritable (w.setFlag i { w.flag i with should := b }) i = true ↔ isWritable w i = true := by
    rw [isWritable_iff, isWritable_iff]; simp
  refine ⟨(loop (w.setFlag i { w.flag i with should := b }) i).1, (loop (w.setFlag i { w.flag i with should := b }) i).2, rfl, fun hb => ?_, fun hb => ?_⟩
  · have hh : (w.flag i).handler = true := (k.hand (k.asked (k.run hrun))).resolve_right (by rw [hb.2.2.2.1]; simp)
    rw [loop, if_pos ⟨by simpa using hb.1, hw.mpr ((canWrite_iff h i).mp hb.2)⟩, if_pos (by simpa using hh)]
  · rw [loop, if_neg]
    · exact ⟨rfl, rfl⟩
    · rintro ⟨h1, h2⟩
      exact hb ⟨by simpa using h1, (canWrite_iff h i).mpr (hw.mp h2)⟩

example : Writable.Allowed (demoA.take 12) (after demoA 12).1 (.ret 0 true) ∧ CanWrite (demoA.take 12) (after demoA 12).1 0 ∧ ¬ CanWrite (demoA.take 8) (after demoA 8).1 0 :=
  ⟨by show (after demoA 12).1.running = some 0; decide +kernel, ⟨by decide +kernel, by decide +kernel, by decide +kernel, by decide +kernel⟩, fun h => absurd h.2.2.2 (by decide +kernel)⟩

/-- The callback of a flow that was closed is never called again. -/
theorem C84_closed {ops : List Writable.Op} {w t : Writable.WS} {evs es : List Writable.Ev} {op : Writable.Op} (h : Writable.Exec ops w evs) (ha : Writable.Allowed ops w op)
    (hs : Writable.step w op = some (t, es)) (i : Nat) (before after : List Writable.Op) (now : Int) (rid : Nat) (names : Nat → Nat) (hops : ops = before ++ .lib (.close i now rid names) :: after)
    (ho : opened i before) : Writable.Ev.told i ∉ es := by
  have key : ∀ {ops w evs}, Writable.Exec ops w evs → ∀ after, ops = before ++ .lib (.close i now rid names) :: after → (w.ss.flow i).baseOpen = false := by
    intro ops w evs h
    induction h with
    | nil => intro after e; simp at e
    | @snoc ops w evs op t es he ha hs ih =>
      intro after e
      have hlast : after = [] ∧ ops = before ∧ op = .lib (.close i now rid names) ∨ ∃ a, ops = before ++ .lib (.close i now rid names) :: a := by
        rcases List.eq_nil_or_concat after with rfl | ⟨a, x, rfl⟩
        · left
          have := List.append_inj' e rfl
          exact ⟨rfl, this.1, (List.cons.inj this.2).1⟩
        · right
          refine ⟨a, ?_⟩
          have e2 : ops ++ [op] = (before ++ .lib (.close i now rid names) :: a) ++ [x] := by rw [e]; simp
          exact (List.append_inj' e2 rfl).1
      rcases hlast with ⟨_, rfl, rfl⟩ | ⟨a, ha2⟩
      · rw [Writable.step] at hs
        cases hst : w.ss.step (.close i now rid names) with
        | none => rw [hst] at hs; cases hs
        | some x =>
          rw [hst, libRes] at hs
          simp only [Option.some.injEq, Prod.mk.injEq] at hs
          rw [← hs.1, (queueIf_ss _ _).1]
          simp only [SS.step, Option.some.injEq] at hst
          rw [← hst]
          exact close_shut _ _ _ _ _
      · have hb := ih a ha2
        cases op with
        | lib o =>
          rw [Writable.step] at hs
          cases hst : w.ss.step o with
          | none => rw [hst] at hs; cases hs
          | some x =>
            obtain ⟨u, ev⟩ := x
            rw [hst, libRes] at hs
            simp only [Option.some.injEq, Prod.mk.injEq] at hs
            rw [← hs.1, (queueIf_ss _ _).1]
            cases hu : (u.flow i).baseOpen with
            | false => rfl
            | true =>
              have := step_base hst (by
                rintro m x p rfl
                obtain ⟨m', a', p', e⟩ := ho
                exact ha.2.1 m' a' p' (mem_libOps.mpr (by rw [ha2]; simp [e]))) hu
              rw [hb] at this; cases this
        | notify j =>
          simp only [Writable.step, Option.some.injEq, Prod.mk.injEq] at hs
          rw [← hs.1]
          exact (congrArg (fun s : SS => (s.flow i).baseOpen) (queueIf_ss (w.setFlag j { w.flag j with should := true }) (some j)).1).trans hb
        | setCapacity j n => simp only [Writable.step, Option.some.injEq, Prod.mk.injEq] at hs; rw [← hs.1]; exact hb
        | setHandler j => simp only [Writable.step, Option.some.injEq, Prod.mk.injEq] at hs; rw [← hs.1]; exact hb
        | run j =>
          simp only [Writable.step, Option.some.injEq] at hs
          have e := loop_ss (w.setFlag j { w.flag j with pending := false, tasks := (w.flag j).tasks - 1 }) j
          rw [hs] at e
          rw [e]; exact hb
        | ret j b =>
          simp only [Writable.step, Option.some.injEq] at hs
          have e := loop_ss (w.setFlag j { w.flag j with should := b }) j
          rw [hs] at e
          rw [e]; exact hb
  intro he
  have hc := (C84_only h ha hs i he).2.2.2.2.2.1
  have := key (h.snoc ha hs) (after ++ [op]) (by rw [hops]; simp)
  rw [this] at hc; cases hc

/-- closing while being asked to write more -/
example : opened 0 (demoA.take 12) ∧ Writable.Allowed (demoA.take 12) (after demoA 12).1 (.lib (.close 0 3 3 (SS.demoNames 1))) :=
  ⟨⟨[0x61], none, 3, by simp [demoA]⟩, by decide +kernel, SS.demoNames_good _ (by decide) _ (by decide +kernel)⟩

namespace Writable
open SS (setFlow_same setFlow_other)

/-- Neither the user nor the other end does anything concerning flow 0 that would make the library look again, and the session isn't closed. -/
def Quiet : Op → Prop
  | .notify i => i ≠ 0
  | .lib (.write i _ _ _ _ _ _) => i ≠ 0
  | .lib (.close i _ _ _) => i ≠ 0
  | .lib (.ack i _ _) => i ≠ 0
  | .lib (.exceptionReport i _ _ _) => i ≠ 0
  | .lib (.closeSession _) => False
  | .setCapacity i _ => i ≠ 0
  | _ => True

/-- nothing will call the user -/
structure Lost (ops : List Op) (w : WS) : Prop where
  queue : (w.ss.flow 0).queue = []
  bound : (w.ss.flow 0).bound = true
  base : (w.ss.flow 0).baseOpen = true
  pending : (w.flag 0).pending = false
  running : w.running ≠ some 0
  wants : wants 0 ops = true
  cap : 0 < capOf 0 ops
  opened : opened 0 ops

theorem buffered_nil {q : List SFrag} (h : buffered q = 0) : q = [] := by
  cases q with
  | nil => rfl
  | cons a q => simp [buffered, queueSize, FRAGMENT_SIZE_BIAS] at h

/-- the flow stays as it is -/
theorem lost_flow {ops : List SS.Op} {s t : SS} {o : SS.Op} {es : List SS.Ev} (hbk : SS.Books s) (ha : SS.Allowed ops s o) (hs : s.step o = some (t, es)) (hq : Quiet (.lib o))
    (h1 : (s.flow 0).queue = []) (h2 : (s.flow 0).bound = true) (h3 : (s.flow 0).baseOpen = true) (hop : ∃ m a p, SS.Op.openFlow 0 m a p ∈ ops) :
    notifies s o ≠ some 0 ∧ (t.flow 0).queue = [] ∧ (t.flow 0).bound = true ∧ (t.flow 0).baseOpen = true := by
  have hst : (s.flow 0).state = .opened := (hbk.flow 0).ok.opened h3
  cases o with
  | openFlow i m a p =>
    have hi : 0 ≠ i := by
      rintro rfl
      obtain ⟨m', a', p', e⟩ := hop
      exact ha.2.1 m' a' p' e
    rw [SS.step] at hs
    simp only [Option.some.injEq, Prod.mk.injEq] at hs
    rw [← hs.1, SS.openFlow]
    split
    · exact ⟨by simp [notifies], h1, h2, h3⟩
    · rw [setFlow_other _ _ hi]; exact ⟨by simp [notifies], h1, h2, h3⟩
  | sessionOpen =>
    rw [SS.step] at hs
    simp only [Option.some.injEq, Prod.mk.injEq] at hs
    rw [← hs.1]; exact ⟨by simp [notifies], h1, h2, h3⟩
  | bind i fid =>
    rw [SS.step] at hs
    simp only [Option.some.injEq, Prod.mk.injEq] at hs
    rw [← hs.1, SS.bind, notifies]
    split
    · exact ⟨by simp, h1, h2, h3⟩
    · rename_i hb
      have hi : 0 ≠ i := by rintro rfl; exact hb h2
      dsimp only
      rw [setFlow_other _ _ hi]
      exact ⟨by simp [Ne.symm hi], h1, h2, h3⟩
  | write i msg now a b rid names =>
    have hi : 0 ≠ i := Ne.symm hq
    rw [SS.step] at hs
    simp only [Option.some.injEq] at hs
    refine ⟨by simp [notifies], ?_⟩
    cases hw : s.write i msg now a b rid names with
    | none => rw [hw, SS.writeRes] at hs; rw [← (Prod.mk.inj hs).1]; exact ⟨h1, h2, h3⟩
    | some u =>
      rw [hw, SS.writeRes] at hs; rw [← (Prod.mk.inj hs).1]
      obtain ⟨_, fs, _, e, _⟩ := SS.write_queue hw
      rw [e, SS.queueFrags_other _ _ _ _ _ _ _ _ hi]; exact ⟨h1, h2, h3⟩
  | close i now rid names =>
    rw [SS.step] at hs
    simp only [Option.some.injEq, Prod.mk.injEq] at hs
    rw [← hs.1, SS.close_other _ _ _ _ _ (Ne.symm hq)]
    exact ⟨by simp [notifies], h1, h2, h3⟩
  | setOnException i =>
    rw [SS.step] at hs
    simp only [Option.some.injEq, Prod.mk.injEq] at hs
    rw [← hs.1]
    refine ⟨by simp [notifies], ?_⟩
    by_cases e : 0 = i
    · subst e; simpa using ⟨h1, h2, h3⟩
    · rw [setFlow_other _ _ e]; exact ⟨h1, h2, h3⟩
  | setPriority i pri =>
    rw [SS.step, SS.setPriority] at hs
    dsimp only at hs
    split at hs
    · cases hs
    · simp only [SS.priRes, Option.some.injEq, Prod.mk.injEq] at hs
      rw [← hs.1]
      refine ⟨by simp [notifies], ?_⟩
      by_cases e : 0 = i
      · subst e; simpa using ⟨h1, h2, h3⟩
      · rw [setFlow_other _ _ e]; exact ⟨h1, h2, h3⟩
  | receipt op =>
    rw [SS.step] at hs
    simp only [Option.some.injEq, Prod.mk.injEq] at hs
    rw [← hs.1]; exact ⟨by simp [notifies], h1, h2, h3⟩
  | trim i now =>
    rw [SS.step] at hs
    simp only [Option.some.injEq, Prod.mk.injEq] at hs
    rw [← hs.1, SS.trim, notifies]
    dsimp only
    by_cases e : 0 = i
    · subst e
      simp only [anyTrimmed, h1, setFlow_same]
      exact ⟨by simp, rfl, h2, h3⟩
    · rw [setFlow_other _ _ e]
      refine ⟨?_, h1, h2, h3⟩
      split
      · simp [Ne.symm e]
      · simp
  | transmit i p pri now gone =>
    rw [SS.step] at hs
    simp only [SS.sentRes, Option.some.injEq, Prod.mk.injEq] at hs
    rw [← hs.1]
    have key : ∀ u : SS, ∀ b, ((u.afterSend b).flow 0) = u.flow 0 := by
      intro u b; rw [SS.afterSend]; split <;> rfl
    rw [key, notifies]
    by_cases e : 0 = i
    · subst e
      have hr : SS.isMaybeReady (s.flow 0) = false := by simp [SS.isMaybeReady, h1]
      rw [SS.assembleData]
      refine ⟨by simp [hr], ?_⟩
      split
      · exact ⟨h1, h2, h3⟩
      · simp only [hr, if_true]; exact ⟨h1, h2, h3⟩
    · refine ⟨?_, ?_⟩
      · split
        · simp [Ne.symm e]
        · simp
      · rw [SS.assembleData]
        split
        · exact ⟨h1, h2, h3⟩
        split
        · exact ⟨h1, h2, h3⟩
        dsimp only
        rw [setFlow_other _ _ e, SS.trim]
        dsimp only
        rw [setFlow_other _ _ e]
        exact ⟨h1, h2, h3⟩
  | ack i b rs =>
    have hi : 0 ≠ i := Ne.symm hq
    rw [SS.step] at hs
    simp only [Option.some.injEq, Prod.mk.injEq] at hs
    rw [notifies, ← hs.1]
    refine ⟨?_, ?_⟩
    · split
      · simp
      · split
        · simp
        · simp [Ne.symm hi]
    · rw [SS.onAck]
      dsimp only
      split
      · exact ⟨h1, h2, h3⟩
      · dsimp only
        rw [setFlow_other _ _ hi]; exact ⟨h1, h2, h3⟩
  | afterAcks c =>
    rw [SS.step] at hs
    simp only [Option.some.injEq, Prod.mk.injEq] at hs
    rw [← hs.1]
    have e1 := nakLoop_buffered s.outs 0 s ⟨c, false, 0⟩
    rw [h1] at e1
    have e2 := nakLoop_stays s.outs 0 s ⟨c, false, 0⟩
    exact ⟨by simp [notifies], buffered_nil e1, e2.1.trans h2, e2.2.trans h3⟩
  | exceptionReport i now rid names =>
    have hi : 0 ≠ i := Ne.symm hq
    rw [SS.step] at hs
    simp only [Option.some.injEq, Prod.mk.injEq] at hs
    rw [← hs.1, SS.onExceptionReport]
    dsimp only
    rw [SS.close_other _ _ _ _ _ hi, setFlow_other _ _ hi]
    exact ⟨by simp [notifies], h1, h2, h3⟩
  | timeout =>
    rw [SS.step] at hs
    simp only [Option.some.injEq, Prod.mk.injEq] at hs
    rw [← hs.1]
    have e1 := loseAll_buffered s.outs 0 s
    rw [h1] at e1
    have e2 := loseAll_stays s.outs 0 s
    exact ⟨by simp [notifies], buffered_nil e1, e2.1.trans h2, e2.2.trans h3⟩
  | lingerAlarm i =>
    rw [SS.step] at hs
    simp only [Option.some.injEq, Prod.mk.injEq] at hs
    have hi : 0 ≠ i := by
      rintro rfl
      have : (s.flow 0).state = .completeLinger := ha
      rw [hst] at this; cases this
    rw [← hs.1, SS.lingerAlarm, SS.gotoClosed_other _ _ hi]
    exact ⟨by simp [notifies], h1, h2, h3⟩
  | closeSession now => exact absurd hq (by simp [Quiet])
  | openingFailed i now =>
    have hi : 0 ≠ i := by
      rintro rfl
      rw [ha.1] at h2; cases h2
    rw [SS.step] at hs
    simp only [Option.some.injEq, Prod.mk.injEq] at hs
    obtain ⟨_, _, _, _, _, k6, _⟩ := SS.didClose_flows (s := s) (i := i) (now := now) (rid := 0) (names := id) (hbk.flow i).ok (by rw [ha.1]; simp) _ rfl
    rw [← hs.1, k6 0 hi]
    exact ⟨by simp [notifies], h1, h2, h3⟩

theorem loop_lost {w : WS} {i : Nat} (hi : i ≠ 0) : (loop w i).1.running ≠ some 0 ∧ (loop w i).1.flag 0 = w.flag 0 ∧ Ev.told 0 ∉ (loop w i).2 := by
  rw [loop]
  split
  · split
    · exact ⟨by simp [hi], rfl, by simp [Ne.symm hi]⟩
    · exact ⟨by simp, by simp [Ne.symm hi], by simp⟩
  · exact ⟨by simp, rfl, by simp⟩

theorem lost_step {ops : List Op} {w t : WS} {evs es : List Ev} {op : Op} (he : Exec ops w evs) (hl : Lost ops w) (ha : Allowed ops w op) (hs : step w op = some (t, es)) (hq : Quiet op) :
    Lost (ops ++ [op]) t ∧ Ev.told 0 ∉ es := by
  have hop : opened 0 (ops ++ [op]) := by obtain ⟨m, a, p, e⟩ := hl.opened; exact ⟨m, a, p, by simp [e]⟩
  cases op with
  | lib o =>
    obtain ⟨e0, hlib⟩ := exec_lib he
    have hbk := SS.exec_books hlib
    rw [step] at hs
    cases hst : w.ss.step o with
    | none => rw [hst] at hs; cases hs
    | some x =>
      obtain ⟨u, es'⟩ := x
      rw [hst, libRes] at hs
      simp only [Option.some.injEq, Prod.mk.injEq] at hs
      obtain ⟨m, a, p, hm⟩ := hl.opened
      obtain ⟨n1, n2, n3, n4⟩ := lost_flow hbk ha hst hq hl.queue hl.bound hl.base ⟨m, a, p, mem_libOps.mpr hm⟩
      obtain ⟨k2, k3⟩ := queueIf_ss { w with ss := u, flag := clearHandlers w.ss u w.flag } (notifies w.ss o)
      have k1 := (queueIf_flag { w with ss := u, flag := clearHandlers w.ss u w.flag } (notifies w.ss o) 0).2.2.2
      dsimp only at k1 k2 k3
      rw [(clear_flag w.ss u w.flag 0).2.2.1] at k1
      rw [hs.1] at k1 k2 k3
      refine ⟨⟨by rw [k2]; exact n2, by rw [k2]; exact n3, by rw [k2]; exact n4, ?_, by rw [k3]; exact hl.running, ?_, ?_, hop⟩, ?_⟩
      · cases hp : (t.flag 0).pending with
        | false => rfl
        | true =>
          rcases k1.mp hp with e | ⟨e, _⟩
          · rw [hl.pending] at e; cases e
          · exact absurd e n1
      · rw [wants_snoc]; exact hl.wants
      · rw [capOf_snoc]; exact hl.cap
      · rw [← hs.2]; simp
  | notify i =>
    have hi : i ≠ 0 := hq
    simp only [step, Option.some.injEq, Prod.mk.injEq] at hs
    obtain ⟨k2, k3⟩ := queueIf_ss (w.setFlag i { w.flag i with should := true }) (some i)
    have k1 := (queueIf_flag (w.setFlag i { w.flag i with should := true }) (some i) 0).2.2.2
    rw [show queueIf (w.setFlag i { w.flag i with should := true }) (some i) = t from hs.1] at k1 k2 k3
    simp only [setFlag_flag, setFlag_ss, setFlag_running, if_neg (Ne.symm hi)] at k1 k2 k3
    refine ⟨⟨by rw [k2]; exact hl.queue, by rw [k2]; exact hl.bound, by rw [k2]; exact hl.base, ?_, by rw [k3]; exact hl.running, ?_, ?_, hop⟩, ?_⟩
    · cases hp : (t.flag 0).pending with
      | false => rfl
      | true =>
        rcases k1.mp hp with e | ⟨e, _⟩
        · rw [hl.pending] at e; cases e
        · exact absurd (Option.some.inj e) hi
    · rw [wants_snoc]; simp [wantsStep, hi, hl.wants]
    · rw [capOf_snoc]; exact hl.cap
    · rw [← hs.2]; simp
  | setCapacity i n =>
    have hi : i ≠ 0 := hq
    simp only [step, Option.some.injEq, Prod.mk.injEq] at hs
    rw [← hs.1, ← hs.2]
    refine ⟨⟨hl.queue, hl.bound, hl.base, by simp [Ne.symm hi, hl.pending], hl.running, ?_, ?_, hop⟩, by simp⟩
    · rw [wants_snoc]; exact hl.wants
    · rw [capOf_snoc]; simp [capStep, hi, hl.cap]
  | setHandler i =>
    simp only [step, Option.some.injEq, Prod.mk.injEq] at hs
    rw [← hs.1, ← hs.2]
    refine ⟨⟨hl.queue, hl.bound, hl.base, ?_, hl.running, ?_, ?_, hop⟩, by simp⟩
    · rw [setFlag_flag]
      split
      · rename_i e; subst e; exact hl.pending
      · exact hl.pending
    · rw [wants_snoc]; exact hl.wants
    · rw [capOf_snoc]; exact hl.cap
  | run i =>
    have hi : i ≠ 0 := by
      rintro rfl
      have := ha.1
      rw [exec_tasks he 0, hl.pending] at this; cases this
    simp only [step, Option.some.injEq] at hs
    obtain ⟨l1, l2, l3⟩ := loop_lost (w := w.setFlag i { w.flag i with pending := false, tasks := (w.flag i).tasks - 1 }) hi
    have l4 := loop_ss (w.setFlag i { w.flag i with pending := false, tasks := (w.flag i).tasks - 1 }) i
    rw [hs] at l1 l2 l3 l4
    dsimp only at l1 l2 l3 l4
    refine ⟨⟨by rw [l4]; exact hl.queue, by rw [l4]; exact hl.bound, by rw [l4]; exact hl.base, by rw [l2]; simp [Ne.symm hi, hl.pending], l1, ?_, ?_, hop⟩, l3⟩
    · rw [wants_snoc]; exact hl.wants
    · rw [capOf_snoc]; exact hl.cap
  | ret i b =>
    have hi : i ≠ 0 := by
      rintro rfl
      exact hl.running ha
    simp only [step, Option.some.injEq] at hs
    obtain ⟨l1, l2, l3⟩ := loop_lost (w := w.setFlag i { w.flag i with should := b }) hi
    have l4 := loop_ss (w.setFlag i { w.flag i with should := b }) i
    rw [hs] at l1 l2 l3 l4
    dsimp only at l1 l2 l3 l4
    refine ⟨⟨by rw [l4]; exact hl.queue, by rw [l4]; exact hl.bound, by rw [l4]; exact hl.base, by rw [l2]; simp [Ne.symm hi, hl.pending], l1, ?_, ?_, hop⟩, l3⟩
    · rw [wants_snoc]; simp [wantsStep, hi, hl.wants]
    · rw [capOf_snoc]; exact hl.cap

/-- what happened determines the state and what was observed -/
theorem exec_det {ops : List Op} {w : WS} {evs : List Ev} (h : Exec ops w evs) : ∀ {w' evs'}, Exec ops w' evs' → w' = w ∧ evs' = evs := by
  induction h with
  | nil =>
    intro w' evs' h'
    generalize hn : ([] : List Op) = l at h'
    cases h' with
    | nil => exact ⟨rfl, rfl⟩
    | snoc _ _ _ => simp at hn
  | @snoc ops w evs op t es h0 ha hs ih =>
    intro w' evs' h'
    generalize hn : ops ++ [op] = l at h'
    cases h' with
    | nil => simp at hn
    | @snoc ops2 w2 evs2 op2 t2 es2 h2 ha2 hs2 =>
      obtain ⟨rfl, e⟩ := List.append_inj' hn rfl
      obtain ⟨rfl, _⟩ := List.cons.inj e
      obtain ⟨rfl, rfl⟩ := ih h2
      rw [hs] at hs2
      obtain ⟨rfl, rfl⟩ := Prod.mk.inj (Option.some.inj hs2)
      exact ⟨rfl, rfl⟩

theorem demoB_lost : Lost demoB (after demoB 8).1 :=
  ⟨by decide +kernel, by decide +kernel, by decide +kernel, by decide +kernel, by decide +kernel, by decide, by decide, ⟨[0x61], none, 3, by simp [demoB]⟩⟩

end Writable

/-- Raising the capacity doesn't make the library look: there is an execution in which the user waits to be told about a flow whose buffer had no room, and raises its capacity; however long it
goes on from there (unless the user asks again, changes the capacity again, writes to the flow or closes it, or something comes for it from the other end) the flow can be written to, and the user is never told. -/
theorem C84_raise_lost : ∃ ops w evs, Writable.Exec ops w evs ∧ ∀ more w' evs', Writable.Exec (ops ++ more) w' evs' → (∀ op ∈ more, Quiet op) →
    wants 0 (ops ++ more) = true ∧ CanWrite (ops ++ more) w' 0 ∧ Writable.Ev.told 0 ∉ evs' := by
  refine ⟨demoB, _, _, demoB8, ?_⟩
  have key : ∀ {all w' evs'}, Writable.Exec all w' evs' → ∀ more, all = demoB ++ more → (∀ op ∈ more, Quiet op) → Lost all w' ∧ Writable.Ev.told 0 ∉ evs' := by
    intro all w' evs' h
    induction h with
    | nil => intro more e; simp [demoB] at e
    | @snoc ops w evs op t es h0 ha hs ih =>
      intro more e hq
      rcases List.eq_nil_or_concat more with rfl | ⟨a, x, rfl⟩
      · have h1 := h0.snoc ha hs
        rw [List.append_nil] at e
        rw [e] at h1 ⊢
        obtain ⟨e1, e2⟩ := exec_det demoB8 h1
        rw [e1, e2]
        exact ⟨demoB_lost, by
          have : (after demoB 8).2 = [] := rfl
          rw [this]; simp⟩
      · have e2 : ops ++ [op] = (demoB ++ a) ++ [x] := by rw [e]; simp
        obtain ⟨e3, e4⟩ := List.append_inj' e2 rfl
        obtain ⟨l1, l2⟩ := ih a e3 (fun o ho => hq o (by simp [ho]))
        have hx : op = x := (List.cons.inj e4).1
        obtain ⟨k1, k2⟩ := lost_step h0 l1 ha hs (hq op (by simp [hx]))
        exact ⟨k1, by simp [l2, k2]⟩
  intro more w' evs' h hq
  obtain ⟨l, ht⟩ := key h more rfl hq
  obtain ⟨e0, hlib⟩ := exec_lib h
  refine ⟨l.wants, ⟨l.bound, (SS.exec_books hlib).isOpen 0 l.bound, l.base, ?_⟩, ht⟩
  rw [l.queue]; simpa using l.cap

end Rtmfp
