import Verif.Lemmas.RTWRecvStep
import Verif.Lemmas.RTWHeld
import Verif.Props.C01_C03_VLU

/-!
# C98: what a receiving flow of an `RTWebSocket` passes on
-/

namespace Rtmfp

open RTWS Spec.Flows

/-- A message whose numbers can be written (they are 64-bit in the code). -/
def Spec.Flows.sayable : Msg → Prop
  | .ping _ => True
  | .pong _ => True
  | .window n => n < 2 ^ 64
  | .opens id ret _ => id < 2 ^ 64 ∧ ∀ t, ret = .some t → t < 2 ^ 64
  | .data id _ _ => id < 2 ^ 64
  | .abandon id n => id < 2 ^ 64 ∧ n < 2 ^ 64
  | .closes id => id < 2 ^ 64
  | .ack id d a => id < 2 ^ 64 ∧ d < 2 ^ 64 ∧ a < 2 ^ 64
  | .closeAck id => id < 2 ^ 64
  | .refuse id r _ => id < 2 ^ 64 ∧ r < 2 ^ 64

theorem vlu_encode (v : Nat) (hv : v < 2 ^ 64) (rest : Bytes) : vlu (VLU.encode v ++ rest) = .some (v, rest) := by
  simp [vlu, C01_vlu_round_trip v hv rest true]

theorem vlu_encode_end (v : Nat) (hv : v < 2 ^ 64) : vlu (VLU.encode v) = .some (v, []) := by
  have := vlu_encode v hv []
  simpa using this

theorem encode_ne_nil (v : Nat) (hv : v < 2 ^ 64) : VLU.encode v ≠ [] := by
  intro h
  have := vlu_encode_end v hv
  rw [h] at this
  simp [vlu, VLU.parse, VLU.parseLoop] at this

/-- Every message one end can say is read by the other as what was said. -/
theorem C98_codec (m : Msg) (h : sayable m) : Msg.decode m.encode = .some (.some m) := by
  cases m with
  | ping b => rfl
  | pong b => rfl
  | window n => simp [Msg.encode, Msg.decode, vlu_encode_end n h]
  | opens id ret b =>
    cases ret with
    | none => simp [Msg.encode, Msg.decode, vlu_encode id h.1]
    | some t => simp [Msg.encode, Msg.decode, vlu_encode id h.1, vlu_encode t (h.2 t rfl)]
  | data id more b => cases more <;> simp [Msg.encode, Msg.decode, vlu_encode id h]
  | abandon id n =>
    by_cases hn : n = 0
    · subst hn
      simp [Msg.encode, Msg.decode, vlu_encode_end id h.1]
    · simp [Msg.encode, Msg.decode, hn, vlu_encode id h.1, vlu_encode_end n h.2, encode_ne_nil n h.2]
  | closes id => simp [Msg.encode, Msg.decode, vlu_encode_end id h]
  | ack id d a => simp [Msg.encode, Msg.decode, vlu_encode id h.1, vlu_encode d h.2.1, vlu_encode_end a h.2.2]
  | closeAck id => simp [Msg.encode, Msg.decode, vlu_encode_end id h]
  | refuse id r t =>
    have : VLU.encode r ++ t ≠ [] := by simp [encode_ne_nil r h.2]
    simp [Msg.encode, Msg.decode, vlu_encode id h.1, vlu_encode r h.2, encode_ne_nil r h.2]

example : sayable (.refuse 3 (2 ^ 64 - 1) [1, 2]) ∧ Msg.decode (Msg.encode (.abandon 300 7)) = .some (.some (.abandon 300 7)) :=
  ⟨⟨by decide, by decide⟩, by decide +kernel⟩

/-- Whatever arrives, and whatever the reader does in callbacks and between: what a flow's reader has
been given, with the numbers, is always a beginning of what the arrived messages of the flow say. -/
theorem C98_heard (app : App) (os : List Op) (r : Nat) :
    given r (run app init os).log <+: (listen (heardBy r (run app init os).log)).out := by
  have k := rec_all app os
  by_cases hr : r < (run app init os).nR
  · have := (k.good r hr).out
    simp only [rv] at this
    rw [this]; exact List.prefix_append _ _
  · have := k.unborn r (by omega)
    rw [this.2.1]; exact List.nil_prefix

/-- And it has been given all of it, when the connection is up, no delivery is waiting to run, and the
flow is accepted, open and not paused; and such a flow isn't over. -/
theorem C98_delivered (app : App) (os : List Op) (r : Nat) :
    let st := run app init os
    st.up = true → st.tasks = [] → r < st.nR → (st.R r).up = true → (st.R r).paused = false →
    given r st.log = (listen (heardBy r st.log)).out ∧ (listen (heardBy r st.log)).over = false := by
  intro st hu ht hr hup hp
  have k : Rec Nobody Nobody st := rec_all app os
  have hy := k.calm r hr (fun h => h) hup
  have hw := k.wake r hr (fun h => h) hu hp hup hy
  have hno : ¬ (hasWhole (st.R r) ∨ (st.R r).ended = true) := fun h => by
    have := k.pend r hr hu (hw h)
    rw [ht] at this; simp at this
  have g := k.good r hr
  constructor
  · have h1 := g.out
    simp only [rv] at h1
    rw [h1]
    have : inBuf (st.R r).buf = [] := by
      unfold inBuf
      rw [List.map_eq_nil_iff, List.filter_eq_nil_iff]
      intro m hm hw
      exact hno (Or.inl ⟨m, hm, hw⟩)
    rw [this]; simp
  · have h2 := g.user (k.users hu)
    simp only [rv] at h2
    rw [← h2]
    cases h : (st.R r).ended
    · rfl
    · exact absurd (Or.inr h) hno

/-- While the connection is up nothing stays behind: a flow with something to deliver, or with its end
to be told, has a delivery waiting in the run loop, unless its reader has paused or closed it. -/
theorem C98_waiting (app : App) (os : List Op) (r : Nat) :
    let st := run app init os
    st.up = true → r < st.nR → (st.R r).up = true → (st.R r).paused = false →
    given r st.log ≠ (listen (heardBy r st.log)).out ∨ (listen (heardBy r st.log)).over = true → r ∈ st.tasks := by
  intro st hu hr hup hp h
  have k : Rec Nobody Nobody st := rec_all app os
  have hy := k.calm r hr (fun h => h) hup
  have g := k.good r hr
  refine k.pend r hr hu (k.wake r hr (fun h => h) hu hp hup hy ?_)
  rcases h with h | h
  · refine Or.inl ?_
    have h1 := g.out
    simp only [rv] at h1
    cases hb : (st.R r).buf.filter (·.whole) with
    | nil => exact absurd (by rw [h1, inBuf, hb]; simp) h
    | cons m l =>
      have : m ∈ (st.R r).buf.filter (·.whole) := by rw [hb]; simp
      rw [List.mem_filter] at this
      exact ⟨m, this.1, this.2⟩
  · refine Or.inr ?_
    have h2 := g.user (k.users hu)
    simp only [rv] at h2
    rw [h2]; exact h

/-- The reader is told at most once that a flow is complete. -/
theorem C98_once (app : App) (os : List Op) (r : Nat) : endings r (run app init os).log ≤ 1 := by
  have k := rec_all app os
  by_cases hr : r < (run app init os).nR
  · exact (k.good r hr).once
  · rw [(k.unborn r (by omega)).2.2]; decide

/-- Until the connection is closed (by this end, by an error, or because the transport is gone), when
the reader has been told that a flow is complete, its end has been heard and the reader has all of it.
Missing: the same when the connection is closed, which the code doesn't keep (`C98_cut`). -/
theorem C98_complete_partial (app : App) (os : List Op) (r : Nat) (hu : (run app init os).userUp = true)
    (h : endings r (run app init os).log = 1) :
    (listen (heardBy r (run app init os).log)).over = true ∧ given r (run app init os).log = (listen (heardBy r (run app init os).log)).out := by
  have k := rec_all app os
  by_cases hr : r < (run app init os).nR
  · have g := k.good r hr
    obtain ⟨h1, h2⟩ := g.fin hu h
    have h3 := g.user hu
    have h4 := g.out
    rw [h2] at h4
    simp only [rv] at h1 h3 h4
    exact ⟨by rw [← h3]; exact h1, by rw [h4]; simp [inBuf]⟩
  · rw [(k.unborn r (by omega)).2.2] at h; simp at h

/-- The numbers of what somebody hears go up. -/
theorem listen_numbers : ∀ (ms : List Msg), let e := listen ms
    ((e.out.map (·.1)).Pairwise (· < ·)) ∧ (∀ p ∈ e.out, p.1 < e.next) ∧
    (∀ q, e.part = .some q → q.1 < e.next ∧ ∀ p ∈ e.out, p.1 < q.1) ∧ (∀ p ∈ e.out, 1 ≤ p.1) ∧ 1 ≤ e.next ∧ (∀ q, e.part = .some q → 1 ≤ q.1) := by
  intro ms
  suffices h : ∀ (ms : List Msg) (e : Ear), ((e.out.map (·.1)).Pairwise (· < ·)) ∧ (∀ p ∈ e.out, p.1 < e.next) ∧
      (∀ q, e.part = .some q → q.1 < e.next ∧ ∀ p ∈ e.out, p.1 < q.1) ∧ (∀ p ∈ e.out, 1 ≤ p.1) ∧ 1 ≤ e.next ∧ (∀ q, e.part = .some q → 1 ≤ q.1) →
      let e' := ms.foldl hear e
      ((e'.out.map (·.1)).Pairwise (· < ·)) ∧ (∀ p ∈ e'.out, p.1 < e'.next) ∧
      (∀ q, e'.part = .some q → q.1 < e'.next ∧ ∀ p ∈ e'.out, p.1 < q.1) ∧ (∀ p ∈ e'.out, 1 ≤ p.1) ∧ 1 ≤ e'.next ∧ (∀ q, e'.part = .some q → 1 ≤ q.1) by
    exact h ms {} (by simp)
  intro ms
  induction ms with
  | nil => exact fun e h => h
  | cons m ms ih =>
    intro e h
    refine ih (hear e m) ?_
    obtain ⟨h1, h2, h3, h4, h5, h6⟩ := h
    have app1 : ∀ (k : Nat) (b : Bytes), (∀ p ∈ e.out, p.1 < k) → ((e.out ++ [(k, b)]).map (·.1)).Pairwise (· < ·) := by
      intro k b hk
      rw [List.map_append, List.pairwise_append]
      refine ⟨h1, by simp, ?_⟩
      intro x hx y hy
      simp only [List.map_cons, List.map_nil, List.mem_singleton] at hy
      obtain ⟨p, hp, rfl⟩ := List.mem_map.mp hx
      rw [hy]; exact hk p hp
    cases m with
    | data id more b =>
      simp only [hear, Ear.piece]
      cases hp : e.part with
      | none =>
        cases more with
        | true =>
          simp only [if_true]
          refine ⟨h1, fun p hp => Nat.lt_succ_of_lt (h2 p hp), ?_, h4, by omega, ?_⟩
          · intro q hq
            simp only [Option.some.injEq] at hq
            subst hq
            exact ⟨Nat.lt_succ_self _, h2⟩
          · intro q hq
            simp only [Option.some.injEq] at hq
            subst hq; exact h5
        | false =>
          simp only [Bool.false_eq_true, if_false]
          refine ⟨app1 _ b h2, ?_, ?_, ?_, by omega, ?_⟩
          · intro p hp
            rw [List.mem_append, List.mem_singleton] at hp
            rcases hp with hp | hp
            · exact Nat.lt_succ_of_lt (h2 p hp)
            · subst hp; exact Nat.lt_succ_self _
          · intro q hq; simp [hp] at hq
          · intro p hp
            rw [List.mem_append, List.mem_singleton] at hp
            rcases hp with hp | hp
            · exact h4 p hp
            · subst hp; exact h5
          · intro q hq; simp [hp] at hq
      | some q =>
        obtain ⟨k, a⟩ := q
        obtain ⟨g1, g2⟩ := h3 _ hp
        have g3 := h6 _ hp
        cases more with
        | true =>
          simp only [if_true]
          refine ⟨h1, h2, ?_, h4, h5, ?_⟩
          · intro q hq
            simp only [Option.some.injEq] at hq
            subst hq
            exact ⟨g1, g2⟩
          · intro q hq
            simp only [Option.some.injEq] at hq
            subst hq; exact g3
        | false =>
          simp only [Bool.false_eq_true, if_false]
          refine ⟨app1 _ _ g2, ?_, ?_, ?_, h5, ?_⟩
          · intro p hp
            rw [List.mem_append, List.mem_singleton] at hp
            rcases hp with hp | hp
            · exact h2 p hp
            · subst hp; exact g1
          · intro q hq; simp at hq
          · intro p hp
            rw [List.mem_append, List.mem_singleton] at hp
            rcases hp with hp | hp
            · exact h4 p hp
            · subst hp; exact g3
          · intro q hq; simp at hq
    | abandon id n =>
      simp only [hear, Ear.skip]
      cases hp : e.part with
      | none =>
        refine ⟨h1, fun p hp => Nat.lt_of_lt_of_le (h2 p hp) (Nat.le_add_right _ _), ?_, h4, ?_, ?_⟩
        · intro q hq; simp [hp] at hq
        · dsimp only; omega
        · intro q hq; simp [hp] at hq
      | some q =>
        refine ⟨h1, fun p hp => Nat.lt_of_lt_of_le (h2 p hp) (Nat.le_add_right _ _), ?_, h4, ?_, ?_⟩
        · intro q hq; simp at hq
        · dsimp only; omega
        · intro q hq; simp at hq
    | closes id => exact ⟨h1, h2, fun q hq => by simp [hear] at hq, h4, h5, fun q hq => by simp [hear] at hq⟩
    | ping b => exact ⟨h1, h2, h3, h4, h5, h6⟩
    | pong b => exact ⟨h1, h2, h3, h4, h5, h6⟩
    | window n => exact ⟨h1, h2, h3, h4, h5, h6⟩
    | opens id ret b => exact ⟨h1, h2, h3, h4, h5, h6⟩
    | ack id d a => exact ⟨h1, h2, h3, h4, h5, h6⟩
    | closeAck id => exact ⟨h1, h2, h3, h4, h5, h6⟩
    | refuse id r t => exact ⟨h1, h2, h3, h4, h5, h6⟩

/-- The numbers of the messages a reader is given are positive and go up. -/
theorem C98_numbers (app : App) (os : List Op) (r : Nat) :
    ((given r (run app init os).log).map (·.1)).Pairwise (· < ·) ∧ ∀ p ∈ given r (run app init os).log, 1 ≤ p.1 := by
  obtain ⟨t, ht⟩ := C98_heard app os r
  have h := listen_numbers (heardBy r (run app init os).log)
  dsimp only at h
  rw [← ht] at h
  constructor
  · have := h.1
    rw [List.map_append, List.pairwise_append] at this
    exact this.1
  · exact fun p hp => h.2.2.2.1 p (List.mem_append_left _ hp)

/-- The number of bytes a receiving flow counts as being in its list, of which it tells the sender when it
is paused, is right. -/
theorem C98_size (app : App) (os : List Op) (r : Nat) (hr : r < (run app init os).nR) :
    ((run app init os).R r).size = (((run app init os).R r).buf.map fun m => m.bytes.length).sum :=
  ((rec_all app os).good r hr).size

/-- An application that accepts every flow. -/
def acceptsAll : App := ⟨fun l => match l.getLast? with | .some (.offered r _) => [.accept r] | _ => []⟩

/-- Three messages, one of them in two pieces and one abandoned, and the end. -/
def threeIn : List Op :=
  [.recv (Msg.encode (.opens 5 .none [])), .recv (Msg.encode (.data 5 false [1])), .recv (Msg.encode (.abandon 5 0)),
    .recv (Msg.encode (.data 5 true [2])), .recv (Msg.encode (.data 5 false [3])), .recv (Msg.encode (.closes 5))]

/-- the theorems are about histories in which something happens: all is given, then the end -/
example : let st := run acceptsAll init (threeIn ++ [.task])
    given 0 st.log = [(1, [1]), (3, [2, 3])] ∧ endings 0 st.log = 1 ∧ st.userUp = true ∧ st.tasks = [] := by
  decide +kernel

/-- and before the end is heard the flow is open and has given all -/
example : let st := run acceptsAll init (threeIn.dropLast ++ [.task])
    given 0 st.log = [(1, [1]), (3, [2, 3])] ∧ st.up = true ∧ st.tasks = [] ∧ 0 < st.nR ∧ (st.R 0).up = true ∧ (st.R 0).paused = false := by
  decide +kernel

/-- and before the delivery has run it waits -/
example : let st := run acceptsAll init threeIn
    given 0 st.log = [] ∧ st.up = true ∧ 0 < st.nR ∧ (st.R 0).up = true ∧ (st.R 0).paused = false ∧ st.tasks = [0] := by
  decide +kernel

/-- While a flow is paused, closed or not accepted, its reader is given nothing, whatever happens. -/
theorem C98_held (app : App) (os : List Op) (o : Op) (r : Nat)
    (h : ((run app init os).R r).paused = true ∨ ((run app init os).R r).up = false ∨ ((run app init os).R r).yes = false) :
    given r (run app init (os ++ [o])).log = given r (run app init os).log := by
  have : run app init (os ++ [o]) = step app (run app init os) o := by simp [run]
  rw [this]
  exact step_held app _ o r h

/-- A reader that pauses the flow whenever it is given a message is given no second one in the same
delivery. -/
theorem C98_one_at_a_time (app : App) (os : List Op) (r : Nat) (rest : List Nat) (hr : r < (run app init os).nR)
    (ht : (run app init os).tasks = r :: rest) (h : ∀ l k b, app.react (l ++ [.message r k b]) = [.pause r true]) :
    ∃ p, given r (run app init (os ++ [.task])).log = given r (run app init os).log ++ p ∧ p.length ≤ 1 := by
  have : run app init (os ++ [.task]) = step app (run app init os) .task := by simp [run]
  rw [this]
  generalize run app init os = st at *
  unfold step
  split
  · exact ⟨[], by simp, by simp⟩
  · simp only [ht]
    exact deliver_one app r { st with tasks := rest } hr h

/-- Accepts every flow, and pauses the first whenever it has a message. -/
def pausing : App := ⟨fun l => match l.getLast? with | .some (.offered r _) => [.accept r] | .some (.message _ _ _) => [.pause 0 true] | _ => []⟩

example (l : List Ev) (k : Nat) (b : Bytes) : pausing.react (l ++ [.message 0 k b]) = [.pause 0 true] := by simp [pausing]

/-- two messages wait; one is given, and then the flow is paused -/
example : (run pausing init threeIn).tasks = [0] ∧ 0 < (run pausing init threeIn).nR ∧ given 0 (run pausing init (threeIn ++ [.task])).log = [(1, [1])] ∧
    ((run pausing init (threeIn ++ [.task])).R 0).paused = true := by
  decide +kernel

/-- The full claim is false of the code: when the connection is closed, or the transport ends, between
the arrival of a message and the delivery put off to the run loop, the reader is told that the flow is
complete, and isn't given the message, then or later. -/
theorem C98_cut : ∃ app os, let st := run app init os
    endings 0 st.log = 1 ∧ given 0 st.log = [] ∧ (listen (heardBy 0 st.log)).out = [(1, [7])] ∧
    ∀ n, given 0 (run app st (List.replicate n .task)).log = [] := by
  refine ⟨acceptsAll, [.recv (Msg.encode (.opens 5 .none [])), .recv (Msg.encode (.data 5 false [7])), .gone, .task, .task], ?_⟩
  refine ⟨by decide +kernel, by decide +kernel, by decide +kernel, ?_⟩
  intro n
  have h0 : ∀ n, run acceptsAll (run acceptsAll init [.recv (Msg.encode (.opens 5 .none [])), .recv (Msg.encode (.data 5 false [7])), .gone, .task, .task])
      (List.replicate n .task) = run acceptsAll init [.recv (Msg.encode (.opens 5 .none [])), .recv (Msg.encode (.data 5 false [7])), .gone, .task, .task] := by
    intro n
    have ht : (run acceptsAll init [.recv (Msg.encode (.opens 5 .none [])), .recv (Msg.encode (.data 5 false [7])), .gone, .task, .task]).tasks = [] := by
      decide +kernel
    generalize run acceptsAll init [.recv (Msg.encode (.opens 5 .none [])), .recv (Msg.encode (.data 5 false [7])), .gone, .task, .task] = st at ht
    induction n with
    | zero => rfl
    | succ n ih =>
      have hs : step acceptsAll st .task = st := by
        unfold step
        split
        · rfl
        · simp [ht]
      rw [List.replicate_succ]
      show run acceptsAll (step acceptsAll st .task) _ = st
      rw [hs, ih]
  rw [h0]
  decide +kernel

end Rtmfp
