import Verif.Lemmas.RTWSendAll
import Verif.Lemmas.RTWRoll
import Verif.Props.C98_FlowRecv

/-!
# C99: what a sending flow of an `RTWebSocket` says, and what the other end has of it
-/

namespace Rtmfp

open RTWS Spec.Flows

theorem send_view (app : App) (os : List Op) (s : Nat) :
    Good (view (run app init os) s) ∨ (sentBy s (run app init os).log = [] ∧ written s (run app init os).log = [] ∧ settled s (run app init os).log = []) := by
  have k := (whole_all app os).okay.fine.inv
  by_cases hs : s < (run app init os).nS
  · exact Or.inl (k.good hs)
  · have := k s
    rw [if_neg hs] at this
    exact Or.inr ⟨this.1, this.2.1, this.2.2.1⟩

/-- Whatever the application writes, closes or abandons, in callbacks and between: what the messages of a
flow on the wire say is exactly the messages its writer was told were sent, with their places in the
order of writing, each whole and unchanged; those the writer was told were abandoned are missing. -/
theorem C99_said (app : App) (os : List Op) (s : Nat) :
    (listen (sentBy s (run app init os).log)).out = carried s (run app init os).log := by
  rcases send_view app os s with g | ⟨h1, h2, h3⟩
  · exact g.out
  · rw [h1, carried, h3]; rfl

/-- The writer is told about the messages in the order of writing, once each. -/
theorem C99_settled (app : App) (os : List Op) (s : Nat) :
    ∃ k, k ≤ (written s (run app init os).log).length ∧ (settled s (run app init os).log).map (·.1) = List.range' 1 k := by
  rcases send_view app os s with g | ⟨h1, h2, h3⟩
  · refine ⟨_, ?_, g.told⟩
    have hf := g.fits
    show _ ≤ (view (run app init os) s).wrote.length
    split
    · rename_i h
      have : (view (run app init os) s).f.buf ≠ [] := by
        rcases h with h | ⟨m, h, _⟩
        · exact (g.mid h).1
        · intro hb; rw [hb] at h; simp at h
      have := List.length_pos_iff.mpr this
      omega
    · omega
  · exact ⟨0, by omega, by rw [h3]; rfl⟩

/-- What a flow puts on the wire begins with its opening, ends with its closing if that was sent, and has
only its own data and abandonments between; the closing comes when every message written has been
settled. -/
theorem C99_framed (app : App) (os : List Op) (s : Nat) :
    let l := (run app init os).log
    sentBy s l = [] ∨ ∃ id ret about body fin, sentBy s l = .opens id ret about :: (body ++ fin) ∧
      (∀ m ∈ body, (∃ more b, m = .data id more b) ∨ ∃ n, m = .abandon id n) ∧
      (fin = [] ∨ fin = [.closes id] ∧ (settled s l).map (·.1) = List.range' 1 (written s l).length) := by
  intro l
  rcases send_view app os s with g | ⟨h1, h2, h3⟩
  · have hf := g.framed
    unfold Framed at hf
    split at hf
    · exact Or.inl hf.1
    · obtain ⟨ret, about, body, h1, h2⟩ := hf
      refine Or.inr ⟨_, ret, about, body, _, h1, h2, ?_⟩
      cases hs : (view (run app init os) s).f.shut with
      | false => exact Or.inl (by simp)
      | true =>
        refine Or.inr ⟨by simp, ?_⟩
        obtain ⟨_, hb, _⟩ := g.shut hs
        have ht := g.told
        have hm : ¬ ((view (run app init os) s).mid = true) := fun h => (g.mid h).1 hb
        rw [hb] at ht
        rw [if_neg (by simp [hm])] at ht
        simp only [List.length_nil, Nat.sub_zero, Nat.add_zero] at ht
        exact ht
  · exact Or.inl h1

/-- When the application closes the connection, its writer has been told about every message written to
a flow that was open. -/
theorem C99_closed (app : App) (os : List Op) (s : Nat) (hw : (run app init os).wild = false) (hu : (run app init os).userUp = true)
    (hs : s < (run app init os).nS) (ho : ((run app init os).S s).up = true) :
    let l := (run app init (os ++ [.call .close])).log
    (settled s l).map (·.1) = List.range' 1 (written s l).length := by
  intro l
  have hb : run app init (os ++ [.call .close]) = close (run app init os) := by
    simp only [run, List.foldl_append, List.foldl_cons, List.foldl_nil, step, call]
    have : (List.foldl (step app) init os).wild = false := hw
    rw [if_neg (by simp [this])]
  obtain ⟨he, hn⟩ := close_empty (roll_all app os) (whole_all app os).okay.calm hu s hs ho
  rw [← hb] at he hn
  have g := ((whole_all app (os ++ [.call .close])).okay.fine.inv).good (s := s) (by rw [hn]; exact hs)
  have ht := g.told
  have hbuf : (view (run app init (os ++ [.call .close])) s).f.buf = [] := he
  have hm : ¬ ((view (run app init (os ++ [.call .close])) s).mid = true) := fun h => (g.mid h).1 hbuf
  rw [hbuf] at ht
  rw [if_neg (by simp [hm])] at ht
  simp only [List.length_nil, Nat.sub_zero, Nat.add_zero] at ht
  exact ht

example : let os : List Op := [.call (.opens 5 [] 3), .call (.write 0 [1]), .call (.write 0 [2])]
    (run ⟨fun _ => []⟩ init os).wild = false ∧ (run ⟨fun _ => []⟩ init os).userUp = true ∧ ((run ⟨fun _ => []⟩ init os).S 0).up = true ∧
    settled 0 (run ⟨fun _ => []⟩ init (os ++ [.call .close])).log = [(1, false), (2, false)] := by
  decide +kernel

theorem listen_prefix {a b : List Msg} (h : a <+: b) : (listen a).out <+: (listen b).out := by
  obtain ⟨t, rfl⟩ := h
  suffices hs : ∀ (t : List Msg) (e : Ear), e.out <+: (t.foldl hear e).out by
    have := hs t (listen a)
    simpa [listen] using this
  intro t
  induction t with
  | nil => exact fun e => List.prefix_rfl
  | cons m t ih =>
    intro e
    refine List.IsPrefix.trans ?_ (ih (hear e m))
    cases m with
    | data id more b =>
      simp only [hear, Ear.piece]
      split <;> split <;> first | exact List.prefix_rfl | exact List.prefix_append _ _
    | abandon id n =>
      simp only [hear, Ear.skip]
      split <;> exact List.prefix_rfl
    | _ => exact List.prefix_rfl

/-- Two ends, with any histories: if what has arrived for a receiving flow is a beginning of what a
sending flow of the other end put on the wire, then its reader has been given a beginning of what was
sent, as it was written. -/
theorem C99_both (appA appB : App) (osA osB : List Op) (s r : Nat)
    (h : heardBy r (run appB init osB).log <+: sentBy s (run appA init osA).log) :
    given r (run appB init osB).log <+: carried s (run appA init osA).log := by
  rw [← C99_said]
  exact (C98_heard appB osB r).trans (listen_prefix h)

/-- And all of it, when all has arrived and the reader is neither closed nor paused and no delivery is
waiting to run. -/
theorem C99_all (appA appB : App) (osA osB : List Op) (s r : Nat) (h : heardBy r (run appB init osB).log = sentBy s (run appA init osA).log)
    (hu : (run appB init osB).up = true) (ht : (run appB init osB).tasks = []) (hr : r < (run appB init osB).nR)
    (ho : ((run appB init osB).R r).up = true) (hp : ((run appB init osB).R r).paused = false) :
    given r (run appB init osB).log = carried s (run appA init osA).log := by
  rw [← C99_said, ← h]
  exact (C98_delivered appB osB r hu ht hr ho hp).1

/-- And when the reader is told that the flow is complete, while its connection isn't closed, then the
writer has closed the flow and every message that was sent has been given. -/
theorem C99_complete_partial (appA appB : App) (osA osB : List Op) (s r : Nat)
    (h : heardBy r (run appB init osB).log <+: sentBy s (run appA init osA).log)
    (hu : (run appB init osB).userUp = true) (he : endings r (run appB init osB).log = 1) :
    given r (run appB init osB).log = carried s (run appA init osA).log ∧
    (settled s (run appA init osA).log).map (·.1) = List.range' 1 (written s (run appA init osA).log).length := by
  obtain ⟨h1, h2⟩ := C98_complete_partial appB osB r hu he
  have hover : ∀ (ms : List Msg) (e : Ear), e.over = false → (ms.foldl hear e).over = true → ∃ id, Msg.closes id ∈ ms := by
    intro ms
    induction ms with
    | nil => intro e h1 h2; simp [h1] at h2
    | cons m ms ih =>
      intro e h1 h2
      by_cases hc : (hear e m).over = false
      · obtain ⟨id, hid⟩ := ih _ hc h2
        exact ⟨id, List.mem_cons_of_mem _ hid⟩
      · cases m with
        | closes id => exact ⟨id, by simp⟩
        | data id more b =>
          refine absurd ?_ hc
          simp only [hear, Ear.piece]
          split <;> split <;> exact h1
        | abandon id n =>
          refine absurd ?_ hc
          simp only [hear, Ear.skip]
          split <;> exact h1
        | _ => exact absurd h1 hc
  obtain ⟨id, hid⟩ := hover _ {} rfl h1
  have hf := C99_framed appA osA s
  dsimp only at hf
  obtain ⟨t, ht⟩ := h
  rcases hf with hf | ⟨id', ret, about, body, fin, e1, e2, e3⟩
  · rw [hf] at ht
    have : heardBy r (run appB init osB).log = [] := (List.append_eq_nil_iff.mp ht).1
    rw [this] at hid; simp at hid
  · rcases e3 with e3 | ⟨e3, e4⟩
    · have : Msg.closes id ∈ sentBy s (run appA init osA).log := by rw [← ht]; exact List.mem_append_left _ hid
      rw [e1, e3] at this
      simp only [List.append_nil, List.mem_cons, reduceCtorEq, false_or] at this
      rcases e2 _ this with ⟨_, _, h⟩ | ⟨_, h⟩ <;> simp at h
    · refine ⟨?_, e4⟩
      have hall : heardBy r (run appB init osB).log = sentBy s (run appA init osA).log := by
        cases ht' : t.reverse with
        | nil =>
          have : t = [] := by simpa using ht'
          rw [this] at ht; simpa using ht
        | cons x l =>
          exfalso
          have htt : t = l.reverse ++ [x] := by
            have := congrArg List.reverse ht'
            simpa using this
          rw [htt, e1, e3, ← List.append_assoc, ← List.cons_append] at ht
          have ht2 := List.append_inj' ht rfl
          have hmem : Msg.closes id ∈ Msg.opens id' ret about :: body := by
            rw [← ht2.1]; exact List.mem_append_left _ hid
          simp only [List.mem_cons, reduceCtorEq, false_or] at hmem
          rcases e2 _ hmem with ⟨_, _, h⟩ | ⟨_, h⟩ <;> simp at h
      rw [h2, hall, C99_said]

/-- An application that does nothing. -/
def quiet : App := ⟨fun _ => []⟩

/-- Two messages, the first in two pieces; then the flow is closed. -/
def twoOut : List Op :=
  [.limit 65536 65536 2, .call (.opens 5 [] 3), .call (.write 0 [1, 2, 3]), .call (.write 0 [4]), .call (.closeS 0)] ++
    List.replicate 5 (.transmit (fun _ => 0) false)

example : let l := (run quiet init twoOut).log
    sentBy 0 l = [.opens 5 .none [], .data 5 true [1, 2], .data 5 false [3], .data 5 false [4], .closes 5] ∧
    carried 0 l = [(1, [1, 2, 3]), (2, [4])] ∧ settled 0 l = [(1, true), (2, true)] := by
  decide +kernel

/-- A message abandoned after its first piece: the next one keeps its number. -/
def oneLost : List Op :=
  [.limit 65536 65536 2, .call (.opens 5 [] 3), .call (.write 0 [1, 2, 3]), .call (.write 0 [4])] ++
    List.replicate 2 (.transmit (fun _ => 0) false) ++ List.replicate 3 (.transmit (fun _ => 1) false)

example : let l := (run quiet init oneLost).log
    sentBy 0 l = [.opens 5 .none [], .data 5 true [1, 2], .abandon 5 0, .abandon 5 0] ∧ settled 0 l = [(1, false), (2, false)] := by
  decide +kernel

/-- The other end of `twoOut`. -/
def twoIn : List Op :=
  (sentBy 0 (run quiet init twoOut).log).map (fun m => .recv m.encode) ++ [.task]

/-- the theorems about both ends are about histories that exist -/
example : heardBy 0 (run acceptsAll init twoIn).log = sentBy 0 (run quiet init twoOut).log ∧
    (run acceptsAll init twoIn).userUp = true ∧ endings 0 (run acceptsAll init twoIn).log = 1 ∧
    given 0 (run acceptsAll init twoIn).log = [(1, [1, 2, 3]), (2, [4])] := by
  decide +kernel

/-- and so is the one about an open flow -/
example : let b := run acceptsAll init (twoIn.dropLast.dropLast ++ [.task])
    heardBy 0 b.log = sentBy 0 (run quiet init twoOut.dropLast).log ∧ b.up = true ∧ b.tasks = [] ∧ 0 < b.nR ∧ (b.R 0).up = true ∧
    (b.R 0).paused = false ∧ given 0 b.log = [(1, [1, 2, 3]), (2, [4])] := by
  decide +kernel

/-- That every message written is settled when the connection is closed is false of the code: messages
waiting in a flow that the writer has closed already are forgotten, and no callback tells it.  In a flow
that is open they are settled. -/
theorem C99_forgotten : ∃ os, let l := (run quiet init (os ++ [.call (.closeS 0), .call .close])).log
    written 0 l = [[1], [2]] ∧ settled 0 l = [] ∧
    settled 0 (run quiet init (os ++ [.call .close])).log = [(1, false), (2, false)] ∧
    ∀ n, settled 0 (run quiet (run quiet init (os ++ [.call (.closeS 0), .call .close])) (List.replicate n (.transmit (fun _ => 2) false))).log = [] := by
  refine ⟨[.call (.opens 5 [] 3), .call (.write 0 [1]), .call (.write 0 [2])], by decide +kernel, by decide +kernel, by decide +kernel, ?_⟩
  intro n
  have hu : (run quiet init ([.call (.opens 5 [] 3), .call (.write 0 [1]), .call (.write 0 [2])] ++ [.call (.closeS 0), .call .close])).up = false := by
    decide +kernel
  have hl : settled 0 (run quiet init ([.call (.opens 5 [] 3), .call (.write 0 [1]), .call (.write 0 [2])] ++ [.call (.closeS 0), .call .close])).log = [] := by
    decide +kernel
  generalize run quiet init ([.call (.opens 5 [] 3), .call (.write 0 [1]), .call (.write 0 [2])] ++ [.call (.closeS 0), .call .close]) = st at hu hl
  induction n with
  | zero => exact hl
  | succ n ih =>
    have hs : step quiet st (.transmit (fun _ => 2) false) = st := by
      unfold step
      split
      · rfl
      · simp [transmit, hu]
    rw [List.replicate_succ]
    show settled 0 (run quiet (step quiet st _) _).log = []
    rw [hs]; exact ih

/-- An application that writes again to the flow when it hears that a message was abandoned. -/
def triesAgain : App := ⟨fun l => match l.getLast? with | .some (.dropped s _) => [.write s [9]] | _ => []⟩

/-- An application that ends the connection when it hears that a message was abandoned. -/
def givesUp : App := ⟨fun l => match l.getLast? with | .some (.dropped _ _) => [.close] | _ => []⟩

/-- A write to the flow, or a close of the connection, from the callback that tells of an abandoned
message changes the list which the code is holding a reference into: the behaviour is undefined. -/
theorem C99_wild : ∃ os, (run quiet init os).wild = false ∧ (run triesAgain init os).wild = true ∧ (run givesUp init os).wild = true :=
  ⟨[.call (.opens 5 [] 3), .call (.write 0 [1]), .trim 0 1], by decide +kernel, by decide +kernel, by decide +kernel⟩

/-- The messages on the wire, as they arrive. -/
def arriving (l : List Ev) : List Op := (wire l).map fun m => .recv m.encode

/-- With a limit on the bytes in flight below the smallest acknowledgement window (2800), both ends come
to rest with a message not sent: the sender waits for acknowledgements, and the receiver, which has
delivered, passed on and answered all it heard, waits for more before it acknowledges. -/
theorem C99_stall : ∃ osA osB, let a := run quiet init osA
    let b := run acceptsAll init osB
    a.up = true ∧ b.up = true ∧ (a.S 0).buf ≠ [] ∧ a.sendNow = false ∧ b.sendNow = false ∧ b.tasks = [] ∧
    wire b.log = [.ack 5 0 2097151] ∧ heardBy 0 b.log = sentBy 0 a.log := by
  refine ⟨[.limit 10 10 4, .call (.opens 5 [] 3), .transmit (fun _ => 0) false, .recv (Msg.encode (.ack 5 0 2097151)),
      .call (.write 0 [1, 2, 3, 4, 5, 6, 7, 8, 9])] ++ List.replicate 4 (.transmit (fun _ => 0) false),
    [.recv (Msg.encode (.opens 5 .none [])), .transmit (fun _ => 0) false, .recv (Msg.encode (.data 5 true [1, 2, 3, 4])),
      .recv (Msg.encode (.data 5 true [5, 6, 7, 8])), .transmit (fun _ => 0) false], ?_⟩
  decide +kernel

end Rtmfp
