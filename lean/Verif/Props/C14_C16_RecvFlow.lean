import Verif.Lemmas.RecvTop

/-!
# Receive flows: C14, C15, C16, C19, C25 (receiving side)

`ms` is the list of messages the sender wrote, each as the list of pieces it was cut into (`Verif/Spec/Stream.lean`); `ops` is any
list of calls. `OkQuiet`: the data chunks carry fragments of the stream (any order, any repetition, any forward sequence numbers,
abandonment notices for any number), the final mark is not before the end of the stream, and the user leaves the flow open.
`OkOp`: the same for the data chunks, but the user and the session do anything at any time.
-/

namespace Rtmfp
open Spec RFlow
open IndexSet (Mem)

/-! ## An execution used in the examples: three fragments of two messages arrive out of order, one of them twice. -/

/-- the messages of the example -/
def exMs : List (List Bytes) := [[[1, 2], [3]], [[4]]]

/-- the calls of the example -/
def exOps : List Op :=
  [.data 0x20 2 0 [3] 2 quiet, .data 0x01 3 0 [4] 3 quiet, .ackSent, .data 0x20 2 0 [3] 4 quiet, .data 0x10 1 0 [1, 2] 4 quiet]

/-- the calls are allowed and what they do -/
theorem exExec (o : Order) (ho : o = .sequence ∨ o = .network) : ∃ f ev, Exec (OkQuiet (fragAt exMs) 3) (started o) exOps f ev ∧
    msgsOf ev = (if o = .sequence then [⟨[1, 2, 3], 1, 2⟩, ⟨[4], 3, 1⟩] else [⟨[4], 3, 1⟩, ⟨[1, 2, 3], 1, 2⟩]) ∧ completesOf ev = [false] := by
  have a1 : ∀ f : RFlow, f.buf = [] → OkData (fragAt exMs) f 0x20 2 0 [3] 2 := fun f h => ⟨by decide, by decide, by rw [h]; decide, fun _ => by decide⟩
  rcases ho with rfl | rfl
  · refine ⟨_, _, .snoc (.snoc (.snoc (.snoc (.snoc .nil ?_ rfl) ?_ rfl) ?_ rfl) ?_ rfl) ?_ rfl, rfl, rfl⟩
    · exact ⟨a1 _ rfl, rfl, by decide⟩
    · exact ⟨⟨by decide, by decide, by decide, fun _ => by decide⟩, rfl, by decide⟩
    · trivial
    · exact ⟨⟨by decide, by decide, by decide, fun _ => by decide⟩, rfl, by decide⟩
    · exact ⟨⟨by decide, by decide, by decide, fun _ => by decide⟩, rfl, by decide⟩
  · refine ⟨_, _, .snoc (.snoc (.snoc (.snoc (.snoc .nil ?_ rfl) ?_ rfl) ?_ rfl) ?_ rfl) ?_ rfl, rfl, rfl⟩
    · exact ⟨a1 _ rfl, rfl, by decide⟩
    · exact ⟨⟨by decide, by decide, by decide, fun _ => by decide⟩, rfl, by decide⟩
    · trivial
    · exact ⟨⟨by decide, by decide, by decide, fun _ => by decide⟩, rfl, by decide⟩
    · exact ⟨⟨by decide, by decide, by decide, fun _ => by decide⟩, rfl, by decide⟩

theorem exSkip : NothingSkipped (chunksOf exOps) := by
  intro pre c post e
  have hf : c.fsn = 0 ∧ c.flags &&& USERDATA_FLAG_ABN = 0 := by
    have : c ∈ chunksOf exOps := by rw [e]; simp
    revert this
    simp only [exOps, chunksOf, List.filterMap_cons, List.filterMap_nil]
    intro h
    simp only [List.mem_cons, List.not_mem_nil, or_false] at h
    rcases h with rfl | rfl | rfl | rfl <;> decide
  exact ⟨hf.2, fun k h1 h2 => by omega⟩

/-! ## C14 -/

/-- C14. In original order, at every moment the messages delivered so far are, in sending order and each once, exactly the messages all of
whose fragments arrived in time (that is, before being skipped) and before whose end every number arrived or was skipped. -/
theorem C14_exact (ms : List (List Bytes)) (hne : ∀ m ∈ ms, m ≠ []) (hlen : (stream ms).length < 2 ^ 64) (ops : List Op) (f : RFlow) (ev : List REv)
    (h : Exec (OkQuiet (fragAt ms) (stream ms).length) (started .sequence) ops f ev) :
    (msgsOf ev).Sublist (messages ms) ∧
    ∀ m ∈ messages ms, m ∈ msgsOf ev ↔
      (∀ k, m.sn ≤ k → k ≤ m.last → InTime (chunksOf ops) k) ∧ ∀ k, 1 ≤ k → k ≤ m.last → Covered (chunksOf ops) k := by
  have w := stream_wf (ms := ms) (by omega)
  have e := E.exec w fragAt_le (by decide) h
  have hs := messages_sorted hne
  have hle : ∀ m ∈ messages ms, m.sn ≤ m.last := fun m hm => ((mem_messages' hne m).1 hm).1.le
  refine ⟨sorted_sublist hle (e.ordered rfl).sorted hs (fun m hm => (mem_messages' hne m).2 (e.inv.g.msg m hm)), fun m hm => ?_⟩
  rw [e.sequence w m]
  exact ⟨fun h => h.2, fun h => ⟨(mem_messages' hne m).1 hm, h⟩⟩

example : ∃ f ev, Exec (OkQuiet (fragAt exMs) (stream exMs).length) (started .sequence) exOps f ev ∧ msgsOf ev = messages exMs := by
  obtain ⟨f, ev, h, h1, _⟩ := exExec .sequence (.inl rfl)
  exact ⟨f, ev, h, h1⟩

/-- C14. When nothing is skipped, what has been delivered is at every moment a prefix of what was sent: the messages up to the first number that
has not arrived. -/
theorem C14_prefix (ms : List (List Bytes)) (hne : ∀ m ∈ ms, m ≠ []) (hlen : (stream ms).length < 2 ^ 64) (ops : List Op) (f : RFlow) (ev : List REv)
    (h : Exec (OkQuiet (fragAt ms) (stream ms).length) (started .sequence) ops f ev) (hn : NothingSkipped (chunksOf ops)) :
    msgsOf ev <+: messages ms ∧ ∀ m ∈ messages ms, m ∈ msgsOf ev ↔ ∀ k, 1 ≤ k → k ≤ m.last → Arrived (chunksOf ops) k := by
  obtain ⟨h1, h2⟩ := C14_exact ms hne hlen ops f ev h
  have w := stream_wf (ms := ms) (by omega)
  have hpos : ∀ m ∈ messages ms, 1 ≤ m.sn := by
    intro m hm
    rcases Nat.eq_zero_or_pos m.sn with z | z
    · have := ((mem_messages' hne m).1 hm).1
      rw [z] at this
      rcases this with ⟨_, d, hd⟩ | ⟨_, ⟨d, hd⟩, _⟩ <;> (rw [w.zero] at hd; cases hd)
    · exact z
  have key : ∀ m ∈ messages ms, m ∈ msgsOf ev ↔ ∀ k, 1 ≤ k → k ≤ m.last → Arrived (chunksOf ops) k := by
    intro m hm
    rw [h2 m hm]
    constructor
    · intro hh k a b
      exact (nothing_skipped hn a).1 (hh.2 k a b)
    · intro hh
      have hp := hpos m hm
      refine ⟨fun k a b => (nothing_skipped hn (by omega)).2 (hh k (by omega) b), fun k a b => ?_⟩
      obtain ⟨c, hc, e⟩ := hh k a b
      exact ⟨c, hc, .inl e⟩
  refine ⟨sorted_prefix (fun m hm => ((mem_messages' hne m).1 hm).1.le) (messages_sorted hne) h1 ?_, key⟩
  intro x hx y hy hlt
  have hxm := h1.subset hx
  rw [key y hy]
  intro k a b
  have hxl := ((mem_messages' hne x).1 hxm).1.le
  exact (key x hxm).1 hx k a (by omega)

example : ∃ f ev, Exec (OkQuiet (fragAt exMs) (stream exMs).length) (started .sequence) exOps f ev ∧ NothingSkipped (chunksOf exOps) := by
  obtain ⟨f, ev, h, _⟩ := exExec .sequence (.inl rfl)
  exact ⟨f, ev, h, exSkip⟩

/-- C14. When every fragment has arrived at least once and nothing was skipped, exactly the sent messages have been delivered, each once, in sending
order. -/
theorem C14_all (ms : List (List Bytes)) (hne : ∀ m ∈ ms, m ≠ []) (hlen : (stream ms).length < 2 ^ 64) (ops : List Op) (f : RFlow) (ev : List REv)
    (h : Exec (OkQuiet (fragAt ms) (stream ms).length) (started .sequence) ops f ev) (hn : NothingSkipped (chunksOf ops))
    (hall : ∀ k, 1 ≤ k → k ≤ (stream ms).length → Arrived (chunksOf ops) k) : msgsOf ev = messages ms := by
  obtain ⟨h1, h2⟩ := C14_prefix ms hne hlen ops f ev h hn
  refine List.Sublist.eq_of_length_le h1.sublist (List.Sublist.length_le (sorted_sublist ?_ (messages_sorted hne) ((messages_sorted hne).sublist h1.sublist) ?_))
  · intro m hm
    exact ((mem_messages' hne m).1 (h1.subset hm)).1.le
  · intro m hm
    rw [h2 m hm]
    intro k a b
    refine hall k a ?_
    obtain ⟨x, hx⟩ : ∃ x, fragAt ms m.last = some x := by
      rcases ((mem_messages' hne m).1 hm).1 with ⟨e, d, hd⟩ | ⟨_, _, ⟨d, hd⟩, _⟩
      · exact ⟨_, by rw [← e]; exact hd⟩
      · exact ⟨_, hd⟩
    have := fragAt_le _ _ hx
    omega

example : ∀ k, 1 ≤ k → k ≤ (stream exMs).length → Arrived (chunksOf exOps) k := by
  intro k h1 h2
  have h2 : k ≤ 3 := h2
  have : k = 1 ∨ k = 2 ∨ k = 3 := by omega
  rcases this with rfl | rfl | rfl
  · exact ⟨⟨0x10, 1, 0⟩, by simp [exOps, chunksOf], rfl⟩
  · exact ⟨⟨0x20, 2, 0⟩, by simp [exOps, chunksOf], rfl⟩
  · exact ⟨⟨0x01, 3, 0⟩, by simp [exOps, chunksOf], rfl⟩

/-- C14. No allowed call ever fails, so the executions above can always be continued. -/
theorem C14_never_stuck (ms : List (List Bytes)) (hlen : (stream ms).length < 2 ^ 64) (o : Order) (ho : o ≠ .hold) (ops : List Op)
    (f : RFlow) (ev : List REv) (h : Exec (OkQuiet (fragAt ms) (stream ms).length) (started o) ops f ev) (op : Op)
    (hop : OkQuiet (fragAt ms) (stream ms).length f op) : ∃ f' ev', f.step op = .ok (f', ev') := by
  have w := stream_wf (ms := ms) (by omega)
  obtain ⟨f', ev', e, _⟩ := (E.exec w fragAt_le ho h).step w fragAt_le ho hop
  exact ⟨f', ev', e⟩

example : OkQuiet (fragAt exMs) (stream exMs).length (started .sequence) (.data 0x20 2 0 [3] 2 quiet) :=
  ⟨⟨by decide, by decide, by decide, fun _ => by decide⟩, rfl, by decide⟩

/-- C14, C15, C25. In both orders the flow is reported complete (without error) exactly when the final number is known and every number up to it
arrived or was skipped, and exactly once. -/
theorem C14_completes (ms : List (List Bytes)) (hlen : (stream ms).length < 2 ^ 64) (o : Order) (ho : o ≠ .hold) (ops : List Op)
    (f : RFlow) (ev : List REv) (h : Exec (OkQuiet (fragAt ms) (stream ms).length) (started o) ops f ev) :
    (completesOf ev = [false] ∧ ∃ n, FinalIs (chunksOf ops) n ∧ ∀ k, 1 ≤ k → k ≤ n → Covered (chunksOf ops) k) ∨
    (completesOf ev = [] ∧ ¬ ∃ n, FinalIs (chunksOf ops) n ∧ ∀ k, 1 ≤ k → k ≤ n → Covered (chunksOf ops) k) := by
  have w := stream_wf (ms := ms) (by omega)
  have e := E.exec w fragAt_le ho h
  have hcsn : ∀ x, x ≤ f.csn ↔ ∀ k, 1 ≤ k → k ≤ x → Covered (chunksOf ops) k := by
    intro x
    rw [csn_iff e.inv.canon e.inv.zero]
    exact ⟨fun hh k a b => (e.mem k).1 (hh k a b), fun hh k a b => (e.mem k).2 (hh k a b)⟩
  rcases e.phase with ⟨_, _, _, _, h5, h6⟩ | ⟨_, _, _, h4, h5, h6⟩
  · right
    refine ⟨h5, ?_⟩
    rintro ⟨n, h1, h2⟩
    obtain ⟨h3, h4⟩ := (e.fin n).1 h1
    exact h6 ⟨h3, by rw [h4, hcsn]; exact h2⟩
  · left
    exact ⟨h4, f.finalSn, (e.fin _).2 ⟨h5, rfl⟩, (hcsn _).1 h6⟩

example : ∃ f ev, Exec (OkQuiet (fragAt exMs) (stream exMs).length) (started .network) exOps f ev ∧ completesOf ev = [false] := by
  obtain ⟨f, ev, h, _, h2⟩ := exExec .network (.inr rfl)
  exact ⟨f, ev, h, h2⟩

/-! ## C15 -/

/-- C15. In network order, at every moment the delivered messages are exactly the sent messages all of whose fragments have arrived in time (that
is, before being skipped), each once, with their exact contents. In particular a message is delivered by the call that brings its last
fragment. -/
theorem C15_exact (ms : List (List Bytes)) (hne : ∀ m ∈ ms, m ≠ []) (hlen : (stream ms).length < 2 ^ 64) (ops : List Op) (f : RFlow) (ev : List REv)
    (h : Exec (OkQuiet (fragAt ms) (stream ms).length) (started .network) ops f ev) :
    (msgsOf ev).Nodup ∧ ∀ m, m ∈ msgsOf ev ↔ m ∈ messages ms ∧ ∀ k, m.sn ≤ k → k ≤ m.last → InTime (chunksOf ops) k := by
  have w := stream_wf (ms := ms) (by omega)
  have e := E.exec w fragAt_le (by decide) h
  constructor
  · refine e.inv.g.disj.imp_of_mem (fun {a b} ha _ hab he => ?_)
    subst he
    have := (e.inv.g.msg a ha).1.le
    omega
  · intro m
    rw [e.network w m, mem_messages' hne]

example : ∃ f ev, Exec (OkQuiet (fragAt exMs) (stream exMs).length) (started .network) exOps f ev ∧ msgsOf ev = [⟨[4], 3, 1⟩, ⟨[1, 2, 3], 1, 2⟩] := by
  obtain ⟨f, ev, h, h1, _⟩ := exExec .network (.inr rfl)
  exact ⟨f, ev, h, h1⟩

/-- C15. When nothing is skipped, a message has been delivered exactly when all its fragments have arrived. -/
theorem C15_arrived (ms : List (List Bytes)) (hne : ∀ m ∈ ms, m ≠ []) (hlen : (stream ms).length < 2 ^ 64) (ops : List Op) (f : RFlow) (ev : List REv)
    (h : Exec (OkQuiet (fragAt ms) (stream ms).length) (started .network) ops f ev) (hn : NothingSkipped (chunksOf ops)) :
    ∀ m ∈ messages ms, m ∈ msgsOf ev ↔ ∀ k, m.sn ≤ k → k ≤ m.last → Arrived (chunksOf ops) k := by
  have w := stream_wf (ms := ms) (by omega)
  intro m hm
  rw [(C15_exact ms hne hlen ops f ev h).2 m]
  have hpos : 1 ≤ m.sn := by
    rcases Nat.eq_zero_or_pos m.sn with z | z
    · have := ((mem_messages' hne m).1 hm).1
      rw [z] at this
      rcases this with ⟨_, d, hd⟩ | ⟨_, ⟨d, hd⟩, _⟩ <;> (rw [w.zero] at hd; cases hd)
    · exact z
  constructor
  · rintro ⟨_, hh⟩ k a b
    exact (nothing_skipped hn (by omega)).1 (inTime_covered (hh k a b))
  · intro hh
    exact ⟨hm, fun k a b => (nothing_skipped hn (by omega)).2 (hh k a b)⟩

example : ∃ f ev, Exec (OkQuiet (fragAt exMs) (stream exMs).length) (started .network) exOps f ev ∧ NothingSkipped (chunksOf exOps) := by
  obtain ⟨f, ev, h, _⟩ := exExec .network (.inr rfl)
  exact ⟨f, ev, h, exSkip⟩

/-- C14, C15. Whatever the user and the session do (closing, aborting, changing the order of reception, also from inside message callbacks), only
messages that were sent are delivered, with their exact contents, each at most once. -/
theorem C15_only_sent (ms : List (List Bytes)) (hne : ∀ m ∈ ms, m ≠ []) (hlen : (stream ms).length < 2 ^ 64) (ops : List Op) (f : RFlow) (ev : List REv)
    (h : Exec (OkOp (fragAt ms)) RFlow.init ops f ev) : (msgsOf ev).Nodup ∧ ∀ m ∈ msgsOf ev, m ∈ messages ms := by
  have w := stream_wf (ms := ms) (by omega)
  have e := Inv.exec w h
  constructor
  · refine e.g.disj.imp_of_mem (fun {a b} ha _ hab he => ?_)
    subst he
    have := (e.g.msg a ha).1.le
    omega
  · intro m hm
    exact (mem_messages' hne m).2 (e.g.msg m hm)

/-- The user changes the order of reception in the callback for message 3. -/
example : ∃ f ev, Exec (OkOp (fragAt exMs)) RFlow.init
    [.accept, .setOrder .network, .setOnMessage true, .data 0x20 2 0 [3] 2 quiet, .data 0x00 3 0 [4] 3 (fun _ => .order .hold),
     .data 0x10 1 0 [1, 2] 4 quiet, .setOrder .sequence, .deferredTry (fun _ => .close)] f ev ∧
    msgsOf ev = [⟨[4], 3, 1⟩, ⟨[1, 2, 3], 1, 2⟩] := by
  refine ⟨_, _, .snoc (.snoc (.snoc (.snoc (.snoc (.snoc (.snoc (.snoc .nil trivial rfl) trivial rfl) trivial rfl) ?_ rfl) ?_ rfl) ?_ rfl) trivial rfl) trivial rfl, rfl⟩
  · exact ⟨by decide, by decide, by decide, fun _ => by decide⟩
  · exact ⟨by decide, by decide, by decide, fun _ => by decide⟩
  · exact ⟨by decide, by decide, by decide, fun _ => by decide⟩

/-! ## C16 -/

/-- Any 64-bit numbers, any flags and payload; only the name given to a new buffer entry must not be in use. -/
def AnyOp (f : RFlow) : Op → Prop
  | .data _ sn fsn _ nm _ => sn < W64 ∧ fsn < W64 ∧ nm ∉ f.buf.map (·.1)
  | _ => True

/-- C16 is false for the code: in original order, five chunks that no well-formed sender produces make the receiver look up a released buffer
entry (src/RecvFlow.cpp:400 via a stale segment end). The names are those `List` allocates. -/
theorem C16_sequence_order_throws : ∃ ops f ev op, Exec AnyOp RFlow.init ops f ev ∧ AnyOp f op ∧ f.step op = .error .threw := by
  refine ⟨[.accept, .setOnMessage true, .data 0x10 7 3 [1] 2 quiet, .data 0x30 6 3 [2] 3 quiet, .data 0x30 5 3 [3] 4 quiet, .data 0x00 4 3 [4] 5 quiet],
    _, _, .data 0x30 8 3 [5] 6 quiet, .snoc (.snoc (.snoc (.snoc (.snoc (.snoc .nil trivial rfl) trivial rfl) ?_ rfl) ?_ rfl) ?_ rfl) ?_ rfl, ?_, rfl⟩ <;>
  exact ⟨by decide, by decide, by decide⟩

/-- C16 is false for the code also in network order (src/RecvFlow.cpp:315 or 322). -/
theorem C16_network_order_throws : ∃ ops f ev op, Exec AnyOp RFlow.init ops f ev ∧ AnyOp f op ∧ f.step op = .error .threw ∧ f.order = .network := by
  refine ⟨[.accept, .setOrder .network, .setOnMessage true, .data 0x20 5 2 [1] 2 quiet, .data 0x20 6 2 [2] 3 quiet, .data 0x10 4 2 [3] 4 quiet],
    _, _, .data 0x30 7 2 [4] 5 quiet, .snoc (.snoc (.snoc (.snoc (.snoc (.snoc .nil trivial rfl) trivial rfl) trivial rfl) ?_ rfl) ?_ rfl) ?_ rfl, ?_, rfl, rfl⟩ <;>
  exact ⟨by decide, by decide, by decide⟩

/-- C16, what holds: for chunks carrying fragments of any well-formed stream (any order, repetition, forward sequence numbers, abandonment notices and final
marks), whatever the user and the session do, no call fails. Missing: arbitrary chunks, for which it is false (above). -/
theorem C16_wellformed_partial (ms : List (List Bytes)) (hlen : (stream ms).length < 2 ^ 64) (ops : List Op) (f : RFlow) (ev : List REv)
    (h : Exec (OkOp (fragAt ms)) RFlow.init ops f ev) (op : Op) (hop : OkOp (fragAt ms) f op) : ∃ f' ev', f.step op = .ok (f', ev') := by
  have w := stream_wf (ms := ms) (by omega)
  obtain ⟨f', ev', e, _⟩ := (Inv.exec w h).step w hop
  exact ⟨f', ev', e⟩

example : ∃ f ev, Exec (OkOp (fragAt exMs)) RFlow.init [.accept, .data 0x20 2 0 [3] 2 (fun _ => .abort)] f ev ∧
    OkOp (fragAt exMs) f (.data 0x02 1 0 [] 3 quiet) := by
  refine ⟨_, _, .snoc (.snoc .nil trivial rfl) ?_ rfl, ?_⟩
  · exact ⟨by decide, by decide, by decide, fun _ => by decide⟩
  · exact ⟨by decide, by decide, by decide, by decide⟩

/-- C16, what holds for every input and every state: the delivery loop ends (the model's fuel is never exhausted). -/
theorem C16_loops_end (f : RFlow) (op : Op) : f.step op ≠ .error .fuel := (step_all f op).1

/-! ## C19 -/

/-- C19. For any chunks at all: after any calls the set of received numbers is exactly the set of numbers that arrived or were skipped; the
cumulative acknowledgement number is the largest `n` such that all of 1 … n are in it; the forward sequence number is the largest one received. -/
theorem C19_justified (ops : List Op) (f : RFlow) (ev : List REv) (h : Exec Op64 RFlow.init ops f ev) :
    (∀ k, Mem f.seqs k ↔ Covered (chunksOf ops) k) ∧ (∀ n, n ≤ f.csn ↔ ∀ k, 1 ≤ k → k ≤ n → Covered (chunksOf ops) k) ∧
    (∀ c ∈ chunksOf ops, c.fsn ≤ f.forwardSn) ∧ (f.forwardSn = 0 ∨ ∃ c ∈ chunksOf ops, c.fsn = f.forwardSn) := by
  obtain ⟨h1, h2, h3, h4⟩ := exec_seqs h
  refine ⟨h3, fun n => ?_, ?_⟩
  · rw [csn_iff h1 h2]
    exact ⟨fun hh k a b => (h3 k).1 (hh k a b), fun hh k a b => (h3 k).2 (hh k a b)⟩
  · rw [h4, maxFsn]
    have key : ∀ (l : List DataChunk) (m : Nat), (∀ c ∈ l, c.fsn ≤ l.foldl (fun m c => max m c.fsn) m) ∧ m ≤ l.foldl (fun m c => max m c.fsn) m ∧
        (l.foldl (fun m c => max m c.fsn) m = m ∨ ∃ c ∈ l, c.fsn = l.foldl (fun m c => max m c.fsn) m) := by
      intro l
      induction l with
      | nil => intro m; exact ⟨by simp, Nat.le_refl _, .inl rfl⟩
      | cons a l ih =>
        intro m
        obtain ⟨i1, i2, i3⟩ := ih (max m a.fsn)
        rw [List.foldl_cons]
        refine ⟨?_, by omega, ?_⟩
        · intro c hc
          rcases List.mem_cons.mp hc with rfl | hc
          · omega
          · exact i1 c hc
        · rcases i3 with i3 | ⟨c, hc, i3⟩
          · rcases Nat.le_total a.fsn m with hle | hle
            · left; rw [i3]; omega
            · right; exact ⟨a, by simp, by rw [i3]; omega⟩
          · exact .inr ⟨c, by simp [hc], i3⟩
    obtain ⟨i1, _, i3⟩ := key (chunksOf ops) 0
    exact ⟨i1, i3⟩

example : ∃ f ev, Exec Op64 RFlow.init [.accept, .data 0x20 2 0 [3] 2 quiet, .data 0x20 9 7 [3] 3 quiet] f ev ∧ f.csn = 7 := by
  refine ⟨_, _, .snoc (.snoc (.snoc .nil trivial rfl) ?_ rfl) ?_ rfl, rfl⟩ <;> exact ⟨by decide, by decide⟩

/-- C19. No call ever decreases the cumulative acknowledgement number or the forward sequence number, or forgets a received number. -/
theorem C19_monotone (ops : List Op) (f : RFlow) (ev : List REv) (h : Exec Op64 RFlow.init ops f ev) (op : Op) (hop : Op64 f op) (f' : RFlow) (ev' : List REv)
    (hs : f.step op = .ok (f', ev')) : f.csn ≤ f'.csn ∧ f.forwardSn ≤ f'.forwardSn ∧ ∀ k, Mem f.seqs k → Mem f'.seqs k := by
  obtain ⟨a1, a2, a3, a4⟩ := C19_justified ops f ev h
  obtain ⟨b1, b2, b3, b4⟩ := C19_justified _ _ _ (h.snoc hop hs)
  have hcov : ∀ k, Covered (chunksOf ops) k → Covered (chunksOf (ops ++ [op])) k := by
    rintro k ⟨c, hc, hk⟩
    exact ⟨c, by rw [chunksOf_append]; simp [hc], hk⟩
  refine ⟨?_, ?_, fun k hk => (b1 k).2 (hcov k ((a1 k).1 hk))⟩
  · rw [b2]
    intro k p q
    exact hcov k ((a2 _).1 (Nat.le_refl _) k p q)
  · rcases a4 with h | ⟨c, hc, h⟩
    · omega
    · rw [← h]
      exact b3 c (by rw [chunksOf_append]; simp [hc])

example : ∃ f ev f' ev', Exec Op64 RFlow.init [.accept, .data 0x20 2 0 [3] 2 quiet] f ev ∧ f.step (.data 0x20 9 7 [3] 3 quiet) = .ok (f', ev') ∧ f.csn < f'.csn := by
  refine ⟨_, _, _, _, .snoc (.snoc .nil trivial rfl) ?_ rfl, rfl, by decide⟩
  exact ⟨by decide, by decide⟩

/-! ## C25 (receiving side) -/

/-- C25. For any chunks and any calls: the completion callback is invoked at most once and nothing is delivered after it. -/
theorem C25_recv_complete_last (ok : RFlow → Op → Prop) (ops : List Op) (f : RFlow) (ev : List REv) (h : Exec ok RFlow.init ops f ev) :
    (completesOf ev).length ≤ 1 ∧ ∀ pre e post, ev = pre ++ .complete e :: post → msgsOf post = [] ∧ completesOf post = [] := by
  have hl := exec_life h
  have key : ∀ l : List REv, l.Pairwise (fun a b => REv.isComplete a = true → REv.isTold b = false) → (completesOf l).length ≤ 1 ∧
      ∀ pre e post, l = pre ++ .complete e :: post → msgsOf post = [] ∧ completesOf post = [] := by
    have nothing : ∀ l : List REv, (∀ b ∈ l, REv.isTold b = false) → msgsOf l = [] ∧ completesOf l = [] := by
      intro l
      induction l with
      | nil => intro _; exact ⟨rfl, rfl⟩
      | cons b l ih =>
        intro hb
        have h1 := hb b (by simp)
        have h2 := ih (fun x hx => hb x (by simp [hx]))
        cases b with
        | msg d s c => cases h1
        | complete e => cases h1
        | merged => exact h2
        | scheduleAck n => exact h2
    intro l hp
    constructor
    · induction l with
      | nil => exact Nat.zero_le _
      | cons a l ih =>
        rw [List.pairwise_cons] at hp
        have h2 := ih hp.2
        cases a with
        | complete e =>
          have := (nothing l (fun b hb => hp.1 b hb rfl)).2
          show (e :: completesOf l).length ≤ 1
          rw [this]; exact Nat.le_refl _
        | msg d s c => exact h2
        | merged => exact h2
        | scheduleAck n => exact h2
    · intro pre e post he
      rw [he, List.pairwise_append, List.pairwise_cons] at hp
      exact nothing post (fun b hb => hp.2.1.1 b hb rfl)
  exact key ev hl.after

/-- The session is closed in the message callback of a flow whose buffer holds another message. -/
example : ∃ f ev, Exec AnyOp RFlow.init [.accept, .setOnMessage true, .setOnComplete true, .setOrder .hold, .data 0 1 0 [1] 2 quiet, .data 0 2 0 [2] 3 quiet,
    .setOrder .sequence, .deferredTry (fun _ => .abort)] f ev ∧ completesOf ev = [true] ∧ msgsOf ev = [⟨[1], 1, 1⟩] := by
  refine ⟨_, _, .snoc (.snoc (.snoc (.snoc (.snoc (.snoc (.snoc (.snoc .nil trivial rfl) trivial rfl) trivial rfl) trivial rfl) ?_ rfl) ?_ rfl) trivial rfl) trivial rfl, rfl, rfl⟩ <;>
  exact ⟨by decide, by decide, by decide⟩

end Rtmfp
