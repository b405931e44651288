import Verif.Lemmas.RtmpDone
import Verif.Props.C94_RtmpReceive

/-!
# C95: what an RTMP gives to the stream says the messages written, each as it was, in order

The application may call anything from inside of any callback; bytes may arrive, the stream may be writable and may be lost at any time, and
messages may be abandoned at any time, those of which a part was already sent too. What is read from the log is: `puts`, all bytes given to the
stream; `queuedAt p`, the messages that `write` took for priority `p`, with their numbers; `leftAt p`, those that were sent or abandoned;
`fins`, those that were sent (all of their bytes are given to the stream, or will be next).
-/

namespace Rtmfp

open Rtmp Spec.Chunks

/-- **C95.** Whatever happens, all that was ever given to the stream is a first part of: a version, two handshakes, and chunks that are allowed and
that say the messages that were sent and no others (a message that was abandoned when a part of it had been given to the stream is not heard). -/
theorem C95_wire (app : App) (ops : List Op) :
    ∃ (h : Bytes) (chunks : List Chunk) (wire : Bytes) (fin : Dec) (msgs : List Message), h.length = 3072 ∧ (∀ c ∈ chunks, c.Fits) ∧
      Dec.init.hear chunks = some (wire, fin, msgs) ∧ puts (run app init ops).log <+: 3 :: (h ++ wire) ∧ users msgs = fins (run app init ops).log :=
  (run_inv app ops).wired

/-- **C95.** The messages of a priority leave (are sent or abandoned) in the order in which they were written, unchanged. -/
theorem C95_order (app : App) (ops : List Op) (p : Nat) : leftAt p (run app init ops).log <+: queuedAt p (run app init ops).log :=
  ⟨_, ((run_inv app ops).book.queue p).symm⟩

theorem Rtmp.left_finished {l : List Ev} {p id : Nat} {sid : UInt32} {type : UInt8} {ts : UInt32} {b : Bytes}
    (h : Ev.finished p id sid type ts b ∈ l ∨ Ev.dropped p id sid type ts b ∈ l) : (id, (⟨sid, type, ts, b⟩ : Message)) ∈ leftAt p l := by
  unfold leftAt
  rw [List.mem_filterMap]
  rcases h with h | h <;> exact ⟨_, h, by simp⟩

theorem Rtmp.mem_queued {l : List Ev} {p id : Nat} {m : Message} (h : (id, m) ∈ queuedAt p l) : Ev.queued p id m.sid m.type m.ts m.payload ∈ l := by
  unfold queuedAt at h
  rw [List.mem_filterMap] at h
  obtain ⟨e, h1, h2⟩ := h
  cases e with
  | queued q id' sid type ts b =>
    simp only at h2
    by_cases e : q = p
    · rw [if_pos e] at h2
      simp only [Option.some.injEq, Prod.mk.injEq] at h2
      obtain ⟨rfl, rfl⟩ := h2
      rw [← e]; exact h1
    · rw [if_neg e] at h2; nomatch h2
  | _ => nomatch h2

/-- **C95.** What is sent (or abandoned) was written: with this stream, type, timestamp, priority and content. -/
theorem C95_written (app : App) (ops : List Op) (p id : Nat) (sid : UInt32) (type : UInt8) (ts : UInt32) (b : Bytes)
    (h : Ev.finished p id sid type ts b ∈ (run app init ops).log ∨ Ev.dropped p id sid type ts b ∈ (run app init ops).log) :
    Ev.queued p id sid type ts b ∈ (run app init ops).log :=
  mem_queued ((C95_order app ops p).subset (left_finished h))

theorem Rtmp.queued_ids (p : Nat) (l : List Ev) : ((queuedAt p l).map Prod.fst).Sublist (qids l) := by
  induction l with
  | nil => exact List.Sublist.slnil
  | cons e l ih =>
    unfold queuedAt qids at *
    rw [List.filterMap_cons, List.filterMap_cons]
    cases e with
    | queued q id sid type ts b =>
      dsimp only
      by_cases e : q = p
      · rw [if_pos e]
        dsimp only
        rw [List.map_cons]
        exact ih.cons_cons _
      · rw [if_neg e]
        dsimp only
        exact ih.cons _
    | _ => exact ih

/-- **C95.** Every write has a number of its own, and every message leaves at most once. -/
theorem C95_once (app : App) (ops : List Op) : (qids (run app init ops).log).Nodup ∧ ∀ p, ((leftAt p (run app init ops).log).map Prod.fst).Nodup := by
  have h : (qids (run app init ops).log).Nodup := by rw [(run_inv app ops).book.ids]; exact List.nodup_range
  exact ⟨h, fun p => List.Sublist.nodup (((C95_order app ops p).sublist.map _).trans (queued_ids p _)) h⟩

/-- **C95.** The receipts that are told that their message was sent are those of the messages sent, in the same order, each once. -/
theorem C95_told (app : App) (ops : List Op) : dones (run app init ops).log = finIds (run app init ops).log := (run_inv app ops).book.done

/-- **C95.** When the connection is over, every message was either sent or abandoned. -/
theorem C95_over (app : App) (ops : List Op) (he : (run app init ops).phase = .error) (p : Nat) :
    leftAt p (run app init ops).log = queuedAt p (run app init ops).log := by
  have hi := run_inv app ops
  have hq : (run app init ops).tx.queues p = [] := by
    rcases hi with h | h | h
    · rcases h.2.1 with e | e <;> rw [he] at e <;> nomatch e
    · have := h.2.said.rank; rw [he] at this; exact absurd this (by decide)
    · exact h.queues p
  have := hi.book.queue p
  rw [hq] at this
  simpa using this.symm

/-- Everything that was sent was given to the stream, and nothing else is on its way. -/
def Rtmp.Flown (st : St) : Prop :=
  ∃ (h : Bytes) (chunks : List Chunk) (wire : Bytes) (fin : Dec) (msgs : List Message), h.length = 3072 ∧ (∀ c ∈ chunks, c.Fits) ∧
    Dec.init.hear chunks = some (wire, fin, msgs) ∧ puts st.log = 3 :: (h ++ wire) ∧ users msgs = fins st.log

theorem Rtmp.step_writable {app : App} {st : St} (hw : st.wild = false) (ho : st.phase = .opn ∨ st.phase = .closing) (hs : st.scheduled = true) :
    step app st .writable = onWritable app st := by
  unfold step
  rw [if_neg (by simp [hw])]
  dsimp only
  rw [if_pos ⟨by rcases ho with e | e <;> rw [e] <;> nofun, hs⟩]

/-- **C95.** An RTMP that is open (or closing) stops asking for the stream only if all messages were sent or abandoned, or as many bytes are
unacknowledged as the other side or the application allows; and then everything that was sent was given to the stream. -/
theorem C95_flushed (app : App) (ops : List Op) (ho : (run app init ops).phase = .opn ∨ (run app init ops).phase = .closing)
    (hs : (run app init ops).scheduled = true) (hd : (run app init (ops ++ [.writable])).scheduled = false)
    (hw : (run app init (ops ++ [.writable])).wild = false) :
    Flown (run app init (ops ++ [.writable])) ∧
    ((∀ p, leftAt p (run app init (ops ++ [.writable])).log = queuedAt p (run app init (ops ++ [.writable])).log) ∨
      (run app init ops).tx.peerBw ≤ ((run app init ops).tx.sent - (run app init ops).tx.acked).toUInt32.toUInt64 ∨
      app.thresh (run app init ops).log ≤ ((run app init ops).tx.sent - (run app init ops).tx.acked).toUInt32.toUInt64) := by
  have hi := run_inv app ops
  have hi' := run_inv app (ops ++ [.writable])
  have e : run app init (ops ++ [.writable]) = step app (run app init ops) .writable := by rw [run_append]; rfl
  rw [e] at hd hw hi' ⊢
  generalize run app init ops = st at *
  have hw0 : st.wild = false := by
    by_cases g : st.wild = true
    · unfold step at hw; rw [if_pos g] at hw; rw [hw] at g; nomatch g
    · simpa using g
  rw [step_writable hw0 ho hs] at hd hw hi' ⊢
  obtain ⟨a, b⟩ := writable_done app hi ho hs hd hw
  refine ⟨a, ?_⟩
  rcases b with b | b
  · exact .inr b.1
  · refine .inl fun p => ?_
    have := hi'.book.queue p
    rw [b p] at this
    simpa using this.symm

/-- **C95.** After `close`, the connection ends by itself only when everything that was sent was given to the stream; and if no message expires,
then only when all that was written was sent before. -/
theorem C95_graceful (app : App) (ops : List Op) (ho : (run app init ops).phase = .opn ∨ (run app init ops).phase = .closing)
    (hs : (run app init ops).scheduled = true) (hd : (run app init (ops ++ [.writable])).phase = .error)
    (hw : (run app init (ops ++ [.writable])).wild = false) :
    Flown (run app init (ops ++ [.writable])) ∧
    ((∀ l id, app.fate l id = .stays) → ∀ p, leftAt p (run app init ops).log = queuedAt p (run app init ops).log) := by
  have hi := run_inv app ops
  have e : run app init (ops ++ [.writable]) = step app (run app init ops) .writable := by rw [run_append]; rfl
  rw [e] at hd hw ⊢
  generalize run app init ops = st at *
  have hw0 : st.wild = false := by
    by_cases g : st.wild = true
    · unfold step at hw; rw [if_pos g] at hw; rw [hw] at g; nomatch g
    · simpa using g
  rw [step_writable hw0 ho hs] at hd hw ⊢
  obtain ⟨_, a, b⟩ := writable_over app hi ho hs hd
  refine ⟨(writable_done app hi ho hs a hw).1, fun hn p => ?_⟩
  have := hi.book.queue p
  rw [b hn p] at this
  simpa using this.symm

theorem Rtmp.kept_all {l k : List Ev} (h : ∀ e ∈ k, kept e = true) (p id : Nat) (sid : UInt32) (type : UInt8) (ts : UInt32) (b : Bytes)
    (hd : Ev.dropped p id sid type ts b ∈ l ++ k) : Ev.dropped p id sid type ts b ∈ l := by
  rcases List.mem_append.mp hd with e | e
  · exact e
  · exact absurd (h _ e) (by simp [kept])

/-- **C95.** If no message expires, the limits of the application and of the other side are at least 2³², and the application writes nothing more in
callbacks: the stream has to be writable only often enough, and everything written was sent, nothing more abandoned, and given to the stream.
Missing: that it asks for the stream whenever something waits and the limits allow to send it (`C95_stalled`). -/
theorem C95_sends_partial (app : App) (hr : ∀ l, app.react l = []) (hf : ∀ l id, app.fate l id = .stays) (ht : ∀ l, 2 ^ 32 ≤ (app.thresh l).toNat) (ops : List Op)
    (ho : (run app init ops).phase = .opn) (hs : (run app init ops).scheduled = true) (hw : (run app init ops).wild = false)
    (hb : 2 ^ 32 ≤ (run app init ops).tx.peerBw.toNat) :
    ∃ k, (run app init (ops ++ List.replicate k .writable)).phase = .opn ∧ Flown (run app init (ops ++ List.replicate k .writable)) ∧
      (∀ p, leftAt p (run app init (ops ++ List.replicate k .writable)).log = queuedAt p (run app init (ops ++ List.replicate k .writable)).log) ∧
      ∀ p id sid type ts b, Ev.dropped p id sid type ts b ∈ (run app init (ops ++ List.replicate k .writable)).log →
        Ev.dropped p id sid type ts b ∈ (run app init ops).log := by
  obtain ⟨k, k1, kb, k0, k2, k3, k4, l, k5, k6⟩ := flushes app ⟨hr, hf, ht⟩ _ _ (Nat.le_refl _) (run_inv app ops) (.inl ho) hw hs hb
  have hi := run_inv app (ops ++ List.replicate k .writable)
  refine ⟨k, ?_⟩
  rw [run_append] at *
  rw [ho] at k1
  refine ⟨k1, (hi.talking (.inl k1)).2.2.given k3, fun p => ?_, ?_⟩
  · have := hi.book.queue p
    rw [k4 p] at this
    simpa using this.symm
  · rw [k5]
    exact fun p id sid type ts b => kept_all k6 p id sid type ts b

/-- **C95.** And after `close` likewise: everything written was sent and given to the stream, and the connection has ended. -/
theorem C95_closes (app : App) (hr : ∀ l, app.react l = []) (hf : ∀ l id, app.fate l id = .stays) (ht : ∀ l, 2 ^ 32 ≤ (app.thresh l).toNat) (ops : List Op)
    (ho : (run app init ops).phase = .closing) (hs : (run app init ops).scheduled = true) (hw : (run app init ops).wild = false)
    (hb : 2 ^ 32 ≤ (run app init ops).tx.peerBw.toNat) :
    ∃ k, (run app init (ops ++ List.replicate k .writable)).phase = .error ∧ Flown (run app init (ops ++ List.replicate k .writable)) ∧
      (∀ p, leftAt p (run app init (ops ++ List.replicate k .writable)).log = queuedAt p (run app init (ops ++ List.replicate k .writable)).log) ∧
      ∀ p id sid type ts b, Ev.dropped p id sid type ts b ∈ (run app init (ops ++ List.replicate k .writable)).log →
        Ev.dropped p id sid type ts b ∈ (run app init ops).log := by
  obtain ⟨k, k1, k2, l, k3, k4⟩ := closes app ⟨hr, hf, ht⟩ _ (run_inv app ops) ho hw hs hb
  refine ⟨k, ?_⟩
  have ov := C95_over app (ops ++ List.replicate k .writable)
  rw [run_append] at *
  refine ⟨k1, k2, ov k1, ?_⟩
  rw [k3]
  exact fun p id sid type ts b => kept_all k4 p id sid type ts b

/-- **C95.** Nothing undefined is done by an application that, when it is told that a message was abandoned, neither writes nor closes.
Missing: those that do (`C95_moved`, `C95_emptied`, `C95_endless`). -/
theorem C95_calm_partial (app : App) (hp : ∀ l id, ∀ c ∈ app.react (l ++ [.gone id]), (∀ p sid type ts b, c ≠ .write p sid type ts b) ∧ c ≠ .close) (ops : List Op) :
    (run app init ops).wild = false := by
  refine run_wild app (fun l id c hc => ?_) ops _ inv_init rfl
  obtain ⟨a, b⟩ := hp l id c hc
  cases c with
  | write p sid type ts x => exact absurd rfl (a p sid type ts x)
  | close => exact absurd rfl b
  | _ => trivial

/-! ## Defects -/

/-- an application that, told that a message was abandoned, writes it again -/
def Rtmp.again : App := { still with
  react := fun l => match l.getLast? with
    | some (.gone _) => [.write 0 1 8 0 [1]]
    | _ => []
  fate := fun l _ => if l.length > 15 then .now else .stays }

/-- **C95** (a defect). Fourteen messages wait, and expire; the application writes another in `onFinished`: the list is moved, and the reference
to its first message is used. -/
theorem C95_moved : ∃ app : App, (run app init (List.replicate 14 (.call (.write 0 1 8 0 [1])) ++ [.trim])).wild = true :=
  ⟨Rtmp.again, by decide +kernel⟩

/-- an application whose messages have all expired when they are looked at, and that writes each again -/
def Rtmp.forever (n : Nat) : App := { still with
  react := fun l => match l.getLast? with
    | some (.gone _) => [.write 0 1 8 0 [1]]
    | _ => []
  fate := fun _ _ => .now
  patience := n }

theorem Rtmp.forever_one (n fuel : Nat) : ∀ (st : St) (part : Bool) (m : Msg), st.phase = .unknown → st.tx.queues 0 = [m] → st.tx.cap 0 = 14 →
    (trimOne (forever n) 0 fuel st part).1.wild = true := by
  induction fuel with
  | zero =>
    intro st part m _ hq _
    unfold trimOne
    rw [if_neg (by rw [hq]; nofun)]
  | succ fuel ih =>
    intro st part m hp hq hc
    have hcall : ∃ t, callback (forever n) st (.gone m.id) = t ∧ t.phase = .unknown ∧ (∃ m', t.tx.queues 0 = [m, m']) ∧ t.tx.cap 0 = 14 := by
      refine ⟨_, rfl, ?_⟩
      unfold callback
      have hr : (forever n).react (emit st (.gone m.id)).log = [.write 0 1 8 0 [1]] := by simp [forever, emit]
      rw [hr]
      simp only [List.foldl_cons, List.foldl_nil, call]
      unfold write
      rw [if_neg (by
        simp only [emit, hp]
        decide)]
      have hk : ∀ s : St, s.phase = .unknown → s.tx.queues 0 = [m] → s.tx.cap 0 = 14 →
          (scheduleTrim (wake (enqueue s 0 1 8 0 [1]))).phase = .unknown ∧ (∃ m', (scheduleTrim (wake (enqueue s 0 1 8 0 [1]))).tx.queues 0 = [m, m']) ∧
          (scheduleTrim (wake (enqueue s 0 1 8 0 [1]))).tx.cap 0 = 14 := by
        intro s s1 s2 s3
        have e1 : (enqueue s 0 1 8 0 [1]).phase = .unknown := s1
        have e2 : (enqueue s 0 1 8 0 [1]).tx.queues 0 = [m, ⟨s.tx.nextId, 1, 8, 0, [1], 0, none⟩] := by
          show put s.tx.queues 0 (s.tx.queues 0 ++ [⟨s.tx.nextId, 1, 8, 0, [1], 0, none⟩]) 0 = _
          rw [put_at, s2]; rfl
        have e3 : (enqueue s 0 1 8 0 [1]).tx.cap 0 = 14 := by
          show (if (s.tx.queues 0).length = s.tx.cap 0 then put s.tx.cap 0 (s.tx.cap 0 + 16) else s.tx.cap) 0 = 14
          rw [s2, s3, if_neg (by simp)]; exact s3
        generalize enqueue s 0 1 8 0 [1] = u at *
        unfold wake
        rw [if_neg (by rw [e1]; nofun)]
        unfold scheduleTrim
        split <;> exact ⟨e1, ⟨_, e2⟩, e3⟩
      exact hk _ hp hq hc
    obtain ⟨t, t1, t2, ⟨m', t3⟩, t4⟩ := hcall
    unfold trimOne
    rw [hq]
    dsimp only
    have ef : (forever n).fate st.log m.id = .now := rfl
    rw [ef, if_neg (by nofun), if_neg (by nofun : ¬ (Fate.now = Fate.before)), t1, if_neg (by rw [t4, hc, t3]; simp)]
    obtain ⟨_, d2, _, d4, _⟩ := dropFirst_log (forever n) t 0 m
    refine ih _ _ m' (d4.trans t2) (by rw [d2, put_at, t3]; rfl) ?_
    unfold dropFirst emit
    dsimp only
    cases m.cs with
    | none => exact t4
    | some k =>
      dsimp only
      split <;> exact t4

/-- **C95** (a defect). An application whose messages expire at once, and that in `onFinished` writes each again, never gets out of it: however many
messages are looked at, there is one more. -/
theorem C95_endless : ∃ app : Nat → App, (∀ n, (app n).patience = n) ∧ (∀ n l, (app n).react l = (app 0).react l) ∧ (∀ n l id, (app n).fate l id = (app 0).fate l id) ∧
    ∀ n, (run (app n) init [.call (.write 0 1 8 0 [1]), .trim]).wild = true := by
  refine ⟨forever, fun _ => rfl, fun _ _ => rfl, fun _ _ _ => rfl, fun n => ?_⟩
  have h : ∃ s m, step (forever n) init (.call (.write 0 1 8 0 [1])) = s ∧ s.phase = .unknown ∧ s.wild = false ∧ s.trimPending = true ∧ (∀ p, p ≠ 0 → s.tx.queues p = []) ∧
      s.tx.queues 0 = [m] ∧ s.tx.cap 0 = 14 := by
    refine ⟨_, ⟨0, 1, 8, 0, [1], 0, none⟩, rfl, rfl, rfl, rfl, fun p hp => ?_, rfl, rfl⟩
    show put _ 0 _ p = []
    rw [put_off _ hp]; rfl
  obtain ⟨s, m, h1, h2, h3, h4, h5, h6, h7⟩ := h
  show (step (forever n) (step (forever n) init (.call (.write 0 1 8 0 [1]))) .trim).wild = true
  rw [h1]
  unfold step
  rw [if_neg (by simp [h3])]
  dsimp only
  rw [if_pos ⟨by rw [h2]; nofun, h4⟩]
  have one : ∀ (u : St) (p fuel : Nat), u.tx.queues p = [] → trimOne (forever n) p fuel u false = (u, false) := by
    intro u p fuel hq
    cases fuel with
    | zero => simp [trimOne, hq]
    | succ k => simp only [trimOne, hq]
  unfold trim
  have hq : ∀ p, p ≠ 0 → ({ s with trimPending := false } : St).tx.queues p = [] := h5
  have hw : ({ s with trimPending := false } : St).wild = false := h3
  have hz : ({ s with trimPending := false } : St).tx.queues 0 = [m] := h6
  have h0 := forever_one n (([m] : List Msg).length + (forever n).patience) { s with trimPending := false } false m h2 h6 h7
  generalize ({ s with trimPending := false } : St) = u at *
  simp only [List.foldl_cons, List.foldl_nil, hw, Bool.false_eq_true, if_false, one u 7 _ (hq 7 (by decide)), one u 6 _ (hq 6 (by decide)), one u 5 _ (hq 5 (by decide)),
    one u 4 _ (hq 4 (by decide)), one u 3 _ (hq 3 (by decide)), one u 2 _ (hq 2 (by decide)), one u 1 _ (hq 1 (by decide))]
  rw [hz]
  exact h0

/-- an application that, told that a message was abandoned, gives up -/
def Rtmp.givesUp : App := { still with
  react := fun l => match l.getLast? with
    | some (.gone _) => [.close]
    | _ => []
  fate := fun _ _ => .now }

/-- **C95** (a defect). A message expires before the connection is open; the application closes in `onFinished`: the list is emptied, and its
first message is used. -/
theorem C95_emptied : ∃ app : App, (run app init [.call (.init true), .call (.write 0 1 8 0 [1]), .trim]).wild = true :=
  ⟨Rtmp.givesUp, by decide +kernel⟩

/-- an application without limits -/
def Rtmp.free : App := { still with thresh := fun _ => 0x200000000 }

/-- it is open -/
def Rtmp.opening : List Op := [.call (.init true), .read (3 :: List.replicate 3072 9), .writable, .writable]

/-- The other side allows almost nothing, a message is written, the other side allows much. -/
def Rtmp.throttled : List Op :=
  opening ++ [.read [2, 0, 0, 0, 0, 0, 5, 6, 0, 0, 0, 0, 0, 0, 0, 1, 0], .call (.write 0 1 8 0 [1]), .writable, .writable,
    .read [2, 0, 0, 0, 0, 0, 5, 6, 0, 0, 0, 0, 0, 16, 0, 0, 0]]

/-- **C95** (a defect). When the other side allows more than before, nothing asks for the stream: what was written waits, though the limits allow
to send it, until something else is written or acknowledged. -/
theorem C95_stalled : ∃ (app : App) (ops : List Op),
    let st := run app init ops
    st.phase = .opn ∧ flowOpen app st = true ∧ st.scheduled = false ∧ leftAt 0 st.log = [] ∧ (queuedAt 0 st.log).length = 1 ∧
    ∀ k, run app init (ops ++ List.replicate k .writable) = st := by
  have h : (run free init throttled).phase = .opn ∧ flowOpen free (run free init throttled) = true ∧ (run free init throttled).scheduled = false ∧
      leftAt 0 (run free init throttled).log = [] ∧ (queuedAt 0 (run free init throttled).log).length = 1 ∧ (run free init throttled).wild = false := by
    decide +kernel
  refine ⟨free, throttled, h.1, h.2.1, h.2.2.1, h.2.2.2.1, h.2.2.2.2.1, fun k => ?_⟩
  rw [run_append]
  generalize run free init throttled = st at *
  induction k with
  | zero => rfl
  | succ k ih =>
    rw [List.replicate_succ]
    show run free (step free st .writable) _ = st
    have : step free st .writable = st := by
      unfold step
      rw [if_neg (by simp [h.2.2.2.2.2])]
      dsimp only
      rw [if_neg (by simp [h.2.2.1])]
    rw [this]
    exact ih

/-! ## Examples -/

theorem Rtmp.free_thresh (l : List Ev) : 2 ^ 32 ≤ (free.thresh l).toNat := by
  show 2 ^ 32 ≤ (0x200000000 : UInt64).toNat
  decide

/-- a long video message, an audio message with a higher priority when a part of it was sent, and one more -/
def Rtmp.talk : List Op :=
  opening ++ [.call (.write 1 1 9 1000 (List.replicate 2500 7)), .writable, .writable, .call (.write 5 1 8 990 [1, 2, 3]), .call (.write 5 1 8 1010 [4, 5, 6])]

example : (queuedAt 1 (run free init talk).log).length = 1 ∧ (queuedAt 5 (run free init talk).log).length = 2 ∧
    fins (run free init (talk ++ List.replicate 6 .writable)).log = [⟨1, 8, 990, [1, 2, 3]⟩, ⟨1, 8, 1010, [4, 5, 6]⟩, ⟨1, 9, 1000, List.replicate 2500 7⟩] ∧
    finIds (run free init (talk ++ List.replicate 6 .writable)).log = [1, 2, 0] := by
  decide +kernel

theorem Rtmp.talk_facts : (run free init talk).phase = .opn ∧ (run free init talk).scheduled = true ∧ (run free init talk).wild = false ∧
    2 ^ 32 ≤ (run free init talk).tx.peerBw.toNat := by decide +kernel

example : ∃ k, (run free init (talk ++ List.replicate k .writable)).phase = .opn ∧ Flown (run free init (talk ++ List.replicate k .writable)) := by
  obtain ⟨k, a, b, _⟩ := C95_sends_partial free (fun _ => rfl) (fun _ _ => rfl) free_thresh talk talk_facts.1 talk_facts.2.1 talk_facts.2.2.1 talk_facts.2.2.2
  exact ⟨k, a, b⟩

/-- all is sent -/
def Rtmp.sent : List Op := talk ++ List.replicate 3 .writable

theorem Rtmp.sent_facts : (run free init sent).phase = .opn ∧ (run free init sent).scheduled = true ∧ (run free init (sent ++ [.writable])).scheduled = false ∧
    (run free init (sent ++ [.writable])).wild = false := by decide +kernel

-- it stops asking
example : Flown (run free init (sent ++ [.writable])) :=
  (C95_flushed free sent (.inl sent_facts.1) sent_facts.2.1 sent_facts.2.2.1 sent_facts.2.2.2).1

/-- it is closed -/
def Rtmp.bye : List Op := talk ++ [.call .close]

theorem Rtmp.bye_facts : (run free init bye).phase = .closing ∧ (run free init bye).scheduled = true ∧ (run free init bye).wild = false ∧
    2 ^ 32 ≤ (run free init bye).tx.peerBw.toNat := by decide +kernel

example : ∃ k, (run free init (bye ++ List.replicate k .writable)).phase = .error := by
  obtain ⟨k, a, _⟩ := C95_closes free (fun _ => rfl) (fun _ _ => rfl) free_thresh bye bye_facts.1 bye_facts.2.1 bye_facts.2.2.1 bye_facts.2.2.2
  exact ⟨k, a⟩

/-- … and all is sent -/
def Rtmp.byeSent : List Op := bye ++ List.replicate 3 .writable

theorem Rtmp.byeSent_facts : (run free init byeSent).phase = .closing ∧ (run free init byeSent).scheduled = true ∧
    (run free init (byeSent ++ [.writable])).phase = .error ∧ (run free init (byeSent ++ [.writable])).wild = false := by decide +kernel

example : ∀ p, leftAt p (run free init byeSent).log = queuedAt p (run free init byeSent).log :=
  (C95_graceful free byeSent (.inr byeSent_facts.1) byeSent_facts.2.1 byeSent_facts.2.2.1 byeSent_facts.2.2.2).2 (fun _ _ => rfl)

/-- the stream is lost in the middle of the video message -/
def Rtmp.cut : List Op := talk ++ [.lost]

theorem Rtmp.cut_facts : (run free init cut).phase = .error ∧ fins (run free init cut).log = [] := by decide +kernel

example : leftAt 1 (run free init cut).log = queuedAt 1 (run free init cut).log := C95_over free cut cut_facts.1 1

/-- an application whose first message expires after a while -/
def Rtmp.late : App := { free with fate := fun l id => if id = 0 ∧ l.length > 12 then .now else .stays }

-- a message is abandoned in the middle: what was given to the stream says the others
example : Ev.dropped 1 0 1 9 1000 (List.replicate 2500 7) ∈ (run late init (talk ++ List.replicate 5 .writable)).log ∧
    fins (run late init (talk ++ List.replicate 5 .writable)).log = [⟨1, 8, 990, [1, 2, 3]⟩, ⟨1, 8, 1010, [4, 5, 6]⟩] := by
  decide +kernel

example : (run late init (talk ++ List.replicate 5 .writable)).wild = false :=
  C95_calm_partial late (fun _ _ _ hc => nomatch hc) _

end Rtmfp
