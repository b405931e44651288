import Verif.Lemmas.SendFate
import Verif.Lemmas.SendDemo

/-! # C20: the forward sequence number never skips live data; C11 for the whole sending side -/

namespace Rtmfp
open SS

/-- **C20.** Whatever happened: a number at or below a forward number that was ever advertised for a flow, and that belongs to an accepted message, was acknowledged
after the message was written, or the message is abandoned. -/
theorem C20_forward_never_skips {ops : List Op} {s : SS} {evs : List Ev} (h : Exec ops s evs) {i fsn : Nat} {cs : List Put} {p : PA} (hs : Ev.sent i fsn cs p ∈ evs)
    {r first count : Nat} {msg : Bytes} (ha : Ev.accepted i r first count msg ∈ evs) {sn : Nat} (h1 : first ≤ sn) (h2 : sn < first + count) (h3 : sn ≤ fsn) :
    (∃ before b ranges later, ops = before ++ .ack i b ranges :: later ∧ (∃ msg now x y names, Op.write i msg now x y r names ∈ before) ∧
      ∃ x ∈ ranges, x.1 ≤ sn ∧ sn ≤ x.2) ∨ (s.receipts.r r).isAbandoned = true :=
  ((exec_fate h).forward i fsn cs p hs).2.2 r first count msg ha sn h1 h2 h3

/-- **C20.** When data is sent, the forward number is below the number of every fragment in the queue whose message is not abandoned. -/
theorem C20_forward_below_live {ops : List Op} {s : SS} {evs : List Ev} (h : Exec ops s evs) {i : Nat} {p : PA} {pri : Nat} {now : Int} {gone : Bool}
    (ha : Allowed ops s (.transmit i p pri now gone)) {t : SS} {es : List Ev} (hs : step s (.transmit i p pri now gone) = some (t, es))
    {fsn : Nat} {cs : List Put} {pk : PA} (hm : Ev.sent i fsn cs pk ∈ es) :
    ∀ f ∈ (t.flow i).queue, (t.receipts.r f.receipt).isAbandoned = false → fsn < f.sn := by
  intro f hf hab
  obtain ⟨p', pri', now', gone', e0, e1, e2, e3, e4, e5⟩ := sent_step hs hm
  cases e0
  have hbk := exec_books h
  have hbt := exec_books (h.snoc ha hs)
  obtain ⟨c, q0, q1, q1', fs, ps', P', hsa⟩ := assembleData_spec (hbk.flow i).ok.sorted ha.2 pri now gone e1
  generalize s.assembleData i p pri now gone = A at *
  have htq : (t.flow i).queue = (A.s.flow i).queue := by rw [e2, afterSend]; rfl
  have htr : t.receipts = A.s.receipts := by rw [e2, afterSend]; rfl
  have hal : Alikes (q0 ++ q1) (q0 ++ q1') := (Alikes.refl q0).append hsa.puts.alikes
  have h1 := ((hbt.flow i).ok.range f hf).1
  rw [htq, hsa.queue] at hf
  obtain ⟨g, hg, hag⟩ := hal.mem hf
  obtain ⟨k1, k2⟩ := hsa.forward g hg
  rw [← e3, ← hag.sn] at k1
  rw [← e3, ← hag.sn, ← hag.receipt, ← htr] at k2
  rcases Nat.lt_or_eq_of_le k1 with k | k
  · exact k
  · have := k2 k h1
    rw [Receipt.isAbandoned, this] at hab; cases hab

/-- **C11** for the library: the reports of receipts in any execution are made at most once per receipt, and say whether the message was abandoned. -/
theorem C11_reports_in_session {ops : List Op} {s : SS} {evs : List Ev} (h : Exec ops s evs) (r : Nat) :
    (evs.filter (fun e => match e with | .finished k _ => decide (k = r) | _ => false)).length ≤ 1 ∧
    (Ev.finished r true ∈ evs → (s.receipts.r r).isAbandoned = true) ∧ (Ev.finished r false ∈ evs → (s.receipts.r r).isDelivered = true) := by
  obtain ⟨rops, h1, _, _⟩ := (exec_fate h).rb.hist
  have hi := RStore.hist_inv h1 r
  refine ⟨?_, fun hm => hi.repTrue (mem_finsOf.mpr hm), fun hm => ?_⟩
  · refine Nat.le_trans (Nat.le_of_eq ?_) hi.once
    clear h h1 hi
    induction evs with
    | nil => rfl
    | cons e l ih => cases e <;> simp [finsOf, List.filter_cons, ih] <;> split <;> simp [ih]
  · obtain ⟨a, b⟩ := hi.repFalse (mem_finsOf.mpr hm)
    simp [Receipt.isDelivered, Receipt.isFinished, Receipt.isAbandoned, a, b]

/-- **C22**, the sender's part: when a message is reported delivered, each of its fragments was acknowledged after it was written. -/
theorem delivered_was_acknowledged {ops : List Op} {s : SS} {evs : List Ev} (h : Exec ops s evs) {i r first count : Nat} {msg : Bytes} (ha : Ev.accepted i r first count msg ∈ evs)
    (hf : Ev.finished r false ∈ evs) {sn : Nat} (h1 : first ≤ sn) (h2 : sn < first + count) :
    ∃ before b ranges later, ops = before ++ .ack i b ranges :: later ∧ (∃ msg now x y names, Op.write i msg now x y r names ∈ before) ∧
      ∃ x ∈ ranges, x.1 ≤ sn ∧ sn ≤ x.2 := by
  have k := exec_fate h
  obtain ⟨rops, k1, _, _⟩ := k.rb.hist
  obtain ⟨a, b⟩ := (RStore.hist_inv k1 r).repFalse (mem_finsOf.mpr hf)
  rcases k.frag i r first count msg ha sn h1 h2 with ⟨f, hq, e1, e2⟩ | hk | hk
  · have := k.rb.cnt i r
    have : 0 < cnt r (s.flow i).queue := cnt_pos.mpr ⟨f, hq, e2⟩
    omega
  · exact hk
  · rw [a] at hk; cases hk

/-- A message is acknowledged; later the forward number is 2: the first number was acknowledged, the second abandoned. -/
example : ∃ cs p, Ev.sent 0 2 cs p ∈ (demo 11).2 ∧ Ev.accepted 0 1 1 1 [1, 2, 3] ∈ (demo 11).2 ∧ Ev.accepted 0 2 2 1 [4, 5] ∈ (demo 11).2 ∧
    ((demo 11).1.receipts.r 1).isAbandoned = false ∧ ((demo 11).1.receipts.r 2).isAbandoned = true :=
  ⟨_, _, List.mem_of_getElem? (i := 4) rfl, List.mem_of_getElem? (i := 0) rfl, List.mem_of_getElem? (i := 1) rfl, by decide +kernel, by decide +kernel⟩

/-- the first eight things of `demoOps`, then a callback is installed for the first message and it is acknowledged -/
theorem demoDelivered : Exec (demoOps.take 8 ++ [.receipt (.setCallback 1)] ++ [.ack 0 5000 [(0, 1)]])
    (go (go (demo 8).1 (.receipt (.setCallback 1))).1 (.ack 0 5000 [(0, 1)])).1
    (((demo 8).2 ++ (go (demo 8).1 (.receipt (.setCallback 1))).2) ++ (go (go (demo 8).1 (.receipt (.setCallback 1))).1 (.ack 0 5000 [(0, 1)])).2) :=
  (demo8.then (.receipt (.setCallback 1)) (by show ((demo 8).1.receipts.r 1).isFinished = false; decide +kernel) rfl).then (.ack 0 5000 [(0, 1)])
    (by show ((go (demo 8).1 (.receipt (.setCallback 1))).1.flow 0).bound = true; decide +kernel) rfl

/-- The message is reported delivered. -/
example : ∃ ops s evs, Exec ops s evs ∧ Ev.accepted 0 1 1 1 [1, 2, 3] ∈ evs ∧ Ev.finished 1 false ∈ evs :=
  ⟨_, _, _, demoDelivered, List.mem_of_getElem? (i := 0) rfl, List.mem_of_getElem? (i := 4) rfl⟩

/-- The last transmission meets the hypotheses of `C20_forward_below_live`. -/
example : ∃ t es fsn cs pk, step (demo 10).1 (.transmit 0 demoPacket 3 4 false) = some (t, es) ∧ Ev.sent 0 fsn cs pk ∈ es ∧ (t.flow 0).queue.length = 2 :=
  ⟨_, _, _, _, _, rfl, List.mem_of_getElem? (i := 0) rfl, by decide +kernel⟩

end Rtmfp
