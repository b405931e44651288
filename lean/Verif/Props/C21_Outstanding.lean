import Verif.Lemmas.SendAssemble
import Verif.Lemmas.SendDemo

/-! # C21: outstanding bytes -/

namespace Rtmfp
open SS

/-! Specification: bytes of a flow that are in flight, counted from its fragments. -/

/-- the total transmitted size of the fragments in flight -/
def inFlightBytes : List SFrag → Nat
  | [] => 0
  | f :: q => (if f.inFlight then f.size else 0) + inFlightBytes q

theorem inFlightBytes_eq (q : List SFrag) : inFlightBytes q = flight q := by
  induction q with
  | nil => rfl
  | cons f q ih =>
    rw [inFlightBytes, ih]
    simp only [flight, List.filter_cons]
    split <;> simp

/-- sum over the flows of a session -/
def sumOver (l : List Nat) (g : Nat → Nat) : Nat := (l.map g).sum

theorem sumOver_zero (l : List Nat) (g : Nat → Nat) (h : ∀ i ∈ l, g i = 0) : sumOver l g = 0 := by
  induction l with
  | nil => rfl
  | cons a l ih =>
    simp only [sumOver, List.map_cons, List.sum_cons] at ih ⊢
    rw [h a (by simp), ih (fun i hi => h i (by simp [hi]))]

theorem sumOver_add (l : List Nat) (g h : Nat → Nat) : sumOver l (fun i => g i + h i) = sumOver l g + sumOver l h := by
  induction l with
  | nil => rfl
  | cons a l ih => simp only [sumOver, List.map_cons, List.sum_cons] at ih ⊢; omega

theorem sumOver_single (l : List Nat) (hn : l.Nodup) (j k : Nat) (hj : j ∈ l) : sumOver l (fun i => if j = i then k else 0) = k := by
  induction l with
  | nil => cases hj
  | cons a l ih =>
    rw [List.nodup_cons] at hn
    have e : sumOver (a :: l) (fun i => if j = i then k else 0) = (if j = a then k else 0) + sumOver l (fun i => if j = i then k else 0) := by
      simp [sumOver]
    rw [e]
    by_cases h : j = a
    · subst h
      rw [if_pos rfl, sumOver_zero]
      · rfl
      · intro i hi
        rw [if_neg]
        rintro rfl
        exact hn.1 hi
    · rw [if_neg h, ih hn.2 (by simpa [h] using hj)]; omega

theorem total_by_flow (l : List Nat) (hn : l.Nodup) (outs : List OutRef) (h : ∀ o ∈ outs, o.flow ∈ l) :
    total outs = sumOver l (fun i => total (ofFlow i outs)) := by
  induction outs with
  | nil => rw [sumOver_zero]; rfl; intro i _; rfl
  | cons o outs ih =>
    have e : ∀ i, total (ofFlow i (o :: outs)) = (if o.flow = i then o.size else 0) + total (ofFlow i outs) := by
      intro i
      simp only [ofFlow, List.filter_cons, decide_eq_true_eq]
      split <;> simp [total]
    simp only [e]
    rw [sumOver_add, sumOver_single l hn _ _ (h o (by simp)), ← ih (fun o ho => h o (by simp [ho]))]
    simp [total]

/-- **C21.** After any history the outstanding byte count of a flow that is not closed is the total transmitted size of its fragments
in flight (counters have 64 bits). -/
theorem C21_flow_outstanding {ops : List Op} {s : SS} {evs : List Ev} (h : Exec ops s evs) (i : Nat) (hc : (s.flow i).state ≠ .closed) :
    (s.flow i).outstanding = inFlightBytes (s.flow i).queue % 2 ^ 64 := by
  rw [inFlightBytes_eq]
  exact ((exec_books h).flow i).out hc

/-- after a packet with two fragments was sent (14 and 4 bytes), lost and sent again, and one of them acknowledged -/
example : Exec (demoOps.take 9) (demo 9).1 (demo 9).2 ∧ ((demo 9).1.flow 0).state ≠ .closed ∧ ((demo 8).1.flow 0).outstanding = 18 ∧
    ((demo 9).1.flow 0).outstanding = 4 ∧ inFlightBytes ((demo 8).1.flow 0).queue = 18 ∧ inFlightBytes ((demo 9).1.flow 0).queue = 4 := by
  refine ⟨demo9, ?_⟩
  decide +kernel

/-- **C21.** That of the session is the sum over its flows. -/
theorem C21_session_outstanding {ops : List Op} {s : SS} {evs : List Ev} (h : Exec ops s evs) :
    s.outSum = sumOver s.sendFlows (fun i => inFlightBytes (s.flow i).queue) % 2 ^ 64 ∧
    ∀ i, (∃ f ∈ (s.flow i).queue, f.inFlight = true) → i ∈ s.sendFlows := by
  have b := exec_books h
  have hf : ∀ i, (∃ f ∈ (s.flow i).queue, f.inFlight = true) → i ∈ s.sendFlows := by
    rintro i ⟨f, hf, hi⟩
    rw [b.bound]
    apply Classical.byContradiction
    intro hb
    rw [(b.flow i).ok.unbound (by simpa using hb) f hf] at hi
    cases hi
  refine ⟨?_, hf⟩
  rw [b.sum, total_by_flow s.sendFlows b.nodup]
  · congr 2
    funext i
    rw [inFlightBytes_eq, ← total_refs i]
    exact total_perm (b.flow i).perm
  · intro o ho
    have : o ∈ ofFlow o.flow s.outs := by simp [ofFlow, ho]
    have := ((b.flow o.flow).perm.mem_iff).mp this
    obtain ⟨f, hf', hi, _⟩ := refs_mem.mp this
    exact hf o.flow ⟨f, hf', hi⟩

/-- **C21.** The fragments outstanding in the session are, each once, those in flight of its flows. -/
theorem C21_session_fragments {ops : List Op} {s : SS} {evs : List Ev} (h : Exec ops s evs) (i : Nat) :
    ((s.outs.filter (fun o => decide (o.flow = i))).map (fun o => (o.sn, o.size, o.tsn))).Perm
      (((s.flow i).queue.filter (·.inFlight)).map (fun f => (f.sn, f.size, f.tsn))) := by
  have b := ((exec_books h).flow i).perm
  have := b.map (fun o => (o.sn, o.size, o.tsn))
  rw [refs, List.map_map] at this
  exact this

example : Exec (demoOps.take 8) (demo 8).1 (demo 8).2 ∧ (demo 8).1.sendFlows = [0] ∧ (demo 8).1.outSum = 18 ∧
    (demo 8).1.outs.map (fun o => (o.flow, o.sn, o.size, o.tsn)) = [(0, 1, 14, 2), (0, 2, 4, 2)] := by
  refine ⟨demo8, ?_⟩
  decide +kernel

/-- **C21.** Data is counted with the number of bytes it takes in the packet: a transmission raises the total by the bytes added. -/
theorem C21_transmitted_size {ops : List Op} {s : SS} {evs : List Ev} (h : Exec ops s evs) {i : Nat} {p : PA} {pri : Nat} {now : Int} {gone : Bool}
    (ha : Allowed ops s (.transmit i p pri now gone)) {t : SS} {es : List Ev} (hs : step s (.transmit i p pri now gone) = some (t, es))
    {fsn : Nat} {cs : List Put} {pk : PA} (hm : Ev.sent i fsn cs pk ∈ es) :
    inFlightBytes (t.flow i).queue + p.cursor = inFlightBytes (s.flow i).queue + pk.cursor ∧ p.cursor < pk.cursor ∧
    (∀ j, j ≠ i → t.flow j = s.flow j) := by
  rw [step] at hs
  simp only [sentRes, Option.some.injEq, Prod.mk.injEq] at hs
  obtain ⟨rfl, rfl⟩ := hs
  have b := exec_books h
  have hsent : (s.assembleData i p pri now gone).sent = true := by
    rcases List.mem_append.mp hm with hm | hm
    · simp [fins] at hm
    · apply Classical.byContradiction
      intro hn
      rw [if_neg hn] at hm
      cases hm
  obtain ⟨c, q0, q1, q1', fs, ps, P, k⟩ := assembleData_spec (b.flow i).ok.sorted ha.2 pri now gone hsent
  have hpk : pk = (s.assembleData i p pri now gone).packet := by
    rcases List.mem_append.mp hm with hm | hm
    · simp [fins] at hm
    · rw [if_pos hsent] at hm
      simp only [List.mem_singleton, Ev.sent.injEq] at hm
      exact hm.2.2.2
  have hcur : pk.cursor = P.cursor := by
    rw [hpk, k.packet, timeCritical_cursor]
  have hq : ((s.assembleData i p pri now gone).s.afterSend (s.assembleData i p pri now gone).sent).flow i = (s.assembleData i p pri now gone).s.flow i := by
    rw [afterSend]; split <;> rfl
  rw [hq]
  refine ⟨?_, ?_, ?_⟩
  · rw [inFlightBytes_eq, inFlightBytes_eq, k.queue, flight_append, k.puts.sizes, hcur, k.added.cur]
    obtain ⟨n, e1, e2⟩ := k.before
    have e3 : flight (s.flow i).queue = flight ((s.flow i).queue.take n) + flight ((s.flow i).queue.drop n) := by
      rw [← flight_append, List.take_append_drop]
    rw [e3, flight_zero_of (fun f hf => (e2 f hf).1), ← e1, flight_append]
    omega
  · rw [hcur, k.added.cur]
    have hne := k.ne
    cases ps with
    | nil => exact absurd rfl hne
    | cons c ps =>
      rw [List.flatMap_cons, List.length_append]
      have : (putWire c).length = (putPayload c).length + 3 := PA.wire_length _ _
      omega
  · intro j hj
    have e : ((s.assembleData i p pri now gone).s.afterSend (s.assembleData i p pri now gone).sent).flow j = (s.assembleData i p pri now gone).s.flow j := by
      rw [afterSend]; split <;> rfl
    rw [e, assembleData]
    split
    · rfl
    split
    · rfl
    simp only [trim, setFlow, if_neg hj]

/-- the hypotheses hold for the first transmission of the example, which adds 18 bytes -/
example : Exec (demoOps.take 5) (demo 5).1 (demo 5).2 ∧ Allowed (demoOps.take 5) (demo 5).1 (.transmit 0 demoPacket 3 1 false) ∧
    ∃ t cs pk, step (demo 5).1 (.transmit 0 demoPacket 3 1 false) = some (t, [.sent 0 0 cs pk]) ∧ pk.cursor = demoPacket.cursor + 18 := by
  refine ⟨demo5, ⟨by decide +kernel, demoPacket_inv⟩, _, _, _, rfl, ?_⟩
  decide +kernel

end Rtmfp
