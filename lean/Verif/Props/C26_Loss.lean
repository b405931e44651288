import Verif.Lemmas.SendWatch
import Verif.Lemmas.SendDemo

/-! # C26: how fragments are lost, and what is sent again -/

namespace Rtmfp
open SS

namespace SS

theorem flag_abn (opt : Bool) (fra : Fra) (abn fin : Bool) : (chunkFlags opt fra abn fin &&& USERDATA_FLAG_ABN ≠ 0) ↔ abn = true := by
  cases opt <;> cases fra <;> cases abn <;> cases fin <;> decide

theorem InFlight.frag {s : SS} {i sn : Nat} (h : InFlight s i sn) (hs : Sorted (s.flow i).queue) {f : SFrag} (hf : f ∈ (s.flow i).queue) (e : f.sn = sn) :
    f.inFlight = true := by
  obtain ⟨g, hg, e2, e3⟩ := h
  have := sorted_inj hs hg hf (by omega)
  subst this
  exact e3

/-- what the transmission does to one fragment in flight: nothing -/
theorem transmit_keeps {s : SS} {i : Nat} {A : Assembled} {c : Ctx} {q0 q1 q1' fs : List SFrag} {ps : List Put} (k : Sends s i A c q0 q1 q1' fs ps) {j : Nat} {x : SFrag}
    (hx : x ∈ (A.s.flow j).queue) (hw : x.inFlight = false) : x ∈ (s.flow j).queue := by
  by_cases e : j = i
  · subst e
    obtain ⟨n, hn, _⟩ := k.before
    have hsub : ∀ x ∈ q0 ++ q1, x ∈ (s.flow j).queue := by intro x hx; rw [hn] at hx; exact List.mem_of_mem_drop hx
    rw [k.queue] at hx
    rcases List.mem_append.mp hx with hx | hx
    · exact hsub x (List.mem_append_left _ hx)
    · rcases k.puts.split.1 x hx with hx | hx
      · rw [(k.puts.mem x hx).1] at hw; cases hw
      · exact hsub x (List.mem_append_right _ hx)
  · rw [k.other j e] at hx; exact hx

/-- in the part of the queue the loop went through: what comes before something sent is sent or in flight -/
theorem Puts.earlier {c : Ctx} {R : RStore} {first : Bool} {prev : Nat} {q q' fs : List SFrag} {ps : List Put} (h : Puts c R first prev q q' fs ps)
    (hs : Sorted q) : ∀ g ∈ q, g.inFlight = false → ∀ p ∈ ps, g.sn < p.sn → SS.has ps g.sn = true := by
  induction h with
  | done => intro g _ _ p hp; cases hp
  | @skip first prev frag rest rest' fs ps hi hr ih =>
    intro g hg hw p hp hlt
    rcases List.mem_cons.mp hg with rfl | hg
    · rw [hi] at hw; cases hw
    · exact ih hs.of_cons g hg hw p hp hlt
  | @send first prev frag rest rest' fs ps abn hi ha hr ih =>
    intro g hg hw p hp hlt
    rcases List.mem_cons.mp hg with rfl | hg
    · rw [SS.has, List.any_cons, Bool.or_eq_true]
      exact Or.inl (beq_iff_eq.mpr rfl)
    · have hsn := (List.pairwise_cons.mp hs).1 g hg
      rcases List.mem_cons.mp hp with rfl | hp
      · have e : g.sn < frag.sn := hlt
        omega
      · rw [SS.has, List.any_cons, Bool.or_eq_true]
        exact Or.inr (ih hs.of_cons g hg hw p hp hlt)

end SS

/-- **C26**, what holds of the first half: without a timeout, a fragment in flight is lost at the end of a packet with acknowledgements, exactly if this is the third such packet
(since the fragment was last sent) that ends while a packet known to have arrived is the fragment's own or was sent after it. *Missing*: that three *different* later packets were
acknowledged; see `C26_not_three`. -/
theorem C26_three_partial {ops : List Op} {s t : SS} {evs es : List Ev} {w : Watch} (h : Watched ops s evs w) {c : Bool} (hs : step s (.afterAcks c) = some (t, es)) {i sn : Nat}
    (hi : InFlight s i sn) : Lost s t i sn ↔ (∃ n ∈ w.arrived, w.sentIn i sn ≤ n) ∧ 2 ≤ w.naks i sn := by
  have hb := exec_books h.exec
  have hk := h.knows
  obtain ⟨_, _, _, r4⟩ := afterAcks_queue hb hk c
  rw [step] at hs
  simp only [Option.some.injEq, Prod.mk.injEq] at hs
  rw [hs.1] at r4
  have hpass : (∃ n ∈ w.arrived, w.sentIn i sn ≤ n) ↔ w.passed i sn = true := by
    rw [Watch.passed, List.any_eq_true]
    simp
  rw [hpass]
  obtain ⟨f, hf, e, hfl⟩ := hi
  obtain ⟨_, k2, _⟩ := hk.frag i f hf hfl
  have kp := hk.passed hf hfl
  rw [e] at k2 kp
  rw [kp, k2]
  have hmap : ∀ x, x ∈ (t.flow i).queue ↔ ∃ g ∈ (s.flow i).queue, (if g.inFlight = true ∧ g.tsn ≤ s.maxTsnAck then nakedFrag g else g) = x := by
    intro x; rw [r4, List.mem_map]
  constructor
  · rintro ⟨_, x, hx, e2, e3⟩
    obtain ⟨g, hg, e4⟩ := (hmap x).mp hx
    have e5 : g.sn = x.sn := by
      rw [← e4]; split
      · rw [nakedFrag_sn]
      · rfl
    have := sorted_inj (hb.flow i).ok.sorted hg hf (by omega)
    subst this
    by_cases hc : g.inFlight = true ∧ g.tsn ≤ s.maxTsnAck
    · rw [if_pos hc] at e4
      refine ⟨hc.2, ?_⟩
      rw [← e4, nakedFrag] at e3
      split at e3
      · omega
      · rename_i hn
        have : g.inFlight = false := e3
        rw [hfl] at this; cases this
    · rw [if_neg hc] at e4
      rw [← e4, hfl] at e3; cases e3
  · rintro ⟨h1, h2⟩
    refine ⟨⟨f, hf, e, hfl⟩, nakedFrag f, (hmap _).mpr ⟨f, hf, if_pos ⟨hfl, h1⟩⟩, by rw [nakedFrag_sn]; exact e, ?_⟩
    rw [nakedFrag, if_pos (by omega)]

/-- **C26**: fragments are lost only by a timeout, or at the end of a packet with acknowledgements. -/
theorem C26_only {ops : List Op} {s t : SS} {evs es : List Ev} {op : Op} (h : Exec ops s evs) (ha : Allowed ops s op) (hs : step s op = some (t, es)) {i sn : Nat}
    (hl : Lost s t i sn) : op = .timeout ∨ ∃ c, op = .afterAcks c := by
  obtain ⟨w, hwd⟩ := h.watched
  have hb := exec_books h
  have hk := hwd.knows
  obtain ⟨hin, x, hx, e, hw⟩ := hl
  have key : x ∈ (s.flow i).queue → False := by
    intro k
    have := hin.frag (hb.flow i).ok.sorted k e
    rw [hw] at this; cases this
  by_cases hq : Quiet op = true
  · obtain ⟨⟨u, h1, h2⟩, _⟩ := step_quiet hs hq
    have hx' : x ∈ (u.flow i).queue := by rcases h2 with rfl | rfl | rfl <;> exact hx
    rcases (h1.flow i).queue x hx' with k | ⟨k, _, _⟩
    · exact (key k).elim
    · obtain ⟨f, hf, e2, _⟩ := hin
      have := ((hb.flow i).ok.range f hf).2
      omega
  cases op with
  | timeout => exact Or.inl rfl
  | afterAcks c => exact Or.inr ⟨c, rfl⟩
  | openFlow j m a p =>
    rw [step] at hs
    simp only [Option.some.injEq, Prod.mk.injEq] at hs
    rw [← hs.1, openFlow] at hx
    split at hx
    · exact (key hx).elim
    · by_cases e2 : i = j
      · subst e2; rw [setFlow_same] at hx; cases hx
      · rw [setFlow_other _ _ e2] at hx; exact (key hx).elim
  | transmit j p pri now gone =>
    rw [step] at hs
    simp only [Option.some.injEq] at hs
    have e1 : (s.assembleData j p pri now gone).s.afterSend (s.assembleData j p pri now gone).sent = t := (Prod.mk.inj hs).1
    have hA : ∀ (S : SS) b, (S.afterSend b).flow = S.flow := by intro S b; rw [afterSend]; split <;> rfl
    rw [← e1, hA] at hx
    rcases assembleData_sends s j ha.2 pri now gone with ⟨e1, _⟩ | ⟨c, q0, q1, q1', fs, ps, k⟩
    · rw [e1] at hx; exact (key hx).elim
    · exact (key (transmit_keeps k hx hw)).elim
  | ack j b rs =>
    rw [step] at hs
    simp only [Option.some.injEq, Prod.mk.injEq] at hs
    have := (onAck_knows hb hk j b rs).2 i x (by rw [hs.1]; exact hx)
    exact (key this).elim
  | _ => exact absurd rfl hq

/-- **C26**: a timeout loses all fragments in flight. -/
theorem C26_timeout {ops : List Op} {s t : SS} {evs es : List Ev} (h : Exec ops s evs) (hs : step s .timeout = some (t, es)) {i sn : Nat} (hi : InFlight s i sn) : Lost s t i sn := by
  have hb := exec_books h
  rw [step] at hs
  simp only [Option.some.injEq, Prod.mk.injEq] at hs
  obtain ⟨f, hf, e, hfl⟩ := hi
  refine ⟨⟨f, hf, e, hfl⟩, lostFrag f, ?_, e, rfl⟩
  rw [← hs.1, timeout_queue hb]
  exact List.mem_map.mpr ⟨f, hf, if_pos hfl⟩

/-- **C26**: what is sent was waiting (it is not in flight). Data that was sent before is sent again only if the message is reliable and not abandoned; otherwise the chunk says
that it is abandoned and has no data. -/
theorem C26_retransmit {ops : List Op} {s t : SS} {evs es : List Ev} {w : Watch} (h : Watched ops s evs w) {op : Op} (ha : Allowed ops s op) (hs : step s op = some (t, es))
    {i fsn : Nat} {ps : List Put} {P : PA} (he : Ev.sent i fsn ps P ∈ es) {p : Put} (hp : p ∈ ps) :
    ∃ g ∈ (s.flow i).queue, g.sn = p.sn ∧ g.inFlight = false ∧
      (p.flags &&& USERDATA_FLAG_ABN = 0 → p.data = g.data ∧ (s.receipts.r g.receipt).isAbandoned = false ∧ (0 < w.sentIn i p.sn → (s.receipts.r g.receipt).retransmit = true)) ∧
      (p.flags &&& USERDATA_FLAG_ABN ≠ 0 → p.data = [] ∧ (t.receipts.r g.receipt).isAbandoned = true) := by
  obtain ⟨pk, pri, now, gone, rfl, hsent, ht, _, hps, _⟩ := sent_step hs he
  have hb := exec_books h.exec
  have hev := h.ever i
  have hcn := (exec_fate h.exec).rb.cnt i
  rcases assembleData_sends s i ha.2 pri now gone with ⟨_, e2⟩ | ⟨c, q0, q1, q1', fs, qs, k⟩
  · rw [e2] at hsent; cases hsent
  have hR : t.receipts = (s.assembleData i pk pri now gone).s.receipts := by rw [ht, afterSend]; rfl
  rw [k.chunks] at hps
  subst hps
  have hfate := k.fate hcn
  obtain ⟨n, hn, _⟩ := k.before
  have hsub : ∀ x ∈ q0 ++ q1, x ∈ (s.flow i).queue := by intro x hx; rw [hn] at hx; exact List.mem_of_mem_drop hx
  obtain ⟨f, hf, b1, b2, rfl⟩ := k.puts.chunk.1 p hp
  obtain ⟨m1, _, _, m4, g, hg, g1, g2, _, g4, g5⟩ := k.puts.mem f hf
  have hgs := hsub g (List.mem_append_right _ hg)
  have hfq : f ∈ q1' := k.puts.sublist.subset hf
  have habn : ∀ b, (chunkFor c b1 b2 f b).flags &&& USERDATA_FLAG_ABN ≠ 0 ↔ b = true := fun b => flag_abn _ _ _ _
  refine ⟨g, hgs, g2, g1, fun ha0 => ?_, fun ha1 => ?_⟩
  · have hsa : f.sentAbandoned = false := by
      apply Bool.eq_false_iff.mpr
      intro hc
      exact (habn _).mpr hc ha0
    rcases hfate f hfq with hh | ⟨g', hg', e1, e2, e3, e4⟩
    · have := sorted_inj (hb.flow i).ok.sorted (hsub f (List.mem_append_right _ hh)) hgs g2.symm
      subst this
      rw [m1] at g1; cases g1
    · have := sorted_inj (hb.flow i).ok.sorted (hsub g' (List.mem_append_right _ hg')) hgs (by omega)
      subst this
      refine ⟨?_, ?_, fun hsn => ?_⟩
      · rw [hsa]; exact g4.symm
      · rw [Receipt.isAbandoned]
        apply Bool.eq_false_iff.mpr
        intro hc
        rw [e3 hc] at hsa; cases hsa
      · have hsn' : 0 < w.sentIn i g'.sn := by rw [g2]; exact hsn
        apply Classical.byContradiction
        intro hc
        rw [e4 ((hev.1 g' hgs).mpr hsn') (Bool.eq_false_iff.mpr hc)] at hsa
        cases hsa
  · have hsa := (habn _).mp ha1
    refine ⟨?_, ?_⟩
    · rw [hsa]; rfl
    · rw [Receipt.isAbandoned, hR, g5]; exact m4 hsa

/-- **C26**: fragments that wait are sent in order: nothing of a flow is sent before a fragment that waits, unless the message of that fragment is abandoned. So what was lost is
sent again before anything new of its flow. -/
theorem C26_first {ops : List Op} {s t : SS} {evs es : List Ev} (h : Exec ops s evs) {op : Op} (ha : Allowed ops s op) (hs : step s op = some (t, es))
    {i fsn : Nat} {ps : List Put} {P : PA} (he : Ev.sent i fsn ps P ∈ es) {p : Put} (hp : p ∈ ps) {f : SFrag} (hf : f ∈ (s.flow i).queue) (hw : f.inFlight = false)
    (hlt : f.sn < p.sn) : (∃ p' ∈ ps, p'.sn = f.sn) ∨ (t.receipts.r f.receipt).isAbandoned = true := by
  obtain ⟨pk, pri, now, gone, rfl, hsent, ht, _, hps, _⟩ := sent_step hs he
  have hb := exec_books h
  rcases assembleData_sends s i ha.2 pri now gone with ⟨_, e2⟩ | ⟨c, q0, q1, q1', fs, qs, k⟩
  · rw [e2] at hsent; cases hsent
  have hR : t.receipts = (s.assembleData i pk pri now gone).s.receipts := by rw [ht, afterSend]; rfl
  rw [k.chunks] at hps
  subst hps
  obtain ⟨n, hn, hdrop⟩ := k.before
  have hL : Lined { s.flow i with queue := q0 ++ q1 } :=
    lined_sub (exec_lined h i) (by rw [hn]; exact List.drop_sublist _ _) rfl (Nat.le_refl _)
  have hfl := startAt_flight hL
  have hst : startAt (s.flow i).lastName (q0 ++ q1) = (q0, q1) := k.start
  dsimp only at hfl
  rw [hst] at hfl
  rw [← List.take_append_drop n (s.flow i).queue, ← hn] at hf
  rcases List.mem_append.mp hf with hf | hf
  · right
    rw [Receipt.isAbandoned, hR]
    exact (hdrop f hf).2
  · left
    rcases List.mem_append.mp hf with hf | hf
    · rw [hfl f hf] at hw; cases hw
    · have hsort : Sorted (q0 ++ q1) := by rw [hn]; exact drop_sorted (hb.flow i).ok.sorted n
      have := k.puts.earlier (List.pairwise_append.mp hsort).2.1 f hf hw p hp hlt
      rw [SS.has, List.any_eq_true] at this
      obtain ⟨p', h1, h2⟩ := this
      exact ⟨p', h1, beq_iff_eq.mp h2⟩

/-! ## executions -/

namespace SS

/-- one more thing that happens, observed -/
def watchGo (x : SS × List Ev × Watch) (op : Op) : SS × List Ev × Watch := ((go x.1 op).1, x.2.1 ++ (go x.1 op).2, x.2.2.step x.1 op (go x.1 op).1 (go x.1 op).2)

def watchRun (ops : List Op) : SS × List Ev × Watch := ops.foldl watchGo (init, [], .start)

theorem Watched.then {ops : List Op} (h : Watched ops (watchRun ops).1 (watchRun ops).2.1 (watchRun ops).2.2) (op : Op) (ha : Allowed ops (watchRun ops).1 op)
    (ho : (step (watchRun ops).1 op).isSome = true) :
    Watched (ops ++ [op]) (watchRun (ops ++ [op])).1 (watchRun (ops ++ [op])).2.1 (watchRun (ops ++ [op])).2.2 := by
  obtain ⟨x, hx⟩ := Option.isSome_iff_exists.mp ho
  have e : watchRun (ops ++ [op]) = watchGo (watchRun ops) op := by rw [watchRun, List.foldl_append]; rfl
  have hg : go (watchRun ops).1 op = x := by rw [go, hx]; rfl
  rw [e, watchGo, hg]
  exact .snoc h ha (by rw [hx])

/-- Two messages are written and sent in a packet each; only the second arrives, and its acknowledgement is repeated. -/
def lossOps : List Op :=
  [.openFlow 0 [0x61] none 3, .sessionOpen, .bind 0 2, .write 0 [1, 2, 3] 0 1000000000 1000000000 1 (demoNames 1), .transmit 0 demoPacket 3 1 false,
   .write 0 [4, 5] 0 1000000000 1000000000 2 (demoNames 2), .transmit 0 demoPacket 3 2 false,
   .ack 0 5000 [(2, 2)], .afterAcks true, .ack 0 5000 [(2, 2)], .afterAcks true, .ack 0 5000 [(2, 2)], .afterAcks true, .transmit 0 demoPacket 3 3 false]

def lossWatched (n : Nat) : Prop := Watched (lossOps.take n) (watchRun (lossOps.take n)).1 (watchRun (lossOps.take n)).2.1 (watchRun (lossOps.take n)).2.2

theorem loss_next (n : Nat) (op : Op) (hop : lossOps[n]? = some op) (h : lossWatched n) (ha : Allowed (lossOps.take n) (watchRun (lossOps.take n)).1 op)
    (ho : (step (watchRun (lossOps.take n)).1 op).isSome = true) : lossWatched (n + 1) := by
  have := h.then op ha ho
  rw [lossWatched, List.take_succ, hop]
  exact this

theorem loss7 : lossWatched 7 := by
  have h0 : lossWatched 0 := .nil
  have h1 := loss_next 0 _ rfl h0 ⟨rfl, by simp [lossOps], by simp [lossOps]⟩ rfl
  have h2 := loss_next 1 _ rfl h1 trivial rfl
  have h3 := loss_next 2 _ rfl h2 ⟨rfl, by decide +kernel, by decide, by decide +kernel⟩ rfl
  have h4 := loss_next 3 _ rfl h3 ⟨by decide, demoNames_good _ (by decide) _ (by decide +kernel), by decide⟩ rfl
  have h5 := loss_next 4 _ rfl h4 ⟨by decide +kernel, demoPacket_inv⟩ rfl
  have h6 := loss_next 5 _ rfl h5 ⟨by decide, demoNames_good _ (by decide) _ (by decide +kernel), by decide⟩ rfl
  exact loss_next 6 _ rfl h6 ⟨by decide +kernel, demoPacket_inv⟩ rfl

theorem loss12 : lossWatched 12 := by
  have bound : ∀ n, n = 7 ∨ n = 9 ∨ n = 11 → ((watchRun (lossOps.take n)).1.flow 0).bound = true := by
    rintro n (rfl | rfl | rfl) <;> decide +kernel
  have h8 := loss_next 7 _ rfl loss7 (bound 7 (by simp)) rfl
  have h9 := loss_next 8 _ rfl h8 trivial rfl
  have h10 := loss_next 9 _ rfl h9 (bound 9 (by simp)) rfl
  have h11 := loss_next 10 _ rfl h10 trivial rfl
  exact loss_next 11 _ rfl h11 (bound 11 (by simp)) rfl

theorem loss13 : lossWatched 13 := loss_next 12 _ rfl loss12 trivial rfl

theorem loss13_lost : Lost (watchRun (lossOps.take 12)).1 (watchRun (lossOps.take 13)).1 0 1 := by
  refine ⟨?_, ?_⟩
  · show ∃ f ∈ ((watchRun (lossOps.take 12)).1.flow 0).queue, f.sn = 1 ∧ f.inFlight = true
    decide +kernel
  · show ∃ f ∈ ((watchRun (lossOps.take 13)).1.flow 0).queue, f.sn = 1 ∧ f.inFlight = false
    decide +kernel

end SS

/-- **C26** does not hold as stated: a fragment is lost without a timeout though only two packets were sent at all, its own and the one after it. (The acknowledgement of the second
packet came three times.) -/
theorem C26_not_three : ∃ ops s evs w c t es i sn, Watched ops s evs w ∧ step s (.afterAcks c) = some (t, es) ∧ Lost s t i sn ∧
    w.packets = 2 ∧ (∀ n ∈ w.arrived, n = 2) ∧ w.sentIn i sn = 1 :=
  ⟨_, _, _, _, true, (watchRun (lossOps.take 13)).1, [], 0, 1, loss12, rfl, loss13_lost, by decide +kernel, by decide +kernel, by decide +kernel⟩

/-- The hypotheses of `C26_three_partial` are met where the fragment is lost … -/
example : ∃ t es, lossWatched 12 ∧ step (watchRun (lossOps.take 12)).1 (.afterAcks true) = some (t, es) ∧ InFlight (watchRun (lossOps.take 12)).1 0 1 ∧
    (watchRun (lossOps.take 12)).2.2.naks 0 1 = 2 ∧ (watchRun (lossOps.take 12)).2.2.arrived = [2] := ⟨_, _, loss12, rfl, loss13_lost.1, by decide +kernel, by decide +kernel⟩

/-- … and where no packet after it arrived. -/
example : ∃ t es, lossWatched 7 ∧ step (watchRun (lossOps.take 7)).1 (.afterAcks true) = some (t, es) ∧ InFlight (watchRun (lossOps.take 7)).1 0 1 ∧
    (watchRun (lossOps.take 7)).2.2.arrived = [] :=
  ⟨_, _, loss7, rfl, (by show ∃ f ∈ ((watchRun (lossOps.take 7)).1.flow 0).queue, f.sn = 1 ∧ f.inFlight = true; decide +kernel), by decide +kernel⟩

/-- A timeout loses the fragments in flight; the hypotheses of `C26_only` and `C26_timeout` are met. -/
example : ∃ t es, Exec (lossOps.take 7) (watchRun (lossOps.take 7)).1 (watchRun (lossOps.take 7)).2.1 ∧ Allowed (lossOps.take 7) (watchRun (lossOps.take 7)).1 .timeout ∧
    step (watchRun (lossOps.take 7)).1 .timeout = some (t, es) ∧ Lost (watchRun (lossOps.take 7)).1 t 0 2 :=
  ⟨_, _, Watched.exec loss7, trivial, rfl, C26_timeout (Watched.exec loss7) rfl
    (by show ∃ f ∈ ((watchRun (lossOps.take 7)).1.flow 0).queue, f.sn = 2 ∧ f.inFlight = true; decide +kernel)⟩

/-- The lost fragment is sent again (the hypotheses of `C26_retransmit`): it had been sent, and its data are sent. -/
example : ∃ t es fsn ps P p, lossWatched 13 ∧ Allowed (lossOps.take 13) (watchRun (lossOps.take 13)).1 (.transmit 0 demoPacket 3 3 false) ∧
    step (watchRun (lossOps.take 13)).1 (.transmit 0 demoPacket 3 3 false) = some (t, es) ∧ Ev.sent 0 fsn ps P ∈ es ∧ p ∈ ps ∧
    0 < (watchRun (lossOps.take 13)).2.2.sentIn 0 p.sn ∧ p.data = [1, 2, 3] :=
  ⟨_, _, _, _, _, _, loss13, ⟨by decide +kernel, demoPacket_inv⟩, rfl, List.mem_of_getElem? (i := 0) rfl, List.mem_of_getElem? (i := 0) rfl, by decide +kernel, by decide +kernel⟩

/-- In `demoOps` two fragments wait, the second is sent, and the first with it (the hypotheses of `C26_first`). The message of the second is abandoned, and the
chunk says so. -/
example : ∃ t es fsn ps P p, ∃ f ∈ ((demo 5).1.flow 0).queue, Exec (demoOps.take 5) (demo 5).1 (demo 5).2 ∧ step (demo 5).1 (.transmit 0 demoPacket 3 1 false) = some (t, es) ∧
    Ev.sent 0 fsn ps P ∈ es ∧ p ∈ ps ∧ f.inFlight = false ∧ f.sn < p.sn ∧ p.flags &&& USERDATA_FLAG_ABN ≠ 0 :=
  ⟨_, _, _, _, _, _, _, List.mem_of_getElem? (i := 0) rfl, demo5, rfl, List.mem_of_getElem? (i := 0) rfl, List.mem_of_getElem? (i := 1) rfl, by decide +kernel, by decide +kernel, by decide +kernel⟩

end Rtmfp
