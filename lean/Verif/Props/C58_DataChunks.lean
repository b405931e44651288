import Verif.Lemmas.SendAssemble
import Verif.Lemmas.SendDemo

/-! # C58: data chunks are read as they were sent -/

namespace Rtmfp
open SS

/-- What a receiver must make of the transmission of a fragment: everything about it, and no contents if it was abandoned. `fsn`: the forward
number, `finalSn`: the last number of the flow (0 while it isn't known). -/
structure Says (u : UserData) (f : SFrag) (flowId fsn finalSn : Nat) : Prop where
  flow : u.flowId = flowId
  sn : u.sn = f.sn
  fsn : u.fsn = fsn
  data : u.data = if f.sentAbandoned then [] else f.data
  abandoned : (u.flags &&& 0x02 ≠ 0) ↔ f.sentAbandoned = true
  final : (u.flags &&& 0x01 ≠ 0) ↔ f.sn = finalSn
  part : u.flags &&& 0x30 = match f.fra with | .whole => 0x00 | .begin => 0x10 | .end => 0x20 | .middle => 0x30
  accepted : u.mustReject = false

theorem flag_bits (opt : Bool) (fra : Fra) (abn fin : Bool) :
    ((chunkFlags opt fra abn fin &&& 0x02 ≠ 0) ↔ abn = true) ∧ ((chunkFlags opt fra abn fin &&& 0x01 ≠ 0) ↔ fin = true) ∧
    chunkFlags opt fra abn fin &&& 0x30 = match fra with | .whole => 0x00 | .begin => 0x10 | .end => 0x20 | .middle => 0x30 := by
  cases opt <;> cases fra <;> cases abn <;> cases fin <;> decide

theorem SS.ReadAs.says {c : Ctx} {o : OptState} {u : UserData} {f : SFrag} (h : ReadAs c o u f) (ho : o.mustReject = false) :
    Says u f c.flowId c.fsn c.finalSn := by
  obtain ⟨opt, hf⟩ := h.flags
  obtain ⟨b1, b2, b3⟩ := flag_bits opt f.fra f.sentAbandoned (decide (f.sn = c.finalSn))
  rw [← hf] at b1 b2 b3
  exact ⟨h.flow, h.sn, h.fsn, h.data, b1, by rw [b2]; simp, b3, by rw [h.ok, ho]⟩

theorem SS.Reads.says {c : Ctx} {o : OptState} (ho : o.mustReject = false) {first : Bool} {us : List UserData} {fs : List SFrag} (h : Reads c o first us fs) :
    us.length = fs.length ∧ ∀ k u f, us[k]? = some u → fs[k]? = some f → Says u f c.flowId c.fsn c.finalSn ∧
      (u.metadata, u.assoc) = if first = true ∧ k = 0 then (o.metadata, o.assoc) else (none, none) := by
  induction h with
  | nil => exact ⟨rfl, fun k u f h => by simp at h⟩
  | @cons first u us f fs hr _ ih =>
    refine ⟨by simp [ih.1], ?_⟩
    intro k v g hv hg
    cases k with
    | zero =>
      simp only [List.getElem?_cons_zero, Option.some.injEq] at hv hg
      subst hv hg
      by_cases hf : first = true
      · rw [if_pos hf] at hr
        refine ⟨hr.says ho, ?_⟩
        rw [if_pos ⟨hf, rfl⟩, hr.assoc, hr.metadata]
      · rw [if_neg hf] at hr
        refine ⟨hr.says rfl, ?_⟩
        rw [if_neg (fun x => hf x.1), hr.assoc, hr.metadata]
    | succ k =>
      simp only [List.getElem?_cons_succ] at hv hg
      obtain ⟨h1, h2⟩ := ih.2 k v g hv hg
      refine ⟨h1, ?_⟩
      rw [h2, if_neg (by simp), if_neg (by simp)]

/-- **C58.** After any history of a session, when a flow adds data to a packet, a receiver that reads the packet - whatever it has read in it before - learns
of each fragment sent its flow, number, contents and marks, and the forward number; and of the first, until something was acknowledged, the flow's
metadata and the flow it answers. The fragments are then in flight,
and what was sent as abandoned is abandoned. -/
theorem C58_data_chunks_round_trip {ops : List Op} {s : SS} {evs : List Ev} (h : Exec ops s evs) {i : Nat} {p : PA} {pri : Nat} {now : Int} {gone : Bool}
    (ha : Allowed ops s (.transmit i p pri now gone)) {t : SS} {es : List Ev} (hs : step s (.transmit i p pri now gone) = some (t, es))
    {fsn : Nat} {cs : List Put} {pk : PA} (hm : Ev.sent i fsn cs pk ∈ es)
    (hlim : p.limit < 65536) (hfl : ∀ j, p.flags = some j → j < p.cursor) (hsn : (s.flow i).nextSn ≤ 2 ^ 64) :
    ∃ frags : List SFrag, frags ≠ [] ∧ frags.Sublist (t.flow i).queue ∧ (∀ f ∈ frags, f.inFlight = true ∧ f.tsn = s.nextTsn ∧ (f.sentAbandoned = true → (t.receipts.r f.receipt).isAbandoned = true)) ∧
      ∃ metadata assoc,
        ((metadata, assoc) = (none, none) ∧ (∃ op ∈ ops ++ [.transmit i p pri now gone], dropsOptions op i = true) ∨
          ∃ m a pr, Op.openFlow i m a pr ∈ ops ∧ (metadata, assoc) = (some m, a)) ∧
      ∀ (pos : Nat) (st : Parsing), ∃ us, us = userDatas st ((parseChunks pos (pk.toVector.drop p.cursor)).map (fun c => (c.type, c.payload))) ∧
        us.length = frags.length ∧
        ∀ k u f, us[k]? = some u → frags[k]? = some f → Says u f (s.flow i).flowId fsn (t.flow i).finalSn ∧
          (u.metadata, u.assoc) = if k = 0 then (metadata, assoc) else (none, none) := by
  have hex : Exec (ops ++ [.transmit i p pri now gone]) t (evs ++ es) := .snoc h ha hs
  have hid := exec_ident hex i
  have b := exec_books h
  rw [step] at hs
  simp only [sentRes, Option.some.injEq, Prod.mk.injEq] at hs
  obtain ⟨rfl, rfl⟩ := hs
  have hsent : (s.assembleData i p pri now gone).sent = true := by
    rcases List.mem_append.mp hm with hm | hm
    · simp [fins] at hm
    · apply Classical.byContradiction
      intro hn
      rw [if_neg hn] at hm
      cases hm
  obtain ⟨c, q0, q1, q1', fs, ps, P, k⟩ := assembleData_spec (b.flow i).ok.sorted ha.2 pri now gone hsent
  have hpk : fsn = (s.assembleData i p pri now gone).fsn ∧ pk = (s.assembleData i p pri now gone).packet := by
    rcases List.mem_append.mp hm with hm | hm
    · simp [fins] at hm
    · rw [if_pos hsent] at hm
      simp only [List.mem_singleton, Ev.sent.injEq] at hm
      exact ⟨hm.2.1, hm.2.2.2⟩
  obtain ⟨rfl, rfl⟩ := hpk
  have hq : ((s.assembleData i p pri now gone).s.afterSend (s.assembleData i p pri now gone).sent).flow i = (s.assembleData i p pri now gone).s.flow i := by
    rw [afterSend]; split <;> rfl
  rw [hq] at hid ⊢
  obtain ⟨n, e1, e2⟩ := k.before
  have hmem : ∀ f ∈ q1, f ∈ (s.flow i).queue := fun f hf => by
    have : f ∈ q0 ++ q1 := by simp [hf]
    rw [e1] at this
    exact List.mem_of_mem_drop this
  -- the bytes
  have hvec : (s.assembleData i p pri now gone).packet.toVector.drop p.cursor = ps.flatMap putWire := by
    rw [k.packet, timeCritical_drop P true _ p.cursor]
    · rw [k.added.vec, List.drop_left' ]
      have := ha.2.cur; have := ha.2.lim
      simp [PA.toVector]; omega
    · intro j hj
      have := k.added.same.2.2.2.2.2
      rw [this] at hj
      exact hfl j hj
  have hlen : ∀ c ∈ ps, (putPayload c).length < 65536 := by
    intro d hd
    have h1 : (putWire d).length ≤ (ps.flatMap putWire).length := by
      obtain ⟨l1, l2, rfl⟩ := List.append_of_mem hd
      simp only [List.flatMap_append, List.flatMap_cons, List.length_append]
      omega
    have h2 : (putWire d).length = (putPayload d).length + 3 := PA.wire_length _ _
    have h3 := k.added.cur
    have h4 := k.added.inv.cur
    have h5 := k.added.same.2.1
    omega
  -- options
  have hopt : ∃ o : OptState, o.mustReject = false ∧ (c.options = [] → o = ⟨none, none, false⟩) ∧
      (c.options ≠ [] → ∀ rest, parseOptions ((c.options ++ rest).length + 1) ⟨none, none, false⟩ (c.options ++ rest) = some (o, rest)) ∧
      ((o.metadata, o.assoc) = (none, none) ∧ (∃ op ∈ ops ++ [.transmit i p pri now gone], dropsOptions op i = true) ∨
          ∃ m a pr, Op.openFlow i m a pr ∈ ops ∧ (o.metadata, o.assoc) = (some m, a)) := by
    have hno : ∀ m a pr, Op.openFlow i m a pr ∈ ops ++ [Op.transmit i p pri now gone] → Op.openFlow i m a pr ∈ ops := by
      intro m a pr h1
      rcases List.mem_append.mp h1 with h1 | h1
      · exact h1
      · simp at h1
    rcases hid.opts with ⟨h1, h2⟩ | ⟨m, a, pr, h1, h2, h3, h4⟩
    · refine ⟨⟨none, none, false⟩, rfl, fun _ => rfl, fun hne => absurd (by rw [k.opts, h1]) hne, Or.inl ⟨rfl, ?_⟩⟩
      rcases h2 with h2 | h2
      · exact h2
      · exfalso
        -- the flow was opened
        have hb := ha.1
        have : ∃ m a pr, Op.openFlow i m a pr ∈ ops ∧ m.length ≤ MAX_METADATA_LENGTH := by
          refine opened_was_opened h ?_
          intro hc
          rw [(b.flow i).ok.closed hc] at hb
          cases hb
        obtain ⟨m, a, pr, h3, h4⟩ := this
        have := h2 m a pr (by simp [h3])
        omega
    · have hc : c.options = startupOptions m a := by rw [k.opts, h4]
      refine ⟨⟨a, some m, false⟩, rfl, ?_, ?_, Or.inr ⟨m, a, pr, hno _ _ _ h1, rfl⟩⟩
      · intro he
        rw [hc, startupOptions_eq] at he
        have := append_pos USERDATA_OPTION_METADATA m
        have := congrArg List.length he
        rw [List.length_append, List.length_nil] at this
        omega
      · intro _ rest
        rw [hc]
        exact startup_parse m a h2 h3 rest
  obtain ⟨o, ho1, ho2, ho3, ho4⟩ := hopt
  have hread := k.puts.reads (o := o) (by rw [k.id]; exact (exec_ident h i).id ha.1) ho2 ho3 (by
    intro f hf
    have h1 := ((b.flow i).ok.range f (hmem f hf)).2
    exact ⟨by omega, by rw [k.fsn]; exact (k.forward f (by simp [hf])).1⟩)
  refine ⟨fs, ?_, ?_, ?_, o.metadata, o.assoc, ho4, ?_⟩
  · intro e
    have := k.puts.length
    rw [e] at this
    exact k.ne (List.length_eq_zero_iff.mp this.symm)
  · rw [k.queue]
    exact k.puts.sublist.trans (List.sublist_append_right _ _)
  · intro f hf
    obtain ⟨h1, h2, _, h3, _⟩ := k.puts.mem f hf
    refine ⟨h1, by rw [h2, k.tsn], ?_⟩
    have hr : ((s.assembleData i p pri now gone).s.afterSend (s.assembleData i p pri now gone).sent).receipts = (s.assembleData i p pri now gone).s.receipts := by
      rw [afterSend]; split <;> rfl
    rw [hr]; exact h3
  · intro pos st
    refine ⟨_, rfl, ?_⟩
    rw [hvec, parse_wires ps hlen pos]
    have := (hread st (by simp)).says ho1
    rw [k.id, k.fsn, k.fin] at this
    simpa using this

/-- the hypotheses hold for the transmissions of the example: two fragments, one of them abandoned, with the flow's metadata -/
example : Exec (demoOps.take 7) (demo 7).1 (demo 7).2 ∧ Allowed (demoOps.take 7) (demo 7).1 (.transmit 0 demoPacket 3 2 false) ∧
    (∃ t cs pk, step (demo 7).1 (.transmit 0 demoPacket 3 2 false) = some (t, [.sent 0 0 cs pk]) ∧
      pk.toVector.drop demoPacket.cursor = [16, 0, 11, 128, 2, 1, 1, 2, 0, 97, 0, 1, 2, 3, 17, 0, 1, 2] ∧
      userDatas .init (cs.map fun c => (putType c, putPayload c)) =
        [⟨128, 2, 1, 0, none, some [0x61], [1, 2, 3], false⟩, ⟨2, 2, 2, 0, none, none, [], false⟩]) ∧
    demoPacket.limit < 65536 ∧ demoPacket.flags = some 2 ∧ 2 < demoPacket.cursor ∧ ((demo 7).1.flow 0).nextSn ≤ 2 ^ 64 := by
  refine ⟨demo7, ⟨by decide +kernel, demoPacket_inv⟩, ⟨_, _, _, rfl, ?_⟩, ?_⟩ <;> decide +kernel

end Rtmfp
