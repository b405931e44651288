import Verif.Model.System
import Verif.Lemmas.SendStream
import Verif.Props.C58_DataChunks
import Verif.Props.C17_C18_Ack

/-! # Invariants of a flow from end to end -/

namespace Rtmfp
open Spec SS
open RFlow (chunksOf chunksOf_append covered_snoc inTime_snoc inTime_covered OkOp OkQuiet OkData Op64 quiet)

/-- calls at the receiver whose data is on the wire -/
def FromWire (wire : List UserData) (user : RFlow → RFlow.Op → Prop) (f : RFlow) : RFlow.Op → Prop
  | .data flags sn fsn data nm rc => user f (.data flags sn fsn data nm rc) ∧ nm ∉ f.buf.map (·.1) ∧ ∃ u ∈ wire, u.flags = flags ∧ u.sn = sn ∧ u.fsn = fsn ∧ u.data = data
  | op => user f op

theorem RFlow.Exec.mono {ok ok' : RFlow → RFlow.Op → Prop} {f0 : RFlow} (hok : ∀ f op, ok f op → ok' f op) {ops : List RFlow.Op} {f : RFlow} {ev : List REv}
    (h : RFlow.Exec ok f0 ops f ev) : RFlow.Exec ok' f0 ops f ev := by
  induction h with
  | nil => exact .nil
  | snoc _ h2 h3 ih => exact .snoc ih (hok _ _ h2) h3

theorem RFlow.Exec.trans {ok : RFlow → RFlow.Op → Prop} {f0 f1 : RFlow} {ops1 ops : List RFlow.Op} {f : RFlow} {ev1 ev : List REv}
    (h1 : RFlow.Exec ok f0 ops1 f1 ev1) (h : RFlow.Exec ok f1 ops f ev) : RFlow.Exec ok f0 (ops1 ++ ops) f (ev1 ++ ev) := by
  induction h with
  | nil => rw [List.append_nil, List.append_nil]; exact h1
  | snoc _ h2 h3 ih => rw [← List.append_assoc, ← List.append_assoc]; exact .snoc ih h2 h3

theorem FromWire.more {wire us : List UserData} {user : RFlow → RFlow.Op → Prop} (f : RFlow) (op : RFlow.Op) (h : FromWire wire user f op) : FromWire (wire ++ us) user f op := by
  cases op with
  | data flags sn fsn data nm rc =>
    obtain ⟨h1, h2, u, hu, h3⟩ := h
    exact ⟨h1, h2, u, List.mem_append_left _ hu, h3⟩
  | _ => exact h

/-- what arrived was on the wire -/
theorem fromWire_chunks {wire : List UserData} {user : RFlow → RFlow.Op → Prop} {f0 : RFlow} {ops : List RFlow.Op} {f : RFlow} {ev : List REv}
    (h : RFlow.Exec (FromWire wire user) f0 ops f ev) : ∀ flags sn fsn data nm rc, RFlow.Op.data flags sn fsn data nm rc ∈ ops →
      ∃ u ∈ wire, u.flags = flags ∧ u.sn = sn ∧ u.fsn = fsn ∧ u.data = data := by
  induction h with
  | nil => intro _ _ _ _ _ _ hm; cases hm
  | @snoc ops f ev op f' ev' _ h2 _ ih =>
    intro flags sn fsn data nm rc hm
    rcases List.mem_append.mp hm with hm | hm
    · exact ih _ _ _ _ _ _ hm
    · rw [List.mem_singleton] at hm
      subst hm
      exact h2.2.2

theorem mem_chunksOf {ops : List RFlow.Op} {c : DataChunk} : c ∈ chunksOf ops ↔ ∃ data nm rc, RFlow.Op.data c.flags c.sn c.fsn data nm rc ∈ ops := by
  rw [chunksOf, List.mem_filterMap]
  constructor
  · rintro ⟨op, h1, h2⟩
    cases op with
    | data flags sn fsn data nm rc => simp only [Option.some.injEq] at h2; subst h2; exact ⟨data, nm, rc, h1⟩
    | _ => simp at h2
  · rintro ⟨data, nm, rc, h⟩
    exact ⟨_, h, rfl⟩

theorem arrived_wire {wire : List UserData} {user : RFlow → RFlow.Op → Prop} {f0 : RFlow} {ops : List RFlow.Op} {f : RFlow} {ev : List REv}
    (h : RFlow.Exec (FromWire wire user) f0 ops f ev) {c : DataChunk} (hc : c ∈ chunksOf ops) : ∃ u ∈ wire, u.flags = c.flags ∧ u.sn = c.sn ∧ u.fsn = c.fsn := by
  obtain ⟨data, nm, rc, h1⟩ := mem_chunksOf.mp hc
  obtain ⟨u, h2, h3, h4, h5, _⟩ := fromWire_chunks h _ _ _ _ _ _ h1
  exact ⟨u, h2, h3, h4, h5⟩

theorem part_fra : ∀ (flags : UInt8) (fra : Fra), (flags &&& 0x30 = match fra with | .whole => 0x00 | .begin => 0x10 | .end => 0x20 | .middle => 0x30) → Fra.ofFlags flags = fra := by
  intro flags fra h
  have : flags &&& USERDATA_FLAG_FRA_MASK = flags &&& 0x30 := rfl
  simp only [Fra.ofFlags, this, h]
  cases fra <;> decide

/-- what one transmission puts on the wire -/
structure OnWire (t : SS) (i : Nat) (fsn : Nat) (u : UserData) (f : SFrag) : Prop where
  mem : f ∈ (t.flow i).queue
  sn : u.sn = f.sn
  fsn : u.fsn = fsn
  fra : Fra.ofFlags u.flags = f.fra
  data : u.flags &&& USERDATA_FLAG_ABN = 0 → u.data = f.data
  abn : u.flags &&& USERDATA_FLAG_ABN ≠ 0 → (t.receipts.r f.receipt).abandoned = true
  fin : u.flags &&& USERDATA_FLAG_FIN ≠ 0 → f.sn = (t.flow i).finalSn

theorem on_wire {ops : List Op} {s : SS} {evs : List Ev} (h : Exec ops s evs) {i : Nat} {p : PA} {pri : Nat} {now : Int} {gone : Bool}
    (ha : Allowed ops s (.transmit i p pri now gone)) {t : SS} {es : List Ev} (hs : step s (.transmit i p pri now gone) = some (t, es))
    {fsn : Nat} {cs : List Put} {pk : PA} (hm : Ev.sent i fsn cs pk ∈ es)
    (hlim : p.limit < 65536) (hfl : ∀ j, p.flags = some j → j < p.cursor) (hsn : (s.flow i).nextSn ≤ 2 ^ 64) {pos : Nat} {st : Parsing} {u : UserData}
    (hu : u ∈ userDatas st (chunksIn pos (pk.toVector.drop p.cursor))) : ∃ f, OnWire t i fsn u f := by
  obtain ⟨frags, _, hsub, hfr, _, _, _, hus⟩ := C58_data_chunks_round_trip h ha hs hm hlim hfl hsn
  obtain ⟨us, e, hlen, hsay⟩ := hus pos st
  have hu' : u ∈ us := by rw [e]; exact hu
  obtain ⟨k, hk⟩ := List.getElem?_of_mem hu'
  have hk2 : k < frags.length := by rw [← hlen]; exact (List.getElem?_eq_some_iff.mp hk).1
  obtain ⟨sy, _⟩ := hsay k u frags[k] hk (List.getElem?_eq_getElem hk2)
  have hmem : frags[k] ∈ frags := List.getElem_mem hk2
  refine ⟨frags[k], hsub.subset hmem, sy.sn, sy.fsn, part_fra _ _ sy.part, ?_, ?_, fun h => sy.final.mp h⟩
  · intro h0
    have : frags[k].sentAbandoned = false := by
      cases hx : frags[k].sentAbandoned
      · rfl
      · exact absurd h0 (sy.abandoned.mpr hx)
    rw [sy.data, this]; rfl
  · intro h0
    exact (hfr _ hmem).2.2 (sy.abandoned.mp h0)

theorem transmit_next {ops : List Op} {s : SS} {evs : List Ev} (h : Exec ops s evs) {i : Nat} {p : PA} {pri : Nat} {now : Int} {gone : Bool}
    (ha : Allowed ops s (.transmit i p pri now gone)) {t : SS} {es : List Ev} (hs : step s (.transmit i p pri now gone) = some (t, es))
    {fsn : Nat} {cs : List Put} {pk : PA} (hm : Ev.sent i fsn cs pk ∈ es) : (t.flow i).nextSn = (s.flow i).nextSn := by
  obtain ⟨p', pri', now', gone', e0, e1, e2, e3, e4, e5⟩ := sent_step hs hm
  cases e0
  obtain ⟨c, q0, q1, q1', fs, ps', P', hsa⟩ := assembleData_spec ((exec_books h).flow i).ok.sorted ha.2 pri now gone e1
  rw [e2]
  exact hsa.next

/-- abandoned messages stay abandoned -/
theorem abandoned_stays {ops : List Op} {s : SS} {evs : List Ev} (h : Exec ops s evs) {op : Op} {t : SS} {es : List Ev} (ha : Allowed ops s op) (hs : step s op = some (t, es))
    {i r a n : Nat} {M : Bytes} (hm : Ev.accepted i r a n M ∈ evs) (hr : (s.receipts.r r).abandoned = true) : (t.receipts.r r).abandoned = true := by
  have k := exec_fate h
  refine ((step_moves (exec_books h) k.unopened ha hs) _ k.rb).2.mono r ?_ hr
  obtain ⟨msg, now, x, y, names, hw⟩ := (k.wrote i r a n M hm).1
  exact List.mem_map.mpr ⟨_, hw, rfl⟩

/-- the invariant -/
structure SysInv (i : Nat) (f0 : RFlow) (user : RFlow → RFlow.Op → Prop) (w : Two) (ms : List (List Bytes)) : Prop where
  exec : Exec w.ops w.s w.evs
  recv : RFlow.Exec (FromWire w.wire user) f0 w.rops w.f w.revs
  str : StreamOf w.ops w.s w.evs i ms
  opened : ∀ u ∈ w.wire, ∃ m a p, Op.openFlow i m a p ∈ w.ops
  sn : ∀ u ∈ w.wire, 1 ≤ u.sn ∧ u.sn < (w.s.flow i).nextSn ∧ u.sn < 2 ^ 64 ∧ u.fsn < (w.s.flow i).nextSn ∧ u.fsn < 2 ^ 64
  live : ∀ u ∈ w.wire, u.flags &&& USERDATA_FLAG_ABN = 0 → fragAt ms u.sn = some (Fra.ofFlags u.flags, u.data)
  fin : ∀ u ∈ w.wire, u.flags &&& USERDATA_FLAG_FIN ≠ 0 → u.sn = (stream ms).length ∧ (w.s.flow i).state ≠ .opened
  abn : ∀ u ∈ w.wire, u.flags &&& USERDATA_FLAG_ABN ≠ 0 → ∀ r a n M, Ev.accepted i r a n M ∈ w.evs → a ≤ u.sn → u.sn < a + n → (w.s.receipts.r r).abandoned = true
  fwd : ∀ u ∈ w.wire, ∀ r a n M, Ev.accepted i r a n M ∈ w.evs → ∀ k, a ≤ k → k < a + n → k ≤ u.fsn → InTime (chunksOf w.rops) k ∨ (w.s.receipts.r r).abandoned = true
  acked : ∀ d ∈ w.acks, ∀ k, 1 ≤ k → Rtmfp.Acked d k → Covered (chunksOf w.rops) k
  ackop : ∀ b rs, Op.ack i b rs ∈ w.ops → ∃ d ∈ w.acks, d.ranges = rs
  cov : ∀ r a n M, Ev.accepted i r a n M ∈ w.evs → ∀ k, a ≤ k → k < a + n → Covered (chunksOf w.rops) k → InTime (chunksOf w.rops) k ∨ (w.s.receipts.r r).abandoned = true

theorem SysInv.covered {i : Nat} {f0 : RFlow} {user : RFlow → RFlow.Op → Prop} {w : Two} {ms : List (List Bytes)} (h : SysInv i f0 user w ms) {k : Nat}
    (hc : Covered (chunksOf w.rops) k) : k < (w.s.flow i).nextSn := by
  obtain ⟨c, hc, hk⟩ := hc
  obtain ⟨u, hu, _, e1, e2⟩ := arrived_wire h.recv hc
  have := h.sn u hu
  omega

/-- a step of the sender, with `us` added to the wire -/
theorem SysInv.sender {i : Nat} {f0 : RFlow} {user : RFlow → RFlow.Op → Prop} {w : Two} {ms : List (List Bytes)} (h : SysInv i f0 user w ms)
    {op : Op} {t : SS} {es : List Ev} (ha : Allowed w.ops w.s op) (hs : step w.s op = some (t, es)) (us : List UserData)
    (hack : ∀ b rs, op = .ack i b rs → ∃ d ∈ w.acks, d.ranges = rs)
    (hus : ∀ u ∈ us, ∃ fsn cs pk f, Ev.sent i fsn cs pk ∈ es ∧ OnWire t i fsn u f ∧ (t.flow i).nextSn ≤ 2 ^ 64) :
    ∃ ms', SysInv i f0 user { w with ops := w.ops ++ [op], s := t, evs := w.evs ++ es, wire := w.wire ++ us } ms' := by
  have hex : Exec (w.ops ++ [op]) t (w.evs ++ es) := .snoc h.exec ha hs
  obtain ⟨ms', hp, hst, hno⟩ := h.str.step h.exec ha hs
  have hft := exec_fate hex
  have hfs := exec_fate h.exec
  have hbt := exec_books hex
  have hnext : ∀ u ∈ w.wire, (w.s.flow i).nextSn ≤ (t.flow i).nextSn := fun u hu => step_next ha hs i (h.opened u hu)
  have hackop : ∀ b rs, Op.ack i b rs ∈ w.ops ++ [op] → ∃ d ∈ w.acks, d.ranges = rs := by
    intro b rs hm
    rcases List.mem_append.mp hm with hm | hm
    · exact h.ackop b rs hm
    · exact hack b rs (List.mem_singleton.mp hm).symm
  have hnew : ∀ r a n M, Ev.accepted i r a n M ∈ es → a = (w.s.flow i).nextSn := by
    intro r a n M hm
    obtain ⟨_, _, _, _, _, _, _, _, _, e, _⟩ := accepted_step hs hm
    exact e
  have hcov : ∀ r a n M, Ev.accepted i r a n M ∈ w.evs ++ es → ∀ k, a ≤ k → k < a + n → Covered (chunksOf w.rops) k →
      InTime (chunksOf w.rops) k ∨ (t.receipts.r r).abandoned = true := by
    intro r a n M hm k h1 h2 h3
    rcases List.mem_append.mp hm with hm | hm
    · exact (h.cov r a n M hm k h1 h2 h3).imp id (abandoned_stays h.exec ha hs hm)
    · have := h.covered h3
      have := hnew r a n M hm
      omega
  refine ⟨ms', hex, h.recv.mono FromWire.more, hst, ?_, ?_, ?_, ?_, ?_, ?_, h.acked, hackop, hcov⟩
  · intro u hu
    rcases List.mem_append.mp hu with hu | hu
    · obtain ⟨m, a, p, k⟩ := h.opened u hu
      exact ⟨m, a, p, List.mem_append_left _ k⟩
    · obtain ⟨fsn, cs, pk, f, hm, _, _⟩ := hus u hu
      exact (hft.forward i fsn cs pk (List.mem_append_right _ hm)).2.1
  · intro u hu
    rcases List.mem_append.mp hu with hu' | hu'
    · have h1 := h.sn u hu'
      have h2 := hnext u hu'
      dsimp only
      omega
    · obtain ⟨fsn, cs, pk, f, hm, ho, hn⟩ := hus u hu'
      have h1 := (hft.forward i fsn cs pk (List.mem_append_right _ hm)).1
      have h2 := (hbt.flow i).ok.range f ho.mem
      have h3 := ho.sn
      have h4 := ho.fsn
      dsimp only
      omega
  · intro u hu h0
    rcases List.mem_append.mp hu with hu | hu
    · exact fragAt_prefix hp (h.live u hu h0)
    · obtain ⟨fsn, cs, pk, f, hm, ho, hn⟩ := hus u hu
      rw [ho.fra, ho.data h0, ho.sn]
      exact hst.str.queue f ho.mem
  · intro u hu h0
    rcases List.mem_append.mp hu with hu | hu
    · obtain ⟨k1, k2⟩ := h.fin u hu h0
      obtain ⟨e, k3⟩ := hno k2
      exact ⟨by rw [e]; exact k1, k3 (h.opened u hu)⟩
    · obtain ⟨fsn, cs, pk, f, hm, ho, hn⟩ := hus u hu
      have h1 := ho.fin h0
      have h2 := (hbt.flow i).ok.range f ho.mem
      rcases hst.str.final with e | ⟨e1, e2⟩
      · omega
      · have := hst.str.next
        exact ⟨by rw [ho.sn]; omega, e2⟩
  · intro u hu h0 r a n M hm h1 h2
    rcases List.mem_append.mp hu with hu | hu
    · rcases List.mem_append.mp hm with hm | hm
      · exact abandoned_stays h.exec ha hs hm (h.abn u hu h0 r a n M hm h1 h2)
      · have := h.sn u hu
        have := hnew r a n M hm
        omega
    · obtain ⟨fsn, cs, pk, f, _, ho, hn⟩ := hus u hu
      rw [ho.sn] at h1 h2
      rw [← hst.own r a n M hm f ho.mem h1 h2]
      exact ho.abn h0
  · intro u hu r a n M hm k h1 h2 h3
    rcases List.mem_append.mp hu with hu | hu
    · rcases List.mem_append.mp hm with hm | hm
      · exact (h.fwd u hu r a n M hm k h1 h2 h3).imp id (abandoned_stays h.exec ha hs hm)
      · have := h.sn u hu
        have := hnew r a n M hm
        omega
    · obtain ⟨fsn, cs, pk, f, hm', ho, hn⟩ := hus u hu
      rw [ho.fsn] at h3
      rcases (hft.forward i fsn cs pk (List.mem_append_right _ hm')).2.2 r a n M hm k h1 h2 h3 with ⟨o1, b, rs, o2, e, _, x, hx, hk⟩ | k1
      · obtain ⟨d, hd, e'⟩ := hackop b rs (by rw [e]; simp)
        have hw := hft.wrote i r a n M hm
        exact hcov r a n M hm k h1 h2 (h.acked d hd k (by omega) ⟨x, by rw [e']; exact hx, hk⟩)
      · exact Or.inr k1

/-- the receiver takes a call -/
theorem SysInv.receiver {i : Nat} {f0 : RFlow} {user : RFlow → RFlow.Op → Prop} {w : Two} {ms : List (List Bytes)} (h : SysInv i f0 user w ms)
    {rop : RFlow.Op} {f' : RFlow} {ev' : List REv} (hok : FromWire w.wire user w.f rop) (hs : w.f.step rop = .ok (f', ev')) :
    SysInv i f0 user { w with rops := w.rops ++ [rop], f := f', revs := w.revs ++ ev' } ms := by
  have hrec : RFlow.Exec (FromWire w.wire user) f0 (w.rops ++ [rop]) f' (w.revs ++ ev') := .snoc h.recv hok hs
  by_cases hd : ∃ flags sn fsn data nm rc, rop = .data flags sn fsn data nm rc
  · obtain ⟨flags, sn, fsn, data, nm, rc, rfl⟩ := hd
    obtain ⟨_, _, u, hu, e1, e2, e3, _⟩ := hok
    have ec : chunksOf (w.rops ++ [RFlow.Op.data flags sn fsn data nm rc]) = chunksOf w.rops ++ [⟨flags, sn, fsn⟩] := by rw [chunksOf_append]; rfl
    refine ⟨h.exec, hrec, h.str, h.opened, h.sn, h.live, h.fin, h.abn, ?_, ?_, h.ackop, ?_⟩ <;> dsimp only <;> rw [ec]
    · intro v hv r a n M hm k h1 h2 h3
      exact (h.fwd v hv r a n M hm k h1 h2 h3).imp (fun x => (inTime_snoc _ _ _).mpr (Or.inl x)) id
    · intro d hd k h1 h2
      exact (covered_snoc _ _ _).mpr (Or.inr (Or.inr (h.acked d hd k h1 h2)))
    · intro r a n M hm k h1 h2 h3
      by_cases hc : Covered (chunksOf w.rops) k
      · exact (h.cov r a n M hm k h1 h2 hc).imp (fun x => (inTime_snoc _ _ _).mpr (Or.inl x)) id
      · rcases (covered_snoc _ _ _).mp h3 with h3 | h3 | h3
        · rw [← e3] at h3
          exact (h.fwd u hu r a n M hm k h1 h2 h3).imp (fun x => (inTime_snoc _ _ _).mpr (Or.inl x)) id
        · dsimp only at h3
          by_cases hb : flags &&& USERDATA_FLAG_ABN = 0
          · exact Or.inl ((inTime_snoc _ _ _).mpr (Or.inr ⟨h3, hb, hc⟩))
          · exact Or.inr (h.abn u hu (by rw [e1]; exact hb) r a n M hm (by omega) (by omega))
        · exact absurd h3 hc
  · have ec : chunksOf (w.rops ++ [rop]) = chunksOf w.rops := by
      rw [chunksOf_append]
      cases rop with
      | data flags sn fsn data nm rc => exact absurd ⟨_, _, _, _, _, _, rfl⟩ hd
      | _ => exact List.append_nil _
    refine ⟨h.exec, hrec, h.str, h.opened, h.sn, h.live, h.fin, h.abn, ?_, ?_, h.ackop, ?_⟩ <;> dsimp only <;> rw [ec]
    · exact h.fwd
    · exact h.acked
    · exact h.cov

/-- how the receiving flow came to be: no data before -/
def Untouched (f0 : RFlow) : Prop := ∃ ops ev, RFlow.Exec Op64 RFlow.init ops f0 ev ∧ chunksOf ops = []

theorem SysInv.op64 {i : Nat} {f0 : RFlow} {user : RFlow → RFlow.Op → Prop} {w : Two} {ms : List (List Bytes)} (h : SysInv i f0 user w ms) :
    RFlow.Exec Op64 f0 w.rops w.f w.revs := by
  refine h.recv.mono ?_
  intro f op hop
  cases op with
  | data flags sn fsn data nm rc =>
    obtain ⟨_, _, u, hu, _, e1, e2, _⟩ := hop
    have := h.sn u hu
    exact ⟨by omega, by omega⟩
  | _ => trivial

theorem sys_inv {i : Nat} {f0 : RFlow} (hf0 : Untouched f0) {user : RFlow → RFlow.Op → Prop} {w : Two} (h : Sys i f0 user w) : ∃ ms, SysInv i f0 user w ms := by
  induction h with
  | start =>
    refine ⟨[], .nil, .nil, StreamOf.nil i, ?_, ?_, ?_, ?_, ?_, ?_, ?_, ?_, ?_⟩ <;> simp
  | @send w op t es _ ha hs hna hnt ih =>
    obtain ⟨ms, ih⟩ := ih
    have := ih.sender ha hs [] (fun b rs e => absurd e (hna b rs)) (fun u hu => by cases hu)
    rw [List.append_nil] at this
    exact this
  | @transmit w p pri now gone t es us pos st _ ha hs hlim hfl hsn hus ih =>
    obtain ⟨ms, ih⟩ := ih
    refine ih.sender ha hs us (fun b rs e => by cases e) ?_
    intro u hu
    obtain ⟨fsn, cs, pk, hm, hu⟩ := hus u hu
    obtain ⟨f, hf⟩ := on_wire ih.exec ha hs hm hlim hfl hsn hu
    exact ⟨fsn, cs, pk, f, hm, hf, by rw [transmit_next ih.exec ha hs hm]; exact hsn⟩
  | @arrive w u nm rc f' ev' _ hu hnm huser hs ih =>
    obtain ⟨ms, ih⟩ := ih
    exact ⟨ms, ih.receiver ⟨huser, hnm, u, hu, rfl, rfl, rfl, rfl⟩ hs⟩
  | @«local» w rop f' ev' _ hnd huser hs ih =>
    obtain ⟨ms, ih⟩ := ih
    refine ⟨ms, ih.receiver ?_ hs⟩
    cases rop with
    | data flags sn fsn data nm rc => exact absurd rfl (hnd _ _ _ _ _ _)
    | _ => exact huser
  | @acknowledge w p flowId ecn tr q pos pad pl d _ hp hlim hid hasm hpad hpl hdec ih =>
    obtain ⟨ms, ih⟩ := ih
    refine ⟨ms, ih.exec, ih.recv, ih.str, ih.opened, ih.sn, ih.live, ih.fin, ih.abn, ih.fwd, ?_, ?_, ih.cov⟩
    · intro d' hd' k h1 h2
      rcases List.mem_append.mp hd' with hd' | hd'
      · exact ih.acked d' hd' k h1 h2
      · rw [List.mem_singleton] at hd'
        subst hd'
        obtain ⟨ops0, ev0, hx0, hc0⟩ := hf0
        have hx := hx0.trans ih.op64
        obtain ⟨bs, pl', d2, a1, a2, a3, _, _, _, a7, _⟩ := ack_sound hp hlim hx flowId hid ecn tr q hasm
        have hbs : q.toVector.drop p.cursor = bs := by
          rw [a1, List.drop_left' (by rw [PA.toVector, List.length_take]; have := hp.lim; have := hp.cur; omega)]
        rw [hbs, chunksIn, a2 pos pad hpad] at hpl
        have epl : pl = pl' := by
          rcases List.mem_append.mp hpl with hpl | hpl
          · exfalso
            unfold preamble at hpl
            cases ecn <;> by_cases hr : w.f.state = .rejected <;> simp [hr, CHUNK_ACK_RANGES] at hpl
          · rw [List.mem_singleton, Prod.mk.injEq] at hpl
            exact hpl.2
        rw [← epl, hdec] at a3
        cases a3
        obtain ⟨_, _, g3, _⟩ := RFlow.exec_seqs hx
        have := (g3 k).1 (a7 k h1 h2)
        rw [chunksOf_append, hc0, List.nil_append] at this
        exact this
    · intro b rs hm
      obtain ⟨d', hd', e⟩ := ih.ackop b rs hm
      exact ⟨d', List.mem_append_left _ hd', e⟩
  | @ack w d t es _ hd ha hs ih =>
    obtain ⟨ms, ih⟩ := ih
    have := ih.sender ha hs [] (fun b rs e => by cases e; exact ⟨d, hd, rfl⟩) (fun u hu => by cases hu)
    rw [List.append_nil] at this
    exact this

/-- the receiver's execution, as the theorems about receive flows want it -/
theorem SysInv.okOp {i : Nat} {f0 : RFlow} {user : RFlow → RFlow.Op → Prop} {w : Two} {ms : List (List Bytes)} (h : SysInv i f0 user w ms) :
    RFlow.Exec (OkOp (fragAt ms)) f0 w.rops w.f w.revs := by
  refine h.recv.mono ?_
  intro f op hop
  cases op with
  | data flags sn fsn data nm rc =>
    obtain ⟨_, h2, u, hu, e0, e1, e2, e3⟩ := hop
    have h3 := h.sn u hu
    refine ⟨by omega, by omega, h2, fun hb => ?_⟩
    rw [← e0] at hb
    rw [← e0, ← e1, ← e3]
    exact h.live u hu hb
  | _ => trivial

/-- a user who leaves the flow alone: nothing in callbacks, no closing, no change of the order; timers and deferred deliveries -/
def Idle (f : RFlow) : RFlow.Op → Prop
  | .data _ _ _ _ _ rc => rc = quiet
  | .deferredTry rc => rc = quiet
  | .probe => True
  | .ackSent => True
  | .setCapacity _ => True
  | .setWindowLimit _ => True
  | .setOnMerge _ => True
  | .lingerAlarm => f.state = .completeLinger
  | _ => False

theorem SysInv.okQuiet {i : Nat} {f0 : RFlow} {w : Two} {ms : List (List Bytes)} (h : SysInv i f0 Idle w ms) :
    RFlow.Exec (OkQuiet (fragAt ms) (stream ms).length) f0 w.rops w.f w.revs := by
  refine h.recv.mono ?_
  intro f op hop
  cases op with
  | data flags sn fsn data nm rc =>
    obtain ⟨h1, h2, u, hu, e0, e1, e2, e3⟩ := hop
    have h3 := h.sn u hu
    refine ⟨⟨by omega, by omega, h2, fun hb => ?_⟩, h1, fun hb => ?_⟩
    · rw [← e0] at hb
      rw [← e0, ← e1, ← e3]
      exact h.live u hu hb
    · rw [← e0] at hb
      have := (h.fin u hu hb).1
      omega
  | _ => exact hop

end Rtmfp
