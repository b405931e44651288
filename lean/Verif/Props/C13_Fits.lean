import Verif.Lemmas.SendLined
import Verif.Lemmas.SendDemo

/-! # C13 a fragment fits an empty packet; C63 the oldest fragments are sent first -/

namespace Rtmfp
namespace SS
open PA

/-- nothing sent: all is in flight, the receiver has no room, or a chunk doesn't fit -/
theorem fill_idle (c : Ctx) (q : List SFrag) : ∀ s : Fill, s.packet.Inv → s.first = true → (fill c s q).1.first = true →
    (∀ f ∈ q, f.inFlight = true) ∨ s.outstanding ≥ c.rxBuffer ∨
    ∃ f ∈ q, f.inFlight = false ∧ ∃ abn, s.packet.limit < s.packet.cursor + (putWire (chunkFor c true s.prevSn f abn)).length := by
  induction q with
  | nil => intro s _ _ _; exact Or.inl (by simp)
  | cons frag rest ih =>
    intro s hp hf
    rw [fill]
    by_cases h1 : s.outstanding ≥ c.rxBuffer
    · intro _; exact Or.inr (Or.inl h1)
    rw [if_neg h1]
    by_cases h2 : frag.inFlight = true
    · rw [if_pos h2]
      intro k
      rcases ih s hp hf k with a | a | ⟨f, a, b⟩
      · refine Or.inl fun f hf => ?_
        rcases List.mem_cons.mp hf with rfl | hf
        · exact h2
        · exact a f hf
      · exact Or.inr (Or.inl a)
      · exact Or.inr (Or.inr ⟨f, List.mem_cons_of_mem _ a, b⟩)
    rw [if_neg h2]
    dsimp only
    generalize (((beforeSend s.receipts frag c.now).1).r frag.receipt).isAbandoned = abn
    rw [hf]
    have hput := (putChunk_spec hp (chunkFor c true s.prevSn frag abn)).2.2
    by_cases h3 : (putChunk s.packet (chunkFor c true s.prevSn frag abn)).2 = false
    · intro _
      refine Or.inr (Or.inr ⟨frag, by simp, by simpa using h2, abn, ?_⟩)
      rw [← Nat.not_le]
      intro k
      rw [hput.mpr k] at h3; cases h3
    · rw [if_neg h3]
      intro k
      have hput2 := (putChunk_spec hp (chunkFor c true s.prevSn frag abn)).1 (by simpa using h3)
      generalize hs : (Fill.mk _ _ _ _ _ _ _ _ _ _) = t at *
      have ht : t.first = false := by rw [← hs]
      have htp : t.packet.Inv := by rw [← hs]; exact hput2.inv
      obtain ⟨_, _, _, _, _, _, g5⟩ := fill_puts c rest t htp
      have k' : (fill c t rest).1.first = true := k
      rw [g5, ht] at k'
      simp at k'

/-- what isn't in flight after sending is newer than what was sent -/
theorem Puts.older {c : Ctx} {R : RStore} {first : Bool} {prev : Nat} {q q' fs : List SFrag} {ps : List Put} (h : Puts c R first prev q q' fs ps) (hs : Sorted q) :
    ∀ p ∈ ps, ∀ y ∈ q', y.inFlight = false → p.sn < y.sn := by
  induction h with
  | done => intro p hp; cases hp
  | skip hin _ ih =>
    intro p hp y hy hf
    rcases List.mem_cons.mp hy with rfl | hy
    · rw [hin] at hf; cases hf
    · exact ih hs.of_cons p hp y hy hf
  | send hin _ h2 ih =>
    intro p hp y hy hf
    rcases List.mem_cons.mp hy with rfl | hy
    · cases hf
    · rcases List.mem_cons.mp hp with rfl | hp
      · obtain ⟨z, hz, e⟩ := h2.alikes.mem hy
        rw [e.sn]
        exact List.rel_of_pairwise_cons hs hz
      · exact ih hs.of_cons p hp y hy hf

/-- chunks are in the order of the fragments -/
theorem Puts.ascending {c : Ctx} {R : RStore} {first : Bool} {prev : Nat} {q q' fs : List SFrag} {ps : List Put} (h : Puts c R first prev q q' fs ps) (hs : Sorted q) :
    ps.Pairwise (fun a b => a.sn < b.sn) := by
  have hmem : ∀ {c R first prev q q' fs ps}, Puts c R first prev q q' fs ps → ∀ p ∈ ps, ∃ f ∈ q, p.sn = f.sn := by
    intro c R first prev q q' fs ps h
    induction h with
    | done => intro p hp; cases hp
    | skip _ _ ih => intro p hp; obtain ⟨f, a, b⟩ := ih p hp; exact ⟨f, List.mem_cons_of_mem _ a, b⟩
    | send _ _ _ ih =>
      intro p hp
      rcases List.mem_cons.mp hp with rfl | hp
      · exact ⟨_, List.mem_cons_self .., rfl⟩
      · obtain ⟨f, a, b⟩ := ih p hp; exact ⟨f, List.mem_cons_of_mem _ a, b⟩
  induction h with
  | done => exact List.Pairwise.nil
  | skip _ _ ih => exact ih hs.of_cons
  | send _ _ h2 ih =>
    refine List.pairwise_cons.mpr ⟨fun p hp => ?_, ih hs.of_cons⟩
    obtain ⟨f, hf, e⟩ := hmem h2 p hp
    rw [e]
    exact List.rel_of_pairwise_cons hs hf

/-- how long the chunk for a fragment is -/
theorem chunk_length {c : Ctx} {f : SFrag} (prev : Nat) (abn : Bool) (h : f.data.length + c.options.length ≤ 1161) :
    (putWire (chunkFor c true prev f abn)).length ≤
      1165 + ((VLU.encode c.flowId).length + (VLU.encode f.sn).length + (VLU.encode (sub64 f.sn c.fsn)).length) := by
  have hl : (putWire (chunkFor c true prev f abn)).length = (putPayload (chunkFor c true prev f abn)).length + 3 := PA.wire_length _ _
  rw [hl, putPayload, putHead]
  simp only [chunkFor, Bool.not_true, Bool.false_and, Bool.true_and, Bool.false_eq_true, if_false, List.length_cons, List.length_append]
  have h1 : ((if (!c.options.isEmpty) = true then c.options else []) : Bytes).length ≤ c.options.length := by split <;> simp
  have h2 : ((if abn = true then [] else f.data) : Bytes).length ≤ f.data.length := by split <;> simp
  omega

/-- a transmission that sends nothing, of a flow with data to send -/
theorem assembleData_idle {s : SS} {i : Nat} (hs : Sorted (s.flow i).queue) (hl : Lined (s.flow i)) {p : PA} (hp : p.Inv) (now : Int) (gone : Bool)
    (hidle : (s.assembleData i p (s.flow i).priority now gone).sent = false) :
    (s.flow i).queue = [] ∨ (s.flow i).rxBuffer ≤ (s.flow i).outstanding ∨
    (∀ f ∈ ((s.assembleData i p (s.flow i).priority now gone).s.flow i).queue, f.inFlight = true) ∨
    ∃ f ∈ (s.flow i).queue, f.inFlight = false ∧ ∃ c : Ctx, c.flowId = (s.flow i).flowId ∧ c.options.length ≤ (s.flow i).options.length ∧ c.fsn ≤ f.sn ∧
      ∃ abn, p.limit < p.cursor + (putWire (chunkFor c true 0 f abn)).length := by
  rw [assembleData] at hidle ⊢
  rw [if_neg (by simp)] at hidle ⊢
  by_cases h2 : isMaybeReady (s.flow i) = false
  · rw [isMaybeReady] at h2
    simp only [Bool.and_eq_false_iff, Bool.not_eq_false', List.isEmpty_iff, Bool.or_eq_false_iff, decide_eq_false_iff_not, Nat.not_lt] at h2
    rcases h2 with h | h
    · exact Or.inl h
    · exact Or.inr (Or.inl h.2)
  rw [if_neg h2] at hidle ⊢
  dsimp only at hidle ⊢
  have hne : (s.flow i).queue ≠ [] := by
    intro e
    apply h2
    simp [isMaybeReady, e]
  have htl := trim_lined s i now i hl
  obtain ⟨k, e1, e2, e3, e4⟩ := trimLoop_abandoned now (s.flow i).queue s.receipts
  have ht : (s.trim i now).1 = { s.setFlow i { s.flow i with queue := (s.flow i).queue.drop k } with receipts := (trimLoop now s.receipts (s.flow i).queue).1 } := by
    rw [trim]; dsimp only; rw [e1]
  rw [ht] at hidle htl ⊢
  generalize (trimLoop now s.receipts (s.flow i).queue).1 = r1 at *
  have hsort := drop_sorted hs k
  have hne' := e3 hne
  dsimp only [setFlow] at hidle htl ⊢
  simp only [if_pos trivial] at hidle htl ⊢
  have hsub : ∀ x ∈ (s.flow i).queue.drop k, x ∈ (s.flow i).queue := fun x hx => List.mem_of_mem_drop hx
  generalize hq : (s.flow i).queue.drop k = q at *
  obtain ⟨f1, f2⟩ := findForward_spec r1 now q
  have f3 := f2 hsort hne'
  generalize hw : findForward r1 now q = w at *
  have hd2 : (dropOptions { s.flow i with queue := q } gone).options.length ≤ (s.flow i).options.length := by
    rw [dropOptions]; split <;> simp
  obtain ⟨o, a, hd⟩ := dropOptions_eq { s.flow i with queue := q } gone
  rw [hd] at hidle hd2 ⊢
  dsimp only at hidle hd2 ⊢
  have hst := startAt_append (s.flow i).lastName q
  have hfl := startAt_flight htl
  dsimp only at hfl
  generalize (startAt (s.flow i).lastName q).1 = q0 at *
  generalize (startAt (s.flow i).lastName q).2 = q1 at *
  generalize hc : (Ctx.mk _ _ _ _ _ _ _ _) = c at *
  generalize hx : (Fill.mk _ _ _ _ _ _ _ _ _ _) = x at *
  have hxp : x.packet = p := by rw [← hx]
  have hxf : x.first = true := by rw [← hx]
  have hxs : x.prevSn = 0 := by rw [← hx]
  have hxo : x.outstanding = (s.flow i).outstanding := by rw [← hx]
  have hcr : c.rxBuffer = (s.flow i).rxBuffer := by rw [← hc]
  have hnames : q1.Pairwise (fun a b => a.name ≠ b.name) := by
    have := htl.names
    dsimp only at this
    rw [← hst] at this; exact (List.pairwise_append.mp this).2.1
  have hff : (fill c x q1).1.first = true := by simpa using hidle
  rcases fill_idle c q1 x (by rw [hxp]; exact hp) hxf hff with b | b | ⟨f, b, b1, abn, b2⟩
  · right; right; left
    intro f hf
    rcases fill_resume c q1 x hnames with ⟨_, d, _⟩ | ⟨d, _⟩
    · rw [d] at hf
      rcases List.mem_append.mp hf with hf | hf
      · exact hfl f hf
      · exact b f hf
    · rw [hff] at d; cases d
  · rw [hxo, hcr] at b; exact Or.inr (Or.inl b)
  · right; right; right
    have hfq : f ∈ q := by rw [← hst]; exact List.mem_append_right _ b
    rw [hxp, hxs] at b2
    refine ⟨f, hsub f hfq, b1, c, by rw [← hc], by rw [← hc]; exact hd2, ?_, abn, b2⟩
    rw [← hc]
    exact (f3 f hfq).1

end SS

open SS

/-- C13. A flow is asked for data of its priority for a packet that is empty but for its header (of at most five bytes, after the front margin of the encryption).
It sends something, unless it has nothing, the receiver has no room, or everything left in its queue is in flight: no fragment is ever too large.
Missing for the full claim: flow ids and sequence numbers from 2^42 on, and front margins above 12 (the largest of the encryption of FlashCryptoAdapter): with both
large, a fragment of full size doesn't fit (`C13_huge_numbers_stuck`). -/
theorem C13_never_stuck_partial {ops : List Op} {s : SS} {evs : List Ev} (h : Exec ops s evs) (i : Nat) {buf : Bytes} {fm : Nat} {flags : UInt8} {ts tse : Option Nat}
    (now : Int) (gone : Bool) {t : SS} {es : List Ev}
    (hbuf : 1200 ≤ buf.length) (hfm : fm ≤ 12) (hid : (s.flow i).flowId < 2 ^ 42) (hsn : (s.flow i).nextSn ≤ 2 ^ 42)
    (hs : step s (.transmit i (PA.initHeader buf fm 1200 flags ts tse) (s.flow i).priority now gone) = some (t, es)) :
    (∃ fsn cs P, Ev.sent i fsn cs P ∈ es) ∨ (s.flow i).queue = [] ∨ (s.flow i).rxBuffer ≤ (s.flow i).outstanding ∨
    ∀ f ∈ (t.flow i).queue, f.inFlight = true := by
  obtain ⟨i1, i2, i3, i4, i5, i6, i7, i8, i9⟩ := PA.initHeader_inv buf fm 1200 flags ts tse (by omega) hbuf (by omega)
  rw [step] at hs
  simp only [sentRes, Option.some.injEq, Prod.mk.injEq] at hs
  by_cases hsent : (s.assembleData i (PA.initHeader buf fm 1200 flags ts tse) (s.flow i).priority now gone).sent = true
  · left
    rw [← hs.2, hsent]
    exact ⟨_, _, _, List.mem_append_right _ (by rw [if_pos rfl]; exact List.mem_singleton.mpr rfl)⟩
  · right
    have hsent' := Bool.eq_false_iff.mpr hsent
    have hok := ((exec_books h).flow i).ok
    have hl := exec_lined h i
    rcases assembleData_idle hok.sorted hl i1 now gone hsent' with a | a | a | ⟨f, hf, _, c, c1, c2, c3, abn, c4⟩
    · exact Or.inl a
    · exact Or.inr (Or.inl a)
    · right; right
      rw [← hs.1, hsent', afterSend]
      exact a
    · exfalso
      have hcur : (PA.initHeader buf fm 1200 flags ts tse).cursor ≤ fm + 5 := by
        have e := congrArg List.length i9
        have l1 := PA.tsBytes_length ts
        have l2 := PA.tsBytes_length tse
        have l3 := i1.cur; have l4 := i1.lim
        simp only [PA.toVector, List.length_take, List.length_append, List.length_cons] at e
        omega
      have hr := hok.range f hf
      have hoff : sub64 f.sn c.fsn < 2 ^ 42 := by rw [sub64_le c3 (by omega)]; omega
      have b1 := encode_length_bound 5 c.flowId (by rw [c1]; exact hid)
      have b2 := encode_length_bound 5 f.sn (by have : (128 : Nat) ^ (5 + 1) = 2 ^ 42 := by decide
                                                omega)
      have b3 := encode_length_bound 5 (sub64 f.sn c.fsn) hoff
      have hroom := hl.room f hf
      have hlen := chunk_length (c := c) (f := f) 0 abn (by omega)
      rw [i3] at c4
      omega

/-- the packet of the examples -/
def sessionPacket : PA := PA.initHeader (List.replicate 1200 0) 12 1200 0 (some 5) (some 7)

example : ∃ t es, step (demo 5).1 (.transmit 0 sessionPacket ((demo 5).1.flow 0).priority 1 false) = some (t, es) ∧
    ((demo 5).1.flow 0).flowId < 2 ^ 42 ∧ ((demo 5).1.flow 0).nextSn ≤ 2 ^ 42 ∧ ((demo 5).1.flow 0).queue ≠ [] := by
  exact ⟨_, _, rfl, by decide +kernel, by decide +kernel, by decide +kernel⟩

/-- C13 in the extreme: with a flow id and sequence numbers of ten bytes and the largest front margin, a fragment as `write` makes them (1161 bytes) doesn't fit a packet
that contains nothing else. -/
theorem C13_huge_numbers_stuck : ∃ (c : Ctx) (f : SFrag), f.data.length = 1161 ∧ f.sn < 2 ^ 64 ∧ c.flowId < 2 ^ 64 ∧ c.fsn ≤ f.sn ∧
    (putChunk sessionPacket (chunkFor c true 0 f false)).2 = false := by
  refine ⟨⟨0, 2 ^ 63, 0, 0, [], 65536, 0, 1⟩, SFrag.new 1 (2 ^ 63) .whole (List.replicate 1161 0) 1, List.length_replicate, by decide, by decide, Nat.zero_le _, ?_⟩
  obtain ⟨i1, i2, i3, i4, i5, i6, i7, i8, i9⟩ := PA.initHeader_inv (List.replicate 1200 0) 12 1200 0 (some 5) (some 7) (by omega) (by rw [List.length_replicate]; exact Nat.le_refl _) (by omega)
  have hput := (putChunk_spec i1 (chunkFor ⟨0, 2 ^ 63, 0, 0, [], 65536, 0, 1⟩ true 0 (SFrag.new 1 (2 ^ 63) .whole (List.replicate 1161 0) 1) false)).2.2
  rw [sessionPacket, Bool.eq_false_iff]
  intro k
  have k2 := hput.mp k
  rw [i3] at k2
  have hcur : (PA.initHeader (List.replicate 1200 0) 12 1200 0 (some 5) (some 7)).cursor = 17 := by
    have e := congrArg List.length i9
    have l1 := PA.tsBytes_length (some 5)
    have l3 := i1.cur; have l4 := i1.lim
    simp only [PA.toVector, List.length_take, List.length_append, List.length_cons, PA.tsBytes, PA.be16_length, List.length_replicate] at e
    omega
  have hl : ∀ c, (putWire c).length = (putPayload c).length + 3 := fun c => PA.wire_length _ _
  rw [hcur, hl, putPayload, putHead] at k2
  have he : (VLU.encode (2 ^ 63)).length = 10 := by
    rw [show VLU.encode (2 ^ 63) = [0x81, 0x80, 0x80, 0x80, 0x80, 0x80, 0x80, 0x80, 0x80, 0] from by
      rw [VLU.encode, show (2 : Nat) ^ 63 + 1 = (2 ^ 63 - 9) + 10 from rfl]; rfl]
    rfl
  simp only [chunkFor, SFrag.new, Bool.not_true, Bool.false_and, Bool.true_and, Bool.false_eq_true, if_false, List.length_cons, List.length_append, he,
    List.length_replicate] at k2
  omega

/-- C63. Whatever was sent in a packet, nothing older is left waiting: every fragment of the flow that isn't in flight is newer than all that was sent. -/
theorem C63_oldest_first {ops : List Op} {s : SS} {evs : List Ev} (h : Exec ops s evs) {op : Op} (ha : Allowed ops s op) {t : SS} {es : List Ev}
    (hs : step s op = some (t, es)) {i fsn : Nat} {cs : List Put} {P : PA} (hsent : Ev.sent i fsn cs P ∈ es) :
    (∀ c ∈ cs, ∀ f ∈ (t.flow i).queue, f.inFlight = false → c.sn < f.sn) ∧ cs.Pairwise (fun a b => a.sn < b.sn) := by
  obtain ⟨p, pri, now, gone, rfl, h1, h2, h3, h4, h5⟩ := sent_step hs hsent
  have hok := ((exec_books h).flow i).ok
  obtain ⟨c, q0, q1, q1', fs, ps, P', A⟩ := assembleData_spec hok.sorted ha.2 pri now gone h1
  obtain ⟨k, hk, _⟩ := A.before
  have hsort : Sorted (q0 ++ q1) := by rw [hk]; exact drop_sorted hok.sorted k
  have hq1 : Sorted q1 := (List.pairwise_append.mp hsort).2.1
  have hl : Lined { s.flow i with queue := q0 ++ q1 } :=
    lined_sub (exec_lined h i) (by rw [hk]; exact List.drop_sublist k _) rfl (Nat.le_refl _)
  have hfl := startAt_flight hl
  rw [h4, A.chunks]
  refine ⟨fun x hx f hf hfin => ?_, A.puts.ascending hq1⟩
  have hft : (t.flow i).queue = q0 ++ q1' := by rw [h2]; exact A.queue
  rw [hft] at hf
  rcases List.mem_append.mp hf with hf | hf
  · have := hfl f (by show f ∈ (startAt (s.flow i).lastName (q0 ++ q1)).1; rw [A.start]; exact hf)
    rw [this] at hfin; cases hfin
  · exact A.puts.older hq1 x hx f hf hfin

example : ∃ t es fsn cs P, step (demo 5).1 (.transmit 0 demoPacket 3 1 false) = some (t, es) ∧ Ev.sent 0 fsn cs P ∈ es ∧ 1 < cs.length :=
  ⟨_, _, _, _, _, rfl, List.mem_of_getElem? (i := 0) rfl, by decide +kernel⟩

end Rtmfp
