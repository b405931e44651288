import Verif.Lemmas.SendChunks
import Verif.Lemmas.SendEvolve

/-! # All of `assembleData` -/

namespace Rtmfp
namespace SS
open PA

theorem trimLoop_abandoned (now : Int) (q : List SFrag) : ∀ r, ∃ k, (trimLoop now r q).2.1 = q.drop k ∧ Mono r (trimLoop now r q).1 ∧
    (q ≠ [] → q.drop k ≠ []) ∧
    ∀ f ∈ q.take k, f.inFlight = false ∧ ((trimLoop now r q).1.r f.receipt).abandoned = true := by
  induction q with
  | nil => intro r; exact ⟨0, rfl, Mono.refl _, by simp, by simp⟩
  | cons a q ih =>
    intro r
    cases q with
    | nil => exact ⟨0, rfl, Mono.refl _, by simp, by simp⟩
    | cons b q =>
      rw [trimLoop]
      by_cases h1 : a.inFlight = true
      · rw [if_pos h1]; exact ⟨0, rfl, Mono.refl _, by simp, by simp⟩
      · rw [if_neg h1]
        dsimp only
        have m1 := abandonDue_mono r a.receipt now
        by_cases h2 : ((r.abandonDue a.receipt now).1.r a.receipt).isAbandoned = false
        · rw [if_pos h2]; exact ⟨0, rfl, m1, by simp, by simp⟩
        · rw [if_neg h2]
          have m2 := countDown_mono (r.abandonDue a.receipt now).1 a.receipt
          obtain ⟨k, e, hm, hne, hk⟩ := ih (((r.abandonDue a.receipt now).1).countDown a.receipt).1
          refine ⟨k + 1, ?_, (m1.trans m2).trans hm, ?_, ?_⟩
          · rw [e]; rfl
          · intro _; exact hne (by simp)
          · intro f hf
            rw [List.take_succ_cons] at hf
            rcases List.mem_cons.mp hf with rfl | hf
            · exact ⟨by simpa using h1, hm _ (m2 _ (by simpa [Receipt.isAbandoned] using h2))⟩
            · exact hk f hf

theorem findForward_spec (r : RStore) (now : Int) (q : List SFrag) : Mono r (findForward r now q).1 ∧ (Sorted q → q ≠ [] →
    ∀ f ∈ q, (findForward r now q).2.1 ≤ f.sn ∧ ((findForward r now q).2.1 = f.sn → 1 ≤ f.sn → ((findForward r now q).1.r f.receipt).abandoned = true)) := by
  cases q with
  | nil => exact ⟨Mono.refl _, fun _ h => absurd rfl h⟩
  | cons first q =>
    rw [findForward]
    dsimp only
    have hm : Mono r (if first.inFlight = true then (r, []) else r.abandonDue first.receipt now).1 := by
      split
      · exact Mono.refl _
      · exact abandonDue_mono _ _ _
    generalize (if first.inFlight = true then (r, []) else r.abandonDue first.receipt now) = x at hm ⊢
    refine ⟨hm, fun hs _ => ?_⟩
    rw [Sorted, List.pairwise_cons] at hs
    have hle : (if (x.1.r first.receipt).isAbandoned = false then first.sn - 1 else if first.inFlight = true ∧ first.sentAbandoned = false then first.sn - 1 else first.sn) ≤ first.sn := by
      split
      · omega
      · split <;> omega
    intro f hf
    rcases List.mem_cons.mp hf with rfl | hf
    · refine ⟨hle, ?_⟩
      intro e hp
      by_cases hab : (x.1.r f.receipt).isAbandoned = false
      · rw [if_pos hab] at e; omega
      · simpa [Receipt.isAbandoned] using hab
    · have := hs.1 f hf
      exact ⟨by omega, fun e => by omega⟩

/-- everything about a packet to which data was added for flow `i` -/
structure SentAs (s : SS) (i : Nat) (p : PA) (A : Assembled) (c : Ctx) (q0 q1 q1' fs : List SFrag) (ps : List Put) (P : PA) : Prop where
  flow : c.flow = i
  id : c.flowId = (s.flow i).flowId
  fsn : c.fsn = A.fsn
  tsn : c.tsn = s.nextTsn
  fin : c.finalSn = (A.s.flow i).finalSn
  opts : c.options = (A.s.flow i).options
  queue : (A.s.flow i).queue = q0 ++ q1'
  puts : Puts c A.s.receipts true 0 q1 q1' fs ps
  chunks : A.chunks = ps
  added : Added p P (ps.flatMap putWire)
  packet : A.packet = timeCritical P true (s.flow i).priority
  ne : ps ≠ []
  before : ∃ k, q0 ++ q1 = (s.flow i).queue.drop k ∧ ∀ f ∈ (s.flow i).queue.take k, f.inFlight = false ∧ (A.s.receipts.r f.receipt).abandoned = true
  forward : ∀ f ∈ q0 ++ q1, A.fsn ≤ f.sn ∧ (A.fsn = f.sn → 1 ≤ f.sn → (A.s.receipts.r f.receipt).abandoned = true)
  outs : A.s.outs = s.outs ++ fs.map (refOf i)
  next : (A.s.flow i).nextSn = (s.flow i).nextSn
  start : startAt (s.flow i).lastName (q0 ++ q1) = (q0, q1)

theorem drop_sorted {q : List SFrag} (h : Sorted q) (k : Nat) : Sorted (q.drop k) := List.Pairwise.sublist (List.drop_sublist k q) h

theorem assembleData_spec {s : SS} {i : Nat} (hs : Sorted (s.flow i).queue) {p : PA} (hp : p.Inv) (pri : Nat) (now : Int) (gone : Bool)
    (hsent : (s.assembleData i p pri now gone).sent = true) :
    ∃ c q0 q1 q1' fs ps P, SentAs s i p (s.assembleData i p pri now gone) c q0 q1 q1' fs ps P := by
  rw [assembleData] at hsent ⊢
  by_cases h1 : pri ≠ (s.flow i).priority
  · rw [if_pos h1] at hsent; cases hsent
  rw [if_neg h1] at hsent ⊢
  by_cases h2 : isMaybeReady (s.flow i) = false
  · rw [if_pos h2] at hsent; cases hsent
  rw [if_neg h2] at hsent ⊢
  dsimp only at hsent ⊢
  have hne : (s.flow i).queue ≠ [] := by
    intro e
    apply h2
    simp [isMaybeReady, e]
  obtain ⟨k, e1, e2, e3, e4⟩ := trimLoop_abandoned now (s.flow i).queue s.receipts
  have ht : (s.trim i now).1 = { s.setFlow i { s.flow i with queue := (s.flow i).queue.drop k } with receipts := (trimLoop now s.receipts (s.flow i).queue).1 } := by
    rw [trim]; dsimp only; rw [e1]
  rw [ht] at hsent ⊢
  generalize (trimLoop now s.receipts (s.flow i).queue).1 = r1 at *
  have hsort := drop_sorted hs k
  have hne' := e3 hne
  dsimp only [setFlow] at hsent ⊢
  simp only [if_pos trivial] at hsent ⊢
  generalize hq : (s.flow i).queue.drop k = q at *
  obtain ⟨f1, f2⟩ := findForward_spec r1 now q
  have f3 := f2 hsort hne'
  generalize hw : findForward r1 now q = w at *
  obtain ⟨o, a, hd⟩ := dropOptions_eq { s.flow i with queue := q } gone
  rw [hd] at hsent ⊢
  dsimp only at hsent ⊢
  have hst := startAt_append (s.flow i).lastName q
  generalize hq0 : (startAt (s.flow i).lastName q).1 = q0 at *
  generalize hq1 : (startAt (s.flow i).lastName q).2 = q1 at *
  generalize hc : (Ctx.mk _ _ _ _ _ _ _ _) = c at *
  generalize hx : (Fill.mk _ _ _ _ _ _ _ _ _ _) = x at *
  have hxp : x.packet = p := by rw [← hx]
  have hxf : x.first = true := by rw [← hx]
  have hxs : x.prevSn = 0 := by rw [← hx]
  have hxr : x.receipts = w.1 := by rw [← hx]
  have hxo : x.outs = s.outs := by rw [← hx]
  have hxc : x.chunks = [] := by rw [← hx]
  have hm := fill_mono c q1 x
  obtain ⟨fs, ps, g1, g2, g3, g4, g5⟩ := fill_puts c q1 x (by rw [hxp]; exact hp)
  rw [hxf, hxs] at g1
  rw [hxp] at g3
  rw [hxo] at g4
  rw [hxc, List.nil_append] at g2
  rw [hxf, Bool.true_and] at g5
  have hps : ps ≠ [] := by
    intro e
    rw [g5, e] at hsent
    simp at hsent
  rw [hxr] at hm
  refine ⟨c, q0, q1, (fill c x q1).2, fs, ps, (fill c x q1).1.packet, ?_⟩
  constructor
  · rw [← hc]
  · rw [← hc]
  · rw [← hc]
  · rw [← hc]
  · rw [← hc]; simp
  · rw [← hc]; simp
  · simp
  · exact g1
  · exact g2
  · exact g3
  · dsimp only
    rw [hsent]
  · exact hps
  · refine ⟨k, by rw [hst, hq], fun f hf => ⟨(e4 f hf).1, hm _ (f1 _ (e4 f hf).2)⟩⟩
  · intro f hf
    rw [hst] at hf
    obtain ⟨b1, b2⟩ := f3 f hf
    exact ⟨b1, fun e h => hm _ (b2 e h)⟩
  · rw [g4, ← hc]
  · simp
  · rw [hst]; exact Prod.ext hq0 hq1

theorem timeCritical_cursor (P : PA) (b : Bool) (pri : Nat) : (timeCritical P b pri).cursor = P.cursor := by
  rw [timeCritical]
  split
  · cases hf : P.flags with
    | none => simp [setTimeCriticalFlag, hf]
    | some j => simp [setTimeCriticalFlag, hf]
  · rfl

/-- the flag is in the header of the packet -/
theorem timeCritical_drop (P : PA) (b : Bool) (pri n : Nat) (h : ∀ j, P.flags = some j → j < n) :
    (timeCritical P b pri).toVector.drop n = P.toVector.drop n := by
  rw [timeCritical]
  split
  · cases hf : P.flags with
    | none => simp [setTimeCriticalFlag, hf]
    | some j =>
      have hj := h j hf
      simp only [setTimeCriticalFlag, hf, Option.getD_some, toVector]
      apply List.ext_getElem?
      intro m
      simp only [List.getElem?_drop, List.getElem?_take, List.getElem?_set]
      split
      · rw [if_neg (by omega)]
      · rfl
  · rfl

/-! ## what is sent -/

theorem Puts.sublist {c : Ctx} {R : RStore} {first : Bool} {prev : Nat} {q q' fs : List SFrag} {ps : List Put} (h : Puts c R first prev q q' fs ps) :
    fs.Sublist q' := by
  induction h with
  | done => exact List.nil_sublist _
  | skip _ _ ih => exact ih.cons _
  | send _ _ _ ih => exact ih.cons_cons _

theorem Puts.length {c : Ctx} {R : RStore} {first : Bool} {prev : Nat} {q q' fs : List SFrag} {ps : List Put} (h : Puts c R first prev q q' fs ps) :
    fs.length = ps.length := by
  induction h with
  | done => rfl
  | skip _ _ ih => exact ih
  | send _ _ _ ih => simp [ih]

/-- each fragment sent comes from one that waited -/
theorem Puts.mem {c : Ctx} {R : RStore} {first : Bool} {prev : Nat} {q q' fs : List SFrag} {ps : List Put} (h : Puts c R first prev q q' fs ps) :
    ∀ f ∈ fs, f.inFlight = true ∧ f.tsn = c.tsn ∧ f.everSent = true ∧ (f.sentAbandoned = true → (R.r f.receipt).abandoned = true) ∧
      ∃ g ∈ q, g.inFlight = false ∧ g.sn = f.sn ∧ g.fra = f.fra ∧ g.data = f.data ∧ g.receipt = f.receipt := by
  induction h with
  | done => intro f hf; cases hf
  | skip _ _ ih =>
    intro f hf
    obtain ⟨a1, a2, a3, a4, g, hg, a5⟩ := ih f hf
    exact ⟨a1, a2, a3, a4, g, by simp [hg], a5⟩
  | @send first prev frag rest rest' fs ps abn hi ha hr ih =>
    intro f hf
    rcases List.mem_cons.mp hf with rfl | hf
    · exact ⟨rfl, rfl, rfl, ha, frag, by simp, hi, rfl, rfl, rfl, rfl⟩
    · obtain ⟨a1, a2, a3, a4, g, hg, a5⟩ := ih f hf
      exact ⟨a1, a2, a3, a4, g, by simp [hg], a5⟩

/-- sizes are those of the chunks -/
theorem Puts.sizes {c : Ctx} {R : RStore} {first : Bool} {prev : Nat} {q q' fs : List SFrag} {ps : List Put} (h : Puts c R first prev q q' fs ps) :
    flight q' = flight q + (ps.flatMap putWire).length := by
  induction h with
  | done => simp
  | @skip first prev frag rest rest' fs ps hi _ ih =>
    rw [show frag :: rest' = [frag] ++ rest' from rfl, show frag :: rest = [frag] ++ rest from rfl, flight_append, flight_append, ih]; omega
  | @send first prev frag rest rest' fs ps abn hi ha hr ih =>
    generalize hF : sentFrag c frag abn _ = F
    have hf1 : F.inFlight = true := by rw [← hF]; rfl
    have hf2 : F.size = (putWire (chunkFor c first prev frag abn)).length := by rw [← hF]; rfl
    rw [show F :: rest' = [F] ++ rest' from rfl, show frag :: rest = [frag] ++ rest from rfl, flight_append, flight_append, ih, List.flatMap_cons, List.length_append]
    simp only [flight, List.filter_cons, hf1, hi, hf2]
    simp
    omega

/-! ## how it is read -/

theorem parse_wires (ps : List Put) (hlen : ∀ c ∈ ps, (putPayload c).length < 65536) : ∀ pos,
    (parseChunks pos (ps.flatMap putWire)).map (fun c => (c.type, c.payload)) = ps.map (fun c => (putType c, putPayload c)) := by
  induction ps with
  | nil => intro pos; rw [List.flatMap_nil, parseChunks]; rfl; intros; simp_all
  | cons c ps ih =>
    intro pos
    have hv := be16_value _ (hlen c (by simp))
    simp only [List.flatMap_cons, putWire, PA.wire, PA.be16, List.cons_append, List.append_assoc, List.nil_append]
    rw [parseChunks, hv, if_neg (by simp)]
    simp only [List.map_cons, List.take_left, List.drop_left]
    congr 1
    exact ih (fun c' hc' => hlen c' (by simp [hc'])) _

/-- `u` is what is read for the fragment `f` when the options read are `o` -/
structure ReadAs (c : Ctx) (o : OptState) (u : UserData) (f : SFrag) : Prop where
  flow : u.flowId = c.flowId
  sn : u.sn = f.sn
  fsn : u.fsn = c.fsn
  data : u.data = if f.sentAbandoned then [] else f.data
  flags : ∃ opt, u.flags = chunkFlags opt f.fra f.sentAbandoned (decide (f.sn = c.finalSn))
  assoc : u.assoc = o.assoc
  metadata : u.metadata = o.metadata
  ok : u.mustReject = o.mustReject

/-- what all chunks are read as; only the first has options -/
inductive Reads (c : Ctx) (o : OptState) : Bool → List UserData → List SFrag → Prop
  | nil {first} : Reads c o first [] []
  | cons {first u us f fs} : ReadAs c (if first then o else ⟨none, none, false⟩) u f → Reads c o false us fs → Reads c o first (u :: us) (f :: fs)

theorem sub64_eq {a b : Nat} (h1 : b ≤ a) (h2 : a < 2 ^ 64) : sub64 a b = a - b := sub64_le h1 h2

theorem Puts.reads {c : Ctx} {R : RStore} {o : OptState} (hid : c.flowId < 2 ^ 64) (ho : c.options = [] → o = ⟨none, none, false⟩)
    (hopt : c.options ≠ [] → ∀ rest, parseOptions ((c.options ++ rest).length + 1) ⟨none, none, false⟩ (c.options ++ rest) = some (o, rest))
    {first : Bool} {prev : Nat} {q q' fs : List SFrag} {ps : List Put} (h : Puts c R first prev q q' fs ps) :
    (∀ f ∈ q, f.sn < 2 ^ 64 ∧ c.fsn ≤ f.sn) → ∀ st : Parsing, (first = false → st.seen = true ∧ st.flowId = c.flowId ∧ st.sn = prev ∧ st.fsn = c.fsn) →
    Reads c o first (userDatas st (ps.map (fun c => (putType c, putPayload c)))) fs := by
  induction h with
  | done => intro _ st _; exact .nil
  | skip _ _ ih => intro hq st hst; exact ih (fun f hf => hq f (by simp [hf])) st hst
  | @send first prev frag rest rest' fs ps abn hi ha hr ih =>
    intro hq st hst
    obtain ⟨h1, h2⟩ := hq frag (by simp)
    generalize hO : (if first then o else (⟨none, none, false⟩ : OptState)) = O
    have hpar : parseUserData st (putType (chunkFor c first prev frag abn)) (putPayload (chunkFor c first prev frag abn)) =
        some (readAs (chunkFor c first prev frag abn) c.fsn O) := by
      refine parse_put hid h1 ?_ h2 ?_ ?_
      · show sub64 frag.sn c.fsn = frag.sn - c.fsn
        exact sub64_eq h2 h1
      · intro hn
        have hn' : (!first && decide (frag.sn = prev + 1)) = true := hn
        simp only [Bool.and_eq_true, Bool.not_eq_true', decide_eq_true_eq] at hn'
        obtain ⟨a1, a2, a3, a4⟩ := hst hn'.1
        refine ⟨a1, a2, ?_, a4⟩
        show st.sn + 1 = frag.sn
        omega
      · have hfl : (chunkFor c first prev frag abn).flags = chunkFlags (first && !c.options.isEmpty) frag.fra abn (decide (frag.sn = c.finalSn)) := rfl
        have hop : (chunkFor c first prev frag abn).options = if (first && !c.options.isEmpty) = true then c.options else [] := rfl
        rw [optionsIf, hfl, hop]
        by_cases hb : (first && !c.options.isEmpty) = true
        · rw [if_pos ((flag_opt _ _ _ _).mpr hb), if_pos hb]
          simp only [Bool.and_eq_true] at hb
          have hne : c.options ≠ [] := by simpa using hb.2
          rw [hopt hne, ← hO, if_pos hb.1]
        · rw [if_neg (fun k => hb ((flag_opt _ _ _ _).mp k)), if_neg hb, List.nil_append]
          congr 2
          rw [← hO]
          by_cases hf : first = true
          · rw [if_pos hf]
            rw [ho]
            simpa [hf] using hb
          · rw [if_neg hf]
    have htype : putType (chunkFor c first prev frag abn) = CHUNK_USERDATA ∨ putType (chunkFor c first prev frag abn) = CHUNK_NEXT_USERDATA := by
      rw [putType]; split
      · exact Or.inr rfl
      · exact Or.inl rfl
    rw [List.map_cons, userDatas, if_pos htype, hpar]
    simp only [Option.toList_some, List.cons_append, List.nil_append]
    refine .cons ?_ ?_
    · rw [hO]
      refine ⟨rfl, rfl, rfl, ?_, ⟨_, rfl⟩, rfl, rfl, rfl⟩
      rfl
    · exact ih (fun f hf => hq f (by simp [hf])) _ (fun _ => ⟨rfl, rfl, rfl, rfl⟩)

end SS
end Rtmfp
