import Verif.Lemmas.SendExec
import Verif.Props.C11_WriteReceipt

/-! # Data chunks made by `assembleData` and how they are read -/

namespace Rtmfp
namespace SS
open PA

/-! ## reading -/

theorem fullHeader_put (fid sn off : Nat) (h1 : fid < 2 ^ 64) (h2 : sn < 2 ^ 64) (h3 : off ≤ sn) (rest : Bytes) :
    fullHeader (VLU.encode fid ++ (VLU.encode sn ++ VLU.encode off) ++ rest) = some ((fid, sn, sn - off), rest) := by
  have e1 := parse_encode fid (VLU.encode sn ++ VLU.encode off ++ rest) true h1
  have e2 := parse_encode sn (VLU.encode off ++ rest) true h2
  have e3 := parse_encode off rest true (by omega)
  simp only [fullHeader, List.append_assoc] at *
  rw [e1]
  simp only [List.drop_left]
  rw [e2]
  simp only [List.drop_left]
  rw [e3]
  simp only [List.drop_left]
  rw [if_neg (by omega)]

theorem parseOptions_step (fuel : Nat) (o : OptState) (t : Nat) (v rest : Bytes) (ht : t < 2 ^ 64) (hv : v.length + 10 < 2 ^ 64) :
    parseOptions (fuel + 1) o (Opt.append t v [] ++ rest) = (o.take t v).bind (fun o => parseOptions fuel o rest) := by
  have h := C03_option_round_trip (.typed t v) ⟨ht, hv⟩ rest
  simp only [appendOpt, reportOpt] at h
  rw [parseOptions, h]
  simp only [List.drop_left]
  cases o.take t v <;> rfl

theorem parseOptions_marker (fuel : Nat) (o : OptState) (rest : Bytes) :
    parseOptions (fuel + 1) o (Opt.appendMarker [] ++ rest) = some (o, rest) := by
  have h := C03_option_round_trip .marker trivial rest
  simp only [appendOpt, reportOpt] at h
  rw [parseOptions, h]
  simp only [List.drop_left]

theorem startupOptions_eq (m : Bytes) (a : Option Nat) : startupOptions m a =
    Opt.append USERDATA_OPTION_METADATA m [] ++ ((match a with | none => [] | some id => Opt.append USERDATA_OPTION_RETURN_ASSOCIATION (VLU.encode id) []) ++
      Opt.appendMarker []) := by
  cases a <;> simp [startupOptions, assocOption, Opt.appendMarker, VLU.append, Opt.append, Opt.appendVLU]

theorem append_pos (t : Nat) (v : Bytes) : 1 ≤ (Opt.append t v []).length := appendOpt_pos (.typed t v)

theorem startup_parse (m : Bytes) (a : Option Nat) (hm : m.length ≤ MAX_METADATA_LENGTH) (ha : ∀ id, a = some id → id < 2 ^ 64) (rest : Bytes) :
    parseOptions ((startupOptions m a ++ rest).length + 1) ⟨none, none, false⟩ (startupOptions m a ++ rest) = some (⟨a, some m, false⟩, rest) := by
  have hm' : m.length ≤ 512 := hm
  rw [startupOptions_eq]
  have hp := append_pos USERDATA_OPTION_METADATA m
  generalize hn : (Opt.append USERDATA_OPTION_METADATA m [] ++ _ ++ rest).length = n
  rw [List.length_append, List.length_append] at hn
  rw [List.append_assoc, parseOptions_step _ _ _ _ _ (by decide) (by omega)]
  rw [OptState.take, if_pos rfl]
  simp only [Option.bind_some]
  obtain ⟨k, rfl⟩ : ∃ k, n = k + 1 := ⟨n - 1, by omega⟩
  cases a with
  | none =>
    rw [List.nil_append, parseOptions_marker]
  | some id =>
    have hi := ha id rfl
    have hlen := encode_length_le id hi
    dsimp only at hn ⊢
    rw [List.append_assoc, parseOptions_step _ _ _ _ _ (by decide) (by omega)]
    have hp2 := append_pos USERDATA_OPTION_RETURN_ASSOCIATION (VLU.encode id)
    rw [List.length_append] at hn
    obtain ⟨j, rfl⟩ : ∃ j, k = j + 1 := ⟨k - 1, by omega⟩
    have e := parse_encode id [] true hi
    rw [List.append_nil] at e
    rw [OptState.take, if_neg (by decide), if_pos rfl, e]
    simp only [Option.map_some, Option.bind_some]
    rw [parseOptions_marker]

theorem flag_opt (opt : Bool) (fra : Fra) (abn fin : Bool) : (chunkFlags opt fra abn fin &&& USERDATA_FLAG_OPT ≠ 0) ↔ opt = true := by
  cases opt <;> cases fra <;> cases abn <;> cases fin <;> decide

/-- what a chunk is read as -/
def readAs (c : Put) (fsn : Nat) (o : OptState) : UserData := ⟨c.flags, c.flowId, c.sn, fsn, o.assoc, o.metadata, c.data, o.mustReject⟩

/-- what the options are read as -/
theorem parse_put {st : Parsing} {c : Put} {fsn : Nat} {o : OptState}
    (hfid : c.flowId < 2 ^ 64) (hsn : c.sn < 2 ^ 64) (hoff : c.off = c.sn - fsn) (hfsn : fsn ≤ c.sn)
    (hnext : c.next = true → st.seen = true ∧ st.flowId = c.flowId ∧ st.sn + 1 = c.sn ∧ st.fsn = fsn)
    (hopt : optionsIf c.flags (c.options ++ c.data) = some (o, c.data)) :
    parseUserData st (putType c) (putPayload c) = some (readAs c fsn o) := by
  rw [putPayload, putType, putHead, parseUserData]
  have hd : dataHeader st (if c.next = true then CHUNK_NEXT_USERDATA else CHUNK_USERDATA)
      ((if c.next = true then [] else VLU.encode c.flowId ++ (VLU.encode c.sn ++ VLU.encode c.off)) ++ (c.options ++ c.data)) =
      some ((c.flowId, c.sn, fsn), c.options ++ c.data) := by
    rw [dataHeader]
    by_cases hn : c.next = true
    · simp only [if_pos hn]
      rw [if_neg (by decide), if_pos trivial, nextHeader]
      obtain ⟨a, b, d, e⟩ := hnext hn
      rw [if_pos a, b, d, e, Nat.mod_eq_of_lt hsn]
      rfl
    · simp only [if_neg hn]
      rw [if_pos trivial, fullHeader_put _ _ _ hfid hsn (by omega)]
      rw [hoff, show c.sn - (c.sn - fsn) = fsn by omega]
  rw [hd]
  dsimp only
  rw [hopt]
  rfl

/-! ## the loop of `assembleData` -/

/-- What the loop puts in the packet from the fragments `q`, which become `q'`; `R` are the receipts at the end. -/
inductive Puts (c : Ctx) (R : RStore) : Bool → Nat → List SFrag → List SFrag → List SFrag → List Put → Prop
  | done {first prev q} : Puts c R first prev q q [] []
  | skip {first prev frag rest rest' fs ps} : frag.inFlight = true → Puts c R first prev rest rest' fs ps →
      Puts c R first prev (frag :: rest) (frag :: rest') fs ps
  | send {first prev frag rest rest' fs ps abn} : frag.inFlight = false → (abn = true → (R.r frag.receipt).abandoned = true) →
      Puts c R false frag.sn rest rest' fs ps →
      Puts c R first prev (frag :: rest) (sentFrag c frag abn (putWire (chunkFor c first prev frag abn)).length :: rest')
        (sentFrag c frag abn (putWire (chunkFor c first prev frag abn)).length :: fs) (chunkFor c first prev frag abn :: ps)

/-- abandoned messages stay abandoned -/
def Mono (r r' : RStore) : Prop := ∀ k, (r.r k).abandoned = true → (r'.r k).abandoned = true

theorem Mono.refl (r : RStore) : Mono r r := fun _ h => h
theorem Mono.trans {a b c : RStore} (x : Mono a b) (y : Mono b c) : Mono a c := fun k h => y k (x k h)

theorem settled_r (x : RStore × List (Nat × Bool)) (k : Nat) :
    ((settled x).1.r k).abandoned = (x.1.r k).abandoned ∧ ((settled x).1.r k).useCount = (x.1.r k).useCount := by
  rw [settled]
  dsimp only
  split
  · exact ⟨rfl, rfl⟩
  · rw [RStore.callbackReturned]
    split
    · exact ⟨rfl, rfl⟩
    · rename_i i rest _
      by_cases e : k = i
      · subst e; simp [RStore.upd]
      · simp [RStore.upd, e]

theorem abandon_mono (r : RStore) (i : Nat) : Mono r (r.abandon i).1 := by
  intro k h
  rw [RStore.abandon]
  dsimp only
  split
  · by_cases e : k = i
    · subst e; split <;> simp [RStore.upd]
    · split <;> simpa [RStore.upd, e] using h
  · exact h

theorem abandonNow_mono (r : RStore) (i : Nat) : Mono r (r.abandonNow i).1 := by
  intro k h
  rw [RStore.abandonNow, (settled_r _ k).1]
  exact abandon_mono r i k h

theorem abandonDue_mono (r : RStore) (i : Nat) (now : Int) : Mono r (r.abandonDue i now).1 := by
  intro k h
  rw [RStore.abandonDue, (settled_r _ k).1]
  rcases RStore.abandonIfNeeded_eq r i now with e | e <;> rw [e]
  · exact abandon_mono r i k h
  · exact h

theorem countDown_mono (r : RStore) (i : Nat) : Mono r (r.countDown i).1 := by
  intro k h
  rw [RStore.countDown, (settled_r _ k).1, RStore.useCountDown]
  dsimp only
  generalize (if (r.r i).useCount = 0 then U64MAX else (r.r i).useCount - 1) = n
  by_cases e : k = i
  · subst e
    split
    · split <;> simpa [RStore.upd] using h
    · simpa [RStore.upd] using h
  · split
    · split <;> simpa [RStore.upd, e] using h
    · simpa [RStore.upd, e] using h

theorem started_mono (r : RStore) (i : Nat) : Mono r (r.upd i { r.r i with started := true }) := by
  intro k h
  by_cases e : k = i
  · subst e; simpa [RStore.upd] using h
  · simpa [RStore.upd, e] using h

theorem beforeSend_mono (r : RStore) (frag : SFrag) (now : Int) : Mono r (beforeSend r frag now).1 := by
  rw [beforeSend]
  dsimp only
  split
  · exact (abandonNow_mono _ _).trans (abandonDue_mono _ _ _)
  · exact abandonDue_mono _ _ _

theorem fill_mono (c : Ctx) (q : List SFrag) : ∀ s, Mono s.receipts (fill c s q).1.receipts := by
  induction q with
  | nil => intro s; exact Mono.refl _
  | cons frag rest ih =>
    intro s
    rw [fill]
    split
    · exact Mono.refl _
    split
    · exact ih s
    dsimp only
    split
    · exact beforeSend_mono _ _ _
    · generalize hs : (Fill.mk _ _ _ _ _ _ _ _ _ _) = t
      refine ((beforeSend_mono s.receipts frag c.now).trans (started_mono _ frag.receipt)).trans ?_
      exact fun k hk => ih t k (by rw [← hs]; exact hk)

theorem Added.trans {p q r : PA} {a b : Bytes} (x : Added p q a) (y : Added q r b) : Added p r (a ++ b) :=
  ⟨y.inv, x.same.trans y.same, by rw [y.vec, x.vec, List.append_assoc], by rw [y.cur, x.cur, List.length_append]; omega⟩

theorem Unchanged.added {p q : PA} (h : Unchanged p q) : Added p q [] := ⟨h.inv, h.same, by rw [h.vec]; simp, by rw [h.cur]; simp⟩

theorem fill_puts (c : Ctx) (q : List SFrag) : ∀ s : Fill, s.packet.Inv → ∃ fs ps,
    Puts c (fill c s q).1.receipts s.first s.prevSn q (fill c s q).2 fs ps ∧
    (fill c s q).1.chunks = s.chunks ++ ps ∧
    Added s.packet (fill c s q).1.packet (ps.flatMap putWire) ∧
    (fill c s q).1.outs = s.outs ++ fs.map (refOf c.flow) ∧
    (fill c s q).1.first = (s.first && ps.isEmpty) := by
  induction q with
  | nil =>
    intro s h
    exact ⟨[], [], .done, by simp [fill], ⟨h, Same.refl _, by simp [fill], by simp [fill]⟩, by simp [fill], by simp [fill]⟩
  | cons frag rest ih =>
    intro s h
    rw [fill]
    by_cases h1 : s.outstanding ≥ c.rxBuffer
    · rw [if_pos h1]
      exact ⟨[], [], .done, by simp, ⟨h, Same.refl _, by simp, by simp⟩, by simp, by simp⟩
    rw [if_neg h1]
    by_cases h2 : frag.inFlight = true
    · rw [if_pos h2]
      obtain ⟨fs, ps, a, b⟩ := ih s h
      exact ⟨fs, ps, .skip h2 a, b⟩
    rw [if_neg h2]
    dsimp only
    have h2' : frag.inFlight = false := by simpa using h2
    generalize habn : (((beforeSend s.receipts frag c.now).1.r frag.receipt).isAbandoned) = abn
    obtain ⟨c1, c2, _⟩ := putChunk_spec h (chunkFor c s.first s.prevSn frag abn)
    by_cases h3 : (putChunk s.packet (chunkFor c s.first s.prevSn frag abn)).2 = false
    · rw [if_pos h3]
      exact ⟨[], [], .done, by simp, (c2 h3).added, by simp, by simp⟩
    · rw [if_neg h3]
      have k := c1 (by simpa using h3)
      have hsize : sub64 s.packet.remaining (putChunk s.packet (chunkFor c s.first s.prevSn frag abn)).1.remaining =
          (putWire (chunkFor c s.first s.prevSn frag abn)).length := by
        have e1 := h.remaining; have e2 := k.inv.remaining; have e3 := k.same.2.1; have e4 := k.cur
        have e5 := h.cur; have e6 := k.inv.cur; have e7 := h.lim
        have e8 := h.w
        rw [e1, e2, sub64_le (by omega) (by omega)]
        omega
      rw [hsize]
      generalize hs : (Fill.mk _ _ _ _ _ _ _ _ _ _) = t
      obtain ⟨fs, ps, a, b1, b2, b3, b4⟩ := ih t (by rw [← hs]; exact k.inv)
      have ht1 : t.first = false := by rw [← hs]
      have ht2 : t.prevSn = frag.sn := by rw [← hs]
      rw [ht1, ht2] at a
      refine ⟨_, _, .send h2' ?_ a, ?_, ?_, ?_, ?_⟩
      · intro hab
        refine fill_mono c rest t frag.receipt ?_
        rw [← hs]
        refine started_mono _ frag.receipt frag.receipt ?_
        rw [← hab]
        exact habn
      · rw [b1, ← hs]; simp
      · rw [List.flatMap_cons]
        refine Added.trans k ?_
        have : t.packet = (putChunk s.packet (chunkFor c s.first s.prevSn frag abn)).1 := by rw [← hs]
        rw [← this]; exact b2
      · rw [b3, ← hs]; simp [refOf, sentFrag]
      · rw [b4, ht1]; simp

end SS
end Rtmfp
