import Verif.Model.Media
import Verif.Props.C01_C03_VLU
import Mathlib.Tactic.Linarith
import Mathlib.Tactic.FieldSimp
import Mathlib.Tactic.Positivity
/-! # C41: media message headers -/
namespace Rtmfp
open Media
namespace Media

/-- the bytes of a list of options of types and values and the marker that ends it -/
def optionBytes (os : List (Nat × Bytes)) : Bytes := Opt.appendMarker (os.foldl (fun d o => Opt.append o.1 o.2 d) [])

/-- the same, from the front -/
theorem optionBytes_cons (o : Nat × Bytes) (os : List (Nat × Bytes)) : optionBytes (o :: os) = Opt.append o.1 o.2 [] ++ optionBytes os := by
  have h : ∀ (os : List (Nat × Bytes)) (d : Bytes), os.foldl (fun d o => Opt.append o.1 o.2 d) d = d ++ os.foldl (fun d o => Opt.append o.1 o.2 d) [] := by
    intro os
    induction os with
    | nil => simp
    | cons o os ih =>
      intro d
      rw [List.foldl_cons, ih, List.foldl_cons, ih (Opt.append o.1 o.2 []), ← List.append_assoc]
      simp [Opt.append]
  rw [optionBytes, optionBytes, List.foldl_cons, h]
  simp [Opt.appendMarker, VLU.append]

theorem optionBytes_ne (os : List (Nat × Bytes)) : optionBytes os ≠ [] := by
  intro h
  have := congrArg List.length h
  have h2 := encode_length_pos 0
  simp [optionBytes, Opt.appendMarker, VLU.append] at this
  rw [this.2] at h2
  simp at h2

theorem until_marker (os : List (Nat × Bytes)) (hos : ∀ o ∈ os, o.1 < 2 ^ 64 ∧ o.2.length + 10 < 2 ^ 64) (rest : Bytes) : ∀ fuel, os.length < fuel →
    Opt.parseUntilMarker fuel (optionBytes os ++ rest) = some (os.map (fun o => ⟨o.1, some o.2⟩), rest) := by
  induction os with
  | nil =>
    intro fuel hf
    obtain ⟨f, rfl⟩ : ∃ f, fuel = f + 1 := ⟨fuel - 1, by simp at hf; omega⟩
    have h := C03_option_round_trip .marker trivial rest
    have e : optionBytes [] = appendOpt [] .marker := rfl
    rw [e, Opt.parseUntilMarker, h]
    simp [reportOpt]
  | cons o os ih =>
    intro fuel hf
    obtain ⟨f, rfl⟩ : ∃ f, fuel = f + 1 := ⟨fuel - 1, by simp at hf; omega⟩
    have h := C03_option_round_trip (.typed o.1 o.2) (hos o (by simp)) (optionBytes os ++ rest)
    have e : appendOpt [] (.typed o.1 o.2) = Opt.append o.1 o.2 [] := rfl
    rw [e] at h
    rw [optionBytes_cons, List.append_assoc, Opt.parseUntilMarker, h]
    simp only [reportOpt, List.drop_left]
    rw [ih (fun o h => hos o (by simp [h])) f (by simp at hf; omega)]
    simp

theorem optionBytes_length (os : List (Nat × Bytes)) : os.length < (optionBytes os).length := by
  induction os with
  | nil => exact List.length_pos_of_ne_nil (optionBytes_ne [])
  | cons o os ih =>
    rw [optionBytes_cons, List.length_append, List.length_cons]
    have := encode_length_pos o.1
    simp only [Opt.append, List.length_append]
    omega

/-- the first byte -/
def flagsOf (rai opt : Bool) (tss mt : UInt8) : UInt8 := (if rai then FLAG_RAI else 0) ||| (if opt then FLAG_OPT else 0) ||| tss ||| (mt &&& MSG_MASK)

theorem flags_ok : ∀ (mt : UInt8) (rai opt : Bool) (tss : UInt8), tss = 0 ∨ tss = TSS_DTS ∨ tss = TSS_PLUS ∨ tss = TSS_MINUS →
    (decide (flagsOf rai opt tss mt &&& FLAG_RAI ≠ 0) = rai ∧ decide (flagsOf rai opt tss mt &&& FLAG_OPT ≠ 0) = opt ∧ flagsOf rai opt tss mt &&& TSS_MASK = tss ∧
      flagsOf rai opt tss mt &&& MSG_MASK = mt &&& MSG_MASK) := by
  have h : ∀ (mt : UInt8), ∀ (rai opt : Bool), ∀ tss ∈ [0, TSS_DTS, TSS_PLUS, TSS_MINUS],
    (decide (flagsOf rai opt tss mt &&& FLAG_RAI ≠ 0) = rai ∧ decide (flagsOf rai opt tss mt &&& FLAG_OPT ≠ 0) = opt ∧ flagsOf rai opt tss mt &&& TSS_MASK = tss ∧
      flagsOf rai opt tss mt &&& MSG_MASK = mt &&& MSG_MASK) := by
    intro d; cases d with | _ d => cases d with | _ d => revert d; decide +kernel
  intro mt rai opt tss ht
  exact h mt rai opt tss (by simpa using ht)

theorem tss_cases (d p : Nat) : tssOf d p = 0 ∨ tssOf d p = TSS_DTS ∨ tssOf d p = TSS_PLUS ∨ tssOf d p = TSS_MINUS := by
  rw [tssOf]
  split
  · split
    · simp
    · split <;> simp
  · simp

/-- the bytes of the times -/
def timeBytes (d p : Nat) : Bytes := if tssOf d p > 0 then (VLU.encode d ++ if tssOf d p > TSS_DTS then VLU.encode (offsetOf d p) else []) else []

theorem make_eq (rai : Bool) (mt : UInt8) (d p : Nat) (os payload : Bytes) : basicMakeMessage rai mt d p os payload =
    flagsOf rai (decide (os.length ≠ 0)) (tssOf d p) mt :: (timeBytes d p ++ (os ++ payload)) := by
  simp only [basicMakeMessage, flagsOf, timeBytes, VLU.append, decide_eq_true_eq]
  split
  · split <;> simp
  · simp

theorem times_ok (d p : Nat) (hd : d < 2 ^ 64) (hp : p < 2 ^ 64) (rest : Bytes) :
    ∃ o, readTimes (tssOf d p) (timeBytes d p ++ rest) = some (d, o, rest) ∧ ptsFrom (tssOf d p) d o = some p := by
  by_cases h0 : d ≠ 0 ∨ p ≠ 0
  · by_cases h1 : p = d
    · subst h1
      refine ⟨0, ?_, ?_⟩
      · have e : tssOf p p = TSS_DTS := by rw [tssOf, if_pos h0, if_pos rfl]
        rw [timeBytes, e, if_pos (by decide), if_neg (by decide), List.append_nil, readTimes, if_pos (by decide), C01_vlu_round_trip p hp]
        simp
      · have e : tssOf p p = TSS_DTS := by rw [tssOf, if_pos h0, if_pos rfl]
        rw [e, ptsFrom, if_neg (by decide), Nat.add_zero]
        congr 1
        exact Nat.mod_eq_of_lt hp
    · by_cases h2 : p < d
      · have e : tssOf d p = TSS_MINUS := by rw [tssOf, if_pos h0, if_neg h1, if_pos h2]
        have e2 : offsetOf d p = d - p := by rw [offsetOf, if_pos h0, if_neg h1, if_pos h2]
        refine ⟨d - p, ?_, ?_⟩
        · rw [timeBytes, e, if_pos (by decide), if_pos (by decide), readTimes, if_pos (by decide), List.append_assoc, C01_vlu_round_trip d hd, e2]
          have := C01_vlu_round_trip (d - p) (by omega) rest true
          have g : TSS_MINUS > TSS_DTS := by decide
          simp [this, g]
        · rw [e, ptsFrom, if_pos rfl, if_neg (by omega)]
          congr 1
          omega
      · have e : tssOf d p = TSS_PLUS := by rw [tssOf, if_pos h0, if_neg h1, if_neg h2]
        have e2 : offsetOf d p = p - d := by rw [offsetOf, if_pos h0, if_neg h1, if_neg h2]
        refine ⟨p - d, ?_, ?_⟩
        · rw [timeBytes, e, if_pos (by decide), if_pos (by decide), readTimes, if_pos (by decide), List.append_assoc, C01_vlu_round_trip d hd, e2]
          have := C01_vlu_round_trip (p - d) (by omega) rest true
          have g : TSS_PLUS > TSS_DTS := by decide
          simp [this, g]
        · rw [e, ptsFrom, if_neg (by decide)]
          congr 1
          rw [show d + (p - d) = p by omega]
          exact Nat.mod_eq_of_lt hp
  · have hd0 : d = 0 := by omega
    have hp0 : p = 0 := by omega
    subst hd0 hp0
    refine ⟨0, ?_, by decide⟩
    rw [timeBytes, if_neg (by decide), readTimes, if_neg (by decide)]
    rfl

end Media

/-- the option list a message is built with: none, or options and the marker -/
def Media.optsOf : Option (List (Nat × Bytes)) → Bytes
  | none => []
  | some os => optionBytes os

/-- parsing the header of a message recovers everything it was built from, and where the option list and the payload are -/
theorem C41_round_trip (rai : Bool) (mt : UInt8) (dts pts : Nat) (hd : dts < 2 ^ 64) (hp : pts < 2 ^ 64) (os : Option (List (Nat × Bytes)))
    (hos : ∀ l, os = some l → ∀ o ∈ l, o.1 < 2 ^ 64 ∧ o.2.length + 10 < 2 ^ 64) (payload : Bytes) :
    ∃ h, basicParseHeader (basicMakeMessage rai mt dts pts (optsOf os) payload) = some h ∧ h.rai = rai ∧ h.messageType = mt &&& 0x0f ∧ h.dts = dts ∧ h.pts = pts ∧
      (basicMakeMessage rai mt dts pts (optsOf os) payload).drop h.optionListOffset = optsOf os ++ payload ∧
      (basicMakeMessage rai mt dts pts (optsOf os) payload).drop h.length = payload := by
  obtain ⟨o, t1, t2⟩ := times_ok dts pts hd hp (optsOf os ++ payload)
  obtain ⟨f1, f2, f3, f4⟩ := flags_ok mt rai (decide ((optsOf os).length ≠ 0)) (tssOf dts pts) (tss_cases dts pts)
  rw [make_eq]
  generalize flagsOf rai (decide ((optsOf os).length ≠ 0)) (tssOf dts pts) mt = f at f1 f2 f3 f4 ⊢
  have sk : skipOptions f (optsOf os ++ payload) = some payload := by
    rw [skipOptions]
    cases os with
    | none =>
      rw [if_neg]
      · rfl
      · intro hne
        have : decide (f &&& FLAG_OPT ≠ 0) = true := by simpa using hne
        rw [f2] at this
        simp [optsOf] at this
    | some l =>
      rw [if_pos]
      · rw [show optsOf (some l) = optionBytes l from rfl, until_marker l (hos l rfl) payload _
          (by have := optionBytes_length l; rw [List.length_append]; omega)]
        rfl
      · have : decide (f &&& FLAG_OPT ≠ 0) = true := by
          rw [f2]
          have := optionBytes_ne l
          simpa [optsOf] using this
        simpa using this
  refine ⟨⟨rai, mt &&& 0x0f, dts, pts, 1 + (timeBytes dts pts).length, 1 + (timeBytes dts pts).length + (optsOf os).length⟩, ?_, rfl, rfl, rfl, rfl, ?_, ?_⟩
  · simp only [basicParseHeader, f3, t1, Option.bind_some, t2, sk, Option.map_some]
    congr 1
    rw [Header.mk.injEq]
    refine ⟨f1, f4, rfl, rfl, ?_, ?_⟩ <;> simp only [List.length_cons, List.length_append] <;> omega
  · show List.drop (1 + (timeBytes dts pts).length) _ = _
    rw [Nat.add_comm, List.drop_succ_cons, List.drop_left]
  · show List.drop (1 + (timeBytes dts pts).length + (optsOf os).length) _ = _
    rw [show 1 + (timeBytes dts pts).length + (optsOf os).length = ((timeBytes dts pts).length + (optsOf os).length) + 1 by omega, List.drop_succ_cons,
      ← List.append_assoc, ← List.length_append, List.drop_left]

/-- with options and an earlier presentation time -/
example : basicMakeMessage true 1 300 10 (optsOf (some [(0x21, [7])])) [0xaa] = [0xf1, 0x82, 0x2c, 0x82, 0x22, 2, 0x21, 7, 0, 0xaa] ∧
    basicParseHeader [0xf1, 0x82, 0x2c, 0x82, 0x22, 2, 0x21, 7, 0, 0xaa] = some ⟨true, 1, 300, 10, 5, 9⟩ := by decide +kernel

namespace Media

theorem until_bounds : ∀ (fuel : Nat) (c : Bytes) (l : List OptItem) (rest : Bytes), Opt.parseUntilMarker fuel c = some (l, rest) →
    ∃ used, used ≠ [] ∧ c = used ++ rest := by
  intro fuel
  induction fuel with
  | zero => intro c l rest h; cases h
  | succ fuel ih =>
    intro c l rest h
    rw [Opt.parseUntilMarker] at h
    split at h
    · cases h
    · rename_i o n ho
      obtain ⟨h1, h2, _⟩ := C03_option_in_bounds c o n ho
      split at h
      · cases h
        refine ⟨c.take n, ?_, (List.take_append_drop n c).symm⟩
        intro e
        have := congrArg List.length e
        rw [List.length_take, List.length_nil] at this
        omega
      · rw [Option.map_eq_some_iff] at h
        obtain ⟨⟨l', r'⟩, h3, h4⟩ := h
        cases h4
        obtain ⟨used, u1, u2⟩ := ih _ _ _ h3
        refine ⟨c.take n ++ used, by simp [u1], ?_⟩
        rw [List.append_assoc, ← u2, List.take_append_drop]

theorem until_fuel : ∀ (f g : Nat) (c : Bytes), c.length < f → c.length < g → Opt.parseUntilMarker f c = Opt.parseUntilMarker g c := by
  intro f
  induction f with
  | zero => intro g c h; omega
  | succ f ih =>
    intro g c hf hg
    obtain ⟨g, rfl⟩ : ∃ k, g = k + 1 := ⟨g - 1, by omega⟩
    rw [Opt.parseUntilMarker, Opt.parseUntilMarker]
    cases ho : Opt.parse c with
    | none => rfl
    | some r =>
      obtain ⟨o, n⟩ := r
      obtain ⟨h1, h2, _⟩ := C03_option_in_bounds c o n ho
      cases hv : o.value with
      | none => simp only [hv]
      | some v =>
        simp only [hv]
        rw [ih g (c.drop n) (by rw [List.length_drop]; omega) (by rw [List.length_drop]; omega)]

theorem vlu_bounds (c : Bytes) (v n : Nat) (h : VLU.parse c = some (v, n)) : 1 ≤ n ∧ n ≤ c.length ∧ v < 2 ^ 64 := by
  obtain ⟨h1, h2, _, h3⟩ := C02_vlu_parse_value c true v n h
  refine ⟨h1, h2, ?_⟩
  rw [h3, if_pos rfl]
  have := Nat.min_le_right (Spec.base128 (c.take n)) (2 ^ 64 - 1)
  omega

theorem times_bounds (tss : UInt8) (c : Bytes) (t : Nat × Nat × Bytes) (h : readTimes tss c = some t) :
    t.1 < 2 ^ 64 ∧ t.2.1 < 2 ^ 64 ∧ ∃ used, c = used ++ t.2.2 := by
  rw [readTimes] at h
  split at h
  · rw [Option.bind_eq_some_iff] at h
    obtain ⟨⟨d, n⟩, h1, h2⟩ := h
    obtain ⟨a1, a2, a3⟩ := vlu_bounds _ _ _ h1
    dsimp only at h2
    split at h2
    · rw [Option.map_eq_some_iff] at h2
      obtain ⟨⟨o, n'⟩, h3, rfl⟩ := h2
      obtain ⟨b1, b2, b3⟩ := vlu_bounds _ _ _ h3
      refine ⟨a3, b3, c.take (n + n'), ?_⟩
      rw [List.drop_drop, List.take_append_drop]
    · cases h2
      exact ⟨a3, (by decide : 0 < 2 ^ 64), c.take n, (List.take_append_drop n c).symm⟩
  · cases h
    exact ⟨(by decide : 0 < 2 ^ 64), (by decide : 0 < 2 ^ 64), [], rfl⟩

end Media

/-- of arbitrary bytes: the header, the option list and the payload are inside of the message; the times are 64-bit numbers; without an option list flag the
option list is empty, with it it is a list of options with the marker at its end -/
theorem C41_in_bounds (message : Bytes) (h : Header) (hp : basicParseHeader message = some h) :
    ∃ flags times opts payload, message = flags :: (times ++ (opts ++ payload)) ∧ h.optionListOffset = 1 + times.length ∧
      h.length = h.optionListOffset + opts.length ∧ h.dts < 2 ^ 64 ∧ h.pts < 2 ^ 64 ∧ (flags &&& 0x40 = 0 → opts = []) ∧
      (flags &&& 0x40 ≠ 0 → opts ≠ [] ∧ ∃ l, ∀ fuel, opts.length + payload.length < fuel → Opt.parseUntilMarker fuel (opts ++ payload) = some (l, payload)) := by
  cases message with
  | nil => cases hp
  | cons flags c0 =>
    simp only [basicParseHeader, Option.bind_eq_some_iff, Option.map_eq_some_iff] at hp
    obtain ⟨t, h1, pts, h2, c, h3, rfl⟩ := hp
    obtain ⟨a1, a2, times, a3⟩ := times_bounds _ _ _ h1
    have hpts : pts < 2 ^ 64 := by
      rw [ptsFrom] at h2
      split at h2
      · split at h2
        · cases h2
        · cases h2; omega
      · cases h2; exact Nat.mod_lt _ (by decide)
    rw [skipOptions] at h3
    by_cases hf : flags &&& FLAG_OPT ≠ 0
    · rw [if_pos hf, Option.map_eq_some_iff] at h3
      obtain ⟨⟨l, c'⟩, h3, rfl⟩ := h3
      obtain ⟨opts, u1, u2⟩ := until_bounds _ _ _ _ h3
      refine ⟨flags, times, opts, c', by rw [a3, u2], ?_, ?_, a1, hpts, fun e => absurd e hf, fun _ => ⟨u1, l, fun fuel hfuel => ?_⟩⟩
      · show (flags :: c0).length - t.2.2.length = _
        rw [a3, List.length_cons, List.length_append]; omega
      · show (flags :: c0).length - c'.length = (flags :: c0).length - t.2.2.length + _
        rw [a3, u2, List.length_cons, List.length_append, List.length_append]; omega
      · rw [← h3, ← u2]
        exact until_fuel _ _ _ (by rw [u2, List.length_append]; omega) (by omega)
    · rw [if_neg hf] at h3
      cases h3
      refine ⟨flags, times, [], t.2.2, by rw [List.nil_append]; rw [← a3], ?_, ?_, a1, hpts, fun _ => rfl, fun e => absurd e hf⟩
      · show (flags :: c0).length - t.2.2.length = _
        rw [a3, List.length_cons, List.length_append]; omega
      · simp

/-- what the times of an accepted message are, by the bits of its first byte: none, one for both, or one and an offset; with a negative offset the presentation
time isn't before zero -/
theorem C41_times_meaning (flags : UInt8) (c : Bytes) (h : Header) (hp : basicParseHeader (flags :: c) = some h) :
    (flags &&& 0x30 = 0 ∧ h.dts = 0 ∧ h.pts = 0) ∨ (flags &&& 0x30 = 0x10 ∧ h.pts = h.dts ∧ ∃ n, VLU.parse c = some (h.dts, n)) ∨
    ∃ n off k, VLU.parse c = some (h.dts, n) ∧ VLU.parse (c.drop n) = some (off, k) ∧
      ((flags &&& 0x30 = 0x20 ∧ h.pts = (h.dts + off) % 2 ^ 64) ∨ (flags &&& 0x30 = 0x30 ∧ h.dts = h.pts + off)) := by
  simp only [basicParseHeader, Option.bind_eq_some_iff, Option.map_eq_some_iff] at hp
  obtain ⟨t, h1, pts, h2, c', h3, rfl⟩ := hp
  have cases4 : ∀ f : UInt8, f &&& TSS_MASK = 0 ∨ f &&& TSS_MASK = TSS_DTS ∨ f &&& TSS_MASK = TSS_PLUS ∨ f &&& TSS_MASK = TSS_MINUS := by
    intro d; cases d with | _ d => cases d with | _ d => revert d; decide +kernel
  show (flags &&& TSS_MASK = 0 ∧ t.1 = 0 ∧ pts = 0) ∨ (flags &&& TSS_MASK = 0x10 ∧ pts = t.1 ∧ ∃ n, VLU.parse c = some (t.1, n)) ∨
    ∃ n off k, VLU.parse c = some (t.1, n) ∧ VLU.parse (c.drop n) = some (off, k) ∧
      ((flags &&& TSS_MASK = 0x20 ∧ pts = (t.1 + off) % 2 ^ 64) ∨ (flags &&& TSS_MASK = 0x30 ∧ t.1 = pts + off))
  have pos : ∀ x : UInt8, x > TSS_DTS → x > 0 → readTimes x c = some t →
      ∃ n k, VLU.parse c = some (t.1, n) ∧ VLU.parse (c.drop n) = some (t.2.1, k) := by
    intro x hx hx0 h
    rw [readTimes, if_pos hx0, Option.bind_eq_some_iff] at h
    obtain ⟨⟨d, n⟩, e1, e2⟩ := h
    dsimp only at e2
    rw [if_pos hx, Option.map_eq_some_iff] at e2
    obtain ⟨⟨o, k⟩, e3, rfl⟩ := e2
    exact ⟨n, k, e1, e3⟩
  rcases cases4 flags with e | e | e | e
  · rw [e] at h1 h2
    rw [readTimes, if_neg (by decide)] at h1
    cases h1
    cases h2
    exact Or.inl ⟨e, rfl, rfl⟩
  · rw [e] at h1 h2
    rw [readTimes, if_pos (by decide), Option.bind_eq_some_iff] at h1
    obtain ⟨⟨d, n⟩, e1, e2⟩ := h1
    dsimp only at e2
    rw [if_neg (by decide)] at e2
    cases e2
    rw [ptsFrom, if_neg (by decide)] at h2
    have hd : d < 2 ^ 64 := (vlu_bounds _ _ _ e1).2.2
    have : (d + 0) % W64 = pts := by simpa using h2
    exact Or.inr (Or.inl ⟨e, by rw [← this, Nat.add_zero]; exact Nat.mod_eq_of_lt hd, n, e1⟩)
  · rw [e] at h1 h2
    obtain ⟨n, k, e1, e2⟩ := pos _ (by decide) (by decide) h1
    rw [ptsFrom, if_neg (by decide)] at h2
    exact Or.inr (Or.inr ⟨n, t.2.1, k, e1, e2, Or.inl ⟨e, (Option.some.inj h2).symm⟩⟩)
  · rw [e] at h1 h2
    obtain ⟨n, k, e1, e2⟩ := pos _ (by decide) (by decide) h1
    rw [ptsFrom, if_pos rfl] at h2
    split at h2
    · cases h2
    · have := Option.some.inj h2
      exact Or.inr (Or.inr ⟨n, t.2.1, k, e1, e2, Or.inr ⟨e, by omega⟩⟩)

/-- a message that isn't ended where the option list promises, one whose presentation time would be negative, and one of which a time is cut off -/
example : basicParseHeader [0x40, 2, 0x21, 7] = none ∧ basicParseHeader [0x30, 5, 6] = none ∧ basicParseHeader [0x10, 0x80] = none ∧
    basicParseHeader [0x40, 2, 0x21, 7, 0, 1] = some ⟨false, 0, 0, 0, 1, 5⟩ := by decide +kernel

namespace Media

theorem tick_pos (m : Track) (ht : 0 < m.ticks) (hs : 0 < m.perSeconds) : 0 < m.tick := by
  rw [Track.tick]
  have : (0 : ℚ) < m.ticks := by exact_mod_cast ht
  have : (0 : ℚ) < m.perSeconds := by exact_mod_cast hs
  positivity

theorem floor_def' (x : ℚ) : x.floor = ⌊x⌋ := rfl

theorem floor_eq (x : ℚ) (n : ℕ) (h1 : (n : ℚ) ≤ x) (h2 : x < n + 1) : x.floor.toNat = n := by
  have : x.floor = (n : ℤ) := by
    rw [floor_def', Int.floor_eq_iff]
    exact ⟨by exact_mod_cast h1, by exact_mod_cast h2⟩
  rw [this]
  rfl

theorem floor_bounds (x : ℚ) (h : 0 ≤ x) : (x.floor.toNat : ℚ) ≤ x ∧ x < x.floor.toNat + 1 := by
  have h0 : (0 : ℤ) ≤ x.floor := by
    rw [floor_def']
    exact Int.floor_nonneg.mpr h
  have e : ((x.floor.toNat : ℕ) : ℚ) = ((x.floor : ℤ) : ℚ) := by
    have := Int.toNat_of_nonneg h0
    exact_mod_cast this
  rw [e, floor_def']
  exact ⟨Int.floor_le x, Int.lt_floor_add_one x⟩

/-- the nearest multiple -/
theorem round_near (x d : ℚ) (hd : 0 < d) (hx : 0 ≤ x) : |(((x + d / 2) / d).floor.toNat : ℚ) * d - x| ≤ d / 2 := by
  obtain ⟨h1, h2⟩ := floor_bounds ((x + d / 2) / d) (by positivity)
  rw [le_div_iff₀ hd] at h1
  rw [div_lt_iff₀ hd] at h2
  rw [abs_le]
  constructor <;> linarith

/-- multiples are kept -/
theorem round_mul (n : ℕ) (d : ℚ) (hd : 0 < d) : (((n : ℚ) * d + d / 2) / d).floor.toNat = n := by
  refine floor_eq _ _ ?_ ?_
  · rw [le_div_iff₀ hd]; linarith
  · rw [div_lt_iff₀ hd]; linarith

end Media

/-- a number of ticks survives the conversion to time and back -/
theorem C41_ticks_exact (m : Track) (ht : 0 < m.ticks) (hs : 0 < m.perSeconds) (n : ℕ) : m.timeToTicks (m.ticksToTime n) = n := by
  have hd := tick_pos m ht hs
  have hn : (0 : ℚ) ≤ (n : ℚ) * m.tick := by positivity
  rw [Track.timeToTicks, Track.ticksToTime, if_neg (by linarith)]
  have := round_mul n m.tick hd
  rw [← this]
  congr 4
  rw [this]
  ring

/-- a time from the origin on is rounded to the nearest tick; earlier ones are the origin -/
theorem C41_times_near (m : Track) (ht : 0 < m.ticks) (hs : 0 < m.perSeconds) (t : ℚ) :
    |m.ticksToTime (m.timeToTicks t) - max t m.origin| ≤ (m.perSeconds : ℚ) / m.ticks / 2 := by
  have hd := tick_pos m ht hs
  have key : ∀ u : ℚ, m.origin ≤ u → |m.ticksToTime (((u + m.tick / 2 - m.origin) / m.tick).floor.toNat) - u| ≤ m.tick / 2 := by
    intro u hu
    have := round_near (u - m.origin) m.tick hd (by linarith)
    have e : u + m.tick / 2 - m.origin = u - m.origin + m.tick / 2 := by ring
    rw [e, Track.ticksToTime]
    have e2 : ∀ x : ℚ, m.origin + x * m.tick - u = x * m.tick - (u - m.origin) := by intro x; ring
    rw [e2]
    exact this
  rw [Track.timeToTicks]
  by_cases h : t < m.origin
  · rw [if_pos h, max_eq_right (le_of_lt h)]
    exact key _ (le_refl _)
  · rw [if_neg h, max_eq_left (by linarith)]
    exact key _ (by linarith)

example : (Track.init.timeToTicks (1 / 3), Track.init.ticksToTime 333) = (333, (333 : ℚ) / 1000) := by
  decide +kernel

/-- building a message from times and parsing it gives times that are at most half a tick off (a negative presentation time stands for the decode time) -/
theorem C41_message_times (m : Track) (ht : 0 < m.ticks) (hs : 0 < m.perSeconds) (rai : Bool) (mt : UInt8) (dts pts : ℚ)
    (hd : m.timeToTicks dts < 2 ^ 64) (hp : m.timeToTicks pts < 2 ^ 64) (os : Option (List (Nat × Bytes)))
    (hos : ∀ l, os = some l → ∀ o ∈ l, o.1 < 2 ^ 64 ∧ o.2.length + 10 < 2 ^ 64) (payload : Bytes) :
    ∃ h d p, m.parseHeader (m.makeMessage rai mt dts pts (optsOf os) payload) = some (h, d, p) ∧ h.rai = rai ∧ h.messageType = mt &&& 0x0f ∧
      |d - max dts m.origin| ≤ (m.perSeconds : ℚ) / m.ticks / 2 ∧
      |p - max (if pts < 0 then dts else pts) m.origin| ≤ (m.perSeconds : ℚ) / m.ticks / 2 ∧
      (m.makeMessage rai mt dts pts (optsOf os) payload).drop h.length = payload := by
  have hp' : m.timeToTicks (if pts < 0 then dts else pts) < 2 ^ 64 := by split <;> assumption
  obtain ⟨h, h1, h2, h3, h4, h5, _, h6⟩ := C41_round_trip rai mt _ _ hd hp' os hos payload
  refine ⟨h, m.ticksToTime h.dts, m.ticksToTime h.pts, ?_, h2, h3, ?_, ?_, h6⟩
  · rw [Track.parseHeader, Track.makeMessage, h1]; rfl
  · rw [h4]; exact C41_times_near m ht hs dts
  · rw [h5]; exact C41_times_near m ht hs _

end Rtmfp
