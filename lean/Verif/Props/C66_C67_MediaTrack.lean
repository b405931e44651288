import Verif.Props.C41_Media
import Verif.Lemmas.AMF
/-! # C66, C67: descriptions of media tracks, and their order -/
namespace Rtmfp
open Media
namespace Media

/-- what the members of an object may be: numbers of 64 bits, strings that fit, a timescale that isn't zero, a time origin that isn't negative and below 2^63
seconds, a reorder suggestion of less than 2^64 ticks -/
structure Track.Ok (m : Track) : Prop where
  streamID : m.streamID < 2 ^ 64
  trackID : m.trackID < 2 ^ 64
  codec : m.codec.length + 10 < 2 ^ 64
  mediaType : m.mediaType.length + 10 < 2 ^ 64
  trackName : m.trackName.length + 10 < 2 ^ 64
  ticks : 0 < m.ticks ∧ m.ticks < 2 ^ 64
  perSeconds : 0 < m.perSeconds ∧ m.perSeconds < 2 ^ 64
  origin : 0 ≤ m.origin ∧ m.origin < 2 ^ 63
  reorder : 0 ≤ m.reorderSuggestion → ((m.reorderSuggestion + m.tick / 2) / m.tick).floor.toNat < 2 ^ 64

/-- options one after the other -/
def encs (os : List (Nat × Bytes)) : Bytes := os.flatMap (fun o => Opt.append o.1 o.2 [])

theorem append_encs (t : Nat) (v d : Bytes) : Opt.append t v d = d ++ encs [(t, v)] := by simp [encs, Opt.append]

theorem encs_append (a b : List (Nat × Bytes)) : encs (a ++ b) = encs a ++ encs b := by simp [encs]

/-- what the options do, one after the other -/
def runOpts : List (Nat × Bytes) → Parse → Option (Option Parse)
  | [], s => some (some s)
  | o :: os, s => (setOption s o.1 o.2).bind (fun r =>
      match r with
      | none => some none
      | some s' => runOpts os s')

theorem loop_run : ∀ (os : List (Nat × Bytes)) (fuel : Nat) (s : Parse), (∀ o ∈ os, o.1 < 2 ^ 64 ∧ o.2.length + 10 < 2 ^ 64) → os.length < fuel →
    metaLoop fuel (encs os) s = runOpts os s := by
  intro os
  induction os with
  | nil =>
    intro fuel s _ hf
    obtain ⟨f, rfl⟩ : ∃ k, fuel = k + 1 := ⟨fuel - 1, by simp at hf; omega⟩
    rfl
  | cons o os ih =>
    intro fuel s hos hf
    obtain ⟨f, rfl⟩ : ∃ k, fuel = k + 1 := ⟨fuel - 1, by simp at hf; omega⟩
    have h := C03_option_round_trip (.typed o.1 o.2) (hos o (by simp)) (encs os)
    have e : appendOpt [] (.typed o.1 o.2) = Opt.append o.1 o.2 [] := rfl
    rw [e] at h
    have hne : (Opt.append o.1 o.2 [] ++ encs os).isEmpty = false := by
      cases hc : Opt.append o.1 o.2 [] ++ encs os with
      | nil => rw [hc] at h; cases h
      | cons _ _ => rfl
    show metaLoop (f + 1) (Opt.append o.1 o.2 [] ++ encs os) s = _
    rw [metaLoop, hne, h]
    simp only [reportOpt, List.drop_left, Bool.false_eq_true, if_false]
    rw [runOpts]
    congr 1
    funext r
    cases r with
    | none => rfl
    | some s' => exact ih f s' (fun o h => hos o (by simp [h])) (by simp at hf; omega)

theorem run_append (a b : List (Nat × Bytes)) (s s' : Parse) (h : runOpts a s = some (some s')) : runOpts (a ++ b) s = runOpts b s' := by
  induction a generalizing s with
  | nil => cases h; rfl
  | cons o a ih =>
    rw [runOpts, Option.bind_eq_some_iff] at h
    obtain ⟨r, h1, h2⟩ := h
    rw [List.cons_append, runOpts, h1, Option.bind_some]
    cases r with
    | none => cases h2
    | some s1 => exact ih s1 h2

/-- the ticks of a reorder suggestion -/
def reorderCount (m : Track) : Nat := ((m.reorderSuggestion + m.tick / 2) / m.tick).floor.toNat

/-- the options of `toMetadata` -/
def optsOfTrack (m : Track) : List (Nat × Bytes) :=
  [(0x1d, VLU.encode m.streamID)] ++ ([(0x4c, m.codec)] ++ ((if m.mediaType.length ≠ 0 then [(0x44, m.mediaType)] else []) ++
    ((if m.origin > 0 then [(0x00, toNTP4 m.origin)] else []) ++
    ((if 1000 ≠ m.ticks ∨ 1 ≠ m.perSeconds then [(0x01, VLU.encode m.ticks ++ VLU.encode m.perSeconds)] else []) ++
    ((if m.network then [(0x0a, [])] else []) ++ ((if m.reorderSuggestion ≥ 0 then [(0x0b, VLU.encode (reorderCount m))] else []) ++
    ((if m.trackName.length ≠ 0 then [(0x21, m.trackName)] else []) ++ (if m.trackID ≠ 0 then [(0x2d, VLU.encode m.trackID)] else []))))))))

theorem ite_encs (c : Prop) [Decidable c] (rv : Bytes) (o : Nat × Bytes) : (if c then rv ++ encs [o] else rv) = rv ++ encs (if c then [o] else []) := by
  split
  · rfl
  · simp [encs]

theorem toMetadata_eq (m : Track) : toMetadata m = signature ++ encs (optsOfTrack m) := by
  simp only [toMetadata, Opt.appendVLU, Opt.appendType, append_encs, ite_encs, optsOfTrack, encs_append, VLU.append, List.nil_append, reorderCount]
  simp only [List.append_assoc]

theorem rd_be (i : Nat) (hi : i < 2 ^ 64) (c : Bytes) : readU64 (writeU64 i ++ c) = some i := by
  rw [readU64, writeU64, AMF.rdNum_be64 i hi]; rfl

/-- a time to the precision of the format -/
def floor64 (t : ℚ) : ℚ := (t.floor.toNat : ℚ) + (((t - t.floor) * scale64).floor.toNat : ℚ) / scale64

theorem floor64_bounds (t : ℚ) (h : 0 ≤ t) : floor64 t ≤ t ∧ t < floor64 t + 1 / 2 ^ 64 := by
  have h0 : (0 : ℤ) ≤ t.floor := by rw [floor_def']; exact Int.floor_nonneg.mpr h
  have e : ((t.floor.toNat : ℕ) : ℚ) = ((t.floor : ℤ) : ℚ) := by
    have := Int.toNat_of_nonneg h0
    exact_mod_cast this
  have hf : 0 ≤ t - t.floor := by rw [floor_def']; linarith [Int.floor_le t]
  obtain ⟨h1, h2⟩ := floor_bounds ((t - t.floor) * scale64) (by positivity)
  rw [floor64, e]
  generalize (((t - t.floor) * scale64).floor.toNat : ℚ) = n at h1 h2 ⊢
  have h3 : n / scale64 ≤ t - t.floor := by rw [div_le_iff₀ (by norm_num)]; exact h1
  have h4 : t - t.floor < (n + 1) / scale64 := by rw [lt_div_iff₀ (by norm_num)]; exact h2
  have h5 : (n + 1) / scale64 = n / scale64 + 1 / 2 ^ 64 := by rw [add_div]; norm_num
  constructor <;> linarith

theorem fromNTP4_cons (b : UInt8) (v : Bytes) : fromNTP4 (b :: v) = if b ≥ 0x80 then some (-1)
    else (readU64 (b :: v)).bind (fun i => (readU64 ((b :: v).drop 8)).map (fun f => (i : Rat) + (f : Rat) / scale64)) := rfl

theorem ntp_ok (t : ℚ) (h : 0 ≤ t) (ht : t < 2 ^ 63) : fromNTP4 (toNTP4 t) = some (floor64 t) := by
  obtain ⟨h1, h2⟩ := floor_bounds t h
  have hi : t.floor.toNat < 2 ^ 63 := by
    have : (t.floor.toNat : ℚ) < 2 ^ 63 := by linarith
    exact_mod_cast this
  have hf : 0 ≤ t - t.floor ∧ t - t.floor < 1 := by
    rw [floor_def']
    constructor <;> linarith [Int.floor_le t, Int.lt_floor_add_one t]
  obtain ⟨h3, h4⟩ := floor_bounds ((t - t.floor) * scale64) (by have := hf.1; positivity)
  have hn : ((t - t.floor) * scale64).floor.toNat < 2 ^ 64 := by
    have : (((t - t.floor) * scale64).floor.toNat : ℚ) < 2 ^ 64 := by
      refine lt_of_le_of_lt h3 ?_
      have : (2 : ℚ) ^ 64 = scale64 := by norm_num
      rw [this]
      nlinarith [hf.2]
    exact_mod_cast this
  rw [toNTP4, floor64]
  generalize t.floor.toNat = i at hi ⊢
  generalize ((t - t.floor) * scale64).floor.toNat = f at hn ⊢
  have e1 := rd_be i (by omega) (writeU64 f)
  have e2 := rd_be f hn []
  rw [List.append_nil] at e2
  have hb : ¬ (UInt8.ofNat ((i >>> 56) &&& 0xff)) ≥ 0x80 := by
    rw [ge_iff_le, UInt8.le_iff_toNat_le, AMF.byte_ofNat, Nat.shiftRight_eq_div_pow]
    show ¬ 128 ≤ _
    omega
  obtain ⟨tl, htl⟩ : ∃ tl, writeU64 i ++ writeU64 f = UInt8.ofNat ((i >>> 56) &&& 0xff) :: tl := ⟨_, rfl⟩
  have hd : (UInt8.ofNat ((i >>> 56) &&& 0xff) :: tl).drop 8 = writeU64 f := by rw [← htl]; rfl
  rw [htl, fromNTP4_cons, if_neg hb, hd, ← htl, e1, e2]
  rfl

theorem toNTP4_length (t : ℚ) : (toNTP4 t).length = 16 := rfl

/-- the description as it comes back: times to the precision of the format -/
def back (m : Track) : Track :=
  { m with origin := floor64 m.origin, reorderSuggestion := if m.reorderSuggestion ≥ 0 then (reorderCount m : ℚ) * m.tick else -1 }

theorem floor64_zero : floor64 0 = 0 := by decide +kernel

theorem vlu_rt (v : Nat) (hv : v < 2 ^ 64) (rest : Bytes) : VLU.parse (VLU.encode v ++ rest) = some (v, (VLU.encode v).length) := C01_vlu_round_trip v hv rest true

theorem vlu_rt' (v : Nat) (hv : v < 2 ^ 64) : VLU.parse (VLU.encode v) = some (v, (VLU.encode v).length) := by
  have := vlu_rt v hv []
  rwa [List.append_nil] at this

theorem run_track (m : Track) (hm : m.Ok) : runOpts (optsOfTrack m) ⟨Track.init, 0, false, false, false⟩ =
    some (some ⟨⟨m.streamID, m.trackID, m.codec, m.mediaType, m.trackName, -1, floor64 m.origin, m.ticks, m.perSeconds, m.network⟩,
      if m.reorderSuggestion ≥ 0 then reorderCount m else 0, decide (m.reorderSuggestion ≥ 0), true, true⟩) := by
  rw [optsOfTrack]
  have s1 : runOpts [(0x1d, VLU.encode m.streamID)] ⟨Track.init, 0, false, false, false⟩ =
      some (some ⟨⟨m.streamID, 0, [], [], [], -1, 0, 1000, 1, false⟩, 0, false, true, false⟩) := by
    show (some ((VLU.parse (VLU.encode m.streamID)).map _)).bind _ = _
    rw [vlu_rt' _ hm.streamID]; rfl
  rw [run_append _ _ _ _ s1]
  have s2 : runOpts [(0x4c, m.codec)] ⟨⟨m.streamID, 0, [], [], [], -1, 0, 1000, 1, false⟩, 0, false, true, false⟩ =
      some (some ⟨⟨m.streamID, 0, m.codec, [], [], -1, 0, 1000, 1, false⟩, 0, false, true, true⟩) := rfl
  rw [run_append _ _ _ _ s2]
  have s3 : runOpts (if m.mediaType.length ≠ 0 then [(0x44, m.mediaType)] else []) ⟨⟨m.streamID, 0, m.codec, [], [], -1, 0, 1000, 1, false⟩, 0, false, true, true⟩ =
      some (some ⟨⟨m.streamID, 0, m.codec, m.mediaType, [], -1, 0, 1000, 1, false⟩, 0, false, true, true⟩) := by
    split
    · rfl
    · rename_i h
      have : m.mediaType = [] := List.eq_nil_of_length_eq_zero (by omega)
      rw [this]; rfl
  rw [run_append _ _ _ _ s3]
  have s4 : runOpts (if m.origin > 0 then [(0x00, toNTP4 m.origin)] else []) ⟨⟨m.streamID, 0, m.codec, m.mediaType, [], -1, 0, 1000, 1, false⟩, 0, false, true, true⟩ =
      some (some ⟨⟨m.streamID, 0, m.codec, m.mediaType, [], -1, floor64 m.origin, 1000, 1, false⟩, 0, false, true, true⟩) := by
    split
    · show (if (toNTP4 m.origin).length < 16 then some none else (fromNTP4 (toNTP4 m.origin)).map _).bind _ = _
      have h0 : 0 ≤ floor64 m.origin := by rw [floor64]; positivity
      rw [if_neg (by rw [toNTP4_length]; omega), ntp_ok _ hm.origin.1 hm.origin.2]
      simp only [Option.map_some, Option.bind_some, Track.setOrigin]
      rw [if_neg (by linarith)]
      rfl
    · rename_i h
      have : m.origin = 0 := by linarith [hm.origin.1]
      rw [this, floor64_zero]; rfl
  rw [run_append _ _ _ _ s4]
  have s5 : runOpts (if 1000 ≠ m.ticks ∨ 1 ≠ m.perSeconds then [(0x01, VLU.encode m.ticks ++ VLU.encode m.perSeconds)] else [])
        ⟨⟨m.streamID, 0, m.codec, m.mediaType, [], -1, floor64 m.origin, 1000, 1, false⟩, 0, false, true, true⟩ =
      some (some ⟨⟨m.streamID, 0, m.codec, m.mediaType, [], -1, floor64 m.origin, m.ticks, m.perSeconds, false⟩, 0, false, true, true⟩) := by
    split
    · show (some ((VLU.parse (VLU.encode m.ticks ++ VLU.encode m.perSeconds)).bind (fun r => _))).bind _ = _
      rw [vlu_rt _ hm.ticks.2]
      simp only [Option.bind_some, List.drop_left]
      rw [vlu_rt' _ hm.perSeconds.2]
      simp only [Option.bind_some, Track.setTimescale]
      rw [if_neg (by have := hm.ticks.1; have := hm.perSeconds.1; omega)]
      rfl
    · rename_i h
      have e1 : m.ticks = 1000 := by omega
      have e2 : m.perSeconds = 1 := by omega
      rw [e1, e2]; rfl
  rw [run_append _ _ _ _ s5]
  have s6 : runOpts (if m.network then [(0x0a, [])] else [])
        ⟨⟨m.streamID, 0, m.codec, m.mediaType, [], -1, floor64 m.origin, m.ticks, m.perSeconds, false⟩, 0, false, true, true⟩ =
      some (some ⟨⟨m.streamID, 0, m.codec, m.mediaType, [], -1, floor64 m.origin, m.ticks, m.perSeconds, m.network⟩, 0, false, true, true⟩) := by
    cases m.network <;> rfl
  rw [run_append _ _ _ _ s6]
  have s7 : runOpts (if m.reorderSuggestion ≥ 0 then [(0x0b, VLU.encode (reorderCount m))] else [])
        ⟨⟨m.streamID, 0, m.codec, m.mediaType, [], -1, floor64 m.origin, m.ticks, m.perSeconds, m.network⟩, 0, false, true, true⟩ =
      some (some ⟨⟨m.streamID, 0, m.codec, m.mediaType, [], -1, floor64 m.origin, m.ticks, m.perSeconds, m.network⟩,
        if m.reorderSuggestion ≥ 0 then reorderCount m else 0, decide (m.reorderSuggestion ≥ 0), true, true⟩) := by
    by_cases h : m.reorderSuggestion ≥ 0
    · rw [if_pos h, if_pos h, decide_eq_true h]
      show (some ((VLU.parse (VLU.encode (reorderCount m))).map _)).bind _ = _
      rw [vlu_rt' (reorderCount m) (hm.reorder h)]; rfl
    · rw [if_neg h, if_neg h, decide_eq_false h]; rfl
  rw [run_append _ _ _ _ s7]
  have s8 : runOpts (if m.trackName.length ≠ 0 then [(0x21, m.trackName)] else [])
        ⟨⟨m.streamID, 0, m.codec, m.mediaType, [], -1, floor64 m.origin, m.ticks, m.perSeconds, m.network⟩,
          if m.reorderSuggestion ≥ 0 then reorderCount m else 0, decide (m.reorderSuggestion ≥ 0), true, true⟩ =
      some (some ⟨⟨m.streamID, 0, m.codec, m.mediaType, m.trackName, -1, floor64 m.origin, m.ticks, m.perSeconds, m.network⟩,
        if m.reorderSuggestion ≥ 0 then reorderCount m else 0, decide (m.reorderSuggestion ≥ 0), true, true⟩) := by
    split
    · rfl
    · rename_i h
      have : m.trackName = [] := List.eq_nil_of_length_eq_zero (by omega)
      rw [this]; rfl
  rw [run_append _ _ _ _ s8]
  split
  · show (some ((VLU.parse (VLU.encode m.trackID)).map _)).bind _ = _
    rw [vlu_rt' _ hm.trackID]; rfl
  · rename_i h
    have : m.trackID = 0 := by omega
    rw [this]; rfl

theorem encode_le (v : Nat) (hv : v < 2 ^ 64) : (VLU.encode v).length ≤ 10 := (C01_vlu_encode_size v hv).2

theorem opts_small (m : Track) (hm : m.Ok) : ∀ o ∈ optsOfTrack m, o.1 < 2 ^ 64 ∧ o.2.length + 10 < 2 ^ 64 := by
  have key : ∀ (c : Prop) [Decidable c] (x o : Nat × Bytes), o ∈ (if c then [x] else []) → c ∧ o = x := by
    intro c _ x o h
    split at h
    · rename_i hc; exact ⟨hc, by simpa using h⟩
    · cases h
  intro o ho
  simp only [optsOfTrack, List.mem_append] at ho
  rcases ho with h | h | h | h | h | h | h | h | h
  · cases List.mem_singleton.mp h
    exact ⟨by norm_num, by have := encode_le _ hm.streamID; simp only; omega⟩
  · cases List.mem_singleton.mp h
    exact ⟨by norm_num, hm.codec⟩
  · obtain ⟨_, rfl⟩ := key _ _ _ h
    exact ⟨by norm_num, hm.mediaType⟩
  · obtain ⟨_, rfl⟩ := key _ _ _ h
    exact ⟨by norm_num, by norm_num [toNTP4_length]⟩
  · obtain ⟨_, rfl⟩ := key _ _ _ h
    refine ⟨by norm_num, ?_⟩
    have := encode_le _ hm.ticks.2
    have := encode_le _ hm.perSeconds.2
    simp only [List.length_append]
    omega
  · obtain ⟨_, rfl⟩ := key _ _ _ h
    exact ⟨by norm_num, by norm_num [toNTP4_length]⟩
  · obtain ⟨hc, rfl⟩ := key _ _ _ h
    exact ⟨by norm_num, by have := encode_le _ (hm.reorder hc); simp only [reorderCount]; omega⟩
  · obtain ⟨_, rfl⟩ := key _ _ _ h
    exact ⟨by norm_num, hm.trackName⟩
  · obtain ⟨_, rfl⟩ := key _ _ _ h
    exact ⟨by norm_num, by have := encode_le _ hm.trackID; simp only; omega⟩

theorem encs_length (os : List (Nat × Bytes)) : os.length ≤ (encs os).length := by
  induction os with
  | nil => simp
  | cons o os ih =>
    have : encs (o :: os) = Opt.append o.1 o.2 [] ++ encs os := by simp [encs]
    rw [this, List.length_append, List.length_cons]
    have := encode_length_pos o.1
    simp only [Opt.append, List.length_append]
    omega

theorem from_to (m : Track) (hm : m.Ok) : fromMetadata (toMetadata m) = some (some (back m)) := by
  rw [fromMetadata, toMetadata_eq]
  have h1 : ¬ ((signature ++ encs (optsOfTrack m)).length < signature.length ∨ (signature ++ encs (optsOfTrack m)).take signature.length ≠ signature) := by
    rintro (h | h)
    · rw [List.length_append] at h; omega
    · exact h List.take_left
  rw [if_neg h1, List.drop_left, loop_run _ _ _ (opts_small m hm) (by have := encs_length (optsOfTrack m); rw [List.length_append]; omega), run_track m hm]
  simp only [Option.map_some, Option.bind_some, finish, Bool.and_true, if_true]
  by_cases h : m.reorderSuggestion ≥ 0
  · rw [decide_eq_true h, if_pos rfl, if_pos h, back, if_pos h]; rfl
  · rw [decide_eq_false h, if_neg (by decide), back, if_neg h]

end Media

/-- for the examples: 90 kHz, an origin of a third of a second, a suggestion that isn't a multiple of a tick -/
def Media.demoTrack : Track := ⟨7, 2, [0x61, 0x76, 0x63], [], [0x41], 1 / 7, 1 / 3, 90000, 1, true⟩

/-- the description of a track comes back as it was; its time origin within 2^-64 seconds, and its reorder suggestion within half a tick -/
theorem C66_round_trip (m : Track) (hm : m.Ok) : ∃ m', fromMetadata (toMetadata m) = some (some m') ∧
    m'.streamID = m.streamID ∧ m'.trackID = m.trackID ∧ m'.codec = m.codec ∧ m'.mediaType = m.mediaType ∧ m'.trackName = m.trackName ∧
    m'.ticks = m.ticks ∧ m'.perSeconds = m.perSeconds ∧ m'.network = m.network ∧ m'.origin ≤ m.origin ∧ m.origin < m'.origin + 1 / 2 ^ 64 ∧
    (m.reorderSuggestion < 0 → m'.reorderSuggestion < 0) ∧
    (0 ≤ m.reorderSuggestion → 0 ≤ m'.reorderSuggestion ∧ |m'.reorderSuggestion - m.reorderSuggestion| ≤ (m.perSeconds : ℚ) / m.ticks / 2) := by
  have hd := tick_pos m hm.ticks.1 hm.perSeconds.1
  refine ⟨back m, from_to m hm, rfl, rfl, rfl, rfl, rfl, rfl, rfl, rfl, (floor64_bounds _ hm.origin.1).1, (floor64_bounds _ hm.origin.1).2, ?_, ?_⟩
  · intro h
    have : ¬ m.reorderSuggestion ≥ 0 := by linarith
    simp only [back, if_neg this]
    norm_num
  · intro h
    simp only [back, if_pos h]
    refine ⟨by positivity, ?_⟩
    exact round_near m.reorderSuggestion m.tick hd h

example : demoTrack.Ok := by
  refine ⟨by decide, by decide, by decide, by decide, by decide, by decide, by decide, ⟨by decide +kernel, by decide +kernel⟩, fun _ => by decide +kernel⟩

/-- and the library takes it for equal, if a tick is at least 2^-63 seconds long -/
theorem C66_equal (m : Track) (hm : m.Ok) (ht : m.ticks ≤ m.perSeconds * 2 ^ 63) : ∃ m', fromMetadata (toMetadata m) = some (some m') ∧ m.equal m' = true := by
  obtain ⟨m', h1, e1, e2, e3, e4, e5, e6, e7, e8, o1, o2, r1, r2⟩ := C66_round_trip m hm
  refine ⟨m', h1, ?_⟩
  have hd := tick_pos m hm.ticks.1 hm.perSeconds.1
  have hlong : 1 / 2 ^ 64 ≤ m.tick / 2 := by
    have h0 : (0 : ℚ) < m.ticks := by exact_mod_cast hm.ticks.1
    have : (m.ticks : ℚ) ≤ m.perSeconds * 2 ^ 63 := by exact_mod_cast ht
    rw [Track.tick, div_div, div_le_div_iff₀ (by norm_num) (by positivity)]
    linarith
  have ho : |m.origin - m'.origin| < m.tick / 2 := by
    rw [abs_lt]
    constructor <;> linarith
  have hr : (m.reorderSuggestion < 0 ∧ m'.reorderSuggestion < 0) ∨ |m.reorderSuggestion - m'.reorderSuggestion| < 2 * m.tick := by
    by_cases h : m.reorderSuggestion < 0
    · exact Or.inl ⟨h, r1 h⟩
    · obtain ⟨_, h2⟩ := r2 (by linarith)
      refine Or.inr ?_
      rw [abs_sub_comm]
      refine lt_of_le_of_lt h2 ?_
      show m.tick / 2 < _
      linarith
  simp only [Track.equal, Track.encodingEqual, e1, e2, e3, e4, e5, e6, e7, e8, beq_self_eq_true, Bool.true_and, Bool.and_true, Bool.and_eq_true,
    Bool.or_eq_true, decide_eq_true_eq]
  exact ⟨hr, ho⟩

namespace Media

/-- a time of the format -/
def IsNtp (t : ℚ) : Prop := ∃ i f : Nat, i < 2 ^ 63 ∧ f < 2 ^ 64 ∧ t = (i : ℚ) + (f : ℚ) / scale64

theorem isNtp_floor (t : ℚ) (h : IsNtp t) : 0 ≤ t ∧ t < 2 ^ 63 ∧ floor64 t = t := by
  obtain ⟨i, f, hi, hf, rfl⟩ := h
  have hf' : (f : ℚ) < scale64 := by
    have : (f : ℚ) < 2 ^ 64 := by exact_mod_cast hf
    calc (f : ℚ) < 2 ^ 64 := this
      _ = scale64 := by norm_num
  have h0 : (0 : ℚ) ≤ (f : ℚ) / scale64 := by positivity
  have h1 : (f : ℚ) / scale64 < 1 := by rw [div_lt_one (by norm_num)]; exact hf'
  have hi' : (i : ℚ) + 1 ≤ 2 ^ 63 := by exact_mod_cast hi
  have e1 := floor_eq ((i : ℚ) + (f : ℚ) / scale64) i (by linarith) (by linarith)
  have e2 : ((((i : ℚ) + (f : ℚ) / scale64).floor : ℤ) : ℚ) = i := by
    have hn : (0 : ℤ) ≤ ((i : ℚ) + (f : ℚ) / scale64).floor := by rw [floor_def']; exact Int.floor_nonneg.mpr (by positivity)
    have := Int.toNat_of_nonneg hn
    rw [e1] at this
    rw [← this]
    rfl
  refine ⟨by positivity, by linarith, ?_⟩
  rw [floor64, e1, e2]
  have e3 : ((i : ℚ) + (f : ℚ) / scale64 - i) * scale64 = f := by
    rw [add_sub_cancel_left, div_mul_cancel₀ _ (by norm_num)]
  rw [e3, floor_eq (f : ℚ) f (le_refl _) (by linarith)]

/-- what holds while options are taken in; `L` bounds the strings -/
structure Good (L : Nat) (s : Parse) : Prop where
  streamID : s.m.streamID < 2 ^ 64
  trackID : s.m.trackID < 2 ^ 64
  codec : s.m.codec.length ≤ L
  mediaType : s.m.mediaType.length ≤ L
  trackName : s.m.trackName.length ≤ L
  ticks : 0 < s.m.ticks ∧ s.m.ticks < 2 ^ 64
  perSeconds : 0 < s.m.perSeconds ∧ s.m.perSeconds < 2 ^ 64
  origin : IsNtp s.m.origin
  reorder : s.m.reorderSuggestion = -1
  reorderTicks : s.reorderTicks < 2 ^ 64

theorem good_init (L : Nat) : Good L ⟨Track.init, 0, false, false, false⟩ :=
  ⟨by decide, by decide, Nat.zero_le _, Nat.zero_le _, Nat.zero_le _, by decide, by decide, ⟨0, 0, by decide, by decide, by norm_num [Track.init]⟩, rfl, (by decide : 0 < 2 ^ 64)⟩

theorem readU64_ok (c : Bytes) (h : 8 ≤ c.length) : ∃ v, readU64 c = some v ∧ v < 2 ^ 64 := by
  obtain ⟨v, h1, h2⟩ := AMF.rdNum_ok 8 0 c h
  exact ⟨v, by rw [readU64, h1]; rfl, by omega⟩

theorem readU64_small (b : UInt8) (c : Bytes) (v : Nat) (h : readU64 (b :: c) = some v) (hb : b.toNat < 128) : v < 2 ^ 63 := by
  rw [readU64, Option.map_eq_some_iff] at h
  obtain ⟨⟨v', c'⟩, h1, rfl⟩ := h
  have h1 : AMF.rdNum 7 (0 * 256 + b.toNat) c = some (v', c') := h1
  by_cases hc : 7 ≤ c.length
  · obtain ⟨v, h2, h3⟩ := AMF.rdNum_ok 7 (0 * 256 + b.toNat) c hc
    rw [h1] at h2
    cases h2
    show v' < _
    have : (0 * 256 + b.toNat + 1) * 256 ^ 7 ≤ 128 * 256 ^ 7 := Nat.mul_le_mul_right _ (by omega)
    have e : 128 * 256 ^ 7 = 2 ^ 63 := by norm_num
    omega
  · exfalso
    have main : ∀ (n acc : Nat) (c : Bytes), c.length < n → AMF.rdNum n acc c = none := by
      intro n
      induction n with
      | zero => intro _ _ h; omega
      | succ n ih =>
        intro acc c h
        cases c with
        | nil => rfl
        | cons x c => exact ih _ _ (by simpa using h)
    rw [main 7 _ c (by omega)] at h1
    cases h1

theorem ntp_parse (v : Bytes) (h : 16 ≤ v.length) : ∃ t, fromNTP4 v = some t ∧ (t < 0 ∨ IsNtp t) := by
  cases v with
  | nil => simp at h
  | cons b v =>
    rw [fromNTP4_cons]
    by_cases hb : b ≥ 0x80
    · exact ⟨-1, by rw [if_pos hb], Or.inl (by norm_num)⟩
    · rw [if_neg hb]
      obtain ⟨i, h1, _⟩ := readU64_ok (b :: v) (by omega)
      obtain ⟨f, h2, h3⟩ := readU64_ok ((b :: v).drop 8) (by rw [List.length_drop]; omega)
      refine ⟨_, by rw [h1, h2]; rfl, Or.inr ⟨i, f, readU64_small b v i h1 ?_, h3, rfl⟩⟩
      have : ¬ 128 ≤ b.toNat := fun h => hb (UInt8.le_iff_toNat_le.mpr h)
      omega

theorem good_option (L : Nat) (s : Parse) (hs : Good L s) (type : Nat) (v : Bytes) (hv : v.length ≤ L) :
    ∃ r, setOption s type v = some r ∧ ∀ s', r = some s' → Good L s' := by
  have map : ∀ (f : Nat × Nat → Parse), (∀ x n, x < 2 ^ 64 → Good L (f (x, n))) → ∃ r, some ((VLU.parse v).map f) = some r ∧ ∀ s', r = some s' → Good L s' := by
    intro f hf
    refine ⟨_, rfl, fun s' h => ?_⟩
    rw [Option.map_eq_some_iff] at h
    obtain ⟨⟨x, n⟩, h1, rfl⟩ := h
    exact hf x n (vlu_bounds _ _ _ h1).2.2
  unfold setOption
  split
  · exact map _ (fun x n hx => { hs with streamID := hx })
  · exact ⟨_, rfl, fun s' h => by cases h; exact { hs with codec := hv }⟩
  · exact ⟨_, rfl, fun s' h => by cases h; exact { hs with mediaType := hv }⟩
  · split
    · exact ⟨_, rfl, fun s' h => by cases h⟩
    · obtain ⟨t, h1, h2⟩ := ntp_parse v (by omega)
      rw [h1]
      refine ⟨_, rfl, fun s' h => ?_⟩
      have h : (s.m.setOrigin t).map (fun m => { s with m := m }) = some s' := h
      simp only [Track.setOrigin] at h
      split at h
      · cases h
      · cases h
        rename_i hn
        exact { hs with origin := h2.resolve_left hn }
  · refine ⟨_, rfl, fun s' h => ?_⟩
    simp only [Option.bind_eq_some_iff, Option.map_eq_some_iff] at h
    obtain ⟨⟨a, n⟩, h1, ⟨b, k⟩, h2, m, h3, rfl⟩ := h
    rw [Track.setTimescale] at h3
    split at h3
    · cases h3
    · cases h3
      rename_i hz
      have := (vlu_bounds _ _ _ h1).2.2
      have := (vlu_bounds _ _ _ h2).2.2
      exact { hs with ticks := ⟨by show 0 < a; simp only at hz; omega, by assumption⟩, perSeconds := ⟨by show 0 < b; simp only at hz; omega, by assumption⟩ }
  · exact ⟨_, rfl, fun s' h => by cases h; exact { hs with }⟩
  · exact map _ (fun x n hx => { hs with reorderTicks := hx })
  · exact ⟨_, rfl, fun s' h => by cases h; exact { hs with trackName := hv }⟩
  · exact map _ (fun x n hx => { hs with trackID := hx })
  · exact ⟨_, rfl, fun s' h => by cases h; exact hs⟩

theorem signature_eq : signature = "http://zenomt.com/ns/rtmfp#media\x00".toList.map (fun c => UInt8.ofNat c.toNat) := by decide +kernel

theorem good_loop (L : Nat) : ∀ (fuel : Nat) (c : Bytes) (s : Parse), c.length < fuel → c.length ≤ L → Good L s →
    ∃ r, metaLoop fuel c s = some r ∧ ∀ s', r = some s' → Good L s' := by
  intro fuel
  induction fuel with
  | zero => intro c _ h; omega
  | succ fuel ih =>
    intro c s hf hc hs
    rw [metaLoop]
    split
    · exact ⟨_, rfl, fun s' h => by cases h; exact hs⟩
    · cases ho : Opt.parse c with
      | none => exact ⟨_, rfl, fun s' h => by cases h⟩
      | some r =>
        obtain ⟨o, n⟩ := r
        obtain ⟨h1, h2, h3⟩ := C03_option_in_bounds c o n ho
        have hl : (c.drop n).length < fuel ∧ (c.drop n).length ≤ L := by rw [List.length_drop]; omega
        cases hv : o.value with
        | none =>
          simp only [hv]
          exact ih _ s hl.1 hl.2 hs
        | some v =>
          simp only [hv]
          obtain ⟨pre, hpre⟩ := h3 v hv
          have hvl : v.length ≤ L := by
            have := congrArg List.length hpre
            rw [List.length_take, List.length_append] at this
            omega
          obtain ⟨r, r1, r2⟩ := good_option L s hs o.type v hvl
          rw [r1, Option.bind_some]
          cases r with
          | none => exact ⟨_, rfl, fun s' h => by cases h⟩
          | some s1 => exact ih _ s1 hl.1 hl.2 (r2 s1 rfl)

end Media

/-- arbitrary bytes are refused or give a description within the limits, without reading outside of them; only bytes that begin with the signature are accepted -/
theorem C66_safe (b : Bytes) (hb : b.length + 10 < 2 ^ 64) : ∃ r, fromMetadata b = some r ∧
    ∀ m, r = some m → m.Ok ∧ b.take 33 = "http://zenomt.com/ns/rtmfp#media\x00".toList.map (fun c => UInt8.ofNat c.toNat) ∧ fromMetadata (toMetadata m) = some (some m) := by
  rw [fromMetadata]
  by_cases hc : b.length < signature.length ∨ b.take signature.length ≠ signature
  · rw [if_pos hc]
    exact ⟨none, rfl, fun m h => by cases h⟩
  · rw [if_neg hc]
    obtain ⟨r, h1, h2⟩ := good_loop b.length (b.length + 1) (b.drop signature.length) ⟨Track.init, 0, false, false, false⟩
      (by rw [List.length_drop]; omega) (by rw [List.length_drop]; omega) (good_init _)
    rw [h1]
    refine ⟨_, rfl, fun m hm => ?_⟩
    cases r with
    | none => cases hm
    | some s =>
      have hg := h2 s rfl
      have hm : finish s = some m := hm
      rw [finish] at hm
      have hsig : b.take 33 = "http://zenomt.com/ns/rtmfp#media\x00".toList.map (fun c => UInt8.ofNat c.toNat) := by
        have : b.take signature.length = signature := by
          by_contra h
          exact hc (Or.inr h)
        rw [signature_eq] at this
        exact this
      obtain ⟨o1, o2, o3⟩ := isNtp_floor _ hg.origin
      have hd := tick_pos s.m hg.ticks.1 hg.perSeconds.1
      have ok : m.Ok ∧ back m = m := by
        split at hm
        · cases hm
          by_cases hr : s.sawReorder = true
          · rw [if_pos hr]
            have hn : (0 : ℚ) ≤ (s.reorderTicks : ℚ) * s.m.tick := by positivity
            have hcount := round_mul s.reorderTicks s.m.tick hd
            refine ⟨⟨hg.streamID, hg.trackID, ?_, ?_, ?_, hg.ticks, hg.perSeconds, ⟨o1, o2⟩, fun _ => ?_⟩, ?_⟩
            · have := hg.codec; show s.m.codec.length + 10 < _; omega
            · have := hg.mediaType; show s.m.mediaType.length + 10 < _; omega
            · have := hg.trackName; show s.m.trackName.length + 10 < _; omega
            · show (((s.reorderTicks : ℚ) * s.m.tick + s.m.tick / 2) / s.m.tick).floor.toNat < _
              rw [hcount]; exact hg.reorderTicks
            · have e : reorderCount { s.m with reorderSuggestion := (s.reorderTicks : ℚ) * s.m.tick } = s.reorderTicks := hcount
              rw [back, e]
              show ({ s.m with origin := floor64 s.m.origin, reorderSuggestion := if (s.reorderTicks : ℚ) * s.m.tick ≥ 0 then (s.reorderTicks : ℚ) * s.m.tick else -1 } : Track) = _
              rw [o3, if_pos hn]
          · rw [if_neg hr]
            have hneg : ¬ (s.m.reorderSuggestion ≥ 0) := by rw [hg.reorder]; norm_num
            refine ⟨⟨hg.streamID, hg.trackID, ?_, ?_, ?_, hg.ticks, hg.perSeconds, ⟨o1, o2⟩, fun h => absurd h hneg⟩, ?_⟩
            · have := hg.codec; omega
            · have := hg.mediaType; omega
            · have := hg.trackName; omega
            · rw [back, o3, if_neg hneg]
              show ({ s.m with origin := s.m.origin, reorderSuggestion := -1 } : Track) = _
              rw [← hg.reorder]
        · cases hm
      exact ⟨ok.1, hsig, by rw [from_to m ok.1, ok.2]⟩

namespace Media

/-- the value of the last option of a type -/
def lastOf (t : Nat) (l : List OptItem) : Option Bytes := l.foldl (fun r o => if o.type = t ∧ o.value.isSome then o.value else r) none

theorem loop_last : ∀ (fuel : Nat) (c : Bytes) (s s' : Parse), metaLoop fuel c s = some (some s') → ∃ l, Opt.parseAll fuel c = some l ∧
    ∀ r1 r2 : Option Bytes, (s.sawStreamID = true → ∃ v n, r1 = some v ∧ VLU.parse v = some (s.m.streamID, n)) → (s.sawCodec = true → r2 = some s.m.codec) →
      (s'.sawStreamID = true → ∃ v n, l.foldl (fun r o => if o.type = 0x1d ∧ o.value.isSome then o.value else r) r1 = some v ∧ VLU.parse v = some (s'.m.streamID, n)) ∧
      (s'.sawCodec = true → l.foldl (fun r o => if o.type = 0x4c ∧ o.value.isSome then o.value else r) r2 = some s'.m.codec) := by
  intro fuel
  induction fuel with
  | zero => intro c s s' h; cases h
  | succ fuel ih =>
    intro c s s' h
    cases c with
    | nil => cases h; exact ⟨[], rfl, fun r1 r2 h1 h2 => ⟨h1, h2⟩⟩
    | cons x c =>
      rw [metaLoop, if_neg (by simp)] at h
      cases ho : Opt.parse (x :: c) with
      | none => rw [ho] at h; cases h
      | some r =>
        obtain ⟨o, n⟩ := r
        rw [ho] at h
        have hpa : Opt.parseAll (fuel + 1) (x :: c) = (Opt.parseAll fuel ((x :: c).drop n)).map (o :: ·) := by rw [Opt.parseAll, ho]; simp
        rw [hpa]
        cases hv : o.value with
        | none =>
          simp only [hv] at h
          obtain ⟨l, e1, e2⟩ := ih _ _ _ h
          refine ⟨o :: l, by rw [e1]; rfl, fun r1 r2 h1 h2 => ?_⟩
          simpa [List.foldl_cons, hv] using e2 r1 r2 h1 h2
        | some v =>
          simp only [hv, Option.bind_eq_some_iff] at h
          obtain ⟨r, h1, h2⟩ := h
          cases r with
          | none => cases h2
          | some s1 =>
            obtain ⟨l, e1, e2⟩ := ih _ _ _ h2
            refine ⟨o :: l, by rw [e1]; rfl, fun r1 r2 g1 g2 => ?_⟩
            have step : (s1.sawStreamID = true → ∃ v' n, (if o.type = 0x1d ∧ o.value.isSome then o.value else r1) = some v' ∧ VLU.parse v' = some (s1.m.streamID, n)) ∧
                (s1.sawCodec = true → (if o.type = 0x4c ∧ o.value.isSome then o.value else r2) = some s1.m.codec) := by
              rw [hv]
              generalize o.type = t at h1 ⊢
              unfold setOption at h1
              split at h1
              · have h1 := Option.some.inj h1
                rw [Option.map_eq_some_iff] at h1
                obtain ⟨⟨a, k⟩, e3, rfl⟩ := h1
                exact ⟨fun _ => ⟨v, k, by simp, e3⟩, fun hc => by simpa using g2 hc⟩
              · cases h1
                exact ⟨fun hc => by simpa using g1 hc, fun _ => by simp⟩
              · cases h1
                exact ⟨fun hc => by simpa using g1 hc, fun hc => by simpa using g2 hc⟩
              · split at h1
                · cases h1
                · rw [Option.map_eq_some_iff] at h1
                  obtain ⟨t, _, h1⟩ := h1
                  rw [Option.map_eq_some_iff] at h1
                  obtain ⟨m, h3, rfl⟩ := h1
                  rw [Track.setOrigin] at h3
                  split at h3
                  · cases h3
                  · cases h3
                    exact ⟨fun hc => by simpa using g1 hc, fun hc => by simpa using g2 hc⟩
              · have h1 := Option.some.inj h1
                simp only [Option.bind_eq_some_iff, Option.map_eq_some_iff] at h1
                obtain ⟨⟨a, n⟩, _, ⟨b, k⟩, _, m, h3, rfl⟩ := h1
                rw [Track.setTimescale] at h3
                split at h3
                · cases h3
                · cases h3
                  exact ⟨fun hc => by simpa using g1 hc, fun hc => by simpa using g2 hc⟩
              · cases h1
                exact ⟨fun hc => by simpa using g1 hc, fun hc => by simpa using g2 hc⟩
              · have h1 := Option.some.inj h1
                rw [Option.map_eq_some_iff] at h1
                obtain ⟨⟨a, k⟩, e3, rfl⟩ := h1
                exact ⟨fun hc => by simpa using g1 hc, fun hc => by simpa using g2 hc⟩
              · cases h1
                exact ⟨fun hc => by simpa using g1 hc, fun hc => by simpa using g2 hc⟩
              · have h1 := Option.some.inj h1
                rw [Option.map_eq_some_iff] at h1
                obtain ⟨⟨a, k⟩, e3, rfl⟩ := h1
                exact ⟨fun hc => by simpa using g1 hc, fun hc => by simpa using g2 hc⟩
              · cases h1
                rename_i n1 n2 _ _ _ _ _ _ _
                rw [if_neg (fun h => n1 h.1), if_neg (fun h => n2 h.1)]
                exact ⟨g1, g2⟩
            exact e2 _ _ step.1 step.2

end Media

/-- accepted metadata is a list of options after the signature, of which the last stream id and the last codec are those of the description: both are there -/
theorem C66_required (b : Bytes) (m : Track) (h : fromMetadata b = some (some m)) : ∃ l v n, Opt.parseAll (b.length + 1) (b.drop 33) = some l ∧
    lastOf 0x1d l = some v ∧ VLU.parse v = some (m.streamID, n) ∧ lastOf 0x4c l = some m.codec := by
  rw [fromMetadata] at h
  split at h
  · cases h
  · rw [Option.map_eq_some_iff] at h
    obtain ⟨r, h1, h2⟩ := h
    cases r with
    | none => cases h2
    | some s =>
      have h2 : finish s = some m := h2
      obtain ⟨l, e1, e2⟩ := loop_last _ _ _ _ h1
      obtain ⟨f1, f2⟩ := e2 none none (fun h => by cases h) (fun h => by cases h)
      rw [finish] at h2
      split at h2
      · rename_i hs
        rw [Bool.and_eq_true] at hs
        obtain ⟨v, n, v1, v2⟩ := f1 hs.1
        have f2 := f2 hs.2
        have : m.streamID = s.m.streamID ∧ m.codec = s.m.codec := by
          cases h2
          split <;> exact ⟨rfl, rfl⟩
        rw [← this.1] at v2
        rw [← this.2] at f2
        exact ⟨l, v, n, e1, v1, v2, f2⟩
      · cases h2

/-- a stream id and a codec are enough; one without the codec is refused -/
example : (fromMetadata (signature ++ [2, 0x1d, 7, 2, 0x4c, 0x61])).map (·.map (fun m => (m.streamID, m.codec))) = some (some (7, [0x61])) ∧
    (fromMetadata (signature ++ [2, 0x1d, 7])).map (·.isSome) = some false := by decide +kernel

namespace Media

theorem strCompare_lt (a b : Bytes) : strCompare a b < 0 ↔ AMF.keyLt a b = true := by
  rw [strCompare]
  split
  · simp_all
  · rename_i h
    split <;> simp [h]

theorem strCompare_zero (a b : Bytes) : strCompare a b = 0 ↔ a = b := by
  rw [strCompare]
  constructor
  · intro h
    split at h
    · cases h
    · split at h
      · cases h
      · rename_i h1 h2
        rcases AMF.keyLt_total a b with x | x | x
        · exact absurd x h1
        · exact absurd x h2
        · exact x
  · rintro rfl
    simp [AMF.keyLt_irrefl]

theorem trackLess_iff (a b : Track) : trackLess a b = true ↔ a.trackID < b.trackID ∨ (a.trackID = b.trackID ∧ AMF.keyLt a.mediaType b.mediaType = true) := by
  rw [trackLess, decide_eq_true_eq, Track.trackCompare]
  by_cases h : a.trackID = b.trackID
  · rw [if_neg (not_not.mpr h), strCompare_lt]
    constructor
    · exact fun x => Or.inr ⟨h, x⟩
    · rintro (x | x)
      · omega
      · exact x.2
  · rw [if_pos h]
    split
    · simp_all
    · rename_i h2
      simp [h, h2]

theorem streamTrackLess_iff (a b : Track) : streamTrackLess a b = true ↔ a.streamID < b.streamID ∨ (a.streamID = b.streamID ∧ trackLess a b = true) := by
  rw [streamTrackLess, trackLess, decide_eq_true_eq, decide_eq_true_eq, Track.streamTrackCompare]
  by_cases h : a.streamID = b.streamID
  · rw [if_neg (not_not.mpr h)]
    constructor
    · exact fun x => Or.inr ⟨h, x⟩
    · rintro (x | x)
      · omega
      · exact x.2
  · rw [if_pos h]
    split
    · simp_all
    · rename_i h2
      simp [h, h2]

end Media

/-- the order of tracks is one that sets and maps can use: irreflexive and transitive, and what isn't ordered is the same track -/
theorem C67_track_order (a b c : Track) : trackLess a a = false ∧ (trackLess a b = true → trackLess b c = true → trackLess a c = true) ∧
    ((trackLess a b = false ∧ trackLess b a = false) ↔ (a.trackID = b.trackID ∧ a.mediaType = b.mediaType)) ∧
    (a.trackCompare b = 0 ↔ (a.trackID = b.trackID ∧ a.mediaType = b.mediaType)) := by
  refine ⟨?_, ?_, ?_, ?_⟩
  · rw [Bool.eq_false_iff, ne_eq, trackLess_iff, AMF.keyLt_irrefl]; simp
  · rw [trackLess_iff, trackLess_iff, trackLess_iff]
    rintro (h1 | ⟨h1, h2⟩) (h3 | ⟨h3, h4⟩)
    · left; omega
    · left; omega
    · left; omega
    · right; exact ⟨h1.trans h3, AMF.keyLt_trans _ _ _ h2 h4⟩
  · rw [Bool.eq_false_iff, Bool.eq_false_iff, ne_eq, ne_eq, trackLess_iff, trackLess_iff]
    constructor
    · rintro ⟨h1, h2⟩
      rw [not_or] at h1 h2
      have e : a.trackID = b.trackID := by omega
      refine ⟨e, ?_⟩
      rcases AMF.keyLt_total a.mediaType b.mediaType with x | x | x
      · exact absurd ⟨e, x⟩ h1.2
      · exact absurd ⟨e.symm, x⟩ h2.2
      · exact x
    · rintro ⟨h1, h2⟩
      rw [h1, h2, AMF.keyLt_irrefl]
      simp
  · rw [Track.trackCompare]
    by_cases h : a.trackID = b.trackID
    · rw [if_neg (not_not.mpr h), strCompare_zero]
      exact ⟨fun x => ⟨h, x⟩, fun x => x.2⟩
    · rw [if_pos h]
      split <;> simp [h]

/-- the same with the stream -/
theorem C67_stream_track_order (a b c : Track) : streamTrackLess a a = false ∧
    (streamTrackLess a b = true → streamTrackLess b c = true → streamTrackLess a c = true) ∧
    ((streamTrackLess a b = false ∧ streamTrackLess b a = false) ↔ (a.streamID = b.streamID ∧ a.trackID = b.trackID ∧ a.mediaType = b.mediaType)) ∧
    (a.streamTrackCompare b = 0 ↔ (a.streamID = b.streamID ∧ a.trackID = b.trackID ∧ a.mediaType = b.mediaType)) := by
  obtain ⟨t1, t2, t3, t4⟩ := C67_track_order a b c
  refine ⟨?_, ?_, ?_, ?_⟩
  · rw [Bool.eq_false_iff, ne_eq, streamTrackLess_iff, t1]; simp
  · rw [streamTrackLess_iff, streamTrackLess_iff, streamTrackLess_iff]
    rintro (h1 | ⟨h1, h2⟩) (h3 | ⟨h3, h4⟩)
    · left; omega
    · left; omega
    · left; omega
    · right; exact ⟨h1.trans h3, t2 h2 h4⟩
  · rw [← t3, Bool.eq_false_iff, Bool.eq_false_iff, ne_eq, ne_eq, streamTrackLess_iff, streamTrackLess_iff, Bool.eq_false_iff, Bool.eq_false_iff]
    constructor
    · rintro ⟨h1, h2⟩
      rw [not_or] at h1 h2
      have e : a.streamID = b.streamID := by omega
      exact ⟨e, fun x => h1.2 ⟨e, x⟩, fun x => h2.2 ⟨e.symm, x⟩⟩
    · rintro ⟨h1, h2, h3⟩
      constructor
      · rintro (x | x)
        · omega
        · exact h2 x.2
      · rintro (x | x)
        · omega
        · exact h3 x.2
  · rw [Track.streamTrackCompare]
    by_cases h : a.streamID = b.streamID
    · rw [if_neg (not_not.mpr h), t4]
      exact ⟨fun x => ⟨h, x⟩, fun x => x.2⟩
    · rw [if_pos h]
      split <;> simp [h]

example : trackLess { demoTrack with mediaType := [0x61] } { demoTrack with mediaType := [0x76] } = true ∧
    streamTrackLess demoTrack { demoTrack with trackID := 3 } = true := by decide +kernel

end Rtmfp
