import Verif.Lemmas.VLU

/-!
# C01, C02, C03: VLUs, fields and options
-/

namespace Rtmfp

/-! ## C01 -/

/-- C01: encoding then parsing (either saturation mode, anything following) returns the value and
the number of bytes written. -/
theorem C01_vlu_round_trip (v : Nat) (hv : v < 2 ^ 64) (rest : Bytes) (sat : Bool) :
    VLU.parse (VLU.encode v ++ rest) sat = some (v, (VLU.encode v).length) :=
  parse_encode v rest sat hv

example : (300 : Nat) < 2 ^ 64 ∧ VLU.encode 300 = [0x82, 0x2c] ∧
    VLU.parse ([0x82, 0x2c] ++ [0xff]) = some (300, 2) := by
  refine ⟨by decide, ?_, ?_⟩
  · decide +kernel
  · decide

/-- C01: between 1 and 10 bytes are written (so the 10-byte buffer in the code is never overrun). -/
theorem C01_vlu_encode_size (v : Nat) (hv : v < 2 ^ 64) :
    1 ≤ (VLU.encode v).length ∧ (VLU.encode v).length ≤ 10 :=
  ⟨encode_length_pos v, encode_length_le v hv⟩

/-- C01: the encoding is a VLU of the wire format whose base-128 value is `v`. -/
theorem C01_vlu_encode_wellformed (v : Nat) :
    Spec.IsVLU (VLU.encode v) ∧ Spec.base128 (VLU.encode v) = v := by
  have h := (vluScan_some 0 (VLU.encode v) v _).mp (by simpa using scan_encode v [])
  obtain ⟨pre, rest, he, hn, hi, hv⟩ := h
  have : rest = [] := by
    have := congrArg List.length he
    rw [List.length_append, hn] at this
    exact List.length_eq_zero_iff.mp (by omega)
  subst this
  rw [List.append_nil] at he
  rw [he]
  exact ⟨hi, hv.symm⟩

/-- C01: no byte string that parses to the same value is shorter than the encoding. -/
theorem C01_vlu_encode_minimal (v : Nat) (hv : v < 2 ^ 64) (src : Bytes) (sat : Bool) (n : Nat)
    (h : VLU.parse src sat = some (v, n)) : (VLU.encode v).length ≤ n := by
  rw [parse_eq_scan, Option.map_eq_some_iff] at h
  obtain ⟨⟨t, n'⟩, hs, h2⟩ := h
  simp at h2
  obtain ⟨pre, rest, he, hn, ⟨init, last, hp, hi, hl⟩, ht⟩ := (vluScan_some _ _ _ _).mp hs
  have hlt := base128_lt pre 0
  rw [← ht] at hlt
  have hvt : v ≤ t := by
    rcases sat with _ | _ <;> simp at h2 <;> omega
  have hpos : 1 ≤ n' := by rw [← hn, hp]; simp
  obtain ⟨k, hk⟩ : ∃ k, n' = k + 1 := ⟨n' - 1, by omega⟩
  have := encode_length_bound k v (by rw [hn, hk] at hlt; omega)
  omega

/-- a non-minimal encoding of 5 exists, so minimality is not vacuous -/
example : VLU.parse [0x80, 0x80, 0x05] = some (5, 3) ∧ (VLU.encode 5).length = 1 := by
  refine ⟨by decide, by decide +kernel⟩

/-! ## C02 -/

/-- C02: parsing fails exactly when no byte before the limit is terminal. -/
theorem C02_vlu_parse_fails_iff (src : Bytes) (sat : Bool) :
    VLU.parse src sat = none ↔ ∀ b ∈ src, Spec.continues b := by
  rw [parse_eq_scan, Option.map_eq_none_iff, vluScan_none]

/-- C02: otherwise it consumes exactly a complete VLU prefix of the buffer, and answers its base-128
value, saturated or modulo 2^64. -/
theorem C02_vlu_parse_value (src : Bytes) (sat : Bool) (v n : Nat)
    (h : VLU.parse src sat = some (v, n)) :
    1 ≤ n ∧ n ≤ src.length ∧ Spec.IsVLU (src.take n) ∧
      v = (if sat then min (Spec.base128 (src.take n)) (2 ^ 64 - 1)
           else Spec.base128 (src.take n) % 2 ^ 64) := by
  rw [parse_eq_scan, Option.map_eq_some_iff] at h
  obtain ⟨⟨t, n'⟩, hs, h2⟩ := h
  simp at h2
  obtain ⟨h2a, rfl⟩ := h2
  obtain ⟨pre, rest, he, hn, hi, ht⟩ := (vluScan_some _ _ _ _).mp hs
  have htk : src.take n' = pre := by rw [he, ← hn]; simp
  obtain ⟨init, last, hp, _⟩ := id hi
  refine ⟨?_, ?_, ?_, ?_⟩
  · rw [← hn, hp]; simp
  · rw [he, ← hn]; simp
  · rw [htk]; exact hi
  · rw [htk, ← h2a, ht]; simp [Spec.base128]

/-- Both C02 cases occur: an unterminated buffer, a saturating and a wrapping one. -/
example : VLU.parse [0x80, 0xff] = none ∧
    VLU.parse [0x83, 0x80, 0x80, 0x80, 0x80, 0x80, 0x80, 0x80, 0x80, 0x01] true = some (2 ^ 64 - 1, 10) ∧
    VLU.parse [0x83, 0x80, 0x80, 0x80, 0x80, 0x80, 0x80, 0x80, 0x80, 0x01] false = some (2 ^ 63 + 1, 10) := by
  decide

/-- C02: bytes after the consumed ones have no influence. -/
theorem C02_vlu_parse_local (src rest : Bytes) (sat : Bool) (v n : Nat)
    (h : VLU.parse src sat = some (v, n)) : VLU.parse (src ++ rest) sat = some (v, n) := by
  rw [parse_eq_scan, Option.map_eq_some_iff] at h ⊢
  obtain ⟨⟨t, n'⟩, hs, h2⟩ := h
  refine ⟨(t, n'), ?_, h2⟩
  rw [vluScan_some] at hs ⊢
  obtain ⟨pre, r, he, h3⟩ := hs
  exact ⟨pre, r ++ rest, by simp [he], h3⟩

/-! ## C03 -/

/-- What the option API appends for one item of a specification-level option list. -/
def appendOpt (dst : Bytes) : Spec.Opt → Bytes
  | .typed t v => Opt.append t v dst
  | .marker => Opt.appendMarker dst

/-- What the parser is expected to report for it. -/
def reportOpt : Spec.Opt → OptItem
  | .typed t v => ⟨t, some v⟩
  | .marker => ⟨0, none⟩

/-- Options that can be represented: 64-bit type, total length below 2^64. -/
def Spec.Opt.ok : Spec.Opt → Prop
  | .typed t v => t < 2 ^ 64 ∧ v.length + 10 < 2 ^ 64
  | .marker => True

theorem C03_field_round_trip (payload rest : Bytes) (h : payload.length < 2 ^ 64) :
    VLU.parseField (VLU.encode payload.length ++ payload ++ rest) =
      some (payload, (VLU.encode payload.length).length + payload.length) := by
  unfold VLU.parseField
  rw [List.append_assoc, parse_encode _ _ _ h]
  simp

theorem encode_eq_encode_zero : VLU.encode 0 = [0] := by decide +kernel

/-- C03: one option followed by anything is parsed back, consuming exactly what was appended. -/
theorem C03_option_round_trip (o : Spec.Opt) (ho : o.ok) (rest : Bytes) :
    Opt.parse (appendOpt [] o ++ rest) = some (reportOpt o, (appendOpt [] o).length) := by
  cases o with
  | marker =>
    have hf := C03_field_round_trip [] rest (by simp)
    simp only [appendOpt, Opt.appendMarker, VLU.append, List.nil_append, reportOpt]
    unfold Opt.parse
    simp at hf
    rw [hf]; simp
  | typed t v =>
    obtain ⟨h1, h2⟩ := ho
    have hle := encode_length_le t h1
    have hpos := encode_length_pos t
    have hf := C03_field_round_trip (VLU.encode t ++ v) rest (by simp; omega)
    have hmod : ((VLU.encode t).length + v.length) % W64 = (VLU.encode t ++ v).length := by
      simp; omega
    simp only [appendOpt, Opt.append, hmod, List.nil_append, reportOpt]
    unfold Opt.parse
    rw [List.append_assoc (VLU.encode (VLU.encode t ++ v).length)]
    rw [hf]
    simp only [List.length_append]
    rw [if_neg (by omega), parse_encode t v _ h1]
    simp

theorem appendOpt_dst (dst : Bytes) (o : Spec.Opt) : appendOpt dst o = dst ++ appendOpt [] o := by
  cases o <;> simp [appendOpt, Opt.append, Opt.appendMarker, VLU.append]

theorem appendOpt_pos (o : Spec.Opt) : 1 ≤ (appendOpt [] o).length := by
  cases o with
  | marker => simp [appendOpt, Opt.appendMarker, VLU.append, encode_length_pos]
  | typed t v =>
    simp [appendOpt, Opt.append]
    have := encode_length_pos t
    omega

/-- C03: an option list appended item after item to any destination is parsed back exactly. -/
theorem C03_option_list_round_trip (os : List Spec.Opt) (hos : ∀ o ∈ os, o.ok) (fuel : Nat)
    (hfuel : (os.foldl appendOpt []).length ≤ fuel) :
    Opt.parseAll fuel (os.foldl appendOpt []) = some (os.map reportOpt) := by
  have hfold : ∀ (os : List Spec.Opt) (d : Bytes), os.foldl appendOpt d = d ++ os.foldl appendOpt [] := by
    intro os
    induction os with
    | nil => simp
    | cons o os ih =>
      intro d
      simp only [List.foldl_cons]
      rw [ih, ih (appendOpt [] o), appendOpt_dst, List.append_assoc]
  induction os generalizing fuel with
  | nil => simp [Opt.parseAll]
  | cons o os ih =>
    simp only [List.foldl_cons] at hfuel ⊢
    rw [hfold] at hfuel ⊢
    have hp := appendOpt_pos o
    rw [List.length_append] at hfuel
    obtain ⟨f, rfl⟩ : ∃ f, fuel = f + 1 := ⟨fuel - 1, by omega⟩
    have hne : appendOpt [] o ++ os.foldl appendOpt [] ≠ [] := by
      intro h; have := congrArg List.length h; rw [List.length_append, List.length_nil] at this; omega
    rw [Opt.parseAll]
    · rw [C03_option_round_trip o (hos o (by simp))]
      simp only [List.drop_left]
      have hle : (os.foldl appendOpt []).length ≤ f := by omega
      rw [ih (fun x hx => hos x (by simp [hx])) f hle]
      simp
    · exact hne

example : ∀ o ∈ [Spec.Opt.typed 10 [1, 2, 3], .typed 300 [], .marker], o.ok := by
  intro o h; simp at h; rcases h with rfl | rfl | rfl <;> simp [Spec.Opt.ok]

/-- C03: parsing a field from arbitrary bytes stays inside the buffer. -/
theorem C03_field_in_bounds (src payload : Bytes) (n : Nat)
    (h : VLU.parseField src = some (payload, n)) :
    1 ≤ n ∧ n ≤ src.length ∧ ∃ pre, src.take n = pre ++ payload := by
  unfold VLU.parseField at h
  split at h
  · simp at h
  · next fl rv hp =>
    obtain ⟨h1, h2, _⟩ := C02_vlu_parse_value _ _ _ _ hp
    simp only at h
    split at h
    · simp at h
    · next hle =>
      simp at h hle
      obtain ⟨h3, h4⟩ := h
      refine ⟨by omega, by omega, src.take rv, ?_⟩
      rw [← h3, ← h4, List.take_add]

/-- C03: parsing an option from arbitrary bytes consumes at least one and at most the available
bytes, and the reported value is the tail of the consumed bytes. -/
theorem C03_option_in_bounds (src : Bytes) (o : OptItem) (n : Nat)
    (h : Opt.parse src = some (o, n)) :
    1 ≤ n ∧ n ≤ src.length ∧ ∀ v, o.value = some v → ∃ pre, src.take n = pre ++ v := by
  unfold Opt.parse at h
  split at h
  · simp at h
  · next payload c hp =>
    obtain ⟨h1, h2, pre, h3⟩ := C03_field_in_bounds _ _ _ hp
    split at h
    · simp at h
      obtain ⟨rfl, rfl⟩ := h
      exact ⟨h1, h2, by simp⟩
    · split at h
      · simp at h
      · next t rv hq =>
        simp at h
        obtain ⟨rfl, rfl⟩ := h
        refine ⟨h1, h2, ?_⟩
        intro v hv
        simp at hv
        refine ⟨pre ++ payload.take rv, ?_⟩
        rw [h3, ← hv, List.append_assoc, List.take_append_drop]

/-- the in-bounds theorems are about inputs that exist; and a field longer than the buffer is refused -/
example : Opt.parse [3, 10, 1, 2, 99] = some (⟨10, some [1, 2]⟩, 4) ∧ Opt.parse [5, 10, 1, 2] = none := by
  decide

end Rtmfp
