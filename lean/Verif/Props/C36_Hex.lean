import Verif.Model.Hex

/-! # C36: hex coding -/

namespace Rtmfp
namespace Hex

/-- the value of a hex digit, in words: 0-9, a-f, A-F -/
def digitValue (d : UInt8) : Option Nat :=
  if d ∈ (List.range 10).map (fun i => UInt8.ofNat (48 + i)) then some (d.toNat - 48)
  else if d ∈ (List.range 6).map (fun i => UInt8.ofNat (97 + i)) then some (d.toNat - 97 + 10)
  else if d ∈ (List.range 6).map (fun i => UInt8.ofNat (65 + i)) then some (d.toNat - 65 + 10)
  else none

/-- space, tab, newline, vertical tab, form feed, carriage return -/
def blank (d : UInt8) : Prop := d ∈ ([32, 9, 10, 11, 12, 13] : List UInt8)

/-- `s` is made of two-digit groups with white space around them, and spells `bs` -/
inductive Spells : Bytes → Bytes → Prop
  | nil : Spells [] []
  | blank {c s bs} : blank c → Spells s bs → Spells (c :: s) bs
  | group {c d s bs hi lo} : digitValue c = some hi → digitValue d = some lo → Spells s bs → Spells (c :: d :: s) (UInt8.ofNat (16 * hi + lo) :: bs)

theorem digit_cases (d : UInt8) : (decodeDigit d = -2 ∧ digitValue d = none ∧ ¬ blank d) ∨ (decodeDigit d = -1 ∧ digitValue d = none ∧ blank d) ∨
    (∃ n : Nat, n < 16 ∧ decodeDigit d = (n : Int) ∧ digitValue d = some n ∧ ¬ blank d) := by
  have h : ∀ d : UInt8, (decodeDigit d = -2 ∧ digitValue d = none ∧ ¬ d ∈ ([32, 9, 10, 11, 12, 13] : List UInt8)) ∨
      (decodeDigit d = -1 ∧ digitValue d = none ∧ d ∈ ([32, 9, 10, 11, 12, 13] : List UInt8)) ∨
      (∃ n : Fin 16, decodeDigit d = (n.val : Int) ∧ digitValue d = some n.val ∧ ¬ d ∈ ([32, 9, 10, 11, 12, 13] : List UInt8)) := by
    intro d; cases d with | _ d => cases d with | _ d => revert d; decide +kernel
  rcases h d with h | h | ⟨n, h1, h2, h3⟩
  · exact .inl h
  · exact .inr (.inl h)
  · exact .inr (.inr ⟨n.val, n.isLt, h1, h2, h3⟩)

theorem join_digits (a b : Nat) (ha : a < 16) (hb : b < 16) :
    ((((0 : UInt8) <<< 4) + UInt8.ofNat (Int.toNat (a : Int))) <<< 4) + UInt8.ofNat (Int.toNat (b : Int)) = UInt8.ofNat (16 * a + b) := by
  have h : ∀ a b : Fin 16, ((((0 : UInt8) <<< 4) + UInt8.ofNat (Int.toNat (a.val : Int))) <<< 4) + UInt8.ofNat (Int.toNat (b.val : Int)) = UInt8.ofNat (16 * a.val + b.val) := by
    decide +kernel
  exact h ⟨a, ha⟩ ⟨b, hb⟩

theorem loop_iff (s : Bytes) (bs : Bytes) : decodeLoop 0 true s = some bs ↔ Spells s bs := by
  induction hn : s.length using Nat.strongRecOn generalizing s bs with
  | ind n ih =>
    cases s with
    | nil =>
      rw [decodeLoop]
      constructor
      · intro h; simp at h; subst h; exact .nil
      · intro h; cases h; rfl
    | cons c s =>
      rw [decodeLoop]
      rcases digit_cases c with ⟨h1, h2, h3⟩ | ⟨h1, h2, h3⟩ | ⟨a, ha, h1, h2, h3⟩
      · simp only [h1]
        constructor
        · intro h; simp at h
        · intro h
          cases h with
          | blank hb _ => exact absurd hb h3
          | group hc _ _ => rw [h2] at hc; cases hc
      · simp only [h1]
        rw [if_pos (by decide), if_neg (by simp), ih s.length (by simp at hn; omega) s bs rfl]
        constructor
        · exact .blank h3
        · intro h
          cases h with
          | blank _ h => exact h
          | group hc _ _ => rw [h2] at hc; cases hc
      · simp only [h1]
        rw [if_neg (by omega), if_pos trivial]
        cases s with
        | nil =>
          rw [decodeLoop]
          constructor
          · intro h; simp at h
          · intro h
            cases h with
            | blank hb _ => exact absurd hb h3
        | cons d s =>
          rw [decodeLoop]
          rcases digit_cases d with ⟨g1, g2, g3⟩ | ⟨g1, g2, g3⟩ | ⟨b, hb, g1, g2, g3⟩
          · simp only [g1]
            constructor
            · intro h; simp at h
            · intro h
              cases h with
              | blank hb _ => exact absurd hb h3
              | group _ hd _ => rw [g2] at hd; cases hd
          · simp only [g1]
            constructor
            · intro h; simp at h
            · intro h
              cases h with
              | blank hb _ => exact absurd hb h3
              | group _ hd _ => rw [g2] at hd; cases hd
          · simp only [g1]
            rw [if_neg (by omega), if_neg (by simp), Option.map_eq_some_iff, join_digits a b ha hb]
            constructor
            · rintro ⟨t, ht, rfl⟩
              rw [ih s.length (by simp at hn; omega) s t rfl] at ht
              exact .group h2 g2 ht
            · intro h
              cases h with
              | blank hb _ => exact absurd hb h3
              | group hc hd hs =>
                rw [h2] at hc; rw [g2] at hd
                injection hc with hc; injection hd with hd
                subst hc hd
                exact ⟨_, (ih s.length (by simp at hn; omega) s _ rfl).2 hs, rfl⟩

end Hex
open Hex

/-- C36. `decode` accepts exactly the strings made of two-digit groups optionally separated by white space, and appends what they spell. -/
theorem C36_decode_accepts (s dst : Bytes) : (decode s dst).2 = true ↔ ∃ bs, Spells s bs := by
  rw [decode]
  cases h : decodeLoop 0 true s with
  | none =>
    simp only [Bool.false_eq_true, false_iff]
    rintro ⟨bs, hbs⟩
    rw [(loop_iff s bs).2 hbs] at h; cases h
  | some bs => simp only [true_iff]; exact ⟨bs, (loop_iff s bs).1 h⟩

/-- C36. What is appended is what the string spells; a rejected input leaves the destination unchanged. -/
theorem C36_decode_result (s dst : Bytes) :
    (∀ bs, Spells s bs → decode s dst = (dst ++ bs, true)) ∧ ((decode s dst).2 = false → (decode s dst).1 = dst) := by
  constructor
  · intro bs h; rw [decode, (loop_iff s bs).2 h]
  · intro h
    rw [decode] at h ⊢
    cases h' : decodeLoop 0 true s with
    | none => rfl
    | some bs => rw [h'] at h; cases h

/-- C36. Decoding the encoding of any bytes returns them. -/
theorem C36_round_trip (bs dst : Bytes) : decode (encode bs) dst = (dst ++ bs, true) := by
  refine (C36_decode_result _ dst).1 bs ?_
  induction bs with
  | nil => exact .nil
  | cons b bs ih =>
    have h : ∀ b : UInt8, digitValue (digits.getD (b >>> 4).toNat 0) = some (b >>> 4).toNat ∧
        digitValue (digits.getD (b &&& 0x0f).toNat 0) = some (b &&& 0x0f).toNat ∧ UInt8.ofNat (16 * (b >>> 4).toNat + (b &&& 0x0f).toNat) = b := by
      intro b; cases b with | _ b => cases b with | _ b => revert b; decide +kernel
    have := Spells.group (h b).1 (h b).2.1 ih
    rw [(h b).2.2] at this
    exact this

/-- C36. The encoding is two lower case digits per byte. -/
theorem C36_encode_form (bs : Bytes) : (encode bs).length = 2 * bs.length ∧ ∀ c ∈ encode bs, (48 ≤ c ∧ c ≤ 57) ∨ (97 ≤ c ∧ c ≤ 102) := by
  induction bs with
  | nil => exact ⟨rfl, fun c hc => by cases hc⟩
  | cons b bs ih =>
    have h : ∀ b : UInt8, (((48 : UInt8) ≤ digits.getD (b >>> 4).toNat 0 ∧ digits.getD (b >>> 4).toNat 0 ≤ 57) ∨ ((97 : UInt8) ≤ digits.getD (b >>> 4).toNat 0 ∧ digits.getD (b >>> 4).toNat 0 ≤ 102)) ∧
      (((48 : UInt8) ≤ digits.getD (b &&& 0x0f).toNat 0 ∧ digits.getD (b &&& 0x0f).toNat 0 ≤ 57) ∨ ((97 : UInt8) ≤ digits.getD (b &&& 0x0f).toNat 0 ∧ digits.getD (b &&& 0x0f).toNat 0 ≤ 102)) := by
      intro b; cases b with | _ b => cases b with | _ b => revert b; decide +kernel
    refine ⟨by simp only [encode, List.length_cons, ih.1]; omega, fun c hc => ?_⟩
    simp only [encode, List.mem_cons] at hc
    rcases hc with rfl | rfl | hc
    · exact (h b).1
    · exact (h b).2
    · exact ih.2 c hc

/-- C36. Decoding one byte reads the first two characters. -/
theorem C36_decode_byte (c d : UInt8) (s : Bytes) :
    decodeByte (c :: d :: s) = (match digitValue c, digitValue d with | some hi, some lo => some (16 * hi + lo) | _, _ => none) := by
  rw [decodeByte]
  simp only [List.getD_cons_zero, List.getD_cons_succ]
  rcases digit_cases c with ⟨h1, h2, h3⟩ | ⟨h1, h2, h3⟩ | ⟨a, ha, h1, h2, h3⟩
  · rw [h1, h2]; rfl
  · rw [h1, h2]; rfl
  · rw [h1, h2, if_pos (by omega)]
    rcases digit_cases d with ⟨g1, g2, g3⟩ | ⟨g1, g2, g3⟩ | ⟨b, hb, g1, g2, g3⟩
    · rw [g1, g2]; rfl
    · rw [g1, g2]; rfl
    · rw [g1, g2, if_pos (by omega), Nat.shiftLeft_eq]
      simp only [Int.toNat_natCast]
      congr 1; omega

/-- "4a 0F" spells two bytes, "4 a" and "4x" are rejected -/
example : Spells [0x34, 0x61, 0x20, 0x30, 0x46] [0x4a, 0x0f] :=
  .group (hi := 4) (lo := 10) (by decide) (by decide) (.blank (by simp [Hex.blank]) (.group (hi := 0) (lo := 15) (by decide) (by decide) .nil))
example : decode [0x34, 0x20, 0x61] [7] = ([7], false) ∧ decode [0x34, 0x61, 0x20, 0x30, 0x46] [7] = ([7, 0x4a, 0x0f], true) := by decide +kernel

end Rtmfp
