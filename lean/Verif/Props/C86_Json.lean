import Verif.Lemmas.JsonShape

/-! # C86: the JSON of a value -/

namespace Rtmfp
open Json AMF JsonSpec

/-- 1, -2.5, 0.1, 1.5e300 and NaN, and most other things -/
def jsonDemo : Val :=
  .obj (.cons (ascii "a\"") (.arr (.cons (.num 0x3ff0000000000000) (.cons (.num 0xc004000000000000) (.cons (.num 0x3fb999999999999a) (.cons (.num 0x7e41eb2d66005835)
    (.cons (.num 0x7ff8000000000000) (.cons .nullptr (.cons (.bool true) .nil)))))))) (.cons (ascii "b") .undef (.cons (ascii "c") (.typed (ascii "C") (.cons [0xc3, 0xa4] (.str [0x0a, 0x01, 0x41]) .nil))
    (.cons (ascii "d") .nullptr .nil))))

/-- The text is JSON (by an independent reader of RFC 8259) and means what it should: members and elements in order; those that are undefined are left out of objects and null in arrays; strings are the same bytes;
whole numbers below 2^64 are exact, other numbers to 15 digits. -/
theorem C86_json (shift : Shift) (hs : ShiftOk shift) (indent : Nat) (v : Val) : ∃ j, read (toJSON shift indent v) = some j ∧ Denotes shift v j := by
  obtain ⟨hi, j, hj, h⟩ := read_val hs indent v 0
  refine ⟨j, ?_, hj⟩
  have h1 := h [] (3 * (toJSON shift indent v).length + 3) trivial (by rw [toJSON]; omega)
  have h2 := hi.skip []
  rw [List.append_nil] at h1 h2
  rw [JsonSpec.read]
  rw [show skip (toJSON shift indent v) = toJSON shift indent v from h2]
  rw [show value _ (toJSON shift indent v) = some (j, []) from h1]
  rfl

example : ShiftOk exactShift := exactShift_ok
example : toJSON exactShift 0 jsonDemo = ascii "{\"a\\\"\":[1,-2.5,0.1,1.5e300,null,null,true],\"c\":{\"" ++ [0xc3, 0xa4] ++ ascii "\":\"\\n\\u0001A\"}}" := by decide +kernel

/-- Whole numbers below 2^64 come out exactly. -/
theorem C86_whole (shift : Shift) (hs : ShiftOk shift) (indent : Nat) (b : UInt64) (neg : Bool) (p q : Nat) (hb : ofBits b = .fin neg p q) (hd : q ∣ p) (hlt : p < 2 ^ 64 * q) :
    read (toJSON shift indent (.num b)) = some (.num neg (p / q) 0 0) := by
  have hne : ¬ Extreme p q := by
    have hq := ofBits_den hb
    rintro (h | ⟨h1, h2⟩)
    · omega
    · obtain ⟨k, rfl⟩ := hd
      have : 1 ≤ k := by
        rcases Nat.eq_zero_or_pos k with e | e
        · subst e; simp at h1
        · exact e
      have h3 : q * 1 ≤ q * k := Nat.mul_le_mul_left q this
      generalize q * k = x at *
      omega
  obtain ⟨j, h1, h2⟩ := C86_json shift hs indent (.num b)
  rw [h1]
  rw [Denotes, hb] at h2
  obtain ⟨d, s, e, rfl, h3, _⟩ := h2
  obtain ⟨rfl, _, h4⟩ := h3 hne
  obtain ⟨rfl, rfl⟩ := h4 hd
  rfl

example : ofBits 0x433fffffffffffff = .fin false 9007199254740991 1 ∧ toJSON exactShift 4 (.num 0x433fffffffffffff) = ascii "9007199254740991" := by decide +kernel

/-- Fifteen digits: two different numbers can be printed the same (0.3 and the sum of 0.1 and 0.2). -/
theorem C86_same_text (shift : Shift) : toJSON shift 0 (.num 0x3fd3333333333333) = ascii "0.3" ∧ toJSON shift 0 (.num 0x3fd3333333333334) = ascii "0.3" := by
  have h : ∀ b : UInt64, (match ofBits b with | .fin false p q => (needsExponent p q, fixed p q) | _ => (true, none)) = (false, some (ascii "0.3")) → toJSON shift 0 (.num b) = ascii "0.3" := by
    intro b h
    rw [toJSON, Json.repr, Json.number]
    cases e : ofBits b with
    | nan => rw [e] at h; cases h
    | inf n => rw [e] at h; cases h
    | fin n p q =>
      cases n with
      | true => rw [e] at h; cases h
      | false =>
        rw [e] at h
        simp only [Prod.mk.injEq] at h
        rw [dtoa, if_neg (by rw [h.1]; simp), h.2]
        rfl
  exact ⟨h _ (by decide +kernel), h _ (by decide +kernel)⟩

/-- The text is UTF-8 if the strings and keys are. -/
theorem C86_utf8 (shift : Shift) (hs : ShiftOk shift) (indent : Nat) (v : Val) (h : Strings Utf8 v) : Utf8 (toJSON shift indent v) := by
  refine repr_kind utf8_kind _ indent (fun b => ?_) (fun d => ?_) v 0 (strings_mono (fun s h => jsonString_utf8 h) v h)
  · obtain ⟨_, _, _, hp, _⟩ := read_number hs b
    exact utf8_kind.plain _ hp
  · rw [indentation]
    refine utf8_kind.append _ _ ?_ (utf8_kind.plain _ (fun b hb => by rw [(List.mem_replicate.mp hb).2]; decide))
    split
    · exact ⟨[0x0a], by decide, by decide⟩
    · exact utf8_kind.plain _ (fun b hb => by cases hb)

example : Strings Utf8 (.str [0xc3, 0xa4]) := ⟨[0xe4], by decide, by decide⟩

/-- Without indentation the text is one line, without control characters. -/
theorem C86_line (shift : Shift) (hs : ShiftOk shift) (v : Val) : ∀ b ∈ toJSON shift 0 v, 0x20 ≤ b ∧ b ≠ 0x7f := by
  refine repr_kind oneLine_kind _ 0 (fun b => ?_) (fun d => ?_) v 0 (strings_all (fun s => jsonString_line s) v)
  · obtain ⟨_, _, _, hp, _⟩ := read_number hs b
    exact oneLine_kind.plain _ hp
  · rw [indentation]
    exact oneLine_kind.plain _ (fun b hb => by simp at hb)

example : 0x20 ∉ toJSON exactShift 0 jsonDemo ∧ 0x0a ∈ toJSON exactShift 4 jsonDemo := by decide +kernel

/-- `repr` prints the same as `toJSON` for values without undefined or missing members, classes, and numbers that aren't finite. -/
theorem C86_repr (shift : Shift) (indent : Nat) (v : Val) (h : Ordinary v) : reprText shift indent v = toJSON shift indent v := (same_val shift indent v 0 h).symm

example : Ordinary (.arr (.cons (.num 0x3ff0000000000000) (.cons (.str [0x41]) .nil))) := ⟨⟨false, 2 ^ 52, 2 ^ 52, by decide +kernel⟩, trivial, trivial⟩
example : reprText exactShift 0 jsonDemo ≠ toJSON exactShift 0 jsonDemo := by decide +kernel

end Rtmfp
