import Verif.Spec.JsonMeaning
/-! # Lemmas about the numbers of `toJSON` -/
namespace Rtmfp
namespace Json
open AMF JsonSpec

/-- all digits -/
def AllDigits (d : Bytes) : Prop := ∀ b ∈ d, isDigit b = true

theorem digitChar_isDigit {d : Nat} (h : d ≤ 9) : isDigit (digitChar d) = true := by
  have : ∀ d < 10, isDigit (digitChar d) = true := by decide
  exact this d (by omega)

theorem digitChar_val {d : Nat} (h : d ≤ 9) : (digitChar d).toNat - 0x30 = d := by
  have : ∀ d < 10, (digitChar d).toNat - 0x30 = d := by decide
  exact this d (by omega)

theorem digitChar_zero {d : Nat} (h : d ≤ 9) : digitChar d = 0x30 ↔ d = 0 := by
  have : ∀ d < 10, (digitChar d = 0x30 ↔ d = 0) := by decide
  exact this d (by omega)

theorem foldl_digits (d : Bytes) (n : Nat) : d.foldl (fun n b => 10 * n + (b.toNat - 0x30)) n = n * 10 ^ d.length + digitsValue d := by
  induction d generalizing n with
  | nil => simp [digitsValue]
  | cons b d ih =>
    rw [digitsValue, List.foldl_cons, List.foldl_cons, ih, ih (10 * 0 + (b.toNat - 0x30)), List.length_cons, Nat.pow_succ]
    grind

theorem digitsValue_append (a b : Bytes) : digitsValue (a ++ b) = digitsValue a * 10 ^ b.length + digitsValue b := by
  rw [digitsValue, List.foldl_append, foldl_digits]; rfl

theorem digitsValue_single {d : Nat} (h : d ≤ 9) : digitsValue [digitChar d] = d := by
  simp [digitsValue, digitChar_val h]

theorem digitsValue_snoc (a : Bytes) {d : Nat} (h : d ≤ 9) : digitsValue (a ++ [digitChar d]) = digitsValue a * 10 + d := by
  rw [digitsValue_append, digitsValue_single h]; simp

theorem digitsValue_cons {d : Nat} (h : d ≤ 9) (a : Bytes) : digitsValue (digitChar d :: a) = d * 10 ^ a.length + digitsValue a := by
  have := digitsValue_append [digitChar d] a
  rwa [digitsValue_single h] at this

/-- The digits of a number: no zero in front unless it is zero. -/
structure Decimal (d : Bytes) (v : Nat) : Prop where
  digit : AllDigits d
  value : digitsValue d = v
  zero : v = 0 → d = [0x30]
  pos : 0 < v → ∃ b r, d = b :: r ∧ b ≠ 0x30 ∧ 10 ^ r.length ≤ v

theorem toBase10Loop_spec (room v : Nat) (acc : Bytes) (h : v < 10 ^ room) (hr : 0 < room) : ∃ d, toBase10Loop room v acc = d ++ acc ∧ Decimal d v := by
  induction room generalizing v acc with
  | zero => omega
  | succ room ih =>
    rw [toBase10Loop]
    have h9 : v % 10 ≤ 9 := by omega
    by_cases hv : v / 10 = 0
    · rw [if_neg (by simp [hv])]
      have hv9 : v ≤ 9 := by omega
      have e : v % 10 = v := by omega
      refine ⟨[digitChar v], by rw [e]; rfl, ⟨?_, digitsValue_single hv9, ?_, ?_⟩⟩
      · intro b hb; rw [List.mem_singleton.mp hb]; exact digitChar_isDigit hv9
      · intro e; subst e; rfl
      · intro hp; exact ⟨digitChar v, [], rfl, (fun e => by have := (digitChar_zero hv9).mp e; omega), by simp; omega⟩
    · have hroom : 0 < room := by
        rcases Nat.eq_zero_or_pos room with e | e
        · subst e; simp at h; omega
        · exact e
      rw [if_pos ⟨hv, hroom⟩]
      obtain ⟨d, e, hd⟩ := ih (v / 10) (digitChar (v % 10) :: acc) (by rw [Nat.pow_succ] at h; omega) hroom
      refine ⟨d ++ [digitChar (v % 10)], by rw [e]; simp, ⟨?_, ?_, ?_, ?_⟩⟩
      · intro b hb
        rcases List.mem_append.mp hb with hb | hb
        · exact hd.digit b hb
        · rw [List.mem_singleton.mp hb]; exact digitChar_isDigit h9
      · rw [digitsValue_snoc _ h9, hd.value]; omega
      · intro e; omega
      · intro _
        obtain ⟨b, r, e, hb, hl⟩ := hd.pos (by omega)
        refine ⟨b, r ++ [digitChar (v % 10)], by rw [e]; rfl, hb, ?_⟩
        rw [List.length_append, List.length_singleton, Nat.pow_succ]
        omega

theorem toBase10_spec {v : Nat} (h : v < 2 ^ 64) : Decimal (toBase10 v) v := by
  obtain ⟨d, e, hd⟩ := toBase10Loop_spec 39 v [] (by omega) (by omega)
  rw [toBase10, e, List.append_nil]
  exact hd

theorem Decimal.ne {d : Bytes} {v : Nat} (h : Decimal d v) : d ≠ [] := by
  rcases Nat.eq_zero_or_pos v with e | e
  · rw [h.zero e]; simp
  · obtain ⟨b, r, e, _⟩ := h.pos e
    rw [e]; simp

/-! ## the fraction -/

/-- The answer of the loop: digits, last digit, remainder. -/
structure LoopSpec (q n r e : Nat) (x : Bytes × Nat × Nat) : Prop where
  digit : AllDigits x.1
  last : x.2.1 ≤ 9
  rem : x.2.2 < q
  value : r * 10 ^ (x.1.length + 1) = (digitsValue x.1 * 10 + x.2.1) * q + x.2.2
  stop : x.2.2 * (2 * 10 ^ n) < e * 10 ^ (x.1.length + 1) * q ∨ (q - x.2.2) * (2 * 10 ^ n) < e * 10 ^ (x.1.length + 1) * q
  live : e * q ≤ r * (2 * 10 ^ n) → e * q ≤ (q - r) * (2 * 10 ^ n) → ¬ (x.2.1 = 9 ∧ q ≤ 2 * x.2.2)

theorem fracLoop_spec (q n : Nat) : ∀ (fuel r e : Nat) (_ : r < q) (x : Bytes × Nat × Nat), fracLoop q n fuel r e = some x → LoopSpec q n r e x := by
  intro fuel
  induction fuel with
  | zero => intro r e _ x h; cases h
  | succ fuel ih =>
    intro r e hr x h
    have hq : 0 < q := by omega
    have hd : 10 * r / q ≤ 9 := by
      have : 10 * r / q < 10 := (Nat.div_lt_iff_lt_mul hq).mpr (by omega)
      omega
    have hm : 10 * r % q < q := Nat.mod_lt _ hq
    have hdm : q * (10 * r / q) + 10 * r % q = 10 * r := Nat.div_add_mod _ _
    rw [fracLoop] at h
    by_cases hs : 10 * r % q * (2 * 10 ^ n) < 10 * e * q ∨ (q - 10 * r % q) * (2 * 10 ^ n) < 10 * e * q
    · rw [if_pos hs] at h
      cases h
      refine ⟨(fun b hb => by cases hb), hd, hm, ?_, ?_, ?_⟩
      · simp only [List.length_nil, digitsValue, List.foldl_nil]
        grind
      · simpa [Nat.mul_comm] using hs
      · intro h1 h2 ⟨h3, h4⟩
        dsimp only at h3 h4
        generalize 10 * r % q = s at *
        rw [h3] at hdm
        have e1 : q - s = 10 * (q - r) := by omega
        have e2 : (q - s) * (2 * 10 ^ n) = 10 * ((q - r) * (2 * 10 ^ n)) := by rw [e1, Nat.mul_assoc]
        have e3 : s * (2 * 10 ^ n) < 10 * e * q → False := by
          intro k
          have : s * (2 * 10 ^ n) < (q - s) * (2 * 10 ^ n) := by
            rw [e2]
            rw [Nat.mul_assoc] at k
            omega
          have := Nat.lt_of_mul_lt_mul_right this
          omega
        rcases hs with hs | hs
        · exact e3 hs
        · rw [Nat.mul_assoc] at hs
          omega
    · rw [if_neg hs] at h
      rw [not_or, Nat.not_lt, Nat.not_lt] at hs
      obtain ⟨y, hy, rfl⟩ := Option.map_eq_some_iff.mp h
      have k := ih _ _ hm y hy
      refine ⟨?_, k.last, k.rem, ?_, ?_, ?_⟩
      · intro b hb
        rcases List.mem_cons.mp hb with e | hb
        · rw [e]; exact digitChar_isDigit hd
        · exact k.digit b hb
      · have kv := k.value
        simp only [List.length_cons] at kv ⊢
        rw [digitsValue_cons hd]
        have e1 : r * 10 ^ (y.1.length + 1 + 1) = 10 * r * 10 ^ (y.1.length + 1) := by rw [Nat.pow_succ 10 (y.1.length + 1)]; grind
        rw [e1, ← hdm, Nat.add_mul, kv, Nat.pow_succ]
        grind
      · have ks := k.stop
        simp only [List.length_cons] at ks ⊢
        have e1 : e * 10 ^ (y.1.length + 1 + 1) = 10 * e * 10 ^ (y.1.length + 1) := by rw [Nat.pow_succ 10 (y.1.length + 1)]; grind
        rw [e1]
        exact ks
      · intro _ _
        exact k.live hs.1 hs.2

theorem fracLoop_ends (q n : Nat) : ∀ (fuel r e : Nat), r < q → 2 * 10 ^ n ≤ e * 10 ^ fuel → 0 < fuel → (fracLoop q n fuel r e).isSome = true := by
  intro fuel
  induction fuel with
  | zero => intro r e _ _ h; omega
  | succ fuel ih =>
    intro r e hr h _
    have hm : 10 * r % q < q := Nat.mod_lt _ (by omega)
    rw [fracLoop]
    split
    · rfl
    · rename_i hs
      rw [not_or, Nat.not_lt, Nat.not_lt] at hs
      have hf : 0 < fuel := by
        rcases Nat.eq_zero_or_pos fuel with e' | e'
        · subst e'
          exfalso
          have h2 : 2 * 10 ^ n ≤ 10 * e := by omega
          have h3 : 10 * r % q * (2 * 10 ^ n) < q * (2 * 10 ^ n) := Nat.mul_lt_mul_of_pos_right hm (by have := Nat.pow_pos (a := 10) (n := n) (by omega); omega)
          have h4 : 10 * e * q ≥ 2 * 10 ^ n * q := Nat.mul_le_mul_right _ h2
          rw [Nat.mul_comm (2 * 10 ^ n) q] at h4
          omega
        · exact e'
      rw [Option.isSome_map]
      refine ih _ _ hm ?_ hf
      rw [Nat.pow_succ] at h
      grind

/-- What is printed of a fraction `p / q`. -/
structure FracSpec (p q n : Nat) (d : Bytes) : Prop where
  digit : AllDigits d
  ne : d ≠ []
  above : digitsValue d * q * (2 * 10 ^ n) ≤ p * 10 ^ d.length * (2 * 10 ^ n) + 10 ^ d.length * q
  below : p * 10 ^ d.length * (2 * 10 ^ n) ≤ digitsValue d * q * (2 * 10 ^ n) + 10 ^ d.length * q

theorem FracSpec.weaken {p q n : Nat} {d : Bytes} (h : FracSpec p q (n + 1) d) : FracSpec p q n d := by
  have e : 2 * 10 ^ (n + 1) = 10 * (2 * 10 ^ n) := by rw [Nat.pow_succ]; omega
  have h1 := h.above
  have h2 := h.below
  have e3 : ∀ x, x * (2 * 10 ^ (n + 1)) = 10 * (x * (2 * 10 ^ n)) := fun x => by rw [e, Nat.mul_left_comm]
  simp only [e3] at h1 h2
  exact ⟨h.digit, h.ne, by omega, by omega⟩

theorem fraction_spec (p q : Nat) (hp : p < q) : ∀ (fuel n : Nat), q < fuel + n → 0 < fuel → ∃ d, fraction p q fuel n = some d ∧ FracSpec p q n d := by
  intro fuel
  induction fuel with
  | zero => intro n _ h; omega
  | succ fuel ih =>
    intro n hf _
    have hT : 0 < 10 ^ n := Nat.pow_pos (by omega)
    obtain ⟨x, hx⟩ := Option.isSome_iff_exists.mp (fracLoop_ends q n (n + 3) p 1 hp (by rw [Nat.pow_add]; omega) (by omega))
    have k := fracLoop_spec q n _ _ _ hp x hx
    rw [fraction, hx, Option.bind_some]
    dsimp only
    have kv := k.value
    have kr := k.rem
    have ks := k.stop
    rw [Nat.one_mul] at ks
    by_cases hup : q ≤ 2 * x.2.2
    · rw [if_pos hup]
      by_cases h9 : x.2.1 + 1 > 9
      · rw [if_pos h9]
        -- a fraction so close to one is tried again with more digits
        have hl := k.live
        have hx9 : x.2.1 = 9 := by have := k.last; omega
        have near : ¬ (1 * q ≤ p * (2 * 10 ^ n) ∧ 1 * q ≤ (q - p) * (2 * 10 ^ n)) := fun h => hl h.1 h.2 ⟨hx9, hup⟩
        have hq : 10 ^ n < q := by
          rcases Nat.lt_or_ge ((q - p) * (2 * 10 ^ n)) q with h | h
          · have : 1 * (2 * 10 ^ n) ≤ (q - p) * (2 * 10 ^ n) := Nat.mul_le_mul_right _ (by omega)
            omega
          · have h' : p * (2 * 10 ^ n) < q := by
              rcases Nat.lt_or_ge (p * (2 * 10 ^ n)) q with h' | h'
              · exact h'
              · exact absurd ⟨by omega, by omega⟩ near
            rcases Nat.lt_or_ge (10 ^ n) q with h3 | h3
            · exact h3
            · exfalso
              have hp0 : p = 0 := by
                rcases Nat.eq_zero_or_pos p with e | e
                · exact e
                · have : 1 * (2 * 10 ^ n) ≤ p * (2 * 10 ^ n) := Nat.mul_le_mul_right _ (by omega)
                  omega
              rw [hp0, Nat.zero_mul, hx9] at kv
              have : 0 < (digitsValue x.1 * 10 + 9) * q := Nat.mul_pos (by omega) (by omega)
              omega
        have hn : n < 10 ^ n := Nat.lt_pow_self (by omega)
        obtain ⟨d, e, hd⟩ := ih (n + 1) (by omega) (by omega)
        exact ⟨d, e, hd.weaken⟩
      · rw [if_neg h9]
        refine ⟨_, rfl, ⟨?_, by simp, ?_, ?_⟩⟩
        · intro b hb
          rcases List.mem_append.mp hb with hb | hb
          · exact k.digit b hb
          · rw [List.mem_singleton.mp hb]; exact digitChar_isDigit (by omega)
        · rw [digitsValue_snoc _ (by omega), List.length_append, List.length_singleton, kv]
          have e : (digitsValue x.1 * 10 + (x.2.1 + 1)) * q = (digitsValue x.1 * 10 + x.2.1) * q + x.2.2 + (q - x.2.2) := by
            rw [← Nat.add_assoc, Nat.add_mul _ 1]; omega
          rw [e, Nat.add_mul _ (q - x.2.2)]
          have : (q - x.2.2) * (2 * 10 ^ n) ≤ x.2.2 * (2 * 10 ^ n) := Nat.mul_le_mul_right _ (by omega)
          omega
        · rw [digitsValue_snoc _ (by omega), List.length_append, List.length_singleton, kv]
          have e : (digitsValue x.1 * 10 + (x.2.1 + 1)) * q = (digitsValue x.1 * 10 + x.2.1) * q + x.2.2 + (q - x.2.2) := by
            rw [← Nat.add_assoc, Nat.add_mul _ 1]; omega
          rw [e, Nat.add_mul _ (q - x.2.2)]
          omega
    · rw [if_neg hup, if_neg (by have := k.last; omega)]
      have hl := k.last
      refine ⟨_, rfl, ⟨?_, by simp, ?_, ?_⟩⟩
      · intro b hb
        rcases List.mem_append.mp hb with hb | hb
        · exact k.digit b hb
        · rw [List.mem_singleton.mp hb]; exact digitChar_isDigit (by omega)
      · rw [digitsValue_snoc _ hl, List.length_append, List.length_singleton, kv, Nat.add_mul _ x.2.2]
        omega
      · rw [digitsValue_snoc _ hl, List.length_append, List.length_singleton, kv, Nat.add_mul _ x.2.2]
        have : x.2.2 * (2 * 10 ^ n) ≤ (q - x.2.2) * (2 * 10 ^ n) := Nat.mul_le_mul_right _ (by omega)
        omega

/-- What is printed of a number without exponent: digits, and a fraction if there is one. -/
structure FixedSpec (p q : Nat) (t : Bytes) where
  int : Bytes
  frac : Bytes
  text : t = int ++ (if frac = [] then [] else 0x2e :: frac)
  digit : Decimal int (p / q)
  fdigit : AllDigits frac
  whole : q ∣ p → frac = []
  near : Near (digitsValue (int ++ frac)) frac.length p q

theorem pow_split {q p m n : Nat} (h : m ≤ n) (hp : q * 10 ^ m ≤ p) : q * 10 ^ n ≤ 10 ^ (n - m) * p := by
  have e2 : 10 ^ n = 10 ^ (n - m) * 10 ^ m := by rw [← Nat.pow_add]; congr 1; omega
  rw [e2, Nat.mul_left_comm]
  exact Nat.mul_le_mul_left _ hp

theorem step55 {p q : Nat} (h : ¬ p * 2 ^ 55 < 3602879701896397 * q) : ¬ p * 2 ^ 59 < 5764607523034235 * q := by
  have h1 : 3602879701896397 * q * 16 ≤ p * 2 ^ 55 * 16 := Nat.mul_le_mul_right _ (Nat.not_lt.mp h)
  have h2 : 5764607523034235 * q ≤ 57646075230342352 * q := Nat.mul_le_mul_right q (by decide)
  rw [Nat.mul_right_comm, Nat.mul_assoc p] at h1
  exact Nat.not_lt.mpr (Nat.le_trans h2 h1)

theorem step59 {p q : Nat} (h : ¬ p * 2 ^ 59 < 5764607523034235 * q) : ¬ p * 2 ^ 60 < 1152921504606847 * q := by
  have h1 : 5764607523034235 * q * 2 ≤ p * 2 ^ 59 * 2 := Nat.mul_le_mul_right _ (Nat.not_lt.mp h)
  have h2 : 1152921504606847 * q ≤ 11529215046068470 * q := Nat.mul_le_mul_right q (by decide)
  rw [Nat.mul_right_comm, Nat.mul_assoc p] at h1
  exact Nat.not_lt.mpr (Nat.le_trans h2 h1)

/-- enough digits are printed -/
theorem enough_digits (p q : Nat) (hq : 0 < q) (he : needsExponent p q = false) (hp : 0 < p) :
    q * 10 ^ 15 ≤ 10 ^ (bonusDigits p q + DBL_DIG - min DBL_DIG (toBase10 (p / q)).length) * p := by
  rw [needsExponent, Bool.or_eq_false_iff] at he
  have h64 : p < 2 ^ 64 * q := by simpa using he.1
  have hsmall : 7378697629483821 * q ≤ p * 2 ^ 66 := by
    have := he.2
    simp [hp] at this
    omega
  have hd := toBase10_spec (v := p / q) ((Nat.div_lt_iff_lt_mul hq).mpr h64)
  rw [bonusDigits, DBL_DIG]
  by_cases hlt : p < q
  · have e0 : p / q = 0 := Nat.div_eq_of_lt hlt
    have : (toBase10 (p / q)).length = 1 := by rw [hd.zero e0]; rfl
    rw [this, if_pos hlt]
    by_cases h1 : p * 2 ^ 55 < 3602879701896397 * q
    · rw [if_pos h1]
      by_cases h2 : p * 2 ^ 59 < 5764607523034235 * q
      · rw [if_pos h2]
        by_cases h3 : p * 2 ^ 60 < 1152921504606847 * q
        · rw [if_pos h3]
          show q * 10 ^ 15 ≤ 10 ^ 19 * p
          omega
        · rw [if_neg h3]
          show q * 10 ^ 15 ≤ 10 ^ 18 * p
          omega
      · have h3 := step59 h2
        rw [if_neg h2, if_neg h3]
        show q * 10 ^ 15 ≤ 10 ^ 17 * p
        omega
    · have h2 := step55 h1
      have h3 := step59 h2
      rw [if_neg h1, if_neg h2, if_neg h3]
      show q * 10 ^ 15 ≤ 10 ^ 16 * p
      omega
  · have h1 : ¬ p * 2 ^ 55 < 3602879701896397 * q := by omega
    have h2 := step55 h1
    have h3 := step59 h2
    rw [if_neg hlt, if_neg h1, if_neg h2, if_neg h3]
    have hpos : 0 < p / q := Nat.div_pos (by omega) hq
    obtain ⟨b, r, e, _, hl⟩ := hd.pos hpos
    rw [e, List.length_cons]
    have hpq : q * 10 ^ r.length ≤ p := Nat.le_trans (Nat.mul_le_mul_left q hl) (Nat.mul_div_le p q)
    rcases Nat.lt_or_ge r.length 15 with h | h
    · have e1 : 1 + 0 + 0 + 0 + 0 + 15 - min 15 (r.length + 1) = 15 - r.length := by omega
      rw [e1]
      exact pow_split (by omega) hpq
    · have e1 : 1 + 0 + 0 + 0 + 0 + 15 - min 15 (r.length + 1) = 1 := by omega
      rw [e1]
      have : q * 10 ^ 15 ≤ q * 10 ^ r.length := Nat.mul_le_mul_left _ (Nat.pow_le_pow_right (by omega) h)
      omega

theorem fixed_spec (p q : Nat) (hq : 0 < q) (he : needsExponent p q = false) : ∃ t, fixed p q = some t ∧ Nonempty (FixedSpec p q t) := by
  have h64 : p < 2 ^ 64 * q := by
    rw [needsExponent, Bool.or_eq_false_iff] at he
    simpa using he.1
  have hd := toBase10_spec (v := p / q) ((Nat.div_lt_iff_lt_mul hq).mpr h64)
  have hdm : q * (p / q) + p % q = p := Nat.div_add_mod _ _
  rw [fixed]
  by_cases hm : p % q = 0
  · rw [if_neg (by simp [hm])]
    refine ⟨_, rfl, ⟨⟨toBase10 (p / q), [], by simp, hd, (fun b hb => by cases hb), (fun _ => rfl), ?_⟩⟩⟩
    rw [List.append_nil, hd.value, Near]
    have e : p / q * q = p := by rw [Nat.mul_comm]; omega
    rw [e]
    simp only [List.length_nil, Nat.pow_zero, Nat.mul_one]
    omega
  · rw [if_pos hm]
    have hp : 0 < p := by
      rcases Nat.eq_zero_or_pos p with e | e
      · subst e; simp at hm
      · exact e
    have hen := enough_digits p q hq he hp
    generalize bonusDigits p q + DBL_DIG - min DBL_DIG (toBase10 (p / q)).length = n at hen ⊢
    obtain ⟨d, e, hf⟩ := fraction_spec (p % q) q (Nat.mod_lt _ hq) (q + 1) n (by omega) (by omega)
    rw [e]
    refine ⟨_, rfl, ⟨⟨toBase10 (p / q), d, ?_, hd, hf.digit, (fun h => absurd (Nat.mod_eq_zero_of_dvd h) hm), ?_⟩⟩⟩
    · show toBase10 (p / q) ++ ascii "." ++ d = _
      rw [if_neg hf.ne, List.append_assoc]; rfl
    · rw [digitsValue_append, hd.value]
      have h1 := hf.above
      have h2 := hf.below
      have e1 : p * 10 ^ d.length = q * (p / q) * 10 ^ d.length + p % q * 10 ^ d.length := by rw [← Nat.add_mul, hdm]
      have e2 : (p / q * 10 ^ d.length + digitsValue d) * q = q * (p / q) * 10 ^ d.length + digitsValue d * q := by rw [Nat.add_mul]; grind
      have hen' : 10 ^ 15 * (10 ^ d.length * q) ≤ 10 ^ n * (p * 10 ^ d.length) := by
        have := Nat.mul_le_mul_right (10 ^ d.length) hen
        grind
      rw [Near, e2]
      rw [e1] at hen' ⊢
      generalize q * (p / q) * 10 ^ d.length = A at *
      generalize digitsValue d * q = D at *
      generalize p % q * 10 ^ d.length = P at *
      generalize 10 ^ d.length * q = Q at *
      have hn : 0 < 10 ^ n := Nat.pow_pos (by omega)
      generalize 10 ^ n = N at *
      -- D N 2 ≤ P N 2 + Q, and 10^15 Q ≤ N (A + P)
      constructor
      · refine (Nat.mul_le_mul_left_iff hn).mp ?_
        have : D * (2 * N) = 2 * (N * D) := by grind
        have : P * (2 * N) = 2 * (N * P) := by grind
        have : N * (A + P) = N * A + N * P := by grind
        have : N * (2 * 10 ^ 15 * (A + D)) = 2 * 10 ^ 15 * (N * A + N * D) := by grind
        have : N * ((2 * 10 ^ 15 + 1) * (A + P)) = (2 * 10 ^ 15 + 1) * (N * A + N * P) := by grind
        omega
      · refine (Nat.mul_le_mul_left_iff hn).mp ?_
        have : D * (2 * N) = 2 * (N * D) := by grind
        have : P * (2 * N) = 2 * (N * P) := by grind
        have : N * (A + P) = N * A + N * P := by grind
        have : N * (2 * 10 ^ 15 * (A + D)) = 2 * 10 ^ 15 * (N * A + N * D) := by grind
        have : N * ((2 * 10 ^ 15 - 1) * (A + P)) = (2 * 10 ^ 15 - 1) * (N * A + N * P) := by grind
        omega

end Json
end Rtmfp
