import Verif.Lemmas.JsonNumber
/-! # The text of numbers and strings is read back -/
namespace Rtmfp
namespace Json
open AMF JsonSpec

/-- A number that ends here isn't continued by what follows. -/
def Ends : Bytes → Prop
  | [] => True
  | b :: _ => isDigit b = false ∧ b ≠ 0x2e ∧ b ≠ 0x65 ∧ b ≠ 0x45

/-- no digit in front -/
def NoDigit : Bytes → Prop
  | [] => True
  | b :: _ => isDigit b = false

theorem Ends.noDigit {t : Bytes} (h : Ends t) : NoDigit t := by
  cases t with
  | nil => trivial
  | cons b t => exact h.1

theorem digits_append {d t : Bytes} (hd : AllDigits d) (ht : NoDigit t) : digits (d ++ t) = (d, t) := by
  induction d with
  | nil =>
    cases t with
    | nil => rfl
    | cons b t =>
      have : isDigit b = false := ht
      simp [digits, this]
  | cons b d ih =>
    have hb := hd b List.mem_cons_self
    have := ih (fun x hx => hd x (List.mem_cons_of_mem _ hx))
    rw [digits, Prod.mk.injEq] at this
    rw [digits, List.cons_append, List.takeWhile_cons_of_pos hb, List.dropWhile_cons_of_pos hb, this.1, this.2]

theorem digits1_append {d t : Bytes} (hd : AllDigits d) (hne : d ≠ []) (ht : NoDigit t) : digits1 (d ++ t) = some (d, t) := by
  rw [digits1, digits_append hd ht, if_neg hne]

theorem intPart_append {d t : Bytes} {v : Nat} (hd : Decimal d v) (ht : NoDigit t) : intPart (d ++ t) = some (d, t) := by
  rcases Nat.eq_zero_or_pos v with e | e
  · rw [hd.zero e]; rfl
  · obtain ⟨b, r, e, hb, _⟩ := hd.pos e
    have := digits1_append hd.digit hd.ne ht
    rw [e] at this ⊢
    rw [List.cons_append] at this ⊢
    rw [intPart]
    · exact this
    · intro r' h
      exact hb (List.cons.inj h).1

theorem fracPart_none {t : Bytes} (ht : ∀ b r, t = b :: r → b ≠ 0x2e) : fracPart t = some ([], t) := by
  rw [fracPart]
  intro r e
  exact ht _ _ e rfl

theorem expDigits_append {v : Nat} (hv : v < 2 ^ 64) (neg : Bool) {t : Bytes} (ht : NoDigit t) :
    expDigits ((if neg then ascii "-" else []) ++ toBase10 v ++ t) = some ((if neg then -(v : Int) else v), t) := by
  have hd := toBase10_spec hv
  cases neg with
  | true =>
    show expDigits (0x2d :: (toBase10 v ++ t)) = _
    rw [expDigits, digits1_append hd.digit hd.ne ht]
    simp [hd.value]
  | false =>
    show expDigits (toBase10 v ++ t) = _
    obtain ⟨b, r, e, hb⟩ : ∃ b r, toBase10 v = b :: r ∧ isDigit b = true := by
      cases h : toBase10 v with
      | nil => exact absurd h hd.ne
      | cons b r => exact ⟨b, r, rfl, hd.digit b (by rw [h]; exact List.mem_cons_self)⟩
    have := digits1_append hd.digit hd.ne ht
    rw [e] at this ⊢
    rw [List.cons_append] at this ⊢
    rw [expDigits]
    · rw [this, ← e]; simp [hd.value]
    · intro r h; rw [(List.cons.inj h).1] at hb; exact absurd hb (by decide)
    · intro r h; rw [(List.cons.inj h).1] at hb; exact absurd hb (by decide)

theorem expPart_none {t : Bytes} (ht : Ends t) : expPart t = some (0, t) := by
  rw [expPart]
  · intro r e; rw [e] at ht; exact ht.2.2.1 rfl
  · intro r e; rw [e] at ht; exact ht.2.2.2 rfl

/-- a number from its parts -/
theorem unsigned_parts {int frac : Bytes} {v : Nat} (hd : Decimal int v) (hfd : AllDigits frac) (neg : Bool) (x : Bytes) (hx : NoDigit x) (hdot : ∀ b r, x = b :: r → b ≠ 0x2e) (e : Int) (rest : Bytes)
    (he : expPart x = some (e, rest)) : unsigned neg (int ++ (if frac = [] then [] else 0x2e :: frac) ++ x) = some (.num neg (digitsValue (int ++ frac)) frac.length e, rest) := by
  by_cases hf : frac = []
  · rw [if_pos hf, List.append_nil]
    rw [unsigned, intPart_append hd hx, Option.bind_some, fracPart_none hdot, Option.bind_some, he, hf]
    rfl
  · rw [if_neg hf]
    have hn : NoDigit (0x2e :: frac ++ x) := by
      show isDigit 0x2e = false
      decide
    rw [unsigned, List.append_assoc, intPart_append hd hn, Option.bind_some]
    show ((digits1 (frac ++ x)).bind _) = _
    rw [digits1_append hfd hf hx, Option.bind_some, he]
    rfl

theorem unsigned_fixed {p q : Nat} {t : Bytes} (h : FixedSpec p q t) (neg : Bool) (x : Bytes) (hx : NoDigit x) (hdot : ∀ b r, x = b :: r → b ≠ 0x2e) (e : Int) (rest : Bytes)
    (he : expPart x = some (e, rest)) : unsigned neg (t ++ x) = some (.num neg (digitsValue (h.int ++ h.frac)) h.frac.length e, rest) := by
  have := unsigned_parts h.digit h.fdigit neg x hx hdot e rest he
  rwa [← h.text] at this

theorem fixed_head {p q : Nat} {t : Bytes} (h : FixedSpec p q t) : ∃ b r, t = b :: r ∧ isDigit b = true := by
  have ht := h.text
  cases hi : h.int with
  | nil => exact absurd hi h.digit.ne
  | cons b r =>
    rw [hi, List.cons_append] at ht
    exact ⟨b, _, ht, h.digit.digit b (by rw [hi]; exact List.mem_cons_self)⟩

theorem number_unsigned {t : Bytes} (ht : ∃ b r, t = b :: r ∧ isDigit b = true) (neg : Bool) (rest : Bytes) :
    JsonSpec.number ((if neg then ascii "-" else []) ++ t ++ rest) = unsigned neg (t ++ rest) := by
  cases neg with
  | true => rfl
  | false =>
    obtain ⟨b, r, e, hb⟩ := ht
    subst e
    show JsonSpec.number (b :: (r ++ rest)) = unsigned false (b :: (r ++ rest))
    rw [JsonSpec.number]
    intro r' h
    rw [(List.cons.inj h).1] at hb
    exact absurd hb (by decide)

/-! ## all numbers -/

/-- printable ASCII -/
def Plain (t : Bytes) : Prop := ∀ b ∈ t, 0x20 ≤ b ∧ b < 0x7f

instance (t : Bytes) : Decidable (Plain t) := inferInstanceAs (Decidable (∀ b ∈ t, 0x20 ≤ b ∧ b < 0x7f))

theorem Plain.append {s t : Bytes} (hs : Plain s) (ht : Plain t) : Plain (s ++ t) := by
  intro b hb
  rcases List.mem_append.mp hb with h | h
  · exact hs b h
  · exact ht b h

theorem AllDigits.plain {t : Bytes} (h : AllDigits t) : Plain t := by
  intro b hb
  have := h b hb
  have k : ∀ n < 256, isDigit (UInt8.ofNat n) = true → 0x20 ≤ UInt8.ofNat n ∧ UInt8.ofNat n < 0x7f := by decide +kernel
  have k := k b.toNat b.toNat_lt
  rw [show UInt8.ofNat b.toNat = b by simp] at k
  exact k this

theorem FixedSpec.plain {p q : Nat} {t : Bytes} (h : FixedSpec p q t) : Plain t := by
  rw [h.text]
  refine h.digit.digit.plain.append ?_
  split
  · intro b hb; cases hb
  · intro b hb
    rcases List.mem_cons.mp hb with e | hb
    · rw [e]; decide
    · exact h.fdigit.plain b hb

theorem needsExponent_iff (p q : Nat) : needsExponent p q = true ↔ Extreme p q := by
  simp [needsExponent, Extreme]

/-- a number printed without exponent is read -/
theorem read_fixed {p q : Nat} (hq : 0 < q) (he : ¬ Extreme p q) (neg : Bool) : ∃ t, fixed p q = some t ∧ Plain t ∧ (∃ b r, t = b :: r ∧ isDigit b = true) ∧
    ∃ digits scale, Near digits scale p q ∧ (q ∣ p → digits = p / q ∧ scale = 0 ∧ t = toBase10 (p / q)) ∧ ∀ x e rest, NoDigit x → (∀ b r, x = b :: r → b ≠ 0x2e) → expPart x = some (e, rest) →
      unsigned neg (t ++ x) = some (.num neg digits scale e, rest) := by
  obtain ⟨t, e, ⟨h⟩⟩ := fixed_spec p q hq (by rw [Bool.eq_false_iff, Ne, needsExponent_iff]; exact he)
  refine ⟨t, e, h.plain, fixed_head h, _, _, h.near, fun hd => ?_, fun x e rest h1 h2 h3 => unsigned_fixed h neg x h1 h2 e rest h3⟩
  refine ⟨by rw [h.whole hd, List.append_nil, h.digit.value], by rw [h.whole hd]; rfl, ?_⟩
  rw [fixed, if_neg (by simp [Nat.mod_eq_zero_of_dvd hd])] at e
  exact (Option.some.inj e).symm

theorem ofBits_den {b : UInt64} {neg : Bool} {p q : Nat} (h : ofBits b = .fin neg p q) : 0 < q := by
  rw [ofBits] at h
  split at h
  · split at h <;> cases h
  · split at h
    · cases h; exact Nat.pow_pos (by omega)
    · split at h
      · cases h; omega
      · cases h; exact Nat.pow_pos (by omega)

/-- a finite number without sign -/
theorem read_unsigned {shift : Shift} {p q : Nat} (hq : 0 < q) (hs : Extreme p q → 0 < (shift p q).1.2 ∧ (shift p q).1.2 ≤ (shift p q).1.1 ∧ (shift p q).1.1 < 10 * (shift p q).1.2 ∧ (shift p q).2.natAbs < 2 ^ 64)
    (json : Bool) (neg : Bool) (fuel : Nat) : ∃ t, dtoa shift json (fuel + 3) (.fin false p q) = some t ∧ Plain t ∧ (∃ b r, t = b :: r ∧ isDigit b = true) ∧ ∃ j, NumDenotes shift (.fin neg p q) j ∧
      ∀ rest, Ends rest → unsigned neg (t ++ rest) = some (j, rest) := by
  rw [dtoa]
  by_cases he : Extreme p q
  · rw [if_pos ((needsExponent_iff p q).mpr he)]
    obtain ⟨h1, h2, h3, h4⟩ := hs he
    generalize hx : shift p q = x at *
    have hx1 : ¬ Extreme x.1.1 x.1.2 := by
      rintro (h | ⟨_, h⟩) <;> omega
    obtain ⟨t, e, hpl, hh, digits, scale, hn, hw, hr⟩ := read_fixed h1 hx1 neg
    have hx2 : ¬ Extreme x.2.natAbs 1 := by
      rintro (h | ⟨_, h⟩) <;> omega
    obtain ⟨t2, e2, hpl2, _, _, _, _, hw2, _⟩ := read_fixed (q := 1) (by omega) hx2 false
    have hw2 := (hw2 (Nat.one_dvd _)).2.2
    rw [Nat.div_one] at hw2
    subst hw2
    have e1 : dtoa shift json (fuel + 2) (.fin false x.1.1 x.1.2) = some t := by
      rw [dtoa, if_neg (by rw [needsExponent_iff]; exact hx1), e]
    have e3 : dtoa shift json (fuel + 2) (.fin (decide (x.2 < 0)) x.2.natAbs 1) = some ((if decide (x.2 < 0) then ascii "-" else []) ++ toBase10 x.2.natAbs) := by
      have : dtoa shift json (fuel + 1) (.fin false x.2.natAbs 1) = some (toBase10 x.2.natAbs) := by
        rw [dtoa, if_neg (by rw [needsExponent_iff]; exact hx2), e2]
      cases decide (x.2 < 0) with
      | true => rw [dtoa, this]; rfl
      | false => rw [dtoa, if_neg (by rw [needsExponent_iff]; exact hx2), e2]; rfl
    dsimp only
    rw [e1, Option.bind_some, e3]
    obtain ⟨b, r, ht, hb⟩ := hh
    refine ⟨_, rfl, (hpl.append (by decide)).append (Plain.append (by split <;> decide) hpl2), ⟨b, _, by rw [ht]; rfl, hb⟩, .num neg digits scale x.2, ⟨digits, scale, x.2, rfl, (fun h => absurd he h), (fun _ => ⟨by rw [hx], by rw [hx]; exact hn⟩)⟩, fun rest hrest => ?_⟩
    have hv : (if decide (x.2 < 0) then -(x.2.natAbs : Int) else x.2.natAbs) = x.2 := by
      by_cases h : x.2 < 0 <;> simp [h] <;> omega
    have hE : expPart (ascii "e" ++ ((if decide (x.2 < 0) then ascii "-" else []) ++ toBase10 x.2.natAbs ++ rest)) = some (x.2, rest) := by
      have := expDigits_append h4 (decide (x.2 < 0)) hrest.noDigit
      rw [hv] at this
      exact this
    have := hr (ascii "e" ++ ((if decide (x.2 < 0) then ascii "-" else []) ++ toBase10 x.2.natAbs ++ rest)) x.2 rest (by show isDigit 0x65 = false; decide)
      (fun b r h => by rw [← (List.cons.inj h).1]; decide) hE
    rw [List.append_assoc, List.append_assoc]
    exact this
  · rw [if_neg (by rw [needsExponent_iff]; exact he)]
    obtain ⟨t, e, hpl, hh, digits, scale, hn, hw, hr⟩ := read_fixed hq he neg
    refine ⟨t, e, hpl, hh, .num neg digits scale 0, ⟨digits, scale, 0, rfl, (fun _ => ⟨rfl, hn, (fun h => ⟨(hw h).1, (hw h).2.1⟩)⟩), (fun h => absurd h he)⟩, fun rest hrest => ?_⟩
    refine hr rest 0 rest hrest.noDigit (fun b r h => ?_) (expPart_none hrest)
    rw [h] at hrest
    exact hrest.2.1

theorem value_number (fuel : Nat) {b : UInt8} (r : Bytes) (hb : isDigit b = true ∨ b = 0x2d) : value (fuel + 1) (b :: r) = JsonSpec.number (b :: r) := by
  have h : ∀ c : UInt8, c = 0x6e ∨ c = 0x74 ∨ c = 0x66 ∨ c = 0x22 ∨ c = 0x5b ∨ c = 0x7b → b ≠ c := by
    intro c hc e
    subst e
    rcases hc with rfl | rfl | rfl | rfl | rfl | rfl <;> exact absurd hb (by decide)
  rw [value]
  all_goals intro r' e; exact absurd (List.cons.inj e).1 (h _ (by decide))

/-- a text begins with something other than white space, or a closing bracket -/
def Ink (t : Bytes) : Prop := ∃ b r, t = b :: r ∧ isWs b = false ∧ b ≠ 0x5d ∧ b ≠ 0x7d

theorem digit_ink {b : UInt8} (h : isDigit b = true ∨ b = 0x2d) : isWs b = false ∧ b ≠ 0x5d ∧ b ≠ 0x7d := by
  have : ∀ n < 256, isDigit (UInt8.ofNat n) = true ∨ UInt8.ofNat n = 0x2d → isWs (UInt8.ofNat n) = false ∧ UInt8.ofNat n ≠ 0x5d ∧ UInt8.ofNat n ≠ 0x7d := by decide +kernel
  have k := this b.toNat b.toNat_lt
  rw [show UInt8.ofNat b.toNat = b by simp] at k
  exact k h

/-- A number that is printed for JSON is read. -/
theorem read_number {shift : Shift} (hs : ShiftOk shift) (b : UInt64) : ∃ j, NumDenotes shift (ofBits b) j ∧ Ink (number shift true b) ∧ Plain (number shift true b) ∧
    ∀ rest fuel, Ends rest → value (fuel + 1) (number shift true b ++ rest) = some (j, rest) := by
  rw [number]
  cases hb : ofBits b with
  | nan => exact ⟨.null, rfl, ⟨0x6e, ascii "ull", rfl, by decide, by decide, by decide⟩, (by show Plain (ascii "null"); decide), fun rest fuel _ => by rw [dtoa]; show value (fuel + 1) (0x6e :: 0x75 :: 0x6c :: 0x6c :: rest) = _; rw [value]⟩
  | inf neg =>
    have key : ∀ rest, Ends rest → unsigned neg (ascii "1e5000" ++ rest) = some (.num neg 1 0 5000, rest) := by
      intro rest hr
      have := unsigned_parts (toBase10_spec (v := 1) (by omega)) (frac := []) (fun b hb => by cases hb) neg (ascii "e5000" ++ rest) (by show isDigit 0x65 = false; decide)
        (fun b r h => by rw [← (List.cons.inj h).1]; decide) 5000 rest (by have := expDigits_append (v := 5000) (by omega) false hr.noDigit; exact this)
      exact this
    refine ⟨.num neg 1 0 5000, ⟨5000, rfl, ?_⟩, ?_, (by cases neg with | true => (show Plain (ascii "-1e5000"); decide) | false => (show Plain (ascii "1e5000"); decide)), ?_⟩
    · show (2 ^ 1024 : Int) ≤ 10 ^ 5000
      decide +kernel
    · cases neg with
      | true => exact ⟨0x2d, ascii "1e5000", rfl, by decide, by decide, by decide⟩
      | false => exact ⟨0x31, ascii "e5000", rfl, by decide, by decide, by decide⟩
    · intro rest fuel hr
      cases neg with
      | true =>
        show value (fuel + 1) (0x2d :: (ascii "1e5000" ++ rest)) = _
        rw [value_number _ _ (Or.inr rfl)]
        exact key rest hr
      | false =>
        show value (fuel + 1) (0x31 :: (ascii "e5000" ++ rest)) = _
        rw [value_number _ _ (Or.inl (by decide))]
        exact key rest hr
  | fin neg p q =>
    have hq := ofBits_den hb
    have et : ∃ t, dtoa shift true 4 (.fin neg p q) = some ((if neg then ascii "-" else []) ++ t) ∧ Plain t ∧ (∃ b r, t = b :: r ∧ isDigit b = true) ∧ ∃ j, NumDenotes shift (.fin neg p q) j ∧
        ∀ rest, Ends rest → unsigned neg (t ++ rest) = some (j, rest) := by
      cases neg with
      | true =>
        obtain ⟨t, e, h⟩ := read_unsigned (shift := shift) hq (fun h => hs b true p q hb h) true true 0
        exact ⟨t, by rw [dtoa, e]; rfl, h⟩
      | false =>
        obtain ⟨t, e, h⟩ := read_unsigned (shift := shift) hq (fun h => hs b false p q hb h) true false 1
        exact ⟨t, by rw [e]; rfl, h⟩
    obtain ⟨t, et, hpl, hh, j, hj, hr⟩ := et
    rw [et]
    obtain ⟨c, r, ht, hc⟩ := id hh
    refine ⟨j, hj, ?_, Plain.append (by split <;> decide) hpl, fun rest fuel hrest => ?_⟩
    · rw [ht]
      cases neg with
      | true => exact ⟨0x2d, _, rfl, by decide, by decide, by decide⟩
      | false => exact ⟨c, r, rfl, digit_ink (Or.inl hc)⟩
    have h1 := number_unsigned hh neg rest
    rw [hr rest hrest] at h1
    rw [Option.getD_some, ← h1]
    subst ht
    cases neg with
    | true => exact value_number _ _ (Or.inr rfl)
    | false => exact value_number _ _ (Or.inl hc)

end Json
end Rtmfp
