import Verif.Lemmas.JsonRead
/-! # Bytes of the text of values -/
namespace Rtmfp
namespace Json
open AMF JsonSpec

mutual
/-- all strings and keys of a value -/
def Strings (P : Bytes → Prop) : Val → Prop
  | .str s => P s
  | .obj m => MemStrings P m
  | .ecma m => MemStrings P m
  | .typed _ m => MemStrings P m
  | .arr a => ElemStrings P a
  | _ => True
/-- of members -/
def MemStrings (P : Bytes → Prop) : Mem → Prop
  | .nil => True
  | .cons k v m => P k ∧ Strings P v ∧ MemStrings P m
/-- of elements -/
def ElemStrings (P : Bytes → Prop) : Vals → Prop
  | .nil => True
  | .cons v a => Strings P v ∧ ElemStrings P a
end

/-- a property of texts that holds of joined texts and of printable ASCII -/
structure Kind (Q : Bytes → Prop) : Prop where
  append : ∀ s t, Q s → Q t → Q (s ++ t)
  plain : ∀ t, Plain t → Q t

mutual
theorem repr_kind {Q : Bytes → Prop} (hQ : Kind Q) (number : UInt64 → Bytes) (indent : Nat) (hn : ∀ b, Q (number b)) (hi : ∀ d, Q (indentation indent d)) :
    ∀ (v : Val) (depth : Nat), Strings (fun s => Q (jsonString s)) v → Q (repr number indent true depth v)
  | .nullptr, depth, _ => hQ.plain (ascii "null") (by decide)
  | .num b, depth, _ => by rw [repr]; exact hn b
  | .bool b, depth, _ => by rw [repr]; split <;> exact hQ.plain _ (by decide)
  | .str s, depth, h => by rw [repr]; exact h
  | .obj m, depth, h => by
    rw [repr]
    exact hQ.append _ _ (hQ.append _ _ (hQ.plain _ (by decide)) (mem_kind hQ number indent hn hi m depth true h)) (hQ.plain _ (by decide))
  | .null, depth, _ => hQ.plain (ascii "null") (by decide)
  | .undef, depth, _ => hQ.plain (ascii "null") (by decide)
  | .ecma m, depth, h => by
    rw [repr]
    exact hQ.append _ _ (hQ.append _ _ (hQ.plain _ (by decide)) (mem_kind hQ number indent hn hi m depth true h)) (hQ.plain _ (by decide))
  | .arr a, depth, h => by
    rw [repr]
    exact hQ.append _ _ (hQ.append _ _ (hQ.plain _ (by decide)) (elem_kind hQ number indent hn hi a depth true h)) (hQ.plain _ (by decide))
  | .typed n m, depth, h => by
    rw [repr, if_pos rfl]
    exact hQ.append _ _ (hQ.append _ _ (hQ.plain _ (by decide)) (mem_kind hQ number indent hn hi m depth true h)) (hQ.plain _ (by decide))
theorem mem_kind {Q : Bytes → Prop} (hQ : Kind Q) (number : UInt64 → Bytes) (indent : Nat) (hn : ∀ b, Q (number b)) (hi : ∀ d, Q (indentation indent d)) :
    ∀ (m : Mem) (depth : Nat) (f : Bool), MemStrings (fun s => Q (jsonString s)) m → Q (reprMembers number indent true depth f m)
  | .nil, depth, f, _ => by
    rw [reprMembers]
    split
    · exact hQ.plain _ (fun b hb => by cases hb)
    · exact hi depth
  | .cons k v m, depth, f, h => by
    have hm := fun f => mem_kind hQ number indent hn hi m depth f h.2.2
    have hv := repr_kind hQ number indent hn hi v (depth + 1) h.2.1
    have hk := h.1
    rw [reprMembers]
    split
    · refine hQ.append _ _ (hQ.append _ _ (hQ.append _ _ (hQ.append _ _ (hQ.append _ _ (hQ.append _ _ ?_ (hi _)) hk) (hQ.plain _ (by decide))) ?_) hv) (hm false)
      · split <;> exact hQ.plain _ (by decide)
      · split <;> exact hQ.plain _ (by decide)
    · exact hm f
theorem elem_kind {Q : Bytes → Prop} (hQ : Kind Q) (number : UInt64 → Bytes) (indent : Nat) (hn : ∀ b, Q (number b)) (hi : ∀ d, Q (indentation indent d)) :
    ∀ (a : Vals) (depth : Nat) (f : Bool), ElemStrings (fun s => Q (jsonString s)) a → Q (reprElements number indent true depth f a)
  | .nil, depth, f, _ => by
    rw [reprElements]
    split
    · exact hQ.plain _ (fun b hb => by cases hb)
    · exact hi depth
  | .cons v a, depth, f, h => by
    rw [reprElements]
    refine hQ.append _ _ (hQ.append _ _ (hQ.append _ _ ?_ (hi _)) (repr_kind hQ number indent hn hi v (depth + 1) h.1)) (elem_kind hQ number indent hn hi a depth false h.2)
    split <;> exact hQ.plain _ (by decide)
end

mutual
theorem strings_mono {P Q : Bytes → Prop} (h : ∀ s, P s → Q s) : ∀ v : Val, Strings P v → Strings Q v
  | .str s, k => h s k
  | .obj m, k => memStrings_mono h m k
  | .ecma m, k => memStrings_mono h m k
  | .typed _ m, k => memStrings_mono h m k
  | .arr a, k => elemStrings_mono h a k
  | .nullptr, _ => trivial
  | .num _, _ => trivial
  | .bool _, _ => trivial
  | .null, _ => trivial
  | .undef, _ => trivial
theorem memStrings_mono {P Q : Bytes → Prop} (h : ∀ s, P s → Q s) : ∀ m : Mem, MemStrings P m → MemStrings Q m
  | .nil, _ => trivial
  | .cons k v m, x => ⟨h k x.1, strings_mono h v x.2.1, memStrings_mono h m x.2.2⟩
theorem elemStrings_mono {P Q : Bytes → Prop} (h : ∀ s, P s → Q s) : ∀ a : Vals, ElemStrings P a → ElemStrings Q a
  | .nil, _ => trivial
  | .cons v a, x => ⟨strings_mono h v x.1, elemStrings_mono h a x.2⟩
end

mutual
theorem strings_all {P : Bytes → Prop} (h : ∀ s, P s) : ∀ v : Val, Strings P v
  | .str s => h s
  | .obj m => memStrings_all h m
  | .ecma m => memStrings_all h m
  | .typed _ m => memStrings_all h m
  | .arr a => elemStrings_all h a
  | .nullptr => trivial
  | .num _ => trivial
  | .bool _ => trivial
  | .null => trivial
  | .undef => trivial
theorem memStrings_all {P : Bytes → Prop} (h : ∀ s, P s) : ∀ m : Mem, MemStrings P m
  | .nil => trivial
  | .cons k v m => ⟨h k, strings_all h v, memStrings_all h m⟩
theorem elemStrings_all {P : Bytes → Prop} (h : ∀ s, P s) : ∀ a : Vals, ElemStrings P a
  | .nil => trivial
  | .cons v a => ⟨strings_all h v, elemStrings_all h a⟩
end

/-- UTF-8 text: code points, none of them surrogates -/
def Utf8 (t : Bytes) : Prop := ∃ cs : List Nat, (∀ c ∈ cs, c < 0x110000 ∧ ¬ (0xd800 ≤ c ∧ c < 0xe000)) ∧ t = (cs.map utf8).flatten

theorem utf8_kind : Kind Utf8 where
  append := by
    rintro s t ⟨cs, h1, rfl⟩ ⟨ds, h2, rfl⟩
    refine ⟨cs ++ ds, fun c hc => ?_, by simp⟩
    rcases List.mem_append.mp hc with h | h
    · exact h1 c h
    · exact h2 c h
  plain := by
    intro t ht
    refine ⟨t.map UInt8.toNat, fun c hc => ?_, ?_⟩
    · obtain ⟨b, hb, rfl⟩ := List.mem_map.mp hc
      have := b.toNat_lt
      omega
    · induction t with
      | nil => rfl
      | cons b t ih =>
        have hb : b.toNat < 0x7f := (ht b List.mem_cons_self).2
        rw [List.map_cons, List.map_cons, List.flatten_cons, ← ih (fun x hx => ht x (List.mem_cons_of_mem _ hx)), utf8, if_pos (by omega)]
        simp

/-- what a character is printed as is UTF-8 -/
theorem escape_low (n : Nat) (h : n < 0x80) : Plain (escape (UInt8.ofNat n)) := by
  have : ∀ n < 0x80, Plain (escape (UInt8.ofNat n)) := by decide +kernel
  exact this n h

theorem escape_high {b : UInt8} (h : 0x80 ≤ b) : escape b = [b] := by
  have : ∀ n < 256, 0x80 ≤ UInt8.ofNat n → escape (UInt8.ofNat n) = [UInt8.ofNat n] := by decide +kernel
  have k := this b.toNat b.toNat_lt
  rw [show UInt8.ofNat b.toNat = b by simp] at k
  exact k h

theorem ofNat_high {n : Nat} (h : n < 256) (h' : 0x80 ≤ n) : escape (UInt8.ofNat n) = [UInt8.ofNat n] := by
  refine escape_high ?_
  have : ∀ n < 256, 0x80 ≤ n → 0x80 ≤ UInt8.ofNat n := by decide +kernel
  exact this n h h'

theorem jsonString_utf8 {s : Bytes} (h : Utf8 s) : Utf8 (jsonString s) := by
  obtain ⟨cs, h, rfl⟩ := h
  refine utf8_kind.append _ _ (utf8_kind.append _ _ (utf8_kind.plain _ (by decide)) ?_) (utf8_kind.plain _ (by decide))
  induction cs with
  | nil => exact utf8_kind.plain _ (fun b hb => by cases hb)
  | cons c cs ih =>
    have ih := ih (fun x hx => h x (List.mem_cons_of_mem _ hx))
    have hc := h c List.mem_cons_self
    rw [List.map_cons, List.flatten_cons, List.map_append, List.flatten_append]
    refine utf8_kind.append _ _ ?_ ih
    have self : Utf8 (utf8 c) := ⟨[c], (fun x hx => by rw [List.mem_singleton.mp hx]; exact hc), by simp⟩
    by_cases h1 : c < 0x80
    · rw [utf8, if_pos h1]
      simp only [List.map_cons, List.map_nil, List.flatten_cons, List.flatten_nil, List.append_nil]
      exact utf8_kind.plain _ (escape_low c h1)
    · have e : ((utf8 c).map escape).flatten = utf8 c := by
        rw [utf8, if_neg h1]
        split
        · simp only [List.map_cons, List.map_nil, List.flatten_cons, List.flatten_nil, List.append_nil]
          rw [ofNat_high (by omega) (by omega), ofNat_high (by omega) (by omega)]; rfl
        · split
          · simp only [List.map_cons, List.map_nil, List.flatten_cons, List.flatten_nil, List.append_nil]
            rw [ofNat_high (by omega) (by omega), ofNat_high (by omega) (by omega), ofNat_high (by omega) (by omega)]; rfl
          · simp only [List.map_cons, List.map_nil, List.flatten_cons, List.flatten_nil, List.append_nil]
            rw [ofNat_high (by omega) (by omega), ofNat_high (by omega) (by omega), ofNat_high (by omega) (by omega), ofNat_high (by omega) (by omega)]; rfl
      rw [e]
      exact self

/-- no control characters -/
def OneLine (t : Bytes) : Prop := ∀ b ∈ t, 0x20 ≤ b ∧ b ≠ 0x7f

theorem oneLine_kind : Kind OneLine where
  append := by
    intro s t hs ht b hb
    rcases List.mem_append.mp hb with h | h
    · exact hs b h
    · exact ht b h
  plain := fun t ht b hb => ⟨(ht b hb).1, fun e => by have := (ht b hb).2; rw [e] at this; exact absurd this (by decide)⟩

theorem escape_line (b : UInt8) : OneLine (escape b) := by
  have : ∀ n < 256, ∀ b ∈ escape (UInt8.ofNat n), 0x20 ≤ b ∧ b ≠ 0x7f := by decide +kernel
  have k := this b.toNat b.toNat_lt
  rw [show UInt8.ofNat b.toNat = b by simp] at k
  exact k

theorem jsonString_line (s : Bytes) : OneLine (jsonString s) := by
  refine oneLine_kind.append _ _ (oneLine_kind.append _ _ (oneLine_kind.plain _ (by decide)) ?_) (oneLine_kind.plain _ (by decide))
  induction s with
  | nil => intro b hb; cases hb
  | cons b s ih =>
    rw [List.map_cons, List.flatten_cons]
    exact oneLine_kind.append _ _ (escape_line b) ih

/-! ## `repr` -/

mutual
/-- values that `repr` and `toJSON` print the same: without undefined or missing values, classes, numbers that aren't numbers or are infinite -/
def Ordinary : Val → Prop
  | .nullptr => False
  | .undef => False
  | .typed _ _ => False
  | .num b => ∃ neg p q, ofBits b = .fin neg p q
  | .obj m => MemOrdinary m
  | .ecma m => MemOrdinary m
  | .arr a => ElemOrdinary a
  | .bool _ => True
  | .str _ => True
  | .null => True
/-- of members -/
def MemOrdinary : Mem → Prop
  | .nil => True
  | .cons _ v m => Ordinary v ∧ MemOrdinary m
/-- of elements -/
def ElemOrdinary : Vals → Prop
  | .nil => True
  | .cons v a => Ordinary v ∧ ElemOrdinary a
end

theorem dtoa_flag (shift : Shift) : ∀ fuel neg p q, dtoa shift true fuel (.fin neg p q) = dtoa shift false fuel (.fin neg p q) := by
  intro fuel
  induction fuel with
  | zero => intro neg p q; rw [dtoa, dtoa]
  | succ fuel ih =>
    intro neg p q
    cases neg with
    | true => rw [dtoa, dtoa, ih]
    | false =>
      rw [dtoa, dtoa]
      simp only [ih]

mutual
theorem same_val (shift : Shift) (indent : Nat) : ∀ (v : Val) (depth : Nat), Ordinary v → repr (number shift true) indent true depth v = repr (number shift false) indent false depth v
  | .nullptr, _, h => h.elim
  | .undef, _, h => h.elim
  | .typed _ _, _, h => h.elim
  | .num b, _, h => by
    obtain ⟨neg, p, q, e⟩ := h
    rw [repr, repr, number, number, e, dtoa_flag]
  | .obj m, depth, h => by rw [repr, repr, same_mem shift indent m depth true h]
  | .ecma m, depth, h => by rw [repr, repr, same_mem shift indent m depth true h]
  | .arr a, depth, h => by rw [repr, repr, same_elem shift indent a depth true h]
  | .bool _, _, _ => by rw [repr, repr]
  | .str _, _, _ => by rw [repr, repr]
  | .null, _, _ => by rw [repr, repr]
theorem same_mem (shift : Shift) (indent : Nat) : ∀ (m : Mem) (depth : Nat) (f : Bool), MemOrdinary m →
    reprMembers (number shift true) indent true depth f m = reprMembers (number shift false) indent false depth f m
  | .nil, _, _, _ => by rw [reprMembers, reprMembers]
  | .cons k v m, depth, f, h => by
    have ho : omitted v = false := by
      have := h.1
      cases v <;> first | rfl | exact this.elim
    rw [reprMembers, reprMembers, if_pos (Or.inr ho), if_pos (Or.inl rfl), same_val shift indent v (depth + 1) h.1, same_mem shift indent m depth false h.2]
theorem same_elem (shift : Shift) (indent : Nat) : ∀ (a : Vals) (depth : Nat) (f : Bool), ElemOrdinary a →
    reprElements (number shift true) indent true depth f a = reprElements (number shift false) indent false depth f a
  | .nil, _, _, _ => by rw [reprElements, reprElements]
  | .cons v a, depth, f, h => by rw [reprElements, reprElements, same_val shift indent v (depth + 1) h.1, same_elem shift indent a depth false h.2]
end

/-! ## an exact logarithm, to show that one exists -/

/-- while at least ten -/
def shiftUp (p : Nat) : Nat → Nat → Int → (Nat × Nat) × Int
  | 0, q, e => ((p, q), e)
  | n + 1, q, e => if 10 * q ≤ p then shiftUp p n (10 * q) (e + 1) else ((p, q), e)

/-- while less than one -/
def shiftDown (q : Nat) : Nat → Nat → Int → (Nat × Nat) × Int
  | 0, p, e => ((p, q), e)
  | n + 1, p, e => if p < q then shiftDown q n (10 * p) (e - 1) else ((p, q), e)

/-- multiplies or divides by ten until the number is from one to ten -/
def exactShift : Shift := fun p q => if q ≤ p then shiftUp p 1100 q 0 else shiftDown q 1100 p 0

theorem shiftUp_ok (p : Nat) : ∀ n q e, 0 < q → q ≤ p → p < 10 ^ (n + 1) * q → 0 < (shiftUp p n q e).1.2 ∧ (shiftUp p n q e).1.2 ≤ (shiftUp p n q e).1.1 ∧
    (shiftUp p n q e).1.1 < 10 * (shiftUp p n q e).1.2 ∧ (shiftUp p n q e).2.natAbs ≤ e.natAbs + n := by
  intro n
  induction n with
  | zero => intro q e h1 h2 h3; exact ⟨h1, h2, (by simpa [shiftUp] using h3), by simp [shiftUp]⟩
  | succ n ih =>
    intro q e h1 h2 h3
    rw [shiftUp]
    split
    · rename_i h
      obtain ⟨a, b, c, d⟩ := ih (10 * q) (e + 1) (by omega) h (by rw [Nat.pow_succ, Nat.mul_assoc] at h3; exact h3)
      exact ⟨a, b, c, by omega⟩
    · exact ⟨h1, h2, (by dsimp only; omega), by dsimp only; omega⟩

theorem shiftDown_ok (q : Nat) : ∀ n p e, 0 < q → p < 10 * q → q ≤ 10 ^ n * p → 0 < (shiftDown q n p e).1.2 ∧ (shiftDown q n p e).1.2 ≤ (shiftDown q n p e).1.1 ∧
    (shiftDown q n p e).1.1 < 10 * (shiftDown q n p e).1.2 ∧ (shiftDown q n p e).2.natAbs ≤ e.natAbs + n := by
  intro n
  induction n with
  | zero => intro p e h1 h2 h3; exact ⟨h1, (by simpa [shiftDown] using h3), h2, by simp [shiftDown]⟩
  | succ n ih =>
    intro p e h1 h2 h3
    rw [shiftDown]
    split
    · obtain ⟨a, b, c, d⟩ := ih (10 * p) (e - 1) h1 (by omega) (by rw [Nat.pow_succ, Nat.mul_assoc] at h3; exact h3)
      exact ⟨a, b, c, by omega⟩
    · exact ⟨h1, (by dsimp only; omega), h2, by dsimp only; omega⟩

theorem ofBits_bounds {b : UInt64} {neg : Bool} {p q : Nat} (h : ofBits b = .fin neg p q) : p < 2 ^ 1025 ∧ q ≤ 2 ^ 1074 := by
  rw [ofBits] at h
  have hm : b.toNat % 2 ^ 52 < 2 ^ 52 := Nat.mod_lt _ (by decide)
  have he : b.toNat / 2 ^ 52 % 2 ^ 11 < 2 ^ 11 := Nat.mod_lt _ (by decide)
  generalize b.toNat % 2 ^ 52 = m at *
  generalize b.toNat / 2 ^ 52 % 2 ^ 11 = e at *
  split at h
  · split at h <;> cases h
  · rename_i hne
    split at h
    · cases h
      exact ⟨Nat.lt_trans hm (Nat.pow_lt_pow_right (by omega) (by omega)), Nat.le_refl _⟩
    · split at h
      · rename_i h1
        injection h with _ h2 h3
        subst h2 h3
        refine ⟨?_, Nat.pow_pos (by omega)⟩
        have h2 : 2 ^ (e - 1075) ≤ 2 ^ 971 := Nat.pow_le_pow_right (by omega) (by omega)
        have h3 : (2 ^ 52 + m) * 2 ^ (e - 1075) ≤ 2 ^ 53 * 2 ^ 971 := Nat.mul_le_mul (by omega) h2
        refine Nat.lt_of_le_of_lt h3 ?_
        rw [← Nat.pow_add]
        exact Nat.pow_lt_pow_right (by omega) (by omega)
      · injection h with _ h2 h3
        subst h2 h3
        refine ⟨Nat.lt_of_lt_of_le (show 2 ^ 52 + m < 2 ^ 53 by omega) (Nat.pow_le_pow_right (by omega) (by omega)), Nat.pow_le_pow_right (by omega) (by omega)⟩

theorem exactShift_ok : ShiftOk exactShift := by
  intro b neg p q hb hx
  have hq := ofBits_den hb
  obtain ⟨h1, h2⟩ := ofBits_bounds hb
  have hp : 0 < p := by
    rcases hx with h | h
    · have : 0 < 2 ^ 64 * q := Nat.mul_pos (by decide) hq
      exact Nat.lt_of_lt_of_le this h
    · exact h.1
  rw [exactShift]
  split
  · rename_i hle
    obtain ⟨a, c, d, e⟩ := shiftUp_ok p 1100 q 0 hq hle (by
      have : 2 ^ 1025 * 1 ≤ 10 ^ (1100 + 1) * q := Nat.mul_le_mul (by decide +kernel) hq
      exact Nat.lt_of_lt_of_le h1 (by rwa [Nat.mul_one] at this))
    exact ⟨a, c, d, Nat.lt_of_le_of_lt e (by decide)⟩
  · rename_i hlt
    obtain ⟨a, c, d, e⟩ := shiftDown_ok q 1100 p 0 hq (by omega) (by
      have : 2 ^ 1074 * 1 ≤ 10 ^ 1100 * p := Nat.mul_le_mul (by decide +kernel) hp
      exact Nat.le_trans h2 (by rwa [Nat.mul_one] at this))
    exact ⟨a, c, d, Nat.lt_of_le_of_lt e (by decide)⟩

end Json
end Rtmfp
