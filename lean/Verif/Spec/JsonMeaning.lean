import Verif.Model.Json
import Verif.Spec.Json
/-! # What JSON is expected for an AMF0 value -/
namespace Rtmfp
namespace Json
open AMF JsonSpec

/-- The number `digits / 10^scale` is `p / q` up to a part in 2 * 10^15. -/
def Near (digits scale p q : Nat) : Prop :=
  2 * 10 ^ 15 * (digits * q) ≤ (2 * 10 ^ 15 + 1) * (p * 10 ^ scale) ∧ (2 * 10 ^ 15 - 1) * (p * 10 ^ scale) ≤ 2 * 10 ^ 15 * (digits * q)

/-- `p / q` is at least 2^64, or not zero and less than (the `double` for) 0.0001: such are printed with an exponent. -/
def Extreme (p q : Nat) : Prop := 2 ^ 64 * q ≤ p ∨ (0 < p ∧ p * 2 ^ 66 < 7378697629483821 * q)

/-- What a number may be in JSON: null if it isn't one; a number no `double` can hold if infinite; exact if a whole number less than 2^64; otherwise exact to 15 digits, of
what logarithm and power (`shift`) made of it if it is extreme. -/
def NumDenotes (shift : Shift) (d : Dbl) (j : JVal) : Prop :=
  match d with
  | .nan => j = .null
  | .inf neg => ∃ k, j = .num neg 1 0 k ∧ (2 ^ 1024 : Int) ≤ 10 ^ k.toNat
  | .fin neg p q => ∃ digits scale exp, j = .num neg digits scale exp ∧
      (¬ Extreme p q → exp = 0 ∧ Near digits scale p q ∧ (q ∣ p → digits = p / q ∧ scale = 0)) ∧
      (Extreme p q → exp = (shift p q).2 ∧ Near digits scale (shift p q).1.1 (shift p q).1.2)

mutual
/-- What JSON is expected for a value. -/
def Denotes (shift : Shift) : Val → JVal → Prop
  | .nullptr, j => j = .null
  | .num b, j => NumDenotes shift (ofBits b) j
  | .bool b, j => j = .bool b
  | .str s, j => j = .str s
  | .obj m, j => ∃ l, j = .obj l ∧ MemDenotes shift m l
  | .null, j => j = .null
  | .undef, j => j = .null
  | .ecma m, j => ∃ l, j = .obj l ∧ MemDenotes shift m l
  | .arr a, j => ∃ l, j = .arr l ∧ ElemDenotes shift a l
  | .typed _ m, j => ∃ l, j = .obj l ∧ MemDenotes shift m l
/-- Members: all but those undefined or missing, in order. -/
def MemDenotes (shift : Shift) : Mem → List (Bytes × JVal) → Prop
  | .nil, l => l = []
  | .cons k v m, l => ((v = .undef ∨ v = .nullptr) ∧ MemDenotes shift m l) ∨
      ((v ≠ .undef ∧ v ≠ .nullptr) ∧ ∃ j l', l = (k, j) :: l' ∧ Denotes shift v j ∧ MemDenotes shift m l')
/-- Elements: all, in order. -/
def ElemDenotes (shift : Shift) : Vals → List JVal → Prop
  | .nil, l => l = []
  | .cons v a, l => ∃ j l', l = j :: l' ∧ Denotes shift v j ∧ ElemDenotes shift a l'
end

/-- What is relied on of logarithm and power, of numbers that are `double`s: a number from 1 to less than 10, and an exponent of at most 64 bits. -/
def ShiftOk (shift : Shift) : Prop :=
  ∀ b neg p q, ofBits b = .fin neg p q → Extreme p q →
    0 < (shift p q).1.2 ∧ (shift p q).1.2 ≤ (shift p q).1.1 ∧ (shift p q).1.1 < 10 * (shift p q).1.2 ∧ (shift p q).2.natAbs < 2 ^ 64

end Json
end Rtmfp
