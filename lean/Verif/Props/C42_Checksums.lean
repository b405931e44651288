import Verif.Lemmas.Checksums

/-! # C42: checksums

Bits are numbered in the order in which they are transmitted for each CRC: `bitL m i` takes the bits of a byte from the
least significant one (`crc32_le`), `bitB m i` from the most significant one (`crc32_be`). A burst of up to 32 bits is any
change confined to 32 consecutive bit positions. -/

namespace Rtmfp
open Checksums

namespace C42
/-- bit `i` of the message, least significant bit of each byte first -/
def bitL (m : Bytes) (i : Nat) : Option Bool := (m[i / 8]?).map fun c => c.toNat.testBit (i % 8)
/-- bit `i` of the message, most significant bit of each byte first -/
def bitB (m : Bytes) (i : Nat) : Option Bool := (m[i / 8]?).map fun c => c.toNat.testBit (7 - i % 8)

/-- the sum of the 16-bit big-endian words of a message (RFC 1071); a trailing odd byte counts for itself -/
def words : Bytes → List Nat
  | a :: b :: rest => (256 * a.toNat + b.toNat) :: words rest
  | [a] => [a.toNat]
  | [] => []

theorem words_le (m : Bytes) : (words m).sum ≤ 65535 * (m.length / 2 + m.length % 2) := by
  fun_induction words m with
  | case1 a b rest ih =>
    have := a.toNat_lt; have := b.toNat_lt
    simp only [List.sum_cons, List.length_cons]; omega
  | case2 a => have := a.toNat_lt; simp; omega
  | case3 => simp

theorem sumLoop_words (m : Bytes) : ∀ s, s + (words m).sum < 4294967296 → sumLoop s m = s + (words m).sum := by
  fun_induction words m with
  | case1 a b rest ih =>
    intro s h
    have := a.toNat_lt; have := b.toNat_lt
    have e : a.toNat <<< 8 = 256 * a.toNat := by rw [Nat.shiftLeft_eq]; omega
    simp only [List.sum_cons] at h ⊢
    rw [sumLoop, e, Nat.mod_eq_of_lt (a := s + _) (by omega), Nat.mod_eq_of_lt (by omega), ih _ (by omega)]
    omega
  | case2 a => intro s h; simp at h ⊢; rw [sumLoop]; omega
  | case3 => intro s h; simp [sumLoop]

theorem words_append (a b : Bytes) (h : a.length % 2 = 0) : words (a ++ b) = words a ++ words b := by
  fun_induction words a with
  | case1 x y rest ih =>
    rw [List.cons_append, List.cons_append, words, ih (by simp at h; omega), List.cons_append]
  | case2 x => simp at h
  | case3 => simp
/-- the CRC-32 generator without its leading term: x^26 + x^23 + x^22 + x^16 + x^12 + x^11 + x^10 + x^8 + x^7 + x^5 + x^4 + x^2 + x + 1, as the 32
coefficients from x^31 down -/
def generator : List Bool := (List.range 32).map fun i => [26, 23, 22, 16, 12, 11, 10, 8, 7, 5, 4, 2, 1, 0].contains (31 - i)

/-- add (modulo 2) the first string of bits to the beginning of the second -/
def addTo : List Bool → List Bool → List Bool
  | a :: as, b :: bs => (a ^^ b) :: addTo as bs
  | [], bs => bs
  | _ :: _, [] => []

theorem addTo_length (as : List Bool) : ∀ bs, (addTo as bs).length = bs.length := by
  induction as with
  | nil => intro bs; cases bs <;> simp [addTo]
  | cons a as ih => intro bs; cases bs <;> simp [addTo, ih]

/-- long division of polynomials modulo 2: what is left of a string of bits after taking away multiples of the generator until 32 bits (or fewer) remain -/
def remainder : List Bool → List Bool
  | [] => []
  | b :: rest => if rest.length < 32 then b :: rest else remainder (if b then addTo generator rest else rest)
termination_by l => l.length
decreasing_by
  cases b
  · simp
  · simp [addTo_length]

/-- the bits of a number, most significant first -/
def bits32 (x : BitVec 32) : List Bool := (List.range 32).map fun i => x.getLsbD (31 - i)
/-- the bits of a number, least significant first -/
def stib32 (x : BitVec 32) : List Bool := (List.range 32).map fun i => x.getLsbD i

theorem addTo_addTo (as : List Bool) : ∀ bs cs, as.length = bs.length → addTo as (addTo bs cs) = addTo (List.zipWith (· ^^ ·) as bs) cs := by
  induction as with
  | nil => intro bs cs h; cases bs with
    | nil => simp [addTo]
    | cons b bs => simp at h
  | cons a as ih =>
    intro bs cs h
    cases bs with
    | nil => simp at h
    | cons b bs =>
      cases cs with
      | nil => simp [addTo]
      | cons c cs =>
        simp only [addTo, List.zipWith_cons_cons, Bool.xor_assoc]
        rw [ih bs cs (by simpa using h)]

theorem addTo_pad (as : List Bool) : ∀ bs, addTo (as ++ [false]) bs = addTo as bs := by
  induction as with
  | nil => intro bs; cases bs <;> simp [addTo]
  | cons a as ih => intro bs; cases bs <;> simp [addTo, ih]

theorem addTo_zeros (as : List Bool) : addTo as (List.replicate as.length false) = as := by
  induction as with
  | nil => rfl
  | cons a as ih => simp [List.replicate_succ, addTo, ih]

/-- a shift register with these properties computes the remainder -/
theorem remainder_fold (step : BitVec 32 → Bool → BitVec 32) (bitsOf : BitVec 32 → List Bool) (hlen : ∀ x, (bitsOf x).length = 32)
    (hstep : ∀ x b, ∃ top tail, bitsOf x = top :: tail ∧
      bitsOf (step x b) = if (top ^^ b) = true then List.zipWith (· ^^ ·) generator (tail ++ [false]) else tail ++ [false])
    (bs : List Bool) : ∀ x, remainder (addTo (bitsOf x) (bs ++ List.replicate 32 false)) = bitsOf (bs.foldl step x) := by
  induction bs with
  | nil =>
    intro x
    have h := addTo_zeros (bitsOf x)
    rw [hlen] at h
    simp only [List.nil_append, h, List.foldl_nil]
    have hl := hlen x
    cases hb : bitsOf x with
    | nil => rw [hb] at hl; simp at hl
    | cons a as => rw [hb] at hl; simp at hl; rw [remainder, if_pos (by omega)]
  | cons b bs ih =>
    intro x
    obtain ⟨top, tail, h1, h2⟩ := hstep x b
    have hl := hlen x
    rw [h1] at hl
    simp at hl
    rw [List.foldl_cons, ← ih, h1, h2, List.cons_append, addTo, remainder, if_neg (by rw [addTo_length]; simp)]
    congr 1
    by_cases ht : (top ^^ b) = true
    · rw [if_pos ht, if_pos ht, ← addTo_addTo _ _ _ (by simp [generator, hl]), addTo_pad]
    · rw [if_neg ht, if_neg ht, addTo_pad]

theorem be_shift (x : BitVec 32) : bits32 x = x.getLsbD 31 :: ((List.range 31).map fun i => x.getLsbD (30 - i)) ∧
    bits32 (x <<< 1) = ((List.range 31).map fun i => x.getLsbD (30 - i)) ++ [false] := by
  constructor
  · rw [bits32, List.range_succ_eq_map, List.map_cons, List.map_map]
    have e : (List.range 31).map ((fun i => x.getLsbD (31 - i)) ∘ Nat.succ) = (List.range 31).map fun i => x.getLsbD (30 - i) := by
      apply List.map_congr_left
      intro i hi
      simp only [Function.comp]
      rw [show 31 - i.succ = 30 - i by omega]
    rw [e]
  · rw [bits32, List.range_succ, List.map_append]
    congr 1
    · apply List.map_congr_left
      intro i hi
      have := List.mem_range.mp hi
      rw [BitVec.getLsbD_shiftLeft]
      have e : 31 - i - 1 = 30 - i := by omega
      simp [e]
      omega
    · simp

theorem le_shift (x : BitVec 32) : stib32 x = x.getLsbD 0 :: ((List.range 31).map fun i => x.getLsbD (i + 1)) ∧
    stib32 (x >>> 1) = ((List.range 31).map fun i => x.getLsbD (i + 1)) ++ [false] := by
  constructor
  · rw [stib32, List.range_succ_eq_map, List.map_cons, List.map_map]
    rfl
  · rw [stib32, List.range_succ, List.map_append]
    have e : (List.range 31).map (fun i => (x >>> 1).getLsbD i) = (List.range 31).map fun i => x.getLsbD (i + 1) := by
      apply List.map_congr_left
      intro i hi
      rw [BitVec.getLsbD_ushiftRight, Nat.add_comm]
    rw [e]
    simp

theorem zip_map (f : Bool → Bool → Bool) (g h : Nat → Bool) (l : List Nat) : List.zipWith f (l.map g) (l.map h) = l.map (fun i => f (g i) (h i)) := by
  induction l with
  | nil => rfl
  | cons a l ih => simp [ih]

theorem bits32_xor (x y : BitVec 32) : bits32 (x ^^^ y) = List.zipWith (· ^^ ·) (bits32 y) (bits32 x) := by
  rw [bits32, bits32, bits32, zip_map]
  apply List.map_congr_left
  intro i _
  rw [BitVec.getLsbD_xor, Bool.xor_comm]

theorem stib32_xor (x y : BitVec 32) : stib32 (x ^^^ y) = List.zipWith (· ^^ ·) (stib32 y) (stib32 x) := by
  rw [stib32, stib32, stib32, zip_map]
  apply List.map_congr_left
  intro i _
  rw [BitVec.getLsbD_xor, Bool.xor_comm]
end C42
open C42

/-- **C42**, what the CRCs are: the remainder of dividing the message (followed by 32 zero bits, the starting value added to its first 32 bits) by the
CRC-32 generator polynomial, taking the bits of bytes and of the CRC from the most significant (`crc32_be`) or from the least significant (`crc32_le`). -/
theorem C42_crc_remainder (c : UInt32) (m : Bytes) :
    bits32 (crc32_be c m).toBitVec = remainder (addTo (bits32 c.toBitVec) (m.flatMap (fun b => (List.range 8).map fun i => b.toNat.testBit (7 - i)) ++ List.replicate 32 false)) ∧
    stib32 (crc32_le c m).toBitVec = remainder (addTo (stib32 c.toBitVec) (m.flatMap (fun b => (List.range 8).map fun i => b.toNat.testBit i) ++ List.replicate 32 false)) := by
  constructor
  · rw [be_fold]
    refine (remainder_fold beStep bits32 (by simp [bits32]) ?_ _ _).symm
    intro x b
    obtain ⟨h1, h2⟩ := be_shift x
    refine ⟨_, _, h1, ?_⟩
    rw [beStep]
    split
    · rw [bits32_xor, h2]; congr 1
    · exact h2
  · rw [le_fold]
    refine (remainder_fold leStep stib32 (by simp [stib32]) ?_ _ _).symm
    intro x b
    obtain ⟨h1, h2⟩ := le_shift x
    refine ⟨_, _, h1, ?_⟩
    rw [leStep]
    split
    · rw [stib32_xor, h2]; congr 1
    · exact h2

/-- **C42**, the CRC can be computed piecewise, in any number of pieces, from any starting value. -/
theorem C42_crc_incremental (c : UInt32) (a b : Bytes) :
    crc32_le c (a ++ b) = crc32_le (crc32_le c a) b ∧ crc32_be c (a ++ b) = crc32_be (crc32_be c a) b := by
  constructor
  · rw [← UInt32.toBitVec_inj, le_fold, le_fold, le_fold, List.flatMap_append, List.foldl_append]
  · rw [← UInt32.toBitVec_inj, be_fold, be_fold, be_fold, List.flatMap_append, List.foldl_append]

/-- the standard check value of CRC-32 (reflected) and of CRC-32/MPEG-2: the code computes those CRCs -/
example : crc32_le0 [0x31, 0x32, 0x33, 0x34, 0x35, 0x36, 0x37, 0x38, 0x39] ^^^ 0xffffffff = 0xcbf43926 ∧
    crc32_be0 [0x31, 0x32, 0x33, 0x34, 0x35, 0x36, 0x37, 0x38, 0x39] = 0x0376e6e7 := by decide +kernel

/-- **C42**, the little-endian CRC detects every error burst of up to 32 bits, in messages of any length, from any starting
value. -/
theorem C42_burst_le (c : UInt32) (a b : Bytes) (hl : a.length = b.length) (hne : a ≠ b) (k : Nat)
    (hk : ∀ i, i < k ∨ k + 32 ≤ i → bitL a i = bitL b i) : crc32_le c a ≠ crc32_le c b := by
  intro h
  rw [← UInt32.toBitVec_inj, le_fold, le_fold] at h
  refine hne (flatMap_inj _ lsb_length lsb_inj a b (burst leStep leStep_xor leStep_zero (by decide) le_burst_bits _ _ ?_ k ?_ _ h))
  · rw [flatMap_length _ lsb_length, flatMap_length _ lsb_length, hl]
  · intro i hi
    have e : ∀ m : Bytes, (m.flatMap lsbFirst)[i]? = bitL m i := by
      intro m
      rw [flatMap_get _ lsb_length, bitL]
      cases m[i / 8]? with
      | none => rfl
      | some c => simp [lsbFirst, Nat.mod_lt]
    rw [e, e]; exact hk i hi

/-- **C42**, and so does the big-endian CRC. -/
theorem C42_burst_be (c : UInt32) (a b : Bytes) (hl : a.length = b.length) (hne : a ≠ b) (k : Nat)
    (hk : ∀ i, i < k ∨ k + 32 ≤ i → bitB a i = bitB b i) : crc32_be c a ≠ crc32_be c b := by
  intro h
  rw [← UInt32.toBitVec_inj, be_fold, be_fold] at h
  refine hne (flatMap_inj _ msb_length msb_inj a b (burst beStep beStep_xor beStep_zero (by decide) be_burst_bits _ _ ?_ k ?_ _ h))
  · rw [flatMap_length _ msb_length, flatMap_length _ msb_length, hl]
  · intro i hi
    have e : ∀ m : Bytes, (m.flatMap msbFirst)[i]? = bitB m i := by
      intro m
      rw [flatMap_get _ msb_length, bitB]
      cases m[i / 8]? with
      | none => rfl
      | some c => simp [msbFirst, Nat.mod_lt]
    rw [e, e]; exact hk i hi

/-- the hypotheses hold for a 32-bit burst that straddles five bytes -/
example : let a : Bytes := [1, 2, 3, 4, 5, 6, 7]; let b : Bytes := [1, 0xf2, 0xff, 0xff, 0xff, 0x09, 7]
    a.length = b.length ∧ a ≠ b ∧ (∀ i, i < 12 ∨ 12 + 32 ≤ i → bitL a i = bitL b i) := by
  refine ⟨rfl, by decide, fun i hi => ?_⟩
  rcases Nat.lt_or_ge i 56 with h | h
  · have : ∀ i : Fin 56, i.val < 12 ∨ 12 + 32 ≤ i.val → bitL [1, 2, 3, 4, 5, 6, 7] i.val = bitL [1, 0xf2, 0xff, 0xff, 0xff, 0x09, 7] i.val := by
      decide
    exact this ⟨i, h⟩ hi
  · simp [bitL, show 7 ≤ i / 8 by omega]

/-- a burst of 33 bits is not always detected: the generator polynomial itself, so the window in the theorem is tight -/
example : crc32_be 0 [0, 0, 0, 0, 0] = crc32_be 0 [0x01, 0x04, 0xC1, 0x1D, 0xB7] := by decide +kernel

/-- **C42**, the 16-bit checksum of up to 128 KiB is the complement of the ones' complement sum of the words (the sum modulo
65535, represented by 65535 rather than 0 unless all of the words are zero). -/
theorem C42_cksum_value (m : Bytes) (h : m.length ≤ 131072) :
    in_cksum m = 65535 - (if (words m).sum = 0 then 0 else ((words m).sum - 1) % 65535 + 1) := by
  have := words_le m
  rw [in_cksum, sumLoop_words _ _ (by omega), Nat.zero_add, fold_value _ (by omega)]

/-- **C42**, a message with its checksum stored (most significant byte first) in a zeroed field at an even offset verifies:
its checksum is 0. -/
theorem C42_cksum_verifies (pre post : Bytes) (hp : pre.length % 2 = 0) (h : pre.length + 2 + post.length ≤ 131072)
    (hi lo : UInt8) (hc : in_cksum (pre ++ [0, 0] ++ post) = 256 * hi.toNat + lo.toNat) :
    in_cksum (pre ++ [hi, lo] ++ post) = 0 := by
  have hw : ∀ x y : UInt8, (words (pre ++ [x, y] ++ post)).sum = (words pre).sum + (256 * x.toNat + y.toNat) + (words post).sum := by
    intro x y
    rw [words_append _ _ (by simp; omega), words_append _ _ hp]
    simp [words]
    omega
  rw [C42_cksum_value _ (by simp; omega), hw] at hc ⊢
  have := hi.toNat_lt; have := lo.toNat_lt
  simp only [show (0 : UInt8).toNat = 0 from rfl] at hc
  split at hc <;> split <;> omega

example : in_cksum [0x45, 0x00, 0x00, 0x73, 0x00, 0x00, 0x40, 0x00, 0x40, 0x11, 0, 0, 0xc0, 0xa8, 0x00, 0x01, 0xc0, 0xa8, 0x00, 0xc7] = 0xb861 ∧
    in_cksum [0x45, 0x00, 0x00, 0x73, 0x00, 0x00, 0x40, 0x00, 0x40, 0x11, 0xb8, 0x61, 0xc0, 0xa8, 0x00, 0x01, 0xc0, 0xa8, 0x00, 0xc7] = 0 := by
  decide

/-- **C42**, the 16-bit checksum detects a change to any one word, unless it changes 0x0000 to 0xffff or back (which no ones'
complement sum can see). -/
theorem C42_cksum_detects_word (pre post : Bytes) (hp : pre.length % 2 = 0) (h : pre.length + 2 + post.length ≤ 131072)
    (a b c d : UInt8) (hne : (a, b) ≠ (c, d))
    (h0 : ¬((a, b) = (0, 0) ∧ (c, d) = (255, 255))) (h1 : ¬((a, b) = (255, 255) ∧ (c, d) = (0, 0))) :
    in_cksum (pre ++ [a, b] ++ post) ≠ in_cksum (pre ++ [c, d] ++ post) := by
  have hw : ∀ x y : UInt8, (words (pre ++ [x, y] ++ post)).sum = (words pre).sum + (256 * x.toNat + y.toNat) + (words post).sum := by
    intro x y
    rw [words_append _ _ (by simp; omega), words_append _ _ hp]
    simp [words]
    omega
  rw [C42_cksum_value _ (by simp; omega), C42_cksum_value _ (by simp; omega), hw, hw]
  simp only [ne_eq, Prod.mk.injEq, ← UInt8.toNat_inj, show (0 : UInt8).toNat = 0 from rfl, show (255 : UInt8).toNat = 255 from rfl] at hne h0 h1
  have := a.toNat_lt; have := b.toNat_lt; have := c.toNat_lt; have := d.toNat_lt
  have n1 : 256 * a.toNat + b.toNat ≠ 256 * c.toNat + d.toNat := by omega
  have n2 : ¬(256 * a.toNat + b.toNat = 0 ∧ 256 * c.toNat + d.toNat = 65535) := by omega
  have n3 : ¬(256 * a.toNat + b.toNat = 65535 ∧ 256 * c.toNat + d.toNat = 0) := by omega
  have l1 : 256 * a.toNat + b.toNat ≤ 65535 := by omega
  have l2 : 256 * c.toNat + d.toNat ≤ 65535 := by omega
  generalize 256 * a.toNat + b.toNat = x at *
  generalize 256 * c.toNat + d.toNat = y at *
  split <;> split <;> omega

example : in_cksum ([1, 2] ++ [0, 0] ++ [3]) = in_cksum ([1, 2] ++ [255, 255] ++ [3]) := by decide

/-- An odd trailing byte is not padded on the right as RFC 1071 prescribes: the code adds it as the low byte of a word, so
its checksum of an odd-length message is not the Internet checksum. -/
theorem C42_cksum_odd_not_rfc1071 : ∃ m : Bytes, m.length % 2 = 1 ∧ in_cksum m ≠ in_cksum (m ++ [0]) :=
  ⟨[1], by decide, by decide⟩

end Rtmfp
