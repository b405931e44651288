import Verif.Model.Checksums

namespace Rtmfp
namespace Checksums

/-- one bit, least significant first -/
def leStep (crc : BitVec 32) (b : Bool) : BitVec 32 :=
  if (crc.getLsbD 0 ^^ b) = true then (crc >>> 1) ^^^ 0xEDB88320#32 else crc >>> 1

/-- one bit, most significant first -/
def beStep (crc : BitVec 32) (b : Bool) : BitVec 32 :=
  if (crc.getLsbD 31 ^^ b) = true then (crc <<< 1) ^^^ 0x04C11DB7#32 else crc <<< 1

theorem and_bit (x : BitVec 32) (i : Nat) (hi : i < 32) : (x &&& BitVec.twoPow 32 i ≠ 0#32) ↔ x.getLsbD i = true := by
  rw [BitVec.and_twoPow]
  by_cases h : x.getLsbD i = true
  · rw [if_pos h]
    simp only [h, iff_true]
    intro hc
    have := congrArg (fun y : BitVec 32 => y.getLsbD i) hc
    simp [hi] at this
  · rw [if_neg h]; simp [h]

theorem leByte_succ (n : Nat) (crc : UInt32) (c : UInt8) :
    leByte (n + 1) crc c = leByte n ⟨leStep crc.toBitVec (c.toNat.testBit 0)⟩ (c >>> 1) := by
  have hb : ((c.toUInt32 ^^^ crc) &&& 0x01 ≠ 0) ↔ (crc.toBitVec.getLsbD 0 ^^ c.toNat.testBit 0) = true := by
    have h := and_bit (c.toUInt32 ^^^ crc).toBitVec 0 (by omega)
    have e : (c.toUInt32 ^^^ crc).toBitVec.getLsbD 0 = (crc.toBitVec.getLsbD 0 ^^ c.toNat.testBit 0) := by
      rw [UInt32.toBitVec_xor, BitVec.getLsbD_xor, Bool.xor_comm]
      congr 1
    rw [← e, ← h]
    rw [ne_eq, ne_eq, ← UInt32.toBitVec_inj]
    rfl
  rw [leByte]
  congr 1
  rw [leStep]
  by_cases hh : (crc.toBitVec.getLsbD 0 ^^ c.toNat.testBit 0) = true
  · rw [if_pos hh, if_pos (hb.2 hh)]; rfl
  · rw [if_neg hh, if_neg (fun h => hh (hb.1 h))]; rfl

theorem beByte_succ (n : Nat) (crc : UInt32) (c : UInt8) :
    beByte (n + 1) crc c = beByte n ⟨beStep crc.toBitVec (c.toNat.testBit 7)⟩ (c <<< 1) := by
  have hb : ((c.toUInt32 ^^^ (crc >>> 24)) &&& 0x80 ≠ 0) ↔ (crc.toBitVec.getLsbD 31 ^^ c.toNat.testBit 7) = true := by
    have h := and_bit (c.toUInt32 ^^^ (crc >>> 24)).toBitVec 7 (by omega)
    have e : (c.toUInt32 ^^^ (crc >>> 24)).toBitVec.getLsbD 7 = (crc.toBitVec.getLsbD 31 ^^ c.toNat.testBit 7) := by
      rw [UInt32.toBitVec_xor, BitVec.getLsbD_xor, Bool.xor_comm]
      congr 1
    rw [← e, ← h]
    rw [ne_eq, ne_eq, ← UInt32.toBitVec_inj]
    rfl
  rw [beByte]
  congr 1
  rw [beStep]
  by_cases hh : (crc.toBitVec.getLsbD 31 ^^ c.toNat.testBit 7) = true
  · rw [if_pos hh, if_pos (hb.2 hh)]; rfl
  · rw [if_neg hh, if_neg (fun h => hh (hb.1 h))]; rfl

theorem shr_bit (c : UInt8) (i : Nat) : (c >>> 1).toNat.testBit i = c.toNat.testBit (i + 1) := by
  rw [UInt8.toNat_shiftRight]
  simp [Nat.testBit_shiftRight, Nat.add_comm]

theorem shl_bit (c : UInt8) (i : Nat) (h : i < 7) : (c <<< 1).toNat.testBit (i + 1) = c.toNat.testBit i := by
  rw [UInt8.toNat_shiftLeft]
  simp [Nat.testBit_mod_two_pow (j := 8), Nat.testBit_shiftLeft]
  omega

theorem leByte_fold (n : Nat) : ∀ (crc : UInt32) (c : UInt8),
    (leByte n crc c).toBitVec = ((List.range n).map fun i => c.toNat.testBit i).foldl leStep crc.toBitVec := by
  induction n with
  | zero => intro crc c; rfl
  | succ n ih =>
    intro crc c
    rw [leByte_succ, ih, List.range_succ_eq_map, List.map_cons, List.foldl_cons, List.map_map]
    congr 1
    refine List.map_congr_left fun i _ => ?_
    exact shr_bit c i

theorem beByte_fold (n : Nat) : ∀ (crc : UInt32) (c : UInt8), n ≤ 8 →
    (beByte n crc c).toBitVec = ((List.range n).map fun i => c.toNat.testBit (7 - i)).foldl beStep crc.toBitVec := by
  induction n with
  | zero => intro crc c _; rfl
  | succ n ih =>
    intro crc c hn
    rw [beByte_succ, ih _ _ (by omega), List.range_succ_eq_map, List.map_cons, List.foldl_cons, List.map_map]
    congr 1
    refine List.map_congr_left fun i hi => ?_
    rw [List.mem_range] at hi
    have := shl_bit c (6 - i) (by omega)
    rw [show 6 - i + 1 = 7 - i by omega] at this
    rw [this]
    show _ = c.toNat.testBit (7 - (i + 1))
    rw [show 6 - i = 7 - (i + 1) by omega]

/-- the bits of a byte in the order in which they are processed -/
def lsbFirst (c : UInt8) : List Bool := (List.range 8).map fun i => c.toNat.testBit i
def msbFirst (c : UInt8) : List Bool := (List.range 8).map fun i => c.toNat.testBit (7 - i)

theorem le_fold (bs : Bytes) : ∀ crc, (crc32_le crc bs).toBitVec = (bs.flatMap lsbFirst).foldl leStep crc.toBitVec := by
  induction bs with
  | nil => intro crc; rfl
  | cons c bs ih => intro crc; rw [crc32_le, ih, leByte_fold, List.flatMap_cons, List.foldl_append]; rfl

theorem be_fold (bs : Bytes) : ∀ crc, (crc32_be crc bs).toBitVec = (bs.flatMap msbFirst).foldl beStep crc.toBitVec := by
  induction bs with
  | nil => intro crc; rfl
  | cons c bs ih => intro crc; rw [crc32_be, ih, beByte_fold _ _ _ (by omega), List.flatMap_cons, List.foldl_append]; rfl

theorem xlc (a b c : BitVec 32) : a ^^^ (b ^^^ c) = b ^^^ (a ^^^ c) := by
  rw [← BitVec.xor_assoc, BitVec.xor_comm a b, BitVec.xor_assoc]

theorem xcancel (a b : BitVec 32) : a ^^^ (b ^^^ a) = b := by
  rw [xlc, BitVec.xor_self, BitVec.xor_zero]

theorem leStep_xor (x d : BitVec 32) (b e : Bool) : leStep (x ^^^ d) (b ^^ e) = leStep x b ^^^ leStep d e := by
  have hs : (x ^^^ d) >>> 1 = x >>> 1 ^^^ d >>> 1 := BitVec.ushiftRight_xor_distrib ..
  simp only [leStep, BitVec.getLsbD_xor, hs]
  cases x.getLsbD 0 <;> cases d.getLsbD 0 <;> cases b <;> cases e <;> (try simp [BitVec.xor_assoc, xcancel]) <;> (try rw [xlc]) <;> (try rw [xcancel]) <;> (try rw [BitVec.xor_comm])

theorem beStep_xor (x d : BitVec 32) (b e : Bool) : beStep (x ^^^ d) (b ^^ e) = beStep x b ^^^ beStep d e := by
  have hs : (x ^^^ d) <<< 1 = x <<< 1 ^^^ d <<< 1 := BitVec.shiftLeft_xor_distrib ..
  simp only [beStep, BitVec.getLsbD_xor, hs]
  cases x.getLsbD 31 <;> cases d.getLsbD 31 <;> cases b <;> cases e <;> (try simp [BitVec.xor_assoc, xcancel]) <;> (try rw [xlc]) <;> (try rw [xcancel]) <;> (try rw [BitVec.xor_comm])

theorem fold_xor (step : BitVec 32 → Bool → BitVec 32) (hs : ∀ x d b e, step (x ^^^ d) (b ^^ e) = step x b ^^^ step d e) (as bs : List Bool) :
    ∀ x y, as.length = bs.length → as.foldl step x ^^^ bs.foldl step y = (List.zipWith (· ^^ ·) as bs).foldl step (x ^^^ y) := by
  induction as generalizing bs with
  | nil => intro x y h; cases bs with
    | nil => rfl
    | cons => simp at h
  | cons a as ih => intro x y h; cases bs with
    | nil => simp at h
    | cons b bs =>
      simp only [List.foldl_cons, List.zipWith_cons_cons]
      rw [ih bs _ _ (by simpa using h), hs]

/-- if the register is zero at the end of at most 32 bits, those bits were the contents of the register -/
theorem le_back (es : List Bool) : ∀ d : BitVec 32, es.foldl leStep d = 0#32 → es.length ≤ 32 →
    (∀ i, es.length ≤ i → d.getLsbD i = false) ∧ ∀ i, i < es.length → es[i]? = some (d.getLsbD i) := by
  induction es with
  | nil =>
    intro d h _
    simp only [List.foldl_nil] at h
    subst h
    exact ⟨fun i _ => by simp, fun i hi => by simp at hi⟩
  | cons e es ih =>
    intro d h hl
    rw [List.foldl_cons] at h
    simp only [List.length_cons] at hl
    obtain ⟨h1, h2⟩ := ih _ h (by omega)
    have htop := h1 31 (by omega)
    by_cases hf : (d.getLsbD 0 ^^ e) = true
    · rw [leStep, if_pos hf, BitVec.getLsbD_xor] at htop
      simp at htop
    · have he : e = d.getLsbD 0 := by
        cases e <;> cases hd : d.getLsbD 0 <;> simp_all
      have hd : ∀ i, (leStep d e).getLsbD i = d.getLsbD (i + 1) := by
        intro i
        rw [leStep, if_neg hf, BitVec.getLsbD_ushiftRight, Nat.add_comm]
      refine ⟨fun i hi => ?_, fun i hi => ?_⟩
      · rw [List.length_cons] at hi
        have := h1 (i - 1) (by omega)
        rw [hd, show i - 1 + 1 = i by omega] at this
        exact this
      · cases i with
        | zero => simp [he]
        | succ i =>
          rw [List.getElem?_cons_succ, h2 i (by simpa using hi), hd]

theorem be_back (es : List Bool) : ∀ d : BitVec 32, es.foldl beStep d = 0#32 → es.length ≤ 32 →
    (∀ i, i + es.length < 32 → d.getLsbD i = false) ∧ ∀ i, i < es.length → es[i]? = some (d.getLsbD (31 - i)) := by
  induction es with
  | nil =>
    intro d h _
    simp only [List.foldl_nil] at h
    subst h
    exact ⟨fun i _ => by simp, fun i hi => by simp at hi⟩
  | cons e es ih =>
    intro d h hl
    rw [List.foldl_cons] at h
    simp only [List.length_cons] at hl
    obtain ⟨h1, h2⟩ := ih _ h (by omega)
    have htop := h1 0 (by omega)
    by_cases hf : (d.getLsbD 31 ^^ e) = true
    · rw [beStep, if_pos hf, BitVec.getLsbD_xor] at htop
      simp at htop
    · have he : e = d.getLsbD 31 := by
        cases e <;> cases hd : d.getLsbD 31 <;> simp_all
      have hd : ∀ i, i < 31 → (beStep d e).getLsbD (i + 1) = d.getLsbD i := by
        intro i hi
        rw [beStep, if_neg hf, BitVec.getLsbD_shiftLeft]
        simp
        intro _; omega
      refine ⟨fun i hi => ?_, fun i hi => ?_⟩
      · rw [List.length_cons] at hi
        have := h1 (i + 1) (by omega)
        rw [hd _ (by omega)] at this
        exact this
      · cases i with
        | zero => simp [he]
        | succ i =>
          rw [List.length_cons] at hi
          rw [List.getElem?_cons_succ, h2 i (by omega)]
          have := hd (31 - (i + 1)) (by omega)
          rw [show 31 - (i + 1) + 1 = 31 - i by omega] at this
          rw [this]

/-- the register forgets nothing -/
theorem fold_zero (step : BitVec 32 → Bool → BitVec 32) (hz : ∀ d, step d false = 0#32 → d = 0#32) (n : Nat) :
    ∀ d, (List.replicate n false).foldl step d = 0#32 → d = 0#32 := by
  induction n with
  | zero => intro d h; exact h
  | succ n ih => intro d h; rw [List.replicate_succ, List.foldl_cons] at h; exact hz d (ih _ h)

theorem leStep_zero (d : BitVec 32) (h : leStep d false = 0#32) : d = 0#32 := by
  obtain ⟨h1, h2⟩ := le_back [false] d (by simpa using h) (by simp)
  refine BitVec.eq_of_getLsbD_eq fun i _ => ?_
  cases i with
  | zero => have := h2 0 (by simp); simpa using this
  | succ i => rw [h1 (i + 1) (by simp)]; simp

theorem beStep_zero (d : BitVec 32) (h : beStep d false = 0#32) : d = 0#32 := by
  obtain ⟨h1, h2⟩ := be_back [false] d (by simpa using h) (by simp)
  refine BitVec.eq_of_getLsbD_eq fun i hi => ?_
  rcases Nat.lt_or_ge i 31 with h' | h'
  · rw [h1 i (by simp; omega)]; simp
  · have := h2 0 (by simp)
    rw [show i = 31 by omega]
    simpa using this

/-- `as` and `bs` agree outside of the 32 positions starting at `k` -/
def AgreeOutside (k : Nat) (as bs : List Bool) : Prop := ∀ i, i < k ∨ k + 32 ≤ i → as[i]? = bs[i]?

theorem zip_self (l : List Bool) : List.zipWith (· ^^ ·) l l = List.replicate l.length false := by
  induction l with
  | nil => rfl
  | cons a l ih => rw [List.zipWith_cons_cons, ih, List.length_cons, List.replicate_succ, Bool.xor_self]

theorem zip_false (as bs : List Bool) (h : as.length = bs.length) (hz : ∀ x ∈ List.zipWith (· ^^ ·) as bs, x = false) : as = bs := by
  induction as generalizing bs with
  | nil => cases bs with
    | nil => rfl
    | cons => simp at h
  | cons a as ih => cases bs with
    | nil => simp at h
    | cons b bs =>
      simp only [List.zipWith_cons_cons, List.mem_cons] at hz
      have h1 := hz (a ^^ b) (.inl rfl)
      rw [ih bs (by simpa using h) (fun x hx => hz x (.inr hx))]
      cases a <;> cases b <;> simp_all

theorem burst (step : BitVec 32 → Bool → BitVec 32) (hs : ∀ x d b e, step (x ^^^ d) (b ^^ e) = step x b ^^^ step d e)
    (hz : ∀ d, step d false = 0#32 → d = 0#32) (h0 : step 0#32 false = 0#32)
    (hb : ∀ es : List Bool, es.foldl step 0#32 = 0#32 → es.length ≤ 32 → ∀ e ∈ es, e = false)
    (as bs : List Bool) (hl : as.length = bs.length) (k : Nat) (hk : AgreeOutside k as bs) (c : BitVec 32)
    (h : as.foldl step c = bs.foldl step c) : as = bs := by
  have hx := fold_xor step hs as bs c c hl
  rw [h, BitVec.xor_self, BitVec.xor_self] at hx
  have split : ∀ l : List Bool, l = l.take k ++ ((l.drop k).take 32 ++ (l.drop k).drop 32) := by
    intro l; rw [List.take_append_drop, List.take_append_drop]
  have e1 : as.take k = bs.take k := by
    refine List.ext_getElem? fun i => ?_
    rcases Nat.lt_or_ge i k with hi | hi
    · rw [List.getElem?_take_of_lt hi, List.getElem?_take_of_lt hi]; exact hk i (.inl hi)
    · rw [List.getElem?_eq_none (by simp; omega), List.getElem?_eq_none (by simp; omega)]
  have e2 : (as.drop k).drop 32 = (bs.drop k).drop 32 := by
    refine List.ext_getElem? fun i => ?_
    rw [List.drop_drop, List.drop_drop, List.getElem?_drop, List.getElem?_drop]
    exact hk _ (.inr (by omega))
  have l1 : ((as.drop k).take 32).length = ((bs.drop k).take 32).length := by simp [hl]
  rw [split as, split bs, e1, e2, List.zipWith_append rfl, List.zipWith_append l1, zip_self, zip_self, List.foldl_append, List.foldl_append] at hx
  have z1 : (List.replicate (bs.take k).length false).foldl step 0#32 = 0#32 := by
    generalize (bs.take k).length = n
    induction n with
    | zero => rfl
    | succ n ih => rw [List.replicate_succ, List.foldl_cons, h0, ih]
  rw [z1] at hx
  have z2 := fold_zero step hz _ _ hx.symm
  have z3 := hb _ z2 (by simp; omega)
  rw [split as, split bs, e1, e2, zip_false _ _ l1 z3]

theorem le_burst_bits (es : List Bool) (h : es.foldl leStep 0#32 = 0#32) (hl : es.length ≤ 32) : ∀ e ∈ es, e = false := by
  intro e he
  obtain ⟨i, hi, rfl⟩ := List.mem_iff_getElem.mp he
  have := (le_back es 0#32 h hl).2 i hi
  rw [List.getElem?_eq_getElem hi] at this
  simpa using this

theorem be_burst_bits (es : List Bool) (h : es.foldl beStep 0#32 = 0#32) (hl : es.length ≤ 32) : ∀ e ∈ es, e = false := by
  intro e he
  obtain ⟨i, hi, rfl⟩ := List.mem_iff_getElem.mp he
  have := (be_back es 0#32 h hl).2 i hi
  rw [List.getElem?_eq_getElem hi] at this
  simpa using this

theorem flatMap_get (f : UInt8 → List Bool) (hf : ∀ c, (f c).length = 8) (m : Bytes) : ∀ i,
    (m.flatMap f)[i]? = (m[i / 8]?).bind fun c => (f c)[i % 8]? := by
  induction m with
  | nil => intro i; simp
  | cons c m ih =>
    intro i
    rw [List.flatMap_cons]
    rcases Nat.lt_or_ge i 8 with h | h
    · rw [List.getElem?_append_left (by rw [hf]; exact h), show i / 8 = 0 by omega, show i % 8 = i by omega]
      simp
    · rw [List.getElem?_append_right (by rw [hf]; exact h), hf, ih, show i / 8 = (i - 8) / 8 + 1 by omega, List.getElem?_cons_succ,
        show i % 8 = (i - 8) % 8 by omega]

theorem lsb_length (c : UInt8) : (lsbFirst c).length = 8 := by simp [lsbFirst]
theorem msb_length (c : UInt8) : (msbFirst c).length = 8 := by simp [msbFirst]

theorem flatMap_length (f : UInt8 → List Bool) (hf : ∀ c, (f c).length = 8) (m : Bytes) : (m.flatMap f).length = 8 * m.length := by
  induction m with
  | nil => rfl
  | cons c m ih => rw [List.flatMap_cons, List.length_append, hf, ih, List.length_cons]; omega

theorem flatMap_inj (f : UInt8 → List Bool) (hf : ∀ c, (f c).length = 8) (hi : ∀ c d, f c = f d → c = d) (a : Bytes) :
    ∀ b, a.flatMap f = b.flatMap f → a = b := by
  induction a with
  | nil =>
    intro b h
    have := congrArg List.length h
    rw [flatMap_length f hf, flatMap_length f hf] at this
    cases b with
    | nil => rfl
    | cons => simp at this
  | cons c a ih =>
    intro b h
    cases b with
    | nil =>
      have := congrArg List.length h
      rw [flatMap_length f hf, flatMap_length f hf] at this
      simp at this
    | cons d b =>
      rw [List.flatMap_cons, List.flatMap_cons] at h
      obtain ⟨h1, h2⟩ := List.append_inj h (by rw [hf, hf])
      rw [hi _ _ h1, ih b h2]

theorem lsb_inj (c d : UInt8) (h : lsbFirst c = lsbFirst d) : c = d := by
  refine UInt8.toNat_inj.mp (Nat.eq_of_testBit_eq fun i => ?_)
  rcases Nat.lt_or_ge i 8 with hi | hi
  · have := congrArg (·[i]?) h
    simpa [lsbFirst, hi] using this
  · rw [Nat.testBit_lt_two_pow (Nat.lt_of_lt_of_le c.toNat_lt (Nat.pow_le_pow_right (by omega) hi)),
      Nat.testBit_lt_two_pow (Nat.lt_of_lt_of_le d.toNat_lt (Nat.pow_le_pow_right (by omega) hi))]

theorem msb_inj (c d : UInt8) (h : msbFirst c = msbFirst d) : c = d := by
  refine UInt8.toNat_inj.mp (Nat.eq_of_testBit_eq fun i => ?_)
  rcases Nat.lt_or_ge i 8 with hi | hi
  · have := congrArg (·[7 - i]?) h
    simpa [msbFirst, show 7 - i < 8 by omega, show 7 - (7 - i) = i by omega] using this
  · rw [Nat.testBit_lt_two_pow (Nat.lt_of_lt_of_le c.toNat_lt (Nat.pow_le_pow_right (by omega) hi)),
      Nat.testBit_lt_two_pow (Nat.lt_of_lt_of_le d.toNat_lt (Nat.pow_le_pow_right (by omega) hi))]

theorem fold_value (S : Nat) (h : S < 4294967296) : fold S = 65535 - (if S = 0 then 0 else (S - 1) % 65535 + 1) := by
  have e1 : ∀ n : Nat, n &&& 0xffff = n % 65536 := fun n => Nat.and_two_pow_sub_one_eq_mod n 16
  have e2 : ∀ n : Nat, n >>> 16 = n / 65536 := fun n => by rw [Nat.shiftRight_eq_div_pow]
  simp only [fold, e1, e2]
  have h1 : S / 65536 < 65536 := by omega
  have h2 : S % 65536 < 65536 := by omega
  have h3 : S = 65536 * (S / 65536) + S % 65536 := by omega
  generalize S / 65536 = hi at *
  generalize S % 65536 = lo at *
  rw [Nat.mod_eq_of_lt (a := hi + lo) (by omega)]
  split
  · omega
  · have e3 : S - 1 = 65535 * hi + (hi + lo - 1) := by omega
    rw [e3, Nat.mul_add_mod]
    have hb : hi + lo ≤ 131070 := by omega
    have hp : 0 < hi + lo := by omega
    generalize hi + lo = t at *
    have h4 : t / 65536 ≤ 1 := by omega
    rw [Nat.mod_eq_of_lt (a := t + t / 65536) (by omega)]
    clear h3 e3
    rcases Nat.lt_or_ge t 65536 with ht | ht
    · rw [show t / 65536 = 0 by omega]; omega
    · rw [show t / 65536 = 1 by omega]; omega

end Checksums
end Rtmfp
