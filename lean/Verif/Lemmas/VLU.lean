import Verif.Model.VLU
import Verif.Spec.VLU

namespace Rtmfp

theorem u8_and_7f (b : UInt8) : (b &&& 0x7f).toNat = b.toNat % 128 := by
  simp [UInt8.toNat_and]
  exact Nat.and_two_pow_sub_one_eq_mod _ 7

theorem u8_and_80 (b : UInt8) : b &&& 0x80 = 0 ↔ b.toNat < 128 := by
  have hb : b.toNat < 256 := b.toNat_lt
  have h : (b &&& 0x80).toNat = b.toNat - b.toNat % 128 := by
    simp only [UInt8.toNat_and]
    generalize b.toNat = n at hb
    revert n; decide +kernel
  constructor
  · intro h0; rw [h0] at h; simp at h; omega
  · intro hl
    apply UInt8.toNat_inj.mp; rw [h]; simp; omega

/-- The unbounded scanner the parser is compared with. -/
def vluScan (t : Nat) : Bytes → Option (Nat × Nat)
  | [] => none
  | b :: r => if b.toNat < 128 then some (t * 128 + b.toNat % 128, 1)
              else (vluScan (t * 128 + b.toNat % 128) r).map (fun x => (x.1, x.2 + 1))

theorem parseLoop_eq_scan (sat : Bool) (t rv : Nat) (src : Bytes) :
    VLU.parseLoop sat (t % W64) rv (decide (W64 ≤ t)) src =
      (vluScan t src).map (fun x => (if sat then min x.1 U64MAX else x.1 % W64, rv + x.2)) := by
  induction src generalizing t rv with
  | nil => simp [VLU.parseLoop, vluScan]
  | cons b rest ih =>
    have hv : ((t % W64) <<< 7 % W64 + (b &&& 0x7f).toNat) % W64 = (t * 128 + b.toNat % 128) % W64 := by
      rw [u8_and_7f, Nat.shiftLeft_eq]; omega
    have hs : (decide (W64 ≤ t) || decide (t % W64 > U64MAX >>> 7))
        = decide (W64 ≤ t * 128 + b.toNat % 128) := by
      rw [Nat.shiftRight_eq_div_pow, ← Bool.decide_or]
      apply decide_eq_decide.mpr
      have : b.toNat % 128 < 128 := Nat.mod_lt _ (by decide)
      constructor <;> intro h <;> omega
    simp only [VLU.parseLoop, vluScan]
    rw [hv, hs]
    by_cases hb : b.toNat < 128
    · rw [if_pos ((u8_and_80 b).mpr hb), if_pos hb]
      simp only [Option.map_some]
      cases sat
      · simp
      · simp
        split <;> omega
    · rw [if_neg (fun h => hb ((u8_and_80 b).mp h)), if_neg hb, ih]
      cases vluScan (t * 128 + b.toNat % 128) rest <;> simp; omega

theorem parse_eq_scan (sat : Bool) (src : Bytes) :
    VLU.parse src sat =
      (vluScan 0 src).map (fun x => (if sat then min x.1 U64MAX else x.1 % W64, x.2)) := by
  have := parseLoop_eq_scan sat 0 0 src
  simpa [VLU.parse] using this

/-- the loop of `VLU::encode` without a bound on the rounds -/
def encodeWF (val : Nat) (acc : Bytes) : Bytes :=
  let b : UInt8 := UInt8.ofNat (val &&& 0x7f) ||| (if acc.length ≠ 0 then 0x80 else 0)
  if _h : val >>> 7 = 0 then b :: acc else encodeWF (val >>> 7) (b :: acc)
termination_by val
decreasing_by
  simp only [Nat.shiftRight_eq_div_pow] at *
  omega

theorem encodeLoop_eq (fuel : Nat) : ∀ (val : Nat) (acc : Bytes), val < fuel → VLU.encodeLoop fuel val acc = encodeWF val acc := by
  induction fuel with
  | zero => intro val acc h; omega
  | succ n ih =>
    intro val acc h
    rw [VLU.encodeLoop, encodeWF]
    by_cases hv : val >>> 7 = 0
    · rw [if_pos hv, dif_pos hv]
    · rw [if_neg hv, dif_neg hv]
      apply ih
      rw [Nat.shiftRight_eq_div_pow] at hv ⊢
      omega

/-- the bound on the rounds is never reached -/
theorem encode_eq (val : Nat) : VLU.encode val = encodeWF val [] := encodeLoop_eq _ _ _ (by omega)

/-- encode as digits -/
theorem scan_encodeLoop (v : Nat) (acc : Bytes) (rest : Bytes) (hacc : acc ≠ []) :
    vluScan 0 (encodeWF v acc ++ rest) =
      (vluScan v (acc ++ rest)).map
        (fun x => (x.1, x.2 + ((encodeWF v acc).length - acc.length))) ∧
    acc.length < (encodeWF v acc).length := by
  induction v using Nat.strongRecOn generalizing acc with
  | _ v ih =>
    rw [encodeWF]
    have hne : acc.length ≠ 0 := by simpa using hacc
    have hbyte : (UInt8.ofNat (v &&& 0x7f) ||| 0x80 : UInt8).toNat = v % 128 + 128 := by
      have : v &&& 0x7f = v % 128 := Nat.and_two_pow_sub_one_eq_mod _ 7
      rw [this]
      have hm : v % 128 < 128 := Nat.mod_lt _ (by decide)
      simp only [UInt8.toNat_or, UInt8.toNat_ofNat', UInt8.reduceToNat]
      generalize v % 128 = n at hm
      revert n; decide +kernel
    simp only [hne, ne_eq, not_false_iff, if_true]
    split
    next h =>
      rw [Nat.shiftRight_eq_div_pow] at h
      constructor
      · simp only [List.cons_append, vluScan, hbyte]
        rw [if_neg (by omega)]
        have : (0 * 128 + (v % 128 + 128) % 128) = v := by omega
        rw [this]; simp
      · simp
    next h =>
      rw [Nat.shiftRight_eq_div_pow] at h ⊢
      obtain ⟨h1, h2⟩ := ih (v / 2^7) (by omega) ((UInt8.ofNat (v &&& 0x7f) ||| 0x80) :: acc) (by simp)
      rw [List.length_cons] at h2
      refine ⟨?_, by omega⟩
      rw [h1]
      simp only [List.cons_append, vluScan, hbyte]
      rw [if_neg (by omega)]
      have : (v / 2^7 * 128 + (v % 128 + 128) % 128) = v := by omega
      rw [this]
      simp only [Option.map_map]
      congr 1
      funext x
      simp only [Function.comp_apply, List.length_cons, Prod.mk.injEq, true_and]
      omega

theorem scan_encode (v : Nat) (rest : Bytes) :
    vluScan 0 (VLU.encode v ++ rest) = some (v, (VLU.encode v).length) := by
  rw [encode_eq, encodeWF]
  have hbyte : (UInt8.ofNat (v &&& 0x7f) ||| 0 : UInt8).toNat = v % 128 := by
    have : v &&& 0x7f = v % 128 := Nat.and_two_pow_sub_one_eq_mod _ 7
    rw [this]
    have hm : v % 128 < 128 := Nat.mod_lt _ (by decide)
    simp only [UInt8.toNat_or, UInt8.toNat_ofNat', UInt8.reduceToNat]
    simp; omega
  simp only [List.length_nil, ne_eq, not_true, if_false]
  split
  next h =>
    rw [Nat.shiftRight_eq_div_pow] at h
    simp only [List.cons_append, vluScan, hbyte, List.nil_append]
    rw [if_pos (by omega)]
    simp; omega
  next h =>
    rw [Nat.shiftRight_eq_div_pow] at h ⊢
    obtain ⟨h1, h2⟩ := scan_encodeLoop (v / 2^7) [UInt8.ofNat (v &&& 0x7f) ||| 0] rest (by simp)
    rw [h1]
    simp only [List.cons_append, vluScan, hbyte, List.nil_append]
    rw [if_pos (by omega)]
    simp at h2 ⊢
    omega

theorem encodeLoop_length_bound (k v : Nat) (acc : Bytes) (h : v < 128 ^ (k+1)) :
    (encodeWF v acc).length ≤ acc.length + k + 1 := by
  induction k generalizing v acc with
  | zero =>
    rw [encodeWF, dif_pos]; · simp
    rw [Nat.shiftRight_eq_div_pow]; omega
  | succ k ih =>
    rw [encodeWF]
    split
    · simp
    · refine Nat.le_trans (ih _ _ ?_) ?_
      · rw [Nat.shiftRight_eq_div_pow]
        rw [Nat.pow_succ] at h
        exact Nat.div_lt_of_lt_mul (by rw [Nat.mul_comm]; exact h)
      · simp; omega

theorem encode_length_le (v : Nat) (h : v < W64) : (VLU.encode v).length ≤ 10 := by
  have := encodeLoop_length_bound 9 v [] (by omega)
  simpa [encode_eq] using this

theorem encode_length_pos (v : Nat) : 1 ≤ (VLU.encode v).length := by
  have h := scan_encode v []
  cases he : VLU.encode v with
  | nil => rw [he] at h; simp [vluScan] at h
  | cons a l => simp

theorem encode_length_bound (k v : Nat) (h : v < 128 ^ (k+1)) : (VLU.encode v).length ≤ k + 1 := by
  have := encodeLoop_length_bound k v [] h
  simpa [encode_eq] using this

theorem base128_append (as bs : Bytes) (t : Nat) :
    (as ++ bs).foldl (fun a (b : UInt8) => a * 128 + b.toNat % 128) t =
    bs.foldl (fun a (b : UInt8) => a * 128 + b.toNat % 128)
      (as.foldl (fun a (b : UInt8) => a * 128 + b.toNat % 128) t) := by
  simp

theorem vluScan_none (t : Nat) (src : Bytes) :
    vluScan t src = none ↔ ∀ b ∈ src, Spec.continues b := by
  induction src generalizing t with
  | nil => simp [vluScan]
  | cons b r ih =>
    simp only [vluScan]
    by_cases hb : b.toNat < 128
    · rw [if_pos hb]; simp [Spec.continues]; intro h; omega
    · rw [if_neg hb]; simp [ih, Spec.continues]; intro _; omega

theorem vluScan_some (t : Nat) (src : Bytes) (v n : Nat) :
    vluScan t src = some (v, n) ↔
      ∃ pre rest, src = pre ++ rest ∧ pre.length = n ∧ Spec.IsVLU pre ∧
        v = pre.foldl (fun a (b : UInt8) => a * 128 + b.toNat % 128) t := by
  induction src generalizing t v n with
  | nil =>
    simp [vluScan, Spec.IsVLU]
  | cons b r ih =>
    simp only [vluScan]
    by_cases hb : b.toNat < 128
    · rw [if_pos hb]
      constructor
      · intro h
        simp at h
        refine ⟨[b], r, rfl, by simpa using h.2, ⟨[], b, rfl, by simp, by simp [Spec.continues]; omega⟩, ?_⟩
        simp; omega
      · rintro ⟨pre, rest, he, hn, ⟨init, last, rfl, hi, hl⟩, hv⟩
        cases init with
        | nil =>
          simp at he hn hv
          subst hn; rw [← he.1] at hv; simp [hv]
        | cons c cs =>
          simp at he hi
          have := hi.1
          simp [Spec.continues] at this
          rw [← he.1] at this; omega
    · rw [if_neg hb]
      constructor
      · intro h
        rw [Option.map_eq_some_iff] at h
        obtain ⟨⟨v', n'⟩, h1, h2⟩ := h
        simp at h2
        obtain ⟨pre, rest, hr, hn, ⟨init, last, hp, hi, hl⟩, hv⟩ := (ih _ _ _).mp h1
        refine ⟨b :: pre, rest, by simp [hr], by simp [hn, h2.2], ⟨b :: init, last, by simp [hp], ?_, hl⟩, ?_⟩
        · intro x hx
          simp at hx
          rcases hx with rfl | hx
          · simp [Spec.continues]; omega
          · exact hi x hx
        · rw [← h2.1, hv]; simp
      · rintro ⟨pre, rest, he, hn, ⟨init, last, rfl, hi, hl⟩, hv⟩
        cases init with
        | nil =>
          simp at he; rw [he.1] at hb; simp [Spec.continues] at hl; omega
        | cons c cs =>
          simp at he
          obtain ⟨rfl, hr⟩ := he
          rw [Option.map_eq_some_iff]
          refine ⟨(v, n - 1), (ih _ _ _).mpr ⟨cs ++ [last], rest, by simp [hr], by simp at hn ⊢; omega,
            ⟨cs, last, rfl, fun x hx => hi x (by simp [hx]), hl⟩, ?_⟩, ?_⟩
          · rw [hv]; simp
          · simp at hn ⊢; omega

theorem parse_encode (v : Nat) (rest : Bytes) (sat : Bool) (h : v < W64) :
    VLU.parse (VLU.encode v ++ rest) sat = some (v, (VLU.encode v).length) := by
  rw [parse_eq_scan, scan_encode]
  cases sat <;> simp <;> omega

theorem base128_lt (bs : Bytes) (t : Nat) :
    bs.foldl (fun a (b : UInt8) => a * 128 + b.toNat % 128) t < (t + 1) * 128 ^ bs.length := by
  induction bs generalizing t with
  | nil => simp
  | cons b r ih =>
    simp only [List.foldl_cons, List.length_cons]
    refine Nat.lt_of_lt_of_le (ih _) ?_
    rw [Nat.pow_succ, Nat.mul_comm (128 ^ r.length) 128, ← Nat.mul_assoc]
    apply Nat.mul_le_mul_right
    have : b.toNat % 128 < 128 := Nat.mod_lt _ (by decide)
    omega

end Rtmfp
