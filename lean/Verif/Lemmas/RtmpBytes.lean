import Verif.Model.Rtmp
import Verif.Spec.Rtmp

/-! # Numbers and headers of RTMP on the wire -/

namespace Rtmfp.Rtmp

open Spec.Chunks
open Spec.Web (be)

theorem byte_eq (v : UInt32) (k : Nat) (hk : k < 32) : ((v >>> UInt32.ofNat k) &&& 0xff).toUInt8 = UInt8.ofNat (v.toNat / 2 ^ k) := by
  apply UInt8.toNat_inj.mp
  simp only [UInt32.toNat_toUInt8, UInt32.toNat_and, UInt32.toNat_shiftRight, UInt8.toNat_ofNat', UInt32.toNat_ofNat']
  rw [show (255 : UInt32).toNat = 2 ^ 8 - 1 from rfl, Nat.and_two_pow_sub_one_eq_mod, Nat.shiftRight_eq_div_pow,
    Nat.mod_eq_of_lt (show k < 2 ^ 32 by omega), Nat.mod_eq_of_lt hk, Nat.mod_mod]

theorem byte0_eq (v : UInt32) : (v &&& 0xff).toUInt8 = UInt8.ofNat v.toNat := by
  have := byte_eq v 0 (by omega)
  simpa using this

theorem u24_eq (v : UInt32) : u24 v = be 3 v.toNat := by
  have h1 := byte_eq v 16 (by omega)
  have h2 := byte_eq v 8 (by omega)
  have h0 := byte0_eq v
  simp only [u24, be, h0]
  rw [show (16 : UInt32) = UInt32.ofNat 16 from rfl, h1, show (8 : UInt32) = UInt32.ofNat 8 from rfl, h2]
  simp

theorem u32_eq (v : UInt32) : u32 v = be 4 v.toNat := by
  have h3 := byte_eq v 24 (by omega)
  have h1 := byte_eq v 16 (by omega)
  have h2 := byte_eq v 8 (by omega)
  have h0 := byte0_eq v
  simp only [u32, be, h0]
  rw [show (24 : UInt32) = UInt32.ofNat 24 from rfl, h3, show (16 : UInt32) = UInt32.ofNat 16 from rfl, h1, show (8 : UInt32) = UInt32.ofNat 8 from rfl, h2]
  simp

theorem u32le_eq (v : UInt32) : u32le v = (be 4 v.toNat).reverse := by
  rw [← u32_eq]; rfl

theorem len_eq (n : Nat) : u24 (UInt32.ofNat n) = be 3 n := by
  rw [u24_eq, UInt32.toNat_ofNat']
  have h : ∀ k : Nat, k < 24 → UInt8.ofNat (n % 2 ^ 32 / 2 ^ k) = UInt8.ofNat (n / 2 ^ k) := by
    intro k hk
    apply UInt8.toNat_inj.mp
    simp only [UInt8.toNat_ofNat']
    have e : 2 ^ 32 = 2 ^ k * 2 ^ (32 - k) := by rw [← Nat.pow_add]; congr 1; omega
    rw [e, Nat.mod_mul_right_div_self]
    exact Nat.mod_mod_of_dvd _ (Nat.pow_dvd_pow 2 (show 8 ≤ 32 - k by omega))
  have h1 := h 16 (by omega)
  have h2 := h 8 (by omega)
  have h0 := h 0 (by omega)
  simp only [be]
  rw [show 256 ^ 2 = 2 ^ 16 from rfl, show 256 ^ 1 = 2 ^ 8 from rfl, show 256 ^ 0 = 2 ^ 0 from rfl, h1, h2, h0]

theorem be_length (n v : Nat) : (be n v).length = n := by
  induction n with
  | zero => rfl
  | succ n ih => simp [be, ih]

/-! ## Reading numbers -/

theorem readBe_fold (b : Bytes) (a : UInt32) (n : Nat) (hn : a.toNat = n) (h : n * 256 ^ b.length + 256 ^ b.length ≤ 2 ^ 32) :
    (b.foldl (fun (a : UInt32) c => (a <<< 8) + c.toUInt32) a).toNat = b.foldl (fun a c => a * 256 + c.toNat) n := by
  induction b generalizing a n with
  | nil => exact hn
  | cons c b ih =>
    simp only [List.foldl_cons]
    have hp : 0 < 256 ^ b.length := Nat.pos_of_ne_zero (by simp)
    have hc := c.toNat_lt
    have e : 256 ^ (c :: b).length = 256 * 256 ^ b.length := by rw [List.length_cons, Nat.pow_succ, Nat.mul_comm]
    have key : (n * 256 + c.toNat) * 256 ^ b.length + 256 ^ b.length ≤ 2 ^ 32 := by
      rw [e] at h
      have h1 : (n * 256 + c.toNat + 1) * 256 ^ b.length ≤ (n * 256 + 256) * 256 ^ b.length := Nat.mul_le_mul_right _ (by omega)
      have h2 : (n * 256 + 256) * 256 ^ b.length = n * (256 * 256 ^ b.length) + 256 * 256 ^ b.length := by
        rw [Nat.add_mul, Nat.mul_assoc]
      rw [Nat.add_mul, Nat.one_mul] at h1
      omega
    refine ih _ _ ?_ key
    have h3 : n * 256 + c.toNat < 2 ^ 32 := by
      have h4 : (n * 256 + c.toNat + 1) * 1 ≤ (n * 256 + c.toNat + 1) * 256 ^ b.length := Nat.mul_le_mul_left _ hp
      have h5 : (n * 256 + c.toNat + 1) * 256 ^ b.length = (n * 256 + c.toNat) * 256 ^ b.length + 256 ^ b.length := by rw [Nat.add_mul, Nat.one_mul]
      omega
    simp only [UInt32.toNat_add, UInt32.toNat_shiftLeft, UInt8.toNat_toUInt32, hn]
    rw [show (8 : UInt32).toNat % 32 = 8 from rfl, Nat.shiftLeft_eq]
    omega

theorem readBe_num (b : Bytes) (h : b.length ≤ 4) : (readBe b).toNat = num b := by
  refine readBe_fold b 0 0 rfl ?_
  have : 256 ^ b.length ≤ 256 ^ 4 := Nat.pow_le_pow_right (by omega) h
  omega

theorem num_be (n v : Nat) (a : Nat) : (be n v).foldl (fun a c => a * 256 + c.toNat) a = a * 256 ^ n + v % 256 ^ n := by
  induction n generalizing a with
  | zero => simp [be, Nat.mod_one]
  | succ n ih =>
    simp only [be, List.foldl_cons, ih, UInt8.toNat_ofNat']
    have h : v % 256 ^ (n + 1) = (v / 256 ^ n % 256) * 256 ^ n + v % 256 ^ n := by
      rw [Nat.pow_succ, Nat.mod_mul]; rw [Nat.mul_comm (256 ^ n)]; omega
    rw [h, show (2 : Nat) ^ 8 = 256 from rfl, Nat.add_mul, Nat.mul_assoc, Nat.pow_succ, Nat.mul_comm 256]
    omega

theorem readBe_be (n v : Nat) (hn : n ≤ 4) (h : v < 256 ^ n) : readBe (be n v) = UInt32.ofNat v := by
  have h4 : 256 ^ n ≤ 2 ^ 32 := by have : 256 ^ n ≤ 256 ^ 4 := Nat.pow_le_pow_right (by omega) hn; omega
  apply UInt32.toNat_inj.mp
  rw [readBe_num _ (by rw [be_length]; exact hn), num, num_be, Nat.mod_eq_of_lt h, UInt32.toNat_ofNat', Nat.mod_eq_of_lt (show v < 2 ^ 32 by omega)]
  omega

theorem readBe_be4 (v : UInt32) : readBe (be 4 v.toNat) = v := by
  rw [readBe_be 4 v.toNat (by omega) (by have := v.toNat_lt; simpa using this)]; simp

theorem readLe_be4 (v : UInt32) : readLe (be 4 v.toNat).reverse = v := by
  unfold readLe; rw [List.reverse_reverse]; exact readBe_be4 v

theorem num_be4 (v : UInt32) : num (be 4 v.toNat) = v.toNat := by
  rw [← readBe_num _ (by rw [be_length]; omega), readBe_be4]

theorem num_u32 (v : UInt32) : num (u32 v) = v.toNat := by rw [u32_eq, num_be4]

theorem stamp_read (v : UInt32) : readBe (stamp v) = UInt32.ofNat (min v.toNat 0xffffff) := by
  unfold stamp; exact readBe_be 3 _ (by omega) (by omega)

end Rtmfp.Rtmp
