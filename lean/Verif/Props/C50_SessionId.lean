import Verif.Model.SessionId

/-! # C50: session id scrambling -/

namespace Rtmfp
namespace SessionId

theorem xor_byte (x y a b : Nat) (ha : a < 256) (hb : b < 256) : (256 * x + a) ^^^ (256 * y + b) = 256 * (x ^^^ y) + (a ^^^ b) := by
  have hab : a ^^^ b < 2 ^ 8 := Nat.xor_lt_two_pow ha hb
  refine Nat.eq_of_testBit_eq fun i => ?_
  rw [Nat.testBit_xor, show 256 = 2 ^ 8 by rfl, Nat.testBit_two_pow_mul_add x ha, Nat.testBit_two_pow_mul_add y hb, Nat.testBit_two_pow_mul_add _ hab]
  split
  · rw [Nat.testBit_xor]
  · rw [Nat.testBit_xor]

theorem xor_toNat (a b : UInt8) : (a ^^^ b).toNat = a.toNat ^^^ b.toNat := rfl

theorem load_xor (e : Endian) (a b c d a' b' c' d' : UInt8) :
    load e a b c d ^^^ load e a' b' c' d' = load e (a ^^^ a') (b ^^^ b') (c ^^^ c') (d ^^^ d') := by
  cases e
  · simp only [load, xor_toNat]
    rw [xor_byte _ _ _ _ a.toNat_lt a'.toNat_lt, xor_byte _ _ _ _ b.toNat_lt b'.toNat_lt, xor_byte _ _ _ _ c.toNat_lt c'.toNat_lt]
  · simp only [load, xor_toNat]
    rw [xor_byte _ _ _ _ d.toNat_lt d'.toNat_lt, xor_byte _ _ _ _ c.toNat_lt c'.toNat_lt, xor_byte _ _ _ _ b.toNat_lt b'.toNat_lt]

theorem ofNat_eq (n : Nat) (a : UInt8) (h : n % 256 = a.toNat) : UInt8.ofNat n = a := by
  rw [← UInt8.toNat_inj, UInt8.toNat_ofNat']; exact h

theorem store_load (e : Endian) (a b c d : UInt8) : store e (load e a b c d) = [a, b, c, d] := by
  have := a.toNat_lt; have := b.toNat_lt; have := c.toNat_lt; have := d.toNat_lt
  cases e <;> simp only [store, load, List.cons.injEq, and_true] <;> refine ⟨?_, ?_, ?_, ?_⟩ <;> apply ofNat_eq <;> omega

theorem load_store (e : Endian) (w : Nat) (h : w < 4294967296) : ∃ a b c d, store e w = [a, b, c, d] ∧ load e a b c d = w := by
  cases e
  · refine ⟨_, _, _, _, rfl, ?_⟩; simp only [load, UInt8.toNat_ofNat']; omega
  · refine ⟨_, _, _, _, rfl, ?_⟩; simp only [load, UInt8.toNat_ofNat']; omega

theorem load_lt (e : Endian) (a b c d : UInt8) : load e a b c d < 4294967296 := by
  have := a.toNat_lt; have := b.toNat_lt; have := c.toNat_lt; have := d.toNat_lt
  cases e <;> simp only [load] <;> omega

theorem xor_cancel3 (a b c : UInt8) : a ^^^ b ^^^ c ^^^ b ^^^ c = a := by
  rw [UInt8.xor_assoc (a ^^^ b) c b, UInt8.xor_comm c b, ← UInt8.xor_assoc (a ^^^ b) b c, UInt8.xor_assoc a b b, UInt8.xor_self, UInt8.xor_zero,
    UInt8.xor_assoc, UInt8.xor_self, UInt8.xor_zero]

end SessionId
open SessionId

/-- **C50** a packet sent to a session id by one host is recognized by another as being for exactly that session id, and what
it hands to the session is the ciphertext; any session id (given as the bytes that were exchanged in the handshake), any
ciphertext of any length (shorter than 8 bytes, and empty, included), hosts of any byte order. -/
theorem C50_demultiplexed (eS eR : Endian) (a b c d : UInt8) (ciphertext : Bytes) :
    descramble eR (scramble eS (load eS a b c d) ciphertext) = some (load eR a b c d, ciphertext) := by
  rw [scramble]
  simp only [word]
  rw [load_xor, load_xor, store_load, descramble, if_neg (by simp)]
  simp only [word]
  simp only [List.cons_append, List.nil_append, List.drop_succ_cons, List.drop_zero, List.take_succ_cons, List.take_zero,
    List.getElem?_cons_zero, List.getElem?_cons_succ, Option.getD_some]
  rw [load_xor, load_xor]
  simp only [xor_cancel3]

/-- **C50** in terms of a receiver that assigned the session id `sid` and has the session `s` in its table: the id travels in the
handshake in the receiver's byte order, the sender reads it in its own. -/
theorem C50_reaches_session {σ : Type} (eS eR : Endian) (sessions : Nat → Option σ) (sid : Nat) (hs : sid < 2 ^ 32) (h0 : sid ≠ 0) (s : σ)
    (hsid : sessions sid = some s) (ciphertext : Bytes) :
    onReceivePacket eR sessions (scramble eS (word eS (store eR sid)) ciphertext) = (.session s, ciphertext) := by
  obtain ⟨a, b, c, d, e1, e2⟩ := load_store eR sid hs
  rw [e1]
  simp only [word, List.getElem?_cons_zero, List.getElem?_cons_succ, Option.getD_some]
  rw [onReceivePacket, C50_demultiplexed, e2]
  simp [h0, hsid]

/-- **C50** startup packets (session id 0) reach the startup session. -/
theorem C50_startup {σ : Type} (eS eR : Endian) (sessions : Nat → Option σ) (ciphertext : Bytes) :
    onReceivePacket eR sessions (scramble eS 0 ciphertext) = (.startup, ciphertext) := by
  have h := C50_demultiplexed eS eR 0 0 0 0 ciphertext
  have z : ∀ e, load e 0 0 0 0 = 0 := by intro e; cases e <;> rfl
  rw [z, z] at h
  rw [onReceivePacket, h]
  simp

/-- **C50** conversely a packet is only ever given to the session with the id that the packet spells: two packets with the
same ciphertext and different session ids are different. -/
theorem C50_injective (e : Endian) (s1 s2 : Nat) (h1 : s1 < 2 ^ 32) (h2 : s2 < 2 ^ 32) (ciphertext : Bytes)
    (h : scramble e s1 ciphertext = scramble e s2 ciphertext) : s1 = s2 := by
  obtain ⟨a, b, c, d, _, e2⟩ := load_store e s1 h1
  obtain ⟨a', b', c', d', _, e4⟩ := load_store e s2 h2
  have x1 := C50_demultiplexed e e a b c d ciphertext
  have x2 := C50_demultiplexed e e a' b' c' d' ciphertext
  rw [e2] at x1
  rw [e4] at x2
  rw [h] at x1
  rw [x1] at x2
  simpa using x2

example : scramble .little 0x04030201 [0x10, 0x20, 0x30] = [0x11, 0x22, 0x33, 0x04, 0x10, 0x20, 0x30] ∧
    descramble .big [0x11, 0x22, 0x33, 0x04, 0x10, 0x20, 0x30] = some (0x01020304, [0x10, 0x20, 0x30]) := by decide +kernel

end Rtmfp
