import Verif.Lemmas.RtmpSend

/-! # The sender's chunk streams are the receiver's -/

namespace Rtmfp.Rtmp

open Spec.Chunks Spec.Web

/-- What is remembered on both sides. -/
structure Fit (t : Tx) (d : Dec) : Prop where
  pair : ∀ i, Pair (t.streams i) (d.streams i)
  size : t.size = d.size
  two : (t.streams 2).busy = false
  lo : 128 ≤ t.size
  hi : t.size ≤ 0x7fffffff

theorem Fit.congr {t u : Tx} {d : Dec} (h : Fit t d) (hs : u.streams = t.streams) (hz : u.size = t.size) : Fit u d :=
  ⟨fun i => by rw [hs]; exact h.pair i, hz.trans h.size, by rw [hs]; exact h.two, by rw [hz]; exact h.lo, by rw [hz]; exact h.hi⟩

/-- Something is put into the output buffer that isn't a message of the application, and leaves the chunk streams other than 2 alone. -/
def Speak (t u : Tx) : Prop :=
  ∃ x, u.out = t.out ++ x ∧ (∀ i, i ≠ 2 → u.streams i = t.streams i) ∧ ∀ d, Fit t d →
    ∃ cs d' ms, (∀ c ∈ cs, c.Fits) ∧ d.hear cs = some (x, d', ms) ∧ users ms = [] ∧ Fit u d' ∧ ∀ i, i ≠ 2 → d'.streams i = d.streams i

theorem Speak.of_eq {t u : Tx} (ho : u.out = t.out) (hs : u.streams = t.streams) (hz : u.size = t.size) : Speak t u :=
  ⟨[], by simp [ho], fun i _ => by rw [hs], fun d h => ⟨[], d, [], by simp, rfl, rfl, h.congr hs hz, fun _ _ => rfl⟩⟩

theorem Speak.refl (t : Tx) : Speak t t := .of_eq rfl rfl rfl

theorem Speak.trans {t u v : Tx} (a : Speak t u) (b : Speak u v) : Speak t v := by
  obtain ⟨x, x1, x2, x3⟩ := a
  obtain ⟨y, y1, y2, y3⟩ := b
  refine ⟨x ++ y, by rw [y1, x1, List.append_assoc], fun i hi => (y2 i hi).trans (x2 i hi), fun d h => ?_⟩
  obtain ⟨cs, d', ms, p1, p2, p3, p4, p5⟩ := x3 d h
  obtain ⟨cs', e, ms', q1, q2, q3, q4, q5⟩ := y3 d' p4
  refine ⟨cs ++ cs', e, ms ++ ms', fun c hc => ?_, ?_, ?_, q4, fun i hi => (q5 i hi).trans (p5 i hi)⟩
  · rcases List.mem_append.mp hc with g | g
    · exact p1 c g
    · exact q1 c g
  · rw [hear_append, p2]; simp [q2]
  · rw [users_append, p3, q3]; rfl

theorem pair_put {f : Nat → SendCs} {d : Dec} (h : ∀ i, Pair (f i) (d.streams i)) (j : Nat) (c : SendCs) (s : Spec.Chunks.Stream) (hc : Pair c (some s)) (i : Nat) :
    Pair (put f j c i) ((d.set j s).streams i) := by
  unfold put Dec.set
  simp only
  by_cases e : i = j
  · rw [if_pos e, if_pos e]; exact hc
  · rw [if_neg e, if_neg e]; exact h i

theorem put_at {f : Nat → α} (i : Nat) (a : α) : put f i a i = a := if_pos rfl

theorem put_off {f : Nat → α} {i j : Nat} (a : α) (h : j ≠ i) : put f i a j = f j := if_neg h

theorem two_pair (eff : UInt32) (type : UInt8) (v : Bool) (now : Int) : Pair ⟨⟨0, 0, eff, 4, type, true, v⟩, now, false⟩ (some ⟨0, 0, eff, 4, type, []⟩) :=
  ⟨rfl, rfl, rfl, rfl, rfl, rfl, fun _ => rfl, fun h => by simp at h⟩

theorem two_quiet {f : Nat → SendCs} {h : Cs} {now : Int} : (put f 2 ⟨h, now, false⟩ 2).busy = false := by rw [put_at]

/-- a control message of four bytes -/
theorem control_take (t : Tx) (d : Dec) (now : Int) (type : UInt8) (p : Bytes) (hp : Pair (t.streams 2) (d.streams 2)) (two : (t.streams 2).busy = false)
    (lo : 128 ≤ t.size) (lo' : 128 ≤ d.size) (hl : p.length = 4) :
    ∃ (c : Chunk) (eff : UInt32) (v : Bool), c.Fits ∧
      d.take c = ((d.set 2 ⟨0, 0, eff, 4, type, []⟩).obey ⟨0, type, 0, p⟩).map (fun d => (d, [⟨0, type, 0, p⟩])) ∧
      control t now type p = { t with streams := put t.streams 2 ⟨⟨0, 0, eff, 4, type, true, v⟩, now, false⟩, out := t.out ++ d.wire c } := by
  obtain ⟨c, eff, v, h1, h2, h3, h4, h5⟩ := start_chunk t d now 2 0 type 0 p hp two (by omega) (by omega) (by rw [hl]; decide)
  have hm : min p.length t.size = 4 := by omega
  rw [hm] at h3 h5
  rw [hl] at h4 h5
  have hd : c.data = p := by rw [h3, List.take_of_length_le (by omega)]
  refine ⟨c, eff, v, h1, ?_, ?_⟩
  · unfold Dec.take
    rw [h4, hd, h2]
    simp only [Option.bind_some, List.length_nil, Nat.sub_zero, List.nil_append, hl]
    rw [if_neg (by omega), if_pos trivial]
  · unfold control
    rw [h5]
    rfl

theorem obey_plain (d : Dec) (type : UInt8) (p : Bytes) (ht : type = 3 ∨ type = 5) (hl : p.length = 4) : d.obey ⟨0, type, 0, p⟩ = some d := by
  unfold Dec.obey
  rcases ht with rfl | rfl <;> simp [isControl, hl]

theorem control_speak (t : Tx) (now : Int) (type : UInt8) (p : Bytes) (ht : type = 3 ∨ type = 5) (hl : p.length = 4) (lo : 128 ≤ t.size) :
    Speak t (control t now type p) := by
  refine ⟨(control t now type p).out.drop t.out.length, ?_, ?_, fun d h => ?_⟩
  · unfold control startChunk
    simp
  · intro i hi
    unfold control startChunk
    exact put_off _ hi
  · obtain ⟨c, eff, v, h1, h2, h3⟩ := control_take t d now type p (h.pair 2) h.two lo (by have := h.size; omega) hl
    rw [obey_plain _ _ _ ht hl] at h2
    refine ⟨[c], d.set 2 ⟨0, 0, eff, 4, type, []⟩, [⟨0, type, 0, p⟩], by simpa using h1, ?_, ?_, ?_, ?_⟩
    · simp only [Dec.hear]
      rw [h2, h3]
      simp
    · rcases ht with rfl | rfl <;> rfl
    · rw [h3]
      refine ⟨fun i => pair_put h.pair 2 _ _ (two_pair eff _ v now) i, h.size, two_quiet (f := t.streams), h.lo, h.hi⟩
    · intro i hi
      exact if_neg hi

theorem u32_length (v : UInt32) : (u32 v).length = 4 := rfl

theorem refresh_speak (t : Tx) (now : Int) (lo : 128 ≤ t.size) : Speak t (refreshWindow t now) := by
  unfold refreshWindow
  simp only
  split
  · exact (control_speak t now 5 (u32 (min t.rttAck t.bwAck).toUInt32) (.inr rfl) (u32_length _) lo).trans (.of_eq rfl rfl rfl)
  · exact .refl t

theorem control_size (t : Tx) (now : Int) (type : UInt8) (p : Bytes) : (control t now type p).size = t.size := rfl

theorem refresh_size (t : Tx) (now : Int) : (refreshWindow t now).size = t.size := by
  unfold refreshWindow
  simp only
  split
  · exact control_size t now 5 (u32 (min t.rttAck t.bwAck).toUInt32)
  · rfl

theorem num_size (n : Nat) (h : n ≤ 0x7fffffff) : num (u32 (UInt32.ofNat (n &&& 0x7fffffff))) = n := by
  rw [num_u32]
  have e : n &&& 0x7fffffff = n := by
    have := Nat.and_two_pow_sub_one_eq_mod n 31
    rw [show (2 : Nat) ^ 31 - 1 = 0x7fffffff from rfl] at this
    rw [this, Nat.mod_eq_of_lt (by omega)]
  rw [e, UInt32.toNat_ofNat', Nat.mod_eq_of_lt (by omega)]

/-- The chunk size changes on both sides. -/
theorem size_speak (t : Tx) (d : Dec) (now : Int) (hp : ∀ i, Pair (t.streams i) (d.streams i)) (two : (t.streams 2).busy = false) (lo : 128 ≤ t.size)
    (hi : t.size ≤ 0x7fffffff) (lo' : 128 ≤ d.size) :
    ∃ c d', Chunk.Fits c ∧ d.take c = some (d', [⟨0, 1, 0, u32 (UInt32.ofNat (t.size &&& 0x7fffffff))⟩]) ∧ Fit (setChunk t now) d' ∧
      (setChunk t now).out = t.out ++ d.wire c ∧ ∀ i, i ≠ 2 → d'.streams i = d.streams i := by
  obtain ⟨c, eff, v, h1, h2, h3⟩ := control_take t d now 1 (u32 (UInt32.ofNat (t.size &&& 0x7fffffff))) (hp 2) two lo lo' (u32_length _)
  have ho : (d.set 2 ⟨0, 0, eff, 4, 1, []⟩).obey ⟨0, 1, 0, u32 (UInt32.ofNat (t.size &&& 0x7fffffff))⟩ =
      some { d.set 2 ⟨0, 0, eff, 4, 1, []⟩ with size := t.size } := by
    unfold Dec.obey
    rw [if_neg (by simp [isControl]), if_neg (by simp [u32_length])]
    simp only
    rw [if_pos trivial, List.take_of_length_le (by rw [u32_length]; omega), num_size _ hi, if_pos ⟨by omega, by omega⟩]
  rw [ho] at h2
  refine ⟨c, { d.set 2 ⟨0, 0, eff, 4, 1, []⟩ with size := t.size }, h1, h2, ?_, ?_, fun i hi => if_neg hi⟩
  · unfold setChunk
    rw [h3]
    exact ⟨fun i => pair_put hp 2 _ _ (two_pair eff _ v now) i, rfl, two_quiet (f := t.streams), lo, hi⟩
  · unfold setChunk
    rw [h3]

theorem setChunk_streams (t : Tx) (now : Int) (i : Nat) (h : i ≠ 2) : (setChunk t now).streams i = t.streams i := by
  unfold setChunk control startChunk
  exact put_off _ h

theorem resize_speak (t : Tx) (now : Int) (n : Nat) (lo : 128 ≤ n) (hi : n ≤ 0x7fffffff) : Speak t (setChunk { t with size := n } now) := by
  refine ⟨(setChunk { t with size := n } now).out.drop t.out.length, ?_, fun i h => setChunk_streams _ now i h, fun d h => ?_⟩
  · unfold setChunk control startChunk
    simp
  · obtain ⟨c, d', h1, h2, h3, h4, h5⟩ := size_speak { t with size := n } d now h.pair h.two lo hi (by have := h.size; have := h.lo; omega)
    refine ⟨[c], d', [⟨0, 1, 0, u32 (UInt32.ofNat (n &&& 0x7fffffff))⟩], by simpa using h1, ?_, rfl, h3, h5⟩
    simp only [Dec.hear]
    rw [h2, h4]
    simp

/-- A message partly sent is forgotten. -/
theorem abort_speak (t : Tx) (now : Int) (k : Nat) (h3 : 3 ≤ k) (h24 : k < 24) :
    ∃ x, (abortChunk t now k).out = t.out ++ x ∧ (∀ i, i ≠ 2 → (abortChunk t now k).streams i = t.streams i) ∧ ∀ d s, Fit t d → d.streams k = some s →
    ∃ c d', Chunk.Fits c ∧ d.hear [c] = some (x, d', [⟨0, 2, 0, u32 (UInt32.ofNat (k &&& 0xffffff))⟩]) ∧
      Fit { abortChunk t now k with streams := put (abortChunk t now k).streams k { (abortChunk t now k).streams k with busy := false } } d' ∧
      (∀ i, i ≠ 2 → i ≠ k → d'.streams i = d.streams i) := by
  have hk2 : k ≠ 2 := by omega
  refine ⟨(abortChunk t now k).out.drop t.out.length, ?_, ?_, fun d s h hs => ?_⟩
  · unfold abortChunk control startChunk
    simp
  · intro i hi
    unfold abortChunk control startChunk
    exact put_off _ hi
  · obtain ⟨c, eff, v, h1, h2, h3'⟩ := control_take t d now 2 (u32 (UInt32.ofNat (k &&& 0xffffff))) (h.pair 2) h.two h.lo (by have := h.size; have := h.lo; omega) (u32_length _)
    have hn : num (u32 (UInt32.ofNat (k &&& 0xffffff))) = k := by
      rw [num_u32]
      have e : k &&& 0xffffff = k := by
        have := Nat.and_two_pow_sub_one_eq_mod k 24
        rw [show (2 : Nat) ^ 24 - 1 = 0xffffff from rfl] at this
        rw [this, Nat.mod_eq_of_lt (by omega)]
      rw [e, UInt32.toNat_ofNat', Nat.mod_eq_of_lt (by omega)]
    have ho : (d.set 2 ⟨0, 0, eff, 4, 2, []⟩).obey ⟨0, 2, 0, u32 (UInt32.ofNat (k &&& 0xffffff))⟩ =
        some ((d.set 2 ⟨0, 0, eff, 4, 2, []⟩).set k { s with part := [] }) := by
      unfold Dec.obey
      rw [if_neg (by simp [isControl]), if_neg (by simp [u32_length])]
      simp only
      rw [if_neg (by decide), if_pos trivial, List.take_of_length_le (by rw [u32_length]; omega), hn, if_pos ⟨by omega, by omega⟩]
      have : (d.set 2 ⟨0, 0, eff, 4, 2, []⟩).streams k = some s := by
        unfold Dec.set
        simp only
        rw [if_neg hk2]; exact hs
      rw [this]
      rfl
    rw [ho] at h2
    refine ⟨c, (d.set 2 ⟨0, 0, eff, 4, 2, []⟩).set k { s with part := [] }, h1, ?_, ?_, ?_⟩
    · simp only [Dec.hear]
      rw [h2]
      unfold abortChunk
      rw [h3']
      simp
    · have hf : Fit (abortChunk t now k) (d.set 2 ⟨0, 0, eff, 4, 2, []⟩) := by
        unfold abortChunk
        rw [h3']
        exact ⟨fun i => pair_put h.pair 2 _ _ (two_pair eff _ v now) i, h.size, two_quiet (f := t.streams), h.lo, h.hi⟩
      have hkk : (abortChunk t now k).streams k = t.streams k := by
        unfold abortChunk control startChunk
        exact put_off _ hk2
      have hpk := h.pair k
      rw [hs] at hpk
      obtain ⟨p1, p2, p3, p4, p5, p6, p7, p8⟩ := hpk
      refine ⟨fun i => pair_put hf.pair k _ _ ?_ i, hf.size, ?_, hf.lo, hf.hi⟩
      · rw [hkk]
        exact ⟨p1, p2, p3, p4, p5, p6, fun _ => rfl, fun h => absurd h (by simp)⟩
      · show SendCs.busy (put _ k _ 2) = false
        rw [put_off _ (Ne.symm hk2)]
        exact hf.two
    · intro i hi hik
      unfold Dec.set
      simp only
      rw [if_neg hik, if_neg hi]

end Rtmfp.Rtmp
