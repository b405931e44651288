import Verif.Lemmas.RtmpRecv

/-! # What the chunks that are put into the output buffer say -/

namespace Rtmfp.Rtmp

open Spec.Chunks Spec.Web

/-- a chunk stream as the sender remembers it, and as the receiver does -/
def Pair (c : SendCs) : Option Spec.Chunks.Stream → Prop
  | none => c.h.initted = false ∧ c.busy = false
  | some s => c.h.initted = true ∧ s.sid = c.h.sid ∧ s.ts = c.h.ts ∧ s.delta = c.h.delta ∧ s.len = c.h.len ∧ s.type = c.h.type ∧
      (c.busy = false → s.part = []) ∧ (c.busy = true → s.part ≠ [] ∧ s.part.length < s.len)

theorem basic_id : ∀ n < 4, ∀ cs < 24, 2 ≤ cs → basic (UInt8.ofNat (64 * n)) cs = [UInt8.ofNat (64 * n + cs)] := by
  decide +kernel

theorem id_small (c : Chunk) (h : c.long = false) (hc : c.cs < 24) : c.id = [UInt8.ofNat (64 * c.form.num + c.cs)] := by
  unfold Chunk.id
  have h1 : ¬ (c.long = true ∨ c.cs ≥ 320) := by rw [h]; simp; omega
  rw [if_neg h1, if_neg (by omega)]

/-- the field and what comes after it -/
theorem field_eq (eff : UInt32) :
    u24 (if (if eff ≥ 0xffffff then eff else 0) ≠ 0 then 0xffffff else eff) = stamp eff ∧
    (if (if eff ≥ 0xffffff then eff else 0) ≠ 0 then u32 (if eff ≥ 0xffffff then eff else 0) else []) = extended eff := by
  by_cases h : eff ≥ 0xffffff
  · have hn : eff.toNat ≥ 0xffffff := UInt32.le_iff_toNat_le.mp h
    have h0 : eff ≠ 0 := by intro e; rw [e] at hn; exact absurd hn (by decide)
    rw [if_pos h, if_pos h0, if_pos h0, u24_eq, u32_eq]
    refine ⟨?_, ?_⟩
    · unfold stamp
      rw [Nat.min_eq_right hn]; rfl
    · unfold extended
      rw [if_pos hn]
  · have hn : ¬ eff.toNat ≥ 0xffffff := fun g => h (UInt32.le_iff_toNat_le.mpr g)
    rw [if_neg h, if_neg (by simp), if_neg (by simp), u24_eq]
    refine ⟨?_, ?_⟩
    · unfold stamp
      rw [Nat.min_eq_left (by omega)]
    · unfold extended
      rw [if_neg hn]

/-- the first chunk of a message -/
theorem start_chunk (t : Tx) (d : Dec) (now : Int) (cs : Nat) (sid : UInt32) (type : UInt8) (ts : UInt32) (payload : Bytes)
    (hp : Pair (t.streams cs) (d.streams cs)) (hb : (t.streams cs).busy = false) (h2 : 2 ≤ cs) (h24 : cs < 24) (hl : payload.length < 2 ^ 24) :
    ∃ (c : Chunk) (eff : UInt32) (v : Bool), c.Fits ∧ c.cs = cs ∧ c.data = payload.take (min payload.length t.size) ∧
      d.begin c = some ⟨sid, ts, eff, payload.length, type, []⟩ ∧
      (startChunk t now cs sid type ts payload) = ({ t with
        streams := put t.streams cs ⟨⟨sid, ts, eff, payload.length, type, true, v⟩, now, decide (min payload.length t.size < payload.length)⟩
        out := t.out ++ d.wire c }, min payload.length t.size) := by
  unfold startChunk
  simp only
  generalize hct : chunkType t.simple (t.streams cs).h sid type ts payload.length = ct
  generalize heff : (if ct = 0 then ts else ts - (t.streams cs).h.ts) = eff
  obtain ⟨f1, f2⟩ := field_eq eff
  have full : ct = 0 → ∃ (c : Chunk), c.Fits ∧ c.cs = cs ∧ c.data = payload.take (min payload.length t.size) ∧
      d.begin c = some ⟨sid, ts, eff, payload.length, type, []⟩ ∧
      (basic ct cs ++ header ct (if (if eff ≥ 0xffffff then eff else 0) ≠ 0 then 0xffffff else eff) payload.length type sid ++
        (if (if eff ≥ 0xffffff then eff else 0) ≠ 0 then u32 (if eff ≥ 0xffffff then eff else 0) else []) ++ payload.take (min payload.length t.size)) = d.wire c := by
    rintro rfl
    rw [if_pos rfl] at heff
    subst heff
    refine ⟨⟨cs, false, .full ts payload.length type sid, payload.take (min payload.length t.size)⟩, ⟨h2, show cs ≤ 65599 by omega, by simp, hl⟩, rfl, rfl, rfl, ?_⟩
    rw [f2]
    unfold header Dec.wire
    rw [if_pos rfl, f1, len_eq, u32le_eq, id_small _ rfl h24]
    have hb := basic_id 0 (by omega) cs h24 h2
    rw [show UInt8.ofNat (64 * 0) = 0 from rfl] at hb
    rw [hb]
    rfl
  by_cases hi : (t.streams cs).h.initted = true ∧ ts - (t.streams cs).h.ts ≤ 0x7fffffff ∧ t.simple = false ∧ sid = (t.streams cs).h.sid
  · obtain ⟨i1, i2, i3, i4⟩ := hi
    cases hd : d.streams cs with
    | none => rw [hd] at hp; rw [hp.1] at i1; nomatch i1
    | some s =>
      rw [hd] at hp
      obtain ⟨p1, p2, p3, p4, p5, p6, p7, p8⟩ := hp
      have p7 := p7 hb
      obtain ⟨ssid, sts, sdelta, slen, stype, spart⟩ := s
      simp only at p2 p3 p4 p5 p6 p7 p8
      unfold chunkType at hct
      rw [if_pos ⟨i1, i2, i3⟩, if_pos i4] at hct
      have hsum : sts + (ts - sts) = ts := by rw [UInt32.add_comm, UInt32.sub_add_cancel]
      by_cases hk : type = (t.streams cs).h.type ∧ payload.length = (t.streams cs).h.len
      · rw [if_pos hk] at hct
        by_cases hv : (t.streams cs).h.deltaValid = true ∧ ts = (t.streams cs).h.ts + (t.streams cs).h.delta
        · rw [if_pos hv] at hct
          subst hct
          rw [if_neg (by decide), ← p3] at heff
          have he : eff = sdelta := by rw [← heff, hv.2, ← p3, ← p4, UInt32.add_comm, UInt32.add_sub_cancel]
          refine ⟨⟨cs, false, .same, payload.take (min payload.length t.size)⟩, eff, decide ((0xc0 : UInt8) ≠ 0), ⟨h2, show cs ≤ 65599 by omega, by simp, trivial⟩, rfl, rfl, ?_, ?_⟩
          · unfold Dec.begin
            simp only [hd, p7, if_true]
            rw [he, i4, ← p2, hk.1, hk.2, ← p5, ← p6, hv.2, ← p3, ← p4]
          · congr 2
            rw [f2]
            unfold header Dec.wire
            rw [if_neg (by decide), if_neg (by decide), if_neg (by decide), id_small _ rfl h24]
            have hb := basic_id 3 (by omega) cs h24 h2
            rw [show UInt8.ofNat (64 * 3) = 0xc0 from rfl] at hb
            rw [hb]
            have ht : d.time ⟨cs, false, .same, payload.take (min payload.length t.size)⟩ = eff := by
              unfold Dec.time
              simp [hd, he]
            rw [ht]
            simp [Form.num, Form.bytes]
        · rw [if_neg hv] at hct
          subst hct
          rw [if_neg (by decide), ← p3] at heff
          refine ⟨⟨cs, false, .sameKind eff, payload.take (min payload.length t.size)⟩, eff, decide ((0x80 : UInt8) ≠ 0), ⟨h2, show cs ≤ 65599 by omega, by simp, trivial⟩, rfl, rfl, ?_, ?_⟩
          · unfold Dec.begin
            simp only [hd]
            rw [← heff, hsum, i4, ← p2, hk.1, hk.2, ← p5, ← p6]
          · congr 2
            rw [f2]
            unfold header Dec.wire
            rw [if_neg (by decide), if_neg (by decide), if_pos rfl, f1, id_small _ rfl h24]
            have hb := basic_id 2 (by omega) cs h24 h2
            rw [show UInt8.ofNat (64 * 2) = 0x80 from rfl] at hb
            rw [hb]
            simp [Form.num, Form.bytes, Dec.time]
      · rw [if_neg hk] at hct
        subst hct
        rw [if_neg (by decide), ← p3] at heff
        refine ⟨⟨cs, false, .sameStream eff payload.length type, payload.take (min payload.length t.size)⟩, eff, decide ((0x40 : UInt8) ≠ 0), ⟨h2, show cs ≤ 65599 by omega, by simp, hl⟩, rfl, rfl, ?_, ?_⟩
        · unfold Dec.begin
          simp only [hd]
          rw [← heff, hsum, i4, ← p2]
        · congr 2
          rw [f2]
          unfold header Dec.wire
          rw [if_neg (by decide), if_pos rfl, f1, len_eq, id_small _ rfl h24]
          have hb := basic_id 1 (by omega) cs h24 h2
          rw [show UInt8.ofNat (64 * 1) = 0x40 from rfl] at hb
          rw [hb]
          simp [Form.num, Form.bytes, Dec.time]
  · have h0 : ct = 0 := by
      rw [← hct]
      unfold chunkType
      by_cases g : (t.streams cs).h.initted = true ∧ ts - (t.streams cs).h.ts ≤ 0x7fffffff ∧ t.simple = false
      · rw [if_pos g, if_neg (fun g4 => hi ⟨g.1, g.2.1, g.2.2, g4⟩)]
      · rw [if_neg g]
    obtain ⟨c, c1, c2, c3, c4, c5⟩ := full h0
    exact ⟨c, eff, decide (ct ≠ 0), c1, c2, c3, c4, by rw [c5]⟩

/-- another chunk of a message -/
theorem next_chunk (t : Tx) (d : Dec) (cs : Nat) (payload : Bytes) (cursor : Nat) (s : Spec.Chunks.Stream) (hd : d.streams cs = some s)
    (hp : Pair (t.streams cs) (some s)) (hb : (t.streams cs).busy = true) (h2 : 2 ≤ cs) (h24 : cs < 24) :
    ∃ (c : Chunk), c.Fits ∧ c.cs = cs ∧ c.data = (payload.drop cursor).take (min (s.len - cursor) t.size) ∧ d.begin c = some s ∧
      nextChunk t cs payload cursor = ({ t with
        streams := put t.streams cs { t.streams cs with busy := decide (cursor + min (s.len - cursor) t.size < s.len) }
        out := t.out ++ d.wire c }, min (s.len - cursor) t.size) := by
  obtain ⟨p1, p2, p3, p4, p5, p6, p7, p8⟩ := hp
  obtain ⟨q1, q2⟩ := p8 hb
  refine ⟨⟨cs, false, .same, (payload.drop cursor).take (min (s.len - cursor) t.size)⟩, ⟨h2, show cs ≤ 65599 by omega, by simp, trivial⟩, rfl, rfl, ?_, ?_⟩
  · unfold Dec.begin
    simp only [hd]
    rw [if_neg q1]
  · unfold nextChunk
    simp only [← p5, ← p4]
    congr 2
    unfold Dec.wire
    rw [id_small _ rfl h24]
    have hb := basic_id 3 (by omega) cs h24 h2
    rw [show UInt8.ofNat (64 * 3) = 0xc0 from rfl] at hb
    rw [hb]
    have ht : d.time ⟨cs, false, .same, (payload.drop cursor).take (min (s.len - cursor) t.size)⟩ = s.delta := by
      unfold Dec.time
      simp [hd]
    rw [ht]
    have he : (if s.delta ≥ 0xffffff then u32 s.delta else []) = extended s.delta := by
      unfold extended
      rw [u32_eq]
      by_cases h : s.delta ≥ 0xffffff
      · rw [if_pos h, if_pos (show s.delta.toNat ≥ 0xffffff from UInt32.le_iff_toNat_le.mp h)]
      · rw [if_neg h, if_neg (fun g : s.delta.toNat ≥ 0xffffff => h (UInt32.le_iff_toNat_le.mpr g))]
    rw [he]
    simp [Form.num, Form.bytes]

end Rtmfp.Rtmp
