import Verif.Lemmas.Startup
import Verif.Props.C29_Cookie

/-! # C88: startup messages say to the other side what was said, and introductions lead back to whom they are for -/

namespace Rtmfp
open Startup Spec.Startup Address

namespace Startup

/-- What a chunk for the startup session says: a call, by the type of the chunk and its payload. `src` is where it came from: a redirect to nowhere is one to
there. -/
def Says (e : SessionId.Endian) (src : Sockaddr) (t : UInt8) (w : Bytes) : Call → Prop
  | .ihello epd tag => t = 0x30 ∧ IHello w epd tag
  | .rhello tag cookie cert => t = 0x70 ∧ RHello w tag cookie cert
  | .redirect tag dests => t = 0x71 ∧ ∃ said, Redirect w tag said ∧
      ((said ≠ [] ∧ dests = said) ∨ (said = [] ∧ dests = [{ family := src.family, ip := src.ip, port := src.port, origin := 2 }]))
  | .iikeying isid cookie cert skic signedPart sig => t = 0x38 ∧ IIKeying e w isid cookie cert skic signedPart sig
  | _ => False

/-- What a chunk says to a session that waits for the answer to its keying, -/
def SaysKeying (e : SessionId.Endian) (t : UInt8) (w : Bytes) : Call → Prop
  | .rikeying rsid skrc signedPart sig => t = 0x78 ∧ RIKeying e w rsid skrc signedPart sig
  | .cookieChange old new => t = 0x79 ∧ CookieChange w old new
  | _ => False

/-- and to an open session (of hellos). -/
def SaysOpen (t : UInt8) (w : Bytes) : Call → Prop
  | .fihello epd reply tag => t = 0x0f ∧ FIHello w epd reply tag
  | _ => False

theorem onIHelloChunk_iff (w : Bytes) (hw : w.length < 65536) (c : Call) :
    onIHelloChunk w = some c ↔ ∃ epd tag, c = .ihello epd tag ∧ IHello w epd tag := by
  constructor
  · intro h
    rw [onIHelloChunk] at h
    split at h
    · cases h
    · rename_i epd rv hp
      obtain ⟨f, rest, h1, h2, h3, h4, _⟩ := parseField_sound hp (by omega)
      injection h with h
      exact ⟨epd, rest, by rw [← h, h4], f, h1, h2⟩
  · rintro ⟨epd, tag, rfl, f, h1, rfl⟩
    rw [onIHelloChunk, parseField_complete h1 tag (by omega)]
    simp

theorem onRHelloChunk_iff (w : Bytes) (hw : w.length < 65536) (c : Call) :
    onRHelloChunk w = some c ↔ ∃ tag cookie cert, c = .rhello tag cookie cert ∧ RHello w tag cookie cert := by
  constructor
  · intro h
    rw [onRHelloChunk] at h
    split at h
    · cases h
    · rename_i tag rv hp
      obtain ⟨f, rest, h1, h2, h3, h4, _⟩ := parseField_sound hp (by omega)
      rw [h4] at h
      split at h
      · cases h
      · rename_i cookie rv' hp'
        have hr : rest.length ≤ w.length := by rw [h2]; simp
        obtain ⟨g, rest', g1, g2, g3, g4, _⟩ := parseField_sound hp' (by omega)
        injection h with h
        exact ⟨tag, cookie, rest', by rw [← h, g4], f, g, h1, g1, by rw [h2, g2, List.append_assoc]⟩
  · rintro ⟨tag, cookie, cert, rfl, f, g, h1, h2, rfl⟩
    have hl : (g ++ cert).length < 2 ^ 64 - 1 := by simp only [List.length_append] at hw ⊢; omega
    rw [List.append_assoc] at hw ⊢
    rw [onRHelloChunk, parseField_complete h1 (g ++ cert) (by omega)]
    simp only [List.drop_left]
    rw [parseField_complete h2 cert hl]
    simp

theorem ofSockaddr_observed (src : Sockaddr) (h : src.family = 2 ∨ src.family = 10) :
    ofSockaddr (some src) originObserved = { family := src.family, ip := src.ip, port := src.port, origin := 2 } := by
  simp only [ofSockaddr, setSockaddr, AF_INET, AF_INET6, if_pos h, originObserved, Address.init]

theorem onRedirectChunk_iff (src : Sockaddr) (hs : src.family = 2 ∨ src.family = 10) (w : Bytes) (hw : w.length < 65536) (c : Call) :
    onRedirectChunk src w = some c ↔ ∃ tag dests, c = .redirect tag dests ∧ ∃ said, Redirect w tag said ∧
      ((said ≠ [] ∧ dests = said) ∨ (said = [] ∧ dests = [{ family := src.family, ip := src.ip, port := src.port, origin := 2 }])) := by
  have hob := ofSockaddr_observed src hs
  constructor
  · intro h
    rw [onRedirectChunk] at h
    split at h
    · cases h
    · rename_i tag rv hp
      obtain ⟨f, rest, h1, h2, h3, h4, _⟩ := parseField_sound hp (by omega)
      rw [h4] at h
      split at h
      · cases h
      · rename_i said hl
        injection h with h
        have ha := redirectLoop_sound _ _ _ _ hl
        refine ⟨tag, _, h.symm, said, ⟨f, rest, h1, ha, h2⟩, ?_⟩
        cases said with
        | nil => exact .inr ⟨rfl, by simp [hob]⟩
        | cons a as => exact .inl ⟨by simp, by simp⟩
  · rintro ⟨tag, dests, rfl, said, ⟨f, v, h1, h2, rfl⟩, h3⟩
    rw [onRedirectChunk, parseField_complete h1 v (by omega)]
    simp only [List.drop_left]
    rw [redirectLoop_complete said v _ _ h2 (by simp)]
    rcases h3 with ⟨h3, rfl⟩ | ⟨rfl, rfl⟩
    · cases dests with
      | nil => exact absurd rfl h3
      | cons a as => simp
    · simp [hob]

theorem drop_len {f rest : Bytes} : (f ++ rest).drop f.length = rest := List.drop_left

theorem onIIKeyingChunk_iff (e : SessionId.Endian) (w : Bytes) (hw : w.length < 65536) (c : Call) :
    onIIKeyingChunk e w = some c ↔ ∃ isid cookie cert skic signedPart sig, c = .iikeying isid cookie cert skic signedPart sig ∧
      IIKeying e w isid cookie cert skic signedPart sig := by
  constructor
  · intro h
    rw [onIIKeyingChunk] at h
    split at h
    · cases h
    · rename_i h4
      have hs := sid_take e w h4
      have h0 : w = w.take 4 ++ w.drop 4 := (List.take_append_drop 4 w).symm
      split at h
      · cases h
      · rename_i cookie r1 hp1
        obtain ⟨f, t1, f1, f2, f3, f4, _⟩ := parseField_sound hp1 (by rw [List.length_drop]; omega)
        have hl1 : t1.length ≤ w.length := by have := congrArg List.length f2; simp at this; omega
        rw [f4] at h
        split at h
        · cases h
        · rename_i cert r2 hp2
          obtain ⟨g, t2, g1, g2, g3, g4, _⟩ := parseField_sound hp2 (by omega)
          have hl2 : t2.length ≤ w.length := by have := congrArg List.length g2; simp at this; omega
          rw [g4] at h
          split at h
          · cases h
          · rename_i skic r3 hp3
            obtain ⟨k, t3, k1, k2, k3, k4, _⟩ := parseField_sound hp3 (by omega)
            have hall : w = (w.take 4 ++ f ++ g ++ k) ++ t3 := by
              conv => lhs; rw [h0, f2, g2, k2]
              simp only [List.append_assoc]
            have hlen : (w.take 4 ++ f ++ g ++ k).length = 4 + r1 + r2 + r3 := by
              simp only [List.length_append, List.length_take, ← f3, ← g3, ← k3]; omega
            have ht : w.take (4 + r1 + r2 + r3) = w.take 4 ++ f ++ g ++ k := by
              conv => lhs; rw [hall, ← hlen]
              exact List.take_left
            have hd : w.drop (4 + r1 + r2 + r3) = t3 := by
              conv => lhs; rw [hall, ← hlen]
              exact List.drop_left
            injection h with h
            refine ⟨_, cookie, cert, skic, _, _, h.symm, _, f, g, k, hs, f1, g1, k1, ht, ?_⟩
            exact (List.take_append_drop _ w).symm
  · rintro ⟨isid, cookie, cert, skic, sp, sig, rfl, s, f, g, k, h1, h2, h3, h4, rfl, rfl⟩
    obtain ⟨s1, s2⟩ := Sid.word h1
    have e1 : s ++ f ++ g ++ k ++ sig = s ++ (f ++ (g ++ (k ++ sig))) := by simp
    have d1 : (s ++ f ++ g ++ k ++ sig).drop 4 = f ++ (g ++ (k ++ sig)) := by rw [e1, ← s1, List.drop_left]
    have t1 : (s ++ f ++ g ++ k ++ sig).take 4 = s := by rw [e1, ← s1, List.take_left]
    simp only [List.length_append] at hw
    rw [onIIKeyingChunk, if_neg (by simp only [List.length_append]; omega), d1, t1, s2]
    rw [parseField_complete h2 _ (by simp only [List.length_append]; omega)]
    dsimp only
    rw [List.drop_left, parseField_complete h3 _ (by simp only [List.length_append]; omega)]
    dsimp only
    rw [List.drop_left, parseField_complete h4 _ (by simp only [List.length_append]; omega)]
    dsimp only
    have hn : 4 + f.length + g.length + k.length = (s ++ f ++ g ++ k).length := by simp only [List.length_append]; omega
    rw [hn, List.take_left, List.drop_left]

theorem onRIKeyingChunk_iff (e : SessionId.Endian) (w : Bytes) (hw : w.length < 65536) (c : Call) :
    onRIKeyingChunk e w = some c ↔ ∃ rsid skrc signedPart sig, c = .rikeying rsid skrc signedPart sig ∧ RIKeying e w rsid skrc signedPart sig := by
  constructor
  · intro h
    rw [onRIKeyingChunk] at h
    split at h
    · cases h
    · rename_i h4
      have hs := sid_take e w h4
      have h0 : w = w.take 4 ++ w.drop 4 := (List.take_append_drop 4 w).symm
      split at h
      · cases h
      · rename_i skrc r1 hp1
        obtain ⟨f, t1, f1, f2, f3, f4, _⟩ := parseField_sound hp1 (by rw [List.length_drop]; omega)
        have hall : w = (w.take 4 ++ f) ++ t1 := by
          conv => lhs; rw [h0, f2]
          simp only [List.append_assoc]
        have hlen : (w.take 4 ++ f).length = 4 + r1 := by
          simp only [List.length_append, List.length_take, ← f3]; omega
        have ht : w.take (4 + r1) = w.take 4 ++ f := by
          conv => lhs; rw [hall, ← hlen]
          exact List.take_left
        injection h with h
        exact ⟨_, skrc, _, _, h.symm, _, f, hs, f1, ht, (List.take_append_drop _ w).symm⟩
  · rintro ⟨rsid, skrc, sp, sig, rfl, s, f, h1, h2, rfl, rfl⟩
    obtain ⟨s1, s2⟩ := Sid.word h1
    have d1 : (s ++ f ++ sig).drop 4 = f ++ sig := by rw [List.append_assoc, ← s1, List.drop_left]
    have t1 : (s ++ f ++ sig).take 4 = s := by rw [List.append_assoc, ← s1, List.take_left]
    simp only [List.length_append] at hw
    rw [onRIKeyingChunk, if_neg (by simp only [List.length_append]; omega), d1, t1, s2]
    rw [parseField_complete h2 _ (by simp only [List.length_append]; omega)]
    dsimp only
    have hn : 4 + f.length = (s ++ f).length := by simp only [List.length_append]; omega
    rw [hn, List.take_left, List.drop_left]

theorem onCookieChangeChunk_iff (w : Bytes) (hw : w.length < 65536) (c : Call) :
    onCookieChangeChunk w = some c ↔ ∃ old new, c = .cookieChange old new ∧ CookieChange w old new := by
  constructor
  · intro h
    rw [onCookieChangeChunk] at h
    split at h
    · cases h
    · rename_i old rv hp
      obtain ⟨f, rest, h1, h2, h3, h4, _⟩ := parseField_sound hp (by omega)
      injection h with h
      exact ⟨old, rest, by rw [← h, h4], f, h1, h2⟩
  · rintro ⟨old, new, rfl, f, h1, rfl⟩
    rw [onCookieChangeChunk, parseField_complete h1 new (by omega)]
    simp

theorem onFIHelloChunk_iff (w : Bytes) (hw : w.length < 65536) (c : Call) :
    onFIHelloChunk w = some c ↔ ∃ epd reply tag, c = .fihello epd reply tag ∧ FIHello w epd reply tag := by
  constructor
  · intro h
    rw [onFIHelloChunk] at h
    split at h
    · cases h
    · rename_i epd rv hp
      obtain ⟨f, rest, h1, h2, h3, h4, _⟩ := parseField_sound hp (by omega)
      rw [h4] at h
      dsimp only at h
      split at h
      · cases h
      · rename_i hn
        obtain ⟨a, r, a1, a2, a3, a4⟩ := addr_sound (b := Address.init) (src := rest) (a := (setFromEncoding Address.init rest).1) (n := (setFromEncoding Address.init rest).2) rfl hn
        rw [a4] at h
        injection h with h
        exact ⟨epd, _, r, h.symm, f, a, h1, a1, by rw [h2, a2, List.append_assoc]⟩
  · rintro ⟨epd, reply, tag, rfl, f, a, h1, h2, rfl⟩
    rw [List.append_assoc] at hw ⊢
    rw [onFIHelloChunk, parseField_complete h1 _ (by omega)]
    simp only [List.drop_left]
    rw [addr_complete h2]
    have := addr_pos h2
    rw [if_neg (by omega), List.drop_left]

end Startup

/-- **C88** What is made of a chunk is what it says, by the wire format of RFC 7016, and nothing is made of a chunk that says nothing: for every sequence of
bytes that a chunk may have. (A second hello in a packet is not looked at.) -/
theorem C88_understood (e : SessionId.Endian) (src : Sockaddr) (hs : src.family = 2 ∨ src.family = 10) (seen : Bool) (c : Chunk) (hw : c.payload.length < 65536) (call : Call) :
    ((startupChunk e src seen c).2 = some call ↔ Says e src c.type c.payload call ∧ (c.type = 0x30 → seen = false)) ∧
    (∀ mode, keyingChunk e mode c = some call ↔ mode = 3 ∧ SaysKeying e c.type c.payload call) ∧
    (∀ mode, openChunk mode c = some call ↔ mode ≠ 3 ∧ SaysOpen c.type c.payload call) := by
  obtain ⟨t, off, w⟩ := c
  dsimp only at hw ⊢
  refine ⟨?_, fun mode => ?_, fun mode => ?_⟩
  · rw [startupChunk]
    dsimp only
    by_cases h1 : t = cIHello
    · rw [if_pos h1]
      have h1' : t = 0x30 := h1
      subst h1'
      cases seen
      · simp only [Bool.false_eq_true, if_false]
        rw [onIHelloChunk_iff w hw]
        cases call <;> simp [Says]
      · simp only [if_true]
        simp
    · rw [if_neg h1]
      have h1' : t ≠ 0x30 := h1
      by_cases h2 : t = cRHello
      · rw [if_pos h2]
        have h2' : t = 0x70 := h2
        subst h2'
        rw [onRHelloChunk_iff w hw]
        cases call <;> simp [Says]
      · rw [if_neg h2]
        have h2' : t ≠ 0x70 := h2
        by_cases h3 : t = cRedirect
        · rw [if_pos h3]
          have h3' : t = 0x71 := h3
          subst h3'
          rw [onRedirectChunk_iff src hs w hw]
          cases call <;> simp [Says]
        · rw [if_neg h3]
          have h3' : t ≠ 0x71 := h3
          by_cases h4 : t = cIIKeying
          · rw [if_pos h4]
            have h4' : t = 0x38 := h4
            subst h4'
            rw [onIIKeyingChunk_iff e w hw]
            cases call <;> simp [Says]
          · rw [if_neg h4]
            have h4' : t ≠ 0x38 := h4
            cases call <;> simp [Says, h1', h2', h3', h4']
  · rw [keyingChunk]
    dsimp only
    by_cases hm : mode = modeStartup
    · have hm' : mode = 3 := hm
      subst hm'
      rw [if_neg (by simp [modeStartup])]
      by_cases h1 : t = cRIKeying
      · rw [if_pos h1]
        have h1' : t = 0x78 := h1
        subst h1'
        rw [onRIKeyingChunk_iff e w hw]
        cases call <;> simp [SaysKeying]
      · rw [if_neg h1]
        have h1' : t ≠ 0x78 := h1
        by_cases h2 : t = cCookieChange
        · rw [if_pos h2]
          have h2' : t = 0x79 := h2
          subst h2'
          rw [onCookieChangeChunk_iff w hw]
          cases call <;> simp [SaysKeying]
        · rw [if_neg h2]
          have h2' : t ≠ 0x79 := h2
          cases call <;> simp [SaysKeying, h1', h2']
    · rw [if_pos hm]
      have hm' : mode ≠ 3 := hm
      simp [hm']
  · rw [openChunk]
    dsimp only
    by_cases hm : mode = modeStartup
    · rw [if_pos hm]
      have hm' : mode = 3 := hm
      simp [hm']
    · rw [if_neg hm]
      have hm' : mode ≠ 3 := hm
      by_cases h1 : t = cFIHello
      · rw [if_pos h1]
        have h1' : t = 0x0f := h1
        subst h1'
        rw [onFIHelloChunk_iff w hw]
        cases call <;> simp [SaysOpen, hm']
      · rw [if_neg h1]
        have h1' : t ≠ 0x0f := h1
        cases call <;> simp [SaysOpen, h1']

example : (startupChunk .little demoAddr false ⟨0x30, 0, [2, 7, 8, 1, 2, 3]⟩).2 = some (.ihello [7, 8] [1, 2, 3]) ∧
    (startupChunk .little demoAddr false ⟨0x71, 0, [1, 9]⟩).2 = some (.redirect [9] [{ family := 2, ip := [192, 0, 2, 7], port := 1935, origin := 2 }]) ∧
    (startupChunk .little demoAddr false ⟨0x70, 0, [5, 9]⟩).2 = none := by decide +kernel

namespace Startup

/-- A way for startup packets: the buffer that they are made in, the margin that the key asks for, the time stamp that they carry. -/
structure Way where
  buf : Bytes
  margin : Nat
  ts : Nat

/-- the buffer is that of the instance (`ENCRYPT_BUF_LENGTH` bytes at least), no key asks for more than 32 bytes, a time stamp has 16 bits -/
structure Way.Ok (w : Way) : Prop where
  buf : 4256 ≤ w.buf.length
  margin : w.margin ≤ 32
  ts : w.ts < 65536

/-- the packet that a chunk becomes, if it was made and there is room -/
def Way.carry (w : Way) (chunk : Option Bytes) : Option Bytes := chunk.bind (packetOf w.buf w.margin modeStartup (some w.ts) none)

/-- how long a field is: a byte for every seven bits of its length, at least one, and itself -/
def fieldSize (bs : Bytes) : Nat := (VLU.encode bs.length).length + bs.length

theorem tsBytes_length (n : Nat) : (PA.tsBytes (some n)).length = 2 := by simp [PA.tsBytes, PA.be16]

theorem Way.carry_wire {w : Way} (hw : w.Ok) (t : UInt8) (payload : Bytes) :
    w.carry (some (wireOf t payload)) =
      if w.margin + 6 + payload.length ≤ 4256 then some (PA.headerFlags modeStartup (some w.ts) none :: (PA.tsBytes (some w.ts) ++ PA.tsBytes none) ++ wireOf t payload)
      else none := by
  have h1 := hw.margin
  have h2 := hw.buf
  rw [Way.carry, Option.bind_some, packetOf_eq _ _ _ _ _ _ (by simp only [maxStartup]; omega) (by simp only [maxStartup]; omega), tsBytes_length]
  have e : (w.margin + 1 + 2 + (PA.tsBytes none).length + (wireOf t payload).length ≤ maxStartup) = (w.margin + 6 + payload.length ≤ 4256) := by
    simp only [PA.tsBytes, List.length_nil, wireOf, List.length_cons, List.length_append, maxStartup]
    apply propext; omega
  simp only [e]

theorem Way.carry_assemble {w : Way} (hw : w.Ok) (stack : Nat → UInt8) (t : UInt8) (l : List Put) :
    w.carry (assemble stack maxStartup t l) =
      if w.margin + 6 + (l.flatMap Put.bytes).length ≤ 4256 then
        some (PA.headerFlags modeStartup (some w.ts) none :: (PA.tsBytes (some w.ts) ++ PA.tsBytes none) ++ wireOf t (l.flatMap Put.bytes))
      else none := by
  rw [assemble_eq _ _ _ _ (by simp [maxStartup]) (by simp [maxStartup])]
  by_cases h : 3 + (l.flatMap Put.bytes).length ≤ maxStartup
  · rw [if_pos h, Way.carry_wire hw]
  · rw [if_neg h, if_neg (by simp only [maxStartup] at h; omega)]
    rfl

theorem Way.parse {w : Way} (hw : w.Ok) (t : UInt8) (payload pad : Bytes) (hl : payload.length < 65536) (hp : isPadding pad) :
    ∃ off, parsePacket (PA.headerFlags modeStartup (some w.ts) none :: (PA.tsBytes (some w.ts) ++ PA.tsBytes none) ++ wireOf t payload ++ pad) =
      some (⟨PA.headerFlags modeStartup (some w.ts) none, some w.ts, none⟩, [⟨t, off, payload⟩]) :=
  parse_one _ _ _ (by intro t ht; injection ht with ht; rw [← ht]; exact hw.ts) (by simp) t payload pad hl hp

theorem modeStartup_flags (ts tse : Option Nat) : PA.headerFlags modeStartup ts tse &&& HEADER_FLAG_MOD_MASK = modeStartup := by
  rw [flags_mode]; decide

/-- a startup packet leads to what its chunk says -/
theorem Way.startup {w : Way} (hw : w.Ok) (e : SessionId.Endian) (src : Sockaddr) (t : UInt8) (payload pad : Bytes) (hl : payload.length < 65536) (hp : isPadding pad) (call : Call)
    (h : ∀ off, (startupChunk e src false ⟨t, off, payload⟩).2 = some call) :
    onStartupPacket e src (PA.headerFlags modeStartup (some w.ts) none :: (PA.tsBytes (some w.ts) ++ PA.tsBytes none) ++ wireOf t payload ++ pad) = some [call] := by
  obtain ⟨off, ho⟩ := Way.parse hw t payload pad hl hp
  rw [onStartupPacket, ho]
  dsimp only
  rw [if_pos (modeStartup_flags _ _)]
  simp [startupChunks, h off]

theorem Way.keying {w : Way} (hw : w.Ok) (e : SessionId.Endian) (t : UInt8) (payload pad : Bytes) (hl : payload.length < 65536) (hp : isPadding pad) (call : Call)
    (h : ∀ off, keyingChunk e modeStartup ⟨t, off, payload⟩ = some call) :
    onKeyingPacket e (PA.headerFlags modeStartup (some w.ts) none :: (PA.tsBytes (some w.ts) ++ PA.tsBytes none) ++ wireOf t payload ++ pad) = [call] := by
  obtain ⟨off, ho⟩ := Way.parse hw t payload pad hl hp
  rw [onKeyingPacket, ho]
  dsimp only
  rw [modeStartup_flags]
  simp [h off]

/-- an assembled startup chunk arrives, if there is room for it -/
theorem Way.arrives {w : Way} (hw : w.Ok) (e : SessionId.Endian) (src : Sockaddr) (hs : src.family = 2 ∨ src.family = 10) (pad : Bytes) (hp : isPadding pad)
    (stack : Nat → UInt8) (t : UInt8) (l : List Put) (n : Nat) (hn : (l.flatMap Put.bytes).length = n) (call : Call)
    (hc : Says e src t (l.flatMap Put.bytes) call) :
    (w.carry (assemble stack maxStartup t l)).map (fun p => onStartupPacket e src (p ++ pad)) =
      if w.margin + 6 + n ≤ 4256 then some (some [call]) else none := by
  rw [Way.carry_assemble hw, hn]
  by_cases h : w.margin + 6 + n ≤ 4256
  · rw [if_pos h, if_pos h, Option.map_some]
    congr 1
    apply Way.startup hw e src t _ pad (by omega) hp
    intro off
    exact (C88_understood e src hs false ⟨t, off, l.flatMap Put.bytes⟩ (by show (l.flatMap Put.bytes).length < 65536; omega) call).1.mpr ⟨hc, fun _ => rfl⟩
  · rw [if_neg h, if_neg h]; rfl

theorem Way.arrivesKeying {w : Way} (hw : w.Ok) (e : SessionId.Endian) (pad : Bytes) (hp : isPadding pad)
    (stack : Nat → UInt8) (t : UInt8) (l : List Put) (n : Nat) (hn : (l.flatMap Put.bytes).length = n) (call : Call)
    (hc : SaysKeying e t (l.flatMap Put.bytes) call) :
    (w.carry (assemble stack maxStartup t l)).map (fun p => onKeyingPacket e (p ++ pad)) =
      if w.margin + 6 + n ≤ 4256 then some [call] else none := by
  rw [Way.carry_assemble hw, hn]
  by_cases h : w.margin + 6 + n ≤ 4256
  · rw [if_pos h, if_pos h, Option.map_some]
    congr 1
    apply Way.keying hw e t _ pad (by omega) hp
    intro off
    exact ((C88_understood e ⟨2, [], 0⟩ (.inl rfl) false ⟨t, off, l.flatMap Put.bytes⟩ (by show (l.flatMap Put.bytes).length < 65536; omega) call).2.1 3).mpr ⟨rfl, hc⟩
  · rw [if_neg h, if_neg h]; rfl

theorem field_of {w : Bytes} : ∀ bs : Bytes, w = VLU.encode bs.length ++ bs → Field w bs := by
  rintro bs rfl
  exact field_vlu bs

end Startup

/-- **C88** A hello that is sent says to the other side whom it is for and its tag; it is not sent only if there is no room for it. -/
theorem C88_hello (w : Way) (hw : w.Ok) (e : SessionId.Endian) (src : Sockaddr) (hs : src.family = 2 ∨ src.family = 10) (pad : Bytes) (hp : isPadding pad)
    (stack : Nat → UInt8) (epd tag : Bytes) :
    (w.carry (ihello stack epd tag)).map (fun p => onStartupPacket e src (p ++ pad)) =
      if w.margin + 6 + (fieldSize epd + tag.length) ≤ 4256 then some (some [.ihello epd tag]) else none := by
  apply Way.arrives hw e src hs pad hp
  · simp [Put.bytes, fieldSize]; omega
  · refine ⟨rfl, _, field_vlu epd, ?_⟩
    simp [Put.bytes]

/-- **C88** So does the answer: the tag, the cookie and the certificate. -/
theorem C88_answer (w : Way) (hw : w.Ok) (e : SessionId.Endian) (src : Sockaddr) (hs : src.family = 2 ∨ src.family = 10) (pad : Bytes) (hp : isPadding pad)
    (stack : Nat → UInt8) (tag cookie cert : Bytes) :
    (w.carry (rhello stack tag cookie cert)).map (fun p => onStartupPacket e src (p ++ pad)) =
      if w.margin + 6 + (fieldSize tag + fieldSize cookie + cert.length) ≤ 4256 then some (some [.rhello tag cookie cert]) else none := by
  apply Way.arrives hw e src hs pad hp
  · simp [Put.bytes, fieldSize]; omega
  · refine ⟨rfl, _, _, field_vlu tag, field_vlu cookie, ?_⟩
    simp [Put.bytes]

/-- **C88** A redirect names the addresses in their order; one without any names the address that it is seen to come from. -/
theorem C88_redirect (w : Way) (hw : w.Ok) (e : SessionId.Endian) (src : Sockaddr) (hs : src.family = 2 ∨ src.family = 10) (pad : Bytes) (hp : isPadding pad)
    (stack : Nat → UInt8) (tag : Bytes) (addrs : List Address) (ha : ∀ a ∈ addrs, Address.Sound a ∧ Address.IsIP a) :
    (w.carry (redirect stack tag addrs)).map (fun p => onStartupPacket e src (p ++ pad)) =
      if w.margin + 6 + (fieldSize tag + (addrs.flatMap Address.encode).length) ≤ 4256 then
        some (some [.redirect tag (if addrs = [] then [{ family := src.family, ip := src.ip, port := src.port, origin := 2 }] else addrs)])
      else none := by
  have hb : (Put.field tag :: addrs.map (fun a => Put.raw (Address.encode a))).flatMap Put.bytes = (VLU.encode tag.length ++ tag) ++ addrs.flatMap Address.encode := by
    rw [List.flatMap_cons, List.flatMap_map]
    rfl
  apply Way.arrives hw e src hs pad hp
  · rw [hb, List.length_append, List.length_append, fieldSize]
  · rw [hb]
    refine ⟨rfl, addrs, ⟨_, _, field_vlu tag, addrs_encode addrs ha, rfl⟩, ?_⟩
    by_cases h : addrs = []
    · exact .inr ⟨h, by rw [if_pos h]⟩
    · exact .inl ⟨h, by rw [if_neg h]⟩

/-- **C88** The keying of the initiator arrives with its session id, the cookie, the certificate and the keying component, and with a signature
of the very bytes that the other side takes to be signed; they determine all of it. -/
theorem C88_keying (w : Way) (hw : w.Ok) (e : SessionId.Endian) (src : Sockaddr) (hs : src.family = 2 ∨ src.family = 10) (pad : Bytes) (hp : isPadding pad)
    (stack : Nat → UInt8) (sign : Bytes → Bytes) (sid : Nat) (hsid : sid < 2 ^ 32) (cookie cert skic : Bytes) :
    ∃ part : Bytes, IIKeying e part sid cookie cert skic part [] ∧
    (w.carry (iikeying stack e sign sid cookie cert skic)).map (fun p => onStartupPacket e src (p ++ pad)) =
      if w.margin + 6 + (4 + fieldSize cookie + fieldSize cert + fieldSize skic + (sign part).length) ≤ 4256 then
        some (some [.iikeying sid cookie cert skic part (sign part)])
      else none := by
  refine ⟨SessionId.store e sid ++ (VLU.encode cookie.length ++ cookie) ++ (VLU.encode cert.length ++ cert) ++ (VLU.encode skic.length ++ skic),
    ⟨_, _, _, _, sid_store e sid hsid, field_vlu cookie, field_vlu cert, field_vlu skic, rfl, by simp⟩, ?_⟩
  apply Way.arrives hw e src hs pad hp
  · simp [Put.bytes, fieldSize, store_length]; omega
  · refine ⟨rfl, _, _, _, _, sid_store e sid hsid, field_vlu cookie, field_vlu cert, field_vlu skic, rfl, ?_⟩
    simp [Put.bytes]

/-- **C88** The keying of the responder arrives with its session id and keying component, and with a signature of the very bytes that the other side takes
to be signed, followed by its own keying component. -/
theorem C88_keyed (w : Way) (hw : w.Ok) (e : SessionId.Endian) (pad : Bytes) (hp : isPadding pad)
    (sign : Bytes → Bytes) (sid : Nat) (hsid : sid < 2 ^ 32) (skrc skic : Bytes) :
    ∃ part : Bytes, RIKeying e part sid skrc part [] ∧
    (w.carry (some (rikeying e sign sid skrc skic))).map (fun p => onKeyingPacket e (p ++ pad)) =
      if w.margin + 6 + (4 + fieldSize skrc + (sign (part ++ skic)).length) ≤ 4256 then some [.rikeying sid skrc part (sign (part ++ skic))] else none := by
  refine ⟨SessionId.store e sid ++ (VLU.encode skrc.length ++ skrc), ⟨_, _, sid_store e sid hsid, field_vlu skrc, rfl, by simp⟩, ?_⟩
  have hpart : VLU.append skrc.length (SessionId.store e sid) ++ skrc = SessionId.store e sid ++ (VLU.encode skrc.length ++ skrc) := by
    simp [VLU.append]
  rw [rikeying]
  simp only [hpart]
  generalize hpl : SessionId.store e sid ++ (VLU.encode skrc.length ++ skrc) ++ sign (SessionId.store e sid ++ (VLU.encode skrc.length ++ skrc) ++ skic) = payload
  have hlen : payload.length = 4 + fieldSize skrc + (sign (SessionId.store e sid ++ (VLU.encode skrc.length ++ skrc) ++ skic)).length := by
    rw [← hpl]; simp only [List.length_append, store_length, fieldSize]
  rw [← hlen]
  have hbe := be16_eq payload.length
  rw [PA.be16] at hbe
  injection hbe with hb1 hb2
  injection hb2 with hb2 _
  by_cases h : w.margin + 6 + payload.length ≤ 4256
  · have e2 : payload.length / 256 % 256 = payload.length / 256 := by omega
    have hwire : cRIKeying :: UInt8.ofNat ((payload.length >>> 8) &&& 0xff) :: UInt8.ofNat (payload.length &&& 0xff) :: payload = wireOf cRIKeying payload := by
      rw [hb1, hb2, wireOf, e2]
    rw [hwire, Way.carry_wire hw, if_pos h, if_pos h, Option.map_some]
    congr 1
    apply Way.keying hw e _ _ pad (by omega) hp
    intro off
    refine ((C88_understood e ⟨2, [], 0⟩ (.inl rfl) false ⟨cRIKeying, off, payload⟩ (by show payload.length < 65536; omega) _).2.1 3).mpr ⟨rfl, rfl, ?_⟩
    exact ⟨_, _, sid_store e sid hsid, field_vlu skrc, rfl, hpl.symm⟩
  · rw [if_neg h]
    have hm := hw.margin
    have hb := hw.buf
    rw [Way.carry, Option.bind_some, packetOf_eq _ _ _ _ _ _ (by simp only [maxStartup]; omega) (by simp only [maxStartup]; omega), if_neg]
    · rfl
    · rw [tsBytes_length]
      simp only [PA.tsBytes, List.length_nil, List.length_cons, maxStartup]
      omega

/-- **C88** A change of cookies names the old and the new one. -/
theorem C88_cookie_change (w : Way) (hw : w.Ok) (e : SessionId.Endian) (pad : Bytes) (hp : isPadding pad) (stack : Nat → UInt8) (old new : Bytes) :
    (w.carry (cookieChange stack old new)).map (fun p => onKeyingPacket e (p ++ pad)) =
      if w.margin + 6 + (fieldSize old + new.length) ≤ 4256 then some [.cookieChange old new] else none := by
  apply Way.arrivesKeying hw e pad hp
  · simp [Put.bytes, fieldSize]; omega
  · refine ⟨rfl, _, field_vlu old, ?_⟩
    simp [Put.bytes]

namespace Startup

/-- an instance with a way for its packets, and some of what it may be asked -/
def demoWay : Way := { buf := List.replicate 8192 0, margin := 2, ts := 77 }

theorem demoWay_ok : demoWay.Ok := by
  refine ⟨?_, ?_, ?_⟩
  · show 4256 ≤ (List.replicate 8192 (0 : UInt8)).length
    rw [List.length_replicate]; omega
  · decide
  · decide

end Startup

example : (demoWay.carry (ihello (fun _ => 5) [7, 8, 9] [1, 2])).map (fun p => onStartupPacket .little demoAddr (p ++ [0xff, 0xff])) = some (some [.ihello [7, 8, 9] [1, 2]]) ∧
    (demoWay.carry (rhello (fun _ => 5) [7, 8, 9] [1, 2] [3])).map (fun p => onStartupPacket .little demoAddr (p ++ [0xff])) = some (some [.rhello [7, 8, 9] [1, 2] [3]]) ∧
    (demoWay.carry (redirect (fun _ => 5) [7] [])).map (fun p => onStartupPacket .little demoAddr (p ++ [])) =
      some (some [.redirect [7] [{ family := 2, ip := [192, 0, 2, 7], port := 1935, origin := 2 }]]) := by
  refine ⟨?_, ?_, ?_⟩
  · rw [C88_hello demoWay demoWay_ok .little demoAddr (.inl rfl) _ ⟨by simp, by decide⟩]; decide +kernel
  · rw [C88_answer demoWay demoWay_ok .little demoAddr (.inl rfl) _ ⟨by simp, by decide⟩]; decide +kernel
  · rw [C88_redirect demoWay demoWay_ok .little demoAddr (.inl rfl) _ ⟨by simp, by decide⟩ _ _ _ (by simp)]; decide +kernel

/-- A hello that is too long is never sent (and nothing tells: see DESIGN.md). -/
example (tag : Bytes) : demoWay.carry (ihello (fun _ => 5) (List.replicate 4250 1) tag) = none := by
  have h := C88_hello demoWay demoWay_ok .little demoAddr (.inl rfl) [] ⟨by simp, by decide⟩ (fun _ => 5) (List.replicate 4250 1) tag
  rw [if_neg] at h
  · exact Option.map_eq_none_iff.mp h
  · have : fieldSize (List.replicate 4250 1) = 4252 := by
      rw [fieldSize, List.length_replicate]; decide +kernel
    rw [this]
    show ¬ 2 + 6 + (4252 + tag.length) ≤ 4256
    omega

example : ∃ part, (demoWay.carry (iikeying (fun _ => 5) .little (fun x => [UInt8.ofNat x.length]) 0x01020304 [9] [8, 8] [7])).map (fun p => onStartupPacket .little demoAddr (p ++ [])) =
    some (some [.iikeying 0x01020304 [9] [8, 8] [7] part [UInt8.ofNat part.length]]) := by
  obtain ⟨part, _, h⟩ := C88_keying demoWay demoWay_ok .little demoAddr (.inl rfl) [] ⟨by simp, by decide⟩ (fun _ => 5) (fun x => [UInt8.ofNat x.length]) 0x01020304 (by decide) [9] [8, 8] [7]
  refine ⟨part, h.trans (if_pos ?_)⟩
  show 2 + 6 + (4 + fieldSize [9] + fieldSize [8, 8] + fieldSize [7] + 1) ≤ 4256
  decide +kernel

example : ∃ part, (demoWay.carry (some (rikeying .big (fun x => [UInt8.ofNat x.length]) 0x01020304 [9] [7]))).map (fun p => onKeyingPacket .big (p ++ [0xff])) =
    some [.rikeying 0x01020304 [9] part [UInt8.ofNat (part ++ [7]).length]] := by
  obtain ⟨part, _, h⟩ := C88_keyed demoWay demoWay_ok .big [0xff] ⟨by simp, by decide⟩ (fun x => [UInt8.ofNat x.length]) 0x01020304 (by decide) [9] [7]
  refine ⟨part, h.trans (if_pos ?_)⟩
  show 2 + 6 + (4 + fieldSize [9] + 1) ≤ 4256
  decide +kernel

example : (demoWay.carry (cookieChange (fun _ => 5) [9] [8, 8])).map (fun p => onKeyingPacket .big (p ++ [0xff])) = some [.cookieChange [9] [8, 8]] := by
  rw [C88_cookie_change demoWay demoWay_ok .big [0xff] ⟨by simp, by decide⟩]; decide +kernel

/-! ## What is done about them -/

namespace Startup

def Call.isHello : Call → Bool
  | .ihello _ _ => true
  | _ => false

theorem startupChunk_hello (e : SessionId.Endian) (src : Sockaddr) (seen : Bool) (c : Chunk) (call : Call) (h : (startupChunk e src seen c).2 = some call) (hc : call.isHello) :
    seen = false ∧ (startupChunk e src seen c).1 = true := by
  rw [startupChunk] at h ⊢
  split at h
  · rename_i h1
    split at h
    · cases h
    · rename_i h2
      rw [if_pos h1, if_neg h2]
      exact ⟨by simpa using h2, rfl⟩
  · split at h
    · simp only [onRHelloChunk] at h
      split at h
      · cases h
      · split at h
        · cases h
        · injection h with h; subst h; simp [Call.isHello] at hc
    · split at h
      · simp only [onRedirectChunk] at h
        split at h
        · cases h
        · split at h
          · cases h
          · injection h with h; subst h; simp [Call.isHello] at hc
      · split at h
        · simp only [onIIKeyingChunk] at h
          split at h
          · cases h
          · split at h
            · cases h
            · split at h
              · cases h
              · split at h
                · cases h
                · injection h with h; subst h; simp [Call.isHello] at hc
        · cases h

theorem startupChunk_seen (e : SessionId.Endian) (src : Sockaddr) (c : Chunk) : (startupChunk e src true c).1 = true := by
  rw [startupChunk]; split <;> [rfl; (split <;> [rfl; (split <;> [rfl; (split <;> rfl)])])]

theorem startupChunks_hello (e : SessionId.Endian) (src : Sockaddr) : ∀ (cs : List Chunk) (seen : Bool),
    ((startupChunks e src seen cs).filter Call.isHello).length ≤ if seen then 0 else 1
  | [], seen => by simp [startupChunks]
  | c :: cs, seen => by
    have ih := startupChunks_hello e src cs (startupChunk e src seen c).1
    rw [startupChunks, List.filter_append, List.length_append]
    cases hc : (startupChunk e src seen c).2 with
    | none =>
      simp only [Option.toList_none, List.filter_nil, List.length_nil]
      cases seen
      · have : ∀ b : Bool, (if b = true then 0 else 1) ≤ 1 := by decide
        have := this (startupChunk e src false c).1
        simp only [Bool.false_eq_true, if_false]
        omega
      · rw [startupChunk_seen] at ih ⊢
        simpa using ih
    | some call =>
      by_cases hh : call.isHello = true
      · obtain ⟨h1, h2⟩ := startupChunk_hello e src seen c call hc hh
        rw [h2] at ih ⊢
        subst h1
        simp only [if_true] at ih
        simp [hh]
        simpa using ih
      · have hh' : call.isHello = false := by simpa using hh
        simp only [Option.toList_some, List.filter_cons, hh', Bool.false_eq_true, if_false, List.filter_nil, List.length_nil]
        cases seen
        · have : ∀ b : Bool, (if b = true then 0 else 1) ≤ 1 := by decide
          have := this (startupChunk e src false c).1
          simp only [Bool.false_eq_true, if_false]
          omega
        · rw [startupChunk_seen] at ih ⊢
          simpa using ih

theorem mem_sendPacket {h : Host} {chunks : Bytes} {sid : Nat} {ifc : Option Nat} {dest : Sockaddr} {i : Item} :
    i ∈ sendPacket h chunks sid ifc dest ↔ i.chunks = chunks ∧ i.sessionID = sid ∧ i.dest = dest ∧ i.interface ∈ h.interfaces ∧ (∀ j, ifc = some j → i.interface = j) := by
  obtain ⟨c, s, f, d⟩ := i
  cases ifc with
  | none => simp [sendPacket]; grind
  | some j =>
    simp only [sendPacket]
    split <;> simp <;> grind

theorem mem_sendIf {h : Host} {chunks : Option Bytes} {sid : Nat} {ifc : Option Nat} {dest : Sockaddr} {i : Item} :
    i ∈ sendIf h chunks sid ifc dest ↔ chunks = some i.chunks ∧ i.sessionID = sid ∧ i.dest = dest ∧ i.interface ∈ h.interfaces ∧ (∀ j, ifc = some j → i.interface = j) := by
  cases chunks with
  | none => simp [sendIf]
  | some c =>
    rw [sendIf, mem_sendPacket]
    constructor
    · rintro ⟨h1, h2⟩; exact ⟨by rw [h1], h2⟩
    · rintro ⟨h1, h2⟩; injection h1 with h1; exact ⟨h1.symm, h2⟩

end Startup

/-- **C88** No packet leads to more than one hello, whatever its bytes are: who sends one packet to an instance gets one answer to a hello at most. -/
theorem C88_once (e : SessionId.Endian) (src : Sockaddr) (packet : Bytes) (calls : List Call) (h : onStartupPacket e src packet = some calls) :
    (calls.filter Call.isHello).length ≤ 1 := by
  rw [onStartupPacket] at h
  split at h
  · cases h
  · split at h
    · injection h with h
      subst h
      simpa using startupChunks_hello e src _ false
    · cases h

example : onStartupPacket .little demoAddr ([3] ++ [0x30, 0, 3, 1, 7, 1] ++ [0x30, 0, 3, 1, 7, 2] ++ [0x70, 0, 3, 1, 7, 0]) = some [.ihello [7] [1], .rhello [7] [] []] := by
  decide +kernel

/-- **C88** What is sent because of a startup message goes where the message came from, by the interface that it came by, as an answer to a hello or
to a keying (that one to the session that is named in it); what is sent because of a hello that another instance forwarded goes to the address that it names, unless the
user wants them to be ignored. Nothing is sent because of anything else. -/
theorem C88_whom (h : Host) (mode : Mode) (ifc : Option Nat) (src : Sockaddr) (call : Call) (i : Item) (hi : Out.queue i ∈ handle h mode ifc src call) :
    i.interface ∈ h.interfaces ∧
    match call with
    | .ihello epd _ => h.selected epd = true ∧ i.dest = src ∧ i.sessionID = 0 ∧ (∀ j, ifc = some j → i.interface = j)
    | .iikeying isid _ _ _ _ _ => h.isShutdown = false ∧ i.dest = src ∧ i.sessionID = isid ∧ (∀ j, ifc = some j → i.interface = j)
    | .fihello epd reply _ => h.selected epd = true ∧ mode ≠ .ignore ∧ i.dest = { family := reply.family, ip := reply.ip, port := reply.port } ∧ i.sessionID = 0
    | _ => False := by
  have hello : ∀ epd tag f s m, Out.queue i ∈ onIHello h epd tag f s m →
      m ≠ .ignore ∧ h.selected epd = true ∧ i.dest = s ∧ i.sessionID = 0 ∧ i.interface ∈ h.interfaces ∧ (∀ j, f = some j → i.interface = j) := by
    intro epd tag f s m hm
    simp only [onIHello] at hm
    split at hm
    · simp at hm
    · rename_i h1
      split at hm
      · split at hm <;> simp at hm
      · rename_i h2
        have h2 : h.selected epd = true := by simpa using h2
        split at hm
        · rw [List.mem_map] at hm
          obtain ⟨x, hx, h3⟩ := hm
          injection h3 with h3
          subst h3
          obtain ⟨_, a, b, c, d⟩ := mem_sendIf.mp hx
          exact ⟨h1, h2, b, a, c, d⟩
        · rw [List.mem_map] at hm
          obtain ⟨x, hx, h3⟩ := hm
          injection h3 with h3
          subst h3
          obtain ⟨_, a, b, c, d⟩ := mem_sendIf.mp hx
          exact ⟨h1, h2, b, a, c, d⟩
  cases call with
  | ihello epd tag =>
    obtain ⟨_, a, b, c, d, e⟩ := hello _ _ _ _ _ hi
    exact ⟨d, a, b, c, e⟩
  | fihello epd reply tag =>
    obtain ⟨m, a, b, c, d, _⟩ := hello _ _ _ _ _ hi
    exact ⟨d, a, m, b, c⟩
  | rhello tag cookie cert =>
    simp only [handle, onRHello] at hi
    split at hi
    · split at hi <;> simp at hi
    · simp at hi
  | redirect tag dests =>
    simp only [handle, onRedirect] at hi
    split at hi <;> simp at hi
  | rikeying _ _ _ _ => simp [handle] at hi
  | cookieChange _ _ => simp [handle] at hi
  | iikeying isid cookie cert skic signedPart sig =>
    simp only [handle, onIIKeying] at hi
    split at hi
    · simp at hi
    · rename_i h1
      split at hi
      · simp at hi
      · rw [List.mem_map] at hi
        obtain ⟨x, hx, h3⟩ := hi
        injection h3 with h3
        subst h3
        obtain ⟨_, a, b, c, d⟩ := mem_sendIf.mp hx
        exact ⟨c, by simpa using h1, b, a, d⟩
      · split at hi <;> simp at hi

namespace Startup

/-- a packet of an open session: its buffer, its margin, its role with the flags, its time stamps -/
structure OpenWay where
  buf : Bytes
  margin : Nat
  mode : UInt8
  ts : Nat
  tse : Option Nat

/-- the role is not that of startup packets -/
structure OpenWay.Ok (w : OpenWay) : Prop where
  buf : 4256 ≤ w.buf.length
  margin : w.margin ≤ 32
  mode : w.mode &&& 3 ≠ 3
  ts : w.ts < 65536
  tse : ∀ t, w.tse = some t → t < 65536

def OpenWay.carry (w : OpenWay) (chunk : Bytes) : Option Bytes := packetOf w.buf w.margin w.mode (some w.ts) w.tse chunk

theorem fihello_eq (stack : Nat → UInt8) (epd : Bytes) (reply : Address) (tag : Bytes) :
    fihello stack epd reply tag = if 3 + (fieldSize epd + (Address.encode reply).length + tag.length) ≤ 1200 then
      some (wireOf cFIHello ((VLU.encode epd.length ++ epd) ++ Address.encode reply ++ tag)) else none := by
  rw [fihello, assemble_eq _ _ _ _ (by simp [maxSession]) (by simp [maxSession])]
  have hb : [Put.field epd, .raw (Address.encode reply), .raw tag].flatMap Put.bytes = (VLU.encode epd.length ++ epd) ++ Address.encode reply ++ tag := by
    simp [Put.bytes]
  rw [hb]
  have hl : ((VLU.encode epd.length ++ epd) ++ Address.encode reply ++ tag).length = fieldSize epd + (Address.encode reply).length + tag.length := by
    simp only [List.length_append, fieldSize]
  rw [hl]
  rfl

theorem fi_arrives {w : OpenWay} (hw : w.Ok) (pad : Bytes) (hp : isPadding pad) (epd : Bytes) (reply : Address) (hs : Address.Sound reply) (hi : Address.IsIP reply) (tag : Bytes)
    (hl : 3 + (fieldSize epd + (Address.encode reply).length + tag.length) ≤ 1200) :
    ∃ p, w.carry (wireOf cFIHello ((VLU.encode epd.length ++ epd) ++ Address.encode reply ++ tag)) = some p ∧ onOpenPacket (p ++ pad) = [.fihello epd reply tag] := by
  have h1 := hw.margin
  have h2 := hw.buf
  have h3 : (PA.tsBytes w.tse).length ≤ 2 := by cases w.tse <;> simp [PA.tsBytes, PA.be16]
  have h4 : ((VLU.encode epd.length ++ epd) ++ Address.encode reply ++ tag).length = fieldSize epd + (Address.encode reply).length + tag.length := by
    simp only [List.length_append, fieldSize]
  refine ⟨_, by
    rw [OpenWay.carry, packetOf_eq _ _ _ _ _ _ (by simp only [maxStartup]; omega) (by simp only [maxStartup]; omega), tsBytes_length, if_pos]
    simp only [wireOf, List.length_cons, maxStartup, List.length_append] at h4 ⊢
    omega, ?_⟩
  obtain ⟨off, ho⟩ := parse_one w.mode (some w.ts) w.tse (by intro t ht; injection ht with ht; rw [← ht]; exact hw.ts) hw.tse cFIHello
    ((VLU.encode epd.length ++ epd) ++ Address.encode reply ++ tag) pad (by omega) hp
  rw [onOpenPacket, ho]
  dsimp only
  rw [flags_mode]
  have hc := ((C88_understood .little ⟨2, [], 0⟩ (.inl rfl) false ⟨cFIHello, off, (VLU.encode epd.length ++ epd) ++ Address.encode reply ++ tag⟩
    (by show ((VLU.encode epd.length ++ epd) ++ Address.encode reply ++ tag).length < 65536; omega) (.fihello epd reply tag)).2.2 (w.mode &&& HEADER_FLAG_MOD_MASK)).mpr
    ⟨hw.mode, rfl, _, _, field_vlu epd, addr_encode hs hi, rfl⟩
  rw [List.filterMap_cons, hc]
  rfl

end Startup

/-- **C88** Forwarding a hello on a flow answers "yes" if the session of the flow is open and the hello, with the address to answer to, is at most 1200 bytes
as a chunk; then (its interface being there) a packet for the other side of the session is queued, it fits, and the other side is given the hello, the address and
the tag that were to be forwarded. If it answers "no", nothing is queued. -/
theorem C88_forwarded (B : Host) (peer : Option (Nat × Nat × Sockaddr)) (epd : Bytes) (reply : Address) (hs : Address.Sound reply) (hi : Address.IsIP reply) (tag : Bytes) :
    ((forwardIHello B peer epd reply tag).2 = true ↔ peer.isSome ∧ 3 + (fieldSize epd + (Address.encode reply).length + tag.length) ≤ 1200) ∧
    ((forwardIHello B peer epd reply tag).2 = false → (forwardIHello B peer epd reply tag).1 = []) ∧
    (∀ sid ifc dest, peer = some (sid, ifc, dest) → ifc ∈ B.interfaces → (forwardIHello B peer epd reply tag).2 = true →
      ∃ i, (forwardIHello B peer epd reply tag).1 = [i] ∧ i.sessionID = sid ∧ i.interface = ifc ∧ i.dest = dest ∧
        ∀ (w : OpenWay), w.Ok → ∀ pad, isPadding pad → ∃ p, w.carry i.chunks = some p ∧ onOpenPacket (p ++ pad) = [.fihello epd reply tag]) := by
  cases peer with
  | none => simp [forwardIHello]
  | some pr =>
    obtain ⟨sid, ifc, dest⟩ := pr
    simp only [forwardIHello, fihello_eq]
    by_cases hl : 3 + (fieldSize epd + (Address.encode reply).length + tag.length) ≤ 1200
    · simp only [if_pos hl]
      refine ⟨by simp [hl], by simp, ?_⟩
      intro sid' ifc' dest' hp hm _
      injection hp with hp
      injection hp with h1 h2
      injection h2 with h2 h3
      subst h1 h2 h3
      refine ⟨_, by rw [sendPacket, if_pos hm], rfl, rfl, rfl, ?_⟩
      intro w hw pad hp
      exact fi_arrives hw pad hp epd reply hs hi tag hl
    · simp only [if_neg hl]
      simp [hl]

namespace Startup

def demoHost : Host :=
  { selected := fun epd => epd = [7], certFor := fun _ => [1, 1, 1], decodes := fun c => c ≠ [], hash := demoHash, secret := [4, 4], age := 1000, interfaces := [1, 2], isShutdown := false,
    opening := [⟨5, false, [1, 2]⟩, ⟨6, true, [1, 2]⟩], onUnmatchedIHello := true, onUnmatchedRHello := false, stack := fun _ => 9 }

def demoReply : Address := Address.ofSockaddr (some demoAddr) 2

end Startup

example : Address.Sound demoReply ∧ Address.IsIP demoReply ∧ (forwardIHello demoHost (some (99, 2, demoAddr)) [7] demoReply [1, 2]).2 = true ∧
    (forwardIHello demoHost (some (99, 2, demoAddr)) (List.replicate 1190 1) demoReply [1, 2]).2 = false := by
  have hs : Address.Sound demoReply := by
    have : demoReply = { family := 2, ip := [192, 0, 2, 7], port := 1935, origin := 2 } := by decide +kernel
    rw [this]
    exact ⟨.inl ⟨rfl, rfl⟩, by decide, by decide⟩
  have hi : Address.IsIP demoReply := .inl (by decide +kernel)
  refine ⟨hs, hi, ?_, ?_⟩
  · exact (C88_forwarded _ _ _ _ hs hi _).1.mpr ⟨rfl, by decide +kernel⟩
  · rw [Bool.eq_false_iff]
    intro h
    have := ((C88_forwarded _ _ _ _ hs hi _).1.mp h).2
    revert this
    decide +kernel

/-- **C88** The user of an instance that a hello is not for is asked about it: whom it is for, its tag, and where it came from. -/
theorem C88_asked (A B : Host) (w : Way) (hw : w.Ok) (e : SessionId.Endian) (pad : Bytes) (hp : isPadding pad) (epd tag : Bytes) (src : Sockaddr) (hsrc : src.family = 2 ∨ src.family = 10)
    (hfit : w.margin + 6 + (fieldSize epd + tag.length) ≤ 4256) (hb : B.selected epd = false) (hu : B.onUnmatchedIHello = true)
    (ifc : Option Nat) (dest : Sockaddr) (i : Item) (hi : i ∈ sendIHello A epd tag ifc dest) (mode : Mode) (ifcB : Option Nat) :
    i.dest = dest ∧ ∃ p calls, w.carry (some i.chunks) = some p ∧ onStartupPacket e src (p ++ pad) = some calls ∧
      calls.flatMap (handle B mode ifcB src) = [.unmatchedIHello epd tag ifcB src] := by
  obtain ⟨h1, _, h2, _⟩ := mem_sendIf.mp hi
  refine ⟨h2, ?_⟩
  have h := C88_hello w hw e src hsrc pad hp A.stack epd tag
  rw [h1, if_pos hfit] at h
  obtain ⟨p, h3, h4⟩ := Option.map_eq_some_iff.mp h
  exact ⟨p, _, h3, h4, by simp [handle, onIHello, hb, hu]⟩

namespace Startup

/-- a session waits for an answer to its hello, and it is the only one with its tag (which is of 16 random bytes) -/
structure Asks (A : Host) (tag : Bytes) (o : Opening) : Prop where
  mem : o ∈ A.opening
  waits : o.waits = true
  same : o.tag = tag
  only : ∀ o' ∈ A.opening, o'.waits = true → o'.tag = tag → o' = o

theorem Asks.find {A : Host} {tag : Bytes} {o : Opening} (h : Asks A tag o) : findByTag A tag = some o := by
  rw [findByTag]
  cases hf : A.opening.find? (fun o => o.waits && decide (o.tag = tag)) with
  | none =>
    rw [List.find?_eq_none] at hf
    exact absurd (by simp [h.waits, h.same]) (hf o h.mem)
  | some o' =>
    have h1 := List.find?_some hf
    simp only [Bool.and_eq_true, decide_eq_true_eq] at h1
    rw [h.only o' (List.mem_of_find?_eq_some hf) h1.1 h1.2]

theorem demoHost_find : Asks demoHost [1, 2] ⟨6, true, [1, 2]⟩ := by
  refine ⟨by simp [demoHost], rfl, rfl, ?_⟩
  simp [demoHost]

end Startup

example : ∃ p calls, demoWay.carry (ihello (fun _ => 9) [8] [1, 2]) = some p ∧ onStartupPacket .big demoAddr (p ++ []) = some calls ∧
    calls.flatMap (handle demoHost .ignore (some 1) demoAddr) = [.unmatchedIHello [8] [1, 2] (some 1) demoAddr] := by
  have h : ∃ i ∈ sendIHello demoHost [8] [1, 2] none demoAddr, some i.chunks = ihello (fun _ => 9) [8] [1, 2] := by
    refine ⟨⟨wireOf 0x30 [1, 8, 1, 2], 0, 1, demoAddr⟩, ?_, ?_⟩
    · rw [sendIHello, mem_sendIf]
      exact ⟨by rw [ihello, assemble_eq _ _ _ _ (by decide) (by decide)]; decide +kernel, rfl, rfl, by simp [demoHost], by simp⟩
    · rw [ihello, assemble_eq _ _ _ _ (by decide) (by decide)]; decide +kernel
  obtain ⟨i, h1, h2⟩ := h
  have := (C88_asked demoHost demoHost demoWay demoWay_ok .big [] ⟨by simp, by decide⟩ [8] [1, 2] demoAddr (.inl rfl) (by decide +kernel) (by decide) rfl none demoAddr i h1 .ignore (some 1)).2
  rwa [h2] at this

/-- **C88** An instance that a hello is for answers it so that the session that asked is told: with a cookie for the address that the answer goes to, and its
certificate, or (if the hello was forwarded to it and the user wants it so) with a redirect that makes its own address, as the other side sees it, a candidate. -/
theorem C88_answered (A C : Host) (w : Way) (hw : w.Ok) (e : SessionId.Endian) (pad : Bytes) (hp : isPadding pad) (epd tag : Bytes) (o : Opening) (ho : Asks A tag o)
    (to_ srcC : Sockaddr) (hC : srcC.family = 2 ∨ srcC.family = 10) (ifcC ifcA : Option Nat) (modeA : Mode) (i : Item) :
    (Out.queue i ∈ onIHello C epd tag ifcC to_ .sendRHello → ∀ p, w.carry (some i.chunks) = some p →
      i.dest = to_ ∧ ∃ calls, onStartupPacket e srcC (p ++ pad) = some calls ∧
        calls.flatMap (handle A modeA ifcA srcC) = [.answered o.name (Cookie.make C.hash C.secret C.age (some to_)) (C.certFor epd) ifcA srcC]) ∧
    (Out.queue i ∈ onIHello C epd tag ifcC to_ .sendRedirect → ∀ p, w.carry (some i.chunks) = some p →
      i.dest = to_ ∧ ∃ calls, onStartupPacket e srcC (p ++ pad) = some calls ∧
        calls.flatMap (handle A modeA ifcA srcC) = [.candidates o.name [{ family := srcC.family, ip := srcC.ip, port := srcC.port, origin := 2 }]]) ∧
    onIHello C epd tag ifcC to_ .ignore = [] := by
  refine ⟨?_, ?_, by simp [onIHello]⟩
  · intro hm p hc
    simp only [onIHello] at hm
    rw [if_neg (by simp)] at hm
    split at hm
    · split at hm <;> simp at hm
    · rw [List.mem_map] at hm
      obtain ⟨x, hx, h3⟩ := hm
      injection h3 with h3
      subst h3
      obtain ⟨h1, _, h2, _⟩ := mem_sendIf.mp hx
      refine ⟨h2, ?_⟩
      have h := C88_answer w hw e srcC hC pad hp C.stack tag (Cookie.make C.hash C.secret C.age (some to_)) (C.certFor epd)
      rw [h1, hc, Option.map_some] at h
      split at h
      · injection h with h
        exact ⟨_, h, by simp [handle, onRHello, ho.find]⟩
      · cases h
  · intro hm p hc
    simp only [onIHello] at hm
    rw [if_neg (by simp)] at hm
    split at hm
    · split at hm <;> simp at hm
    · rw [List.mem_map] at hm
      obtain ⟨x, hx, h3⟩ := hm
      injection h3 with h3
      subst h3
      obtain ⟨h1, _, h2, _⟩ := mem_sendIf.mp hx
      refine ⟨h2, ?_⟩
      have h := C88_redirect w hw e srcC hC pad hp C.stack tag [] (by simp)
      rw [h1, hc, Option.map_some] at h
      split at h
      · injection h with h
        exact ⟨_, h, by simp [handle, onRedirect, ho.find]⟩
      · cases h

namespace Startup

/-- the answers go out: on every interface if the hello was forwarded, if there is room -/
theorem answers_sent (C : Host) (epd tag : Bytes) (hsel : C.selected epd = true) (to_ : Sockaddr) (ifcC : Option Nat) (f : Nat) (hf : f ∈ C.interfaces) (hif : ∀ j, ifcC = some j → f = j) (w : Way) (hw : w.Ok)
    (hfit : w.margin + 6 + (fieldSize tag + fieldSize (Cookie.make C.hash C.secret C.age (some to_)) + (C.certFor epd).length) ≤ 4256) (mode : Mode) (hm : mode ≠ .ignore) :
    ∃ i p, Out.queue i ∈ onIHello C epd tag ifcC to_ mode ∧ i.interface = f ∧ w.carry (some i.chunks) = some p := by
  have hsome : ∀ t l, w.margin + 6 + (l.flatMap Put.bytes).length ≤ 4256 → ∃ c p, assemble C.stack maxStartup t l = some c ∧ w.carry (some c) = some p := by
    intro t l h
    have h1 := assemble_eq C.stack maxStartup t l (by simp [maxStartup]) (by simp [maxStartup])
    rw [if_pos (by simp only [maxStartup]; omega)] at h1
    have h2 := Way.carry_assemble hw C.stack t l
    rw [if_pos h, h1] at h2
    exact ⟨_, _, h1, h2⟩
  cases mode with
  | ignore => exact absurd rfl hm
  | sendRedirect =>
    obtain ⟨c, p, h1, h2⟩ := hsome cRedirect [.field tag] (by simp [Put.bytes]; simp only [fieldSize] at hfit; omega)
    refine ⟨⟨c, 0, f, to_⟩, p, ?_, rfl, h2⟩
    simp only [onIHello]
    rw [if_neg (by simp), if_neg (by simp [hsel]), List.mem_map]
    exact ⟨_, mem_sendIf.mpr ⟨by rw [redirect]; exact h1, rfl, rfl, hf, hif⟩, rfl⟩
  | sendRHello =>
    obtain ⟨c, p, h1, h2⟩ := hsome cRHello [.field tag, .field (Cookie.make C.hash C.secret C.age (some to_)), .raw (C.certFor epd)]
      (by simp [Put.bytes]; simp only [fieldSize] at hfit; omega)
    refine ⟨⟨c, 0, f, to_⟩, p, ?_, rfl, h2⟩
    simp only [onIHello]
    rw [if_neg (by simp), if_neg (by simp [hsel]), List.mem_map]
    exact ⟨_, mem_sendIf.mpr ⟨by rw [rhello]; exact h1, rfl, rfl, hf, hif⟩, rfl⟩

end Startup

example : ∃ i p, Out.queue i ∈ onIHello demoHost [7] [1, 2] (some 2) demoAddr .sendRedirect ∧ demoWay.carry (some i.chunks) = some p ∧ Asks demoHost [1, 2] ⟨6, true, [1, 2]⟩ := by
  have h1 : redirect demoHost.stack [1, 2] [] = some (wireOf 0x71 [2, 1, 2]) := by
    rw [redirect, assemble_eq _ _ _ _ (by decide) (by decide)]; decide +kernel
  refine ⟨⟨wireOf 0x71 [2, 1, 2], 0, 2, demoAddr⟩, _, ?_, Way.carry_wire demoWay_ok _ _, demoHost_find⟩
  simp only [onIHello]
  rw [if_neg (by simp), if_neg (by simp [demoHost]), List.mem_map]
  exact ⟨_, mem_sendIf.mpr ⟨h1, rfl, rfl, by simp [demoHost], by simp⟩, rfl⟩

/-- **C88** Introductions, from end to end: `A` sends a hello to `B`, whose user is asked and forwards it, with the address that it was seen to come from, on a flow of an
open session with `C`. If the messages fit, then `C`, being whom `A` looks for, sends an answer to `A`'s address by each of its interfaces, and each that gets to `A` is given to
the session that asked: with a cookie for that address and the certificate, or with `C`'s address as `A` sees it. -/
theorem C88_introduced (A B C : Host) (wa wc : Way) (hwa : wa.Ok) (hwc : wc.Ok) (wb : OpenWay) (hwb : wb.Ok) (e : SessionId.Endian) (pad : Bytes) (hp : isPadding pad)
    (epd tag : Bytes) (o : Opening) (ho : Asks A tag o) (srcA srcC : Sockaddr) (hA : Cookie.IsAddr srcA) (hC : srcC.family = 2 ∨ srcC.family = 10) (origin : Nat) (horigin : origin < 4)
    (hB : B.selected epd = false) (hu : B.onUnmatchedIHello = true) (hsel : C.selected epd = true)
    (hfit1 : wa.margin + 6 + (fieldSize epd + tag.length) ≤ 4256) (hfit2 : fieldSize epd + tag.length ≤ 1178)
    (hfit3 : wc.margin + 6 + (fieldSize tag + fieldSize (Cookie.make C.hash C.secret C.age (some srcA)) + (C.certFor epd).length) ≤ 4256)
    (destB : Sockaddr) (ifcA ifcA' ifcB : Option Nat) (m m' : Mode) (sid ifc : Nat) (destC : Sockaddr) (hifc : ifc ∈ B.interfaces) (mode : Mode) (hmode : mode ≠ .ignore) (ifcC : Option Nat) (srcB : Sockaddr)
    (i1 : Item) (hi1 : i1 ∈ sendIHello A epd tag ifcA destB) :
    ∃ p1 c1, wa.carry (some i1.chunks) = some p1 ∧ onStartupPacket e srcA (p1 ++ pad) = some c1 ∧ c1.flatMap (handle B m ifcB srcA) = [.unmatchedIHello epd tag ifcB srcA] ∧
    ∃ i2, forwardIHello B (some (sid, ifc, destC)) epd (Address.ofSockaddr (some srcA) origin) tag = ([i2], true) ∧ i2.sessionID = sid ∧ i2.dest = destC ∧
    ∃ p2, wb.carry i2.chunks = some p2 ∧ ∀ f ∈ C.interfaces,
      ∃ i3 p3 c3, Out.queue i3 ∈ (onOpenPacket (p2 ++ pad)).flatMap (handle C mode ifcC srcB) ∧ i3.interface = f ∧ i3.dest = srcA ∧ wc.carry (some i3.chunks) = some p3 ∧
        onStartupPacket e srcC (p3 ++ pad) = some c3 ∧
        c3.flatMap (handle A m' ifcA' srcC) =
          if mode = .sendRHello then [.answered o.name (Cookie.make C.hash C.secret C.age (some srcA)) (C.certFor epd) ifcA' srcC]
          else [.candidates o.name [{ family := srcC.family, ip := srcC.ip, port := srcC.port, origin := 2 }]] := by
  have hofs : Address.ofSockaddr (some srcA) origin = { family := srcA.family, ip := srcA.ip, port := srcA.port, origin := origin } := by
    simp only [ofSockaddr, setSockaddr, AF_INET, AF_INET6]
    rw [if_pos hA.2]
  have hsound : Address.Sound (Address.ofSockaddr (some srcA) origin) := by
    rw [hofs]
    obtain ⟨⟨hA1, hA2, hA3⟩, hA4⟩ := hA
    refine ⟨?_, hA1, horigin⟩
    rcases hA4 with h | h
    · exact .inl ⟨h, hA2 h⟩
    · exact .inr (.inl ⟨h, hA3 h⟩)
  have hip : Address.IsIP (Address.ofSockaddr (some srcA) origin) := by rw [hofs]; exact hA.2
  have hlen : (Address.encode (Address.ofSockaddr (some srcA) origin)).length ≤ 19 := by
    rw [Address.encode_eq hsound hip, hofs]
    obtain ⟨⟨_, hA2, hA3⟩, hA4⟩ := hA
    simp only [List.length_cons, List.length_append, List.length_nil]
    rcases hA4 with h | h
    · rw [hA2 h]; omega
    · rw [hA3 h]
  obtain ⟨_, p1, c1, h1, h2, h3⟩ := C88_asked A B wa hwa e pad hp epd tag srcA hA.2 hfit1 hB hu ifcA destB i1 hi1 m ifcB
  refine ⟨p1, c1, h1, h2, h3, ?_⟩
  obtain ⟨f1, f2, f3⟩ := C88_forwarded B (some (sid, ifc, destC)) epd (Address.ofSockaddr (some srcA) origin) hsound hip tag
  have hyes := f1.mpr ⟨rfl, by omega⟩
  obtain ⟨i2, g1, g2, g3, g4, g5⟩ := f3 sid ifc destC rfl hifc hyes
  refine ⟨i2, Prod.ext g1 hyes, g2, g4, ?_⟩
  obtain ⟨p2, g6, g7⟩ := g5 wb hwb pad hp
  refine ⟨p2, g6, ?_⟩
  intro f hf
  obtain ⟨i3, p3, k1, k2, k3⟩ := answers_sent C epd tag hsel srcA none f hf (by simp) wc hwc hfit3 mode hmode
  have hso : sockaddrOf (Address.ofSockaddr (some srcA) origin) = srcA := by rw [hofs]; rfl
  have hq : Out.queue i3 ∈ (onOpenPacket (p2 ++ pad)).flatMap (handle C mode ifcC srcB) := by
    rw [g7]
    simp only [List.flatMap_cons, List.flatMap_nil, List.append_nil, handle]
    rw [hso]; exact k1
  obtain ⟨a1, a2, _⟩ := C88_answered A C wc hwc e pad hp epd tag o ho srcA srcC hC none ifcA' m' i3
  cases mode with
  | ignore => exact absurd rfl hmode
  | sendRHello =>
    obtain ⟨b1, c3, b2, b3⟩ := a1 k1 p3 k3
    exact ⟨i3, p3, c3, hq, k2, b1, k3, b2, by rw [b3]; rfl⟩
  | sendRedirect =>
    obtain ⟨b1, c3, b2, b3⟩ := a2 k1 p3 k3
    exact ⟨i3, p3, c3, hq, k2, b1, k3, b2, by rw [b3]; rfl⟩

namespace Startup

theorem demo_sent : ∃ i ∈ sendIHello demoHost [7] [1, 2] (some 2) demoAddr, i.interface = 2 := by
  refine ⟨⟨wireOf 0x30 [1, 7, 1, 2], 0, 2, demoAddr⟩, ?_, rfl⟩
  rw [sendIHello, mem_sendIf]
  exact ⟨by rw [ihello, assemble_eq _ _ _ _ (by decide) (by decide)]; decide +kernel, rfl, rfl, by simp [demoHost], by simp⟩

def demoOpenWay : OpenWay := { buf := List.replicate 8192 0, margin := 16, mode := 1, ts := 77, tse := some 3 }

theorem demoOpenWay_ok : demoOpenWay.Ok := by
  refine ⟨?_, ?_, ?_, ?_, ?_⟩
  · show 4256 ≤ (List.replicate 8192 (0 : UInt8)).length
    rw [List.length_replicate]; omega
  · decide
  · decide
  · decide
  · intro t ht
    injection ht with ht
    subst ht; decide

end Startup

example : ∃ i1 ∈ sendIHello demoHost [7] [1, 2] (some 2) demoAddr, ∃ p1 c1, demoWay.carry (some i1.chunks) = some p1 ∧ onStartupPacket .little demoAddr (p1 ++ []) = some c1 ∧
    c1.flatMap (handle { demoHost with selected := fun _ => false } .ignore none demoAddr) = [.unmatchedIHello [7] [1, 2] none demoAddr] := by
  obtain ⟨i1, h1, _⟩ := demo_sent
  have h := C88_introduced demoHost { demoHost with selected := fun _ => false } demoHost demoWay demoWay demoWay_ok demoWay_ok demoOpenWay demoOpenWay_ok .little [] ⟨by simp, by decide⟩
    [7] [1, 2] _ demoHost_find demoAddr demoAddr ⟨⟨by decide, fun _ => rfl, fun h => by simp [demoAddr] at h⟩, .inl rfl⟩ (.inl rfl) 2 (by decide) rfl rfl (by decide) (by decide +kernel) (by decide +kernel)
    (by
      have h64 : (Cookie.make demoHost.hash demoHost.secret demoHost.age (some demoAddr)).length ≤ 80 := by
        rw [Cookie.make_eq]
        simp only [List.length_append]
        have e1 : ∀ x, (demoHost.hash x).length = 32 := fun _ => rfl
        rw [e1, e1]
        have e2 : Cookie.seconds demoHost.age = 1000 := by
          show Cookie.seconds (1000 : Rat) = 1000
          rw [Cookie.seconds]; norm_num; rfl
        rw [e2]
        have e3 : (VLU.encode 1000).length ≤ 16 := by decide +kernel
        omega
      have e4 : ∀ n, n ≤ 80 → (VLU.encode n).length ≤ 1 := by decide +kernel
      have e5 := e4 _ h64
      have e6 : fieldSize [1, 2] = 3 := by decide +kernel
      rw [e6, fieldSize]
      show 2 + 6 + (3 + (_ + _) + 3) ≤ 4256
      omega)
    demoAddr (some 2) none none .ignore .ignore 99 1 demoAddr (by simp [demoHost]) .sendRHello (by simp) none demoAddr i1 h1
  obtain ⟨p1, c1, h2, h3, h4, _⟩ := h
  exact ⟨i1, h1, p1, c1, h2, h3, h4⟩

/-- **C88** The cookie of an answer is good for a keying (with a certificate that can be decoded) from the address that it was for, for 95 seconds; if the keying comes from another address (two addresses not
having the same hash), a new cookie is sent there, to the session that is keying, and that cookie is good for a keying from there. -/
theorem C88_cookie (C : Host) (hash : ∀ x, (C.hash x).length = 32) (hrun : C.isShutdown = false) (issue : Rat) (h0 : 0 ≤ issue) (h63 : issue < 2 ^ 63) (h1 : issue ≤ C.age) (h2 : C.age ≤ issue + 95)
    (a : Sockaddr) (isid : Nat) (cert skic part sig : Bytes) (ifc : Option Nat) :
    handle C .ignore ifc a (.iikeying isid (Cookie.make C.hash C.secret issue (some a)) cert skic part sig) = (if C.decodes cert then [.keying isid cert skic part sig ifc a] else []) ∧
    ∀ b, Cookie.IsAddr a → Cookie.IsAddr b → a ≠ b →
      (∃ new, handle C .ignore ifc b (.iikeying isid (Cookie.make C.hash C.secret issue (some a)) cert skic part sig) =
          (sendIf C (cookieChange C.stack (Cookie.make C.hash C.secret issue (some a)) new) isid ifc b).map .queue ∧
        ∀ later, C.age ≤ later → later ≤ C.age + 95 → C.age < 2 ^ 63 →
          handle { C with age := later } .ignore ifc b (.iikeying isid new cert skic part sig) = if C.decodes cert then [.keying isid cert skic part sig ifc b] else []) ∨
      (Cookie.encodedAddr (some a) ≠ Cookie.encodedAddr (some b) ∧
        C.hash (C.secret ++ VLU.encode (Cookie.seconds issue) ++ Cookie.encodedAddr (some a)) = C.hash (C.secret ++ VLU.encode (Cookie.seconds issue) ++ Cookie.encodedAddr (some b))) := by
  constructor
  · simp [handle, onIIKeying, hrun, C29_accepted C.hash hash C.secret issue C.age a h0 h63 h1 h2]
  · intro b ha hb hne
    rcases C29_moved C.hash hash C.secret issue C.age a b ha hb hne h0 h63 h1 h2 with h | h
    · left
      refine ⟨Cookie.make C.hash C.secret C.age (some b), by simp [handle, onIIKeying, hrun, h, sendCookieChange], ?_⟩
      intro later l1 l2 l3
      have := C29_accepted C.hash hash C.secret C.age later b (le_trans h0 h1) l3 l1 l2
      simp [handle, onIIKeying, hrun, this]
    · exact .inr h

example : handle { demoHost with age := 1090 } .ignore (some 1) demoAddr (.iikeying 5 (Cookie.make demoHash [4, 4] 1000 (some demoAddr)) [1] [2] [3] [4]) = [.keying 5 [1] [2] [3] [4] (some 1) demoAddr] :=
  (C88_cookie { demoHost with age := 1090 } (fun _ => rfl) rfl 1000 (by norm_num) (by norm_num) (by show (1000 : Rat) ≤ 1090; norm_num) (by show (1090 : Rat) ≤ 1000 + 95; norm_num) demoAddr 5 [1] [2] [3] [4] (some 1)).1

end Rtmfp
