import Verif.Model.AMF
import Verif.Model.VLU
import Mathlib.Data.Rat.Floor
import Mathlib.Algebra.Order.Ring.Rat
import Mathlib.Algebra.Field.Rat
/-! # Media messages and track descriptions: src/Media.cpp

A message and its limit are the list of its bytes. Times and durations are exact rationals instead of `long double`: rounding errors, infinities and NaN are
left out. A conversion to `uintmax_t` is the floor (in C++ it is undefined from 2^64 on; the theorems say where that would be). -/
namespace Rtmfp
namespace Media

/-- include/rtmfp/Media.hpp:92 -/
abbrev FLAG_RAI : UInt8 := 0x80
/-- Media.hpp:93 -/
abbrev FLAG_OPT : UInt8 := 0x40
/-- Media.hpp:105 -/
abbrev MSG_MASK : UInt8 := 0x0f
/-- Media.hpp:110-113 -/
abbrev TSS_DTS : UInt8 := 0x10
/-- Media.hpp:111 -/
abbrev TSS_PLUS : UInt8 := 0x20
/-- Media.hpp:112 -/
abbrev TSS_MINUS : UInt8 := 0x30
/-- Media.hpp:113 -/
abbrev TSS_MASK : UInt8 := 0x30

/-- Media.cpp:294-309: which timestamps follow -/
def tssOf (dts pts : Nat) : UInt8 :=
  if dts ≠ 0 ∨ pts ≠ 0 then (if pts = dts then TSS_DTS else if pts < dts then TSS_MINUS else TSS_PLUS) else 0

/-- Media.cpp:294-309: the offset -/
def offsetOf (dts pts : Nat) : Nat :=
  if dts ≠ 0 ∨ pts ≠ 0 then (if pts = dts then 0 else if pts < dts then dts - pts else pts - dts) else 0

/-- Media.cpp:287-329 `basicMakeMessage`; `messageType` is the low byte of the `int` -/
def basicMakeMessage (rai : Bool) (messageType : UInt8) (dts pts : Nat) (optionList payload : Bytes) : Bytes :=
  let tss := tssOf dts pts
  let rv : Bytes := [(if rai then FLAG_RAI else 0) ||| (if optionList.length ≠ 0 then FLAG_OPT else 0) ||| tss ||| (messageType &&& MSG_MASK)]
  let rv := if tss > 0 then (let rv := VLU.append dts rv; if tss > TSS_DTS then VLU.append (offsetOf dts pts) rv else rv) else rv
  let rv := rv ++ optionList
  rv ++ payload

/-- what `basicParseHeader` stores, and its answer -/
structure Header where
  rai : Bool
  messageType : UInt8
  dts : Nat
  pts : Nat
  optionListOffset : Nat
  length : Nat
deriving DecidableEq, Repr

/-- Media.cpp:369-384: the decode time, the offset and the cursor -/
def readTimes (tss : UInt8) (c : Bytes) : Option (Nat × Nat × Bytes) :=
  if tss > 0 then
    (VLU.parse c).bind (fun d =>
      let c := c.drop d.2
      if tss > TSS_DTS then (VLU.parse c).map (fun o => (d.1, o.1, c.drop o.2)) else some (d.1, 0, c))
  else some (0, 0, c)

/-- Media.cpp:386-394: the presentation time -/
def ptsFrom (tss : UInt8) (dts offset : Nat) : Option Nat :=
  if tss = TSS_MINUS then (if offset > dts then none else some (dts - offset)) else some ((dts + offset) % W64)

/-- Media.cpp:404-417: the cursor after the option list, if there is one -/
def skipOptions (flags : UInt8) (c : Bytes) : Option Bytes :=
  if flags &&& FLAG_OPT ≠ 0 then (Opt.parseUntilMarker (c.length + 1) c).map (·.2) else some c

/-- Media.cpp:354-420 `basicParseHeader`; `none` is the answer 0. (Of what it stores on failure nothing is used.) -/
def basicParseHeader (message : Bytes) : Option Header :=
  match message with
  | [] => none
  | flags :: c0 =>
    let tss := flags &&& TSS_MASK
    (readTimes tss c0).bind (fun t =>
      (ptsFrom tss t.1 t.2.1).bind (fun pts =>
        (skipOptions flags t.2.2).map (fun c =>
          ⟨flags &&& FLAG_RAI ≠ 0, flags &&& MSG_MASK, t.1, pts, message.length - t.2.2.length, message.length - c.length⟩)))

/-- include/rtmfp/Media.hpp:28-33, 129-132: the members. The receive intent is `RO_NETWORK` or not (`RO_SEQUENCE`; `setReceiveIntent` refuses `RO_HOLD`). -/
structure Track where
  streamID : Nat
  trackID : Nat
  codec : Bytes
  mediaType : Bytes
  trackName : Bytes
  reorderSuggestion : Rat
  origin : Rat
  ticks : Nat
  perSeconds : Nat
  network : Bool
deriving DecidableEq

/-- Media.hpp:17-18, 28-33, 129-132: a new object -/
def Track.init : Track := ⟨0, 0, [], [], [], -1, 0, 1000, 1, false⟩

/-- Media.cpp:269-272 `getTickDuration` -/
def Track.tick (m : Track) : Rat := (m.perSeconds : Rat) / (m.ticks : Rat)

/-- Media.cpp:239-245 `setOrigin` -/
def Track.setOrigin (m : Track) (t : Rat) : Option Track := if t < 0 then none else some { m with origin := t }

/-- Media.cpp:252-259 `setTimescale` -/
def Track.setTimescale (m : Track) (ticks per : Nat) : Option Track :=
  if ticks = 0 ∨ per = 0 then none else some { m with ticks := ticks, perSeconds := per }

/-- Media.cpp:439-442 `ticksToTime` -/
def Track.ticksToTime (m : Track) (n : Nat) : Rat := m.origin + n * m.tick

/-- Media.cpp:444-451 `timeToTicks` -/
def Track.timeToTicks (m : Track) (t : Rat) : Nat :=
  let t := if t < m.origin then m.origin else t
  let rounding := m.tick / 2
  ((t + rounding - m.origin) / m.tick).floor.toNat

/-- Media.cpp:331-337 `makeMessage` -/
def Track.makeMessage (m : Track) (rai : Bool) (messageType : UInt8) (dts pts : Rat) (optionList payload : Bytes) : Bytes :=
  let pts := if pts < 0 then dts else pts
  basicMakeMessage rai messageType (m.timeToTicks dts) (m.timeToTicks pts) optionList payload

/-- Media.cpp:422-437 `parseHeader`: the header, the decode and the presentation time -/
def Track.parseHeader (m : Track) (message : Bytes) : Option (Header × Rat × Rat) :=
  (basicParseHeader message).map (fun h => (h, m.ticksToTime h.dts, m.ticksToTime h.pts))

/-- Media.cpp:13: "http://zenomt.com/ns/rtmfp#media" and the terminating zero (`sizeof` counts it) -/
def signature : Bytes :=
  [0x68, 0x74, 0x74, 0x70, 0x3a, 0x2f, 0x2f, 0x7a, 0x65, 0x6e, 0x6f, 0x6d, 0x74, 0x2e, 0x63, 0x6f, 0x6d, 0x2f, 0x6e, 0x73, 0x2f, 0x72, 0x74, 0x6d, 0x66,
   0x70, 0x23, 0x6d, 0x65, 0x64, 0x69, 0x61, 0]

/-- Media.cpp:16-25 `_readU64`: `none` if there are less than eight bytes -/
def readU64 (c : Bytes) : Option Nat := (AMF.rdNum 8 0 c).map (·.1)

/-- Media.cpp:27-31 `_writeU64` -/
def writeU64 (v : Nat) : Bytes := AMF.be64 v

/-- Media.cpp:14 -/
abbrev scale64 : Rat := 18446744073709551616

/-- Media.cpp:33-44 `_fromNTP4`; `none` if it reads outside of the value -/
def fromNTP4 (v : Bytes) : Option Rat :=
  match v with
  | [] => none
  | b :: _ =>
    if b ≥ 0x80 then some (-1)
    else (readU64 v).bind (fun i => (readU64 (v.drop 8)).map (fun f => (i : Rat) + (f : Rat) / scale64))

/-- Media.cpp:46-52 `_toNTP4` of a time that isn't negative -/
def toNTP4 (t : Rat) : Bytes := writeU64 t.floor.toNat ++ writeU64 ((t - t.floor) * scale64).floor.toNat

/-- Media.cpp:88-91: the object and the local variables while parsing -/
structure Parse where
  m : Track
  reorderTicks : Nat
  sawReorder : Bool
  sawStreamID : Bool
  sawCodec : Bool

/-- Media.cpp:108-167: an option with a value; the inner `none` is `return 0`, the outer one a read outside of the value -/
def setOption (s : Parse) (type : Nat) (v : Bytes) : Option (Option Parse) :=
  match type with
  | 0x1d => some ((VLU.parse v).map (fun r => { s with m := { s.m with streamID := r.1 }, sawStreamID := true }))
  | 0x4c => some (some { s with m := { s.m with codec := v }, sawCodec := true })
  | 0x44 => some (some { s with m := { s.m with mediaType := v } })
  | 0x00 =>
    if v.length < 16 then some none
    else (fromNTP4 v).map (fun t => (s.m.setOrigin t).map (fun m => { s with m := m }))
  | 0x01 => some ((VLU.parse v).bind (fun r => (VLU.parse (v.drop r.2)).bind (fun q => (s.m.setTimescale r.1 q.1).map (fun m => { s with m := m }))))
  | 0x0a => some (some { s with m := { s.m with network := true } })
  | 0x0b => some ((VLU.parse v).map (fun r => { s with reorderTicks := r.1, sawReorder := true }))
  | 0x21 => some (some { s with m := { s.m with trackName := v } })
  | 0x2d => some ((VLU.parse v).map (fun r => { s with m := { s.m with trackID := r.1 } }))
  | _ => some (some s)

/-- Media.cpp:93-168: the loop over the options; `none` also if it were not over after `fuel` rounds -/
def metaLoop : (fuel : Nat) → Bytes → Parse → Option (Option Parse)
  | 0, _, _ => none
  | fuel + 1, c, s =>
    if c.isEmpty then some (some s)
    else
      match Opt.parse c with
      | none => some none
      | some (o, n) =>
        match o.value with
        | none => metaLoop fuel (c.drop n) s
        | some v => (setOption s o.type v).bind (fun r =>
            match r with
            | none => some none
            | some s' => metaLoop fuel (c.drop n) s')

/-- Media.cpp:170-174: the end of `setFromMetadata` -/
def finish (s : Parse) : Option Track :=
  if s.sawStreamID && s.sawCodec then
    some (if s.sawReorder then { s.m with reorderSuggestion := (s.reorderTicks : Rat) * s.m.tick } else s.m)
  else none

/-- Media.cpp:70-76 `fromMetadata`, 78-177 `setFromMetadata`: the object, `some none` if refused, `none` for a read outside of the buffer -/
def fromMetadata (metadata : Bytes) : Option (Option Track) :=
  if metadata.length < signature.length ∨ metadata.take signature.length ≠ signature then some none
  else (metaLoop (metadata.length + 1) (metadata.drop signature.length) ⟨Track.init, 0, false, false, false⟩).map (fun r => r.bind finish)

/-- Media.cpp:179-217 `toMetadata` (a reorder suggestion here is always finite) -/
def toMetadata (m : Track) : Bytes :=
  let rv := signature
  let rv := Opt.appendVLU 0x1d m.streamID rv
  let rv := Opt.append 0x4c m.codec rv
  let rv := if m.mediaType.length ≠ 0 then Opt.append 0x44 m.mediaType rv else rv
  let rv := if m.origin > 0 then Opt.append 0x00 (toNTP4 m.origin) rv else rv
  let rv := if 1000 ≠ m.ticks ∨ 1 ≠ m.perSeconds then Opt.append 0x01 (VLU.append m.perSeconds (VLU.append m.ticks [])) rv else rv
  let rv := if m.network then Opt.appendType 0x0a rv else rv
  let rv := if m.reorderSuggestion ≥ 0 then Opt.appendVLU 0x0b ((m.reorderSuggestion + m.tick / 2) / m.tick).floor.toNat rv else rv
  let rv := if m.trackName.length ≠ 0 then Opt.append 0x21 m.trackName rv else rv
  if m.trackID ≠ 0 then Opt.appendVLU 0x2d m.trackID rv else rv

/-- `std::string::compare` -/
def strCompare (a b : Bytes) : Int := if AMF.keyLt a b then -1 else if AMF.keyLt b a then 1 else 0

/-- Media.cpp:453-458 `track_compare` -/
def Track.trackCompare (m o : Track) : Int :=
  if m.trackID ≠ o.trackID then (if m.trackID < o.trackID then -1 else 1) else strCompare m.mediaType o.mediaType

/-- Media.cpp:460-465 `stream_track_compare` -/
def Track.streamTrackCompare (m o : Track) : Int :=
  if m.streamID ≠ o.streamID then (if m.streamID < o.streamID then -1 else 1) else m.trackCompare o

/-- Media.cpp:467-470 `track_less` -/
def trackLess (l r : Track) : Bool := decide (l.trackCompare r < 0)

/-- Media.cpp:472-475 `stream_track_less` -/
def streamTrackLess (l r : Track) : Bool := decide (l.streamTrackCompare r < 0)

/-- Media.cpp:477-491 `encodingParametersEqual` -/
def Track.encodingEqual (m o : Track) : Bool :=
  m.ticks == o.ticks && m.perSeconds == o.perSeconds && m.network == o.network && m.codec == o.codec && m.mediaType == o.mediaType &&
  ((decide (m.reorderSuggestion < 0) && decide (o.reorderSuggestion < 0)) || decide (|m.reorderSuggestion - o.reorderSuggestion| < 2 * m.tick)) &&
  decide (|m.origin - o.origin| < m.tick / 2)

/-- Media.cpp:493-504 `encodingAndTrackParametersEqual`, `parametersEqual` -/
def Track.equal (m o : Track) : Bool :=
  m.encodingEqual o && m.trackID == o.trackID && m.trackName == o.trackName && m.streamID == o.streamID

end Media
end Rtmfp
