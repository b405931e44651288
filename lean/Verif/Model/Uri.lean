import Verif.Model.Hex

/-!
# Model of the string functions of `src/URIParse.cpp`

Strings are lists of bytes. Loops that are not structurally recursive get `fuel` (one round each); `none` is running out of it, which
the theorems exclude. `parse` (regular expressions of the C++ library) is not modelled here.
-/

namespace Rtmfp
namespace Uri

/-- '/' -/
abbrev slash : UInt8 := 0x2f
/-- '.' -/
abbrev dot : UInt8 := 0x2e
/-- '%' -/
abbrev percent : UInt8 := 0x25

/-- `0 == strncmp(pre, s.c_str(), strlen(pre))`; `pre` has no NUL, so one in `s` makes no difference. -/
def startsWith (pre s : Bytes) : Bool := decide (s.take pre.length = pre)

/-- `s.find(c, 1)` for a string that isn't empty, then `s.substr(0, rpos)` and what `s.erase(0, rpos)` leaves. -/
def cutAtSlash : Bytes → Bytes × Bytes
  | [] => ([], [])
  | c :: s => (c :: s.takeWhile (· ≠ slash), s.dropWhile (· ≠ slash))

/-- src/URIParse.cpp:140-163: one round of the loop of `removeDotSegments`, for an `inputBuffer` that is not empty: `inputBuffer` and
`outputBuffer` (last element first) afterwards. `replace(0, n, "/")` of a shorter string replaces all of it. -/
def dotRound (input : Bytes) (output : List Bytes) : Bytes × List Bytes :=
  if startsWith [dot, dot, slash] input then (input.drop 3, output)
  else if startsWith [dot, slash] input then (input.drop 2, output)
  else if startsWith [slash, dot, slash] input || decide (input = [slash, dot]) then (slash :: input.drop 3, output)
  else if startsWith [slash, dot, dot, slash] input || decide (input = [slash, dot, dot]) then
    (slash :: input.drop 4, if output ≠ [] then output.tail else output)
  else if decide (input = [dot, dot]) || decide (input = [dot]) then ([], output)
  else ((cutAtSlash input).2, (cutAtSlash input).1 :: output)

/-- src/URIParse.cpp:138-164: the loop -/
def dotLoop : Nat → Bytes → List Bytes → Option (List Bytes)
  | _, [], output => some output
  | 0, _ :: _, _ => none
  | fuel + 1, c :: s, output =>
    let r := dotRound (c :: s) output
    dotLoop fuel r.1 r.2

/-- src/URIParse.cpp:131-172 `removeDotSegments` -/
def removeDotSegments (path : Bytes) : Option Bytes := (dotLoop (path.length) path []).map (fun out => out.reverse.flatten)

/-- `str.find_first_of(seps, cursor)` -/
def findFirstOf (str seps : Bytes) (cursor : Nat) : Option Nat :=
  match (str.drop cursor).findIdx? (fun c => c ∈ seps) with
  | none => none
  | some i => some (cursor + i)

/-- src/URIParse.cpp:186-196: the loop of `split`; the parts pushed and the cursor after it. `maxParts` is a `size_t`: 0 wraps. -/
def splitLoop (str seps : Bytes) : (fuel maxParts cursor : Nat) → Option (List Bytes × Nat)
  | 0, _, _ => none
  | fuel + 1, maxParts, cursor =>
    let maxParts := if maxParts = 0 then U64MAX else maxParts - 1
    if maxParts ≠ 0 ∧ cursor < str.length then
      match findFirstOf str seps cursor with
      | none => some ([], cursor)
      | some found => (splitLoop str seps fuel maxParts (found + 1)).map (fun r => ((str.drop cursor).take (found - cursor) :: r.1, r.2))
    else some ([], cursor)

/-- src/URIParse.cpp:179-201 `split` -/
def split (str seps : Bytes) (maxParts : Nat) : Option (List Bytes) :=
  if seps = [] then some []
  else
    match splitLoop str seps (str.length + 1) maxParts 0 with
    | none => none
    | some (rv, cursor) => if cursor ≤ str.length then some (rv ++ [str.drop cursor]) else some rv

/-- A read of the characters of a string and the NUL after them; `none` is a read past it. -/
def readAt (str : Bytes) (i : Nat) : Option UInt8 := (str ++ [0])[i]?

/-- src/Hex.cpp:151-162 `decodeByte` at a position of a string: the first character is read, and the second only if that is a digit. The
outer `none` is a read past the string, the inner is −1. -/
def decodeByteAt (str : Bytes) (i : Nat) : Option (Option Nat) :=
  match readAt str i with
  | none => none
  | some c1 =>
    let d1 := Hex.decodeDigit c1
    if d1 ≥ 0 then
      match readAt str (i + 1) with
      | none => none
      | some c2 =>
        let d2 := Hex.decodeDigit c2
        if d2 ≥ 0 then some (some ((d1.toNat <<< 4) + d2.toNat)) else some none
    else some none

/-- src/URIParse.cpp:208-224: the loop of `percentDecode` from a position; `none` is a read past the string (or no fuel). -/
def percentLoop (str : Bytes) : (fuel cursor : Nat) → (rv : Bytes) → Option Bytes
  | 0, _, _ => none
  | fuel + 1, cursor, rv =>
    match readAt str cursor with
    | none => none
    | some ch =>
      if ch = 0 then some rv
      else if ch = percent then
        match decodeByteAt str (cursor + 1) with
        | none => none
        | some none => some []
        | some (some b) => if b < 1 then some [] else percentLoop str fuel (cursor + 3) (rv ++ [UInt8.ofNat b])
      else percentLoop str fuel (cursor + 1) (rv ++ [ch])

/-- src/URIParse.cpp:203-227 `percentDecode` -/
def percentDecode (str : Bytes) : Option Bytes := percentLoop str (str.length + 1) 0 []

/-- src/URIParse.cpp:229-233 `safePercentDecode` -/
def safePercentDecode (str : Bytes) : Option Bytes := (percentDecode str).map (fun rv => if rv = [] then str else rv)

/-- src/URIParse.cpp:112-129 `mergedRelativePath`, of the object's `authorityPart` and `path`; `rfind('/')` is the last slash. -/
def mergedRelativePath (authorityPart path relativePath : Bytes) : Bytes :=
  if relativePath = [] ∨ relativePath.head? = some slash then relativePath
  else if authorityPart ≠ [] ∧ path = [] then slash :: relativePath
  else (path.reverse.dropWhile (· ≠ slash)).reverse ++ relativePath

end Uri
end Rtmfp
