import Verif.Base

/-!
# Specification: path segments and resolution of dot segments (RFC 3986 section 5.2.4, in words)

No reference to the model.
-/

namespace Rtmfp.Spec

/-- The segments of a path: what is between its slashes ('/' is 47). There is always at least one. -/
def segments : Bytes → List Bytes
  | [] => [[]]
  | c :: s =>
    match segments s with
    | [] => []
    | t :: ts => if c = 47 then [] :: t :: ts else (c :: t) :: ts

/-- segments each preceded by a slash -/
def slashed (segs : List Bytes) : Bytes := (segs.map (fun s => 47 :: s)).flatten

/-- "." or ".." -/
def isDots (s : Bytes) : Prop := s = [46] ∨ s = [46, 46]

instance (s : Bytes) : Decidable (isDots s) := inferInstanceAs (Decidable (_ ∨ _))

/-- Walk through the segments after the first, keeping what has been entered so far (the last first): "." stays, ".." leaves the last entered,
any other is entered. If the path ends with "." or ".." an empty segment is entered, so that the result ends with a slash. -/
def resolve : (entered : List Bytes) → (segs : List Bytes) → List Bytes
  | entered, [] => entered
  | entered, s :: rest =>
    if s = [46] then (if rest = [] then [47] :: entered else resolve entered rest)
    else if s = [46, 46] then (if rest = [] then [47] :: entered.tail else resolve entered.tail rest)
    else resolve ((47 :: s) :: entered) rest

/-- Leading dot segments are dropped together with the slashes after them; if the first segment left is not empty the path is relative
and begins by entering it. -/
def resolvePath : List Bytes → List Bytes
  | [] => []
  | f :: segs => if isDots f then resolvePath segs else resolve (if f = [] then [] else [f]) segs

end Rtmfp.Spec
