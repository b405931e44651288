import Verif.Base

/-!
# Model of `src/IndexSet.cpp`

`std::list<Range>` is a Lean list; the iterator loops are recursions over it. Indices are 64-bit: the
only places where the arithmetic can wrap (`toIndex + 1` in `contiguousWith`, `Range::size`,
`IndexSet::size`, `eachIndex++`) say so explicitly.
-/

namespace Rtmfp

/-- src/IndexSet.cpp:12-18, include/rtmfp/IndexSet.hpp:12-34 `Range` (inclusive bounds). -/
structure Range where
  start : Nat
  stop : Nat
deriving DecidableEq, Repr

namespace Range

/-- src/IndexSet.cpp:20-29 `Range::size` (saturating for the full range). -/
def size (r : Range) : Nat :=
  let rv := ((r.stop + W64 - r.start) % W64 + 1) % W64
  if rv = 0 then U64MAX else rv

/-- src/IndexSet.cpp:31-34 `Range::intersects(from, to)`. -/
def intersects (r : Range) (fromIndex toIndex : Nat) : Bool :=
  decide (fromIndex ≤ r.stop) && decide (toIndex ≥ r.start)

/-- src/IndexSet.cpp:41-49 `Range::contiguousWith(from, to)`; `toIndex < toIndex + 1` fails exactly at
`UINTMAX_MAX`. -/
def contiguousWith (r : Range) (fromIndex toIndex : Nat) : Bool :=
  let fromIndex := if fromIndex > 0 then fromIndex - 1 else fromIndex
  let toIndex := if toIndex < (toIndex + 1) % W64 then toIndex + 1 else toIndex
  r.intersects fromIndex toIndex

/-- src/IndexSet.cpp:56-64 `Range::contains`. -/
def contains (r : Range) (anIndex : Nat) : Bool :=
  decide (anIndex ≥ r.start) && decide (anIndex ≤ r.stop)

/-- src/IndexSet.cpp:71-81 `Range::extend`. -/
def extend (r : Range) (fromIndex toIndex : Nat) : Range :=
  if fromIndex ≤ toIndex then
    { start := if fromIndex < r.start then fromIndex else r.start
      stop := if toIndex > r.stop then toIndex else r.stop }
  else r

end Range

/-- include/rtmfp/IndexSet.hpp:66 `m_ranges`. -/
abbrev IndexSet := List Range

namespace IndexSet

/-- src/IndexSet.cpp:176-187: the merge loop of `add`; `each` has been extended, the list is what
follows it. -/
def mergeLoop (each : Range) : List Range → List Range
  | [] => [each]
  | m :: rest =>
    if each.contiguousWith m.start m.stop then mergeLoop (each.extend m.start m.stop) rest
    else each :: m :: rest

/-- src/IndexSet.cpp:169-202: the main loop of `add`. -/
def addLoop (fromIndex toIndex : Nat) : List Range → List Range
  | [] => [⟨fromIndex, toIndex⟩]
  | each :: rest =>
    if each.contiguousWith fromIndex toIndex then mergeLoop (each.extend fromIndex toIndex) rest
    else if each.start > toIndex then ⟨fromIndex, toIndex⟩ :: each :: rest
    else each :: addLoop fromIndex toIndex rest

/-- src/IndexSet.cpp:164-203 `IndexSet::add(from, to)`. -/
def add (s : IndexSet) (fromIndex toIndex : Nat) : IndexSet :=
  if toIndex < fromIndex then s else addLoop fromIndex toIndex s

/-- src/IndexSet.cpp:220-261: the loop of `remove`. -/
def removeLoop (fromIndex toIndex : Nat) : List Range → List Range
  | [] => []
  | each :: rest =>
    if toIndex < each.start then each :: rest
    else if !each.intersects fromIndex toIndex then each :: removeLoop fromIndex toIndex rest
    else if each.start < fromIndex then
      if toIndex < each.stop then
        ⟨each.start, fromIndex - 1⟩ :: ⟨toIndex + 1, each.stop⟩ :: rest
      else ⟨each.start, fromIndex - 1⟩ :: removeLoop fromIndex toIndex rest
    else if toIndex < each.stop then ⟨toIndex + 1, each.stop⟩ :: rest
    else removeLoop fromIndex toIndex rest

/-- src/IndexSet.cpp:215-262 `IndexSet::remove(from, to)`. -/
def remove (s : IndexSet) (fromIndex toIndex : Nat) : IndexSet :=
  if toIndex < fromIndex then s else removeLoop fromIndex toIndex s

/-- src/IndexSet.cpp:210-213 `add(const IndexSet&)` (`other` is another set). -/
def addSet (s other : IndexSet) : IndexSet := other.foldl (fun s r => s.add r.start r.stop) s

/-- src/IndexSet.cpp:269-272 `remove(const IndexSet&)` (`other` is another set: removing a set from itself
iterates over the list being modified and is not modelled). -/
def removeSet (s other : IndexSet) : IndexSet := other.foldl (fun s r => s.remove r.start r.stop) s

/-- src/IndexSet.cpp:112-115 `contains`. -/
def contains (s : IndexSet) (anIndex : Nat) : Bool := s.any (·.contains anIndex)

/-- src/IndexSet.cpp:95-100 `size`, a `uintmax_t` sum. -/
def size (s : IndexSet) : Nat := s.foldl (fun rv r => (rv + r.size) % W64) 0

/-- src/IndexSet.cpp:107-110 `empty`. -/
def empty (s : IndexSet) : Bool := s.isEmpty

/-- src/IndexSet.cpp:117-120 `lowestIndex`. -/
def lowestIndex (s : IndexSet) : Nat :=
  match s.head? with | none => 0 | some r => r.start

/-- src/IndexSet.cpp:122-125 `highestIndex`. -/
def highestIndex (s : IndexSet) : Nat :=
  match s.getLast? with | none => 0 | some r => r.stop

/-- src/IndexSet.cpp:155-159: the loop over the indices of one range with a callback that never stops;
`eachIndex++` wraps. `none`: the loop has not ended after `fuel` rounds. -/
def indexLoop (toIndex : Nat) (fuel eachIndex : Nat) : Option (List Nat) :=
  match fuel with
  | 0 => none
  | fuel + 1 =>
    if eachIndex ≤ toIndex then
      (indexLoop toIndex fuel ((eachIndex + 1) % W64)).map (eachIndex :: ·)
    else some []

/-- src/IndexSet.cpp:152-162 `indicesDo` with a callback that never stops: the visited indices, `none` if
it does not end within `fuel` rounds per range. -/
def indicesDo (fuel : Nat) : IndexSet → Option (List Nat)
  | [] => some []
  | r :: rest =>
    match indexLoop r.stop fuel r.start, indicesDo fuel rest with
    | some a, some b => some (a ++ b)
    | _, _ => none

/-- include/rtmfp/IndexSet.hpp:53-61: the mutating calls; arguments are `uintmax_t`. -/
inductive Op where
  | add (fromIndex toIndex : Nat)
  | remove (fromIndex toIndex : Nat)
  | addSet (other : List (Nat × Nat))
  | removeSet (other : List (Nat × Nat))
  | clear
deriving Repr

/-- src/IndexSet.cpp:164-272: one call. `addSet` and `removeSet` take the other set as the ranges added to
it from empty. -/
def step (s : IndexSet) : Op → IndexSet
  | .add f t => s.add f t
  | .remove f t => s.remove f t
  | .addSet l => s.addSet (l.foldl (fun s r => IndexSet.add s r.1 r.2) [])
  | .removeSet l => s.removeSet (l.foldl (fun s r => IndexSet.add s r.1 r.2) [])
  | .clear => []

end IndexSet
end Rtmfp
