import Verif.Base

/-!
# Model of `include/rtmfp/List.hpp`

`m_nodes` (a `std::vector<Node>`) is represented by its size `cap` and one function per field of `Node`;
assignment to a field of a node is a function update. The slots at and beyond `cap` do not exist; that the
code never touches one is part of what is proved (`LS.Rep` keeps every link below `cap`). Names are `long`
at the interface (`Int`) and slots are `Nat` inside.
-/

namespace Rtmfp

/-- assignment to one element of a vector of fields (`m_nodes[i].field = v`) -/
def fset {β : Type} (f : Nat → β) (i : Nat) (v : β) : Nat → β := fun j => if j = i then v else f j

/-- include/rtmfp/List.hpp:86-95: the nodes and the size of `List<T>`. Slot 0 is `SENTINEL`, slot 1 is
`FREELIST`. -/
structure LS (α : Type) where
  cap : Nat
  nx : Nat → Nat
  pv : Nat → Nat
  val : Nat → α
  inUse : Nat → Bool
  size : Nat
  blank : α

namespace LS
variable {α : Type}

/-- List.hpp:365-381 `initNewNodes(start)`: loop over `start ≤ i < m_nodes.size()` then four assignments. The
loop is written as one simultaneous update. -/
def initNewNodes (s : LS α) (start : Nat) : LS α :=
  let nx := fun i => if start ≤ i ∧ i < s.cap then i + 1 else s.nx i
  let pv := fun i => if start ≤ i ∧ i < s.cap then i - 1 else s.pv i
  let val := fun i => if start ≤ i ∧ i < s.cap then s.blank else s.val i
  let inUse := fun i => if start ≤ i ∧ i < s.cap then false else s.inUse i
  let pv := fset pv start (pv 1)
  let nx := fset nx (s.cap - 1) 1
  let nx := fset nx (pv 1) start
  let pv := fset pv 1 (s.cap - 1)
  { s with nx := nx, pv := pv, val := val, inUse := inUse }

/-- List.hpp:115-121, 350-363: construction and `init()`; `INIT_SIZE` is 16. -/
def init (blank : α) : LS α :=
  initNewNodes
    { cap := 16, nx := fun i => i, pv := fun i => i, val := fun _ => blank,
      inUse := fun i => decide (i = 0), size := 0, blank := blank } 2

/-- List.hpp:383-388 `growFreeList()`; `GROW_SIZE` is 16. -/
def growFreeList (s : LS α) : LS α := initNewNodes { s with cap := s.cap + 16 } s.cap

/-- List.hpp:390-393 `freeListEmpty()`. -/
def freeListEmpty (s : LS α) : Bool := decide (s.nx 1 = 1)

/-- List.hpp:395-399 `unlinkNode`. -/
def unlink (s : LS α) (name : Nat) : LS α :=
  let s := { s with nx := fset s.nx (s.pv name) (s.nx name) }
  { s with pv := fset s.pv (s.nx name) (s.pv name) }

/-- List.hpp:401-407 `linkBefore`. -/
def linkBefore (s : LS α) (name beforeName : Nat) : LS α :=
  let s := { s with nx := fset s.nx name beforeName }
  let s := { s with pv := fset s.pv name (s.pv beforeName) }
  let s := { s with nx := fset s.nx (s.pv beforeName) name }
  { s with pv := fset s.pv beforeName name }

/-- List.hpp:409-415 `linkAfter`. -/
def linkAfter (s : LS α) (name afterName : Nat) : LS α :=
  let s := { s with nx := fset s.nx name (s.nx afterName) }
  let s := { s with pv := fset s.pv name afterName }
  let s := { s with pv := fset s.pv (s.nx afterName) name }
  { s with nx := fset s.nx afterName name }

/-- List.hpp:143-146 `has(name)`. -/
def has (s : LS α) (name : Int) : Bool :=
  decide (name > 0) && decide (name < s.cap) && s.inUse name.toNat

/-- List.hpp:167-170 `isUsing(name)`. -/
def isUsing (s : LS α) (name : Int) : Bool := decide (name = 0) || s.has name

/-- List.hpp:133-136 `next(name)`. -/
def next (s : LS α) (name : Int) : Int := if s.isUsing name then s.nx name.toNat else -1

/-- List.hpp:138-141 `prev(name)`. -/
def prev (s : LS α) (name : Int) : Int := if s.isUsing name then s.pv name.toNat else -1

/-- List.hpp:148-151 `first()`. -/
def first (s : LS α) : Int := s.next 0

/-- List.hpp:153-156 `last()`. -/
def last (s : LS α) : Int := s.prev 0

/-- List.hpp:123-126 `empty()`. -/
def empty (s : LS α) : Bool := decide (s.nx 0 = 0)

/-- List.hpp:172-194 `at(name)`; `none`: throws `std::out_of_range`. -/
def at? (s : LS α) (name : Int) : Option α := if s.has name then some (s.val name.toNat) else none

/-- List.hpp:172-182: assignment through the reference answered by `at(name)`. -/
def setAt (s : LS α) (name : Int) (v : α) : LS α := { s with val := fset s.val name.toNat v }

/-- List.hpp:417-437 `basicAddBeforeOrAfter`. -/
def basicAdd (s : LS α) (name : Int) (after : Bool) : LS α × Int :=
  if !s.isUsing name then (s, -1)
  else
    let s := if s.freeListEmpty then s.growFreeList else s
    let rv := s.nx 1
    let s := s.unlink rv
    let s := { s with inUse := fset s.inUse rv true }
    let s := if after then s.linkAfter rv name.toNat else s.linkBefore rv name.toNat
    ({ s with size := s.size + 1 }, rv)

/-- List.hpp:298-310 `remove(name)`. -/
def remove (s : LS α) (name : Int) : LS α × Bool :=
  if !s.has name then (s, false)
  else
    let n := name.toNat
    let s := s.unlink n
    let s := { s with size := s.size - 1 }
    let s := { s with inUse := fset s.inUse n false }
    let s := s.linkBefore n 1
    ({ s with val := fset s.val n s.blank }, true)

/-- List.hpp:246-257 `rotateNameToHead`. -/
def rotateToHead (s : LS α) (name : Int) : LS α × Bool :=
  if name = 0 then (s, true)
  else if !s.has name then (s, false)
  else ((s.unlink 0).linkBefore 0 name.toNat, true)

/-- List.hpp:259-270 `rotateNameToTail`. -/
def rotateToTail (s : LS α) (name : Int) : LS α × Bool :=
  if name = 0 then (s, true)
  else if !s.has name then (s, false)
  else ((s.unlink 0).linkAfter 0 name.toNat, true)

/-- List.hpp:272-283 `moveNameToHead`. -/
def moveToHead (s : LS α) (name : Int) : LS α × Bool :=
  if name = 0 then (s, true)
  else if !s.has name then (s, false)
  else ((s.unlink name.toNat).linkAfter name.toNat 0, true)

/-- List.hpp:285-296 `moveNameToTail`. -/
def moveToTail (s : LS α) (name : Int) : LS α × Bool :=
  if name = 0 then (s, true)
  else if !s.has name then (s, false)
  else ((s.unlink name.toNat).linkBefore name.toNat 0, true)

/-- List.hpp:335-338, 160-164: the loop `for(name = first(); name > SENTINEL; name = next(name))` as it visits
names, with a body that does not change the list; `none`: not ended after `fuel` rounds. -/
def forwardFrom (s : LS α) : Nat → Int → Option (List Int)
  | 0, _ => none
  | fuel + 1, name => if name > 0 then (forwardFrom s fuel (s.next name)).map (name :: ·) else some []

/-- The same loop with `last()` and `prev()` (the idiom of e.g. src/Session.cpp and src/Timer.cpp). -/
def backwardFrom (s : LS α) : Nat → Int → Option (List Int)
  | 0, _ => none
  | fuel + 1, name => if name > 0 then (backwardFrom s fuel (s.prev name)).map (name :: ·) else some []

/-- List.hpp:158-165 `find(val)`. `none`: not ended after `fuel` rounds. -/
def findFrom [DecidableEq α] (s : LS α) (v : α) : Nat → Int → Option Int
  | 0, _ => none
  | fuel + 1, name =>
    if name > 0 then
      if s.at? name = some v then some name else findFrom s v fuel (s.next name)
    else some 0

/-- List.hpp:322-325 `clear()`: `while(removeFirst());`, with `fuel` rounds. -/
def clearLoop (s : LS α) : Nat → Option (LS α)
  | 0 => none
  | fuel + 1 => match s.remove s.first with
    | (s, true) => clearLoop s fuel
    | (s, false) => some s

/-- List.hpp:216-325: the mutating interface of `List<T>`. -/
inductive Op (α : Type) where
  | addAfter (name : Int)
  | addBefore (name : Int)
  | addValueAfter (v : α) (name : Int)
  | addValueBefore (v : α) (name : Int)
  | set (name : Int) (v : α)
  | rotateToHead (name : Int)
  | rotateToTail (name : Int)
  | moveToHead (name : Int)
  | moveToTail (name : Int)
  | remove (name : Int)
  | removeFirst
  | removeLast
deriving Repr

/-- What a call answers. -/
inductive Out where
  | name (n : Int)
  | bool (b : Bool)
  | unit
  | threw
deriving DecidableEq, Repr

/-- List.hpp:439-444 `addValueBeforeOrAfter`: a dead name makes `at(-1)` throw after nothing has changed. -/
def addValue (s : LS α) (v : α) (name : Int) (after : Bool) : LS α × Out :=
  let r := s.basicAdd name after
  if r.1.has r.2 then (r.1.setAt r.2 v, .name r.2) else (r.1, .threw)

/-- List.hpp:216-320: one call. -/
def step (s : LS α) : Op α → LS α × Out
  | .addAfter n => ((s.basicAdd n true).1, .name (s.basicAdd n true).2)
  | .addBefore n => ((s.basicAdd n false).1, .name (s.basicAdd n false).2)
  | .addValueAfter v n => s.addValue v n true
  | .addValueBefore v n => s.addValue v n false
  | .set n v => if s.has n then (s.setAt n v, .unit) else (s, .threw)
  | .rotateToHead n => ((s.rotateToHead n).1, .bool (s.rotateToHead n).2)
  | .rotateToTail n => ((s.rotateToTail n).1, .bool (s.rotateToTail n).2)
  | .moveToHead n => ((s.moveToHead n).1, .bool (s.moveToHead n).2)
  | .moveToTail n => ((s.moveToTail n).1, .bool (s.moveToTail n).2)
  | .remove n => ((s.remove n).1, .bool (s.remove n).2)
  | .removeFirst => ((s.remove s.first).1, .bool (s.remove s.first).2)
  | .removeLast => ((s.remove s.last).1, .bool (s.remove s.last).2)

end LS

/-- List.hpp:98-111 `SumList<T>`: the list, the running sum (a `size_t`) . -/
structure SumLS (α : Type) where
  list : LS α
  sum : Nat

namespace SumLS
variable {α : Type}

/-- List.hpp:448-453. -/
def init (blank : α) : SumLS α := ⟨LS.init blank, 0⟩

/-- List.hpp:455-462 `SumList::remove`. -/
def remove (sz : α → Nat) (s : SumLS α) (name : Int) : SumLS α × Bool :=
  if !s.list.has name then (s, false)
  else
    let d := sz (s.list.val name.toNat) % W64
    let sum := if d ≤ s.sum then s.sum - d else W64 - (d - s.sum)
    (⟨(s.list.remove name).1, sum⟩, (s.list.remove name).2)

/-- List.hpp:469-474 `SumList::addValueBeforeOrAfter`; if the base class throws the sum is unchanged. -/
def addValue (sz : α → Nat) (s : SumLS α) (v : α) (name : Int) (after : Bool) : SumLS α × LS.Out :=
  let r := s.list.addValue v name after
  if r.2 = .threw then (⟨r.1, s.sum⟩, r.2)
  else (⟨r.1, (s.sum + sz v) % W64⟩, r.2)

/-- List.hpp:216-325 with the overrides of `SumList`: one call. -/
def step (sz : α → Nat) (s : SumLS α) : LS.Op α → SumLS α × LS.Out
  | .addValueAfter v n => s.addValue sz v n true
  | .addValueBefore v n => s.addValue sz v n false
  | .remove n => ((s.remove sz n).1, .bool (s.remove sz n).2)
  | .removeFirst => ((s.remove sz s.list.first).1, .bool (s.remove sz s.list.first).2)
  | .removeLast => ((s.remove sz s.list.last).1, .bool (s.remove sz s.list.last).2)
  | op => (⟨(s.list.step op).1, s.sum⟩, (s.list.step op).2)

end SumLS
end Rtmfp
