import Verif.Base
/-! # Reference counting (include/rtmfp/Retainer.hpp, include/rtmfp/Object.hpp, src/Object.cpp)

Objects and retainers (`Retainer<T>` variables, here "slots") are numbered as they are made. A slot is a variable of its own or a member of an object, which goes
with the object. Several threads run; each has a stack of what its functions still have to do, so that a destructor, its application code (which may do anything
with any retainer), the destructors of the members, and the rest of the assignment that started it all are run piece by piece, interleaved with other threads.

Simplified: the count, an `atomic_long`, is an integer without bounds; atomic operations are sequentially consistent. A retainer itself is not atomic: as C++
requires, no thread touches a retainer while another one is in the middle of an operation that writes it, nor writes one that another is reading (`mayRead`,
`mayWrite`; such a step cannot happen in the model). -/
namespace Rtmfp
namespace Refs

/-- a `Retainer<T>`, Retainer.hpp:91, and where it is: a variable, or a member of `owner`. `alive`: constructed and not yet destroyed. `counted` is not in the code: false from
the moment `m_ptr` is set until `retain` has been called for it. -/
structure Slot where
  alive : Bool
  ptr : Option Nat
  owner : Option Nat
  counted : Bool
deriving DecidableEq, Repr

/-- what a thread still has to do -/
inductive Frame where
  | user (o : Nat)                                  -- application code in o's destructor
  | retain (o : Nat) (src : Option Nat) (dst : Nat) -- Retainer.hpp:77: `dst` was given the pointer that `src` has, and o->retain() comes next
  | release (o : Nat)                               -- Retainer.hpp:78: o->release() comes next
  | delete (o : Nat)                                -- Object.cpp:37: the count was 0, `delete this` comes next
  | members (o : Nat)                               -- o's members are destroyed, after the body of its destructor
deriving DecidableEq, Repr

/-- `raw` counts the references that aren't held by retainers (the first one of a new object, those taken by `retain` or held by `share_ref`, Object.hpp:32-37);
it isn't in the code. `dead`: the destructor has begun. -/
structure St where
  nO : Nat
  rc : Nat → Int
  dead : Nat → Bool
  raw : Nat → Nat
  slots : List Slot
  stacks : List (List Frame)

/-- nothing made yet; `n` threads -/
def init (n : Nat) : St := ⟨0, fun _ => 0, fun _ => false, fun _ => 0, [], List.replicate n []⟩

/-- what is observed: an object's destructor is called; a function of an object whose destructor has been called is called -/
inductive Ev where
  | destroyed (o : Nat)
  | usedAfter (o : Nat)
deriving DecidableEq, Repr

/-- changing one entry of a table; no code of its own -/
def upd {α : Type} (g : Nat → α) (i : Nat) (v : α) : Nat → α := fun j => if j = i then v else g j

/-- the slot, or one that was never made; no code of its own -/
def slot (st : St) (i : Nat) : Slot := st.slots.getD i ⟨false, none, none, true⟩

/-- a thread's stack; no code of its own -/
def stack (st : St) (t : Nat) : List Frame := st.stacks.getD t []

/-- what a thread has to do next, before the rest; no code of its own -/
def push (st : St) (t : Nat) (fs : List Frame) : St := { st with stacks := st.stacks.set t (fs ++ stack st t) }

/-- does some thread have the retainer in hand, for writing -/
def writing (st : St) (i : Nat) : Bool := st.stacks.flatten.any fun fr => match fr with | .retain _ _ d => d = i | _ => false
/-- does some thread have the retainer in hand, for reading -/
def reading (st : St) (i : Nat) : Bool := st.stacks.flatten.any fun fr => match fr with | .retain _ s _ => s = some i | _ => false

/-- a retainer that may be read: it exists, and no thread is writing it -/
def mayRead (st : St) (i : Nat) : Bool := (slot st i).alive && !writing st i
/-- a retainer that may be written: it exists, and no thread has it in hand -/
def mayWrite (st : St) (i : Nat) : Bool := (slot st i).alive && !writing st i && !reading st i

/-- one slot changed; no code of its own -/
def setSlot (st : St) (i : Nat) (g : Slot → Slot) : St := { st with slots := st.slots.set i (g (slot st i)) }
/-- one more slot; no code of its own -/
def addSlot (st : St) (x : Slot) : St := { st with slots := st.slots ++ [x] }

/-- Retainer.hpp:77 `_retain`, for the slot `dst` -/
def retains (p : Option Nat) (src : Option Nat) (dst : Nat) : List Frame := match p with | some o => [.retain o src dst] | none => []
/-- Retainer.hpp:78 `_release` -/
def releases (p : Option Nat) : List Frame := match p with | some o => [.release o] | none => []

/-- Object.cpp:21-28 `retain`: counted. A use of a destroyed object is noted and does nothing else here. -/
def incr (st : St) (o : Nat) : St × List Ev := ({ st with rc := upd st.rc o (st.rc o + 1) }, if st.dead o then [.usedAfter o] else [])

/-- Object.cpp:30-38 `release` -/
def decr (st : St) (t o : Nat) : St × List Ev :=
  let st1 := { st with rc := upd st.rc o (st.rc o - 1) }
  (if st.rc o - 1 = 0 then push st1 t [.delete o] else st1, if st.dead o then [.usedAfter o] else [])

/-- Retainer.hpp:80-89 `basicAssign(newval)`, `src` being where `newval` comes from -/
def basicAssign (st : St) (t : Nat) (newval : Option Nat) (src : Option Nat) (dst : Nat) : St :=
  if (slot st dst).ptr = newval then st else
  push (setSlot st dst (fun s => { s with ptr := newval, counted := newval.isNone })) t (retains newval src dst ++ releases (slot st dst).ptr)

/-- Retainer.hpp:26: the destructor of a retainer -/
def dropSlot (st : St) (t i : Nat) : St :=
  push (setSlot st i (fun s => { s with alive := false, ptr := none })) t (releases (slot st i).ptr)

/-- the first member of an object that is still there -/
def memberOf (st : St) (o : Nat) : Option Nat := (List.range st.slots.length).find? fun i => (slot st i).alive && (slot st i).owner = some o

inductive Op where
  | tick                                                  -- the thread runs on
  | ret                                                   -- application code in a destructor is done
  | make                                                  -- new Foo, Object.cpp:12
  | claim (o : Nat) (owner : Option Nat)                  -- Retainer(ptr, false), claim_ref, Retainer.hpp:31, 99-102
  | empty (owner : Option Nat)                            -- Retainer(), Retainer(nullptr), Retainer.hpp:28-29
  | copy (src : Nat) (owner : Option Nat)                 -- Retainer(const Retainer &), and Retainer(T *), retain_ref with the pointer of `src`: Retainer.hpp:30-32, 35, 94-97
  | move (src : Nat) (owner : Option Nat)                 -- Retainer(Retainer &&), Retainer.hpp:33, 36
  | assign (dst src : Nat)                                -- operator=(const Retainer &), Retainer.hpp:38-39
  | moveAssign (dst src : Nat)                            -- operator=(Retainer &&), Retainer.hpp:41-57
  | swap (a b : Nat)                                      -- swap, Retainer.hpp:59-64
  | reset (dst : Nat)                                     -- reset, Retainer.hpp:70
  | drop (i : Nat)                                        -- ~Retainer, Retainer.hpp:26
  | retain (src : Nat)                                    -- Object::retain, share_ref of what `src` has
  | release (o : Nat)                                     -- Object::release, by who has called Object::retain or made the object
  | resurrect                                             -- Retainer(this) in a destructor
deriving DecidableEq, Repr

/-- a thread can run application code: it isn't inside a function of the library, or it runs a destructor's body -/
def appTurn (st : St) (t : Nat) : Bool :=
  match stack st t with
  | [] => true
  | .user _ :: _ => true
  | _ => false

/-- the thread's stack without its top; no code of its own -/
def pop (st : St) (t : Nat) : St := { st with stacks := st.stacks.set t (stack st t).tail }

/-- the frame on top of a thread's stack, already taken off; `none` if C++ forbids what would happen -/
def exec (st : St) (t : Nat) : Frame → Option (St × List Ev)
  | .user _ => none
  | .retain o _ dst => some (setSlot (incr st o).1 dst (fun s => { s with counted := true }), (incr st o).2)
  | .release o => some (decr st t o)
  -- Object.cpp:14-19, 37
  | .delete o => some (push { st with dead := upd st.dead o true } t [.user o, .members o], [.destroyed o])
  | .members o =>
    match memberOf st o with
    | some i => if mayWrite st i then some (dropSlot (push st t [.members o]) t i, []) else none
    | none => some (st, [])

/-- application code -/
def app (st : St) (t : Nat) : Op → Option (St × List Ev)
  | .make => some ({ st with nO := st.nO + 1, rc := upd st.rc st.nO 1, raw := upd st.raw st.nO 1 }, [])
  | .claim o w => if st.raw o > 0 then some (addSlot { st with raw := upd st.raw o (st.raw o - 1) } ⟨true, some o, w, true⟩, []) else none
  | .empty w => some (addSlot st ⟨true, none, w, true⟩, [])
  | .copy src w =>
    if mayRead st src then
      some (push (addSlot st ⟨true, (slot st src).ptr, w, (slot st src).ptr.isNone⟩) t (retains (slot st src).ptr (some src) st.slots.length), [])
    else none
  | .move src w =>
    if mayWrite st src then some (addSlot (setSlot st src (fun s => { s with ptr := none })) ⟨true, (slot st src).ptr, w, true⟩, []) else none
  | .assign dst src => if mayWrite st dst ∧ mayRead st src then some (basicAssign st t (slot st src).ptr (some src) dst, []) else none
  | .moveAssign dst src =>
    if mayWrite st dst ∧ mayWrite st src then
      let tmp := (slot st dst).ptr
      let st1 := setSlot st dst (fun s => { s with ptr := (slot st src).ptr })
      let st2 := setSlot st1 src (fun s => { s with ptr := none })
      some (push st2 t (releases tmp), [])
    else none
  | .swap a b =>
    if mayWrite st a ∧ mayWrite st b then
      let tmp := (slot st a).ptr
      let st1 := setSlot st a (fun s => { s with ptr := (slot st b).ptr })
      some (setSlot st1 b (fun s => { s with ptr := tmp }), [])
    else none
  | .reset dst => if mayWrite st dst then some (basicAssign st t none none dst, []) else none
  | .drop i => if mayWrite st i then some (dropSlot st t i, []) else none
  | .retain src =>
    if mayRead st src then
      match (slot st src).ptr with
      | some o => some ({ (incr st o).1 with raw := upd st.raw o (st.raw o + 1) }, (incr st o).2)
      | none => some (st, [])
    else none
  | .release o => if st.raw o > 0 then some (push { st with raw := upd st.raw o (st.raw o - 1) } t [.release o], []) else none
  | .resurrect =>
    match stack st t with
    | .user o :: _ => some (push (addSlot st ⟨true, some o, none, false⟩) t [.retain o none st.slots.length], [])
    | _ => none
  | .tick => none
  | .ret => none

/-- thread `t` does something; `none` if it can't -/
def step (st : St) (t : Nat) (op : Op) : Option (St × List Ev) :=
  if t < st.stacks.length then
    match op with
    | .tick =>
      match stack st t with
      | [] => none
      | fr :: _ => exec (pop st t) t fr
    | .ret =>
      match stack st t with
      | .user _ :: _ => some (pop st t, [])
      | _ => none
    | _ => if appTurn st t then app st t op else none
  else none

/-- histories from a state -/
inductive Run (st0 : St) : List (Nat × Op) → St → List Ev → Prop
  | nil : Run st0 [] st0 []
  | step {ops : List (Nat × Op)} {st st' : St} {evs ev : List Ev} {t : Nat} {op : Op} :
      Run st0 ops st evs → step st t op = some (st', ev) → Run st0 (ops ++ [(t, op)]) st' (evs ++ ev)

end Refs
end Rtmfp
