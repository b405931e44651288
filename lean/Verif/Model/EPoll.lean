import Verif.Model.RunLoop
/-! # The run loop over `epoll`: src/EPollRunLoop.cpp, and what the kernel keeps for it

As with `Verif.Model.RunLoop`, the steps of the machine are the iterations of the loops of `run`, and what the application does to the loop and to its
descriptors in between. Deferred tasks and timers are handled by the same code as in `SelectRunLoop` (src/RunLoop.cpp and lines 151-157, see there); here they
are the time between `turn` and the next `polled`. `epoll_wait` failing otherwise than by a signal (145-149, `run` returns) is left out. The kernel's side
follows epoll(7) and epoll_ctl(2): an interest belongs to a number together with the open file behind it, and goes away when that file is closed for good, that
is when no number refers to it any more. Not modelled of it: files that cannot be polled, and running out of memory or of watches. -/
namespace Rtmfp
namespace EP
open RL (Cond Item)

/-- `EPOLLIN`, `EPOLLOUT`, `EPOLLERR` in `epoll_event::events`, as asked for -/
structure Mask where
  r : Bool
  w : Bool
  x : Bool
deriving DecidableEq, Repr

/-- the bit for a condition (EPollRunLoop.cpp:42-44, 134-139) -/
def Mask.bit (m : Mask) : Cond → Bool
  | .readable => m.r
  | .writable => m.w
  | .exception => m.x

/-- EPollRunLoop.cpp:101 `ev.events ?` -/
def Mask.any (m : Mask) : Bool := m.r || m.w || m.x

/-- EPollRunLoop.cpp:27-36 `DescriptorItem`: the number of the descriptor, and the number of the registration for the action. `m_canceled` is in `St.canceled`. -/
structure Act where
  fd : Nat
  id : Nat
deriving DecidableEq, Repr

/-- EPollRunLoop.cpp:38-49 `Descriptor`: `m_items`, where it is in memory, and its key in `m_descriptors` -/
structure Desc where
  fd : Nat
  addr : Nat
  r : Option Act
  w : Option Act
  x : Option Act
deriving DecidableEq, Repr

/-- EPollRunLoop.cpp:48 `m_items[cond]` -/
def Desc.item (d : Desc) : Cond → Option Act
  | .readable => d.r
  | .writable => d.w
  | .exception => d.x

/-- EPollRunLoop.cpp:83, 95: an assignment to `m_items[cond]` -/
def Desc.set (d : Desc) (c : Cond) (a : Option Act) : Desc :=
  match c with
  | .readable => { d with r := a }
  | .writable => { d with w := a }
  | .exception => { d with x := a }

/-- EPollRunLoop.cpp:39-46 `getPollEvents` -/
def Desc.events (d : Desc) : Mask := ⟨d.r.isSome, d.w.isSome, d.x.isSome⟩

/-- the kernel: one entry of the interest list, for a number and the file behind it when it was added; `ptr` is `data.ptr` -/
structure Interest where
  fd : Nat
  file : Nat
  mask : Mask
  ptr : Nat
deriving DecidableEq, Repr

/-- one of the events `epoll_wait` gives: for which entry, and `EPOLLIN`, `EPOLLOUT`, `EPOLLERR`, `EPOLLHUP` -/
structure Found where
  fd : Nat
  file : Nat
  r : Bool
  w : Bool
  x : Bool
  hup : Bool
deriving DecidableEq, Repr

/-- EPollRunLoop.cpp:134-139: the bits that are looked at -/
def Found.bit (f : Found) : Cond → Bool
  | .readable => f.r
  | .writable => f.w
  | .exception => f.x

/-- where the thread is in EPollRunLoop.cpp:108-164 `run`: not in it; before `epoll_wait` (118-128); in `processActivatedItems` (141-143); after it (151-157);
`undefined`: a pointer to a `Descriptor` that is no more was followed (134-139) -/
inductive Pc where
  | outside | top | acting | late | undefined
deriving DecidableEq, Repr

/-- RunLoop.hpp:76 `m_stopping`; EPollRunLoop.hpp:39 `m_descriptors`; the `m_canceled` of the items; EPollRunLoop.cpp:113-115 the three queues, one after the
other in the order in which they are processed (an item may be null); the next number for a registration and the next place in memory. The rest is the
kernel's: which file is behind each number of the process, the interest list, and the next file. -/
structure St where
  pc : Pc
  stopping : Bool
  descs : List Desc
  canceled : List Nat
  activated : List (Cond × Option Act)
  nextItem : Nat
  nextAddr : Nat
  table : List (Nat × Nat)
  interests : List Interest
  nextFile : Nat
deriving DecidableEq, Repr

/-- EPollRunLoop.cpp:51-61 -/
def init : St := ⟨.outside, false, [], [], [], 0, 0, [], [], 0⟩

/-- what the application does, at any time, and the steps of `run` -/
inductive Op where
  | opened (fd : Nat)                          -- the kernel gives out this number for a new file (`socket`, `accept`, `pipe`, ..)
  | dup (fd fd' : Nat)                         -- `dup2`, or a child process: one more number for the same file
  | close (fd : Nat)                           -- ::close
  | register (c : Cond) (fd : Nat)             -- EPollRunLoop::registerDescriptor with an action
  | unregister (c : Cond) (fd : Nat)           -- EPollRunLoop::unregisterDescriptor
  | clear                                      -- EPollRunLoop::clear
  | stop                                       -- RunLoop::stop
  | run                                        -- EPollRunLoop::run is called
  | wait (found : List Found)                  -- `epoll_wait` returned these
  | act                                        -- one evaluation of the loop condition at line 181 and its body
  | rest                                       -- the loop condition of `run`

/-- what can be observed: numbers given out and closed; actions registered, unregistered and called; `run` began and ended, `stop` was called; `epoll_wait` was
called, with what the kernel had been asked for by then, and gave these events; tasks and timers get their turn; `wild`: memory that had been given back was used -/
inductive Ev where
  | opened (fd file : Nat)
  | closed (fd : Nat)
  | registered (i : Item)
  | unregistered (i : Item)
  | acted (i : Item)
  | began
  | stopped
  | polled (asked : List Interest) (found : List Found)
  | turn
  | ended
  | wild
deriving DecidableEq, Repr

/-- the kernel: the file behind a number -/
def fileOf (table : List (Nat × Nat)) (fd : Nat) : Option Nat := (table.find? (fun p => p.1 = fd)).map (·.2)

/-- epoll_ctl(2): `EPOLL_CTL_ADD`, `EPOLL_CTL_MOD`, `EPOLL_CTL_DEL` -/
inductive Ctl where
  | add | mod | del
deriving DecidableEq, Repr

/-- epoll_ctl(2): fails with EBADF for a number that is not open, EEXIST for an entry that is there already, ENOENT for one that is not. The loop does not
look at what it returns (EPollRunLoop.cpp:84, 101). -/
def ctl (st : St) (op : Ctl) (fd : Nat) (mask : Mask) (ptr : Nat) : St :=
  match fileOf st.table fd with
  | none => st
  | some file =>
    match op with
    | .add =>
      if st.interests.any (fun i => i.fd = fd ∧ i.file = file) then st
      else { st with interests := st.interests ++ [⟨fd, file, mask, ptr⟩] }
    | .mod => { st with interests := st.interests.map (fun i => if i.fd = fd ∧ i.file = file then ⟨fd, file, mask, ptr⟩ else i) }
    | .del => { st with interests := st.interests.filter (fun i => ¬ (i.fd = fd ∧ i.file = file)) }

/-- close(2), epoll(7): the entries of a file go when the last number that refers to it is closed -/
def close (st : St) (fd : Nat) : St :=
  match fileOf st.table fd with
  | none => st
  | some file =>
    let table := st.table.filter (fun p => p.1 ≠ fd)
    { st with
      table := table
      interests := if table.any (fun p => p.2 = file) then st.interests else st.interests.filter (fun i => i.file ≠ file) }

/-- EPollRunLoop.cpp:71, 89-92 `m_descriptors[fd]` -/
def findDesc (st : St) (fd : Nat) : Option Desc := st.descs.find? (fun d => d.fd = fd)

/-- a change to the object that `m_descriptors` has for the number -/
def putDesc (descs : List Desc) (d : Desc) : List Desc := descs.map (fun e => if e.fd = d.fd then d else e)

/-- EPollRunLoop.cpp:87-106 `unregisterDescriptor` -/
def unregister (st : St) (c : Cond) (fd : Nat) : St × List Ev :=
  match findDesc st fd with
  | none => (st, [])
  | some d =>
    match d.item c with
    | none => (st, [])
    | some a =>
      let d' := d.set c none
      let st1 := { st with canceled := st.canceled ++ [a.id], descs := putDesc st.descs d' }
      let st2 := ctl st1 (if d'.events.any then .mod else .del) fd d'.events d'.addr
      (if d'.events.any then st2 else { st2 with descs := st2.descs.filter (fun e => e.fd ≠ fd) }, [.unregistered ⟨c, a.fd, a.id⟩])

/-- EPollRunLoop.cpp:71-84: `registerDescriptor` from line 71 on -/
def install (st : St) (c : Cond) (fd : Nat) : St :=
  let a : Act := ⟨fd, st.nextItem⟩
  match findDesc st fd with
  | none =>
    let d := Desc.set ⟨fd, st.nextAddr, none, none, none⟩ c (some a)
    ctl { st with nextItem := st.nextItem + 1, nextAddr := st.nextAddr + 1, descs := st.descs ++ [d] } .add fd d.events d.addr
  | some d =>
    let d' := d.set c (some a)
    ctl { st with nextItem := st.nextItem + 1, descs := putDesc st.descs d' } .mod fd d'.events d'.addr

/-- EPollRunLoop.cpp:62-85 `registerDescriptor`, with an action and a descriptor that is not negative -/
def register (st : St) (c : Cond) (fd : Nat) : St × List Ev :=
  let r := unregister st c fd
  (install r.1 c fd, r.2 ++ [.registered ⟨c, fd, r.1.nextItem⟩])

/-- RunLoop.cpp:21-26 `unregisterDescriptor` of all conditions -/
def unregisterFd (st : St) (fd : Nat) : St × List Ev :=
  let r1 := unregister st .readable fd
  let r2 := unregister r1.1 .writable fd
  let r3 := unregister r2.1 .exception fd
  (r3.1, r1.2 ++ r2.2 ++ r3.2)

/-- EPollRunLoop.cpp:166-173 `clear`: the numbers of the copy `safeDescriptors` one after the other -/
def clearFds (st : St) : List Nat → St × List Ev
  | [] => (st, [])
  | fd :: l =>
    let r1 := unregisterFd st fd
    let r2 := clearFds r1.1 l
    (r2.1, r1.2 ++ r2.2)

/-- epoll_wait(2): at most `maxEvents` (EPollRunLoop.cpp:111), for different entries of the interest list; of the conditions asked for, and errors and hang-ups
whether asked for or not -/
def possible (st : St) (found : List Found) : Bool :=
  found.length ≤ 64 && found.all (fun f => (f.r || f.w || f.x || f.hup) &&
    st.interests.any (fun i => i.fd = f.fd ∧ i.file = f.file ∧ (f.r = true → i.mask.r = true) ∧ (f.w = true → i.mask.w = true))) &&
  decide (found.Pairwise (fun f g => ¬ (f.fd = g.fd ∧ f.file = g.file)))

/-- EPollRunLoop.cpp:133: the object that `data.ptr` points to; `none` if it is no more -/
def target (st : St) (f : Found) : Option Desc :=
  (st.interests.find? (fun i => i.fd = f.fd ∧ i.file = f.file)).bind (fun i => st.descs.find? (fun d => d.addr = i.ptr))

/-- EPollRunLoop.cpp:134-139 for one condition -/
def pushed (st : St) (found : List Found) (c : Cond) : List (Cond × Option Act) :=
  (found.filter (fun f => f.bit c)).map (fun f => (c, (target st f).bind (fun d => d.item c)))

/-- one step; `none` if this cannot happen here -/
def step (st : St) : Op → Option (St × List Ev)
  | .opened fd =>
    if (fileOf st.table fd).isSome || st.pc = .undefined then none
    else some ({ st with table := st.table ++ [(fd, st.nextFile)], nextFile := st.nextFile + 1 }, [.opened fd st.nextFile])
  | .dup fd fd' =>
    if (fileOf st.table fd').isSome || st.pc = .undefined then none
    else (fileOf st.table fd).map (fun file => ({ st with table := st.table ++ [(fd', file)] }, [.opened fd' file]))
  | .close fd => if (fileOf st.table fd).isNone || st.pc = .undefined then none else some (close st fd, [.closed fd])
  | .register c fd => if st.pc = .undefined then none else some (register st c fd)
  | .unregister c fd => if st.pc = .undefined then none else some (unregister st c fd)
  | .clear => if st.pc = .undefined then none else some (clearFds st (st.descs.map (·.fd)))
  | .stop => if st.pc = .undefined then none else some ({ st with stopping := true }, [.stopped])
  | .run => if st.pc = .outside then some ({ st with pc := .top, stopping := false }, [.began]) else none
  | .wait found =>
    if st.pc = .top && possible st found then
      if found.all (fun f => (target st f).isSome) then
        some ({ st with pc := .acting, activated := pushed st found .exception ++ pushed st found .readable ++ pushed st found .writable },
          [.polled st.interests found])
      else some ({ st with pc := .undefined }, [.polled st.interests found, .wild])
    else none
  | .act =>
    if st.pc = .acting then
      match st.activated with
      | [] => some ({ st with pc := .late }, [.turn])
      | (_, none) :: l => some ({ st with activated := l }, [])
      | (c, some a) :: l =>
        some ({ st with activated := l }, if st.canceled.contains a.id || st.stopping then [] else [.acted ⟨c, a.fd, a.id⟩])
    else none
  | .rest =>
    if st.pc = .late then
      if st.stopping then some ({ st with pc := .outside }, [.ended])
      else some ({ st with pc := .top }, [])
    else none

/-- a history from a state and what was observed -/
inductive Run (st0 : St) : List Op → St → List Ev → Prop
  | nil : Run st0 [] st0 []
  | step {ops st evs op st' evs'} : Run st0 ops st evs → step st op = some (st', evs') → Run st0 (ops ++ [op]) st' (evs ++ evs')

end EP
end Rtmfp
