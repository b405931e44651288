import Verif.Spec.EPoll
/-! # The run loop over `epoll`: what holds in every history -/
namespace Rtmfp
namespace EP
open Spec.EP
open RL (Cond Item)

/-! ## Small facts -/

theorem Desc.item_set (d : Desc) (c c' : Cond) (a : Option Act) : (d.set c a).item c' = if c' = c then a else d.item c' := by
  cases c <;> cases c' <;> rfl

@[simp] theorem Desc.set_fd (d : Desc) (c : Cond) (a : Option Act) : (d.set c a).fd = d.fd := by cases c <;> rfl
@[simp] theorem Desc.set_addr (d : Desc) (c : Cond) (a : Option Act) : (d.set c a).addr = d.addr := by cases c <;> rfl

theorem Desc.events_bit (d : Desc) (c : Cond) : d.events.bit c = (d.item c).isSome := by cases c <;> rfl

theorem Mask.any_iff (m : Mask) : m.any = true ↔ ∃ c, m.bit c = true := by
  constructor
  · intro h
    simp only [Mask.any, Bool.or_eq_true] at h
    rcases h with (h | h) | h
    · exact ⟨.readable, h⟩
    · exact ⟨.writable, h⟩
    · exact ⟨.exception, h⟩
  · rintro ⟨c, h⟩
    simp only [Mask.any, Bool.or_eq_true]
    cases c
    · exact Or.inl (Or.inl h)
    · exact Or.inl (Or.inr h)
    · exact Or.inr h

/-- the parts of the state that belong to the loop are not the kernel's business -/
theorem ctl_same (st : St) (op : Ctl) (fd : Nat) (m : Mask) (p : Nat) :
    (ctl st op fd m p).pc = st.pc ∧ (ctl st op fd m p).stopping = st.stopping ∧ (ctl st op fd m p).descs = st.descs ∧
      (ctl st op fd m p).canceled = st.canceled ∧ (ctl st op fd m p).activated = st.activated ∧ (ctl st op fd m p).nextItem = st.nextItem ∧
      (ctl st op fd m p).nextAddr = st.nextAddr ∧ (ctl st op fd m p).table = st.table ∧ (ctl st op fd m p).nextFile = st.nextFile := by
  unfold ctl
  split
  · simp
  · cases op
    · dsimp only
      split <;> simp
    · simp
    · simp

/-- what an action in force looks like in the state -/
def Has (st : St) (i : Item) : Prop := ∃ d ∈ st.descs, d.fd = i.fd ∧ d.item i.cond = some ⟨i.fd, i.id⟩

/-- the loop's own books -/
structure Books (st : St) (evs : List Ev) : Prop where
  fds : st.descs.Pairwise (fun d e => d.fd ≠ e.fd)
  addrs : st.descs.Pairwise (fun d e => d.addr ≠ e.addr)
  fresh : ∀ d ∈ st.descs, d.addr < st.nextAddr
  used : ∀ d ∈ st.descs, d.events.any = true
  own : ∀ d ∈ st.descs, ∀ c a, d.item c = some a → a.fd = d.fd
  force : ∀ i, InForce evs i ↔ Has st i
  ids : ∀ i, .registered i ∈ evs → i.id < st.nextItem
  uniq : ∀ i j, .registered i ∈ evs → .registered j ∈ evs → i.id = j.id → i = j
  gone : ∀ i, .unregistered i ∈ evs → .registered i ∈ evs
  cancel : ∀ n, n ∈ st.canceled ↔ ∃ i, i.id = n ∧ .unregistered i ∈ evs

theorem findDesc_some {st : St} {fd : Nat} {d : Desc} (h : findDesc st fd = some d) : d ∈ st.descs ∧ d.fd = fd := by
  unfold findDesc at h
  exact ⟨List.mem_of_find?_eq_some h, by simpa using List.find?_some h⟩

theorem findDesc_none {st : St} {fd : Nat} (h : findDesc st fd = none) : ∀ d ∈ st.descs, d.fd ≠ fd := by
  unfold findDesc at h
  simpa using h

theorem fd_unique {l : List Desc} (h : l.Pairwise (fun d e => d.fd ≠ e.fd)) {d e : Desc} (hd : d ∈ l) (he : e ∈ l) (hf : d.fd = e.fd) : d = e := by
  induction l with
  | nil => cases hd
  | cons x l ih =>
    rw [List.pairwise_cons] at h
    rcases List.mem_cons.1 hd with rfl | hd1
    · rcases List.mem_cons.1 he with rfl | he
      · rfl
      · exact absurd hf (h.1 _ he)
    · rcases List.mem_cons.1 he with rfl | he
      · exact absurd hf.symm (h.1 _ hd1)
      · exact ih h.2 hd1 he

theorem addr_unique {l : List Desc} (h : l.Pairwise (fun d e => d.addr ≠ e.addr)) {d e : Desc} (hd : d ∈ l) (he : e ∈ l) (hf : d.addr = e.addr) : d = e := by
  induction l with
  | nil => cases hd
  | cons x l ih =>
    rw [List.pairwise_cons] at h
    rcases List.mem_cons.1 hd with rfl | hd1
    · rcases List.mem_cons.1 he with rfl | he
      · rfl
      · exact absurd hf (h.1 _ he)
    · rcases List.mem_cons.1 he with rfl | he
      · exact absurd hf.symm (h.1 _ hd1)
      · exact ih h.2 hd1 he

theorem mem_putDesc {l : List Desc} {d e : Desc} (hd : d ∈ l ∨ ∃ d0 ∈ l, d0.fd = d.fd) : e ∈ putDesc l d ↔ e = d ∨ (e ∈ l ∧ e.fd ≠ d.fd) := by
  unfold putDesc
  rw [List.mem_map]
  constructor
  · rintro ⟨x, hx, hxe⟩
    by_cases hf : x.fd = d.fd
    · rw [if_pos hf] at hxe; exact Or.inl hxe.symm
    · rw [if_neg hf] at hxe; subst hxe; exact Or.inr ⟨hx, hf⟩
  · rintro (rfl | ⟨he, hf⟩)
    · rcases hd with hd | ⟨d0, h0, hf⟩
      · exact ⟨e, hd, if_pos rfl⟩
      · exact ⟨d0, h0, if_pos hf⟩
    · exact ⟨e, he, if_neg hf⟩

theorem putDesc_pairwise {l : List Desc} {R : Desc → Desc → Prop} {d : Desc} (h : l.Pairwise R)
    (h1 : ∀ x ∈ l, ∀ y ∈ l, x.fd = d.fd → R x y → y.fd ≠ d.fd → R d y) (h2 : ∀ x ∈ l, ∀ y ∈ l, y.fd = d.fd → R x y → x.fd ≠ d.fd → R x d)
    (hf : l.Pairwise (fun d e => d.fd ≠ e.fd)) : (putDesc l d).Pairwise R := by
  unfold putDesc
  rw [List.pairwise_map]
  refine (List.Pairwise.and h hf).imp_of_mem ?_
  rintro x y hx hy ⟨hr, hne⟩
  by_cases hxd : x.fd = d.fd
  · have hyd : y.fd ≠ d.fd := fun h => hne (hxd.trans h.symm)
    rw [if_pos hxd, if_neg hyd]
    exact h1 x hx y hy hxd hr hyd
  · rw [if_neg hxd]
    by_cases hyd : y.fd = d.fd
    · rw [if_pos hyd]; exact h2 x hx y hy hyd hr hxd
    · rw [if_neg hyd]; exact hr

/-! ## Traces -/

theorem inForce_quiet {evs evs' : List Ev} (h1 : ∀ i, .registered i ∉ evs') (h2 : ∀ i, .unregistered i ∉ evs') (i : Item) :
    InForce (evs ++ evs') i ↔ InForce evs i := by
  simp [InForce, h1 i, h2 i]

theorem fileAt_append (evs evs' : List Ev) (fd : Nat) (h : ∀ f, .opened fd f ∉ evs') (h' : .closed fd ∉ evs') : fileAt (evs ++ evs') fd = fileAt evs fd := by
  unfold fileAt
  rw [List.filterMap_append]
  have : evs'.filterMap (fate fd) = [] := by
    rw [List.filterMap_eq_nil_iff]
    intro x hx
    cases x with
    | opened n f =>
      have : n ≠ fd := by rintro rfl; exact h f hx
      simp [fate, this]
    | closed n =>
      have : n ≠ fd := by rintro rfl; exact h' hx
      simp [fate, this]
    | _ => rfl
  rw [this, List.append_nil]

theorem fileAt_opened (evs : List Ev) (fd f : Nat) : fileAt (evs ++ [.opened fd f]) fd = some f := by simp [fileAt, fate]

theorem fileAt_closed (evs : List Ev) (fd : Nat) : fileAt (evs ++ [.closed fd]) fd = none := by simp [fileAt, fate]

theorem careful_left {evs evs' : List Ev} (h : Careful (evs ++ evs')) : Careful evs :=
  fun e1 fd e2 he => h e1 fd (e2 ++ evs') (by rw [he]; simp)

theorem tidy_left {evs evs' : List Ev} (h : Tidy (evs ++ evs')) : Tidy evs :=
  ⟨fun e1 fd e2 he => h.1 e1 fd (e2 ++ evs') (by rw [he]; simp), fun e1 i e2 he => h.2 e1 i (e2 ++ evs') (by rw [he]; simp)⟩

theorem tidy_careful {evs : List Ev} (h : Tidy evs) : Careful evs := fun e1 fd e2 he => Or.inl (h.1 e1 fd e2 he)

theorem going_quiet {evs evs' : List Ev} (h1 : .began ∉ evs') (h2 : .stopped ∉ evs') : Going (evs ++ evs') ↔ Going evs := by
  constructor
  · rintro ⟨e1, e2, he, hn⟩
    rcases List.append_eq_append_iff.1 he with ⟨as, ha, hb⟩ | ⟨bs, ha, hb⟩
    · exact absurd (by rw [hb]; simp) h1
    · cases bs with
      | nil => simp only [List.nil_append] at hb; exact absurd (by rw [← hb]; simp) h1
      | cons b bs =>
        simp only [List.cons_append, List.cons.injEq] at hb
        obtain ⟨rfl, hb⟩ := hb
        exact ⟨e1, bs, ha, fun hm => hn (by rw [hb]; exact List.mem_append_left _ hm)⟩
  · rintro ⟨e1, e2, he, hn⟩
    exact ⟨e1, e2 ++ evs', by rw [he]; simp, by simp [hn, h2]⟩

theorem going_stopped (evs : List Ev) : ¬ Going (evs ++ [.stopped]) := by
  rintro ⟨e1, e2, he, hn⟩
  rcases List.eq_nil_or_concat e2 with rfl | ⟨l, x, rfl⟩
  · have := congrArg List.getLast? he
    simp at this
  · rw [List.concat_eq_append, ← List.cons_append, ← List.append_assoc] at he
    have := (List.append_inj' he rfl).2
    simp only [List.cons.injEq, and_true] at this
    exact hn (by simp [this])

theorem acted_append (a b : List Ev) : acted (a ++ b) = acted a ++ acted b := by simp [acted]

/-- the last `polled` of a longer trace is that of the shorter one if none was added -/
theorem split_polled {evs evs' e1 e2 : List Ev} {a : List Interest} {f : List Found} (he : evs ++ evs' = e1 ++ Ev.polled a f :: e2)
    (hq : ∀ a f, Ev.polled a f ∉ evs') : ∃ e3, evs = e1 ++ Ev.polled a f :: e3 ∧ e2 = e3 ++ evs' := by
  rcases List.append_eq_append_iff.1 he with ⟨as, ha, hb⟩ | ⟨bs, ha, hb⟩
  · exact absurd (by rw [hb]; simp) (hq a f)
  · cases bs with
    | nil => simp only [List.nil_append] at hb; exact absurd (by rw [← hb]; simp) (hq a f)
    | cons b bs =>
      simp only [List.cons_append, List.cons.injEq] at hb
      obtain ⟨rfl, hb⟩ := hb
      exact ⟨bs, ha, hb⟩

/-! ## The kernel -/

/-- which file is behind each number -/
structure Tab (st : St) (evs : List Ev) : Prop where
  keys : st.table.Pairwise (fun p q => p.1 ≠ q.1)
  same : ∀ fd, fileOf st.table fd = fileAt evs fd

/-- the interest list, as long as no file outlives its registration -/
structure Kern (st : St) : Prop where
  ok : ∀ i ∈ st.interests, fileOf st.table i.fd = some i.file ∧ ∃ d ∈ st.descs, d.fd = i.fd ∧ d.addr = i.ptr ∧ d.events = i.mask

/-- every descriptor with an action is in the interest list -/
def Full (st : St) : Prop := ∀ d ∈ st.descs, ∃ i ∈ st.interests, i.fd = d.fd

theorem fileOf_mem {t : List (Nat × Nat)} (hk : t.Pairwise (fun p q => p.1 ≠ q.1)) {p : Nat × Nat} (hp : p ∈ t) : fileOf t p.1 = some p.2 := by
  induction t with
  | nil => cases hp
  | cons q t ih =>
    rw [List.pairwise_cons] at hk
    unfold fileOf
    rw [List.find?_cons]
    by_cases hq : q.1 = p.1
    · simp only [hq, decide_true]
      rcases List.mem_cons.1 hp with rfl | hp
      · rfl
      · exact absurd hq (hk.1 _ hp)
    · simp only [hq, decide_false]
      rcases List.mem_cons.1 hp with rfl | hp
      · exact absurd rfl hq
      · exact ih hk.2 hp

theorem fileOf_append {t : List (Nat × Nat)} {fd f : Nat} (h : fileOf t fd = none) (n : Nat) :
    fileOf (t ++ [(fd, f)]) n = if n = fd then some f else fileOf t n := by
  unfold fileOf at h ⊢
  rw [List.find?_append]
  by_cases hn : n = fd
  · subst hn
    simp only [Option.map_eq_none_iff] at h
    rw [h]
    simp
  · rw [if_neg hn]
    have : List.find? (fun p => decide (p.1 = n)) [(fd, f)] = none := by simp [Ne.symm hn]
    rw [this]
    simp

theorem fileOf_filter (t : List (Nat × Nat)) (fd n : Nat) :
    fileOf (t.filter (fun p => p.1 ≠ fd)) n = if n = fd then none else fileOf t n := by
  unfold fileOf
  rw [List.find?_filter]
  by_cases hn : n = fd
  · subst hn
    rw [if_pos rfl, Option.map_eq_none_iff, List.find?_eq_none]
    intro p _ h
    simp only [ne_eq, decide_not, Bool.not_eq_eq_eq_not, Bool.not_true, decide_eq_false_iff_not, decide_eq_true_eq] at h
    exact h.1 h.2
  · rw [if_neg hn]
    congr 2
    funext p
    by_cases hp : p.1 = n
    · simp [hp, hn]
    · simp [hp]

theorem ctl_mod_mem {st : St} (hk : ∀ i ∈ st.interests, fileOf st.table i.fd = some i.file) (fd : Nat) (m : Mask) (p : Nat) (x : Interest) :
    x ∈ (ctl st .mod fd m p).interests ↔ (x ∈ st.interests ∧ x.fd ≠ fd) ∨ ∃ i ∈ st.interests, i.fd = fd ∧ x = ⟨fd, i.file, m, p⟩ := by
  unfold ctl
  cases hf : fileOf st.table fd with
  | none =>
    have hno : ∀ i ∈ st.interests, i.fd ≠ fd := fun i hi h => by have := hk i hi; rw [h, hf] at this; cases this
    constructor
    · exact fun hx => Or.inl ⟨hx, hno x hx⟩
    · rintro (⟨hx, _⟩ | ⟨i, hi, hfd, _⟩)
      · exact hx
      · exact absurd hfd (hno i hi)
  | some file =>
    have hsame : ∀ i ∈ st.interests, i.fd = fd → i.file = file := fun i hi h => by
      have := hk i hi; rw [h, hf] at this; exact (Option.some.inj this).symm
    simp only [List.mem_map]
    constructor
    · rintro ⟨i, hi, rfl⟩
      by_cases h : i.fd = fd ∧ i.file = file
      · rw [if_pos h]; exact Or.inr ⟨i, hi, h.1, by rw [h.2]⟩
      · rw [if_neg h]
        exact Or.inl ⟨hi, fun hfd => h ⟨hfd, hsame i hi hfd⟩⟩
    · rintro (⟨hx, hne⟩ | ⟨i, hi, hfd, rfl⟩)
      · exact ⟨x, hx, if_neg (fun h => hne h.1)⟩
      · exact ⟨i, hi, by rw [if_pos ⟨hfd, hsame i hi hfd⟩, hsame i hi hfd]⟩

theorem ctl_del_mem {st : St} (hk : ∀ i ∈ st.interests, fileOf st.table i.fd = some i.file) (fd : Nat) (m : Mask) (p : Nat) (x : Interest) :
    x ∈ (ctl st .del fd m p).interests ↔ x ∈ st.interests ∧ x.fd ≠ fd := by
  unfold ctl
  cases hf : fileOf st.table fd with
  | none =>
    have hno : ∀ i ∈ st.interests, i.fd ≠ fd := fun i hi h => by have := hk i hi; rw [h, hf] at this; cases this
    exact ⟨fun hx => ⟨hx, hno x hx⟩, fun h => h.1⟩
  | some file =>
    have hsame : ∀ i ∈ st.interests, i.fd = fd → i.file = file := fun i hi h => by
      have := hk i hi; rw [h, hf] at this; exact (Option.some.inj this).symm
    simp only [List.mem_filter, decide_eq_true_eq]
    constructor
    · rintro ⟨hx, hn⟩
      exact ⟨hx, fun hfd => hn ⟨hfd, hsame x hx hfd⟩⟩
    · rintro ⟨hx, hn⟩
      exact ⟨hx, fun h => hn h.1⟩

theorem ctl_add_mem {st : St} (hno : ∀ i ∈ st.interests, i.fd ≠ fd) (m : Mask) (p : Nat) (x : Interest) :
    x ∈ (ctl st .add fd m p).interests ↔ x ∈ st.interests ∨ ∃ file, fileOf st.table fd = some file ∧ x = ⟨fd, file, m, p⟩ := by
  unfold ctl
  cases hf : fileOf st.table fd with
  | none => simp
  | some file =>
    have : st.interests.any (fun i => decide (i.fd = fd ∧ i.file = file)) = false := by
      rw [List.any_eq_false]
      intro i hi h
      exact hno i hi (by simpa using (of_decide_eq_true h).1)
    simp only [this]
    simp

theorem ctl_interests {st st' : St} (ht : st'.table = st.table) (hi : st'.interests = st.interests) (op : Ctl) (fd : Nat) (m : Mask) (p : Nat) :
    (ctl st' op fd m p).interests = (ctl st op fd m p).interests := by
  unfold ctl
  rw [ht]
  split
  · exact hi
  · cases op
    · dsimp only
      rw [hi]
      split
      · exact hi
      · rfl
    · simp [hi]
    · simp [hi]

/-! ## Registering and unregistering -/

/-- the parts of a state that registering and unregistering leave alone -/
def Alike (st st' : St) : Prop :=
  st'.pc = st.pc ∧ st'.stopping = st.stopping ∧ st'.activated = st.activated ∧ st'.table = st.table ∧ st'.nextFile = st.nextFile

theorem unregister_cases (st : St) (c : Cond) (fd : Nat) :
    (unregister st c fd = (st, []) ∧ ∀ d, findDesc st fd = some d → d.item c = none) ∨
    ∃ d a, findDesc st fd = some d ∧ d.item c = some a ∧ (unregister st c fd).2 = [.unregistered ⟨c, a.fd, a.id⟩] ∧ Alike st (unregister st c fd).1 ∧
      (unregister st c fd).1.canceled = st.canceled ++ [a.id] ∧ (unregister st c fd).1.nextItem = st.nextItem ∧
      (unregister st c fd).1.nextAddr = st.nextAddr ∧
      (unregister st c fd).1.descs = (if (d.set c none).events.any then putDesc st.descs (d.set c none)
        else (putDesc st.descs (d.set c none)).filter (fun e => e.fd ≠ fd)) ∧
      (unregister st c fd).1.interests = (ctl st (if (d.set c none).events.any then .mod else .del) fd (d.set c none).events d.addr).interests := by
  cases hf : findDesc st fd with
  | none =>
    left
    refine ⟨by unfold unregister; rw [hf], by simp⟩
  | some d =>
    cases ha : d.item c with
    | none =>
      left
      refine ⟨by unfold unregister; rw [hf]; simp only; rw [ha], ?_⟩
      intro d' hd'
      cases hd'
      exact ha
    | some a =>
      right
      refine ⟨d, a, rfl, ha, ?_⟩
      have e : unregister st c fd = (if (d.set c none).events.any then
          ctl { st with canceled := st.canceled ++ [a.id], descs := putDesc st.descs (d.set c none) }
            (if (d.set c none).events.any then .mod else .del) fd (d.set c none).events (d.set c none).addr
        else { ctl { st with canceled := st.canceled ++ [a.id], descs := putDesc st.descs (d.set c none) }
            (if (d.set c none).events.any then .mod else .del) fd (d.set c none).events (d.set c none).addr with
            descs := (ctl { st with canceled := st.canceled ++ [a.id], descs := putDesc st.descs (d.set c none) }
            (if (d.set c none).events.any then .mod else .del) fd (d.set c none).events (d.set c none).addr).descs.filter (fun e => e.fd ≠ fd) },
          [.unregistered ⟨c, a.fd, a.id⟩]) := by
        unfold unregister
        rw [hf]
        simp only
        rw [ha]
      rw [e]
      generalize hst : ({ st with canceled := st.canceled ++ [a.id], descs := putDesc st.descs (d.set c none) } : St) = st1
      have hs := ctl_same st1 (if (d.set c none).events.any then .mod else .del) fd (d.set c none).events (d.set c none).addr
      have hi := ctl_interests (st := st) (st' := st1) (by rw [← hst]) (by rw [← hst]) (if (d.set c none).events.any then .mod else .del) fd
        (d.set c none).events (d.set c none).addr
      rw [Desc.set_addr] at hs hi ⊢
      rw [← hi]
      generalize ctl st1 (if (d.set c none).events.any then .mod else .del) fd (d.set c none).events d.addr = st2 at hs
      subst hst
      obtain ⟨h1, h2, h3, h4, h5, h6, h7, h8, h9⟩ := hs
      simp only [Alike]
      by_cases hany : (d.set c none).events.any = true
      · simp only [hany, if_true, h1, h2, h3, h4, h5, h6, h7, h8, h9, and_self]
      · simp only [hany, h1, h2, h3, h4, h5, h6, h7, h8, h9, and_self, if_false, Bool.false_eq_true]

/-- which objects are left after unregistering -/
theorem unregister_mem {st : St} {c : Cond} {fd : Nat} {d : Desc} (hf : findDesc st fd = some d) (e : Desc) :
    e ∈ (if (d.set c none).events.any then putDesc st.descs (d.set c none) else (putDesc st.descs (d.set c none)).filter (fun e => e.fd ≠ fd)) ↔
      (e ∈ st.descs ∧ e.fd ≠ fd) ∨ (e = d.set c none ∧ (d.set c none).events.any = true) := by
  obtain ⟨hd, hfd⟩ := findDesc_some hf
  have hm := @mem_putDesc st.descs (d.set c none) e (Or.inr ⟨d, hd, by simp⟩)
  rw [Desc.set_fd, hfd] at hm
  split
  · rename_i h
    rw [hm]
    simp only [h, and_true]
    exact or_comm
  · rename_i h
    rw [List.mem_filter, hm]
    constructor
    · rintro ⟨rfl | h1, h2⟩
      · simp [hfd] at h2
      · exact Or.inl h1
    · rintro (⟨h1, h2⟩ | ⟨_, hh⟩)
      · exact ⟨Or.inr ⟨h1, h2⟩, by simpa using h2⟩
      · exact absurd hh h

theorem unregister_pairwise {st : St} {c : Cond} {fd : Nat} {d : Desc} (hf : findDesc st fd = some d) (h1 : st.descs.Pairwise (fun d e => d.fd ≠ e.fd))
    (h2 : st.descs.Pairwise (fun d e => d.addr ≠ e.addr)) :
    (if (d.set c none).events.any then putDesc st.descs (d.set c none) else (putDesc st.descs (d.set c none)).filter (fun e => e.fd ≠ fd)).Pairwise
        (fun d e => d.fd ≠ e.fd) ∧
      (if (d.set c none).events.any then putDesc st.descs (d.set c none) else (putDesc st.descs (d.set c none)).filter (fun e => e.fd ≠ fd)).Pairwise
        (fun d e => d.addr ≠ e.addr) := by
  obtain ⟨hd, hfd⟩ := findDesc_some hf
  have p1 : (putDesc st.descs (d.set c none)).Pairwise (fun d e => d.fd ≠ e.fd) :=
    putDesc_pairwise h1 (fun x _ y _ hx _ hy => fun h => hy h.symm) (fun x _ y _ hy _ hx => hx) h1
  have p2 : (putDesc st.descs (d.set c none)).Pairwise (fun d e => d.addr ≠ e.addr) := by
    refine putDesc_pairwise h2 (fun x hx y hy hxf hr _ => ?_) (fun x hx y hy hyf hr _ => ?_) h1
    · have : x = d := fd_unique h1 hx hd (by simpa using hxf)
      subst this
      simpa using hr
    · have : y = d := fd_unique h1 hy hd (by simpa using hyf)
      subst this
      simpa using hr
  split
  · exact ⟨p1, p2⟩
  · exact ⟨p1.filter _, p2.filter _⟩

theorem has_item {st : St} (h : st.descs.Pairwise (fun d e => d.fd ≠ e.fd)) {d : Desc} (hd : d ∈ st.descs) (i : Item) (hf : i.fd = d.fd) :
    Has st i ↔ d.item i.cond = some ⟨i.fd, i.id⟩ := by
  constructor
  · rintro ⟨e, he, hef, hi⟩
    rw [fd_unique h hd he (hf.symm.trans hef.symm)]
    exact hi
  · exact fun hi => ⟨d, hd, hf.symm, hi⟩

theorem Books.unregister {st : St} {evs : List Ev} (h : Books st evs) (c : Cond) (fd : Nat) :
    Books (EP.unregister st c fd).1 (evs ++ (EP.unregister st c fd).2) := by
  rcases unregister_cases st c fd with ⟨e, _⟩ | ⟨d, a, hf, ha, h2, _, hc, hn, hna, hds, _⟩
  · rw [e]; simpa using h
  · obtain ⟨hd, hfd⟩ := findDesc_some hf
    have hm := fun e => unregister_mem (c := c) hf e
    have hp := unregister_pairwise (c := c) hf h.fds h.addrs
    rw [← hds] at hm hp
    have hafd : a.fd = fd := (h.own d hd c a ha).trans hfd
    rw [h2]
    have hin : InForce evs ⟨c, a.fd, a.id⟩ := (h.force _).2 ⟨d, hd, by simp [hafd, hfd], by simpa using ha⟩
    refine ⟨hp.1, hp.2, ?_, ?_, ?_, ?_, ?_, ?_, ?_, ?_⟩
    · intro e he
      rw [hna]
      rcases (hm e).1 he with ⟨he, _⟩ | ⟨rfl, _⟩
      · exact h.fresh e he
      · rw [Desc.set_addr]; exact h.fresh d hd
    · intro e he
      rcases (hm e).1 he with ⟨he, _⟩ | ⟨rfl, hx⟩
      · exact h.used e he
      · exact hx
    · intro e he c' b hb
      rcases (hm e).1 he with ⟨he, _⟩ | ⟨rfl, _⟩
      · exact h.own e he c' b hb
      · rw [Desc.item_set] at hb
        split at hb
        · cases hb
        · rw [Desc.set_fd]; exact h.own d hd c' b hb
    · intro i
      have hif : InForce (evs ++ [.unregistered ⟨c, a.fd, a.id⟩]) i ↔ InForce evs i ∧ i ≠ ⟨c, a.fd, a.id⟩ := by
        simp only [InForce, List.mem_append, List.mem_singleton, Ev.unregistered.injEq, reduceCtorEq, or_false, not_or]
        exact and_assoc.symm
      rw [hif, h.force]
      constructor
      · rintro ⟨⟨e, he, hef, hi⟩, hne⟩
        by_cases hfe : e.fd = fd
        · have hed : e = d := fd_unique h.fds he hd (hfe.trans hfd.symm)
          subst hed
          have hcc : i.cond ≠ c := by
            rintro rfl
            rw [ha, Option.some.injEq] at hi
            apply hne
            cases i
            simp only at hi ⊢
            rw [hi]
          have hset : (e.set c none).item i.cond = some ⟨i.fd, i.id⟩ := by rw [Desc.item_set, if_neg hcc]; exact hi
          refine ⟨e.set c none, (hm _).2 (Or.inr ⟨rfl, ?_⟩), by simpa using hef, hset⟩
          rw [Mask.any_iff]
          exact ⟨i.cond, by rw [Desc.events_bit, hset]; rfl⟩
        · exact ⟨e, (hm e).2 (Or.inl ⟨he, hfe⟩), hef, hi⟩
      · rintro ⟨e, he, hef, hi⟩
        rcases (hm e).1 he with ⟨he, hne⟩ | ⟨rfl, _⟩
        · refine ⟨⟨e, he, hef, hi⟩, ?_⟩
          rintro rfl
          exact hne (hef.trans hafd)
        · rw [Desc.item_set] at hi
          split at hi
          · cases hi
          · rename_i hcc
            exact ⟨⟨d, hd, by simpa using hef, hi⟩, by rintro rfl; exact hcc rfl⟩
    · intro i hi
      rw [hn]
      exact h.ids i (by simpa using hi)
    · intro i j hi hj
      exact h.uniq i j (by simpa using hi) (by simpa using hj)
    · intro i hi
      simp only [List.mem_append, List.mem_singleton, Ev.unregistered.injEq, reduceCtorEq, or_false] at hi ⊢
      rcases hi with hi | rfl
      · exact h.gone i hi
      · exact hin.1
    · intro n
      rw [hc, List.mem_append, h.cancel]
      simp only [List.mem_append, List.mem_singleton, Ev.unregistered.injEq]
      constructor
      · rintro (⟨i, hi, hu⟩ | rfl)
        · exact ⟨i, hi, Or.inl hu⟩
        · exact ⟨_, rfl, Or.inr rfl⟩
      · rintro ⟨i, hi, hu | rfl⟩
        · exact Or.inl ⟨i, hi, hu⟩
        · exact Or.inr hi.symm

/-- after unregistering there is no action for the condition -/
theorem unregister_none {st : St} (c : Cond) (fd : Nat) (d : Desc)
    (hd : findDesc (EP.unregister st c fd).1 fd = some d) : d.item c = none := by
  rcases unregister_cases st c fd with ⟨e, hno⟩ | ⟨d0, a, hf, ha, _, _, _, _, _, hds, _⟩
  · rw [e] at hd; exact hno d hd
  · obtain ⟨hdm, hdf⟩ := findDesc_some hd
    rw [hds, unregister_mem hf] at hdm
    rcases hdm with ⟨_, hne⟩ | ⟨rfl, _⟩
    · exact absurd hdf hne
    · rw [Desc.item_set, if_pos rfl]

theorem Kern.unregister {st : St} (h : Kern st) (c : Cond) (fd : Nat) : Kern (EP.unregister st c fd).1 := by
  rcases unregister_cases st c fd with ⟨e, _⟩ | ⟨d, a, hf, ha, _, hal, _, _, _, hds, hin⟩
  · rw [e]; exact h
  · obtain ⟨hd, hfd⟩ := findDesc_some hf
    have hk : ∀ i ∈ st.interests, fileOf st.table i.fd = some i.file := fun i hi => (h.ok i hi).1
    refine ⟨?_⟩
    intro i hi
    rw [hal.2.2.2.1, hds]
    rw [hin] at hi
    by_cases hany : (d.set c none).events.any = true
    · rw [if_pos hany, ctl_mod_mem hk] at hi
      have hm := fun e => unregister_mem (c := c) hf e
      rcases hi with ⟨hi, hne⟩ | ⟨i0, hi0, hi0f, rfl⟩
      · obtain ⟨h1, e, he, hef, hep, hem⟩ := h.ok i hi
        exact ⟨h1, e, (hm e).2 (Or.inl ⟨he, fun hh => hne (hef.symm.trans hh)⟩), hef, hep, hem⟩
      · have := h.ok i0 hi0
        rw [hi0f] at this
        exact ⟨this.1, d.set c none, (hm _).2 (Or.inr ⟨rfl, hany⟩), by simpa using hfd, by simp, rfl⟩
    · rw [if_neg hany, ctl_del_mem hk] at hi
      have hm := fun e => unregister_mem (c := c) hf e
      obtain ⟨h1, e, he, hef, hep, hem⟩ := h.ok i hi.1
      exact ⟨h1, e, (hm e).2 (Or.inl ⟨he, fun hh => hi.2 (hef.symm.trans hh)⟩), hef, hep, hem⟩

theorem Full.unregister {st : St} (h : Full st) (hk : Kern st) (c : Cond) (fd : Nat) : Full (EP.unregister st c fd).1 := by
  rcases unregister_cases st c fd with ⟨e, _⟩ | ⟨d, a, hf, ha, _, hal, _, _, _, hds, hin⟩
  · rw [e]; exact h
  · obtain ⟨hd, hfd⟩ := findDesc_some hf
    have hk : ∀ i ∈ st.interests, fileOf st.table i.fd = some i.file := fun i hi => (hk.ok i hi).1
    intro e he
    rw [hds] at he
    rw [hin]
    have hm := (unregister_mem (c := c) hf e).1 he
    by_cases hany : (d.set c none).events.any = true
    · rw [if_pos hany]
      rcases hm with ⟨he, hne⟩ | ⟨rfl, _⟩
      · obtain ⟨i, hi, hif⟩ := h e he
        exact ⟨i, (ctl_mod_mem hk _ _ _ _).2 (Or.inl ⟨hi, fun hh => hne (hif.symm.trans hh)⟩), hif⟩
      · obtain ⟨i, hi, hif⟩ := h d hd
        exact ⟨_, (ctl_mod_mem hk _ _ _ _).2 (Or.inr ⟨i, hi, hif.trans hfd, rfl⟩), by simpa using hfd.symm⟩
    · rw [if_neg hany]
      rcases hm with ⟨he, hne⟩ | ⟨_, hh⟩
      · obtain ⟨i, hi, hif⟩ := h e he
        exact ⟨i, (ctl_del_mem hk _ _ _ _).2 ⟨hi, fun hh => hne (hif.symm.trans hh)⟩, hif⟩
      · exact absurd hh hany

theorem install_cases (st : St) (c : Cond) (fd : Nat) : Alike st (install st c fd) ∧ (install st c fd).canceled = st.canceled ∧
    (install st c fd).nextItem = st.nextItem + 1 ∧ st.nextAddr ≤ (install st c fd).nextAddr ∧
    ((findDesc st fd = none ∧ (install st c fd).nextAddr = st.nextAddr + 1 ∧
        (install st c fd).descs = st.descs ++ [Desc.set ⟨fd, st.nextAddr, none, none, none⟩ c (some ⟨fd, st.nextItem⟩)] ∧
        (install st c fd).interests = (ctl st .add fd (Desc.set ⟨fd, st.nextAddr, none, none, none⟩ c (some ⟨fd, st.nextItem⟩)).events st.nextAddr).interests) ∨
      ∃ d, findDesc st fd = some d ∧ (install st c fd).descs = putDesc st.descs (d.set c (some ⟨fd, st.nextItem⟩)) ∧
        (install st c fd).interests = (ctl st .mod fd (d.set c (some ⟨fd, st.nextItem⟩)).events d.addr).interests) := by
  cases hf : findDesc st fd with
  | none =>
    have e : install st c fd = ctl { st with nextItem := st.nextItem + 1, nextAddr := st.nextAddr + 1, descs := st.descs ++
        [Desc.set ⟨fd, st.nextAddr, none, none, none⟩ c (some ⟨fd, st.nextItem⟩)] } .add fd
        (Desc.set ⟨fd, st.nextAddr, none, none, none⟩ c (some ⟨fd, st.nextItem⟩)).events
        (Desc.set ⟨fd, st.nextAddr, none, none, none⟩ c (some ⟨fd, st.nextItem⟩)).addr := by
      unfold install
      simp only
      rw [hf]
    rw [e, Desc.set_addr]
    generalize hst : ({ st with nextItem := st.nextItem + 1, nextAddr := st.nextAddr + 1, descs := st.descs ++
        [Desc.set ⟨fd, st.nextAddr, none, none, none⟩ c (some ⟨fd, st.nextItem⟩)] } : St) = st1
    have hs := ctl_same st1 .add fd (Desc.set ⟨fd, st.nextAddr, none, none, none⟩ c (some ⟨fd, st.nextItem⟩)).events st.nextAddr
    have hi := ctl_interests (st := st) (st' := st1) (by rw [← hst]) (by rw [← hst]) .add fd
      (Desc.set ⟨fd, st.nextAddr, none, none, none⟩ c (some ⟨fd, st.nextItem⟩)).events st.nextAddr
    rw [← hi]
    simp only
    generalize ctl st1 .add fd (Desc.set ⟨fd, st.nextAddr, none, none, none⟩ c (some ⟨fd, st.nextItem⟩)).events st.nextAddr = st2 at hs
    subst hst
    obtain ⟨h1, h2, h3, h4, h5, h6, h7, h8, h9⟩ := hs
    simp only [Alike, h1, h2, h3, h4, h5, h6, h7, h8, h9, and_self, true_and]
    exact ⟨Nat.le_succ _, Or.inl trivial⟩
  | some d =>
    have e : install st c fd = ctl { st with nextItem := st.nextItem + 1, descs := putDesc st.descs (d.set c (some ⟨fd, st.nextItem⟩)) } .mod fd
        (d.set c (some ⟨fd, st.nextItem⟩)).events (d.set c (some ⟨fd, st.nextItem⟩)).addr := by
      unfold install
      simp only
      rw [hf]
    rw [e, Desc.set_addr]
    generalize hst : ({ st with nextItem := st.nextItem + 1, descs := putDesc st.descs (d.set c (some ⟨fd, st.nextItem⟩)) } : St) = st1
    have hs := ctl_same st1 .mod fd (d.set c (some ⟨fd, st.nextItem⟩)).events d.addr
    have hi := ctl_interests (st := st) (st' := st1) (by rw [← hst]) (by rw [← hst]) .mod fd (d.set c (some ⟨fd, st.nextItem⟩)).events d.addr
    generalize hst2 : ctl st1 .mod fd (d.set c (some ⟨fd, st.nextItem⟩)).events d.addr = st2 at hs hi ⊢
    subst hst
    obtain ⟨h1, h2, h3, h4, h5, h6, h7, h8, h9⟩ := hs
    simp only [Alike, h1, h2, h3, h4, h5, h6, h7, h8, h9, and_self, true_and, Nat.le_refl]
    exact Or.inr ⟨d, rfl, rfl, hi⟩

/-- which objects and interests there are after an action was installed -/
theorem install_mem (st : St) (c : Cond) (fd : Nat) : ∃ d, d.fd = fd ∧ d.item c = some ⟨fd, st.nextItem⟩ ∧
    (∀ e, e ∈ (install st c fd).descs ↔ e = d ∨ (e ∈ st.descs ∧ e.fd ≠ fd)) ∧
    ((findDesc st fd = none ∧ d.addr = st.nextAddr ∧ (install st c fd).nextAddr = st.nextAddr + 1 ∧ (∀ c', c' ≠ c → d.item c' = none) ∧
        (install st c fd).descs = st.descs ++ [d]) ∨
      ∃ d0, findDesc st fd = some d0 ∧ d.addr = d0.addr ∧ (∀ c', c' ≠ c → d.item c' = d0.item c') ∧ (install st c fd).descs = putDesc st.descs d) ∧
    ((∀ i ∈ st.interests, fileOf st.table i.fd = some i.file) → (findDesc st fd = none → ∀ i ∈ st.interests, i.fd ≠ fd) → ∀ x,
      (x ∈ (install st c fd).interests ↔ (x ∈ st.interests ∧ x.fd ≠ fd) ∨ (∃ file, fileOf st.table fd = some file ∧
        (findDesc st fd = none ∨ ∃ i ∈ st.interests, i.fd = fd) ∧ x = ⟨fd, file, d.events, d.addr⟩))) := by
  obtain ⟨_, _, _, _, ⟨hf, hna, hds, hin⟩ | ⟨d0, hf, hds, hin⟩⟩ := install_cases st c fd
  · refine ⟨_, Desc.set_fd .., by rw [Desc.item_set, if_pos rfl], ?_, Or.inl ⟨hf, Desc.set_addr .., hna, ?_, hds⟩, ?_⟩
    · intro e
      rw [hds, List.mem_append, List.mem_singleton]
      constructor
      · rintro (he | he)
        · exact Or.inr ⟨he, findDesc_none hf e he⟩
        · exact Or.inl he
      · rintro (he | ⟨he, _⟩)
        · exact Or.inr he
        · exact Or.inl he
    · intro c' hc
      rw [Desc.item_set, if_neg hc]
      cases c' <;> rfl
    · intro hk hno x
      have hno := hno hf
      rw [hin, ctl_add_mem hno, Desc.set_addr]
      constructor
      · rintro (hx | ⟨file, h1, h2⟩)
        · exact Or.inl ⟨hx, hno x hx⟩
        · exact Or.inr ⟨file, h1, Or.inl hf, h2⟩
      · rintro (⟨hx, _⟩ | ⟨file, h1, _, h2⟩)
        · exact Or.inl hx
        · exact Or.inr ⟨file, h1, h2⟩
  · obtain ⟨hd0, hd0f⟩ := findDesc_some hf
    refine ⟨_, (Desc.set_fd ..).trans hd0f, by rw [Desc.item_set, if_pos rfl], ?_, Or.inr ⟨d0, hf, Desc.set_addr .., ?_, hds⟩, ?_⟩
    · intro e
      rw [hds, mem_putDesc (Or.inr ⟨d0, hd0, by simp⟩), Desc.set_fd, hd0f]
    · intro c' hc
      rw [Desc.item_set, if_neg hc]
    · intro hk _ x
      rw [hin, ctl_mod_mem hk, Desc.set_addr]
      constructor
      · rintro (hx | ⟨i, hi, hif, hx⟩)
        · exact Or.inl hx
        · exact Or.inr ⟨i.file, by rw [← hif]; exact hk i hi, Or.inr ⟨i, hi, hif⟩, hx⟩
      · rintro (hx | ⟨file, h1, hh | ⟨i, hi, hif⟩, h2⟩)
        · exact Or.inl hx
        · rw [hf] at hh; cases hh
        · have := hk i hi
          rw [hif, h1] at this
          exact Or.inr ⟨i, hi, hif, by rw [h2, Option.some.inj this]⟩

theorem Books.install {st : St} {evs : List Ev} (h : Books st evs) (c : Cond) (fd : Nat) (hfree : ∀ d, findDesc st fd = some d → d.item c = none) :
    Books (EP.install st c fd) (evs ++ [.registered ⟨c, fd, st.nextItem⟩]) := by
  obtain ⟨d, hdf, hdc, hm, hcase, _⟩ := install_mem st c fd
  obtain ⟨_, hcan, hni, hna, _⟩ := install_cases st c fd
  have hnew : ∀ i, .registered i ∈ evs → i ≠ ⟨c, fd, st.nextItem⟩ := by
    rintro i hi rfl
    exact Nat.lt_irrefl _ (h.ids _ hi)
  have hnu : Ev.unregistered ⟨c, fd, st.nextItem⟩ ∉ evs := fun hu => hnew _ (h.gone _ hu) rfl
  have haddr : ∀ e ∈ st.descs, e.fd ≠ fd → e.addr ≠ d.addr := by
    intro e he hne
    rcases hcase with ⟨_, ha, _⟩ | ⟨d0, hf, ha, _⟩
    · rw [ha]; exact Nat.ne_of_lt (h.fresh e he)
    · obtain ⟨hd0, hd0f⟩ := findDesc_some hf
      intro hh
      have : e = d0 := addr_unique h.addrs he hd0 (hh.trans ha)
      exact hne (by rw [this, hd0f])
  refine ⟨?_, ?_, ?_, ?_, ?_, ?_, ?_, ?_, ?_, ?_⟩
  · rcases hcase with ⟨hf, _, _, _, hds⟩ | ⟨d0, hf, _, _, hds⟩
    · rw [hds, List.pairwise_append]
      refine ⟨h.fds, List.pairwise_singleton .., ?_⟩
      intro a ha b hb
      rw [List.mem_singleton.1 hb, hdf]
      exact findDesc_none hf a ha
    · rw [hds]
      exact putDesc_pairwise h.fds (fun x _ y _ hx _ hy => fun h => hy h.symm) (fun x _ y _ hy _ hx => hx) h.fds
  · rcases hcase with ⟨hf, _, _, _, hds⟩ | ⟨d0, hf, _, _, hds⟩
    · rw [hds, List.pairwise_append]
      refine ⟨h.addrs, List.pairwise_singleton .., ?_⟩
      intro a ha b hb
      rw [List.mem_singleton.1 hb]
      exact haddr a ha (findDesc_none hf a ha)
    · rw [hds]
      refine putDesc_pairwise h.addrs (fun x _ y hy _ _ hyf => ?_) (fun x hx y _ _ _ hxf => ?_) h.fds
      · exact (haddr y hy (by rwa [hdf] at hyf)).symm
      · exact haddr x hx (by rwa [hdf] at hxf)
  · intro e he
    rcases (hm e).1 he with rfl | ⟨he, _⟩
    · rcases hcase with ⟨_, ha, hn, _⟩ | ⟨d0, hf, ha, _⟩
      · rw [ha, hn]; exact Nat.lt_succ_self _
      · rw [ha]; exact Nat.lt_of_lt_of_le (h.fresh d0 (findDesc_some hf).1) hna
    · exact Nat.lt_of_lt_of_le (h.fresh e he) hna
  · intro e he
    rcases (hm e).1 he with rfl | ⟨he, _⟩
    · rw [Mask.any_iff]
      exact ⟨c, by rw [Desc.events_bit, hdc]; rfl⟩
    · exact h.used e he
  · intro e he c' a ha
    rcases (hm e).1 he with rfl | ⟨he, _⟩
    · by_cases hc : c' = c
      · subst hc
        rw [hdc, Option.some.injEq] at ha
        rw [← ha, hdf]
      · rcases hcase with ⟨_, _, _, hn, _⟩ | ⟨d0, hf, _, hn, _⟩
        · rw [hn c' hc] at ha; cases ha
        · rw [hn c' hc] at ha
          obtain ⟨hd0, hd0f⟩ := findDesc_some hf
          rw [h.own d0 hd0 c' a ha, hd0f, hdf]
    · exact h.own e he c' a ha
  · intro i
    have hif : InForce (evs ++ [.registered ⟨c, fd, st.nextItem⟩]) i ↔ InForce evs i ∨ i = ⟨c, fd, st.nextItem⟩ := by
      simp only [InForce, List.mem_append, List.mem_singleton, Ev.registered.injEq, reduceCtorEq, or_false]
      constructor
      · rintro ⟨h1 | h1, h2⟩
        · exact Or.inl ⟨h1, h2⟩
        · exact Or.inr h1
      · rintro (⟨h1, h2⟩ | rfl)
        · exact ⟨Or.inl h1, h2⟩
        · exact ⟨Or.inr rfl, hnu⟩
    rw [hif, h.force]
    constructor
    · rintro (⟨e, he, hef, hi⟩ | rfl)
      · by_cases hfe : e.fd = fd
        · rcases hcase with ⟨hf, _⟩ | ⟨d0, hf, _, hn, _⟩
          · exact absurd hfe (findDesc_none hf e he)
          · obtain ⟨hd0, hd0f⟩ := findDesc_some hf
            have : e = d0 := fd_unique h.fds he hd0 (hfe.trans hd0f.symm)
            subst this
            have hcc : i.cond ≠ c := by
              rintro rfl
              rw [hfree e hf] at hi
              cases hi
            exact ⟨d, (hm d).2 (Or.inl rfl), by rw [hdf, ← hfe, hef], by rw [hn _ hcc]; exact hi⟩
        · exact ⟨e, (hm e).2 (Or.inr ⟨he, hfe⟩), hef, hi⟩
      · exact ⟨d, (hm d).2 (Or.inl rfl), hdf, hdc⟩
    · rintro ⟨e, he, hef, hi⟩
      rcases (hm e).1 he with rfl | ⟨he, _⟩
      · by_cases hc : i.cond = c
        · right
          rw [hc, hdc, Option.some.injEq] at hi
          cases i
          simp only at hc hi ⊢
          rw [hc]
          injection hi with h1 h2
          rw [h1, h2]
        · left
          rcases hcase with ⟨_, _, _, hn, _⟩ | ⟨d0, hf, _, hn, _⟩
          · rw [hn _ hc] at hi; cases hi
          · obtain ⟨hd0, hd0f⟩ := findDesc_some hf
            rw [hn _ hc] at hi
            exact ⟨d0, hd0, by rw [hd0f, ← hdf, hef], hi⟩
      · exact Or.inl ⟨e, he, hef, hi⟩
  · intro i hi
    rw [hni]
    simp only [List.mem_append, List.mem_singleton, Ev.registered.injEq] at hi
    rcases hi with hi | rfl
    · exact Nat.lt_succ_of_lt (h.ids i hi)
    · exact Nat.lt_succ_self _
  · intro i j hi hj hij
    simp only [List.mem_append, List.mem_singleton, Ev.registered.injEq] at hi hj
    rcases hi with hi | rfl
    · rcases hj with hj | rfl
      · exact h.uniq i j hi hj hij
      · exact absurd (h.ids i hi) (by simp only at hij; rw [hij]; exact Nat.lt_irrefl _)
    · rcases hj with hj | rfl
      · exact absurd (h.ids j hj) (by simp only at hij; rw [← hij]; exact Nat.lt_irrefl _)
      · rfl
  · intro i hi
    simp only [List.mem_append, List.mem_singleton, reduceCtorEq, or_false] at hi
    exact List.mem_append_left _ (h.gone i hi)
  · intro n
    rw [hcan, h.cancel]
    simp

theorem Kern.install {st : St} (h : Kern st) (c : Cond) (fd : Nat) : Kern (EP.install st c fd) := by
  obtain ⟨d, hdf, hdc, hm, hcase, hin⟩ := install_mem st c fd
  obtain ⟨hal, _⟩ := install_cases st c fd
  have hin := hin (fun i hi => (h.ok i hi).1) (fun hf i hi hif => by
    obtain ⟨_, e, he, hef, _⟩ := h.ok i hi
    exact findDesc_none hf e he (hef.trans hif))
  refine ⟨?_⟩
  intro i hi
  rw [hal.2.2.2.1]
  rcases (hin i).1 hi with ⟨hi, hne⟩ | ⟨file, h1, _, rfl⟩
  · obtain ⟨h1, e, he, hef, hep, hem⟩ := h.ok i hi
    exact ⟨h1, e, (hm e).2 (Or.inr ⟨he, fun hh => hne (hef.symm.trans hh)⟩), hef, hep, hem⟩
  · exact ⟨h1, d, (hm d).2 (Or.inl rfl), hdf, rfl, rfl⟩

theorem Full.install {st : St} (h : Full st) (hk : Kern st) (c : Cond) (fd : Nat) (ho : (fileOf st.table fd).isSome) : Full (EP.install st c fd) := by
  obtain ⟨d, hdf, hdc, hm, hcase, hin⟩ := install_mem st c fd
  have hin := hin (fun i hi => (hk.ok i hi).1) (fun hf i hi hif => by
    obtain ⟨_, e, he, hef, _⟩ := hk.ok i hi
    exact findDesc_none hf e he (hef.trans hif))
  intro e he
  rcases (hm e).1 he with rfl | ⟨he, hne⟩
  · obtain ⟨file, hfile⟩ := Option.isSome_iff_exists.1 ho
    refine ⟨⟨fd, file, e.events, e.addr⟩, (hin _).2 (Or.inr ⟨file, hfile, ?_, rfl⟩), hdf.symm⟩
    rcases hcase with ⟨hf, _⟩ | ⟨d0, hf, _⟩
    · exact Or.inl hf
    · obtain ⟨hd0, hd0f⟩ := findDesc_some hf
      obtain ⟨i, hi, hif⟩ := h d0 hd0
      exact Or.inr ⟨i, hi, hif.trans hd0f⟩
  · obtain ⟨i, hi, hif⟩ := h e he
    exact ⟨i, (hin i).2 (Or.inl ⟨hi, fun hh => hne (hif.symm.trans hh)⟩), hif⟩

end EP
end Rtmfp
