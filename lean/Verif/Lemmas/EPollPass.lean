import Verif.Lemmas.EPoll
/-! # The run loop over `epoll`: the turns of the loop -/
namespace Rtmfp
namespace EP
open Spec.EP
open RL (Cond Item)

/-- the last call of `epoll_wait`, what came before it and what came after -/
def Last (evs e1 : List Ev) (a : List Interest) (f : List Found) (e2 : List Ev) : Prop :=
  evs = e1 ++ .polled a f :: e2 ∧ ∀ a f, Ev.polled a f ∉ e2

/-- the actions still waiting to be called in this turn -/
def items (l : List (Cond × Option Act)) : List Item := l.filterMap (fun p => p.2.map (fun a => ⟨p.1, a.fd, a.id⟩))

theorem items_append (a b : List (Cond × Option Act)) : items (a ++ b) = items a ++ items b := by simp [items]

theorem mem_items {l : List (Cond × Option Act)} {i : Item} : i ∈ items l ↔ (i.cond, some ⟨i.fd, i.id⟩) ∈ l := by
  simp only [items, List.mem_filterMap, Option.map_eq_some_iff]
  constructor
  · rintro ⟨⟨c, o⟩, hp, a, ha, rfl⟩
    simp only at ha ⊢
    rw [← ha]
    exact hp
  · intro h
    exact ⟨_, h, _, rfl, rfl⟩

theorem last_append {evs evs' e1 e2 : List Ev} {a : List Interest} {f : List Found} (h : Last (evs ++ evs') e1 a f e2) (hq : ∀ a f, Ev.polled a f ∉ evs') :
    ∃ e3, Last evs e1 a f e3 ∧ e2 = e3 ++ evs' := by
  obtain ⟨e3, h1, h2⟩ := split_polled h.1 hq
  exact ⟨e3, ⟨h1, fun a f hm => h.2 a f (by rw [h2]; exact List.mem_append_left _ hm)⟩, h2⟩

theorem last_here {evs e1 e2 : List Ev} {a a' : List Interest} {f f' : List Found} (h : Last (evs ++ [.polled a' f']) e1 a f e2) :
    e1 = evs ∧ a = a' ∧ f = f' ∧ e2 = [] := by
  obtain ⟨h1, h2⟩ := h
  rcases List.eq_nil_or_concat e2 with rfl | ⟨l, x, rfl⟩
  · have := List.append_inj' h1 rfl
    simp only [List.cons.injEq, Ev.polled.injEq, and_true] at this
    exact ⟨this.1.symm, this.2.1.symm, this.2.2.symm, rfl⟩
  · rw [List.concat_eq_append, ← List.cons_append, ← List.append_assoc] at h1
    have := (List.append_inj' h1 rfl).2
    simp only [List.cons.injEq, and_true] at this
    exact absurd (by simp [this]) (h2 a' f')

structure Pass (st : St) (evs : List Ev) : Prop where
  idle : st.pc ≠ .acting → st.activated = []
  known : ∀ i ∈ items st.activated, .registered i ∈ evs
  going : st.pc = .top ∨ st.pc = .acting ∨ st.pc = .late → (st.stopping = false ↔ Going evs)
  last : st.pc = .acting → ∃ e1 a f e2, Last evs e1 a f e2
  sound : Careful evs → ∀ i ∈ items st.activated, ∀ e1 a f e2, Last evs e1 a f e2 →
    ∃ g ∈ f, g.fd = i.fd ∧ g.bit i.cond = true ∧ fileAt e1 i.fd = some g.file
  heard : Careful evs → st.pc = .acting → ∀ e1 a f e2, Last evs e1 a f e2 → ∀ g ∈ f, ∀ i, InForce e1 i → i.fd = g.fd → g.bit i.cond = true →
    .acted i ∈ e2 ∨ .unregistered i ∈ e2 ∨ ¬ Going evs ∨ i ∈ items st.activated
  order : Careful evs → ∀ e1 a f e2, Last evs e1 a f e2 → (acted e2 ++ items st.activated).Pairwise (fun i j => rank i.cond ≤ rank j.cond ∧ i ≠ j)

theorem Pass.quiet {st st' : St} {evs evs' : List Ev} (h : Pass st evs) (hp : st'.pc = st.pc) (hs : st'.stopping = st.stopping)
    (ha : st'.activated = st.activated) (h1 : ∀ a f, .polled a f ∉ evs') (h2 : ∀ i, .acted i ∉ evs') (h3 : .began ∉ evs') (h4 : .stopped ∉ evs') :
    Pass st' (evs ++ evs') := by
  have hac : acted evs' = [] := by
    unfold acted
    rw [List.filterMap_eq_nil_iff]
    intro x hx
    cases x with
    | acted i => exact absurd hx (h2 i)
    | _ => rfl
  refine ⟨?_, ?_, ?_, ?_, ?_, ?_, ?_⟩
  · rw [hp, ha]; exact h.idle
  · rw [ha]; exact fun i hi => List.mem_append_left _ (h.known i hi)
  · rw [hp, hs, going_quiet h3 h4]; exact h.going
  · rw [hp]
    intro hpc
    obtain ⟨e1, a, f, e2, he, hn⟩ := h.last hpc
    refine ⟨e1, a, f, e2 ++ evs', by rw [he]; simp, ?_⟩
    intro a f hm
    rcases List.mem_append.1 hm with hm | hm
    · exact hn a f hm
    · exact h1 a f hm
  · rw [ha]
    intro hc i hi e1 a f e2 hl
    obtain ⟨e3, hl, _⟩ := last_append hl h1
    exact h.sound (careful_left hc) i hi e1 a f e3 hl
  · rw [ha, hp, going_quiet h3 h4]
    intro hc hpc e1 a f e2 hl g hg i hi hif hb
    obtain ⟨e3, hl', rfl⟩ := last_append hl h1
    rcases h.heard (careful_left hc) hpc e1 a f e3 hl' g hg i hi hif hb with hh | hh | hh
    · exact Or.inl (List.mem_append_left _ hh)
    · exact Or.inr (Or.inl (List.mem_append_left _ hh))
    · exact Or.inr (Or.inr hh)
  · rw [ha]
    intro hc e1 a f e2 hl
    obtain ⟨e3, hl', rfl⟩ := last_append hl h1
    rw [acted_append, hac, List.append_nil]
    exact h.order (careful_left hc) e1 a f e3 hl'

/-- what each event tells, given what came before it -/
def Fine (e1 : List Ev) : Ev → Prop
  | .acted i => Going e1 ∧ InForce e1 i ∧ (∃ e a f e2, Last e1 e a f e2) ∧ (Careful e1 → ∀ e a f e2, Last e1 e a f e2 →
      i ∉ acted e2 ∧ (∀ j ∈ acted e2, rank j.cond ≤ rank i.cond) ∧ ∃ g ∈ f, g.fd = i.fd ∧ g.bit i.cond = true ∧ fileAt e i.fd = some g.file)
  | .polled a _ =>
    (Careful e1 → ∀ it ∈ a, fileAt e1 it.fd = some it.file ∧ it.mask.any = true ∧
      ∀ c, it.mask.bit c = true → ∃ i, InForce e1 i ∧ i.fd = it.fd ∧ i.cond = c) ∧
    (Tidy e1 → ∀ i, InForce e1 i → ∃ it ∈ a, it.fd = i.fd ∧ it.mask.bit i.cond = true)
  | .turn => (∃ e a f e2, Last e1 e a f e2) ∧ (Careful e1 → ∀ e a f e2, Last e1 e a f e2 → ∀ g ∈ f, ∀ i, InForce e i → i.fd = g.fd → g.bit i.cond = true →
      .acted i ∈ e2 ∨ .unregistered i ∈ e2 ∨ ¬ Going e1)
  | .wild => ¬ Careful e1
  | _ => True

structure Inv (st : St) (evs : List Ev) : Prop where
  books : Books st evs
  tab : Tab st evs
  kern : Careful evs → Kern st
  full : Tidy evs → Full st
  pass : Pass st evs
  fine : ∀ e1 x e2, evs = e1 ++ x :: e2 → Fine e1 x

theorem fine_append {evs evs' : List Ev} (h : ∀ e1 x e2, evs = e1 ++ x :: e2 → Fine e1 x) (h' : ∀ p x s, evs' = p ++ x :: s → Fine (evs ++ p) x) :
    ∀ e1 x e2, evs ++ evs' = e1 ++ x :: e2 → Fine e1 x := by
  intro e1 x e2 he
  rcases List.append_eq_append_iff.1 he with ⟨as, ha, hb⟩ | ⟨bs, ha, hb⟩
  · rw [ha]; exact h' as x e2 hb
  · cases bs with
    | nil =>
      simp only [List.nil_append, List.append_nil] at ha hb
      have := h' [] x e2 hb.symm
      rw [← ha]
      simpa using this
    | cons b bs =>
      simp only [List.cons_append, List.cons.injEq] at hb
      obtain ⟨rfl, hb⟩ := hb
      exact h e1 x bs ha

/-- nothing to be said -/
def Dull : Ev → Prop
  | .opened .. | .closed _ | .registered _ | .unregistered _ | .ended | .began | .stopped => True
  | _ => False

theorem fine_dull {evs evs' : List Ev} (h : ∀ e1 x e2, evs = e1 ++ x :: e2 → Fine e1 x) (h' : ∀ x ∈ evs', Dull x) :
    ∀ e1 x e2, evs ++ evs' = e1 ++ x :: e2 → Fine e1 x := by
  refine fine_append h ?_
  intro p x s hp
  have := h' x (by rw [hp]; simp)
  cases x <;> first | trivial | exact absurd this id

theorem fine_one {evs : List Ev} {x : Ev} (h : ∀ e1 x e2, evs = e1 ++ x :: e2 → Fine e1 x) (h' : Fine evs x) :
    ∀ e1 y e2, evs ++ [x] = e1 ++ y :: e2 → Fine e1 y := by
  refine fine_append h ?_
  intro p y s hp
  cases p with
  | nil =>
    simp only [List.nil_append, List.cons.injEq] at hp
    rw [← hp.1]
    simpa using h'
  | cons z p => simp at hp

theorem Tab.quiet {st st' : St} {evs evs' : List Ev} (h : Tab st evs) (ht : st'.table = st.table) (h1 : ∀ fd f, .opened fd f ∉ evs')
    (h2 : ∀ fd, .closed fd ∉ evs') : Tab st' (evs ++ evs') :=
  ⟨by rw [ht]; exact h.keys, fun fd => by rw [ht, fileAt_append evs evs' fd (h1 fd) (h2 fd)]; exact h.same fd⟩

theorem Inv.unregister {st : St} {evs : List Ev} (h : Inv st evs) (c : Cond) (fd : Nat) :
    Inv (EP.unregister st c fd).1 (evs ++ (EP.unregister st c fd).2) ∧ (EP.unregister st c fd).1.pc = st.pc := by
  have hb := h.books.unregister c fd
  have hd : ∀ x ∈ (EP.unregister st c fd).2, ∃ i, x = .unregistered i := by
    rcases unregister_cases st c fd with ⟨e, _⟩ | ⟨d, a, hf, ha, h2, _⟩
    · rw [e]; simp
    · rw [h2]; simp
  have hal : Alike st (EP.unregister st c fd).1 := by
    rcases unregister_cases st c fd with ⟨e, _⟩ | ⟨d, a, hf, ha, h2, hal, _⟩
    · rw [e]; exact ⟨rfl, rfl, rfl, rfl, rfl⟩
    · exact hal
  have hno : ∀ x, (∀ i, x ≠ .unregistered i) → x ∉ (EP.unregister st c fd).2 := by
    intro x hx hm
    obtain ⟨i, rfl⟩ := hd x hm
    exact hx i rfl
  refine ⟨⟨hb, ?_, ?_, ?_, ?_, ?_⟩, hal.1⟩
  · exact h.tab.quiet hal.2.2.2.1 (fun fd f => hno _ (by simp)) (fun fd => hno _ (by simp))
  · exact fun hc => (h.kern (careful_left hc)).unregister c fd
  · exact fun ht => (h.full (tidy_left ht)).unregister (h.kern (tidy_careful (tidy_left ht))) c fd
  · exact h.pass.quiet hal.1 hal.2.1 hal.2.2.1 (fun a f => hno _ (by simp)) (fun i => hno _ (by simp)) (hno _ (by simp)) (hno _ (by simp))
  · refine fine_dull h.fine ?_
    intro x hx
    obtain ⟨i, rfl⟩ := hd x hx
    trivial

theorem Inv.install {st : St} {evs : List Ev} (h : Inv st evs) (c : Cond) (fd : Nat) (hfree : ∀ d, findDesc st fd = some d → d.item c = none) :
    Inv (EP.install st c fd) (evs ++ [.registered ⟨c, fd, st.nextItem⟩]) := by
  have hb := h.books.install c fd hfree
  obtain ⟨hal, _⟩ := install_cases st c fd
  refine ⟨hb, ?_, ?_, ?_, ?_, ?_⟩
  · exact h.tab.quiet hal.2.2.2.1 (by simp) (by simp)
  · exact fun hc => (h.kern (careful_left hc)).install c fd
  · intro ht
    refine (h.full (tidy_left ht)).install (h.kern (tidy_careful (tidy_left ht))) c fd ?_
    rw [h.tab.same]
    exact ht.2 evs ⟨c, fd, st.nextItem⟩ [] rfl
  · exact h.pass.quiet hal.1 hal.2.1 hal.2.2.1 (by simp) (by simp) (by simp) (by simp)
  · exact fine_dull h.fine (by simp [Dull])

theorem Inv.register {st : St} {evs : List Ev} (h : Inv st evs) (c : Cond) (fd : Nat) :
    Inv (EP.register st c fd).1 (evs ++ (EP.register st c fd).2) := by
  have h1 := (h.unregister c fd).1
  have := h1.install c fd (fun d hd => unregister_none c fd d hd)
  rw [List.append_assoc] at this
  exact this

theorem Inv.unregisterFd {st : St} {evs : List Ev} (h : Inv st evs) (fd : Nat) :
    Inv (EP.unregisterFd st fd).1 (evs ++ (EP.unregisterFd st fd).2) := by
  have h1 := ((((h.unregister .readable fd).1).unregister .writable fd).1.unregister .exception fd).1
  rw [List.append_assoc, List.append_assoc, ← List.append_assoc (EP.unregister st .readable fd).2] at h1
  exact h1

theorem Inv.clearFds (l : List Nat) : ∀ {st : St} {evs : List Ev}, Inv st evs → Inv (EP.clearFds st l).1 (evs ++ (EP.clearFds st l).2) := by
  induction l with
  | nil => intro st evs h; simpa [EP.clearFds] using h
  | cons fd l ih =>
    intro st evs h
    have := ih (h.unregisterFd fd)
    rw [List.append_assoc] at this
    exact this

/-! ## The other steps -/

theorem Books.quiet {st st' : St} {evs evs' : List Ev} (h : Books st evs) (hd : st'.descs = st.descs) (hc : st'.canceled = st.canceled)
    (hn : st'.nextItem = st.nextItem) (ha : st'.nextAddr = st.nextAddr) (h1 : ∀ i, .registered i ∉ evs') (h2 : ∀ i, .unregistered i ∉ evs') :
    Books st' (evs ++ evs') := by
  refine ⟨?_, ?_, ?_, ?_, ?_, ?_, ?_, ?_, ?_, ?_⟩
  · rw [hd]; exact h.fds
  · rw [hd]; exact h.addrs
  · rw [hd, ha]; exact h.fresh
  · rw [hd]; exact h.used
  · rw [hd]; exact h.own
  · intro i
    rw [inForce_quiet h1 h2, h.force]
    unfold Has
    rw [hd]
  · rw [hn]
    intro i hi
    exact h.ids i (by simpa [h1 i] using hi)
  · intro i j hi hj
    exact h.uniq i j (by simpa [h1 i] using hi) (by simpa [h1 j] using hj)
  · intro i hi
    exact List.mem_append_left _ (h.gone i (by simpa [h2 i] using hi))
  · intro n
    rw [hc, h.cancel]
    simp [h2]

theorem Kern.same {st st' : St} (h : Kern st) (hd : st'.descs = st.descs) (hi : st'.interests = st.interests)
    (ht : ∀ i ∈ st.interests, fileOf st'.table i.fd = fileOf st.table i.fd) : Kern st' :=
  ⟨fun i hm => by rw [hi] at hm; rw [hd, ht i hm]; exact h.ok i hm⟩

theorem Full.same {st st' : St} (h : Full st) (hd : st'.descs = st.descs) (hi : st'.interests = st.interests) : Full st' := by
  unfold Full; rw [hd, hi]; exact h

/-- a number that was not in use is given out -/
theorem Inv.given {st : St} {evs : List Ev} (h : Inv st evs) (fd file n : Nat) (hfree : fileOf st.table fd = none) :
    Inv { st with table := st.table ++ [(fd, file)], nextFile := n } (evs ++ [.opened fd file]) := by
  refine ⟨h.books.quiet rfl rfl rfl rfl (by simp) (by simp), ?_, ?_, ?_, ?_, fine_dull h.fine (by simp [Dull])⟩
  · refine ⟨?_, ?_⟩
    · rw [List.pairwise_append]
      refine ⟨h.tab.keys, List.pairwise_singleton .., ?_⟩
      intro p hp q hq hpq
      rw [List.mem_singleton.1 hq] at hpq
      have := fileOf_mem h.tab.keys hp
      rw [hpq, hfree] at this
      cases this
    · intro m
      show fileOf (st.table ++ [(fd, file)]) m = _
      rw [fileOf_append hfree]
      by_cases hm : m = fd
      · subst hm; rw [if_pos rfl, fileAt_opened]
      · rw [if_neg hm, fileAt_append _ _ _ (by simp [hm]) (by simp)]; exact h.tab.same m
  · intro hc
    refine (h.kern (careful_left hc)).same rfl rfl ?_
    intro i hi
    show fileOf (st.table ++ [(fd, file)]) i.fd = _
    rw [fileOf_append hfree, if_neg]
    intro hif
    have := ((h.kern (careful_left hc)).ok i hi).1
    rw [hif, hfree] at this
    cases this
  · exact fun ht => (h.full (tidy_left ht)).same rfl rfl
  · exact h.pass.quiet rfl rfl rfl (by simp) (by simp) (by simp) (by simp)

/-- an object with a number has an action in force -/
theorem Books.some_force {st : St} {evs : List Ev} (h : Books st evs) {d : Desc} (hd : d ∈ st.descs) : ∃ i, InForce evs i ∧ i.fd = d.fd := by
  obtain ⟨c, hc⟩ := (Mask.any_iff _).1 (h.used d hd)
  rw [Desc.events_bit] at hc
  obtain ⟨a, ha⟩ := Option.isSome_iff_exists.1 hc
  have hf := h.own d hd c a ha
  exact ⟨⟨c, a.fd, a.id⟩, (h.force _).2 ⟨d, hd, hf.symm, ha⟩, hf⟩

theorem Inv.close {st : St} {evs : List Ev} (h : Inv st evs) (fd : Nat) (ho : (fileOf st.table fd).isSome) :
    Inv (EP.close st fd) (evs ++ [.closed fd]) := by
  obtain ⟨file, hfile⟩ := Option.isSome_iff_exists.1 ho
  have e : EP.close st fd = { st with table := st.table.filter (fun p => p.1 ≠ fd), interests :=
      if (st.table.filter (fun p => p.1 ≠ fd)).any (fun p => p.2 = file) then st.interests else st.interests.filter (fun i => i.file ≠ file) } := by
    unfold EP.close
    rw [hfile]
  rw [e]
  refine ⟨h.books.quiet rfl rfl rfl rfl (by simp) (by simp), ?_, ?_, ?_, ?_, fine_dull h.fine (by simp [Dull])⟩
  · refine ⟨h.tab.keys.filter _, ?_⟩
    intro m
    show fileOf (st.table.filter (fun p => p.1 ≠ fd)) m = _
    rw [fileOf_filter]
    by_cases hm : m = fd
    · subst hm; rw [if_pos rfl, fileAt_closed]
    · rw [if_neg hm, fileAt_append _ _ _ (by simp) (by simpa using hm)]; exact h.tab.same m
  · intro hc
    have hk := h.kern (careful_left hc)
    have key : ∀ i ∈ (if (st.table.filter (fun p => p.1 ≠ fd)).any (fun p => decide (p.2 = file)) then st.interests
        else st.interests.filter (fun i => decide (i.file ≠ file))), i ∈ st.interests ∧ i.fd ≠ fd := by
      intro i hi
      have hmem : i ∈ st.interests := by
        split at hi
        · exact hi
        · exact (List.mem_filter.1 hi).1
      refine ⟨hmem, ?_⟩
      intro hif
      obtain ⟨h1, d, hd, hdf, _⟩ := hk.ok i hmem
      rcases hc evs fd [] rfl with hno | halone
      · obtain ⟨j, hj, hjf⟩ := h.books.some_force hd
        exact hno j hj (by rw [hjf, hdf, hif])
      · have hany : (st.table.filter (fun p => p.1 ≠ fd)).any (fun p => decide (p.2 = file)) = false := by
          rw [List.any_eq_false]
          intro p hp hpf
          rw [List.mem_filter] at hp
          have hne : p.1 ≠ fd := by simpa using hp.2
          have h2 := fileOf_mem h.tab.keys hp.1
          rw [of_decide_eq_true hpf, h.tab.same] at h2
          have h3 := hfile
          rw [h.tab.same] at h3
          have := halone p.1 hne (h2.trans h3.symm)
          rw [h3] at this
          cases this
        rw [hany] at hi
        simp only [Bool.false_eq_true, if_false, List.mem_filter] at hi
        rw [hif, hfile] at h1
        have h4 : file = i.file := Option.some.inj h1
        simp [h4] at hi
    refine ⟨?_⟩
    intro i hi
    obtain ⟨hi, hne⟩ := key i hi
    show fileOf (st.table.filter (fun p => p.1 ≠ fd)) i.fd = _ ∧ _
    rw [fileOf_filter, if_neg hne]
    exact hk.ok i hi
  · intro ht d hd
    have hk := h.kern (tidy_careful (tidy_left ht))
    obtain ⟨i, hi, hif⟩ := h.full (tidy_left ht) d hd
    refine ⟨i, ?_, hif⟩
    show i ∈ (if (st.table.filter (fun p => p.1 ≠ fd)).any (fun p => decide (p.2 = file)) then st.interests
        else st.interests.filter (fun i => decide (i.file ≠ file)))
    split
    · exact hi
    · rename_i hany
      rw [List.mem_filter]
      refine ⟨hi, ?_⟩
      simp only [ne_eq, decide_not, Bool.not_eq_eq_eq_not, Bool.not_true, decide_eq_false_iff_not]
      intro hff
      have hne : i.fd ≠ fd := by
        obtain ⟨j, hj, hjf⟩ := h.books.some_force hd
        rw [hif, ← hjf]
        exact ht.1 evs fd [] rfl j hj
      apply hany
      rw [List.any_eq_true]
      have h1 := (hk.ok i hi).1
      unfold fileOf at h1
      obtain ⟨p, hp, hp2⟩ := Option.map_eq_some_iff.1 h1
      have hp1 : p.1 = i.fd := by simpa using List.find?_some hp
      refine ⟨p, List.mem_filter.2 ⟨List.mem_of_find?_eq_some hp, ?_⟩, ?_⟩
      · simp [hp1, hne]
      · simp [hp2, hff]
  · exact h.pass.quiet rfl rfl rfl (by simp) (by simp) (by simp) (by simp)

theorem target_some {st : St} {evs : List Ev} (hb : Books st evs) (hk : Kern st) {found : List Found} (hp : possible st found = true) {f : Found} (hf : f ∈ found) :
    ∃ d ∈ st.descs, target st f = some d ∧ d.fd = f.fd ∧ fileOf st.table f.fd = some f.file := by
  simp only [possible, Bool.and_eq_true, List.all_eq_true, List.any_eq_true, decide_eq_true_eq] at hp
  obtain ⟨_, i, hi, h1, h2, _⟩ := hp.1.2 f hf
  obtain ⟨j, hj⟩ := Option.isSome_iff_exists.1 (List.find?_isSome.2 ⟨i, hi, by simp [h1, h2]⟩ :
    (st.interests.find? (fun i => decide (i.fd = f.fd ∧ i.file = f.file))).isSome = true)
  have hjm := List.mem_of_find?_eq_some hj
  have hjp := List.find?_some hj
  simp only [decide_eq_true_eq] at hjp
  obtain ⟨h3, d, hd, hdf, hda, _⟩ := hk.ok j hjm
  obtain ⟨e, he⟩ := Option.isSome_iff_exists.1 (List.find?_isSome.2 ⟨d, hd, by simp [hda]⟩ :
    (st.descs.find? (fun d => decide (d.addr = j.ptr))).isSome = true)
  have hem := List.mem_of_find?_eq_some he
  have hep := List.find?_some he
  simp only [decide_eq_true_eq] at hep
  have : e = d := addr_unique hb.addrs hem hd (hep.trans hda.symm)
  subst this
  refine ⟨e, hd, ?_, hdf.trans hjp.1, ?_⟩
  · unfold target
    rw [hj]
    exact he
  · rw [← hjp.1, h3, hjp.2]

theorem target_mem {st : St} {f : Found} {d : Desc} (h : target st f = some d) : d ∈ st.descs := by
  unfold target at h
  obtain ⟨i, _, h⟩ := Option.bind_eq_some_iff.1 h
  exact List.mem_of_find?_eq_some h

theorem mem_pushed {st : St} {found : List Found} {c : Cond} {i : Item} :
    i ∈ items (pushed st found c) ↔ i.cond = c ∧ ∃ f ∈ found, f.bit c = true ∧ ∃ d, target st f = some d ∧ d.item c = some ⟨i.fd, i.id⟩ := by
  rw [mem_items]
  simp only [pushed, List.mem_map, List.mem_filter, Prod.mk.injEq, Option.bind_eq_some_iff]
  constructor
  · rintro ⟨f, ⟨hf, hb⟩, hc, d, hd, hi⟩
    exact ⟨hc.symm, f, hf, hb, d, hd, hi⟩
  · rintro ⟨hc, f, hf, hb, d, hd, hi⟩
    exact ⟨f, ⟨hf, hb⟩, hc.symm, d, hd, hi⟩

theorem pushed_fds {st : St} {evs : List Ev} (hb : Books st evs) (hk : Kern st) {found : List Found} (hp : possible st found = true) (c : Cond) :
    (items (pushed st found c)).Pairwise (fun i j => i.fd ≠ j.fd) := by
  have ht : ∀ f ∈ found, ∃ d ∈ st.descs, target st f = some d ∧ d.fd = f.fd ∧ fileOf st.table f.fd = some f.file :=
    fun f hf => target_some hb hk hp hf
  have hpw : found.Pairwise (fun f g => ¬ (f.fd = g.fd ∧ f.file = g.file)) := by
    simp only [possible, Bool.and_eq_true, decide_eq_true_eq] at hp
    exact hp.2
  unfold items pushed
  rw [List.pairwise_filterMap, List.pairwise_map]
  refine (hpw.filter _).imp_of_mem ?_
  intro f g hf hg hne i hi j hj hij
  have hf := (List.mem_filter.1 hf).1
  have hg := (List.mem_filter.1 hg).1
  obtain ⟨d, hd, hdt, hdf, h1⟩ := ht f hf
  obtain ⟨e, he, het, hef, h2⟩ := ht g hg
  simp only [hdt, het, Option.bind_some, Option.map_eq_some_iff] at hi hj
  obtain ⟨a, ha, rfl⟩ := hi
  obtain ⟨b, hb', rfl⟩ := hj
  simp only at hij
  have hfd : f.fd = g.fd := by rw [← hdf, ← hef, ← hb.own d hd c a ha, ← hb.own e he c b hb', hij]
  refine hne ⟨hfd, ?_⟩
  rw [hfd, h2] at h1
  exact (Option.some.inj h1).symm

theorem Inv.stop {st : St} {evs : List Ev} (h : Inv st evs) : Inv { st with stopping := true } (evs ++ [.stopped]) := by
  have hac : acted [Ev.stopped] = [] := rfl
  refine ⟨h.books.quiet rfl rfl rfl rfl (by simp) (by simp), h.tab.quiet rfl (by simp) (by simp), ?_, ?_, ?_, fine_dull h.fine (by simp [Dull])⟩
  · exact fun hc => (h.kern (careful_left hc)).same rfl rfl (fun _ _ => rfl)
  · exact fun ht => (h.full (tidy_left ht)).same rfl rfl
  · refine ⟨h.pass.idle, fun i hi => List.mem_append_left _ (h.pass.known i hi), ?_, ?_, ?_, ?_, ?_⟩
    · intro _
      exact ⟨(fun hh => by cases hh), (fun hh => absurd hh (going_stopped evs))⟩
    · intro hpc
      obtain ⟨e1, a, f, e2, he, hn⟩ := h.pass.last hpc
      exact ⟨e1, a, f, e2 ++ [.stopped], by rw [he]; simp, by simpa using hn⟩
    · intro hc i hi e1 a f e2 hl
      obtain ⟨e3, hl, _⟩ := last_append hl (by simp)
      exact h.pass.sound (careful_left hc) i hi e1 a f e3 hl
    · intro hc hpc e1 a f e2 hl g hg i hi hif hb
      exact Or.inr (Or.inr (Or.inl (going_stopped evs)))
    · intro hc e1 a f e2 hl
      obtain ⟨e3, hl', rfl⟩ := last_append hl (by simp)
      rw [acted_append, hac, List.append_nil]
      exact h.pass.order (careful_left hc) e1 a f e3 hl'

theorem Inv.run {st : St} {evs : List Ev} (h : Inv st evs) (hp : st.pc = .outside) : Inv { st with pc := .top, stopping := false } (evs ++ [.began]) := by
  have ha : st.activated = [] := h.pass.idle (by rw [hp]; simp)
  have hac : acted [Ev.began] = [] := rfl
  refine ⟨h.books.quiet rfl rfl rfl rfl (by simp) (by simp), h.tab.quiet rfl (by simp) (by simp), ?_, ?_, ?_, fine_dull h.fine (by simp [Dull])⟩
  · exact fun hc => (h.kern (careful_left hc)).same rfl rfl (fun _ _ => rfl)
  · exact fun ht => (h.full (tidy_left ht)).same rfl rfl
  · refine ⟨fun _ => ha, fun i hi => List.mem_append_left _ (h.pass.known i hi), ?_, ?_, ?_, ?_, ?_⟩
    · intro _
      exact ⟨fun _ => ⟨evs, [], rfl, by simp⟩, fun _ => rfl⟩
    · intro hpc; cases hpc
    · intro hc i hi
      rw [show ({ st with pc := .top, stopping := false } : St).activated = [] from ha] at hi
      cases hi
    · intro _ hpc; cases hpc
    · intro hc e1 a f e2 hl
      obtain ⟨e3, hl', rfl⟩ := last_append hl (by simp)
      rw [acted_append, hac, List.append_nil]
      exact h.pass.order (careful_left hc) e1 a f e3 hl'

theorem Inv.rest {st : St} {evs : List Ev} (h : Inv st evs) (hp : st.pc = .late) {pc : Pc} {evs' : List Ev}
    (hd : (pc = .outside ∧ evs' = [.ended]) ∨ (pc = .top ∧ evs' = [])) : Inv { st with pc := pc } (evs ++ evs') := by
  have ha : st.activated = [] := h.pass.idle (by rw [hp]; simp)
  have hno : ∀ x, x ∈ evs' → x = .ended := by
    intro x hx
    rcases hd with ⟨_, rfl⟩ | ⟨_, rfl⟩
    · simpa using hx
    · cases hx
  have hno' : ∀ x, x ≠ .ended → x ∉ evs' := fun x hx hm => hx (hno x hm)
  have hpc : pc ≠ .acting := by rcases hd with ⟨h, _⟩ | ⟨h, _⟩ <;> rw [h] <;> simp
  have hac : acted evs' = [] := by rcases hd with ⟨_, rfl⟩ | ⟨_, rfl⟩ <;> rfl
  refine ⟨h.books.quiet rfl rfl rfl rfl (fun _ => hno' _ (by simp)) (fun _ => hno' _ (by simp)), h.tab.quiet rfl (fun _ _ => hno' _ (by simp))
    (fun _ => hno' _ (by simp)), ?_, ?_, ?_, fine_dull h.fine (fun x hx => by rw [hno x hx]; trivial)⟩
  · exact fun hc => (h.kern (careful_left hc)).same rfl rfl (fun _ _ => rfl)
  · exact fun ht => (h.full (tidy_left ht)).same rfl rfl
  · refine ⟨fun _ => ha, fun i hi => List.mem_append_left _ (h.pass.known i hi), ?_, ?_, ?_, ?_, ?_⟩
    · intro hh
      rw [going_quiet (hno' _ (by simp)) (hno' _ (by simp))]
      exact h.pass.going (Or.inr (Or.inr hp))
    · intro hh; exact absurd hh hpc
    · intro hc i hi
      rw [show ({ st with pc := pc } : St).activated = [] from ha] at hi
      cases hi
    · intro _ hh; exact absurd hh hpc
    · intro hc e1 a f e2 hl
      obtain ⟨e3, hl', rfl⟩ := last_append hl (fun _ _ => hno' _ (by simp))
      rw [acted_append, hac, List.append_nil]
      exact h.pass.order (careful_left hc) e1 a f e3 hl'

theorem Inv.fine_polled {st : St} {evs : List Ev} (h : Inv st evs) (found : List Found) : Fine evs (.polled st.interests found) := by
  refine ⟨?_, ?_⟩
  · intro hc it hit
    obtain ⟨h1, d, hd, hdf, _, hm⟩ := (h.kern hc).ok it hit
    refine ⟨by rw [← h.tab.same]; exact h1, by rw [← hm]; exact h.books.used d hd, ?_⟩
    intro c hb
    rw [← hm, Desc.events_bit] at hb
    obtain ⟨a, ha⟩ := Option.isSome_iff_exists.1 hb
    have hf := h.books.own d hd c a ha
    exact ⟨⟨c, a.fd, a.id⟩, (h.books.force _).2 ⟨d, hd, hf.symm, ha⟩, hf.trans hdf, rfl⟩
  · intro ht i hi
    obtain ⟨d, hd, hdf, hdi⟩ := (h.books.force i).1 hi
    obtain ⟨it, hit, hif⟩ := h.full ht d hd
    obtain ⟨_, e, he, hef, _, hm⟩ := (h.kern (tidy_careful ht)).ok it hit
    have : e = d := fd_unique h.books.fds he hd (hef.trans hif)
    subst this
    exact ⟨it, hit, hif.trans hdf, by rw [← hm, Desc.events_bit, hdi]; rfl⟩

theorem Inv.wait {st : St} {evs : List Ev} (h : Inv st evs) (hp : st.pc = .top) {found : List Found} (hpos : possible st found = true) :
    Inv { st with pc := .acting, activated := pushed st found .exception ++ pushed st found .readable ++ pushed st found .writable }
      (evs ++ [.polled st.interests found]) := by
  have hall : ∀ i, i ∈ items (pushed st found .exception ++ pushed st found .readable ++ pushed st found .writable) ↔ i ∈ items (pushed st found i.cond) := by
    intro i
    rw [items_append, items_append, List.mem_append, List.mem_append]
    constructor
    · rintro ((hi | hi) | hi) <;> (have hh := (mem_pushed.1 hi).1; rw [hh]; exact hi)
    · intro hi
      cases hc : i.cond <;> rw [hc] at hi
      · exact Or.inl (Or.inr hi)
      · exact Or.inr hi
      · exact Or.inl (Or.inl hi)
  have hforce : ∀ i, i ∈ items (pushed st found i.cond) → InForce evs i := by
    intro i hi
    obtain ⟨_, f, hf, _, d, hd, ha⟩ := mem_pushed.1 hi
    have hdm := target_mem hd
    exact (h.books.force i).2 ⟨d, hdm, (h.books.own d hdm _ _ ha).symm, ha⟩
  refine ⟨h.books.quiet rfl rfl rfl rfl (by simp) (by simp), h.tab.quiet rfl (by simp) (by simp), ?_, ?_, ?_, fine_one h.fine (h.fine_polled found)⟩
  · exact fun hc => (h.kern (careful_left hc)).same rfl rfl (fun _ _ => rfl)
  · exact fun ht => (h.full (tidy_left ht)).same rfl rfl
  · refine ⟨fun hh => absurd rfl hh, ?_, ?_, ?_, ?_, ?_, ?_⟩
    · intro i hi
      exact List.mem_append_left _ (hforce i ((hall i).1 hi)).1
    · intro _
      rw [going_quiet (by simp) (by simp)]
      exact h.pass.going (Or.inl hp)
    · intro _
      exact ⟨evs, _, _, [], rfl, by simp⟩
    · intro hc i hi e1 a f e2 hl
      obtain ⟨rfl, rfl, rfl, rfl⟩ := last_here hl
      have hk := h.kern (careful_left hc)
      obtain ⟨_, g, hg, hb, d, hd, ha⟩ := mem_pushed.1 ((hall i).1 hi)
      obtain ⟨d', hdm, hd', hdf, hfile⟩ := target_some h.books hk hpos hg
      rw [hd] at hd'
      cases hd'
      have hif : i.fd = g.fd := (h.books.own d hdm _ _ ha).trans hdf
      exact ⟨g, hg, hif.symm, hb, by rw [hif, ← h.tab.same]; exact hfile⟩
    · intro hc _ e1 a f e2 hl g hg i hi hif hb
      obtain ⟨rfl, rfl, rfl, rfl⟩ := last_here hl
      have hk := h.kern (careful_left hc)
      refine Or.inr (Or.inr (Or.inr ((hall i).2 (mem_pushed.2 ⟨rfl, g, hg, hb, ?_⟩))))
      obtain ⟨d, hdm, hd, hdf, _⟩ := target_some h.books hk hpos hg
      obtain ⟨e, he, hef, hei⟩ := (h.books.force i).1 hi
      have : e = d := fd_unique h.books.fds he hdm (by rw [hef, hif, hdf])
      subst this
      exact ⟨e, hd, hei⟩
    · intro hc e1 a f e2 hl
      obtain ⟨rfl, rfl, rfl, rfl⟩ := last_here hl
      have hk := h.kern (careful_left hc)
      show (items _).Pairwise _
      have one : ∀ c, (items (pushed st f c)).Pairwise (fun i j => rank i.cond ≤ rank j.cond ∧ i ≠ j) := by
        intro c
        refine (pushed_fds h.books hk hpos c).imp_of_mem ?_
        intro i j hi hj hne
        rw [(mem_pushed.1 hi).1, (mem_pushed.1 hj).1]
        exact ⟨Nat.le_refl _, fun hh => hne (by rw [hh])⟩
      have two : ∀ c c', rank c < rank c' → ∀ i ∈ items (pushed st f c), ∀ j ∈ items (pushed st f c'), rank i.cond ≤ rank j.cond ∧ i ≠ j := by
        intro c c' hlt i hi j hj
        have h1 := (mem_pushed.1 hi).1
        have h2 := (mem_pushed.1 hj).1
        rw [h1, h2]
        refine ⟨Nat.le_of_lt hlt, ?_⟩
        rintro rfl
        rw [← h1, ← h2] at hlt
        exact Nat.lt_irrefl _ hlt
      rw [items_append, items_append, List.pairwise_append, List.pairwise_append]
      refine ⟨⟨one _, one _, two .exception .readable (by decide)⟩, one _, ?_⟩
      intro i hi j hj
      rcases List.mem_append.1 hi with hi | hi
      · exact two .exception .writable (by decide) i hi j hj
      · exact two .readable .writable (by decide) i hi j hj

theorem Inv.wild {st : St} {evs : List Ev} (h : Inv st evs) (hp : st.pc = .top) {found : List Found} (hpos : possible st found = true)
    (hw : ¬ found.all (fun f => (target st f).isSome) = true) :
    Inv { st with pc := .undefined } (evs ++ [.polled st.interests found, .wild]) := by
  have hnc : ¬ Careful evs := by
    intro hc
    apply hw
    rw [List.all_eq_true]
    intro f hf
    obtain ⟨d, _, hd, _⟩ := target_some h.books (h.kern hc) hpos hf
    rw [hd]; rfl
  have ha : st.activated = [] := h.pass.idle (by rw [hp]; simp)
  refine ⟨h.books.quiet rfl rfl rfl rfl (by simp) (by simp), h.tab.quiet rfl (by simp) (by simp), ?_, ?_, ?_, ?_⟩
  · exact fun hc => absurd (careful_left hc) hnc
  · exact fun ht => absurd (tidy_careful (tidy_left ht)) hnc
  · refine ⟨fun _ => ha, fun i hi => List.mem_append_left _ (h.pass.known i hi), by simp, by simp, ?_, ?_, ?_⟩
    · exact fun hc => absurd (careful_left hc) hnc
    · exact fun hc => absurd (careful_left hc) hnc
    · exact fun hc => absurd (careful_left hc) hnc
  · have h1 := fine_one h.fine (h.fine_polled found)
    have : ¬ Careful (evs ++ [.polled st.interests found]) := fun hc => hnc (careful_left hc)
    have h2 := fine_one (x := .wild) h1 this
    rw [List.append_assoc] at h2
    exact h2

theorem Inv.act_end {st : St} {evs : List Ev} (h : Inv st evs) (hp : st.pc = .acting) (ha : st.activated = []) :
    Inv { st with pc := .late } (evs ++ [.turn]) := by
  have hac : acted [Ev.turn] = [] := rfl
  refine ⟨h.books.quiet rfl rfl rfl rfl (by simp) (by simp), h.tab.quiet rfl (by simp) (by simp), ?_, ?_, ?_, fine_one h.fine ?_⟩
  · exact fun hc => (h.kern (careful_left hc)).same rfl rfl (fun _ _ => rfl)
  · exact fun ht => (h.full (tidy_left ht)).same rfl rfl
  · refine ⟨fun _ => ha, fun i hi => List.mem_append_left _ (h.pass.known i hi), ?_, by simp, ?_, by simp, ?_⟩
    · intro hh
      rw [going_quiet (by simp) (by simp)]
      exact h.pass.going (Or.inr (Or.inl hp))
    · intro hc i hi
      rw [show ({ st with pc := .late } : St).activated = [] from ha] at hi
      cases hi
    · intro hc e1 a f e2 hl
      obtain ⟨e3, hl', rfl⟩ := last_append hl (by simp)
      rw [acted_append, hac, List.append_nil]
      exact h.pass.order (careful_left hc) e1 a f e3 hl'
  · refine ⟨h.pass.last hp, ?_⟩
    intro hc e a f e2 hl g hg i hi hif hb
    rcases h.pass.heard hc hp e a f e2 hl g hg i hi hif hb with hh | hh | hh | hh
    · exact Or.inl hh
    · exact Or.inr (Or.inl hh)
    · exact Or.inr (Or.inr hh)
    · rw [ha] at hh; cases hh

/-- an entry of the queues is passed over -/
theorem Inv.act_skip {st : St} {evs : List Ev} (h : Inv st evs) (hp : st.pc = .acting) {p : Cond × Option Act} {l : List (Cond × Option Act)}
    (ha : st.activated = p :: l) (hskip : ∀ a, p.2 = some a → a.id ∈ st.canceled ∨ st.stopping = true) : Inv { st with activated := l } evs := by
  have hsub : (items l).Sublist (items st.activated) := by
    rw [ha, show p :: l = [p] ++ l from rfl, items_append]
    exact List.sublist_append_right _ _
  refine ⟨?_, ?_, ?_, ?_, ?_, h.fine⟩
  · have := h.books.quiet (st' := { st with activated := l }) (evs' := []) rfl rfl rfl rfl (by simp) (by simp)
    simpa using this
  · exact ⟨h.tab.keys, h.tab.same⟩
  · exact fun hc => (h.kern hc).same rfl rfl (fun _ _ => rfl)
  · exact fun ht => (h.full ht).same rfl rfl
  · refine ⟨fun hh => absurd hp hh, fun i hi => h.pass.known i (hsub.mem hi), h.pass.going, h.pass.last, ?_, ?_, ?_⟩
    · exact fun hc i hi => h.pass.sound hc i (hsub.mem hi)
    · intro hc hpc e1 a f e2 hl g hg i hi hif hb
      rcases h.pass.heard hc hpc e1 a f e2 hl g hg i hi hif hb with hh | hh | hh | hh
      · exact Or.inl hh
      · exact Or.inr (Or.inl hh)
      · exact Or.inr (Or.inr (Or.inl hh))
      · have hm := mem_items.1 hh
        rw [ha, List.mem_cons] at hm
        rcases hm with hm | hm
        · have hreg := h.pass.known i hh
          rcases hskip ⟨i.fd, i.id⟩ (by rw [← hm]) with hcan | hst
          · obtain ⟨j, hj, hu⟩ := (h.books.cancel _).1 hcan
            have : j = i := h.books.uniq j i (h.books.gone j hu) hreg hj
            subst this
            have h1 := hl.1
            rw [h1] at hu
            rcases List.mem_append.1 hu with hu | hu
            · exact absurd hu hi.2
            · rcases List.mem_cons.1 hu with hu | hu
              · cases hu
              · exact Or.inr (Or.inl hu)
          · refine Or.inr (Or.inr (Or.inl ?_))
            intro hgo
            have := (h.pass.going (Or.inr (Or.inl hp))).2 hgo
            rw [hst] at this
            cases this
        · exact Or.inr (Or.inr (Or.inr (mem_items.2 hm)))
    · intro hc e1 a f e2 hl
      exact (h.pass.order hc e1 a f e2 hl).sublist (List.Sublist.append (List.Sublist.refl _) hsub)

/-- an action is called -/
theorem Inv.act_call {st : St} {evs : List Ev} (h : Inv st evs) (hp : st.pc = .acting) {c : Cond} {a : Act} {l : List (Cond × Option Act)}
    (ha : st.activated = (c, some a) :: l) (hcan : a.id ∉ st.canceled) (hst : st.stopping = false) :
    Inv { st with activated := l } (evs ++ [.acted ⟨c, a.fd, a.id⟩]) := by
  have hit : items st.activated = ⟨c, a.fd, a.id⟩ :: items l := by rw [ha]; rfl
  have hsub : ∀ i ∈ items l, i ∈ items st.activated := fun i hi => by rw [hit]; exact List.mem_cons_of_mem _ hi
  have hhead : (⟨c, a.fd, a.id⟩ : Item) ∈ items st.activated := by rw [hit]; exact List.mem_cons_self ..
  have hac : acted [Ev.acted ⟨c, a.fd, a.id⟩] = [⟨c, a.fd, a.id⟩] := rfl
  refine ⟨h.books.quiet rfl rfl rfl rfl (by simp) (by simp), h.tab.quiet rfl (by simp) (by simp), ?_, ?_, ?_, fine_one h.fine ?_⟩
  · exact fun hc => (h.kern (careful_left hc)).same rfl rfl (fun _ _ => rfl)
  · exact fun ht => (h.full (tidy_left ht)).same rfl rfl
  · refine ⟨fun hh => absurd hp hh, fun i hi => List.mem_append_left _ (h.pass.known i (hsub i hi)), ?_, ?_, ?_, ?_, ?_⟩
    · intro hh
      rw [going_quiet (by simp) (by simp)]
      exact h.pass.going hh
    · intro hpc
      obtain ⟨e1, a', f, e2, he, hn⟩ := h.pass.last hpc
      exact ⟨e1, a', f, e2 ++ [.acted ⟨c, a.fd, a.id⟩], by rw [he]; simp, by simpa using hn⟩
    · intro hc i hi e1 a' f e2 hl
      obtain ⟨e3, hl, _⟩ := last_append hl (by simp)
      exact h.pass.sound (careful_left hc) i (hsub i hi) e1 a' f e3 hl
    · intro hc hpc e1 a' f e2 hl g hg i hi hif hb
      obtain ⟨e3, hl', rfl⟩ := last_append hl (by simp)
      rw [going_quiet (by simp) (by simp)]
      rcases h.pass.heard (careful_left hc) hpc e1 a' f e3 hl' g hg i hi hif hb with hh | hh | hh | hh
      · exact Or.inl (List.mem_append_left _ hh)
      · exact Or.inr (Or.inl (List.mem_append_left _ hh))
      · exact Or.inr (Or.inr (Or.inl hh))
      · rw [hit, List.mem_cons] at hh
        rcases hh with rfl | hh
        · exact Or.inl (by simp)
        · exact Or.inr (Or.inr (Or.inr hh))
    · intro hc e1 a' f e2 hl
      obtain ⟨e3, hl', rfl⟩ := last_append hl (by simp)
      have := h.pass.order (careful_left hc) e1 a' f e3 hl'
      rw [hit] at this
      rw [acted_append, hac, List.append_assoc]
      exact this
  · refine ⟨(h.pass.going (Or.inr (Or.inl hp))).1 hst, ⟨h.pass.known _ hhead, ?_⟩, h.pass.last hp, ?_⟩
    · intro hu
      exact hcan ((h.books.cancel _).2 ⟨_, rfl, hu⟩)
    · intro hc e1 a' f e2 hl
      have ho := h.pass.order hc e1 a' f e2 hl
      rw [hit, List.pairwise_append] at ho
      refine ⟨?_, ?_, h.pass.sound hc _ hhead e1 a' f e2 hl⟩
      · intro hm
        exact (ho.2.2 _ hm _ (List.mem_cons_self ..)).2 rfl
      · intro j hj
        exact (ho.2.2 j hj _ (List.mem_cons_self ..)).1

theorem Inv.step {st : St} {evs : List Ev} (h : Inv st evs) {op : Op} {st' : St} {evs' : List Ev} (hs : EP.step st op = some (st', evs')) :
    Inv st' (evs ++ evs') := by
  cases op with
  | opened fd =>
    simp only [EP.step] at hs
    split at hs
    · cases hs
    · rename_i hc
      simp only [Option.some.injEq, Prod.mk.injEq] at hs
      obtain ⟨rfl, rfl⟩ := hs
      simp only [Bool.or_eq_true, not_or, Bool.not_eq_true, Option.isSome_eq_false_iff, Option.isNone_iff_eq_none] at hc
      exact h.given fd _ _ hc.1
  | dup fd fd' =>
    simp only [EP.step] at hs
    split at hs
    · cases hs
    · rename_i hc
      simp only [Bool.or_eq_true, not_or, Bool.not_eq_true, Option.isSome_eq_false_iff, Option.isNone_iff_eq_none] at hc
      simp only [Option.map_eq_some_iff, Prod.mk.injEq] at hs
      obtain ⟨file, _, rfl, rfl⟩ := hs
      exact h.given fd' file st.nextFile hc.1
  | close fd =>
    simp only [EP.step] at hs
    split at hs
    · cases hs
    · rename_i hc
      simp only [Option.some.injEq, Prod.mk.injEq] at hs
      obtain ⟨rfl, rfl⟩ := hs
      refine h.close fd ?_
      cases hf : fileOf st.table fd with
      | none => rw [hf] at hc; simp at hc
      | some _ => rfl
  | register c fd =>
    simp only [EP.step] at hs
    split at hs
    · cases hs
    · simp only [Option.some.injEq] at hs
      have := h.register c fd
      rw [hs] at this
      exact this
  | unregister c fd =>
    simp only [EP.step] at hs
    split at hs
    · cases hs
    · simp only [Option.some.injEq] at hs
      have := (h.unregister c fd).1
      rw [hs] at this
      exact this
  | clear =>
    simp only [EP.step] at hs
    split at hs
    · cases hs
    · simp only [Option.some.injEq] at hs
      have := Inv.clearFds (st.descs.map (·.fd)) h
      rw [hs] at this
      exact this
  | stop =>
    simp only [EP.step] at hs
    split at hs
    · cases hs
    · simp only [Option.some.injEq, Prod.mk.injEq] at hs
      obtain ⟨rfl, rfl⟩ := hs
      exact h.stop
  | run =>
    simp only [EP.step] at hs
    split at hs
    · rename_i hp
      simp only [Option.some.injEq, Prod.mk.injEq] at hs
      obtain ⟨rfl, rfl⟩ := hs
      exact h.run hp
    · cases hs
  | wait found =>
    simp only [EP.step] at hs
    split at hs
    · rename_i hp
      simp only [Bool.and_eq_true, decide_eq_true_eq] at hp
      split at hs
      · simp only [Option.some.injEq, Prod.mk.injEq] at hs
        obtain ⟨rfl, rfl⟩ := hs
        exact h.wait hp.1 hp.2
      · rename_i hw
        simp only [Option.some.injEq, Prod.mk.injEq] at hs
        obtain ⟨rfl, rfl⟩ := hs
        exact h.wild hp.1 hp.2 hw
    · cases hs
  | act =>
    simp only [EP.step] at hs
    split at hs
    · rename_i hp
      split at hs
      · rename_i ha
        simp only [Option.some.injEq, Prod.mk.injEq] at hs
        obtain ⟨rfl, rfl⟩ := hs
        exact h.act_end hp ha
      · rename_i c l ha
        simp only [Option.some.injEq, Prod.mk.injEq] at hs
        obtain ⟨rfl, rfl⟩ := hs
        rw [List.append_nil]
        exact h.act_skip hp ha (by simp)
      · rename_i c a l ha
        simp only [Option.some.injEq, Prod.mk.injEq] at hs
        obtain ⟨rfl, rfl⟩ := hs
        split
        · rename_i hc
          rw [List.append_nil]
          refine h.act_skip hp ha ?_
          intro b hb
          simp only [Option.some.injEq] at hb
          subst hb
          simpa using hc
        · rename_i hc
          simp only [Bool.or_eq_true, not_or, Bool.not_eq_true, List.contains_eq_mem, decide_eq_false_iff_not] at hc
          exact h.act_call hp ha hc.1 hc.2
    · cases hs
  | rest =>
    simp only [EP.step] at hs
    split at hs
    · rename_i hp
      split at hs
      · simp only [Option.some.injEq, Prod.mk.injEq] at hs
        obtain ⟨rfl, rfl⟩ := hs
        exact h.rest hp (Or.inl ⟨rfl, rfl⟩)
      · simp only [Option.some.injEq, Prod.mk.injEq] at hs
        obtain ⟨rfl, rfl⟩ := hs
        exact h.rest hp (Or.inr ⟨rfl, rfl⟩)
    · cases hs

theorem inv_init : Inv init [] := by
  refine ⟨⟨List.Pairwise.nil, List.Pairwise.nil, by simp [init], by simp [init], by simp [init], ?_, by simp, by simp, by simp, by simp [init]⟩,
    ⟨List.Pairwise.nil, fun _ => rfl⟩, fun _ => ⟨by simp [init]⟩, fun _ => by simp [Full, init], ?_, by simp⟩
  · intro i
    simp [InForce, Has, init]
  · refine ⟨fun _ => rfl, by simp [init, items], by simp [init], by simp [init], by simp [init, items], by simp [init], ?_⟩
    intro _ e1 a f e2 hl
    have := hl.1
    simp at this

theorem inv {ops : List Op} {st : St} {evs : List Ev} (h : Run init ops st evs) : Inv st evs := by
  induction h with
  | nil => exact inv_init
  | step _ hs ih => exact ih.step hs

/-! ## Clearing -/

theorem unregister_left {st : St} {c : Cond} {fd : Nat} {e : Desc} (he : e ∈ (EP.unregister st c fd).1.descs) :
    ∃ e0 ∈ st.descs, e0.fd = e.fd ∧ ∀ c', e0.item c' = none → e.item c' = none := by
  rcases unregister_cases st c fd with ⟨h, _⟩ | ⟨d, a, hf, ha, _, _, _, _, _, hds, _⟩
  · rw [h] at he; exact ⟨e, he, rfl, fun _ h => h⟩
  · rw [hds] at he
    rcases (unregister_mem hf e).1 he with ⟨he, _⟩ | ⟨rfl, _⟩
    · exact ⟨e, he, rfl, fun _ h => h⟩
    · refine ⟨d, (findDesc_some hf).1, by simp, ?_⟩
      intro c' h
      rw [Desc.item_set]
      split
      · rfl
      · exact h

theorem unregister_item {st : St} {evs : List Ev} (h : Inv st evs) {c : Cond} {fd : Nat} {e : Desc} (he : e ∈ (EP.unregister st c fd).1.descs) (hf : e.fd = fd) :
    e.item c = none := by
  have hb := (h.unregister c fd).1.books
  cases hd : findDesc (EP.unregister st c fd).1 fd with
  | none => exact absurd hf (findDesc_none hd e he)
  | some d =>
    obtain ⟨h1, h2⟩ := findDesc_some hd
    have : e = d := fd_unique hb.fds he h1 (hf.trans h2.symm)
    rw [this]
    exact unregister_none c fd d hd

theorem unregisterFd_left {st : St} {evs : List Ev} (h : Inv st evs) {fd : Nat} {e : Desc} (he : e ∈ (EP.unregisterFd st fd).1.descs) :
    e.fd ≠ fd ∧ ∃ e0 ∈ st.descs, e0.fd = e.fd := by
  have hu := (h.unregisterFd fd).books.used e he
  have h1 := (h.unregister .readable fd).1
  have h2 := (h1.unregister .writable fd).1
  obtain ⟨e2, he2, hf2, hn2⟩ := unregister_left (c := .exception) he
  obtain ⟨e1, he1, hf1, hn1⟩ := unregister_left (c := .writable) he2
  obtain ⟨e0, he0, hf0, hn0⟩ := unregister_left (c := .readable) he1
  refine ⟨?_, e0, he0, by rw [hf0, hf1, hf2]⟩
  intro hf
  have ha : e.item .readable = none := hn2 _ (hn1 _ (unregister_item h he1 (by rw [hf1, hf2, hf])))
  have hb : e.item .writable = none := hn2 _ (unregister_item h1 he2 (by rw [hf2, hf]))
  have hc : e.item .exception = none := unregister_item h2 he hf
  obtain ⟨c, hcc⟩ := (Mask.any_iff _).1 hu
  rw [Desc.events_bit] at hcc
  cases c
  · rw [ha] at hcc; cases hcc
  · rw [hb] at hcc; cases hcc
  · rw [hc] at hcc; cases hcc

theorem clearFds_left (l : List Nat) : ∀ {st : St} {evs : List Ev}, Inv st evs → ∀ d ∈ (EP.clearFds st l).1.descs, d.fd ∉ l ∧ ∃ e ∈ st.descs, e.fd = d.fd := by
  induction l with
  | nil => intro st evs _ d hd; exact ⟨by simp, d, hd, rfl⟩
  | cons fd l ih =>
    intro st evs h d hd
    obtain ⟨h1, e, he, hef⟩ := ih (h.unregisterFd fd) d hd
    obtain ⟨h2, e0, he0, hf0⟩ := unregisterFd_left h he
    refine ⟨?_, e0, he0, hf0.trans hef⟩
    rw [List.mem_cons, not_or]
    exact ⟨by rw [← hef]; exact h2, h1⟩

end EP
end Rtmfp
