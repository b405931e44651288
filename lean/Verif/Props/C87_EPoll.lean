import Verif.Lemmas.EPollPass
/-! # C87: descriptors of the run loop over `epoll` -/
namespace Rtmfp
open EP Spec.EP
open RL (Cond Item)

private def epRuns : List EP.Op → EP.St → List EP.Ev → Option (EP.St × List EP.Ev)
  | [], st, evs => some (st, evs)
  | op :: ops, st, evs => (EP.step st op).bind (fun r => epRuns ops r.1 (evs ++ r.2))

private theorem epRuns_run (st0 : EP.St) (ops : List EP.Op) : ∀ (ops0 : List EP.Op) (st : EP.St) (evs : List EP.Ev) st' evs', EP.Run st0 ops0 st evs →
    epRuns ops st evs = some (st', evs') → EP.Run st0 (ops0 ++ ops) st' evs' := by
  induction ops with
  | nil =>
    intro ops0 st evs st' evs' h hr
    simp only [epRuns, Option.some.injEq, Prod.mk.injEq] at hr
    obtain ⟨rfl, rfl⟩ := hr
    simpa using h
  | cons op ops ih =>
    intro ops0 st evs st' evs' h hr
    simp only [epRuns, Option.bind_eq_some_iff] at hr
    obtain ⟨⟨st1, evs1⟩, h1, h2⟩ := hr
    have := ih (ops0 ++ [op]) st1 (evs ++ evs1) st' evs' (EP.Run.step h h1) h2
    simpa using this

private theorem ep_demo (ops : List EP.Op) (evs : List EP.Ev) (h : (epRuns ops EP.init []).map (·.2) = some evs) : ∃ st, EP.Run EP.init ops st evs := by
  cases hr : epRuns ops EP.init [] with
  | none => rw [hr] at h; simp at h
  | some r =>
    rw [hr] at h
    simp only [Option.map_some, Option.some.injEq] at h
    refine ⟨r.1, ?_⟩
    rw [← h]
    simpa using epRuns_run EP.init ops [] EP.init [] r.1 r.2 EP.Run.nil hr

/-- descriptors 4 and 5 are registered, 4 for reading and writing; both can be read and 4 can be written too; the action for reading 4 replaces that of 5 and
unregisters and closes nothing; after the turn, 5 is unregistered and closed -/
private def epDemo : List EP.Op :=
  [.opened 4, .opened 5, .register .readable 4, .register .readable 5, .register .writable 4, .run,
   .wait [⟨4, 0, true, true, false, false⟩, ⟨5, 1, true, false, false, false⟩], .act, .register .readable 5, .act, .act, .act, .rest,
   .unregister .readable 5, .close 5, .wait [⟨4, 0, false, true, false, false⟩], .act, .stop, .act, .rest]

private def j0 : Item := ⟨.readable, 4, 0⟩
private def j1 : Item := ⟨.readable, 5, 1⟩
private def j2 : Item := ⟨.writable, 4, 2⟩
private def j3 : Item := ⟨.readable, 5, 3⟩
private def asked1 : List Interest := [⟨4, 0, ⟨true, true, false⟩, 0⟩, ⟨5, 1, ⟨true, false, false⟩, 1⟩]
private def asked2 : List Interest := [⟨4, 0, ⟨true, true, false⟩, 0⟩]
private def found1 : List Found := [⟨4, 0, true, true, false, false⟩, ⟨5, 1, true, false, false, false⟩]
private def found2 : List Found := [⟨4, 0, false, true, false, false⟩]

private def epDemoEvs : List EP.Ev :=
  [.opened 4 0, .opened 5 1, .registered j0, .registered j1, .registered j2, .began, .polled asked1 found1, .acted j0, .unregistered j1, .registered j3,
   .acted j2, .turn, .unregistered j3, .closed 5, .polled asked2 found2, .acted j2, .stopped, .turn, .ended]

private theorem ep_demo_run : ∃ st, EP.Run EP.init epDemo st epDemoEvs := ep_demo epDemo epDemoEvs (by decide +kernel)

/-- a check of `Tidy` for concrete traces -/
private def tidyB : List EP.Ev → List EP.Ev → Bool
  | _, [] => true
  | e1, .closed fd :: l =>
    (e1.all fun | .registered i => decide (i.fd ≠ fd) || e1.contains (.unregistered i) | _ => true) && tidyB (e1 ++ [.closed fd]) l
  | e1, .registered i :: l => (fileAt e1 i.fd).isSome && tidyB (e1 ++ [.registered i]) l
  | e1, x :: l => tidyB (e1 ++ [x]) l

private theorem tidyB_tidy (l : List EP.Ev) : ∀ e0, tidyB e0 l = true →
    (∀ e1 fd e2, l = e1 ++ .closed fd :: e2 → ∀ i, InForce (e0 ++ e1) i → i.fd ≠ fd) ∧
      (∀ e1 i e2, l = e1 ++ .registered i :: e2 → (fileAt (e0 ++ e1) i.fd).isSome) := by
  induction l with
  | nil => intro e0 _; exact ⟨by simp, by simp⟩
  | cons x l ih =>
    intro e0 h
    have hrest : tidyB (e0 ++ [x]) l = true := by
      cases x <;> simp only [tidyB, Bool.and_eq_true] at h <;> first | exact h | exact h.2
    have ih := ih _ hrest
    constructor
    · intro e1 fd e2 he i hi
      cases e1 with
      | nil =>
        simp only [List.nil_append, List.cons.injEq] at he
        obtain ⟨rfl, rfl⟩ := he
        simp only [tidyB, Bool.and_eq_true, List.all_eq_true] at h
        rw [List.append_nil] at hi
        have := h.1 _ hi.1
        simp only [Bool.or_eq_true, decide_eq_true_eq, List.contains_eq_mem] at this
        rcases this with this | this
        · exact this
        · exact absurd this hi.2
      | cons y e1 =>
        simp only [List.cons_append, List.cons.injEq] at he
        obtain ⟨rfl, rfl⟩ := he
        exact ih.1 e1 fd e2 rfl i (by simpa using hi)
    · intro e1 i e2 he
      cases e1 with
      | nil =>
        simp only [List.nil_append, List.cons.injEq] at he
        obtain ⟨rfl, rfl⟩ := he
        simp only [tidyB, Bool.and_eq_true] at h
        simpa using h.1
      | cons y e1 =>
        simp only [List.cons_append, List.cons.injEq] at he
        obtain ⟨rfl, rfl⟩ := he
        simpa using ih.2 e1 i e2 rfl

private theorem tidy_of {evs : List EP.Ev} (h : tidyB [] evs = true) : Tidy evs := by
  have := tidyB_tidy evs [] h
  simpa [Tidy] using this

private theorem ep_demo_tidy : Tidy epDemoEvs := tidy_of (by decide +kernel)

/-- **Only the action in force.** An action is called only while the loop runs and has not been stopped, and only if it is registered at that moment: not after
having been unregistered, replaced or cleared, also if this happens in the same turn. -/
theorem C87_in_force (ops : List EP.Op) (st : EP.St) (evs : List EP.Ev) (h : EP.Run EP.init ops st evs) (e1 : List EP.Ev) (i : Item) (e2 : List EP.Ev)
    (he : evs = e1 ++ .acted i :: e2) : Going e1 ∧ InForce e1 i :=
  have hf : Fine e1 (.acted i) := (inv h).fine e1 _ e2 he
  ⟨hf.1, hf.2.1⟩

example : ∃ st e1 e2, EP.Run EP.init epDemo st epDemoEvs ∧ epDemoEvs = e1 ++ .acted j2 :: e2 := by
  obtain ⟨st, h⟩ := ep_demo_run
  exact ⟨st, epDemoEvs.take 10, epDemoEvs.drop 11, h, by decide⟩

/-- **One at a time.** At most one action is in force for a descriptor and condition. -/
theorem C87_one (ops : List EP.Op) (st : EP.St) (evs : List EP.Ev) (h : EP.Run EP.init ops st evs) (i j : Item) (hi : InForce evs i) (hj : InForce evs j)
    (hc : i.cond = j.cond) (hf : i.fd = j.fd) : i = j := by
  have hb := (inv h).books
  obtain ⟨d, hd, hdf, hdi⟩ := (hb.force i).1 hi
  obtain ⟨e, he, hef, hei⟩ := (hb.force j).1 hj
  have : d = e := fd_unique hb.fds hd he (by rw [hdf, hef, hf])
  subst this
  rw [hc, hei, Option.some.injEq] at hdi
  cases i; cases j
  simp only at hc hdi ⊢
  rw [hc]
  injection hdi with h1 h2
  rw [h1, h2]

example : ∃ st, EP.Run EP.init epDemo st epDemoEvs ∧ InForce epDemoEvs j0 ∧ InForce epDemoEvs j2 := by
  obtain ⟨st, h⟩ := ep_demo_run
  exact ⟨st, h, ⟨by decide, by decide⟩, ⟨by decide, by decide⟩⟩

/-- **Only what was found ready.** As long as descriptors are unregistered before being closed (or closing one closes its file for good): an action is called
because the last call of `epoll_wait` found its condition for its descriptor, and for the very file that the descriptor then stood for. Within a turn each action is
called at most once; exceptions come first, then what can be read, then what can be written. -/
theorem C87_ready (ops : List EP.Op) (st : EP.St) (evs : List EP.Ev) (h : EP.Run EP.init ops st evs) (hc : Careful evs) (e1 : List EP.Ev) (i : Item)
    (e2 : List EP.Ev) (he : evs = e1 ++ .acted i :: e2) : ∃ e asked found between, e1 = e ++ .polled asked found :: between ∧
      (∀ a f, .polled a f ∉ between) ∧ (∃ g ∈ found, g.fd = i.fd ∧ g.bit i.cond = true ∧ fileAt e i.fd = some g.file) ∧ .acted i ∉ between ∧
      ∀ j, .acted j ∈ between → rank j.cond ≤ rank i.cond := by
  have hf : Fine e1 (.acted i) := (inv h).fine e1 _ e2 he
  obtain ⟨_, _, ⟨e, a, f, b, hl⟩, hs⟩ := hf
  have hc1 : Careful e1 := careful_left (evs' := .acted i :: e2) (by rw [← he]; exact hc)
  obtain ⟨h1, h2, h3⟩ := hs hc1 e a f b hl
  have hm : ∀ j, Ev.acted j ∈ b → j ∈ acted b := fun j hj => List.mem_filterMap.2 ⟨_, hj, rfl⟩
  exact ⟨e, a, f, b, hl.1, hl.2, h3, fun hh => h1 (hm i hh), fun j hj => h2 j (hm j hj)⟩

example : ∃ st e1 e2, EP.Run EP.init epDemo st epDemoEvs ∧ Careful epDemoEvs ∧ epDemoEvs = e1 ++ .acted j2 :: e2 ∧ .acted j0 ∈ e1 := by
  obtain ⟨st, h⟩ := ep_demo_run
  exact ⟨st, epDemoEvs.take 10, epDemoEvs.drop 11, h, tidy_careful ep_demo_tidy, by decide, by decide⟩

/-- **The kernel is asked for what is registered.** As long as descriptors are open when registered and unregistered before being closed: whenever the loop waits,
the kernel has been asked for exactly the conditions with an action in force, each for the file its descriptor stands for. -/
theorem C87_asked (ops : List EP.Op) (st : EP.St) (evs : List EP.Ev) (h : EP.Run EP.init ops st evs) (ht : Tidy evs) (e1 : List EP.Ev)
    (asked : List Interest) (found : List Found) (e2 : List EP.Ev) (he : evs = e1 ++ .polled asked found :: e2) :
    (∀ it ∈ asked, fileAt e1 it.fd = some it.file ∧ it.mask.any = true) ∧
      ∀ c fd, (∃ it ∈ asked, it.fd = fd ∧ it.mask.bit c = true) ↔ ∃ i, InForce e1 i ∧ i.fd = fd ∧ i.cond = c := by
  have hf : Fine e1 (.polled asked found) := (inv h).fine e1 _ e2 he
  have ht1 : Tidy e1 := tidy_left (evs' := .polled asked found :: e2) (by rw [← he]; exact ht)
  have h1 := hf.1 (tidy_careful ht1)
  refine ⟨fun it hit => ⟨(h1 it hit).1, (h1 it hit).2.1⟩, fun c fd => ⟨?_, ?_⟩⟩
  · rintro ⟨it, hit, rfl, hb⟩
    exact (h1 it hit).2.2 c hb
  · rintro ⟨i, hi, rfl, rfl⟩
    exact hf.2 ht1 i hi

example : ∃ st e1 e2, EP.Run EP.init epDemo st epDemoEvs ∧ Tidy epDemoEvs ∧ epDemoEvs = e1 ++ .polled asked2 found2 :: e2 ∧ .closed 5 ∈ e1 := by
  obtain ⟨st, h⟩ := ep_demo_run
  exact ⟨st, epDemoEvs.take 14, epDemoEvs.drop 15, h, ep_demo_tidy, by decide, by decide⟩

/-- **Nothing found ready is forgotten.** (Partial: a hang-up alone is not looked at, see `C87_hangup`.) What `epoll_wait` found for a condition with an action in force, that action is called for in the same turn, before tasks
and timers get theirs, unless it is unregistered before that or the loop is stopped. -/
theorem C87_heard_partial (ops : List EP.Op) (st : EP.St) (evs : List EP.Ev) (h : EP.Run EP.init ops st evs) (hc : Careful evs) (e1 : List EP.Ev)
    (asked : List Interest) (found : List Found) (between e2 : List EP.Ev) (he : evs = e1 ++ .polled asked found :: (between ++ .turn :: e2))
    (hb : ∀ a f, .polled a f ∉ between) (g : Found) (hg : g ∈ found) (i : Item) (hi : InForce e1 i) (hf : i.fd = g.fd) (hbit : g.bit i.cond = true) :
    .acted i ∈ between ∨ .unregistered i ∈ between ∨ ¬ Going (e1 ++ .polled asked found :: between) := by
  have he' : evs = (e1 ++ .polled asked found :: between) ++ .turn :: e2 := by rw [he]; simp
  have hfine : Fine (e1 ++ .polled asked found :: between) .turn := (inv h).fine _ _ e2 he'
  have hc1 : Careful (e1 ++ .polled asked found :: between) := careful_left (evs' := .turn :: e2) (by rw [← he']; exact hc)
  exact hfine.2 hc1 e1 asked found between ⟨rfl, hb⟩ g hg i hi hf hbit

example : ∃ st e1 between e2, EP.Run EP.init epDemo st epDemoEvs ∧ Careful epDemoEvs ∧
    epDemoEvs = e1 ++ .polled asked1 found1 :: (between ++ .turn :: e2) ∧ (∀ a f, .polled a f ∉ between) ∧ InForce e1 j2 ∧ .acted j2 ∈ between := by
  obtain ⟨st, h⟩ := ep_demo_run
  refine ⟨st, epDemoEvs.take 6, [.acted j0, .unregistered j1, .registered j3, .acted j2], epDemoEvs.drop 12, h, tidy_careful ep_demo_tidy, by decide, by simp,
    ⟨by decide, by decide⟩, by decide⟩

/-- **No stray pointers.** As long as descriptors are unregistered before being closed (or closing one closes its file for good), the loop never follows a pointer
to an object that is no more: whatever is registered and unregistered, by whatever action. -/
theorem C87_safe (ops : List EP.Op) (st : EP.St) (evs : List EP.Ev) (h : EP.Run EP.init ops st evs) (hc : Careful evs) : .wild ∉ evs := by
  intro hm
  obtain ⟨e1, e2, he⟩ := List.append_of_mem hm
  have hf : Fine e1 .wild := (inv h).fine e1 _ e2 he
  exact hf (careful_left (evs' := .wild :: e2) (by rw [← he]; exact hc))

example : ∃ st, EP.Run EP.init epDemo st epDemoEvs ∧ Careful epDemoEvs := by
  obtain ⟨st, h⟩ := ep_demo_run
  exact ⟨st, h, tidy_careful ep_demo_tidy⟩

/-- without that it does: the file is still open in a child process when its descriptor is closed and then unregistered -/
theorem C87_wild : ∃ ops st evs, EP.Run EP.init ops st evs ∧ .wild ∈ evs ∧ (∀ i, ¬ InForce evs i) := by
  obtain ⟨st, h⟩ := ep_demo [.opened 4, .dup 4 100, .register .readable 4, .close 4, .unregister .readable 4, .run,
      .wait [⟨4, 0, true, false, false, false⟩]]
    [.opened 4 0, .opened 100 0, .registered ⟨.readable, 4, 0⟩, .closed 4, .unregistered ⟨.readable, 4, 0⟩, .began,
      .polled [⟨4, 0, ⟨true, false, false⟩, 0⟩] [⟨4, 0, true, false, false, false⟩], .wild] (by decide +kernel)
  refine ⟨_, st, _, h, by simp, ?_⟩
  rintro i ⟨h1, h2⟩
  simp at h1 h2
  exact h2 h1

/-- and a descriptor closed without having been unregistered is not watched for when its number is given out again and registered, though its action is in force -/
theorem C87_unwatched : ∃ ops st evs e1 found e2 i, EP.Run EP.init ops st evs ∧ evs = e1 ++ .polled [] found :: e2 ∧ InForce e1 i ∧
    fileAt e1 i.fd = some 1 ∧ ∃ e3, .registered i ∉ e3 ∧ fileAt e3 i.fd = some 1 ∧ e3 <+: e1 := by
  obtain ⟨st, h⟩ := ep_demo [.opened 4, .register .readable 4, .close 4, .opened 4, .register .writable 4, .run, .wait []]
    [.opened 4 0, .registered ⟨.readable, 4, 0⟩, .closed 4, .opened 4 1, .registered ⟨.writable, 4, 1⟩, .began, .polled [] []] (by decide +kernel)
  exact ⟨_, st, _, [.opened 4 0, .registered ⟨.readable, 4, 0⟩, .closed 4, .opened 4 1, .registered ⟨.writable, 4, 1⟩, .began], [], [], ⟨.writable, 4, 1⟩, h, rfl,
    ⟨by decide, by decide⟩, by decide, [.opened 4 0, .registered ⟨.readable, 4, 0⟩, .closed 4, .opened 4 1], by decide, by decide,
    ⟨[.registered ⟨.writable, 4, 1⟩, .began], rfl⟩⟩

/-- **A hang-up is not heard.** If `epoll_wait` finds nothing but a hang-up for a descriptor (as for the reading end of a pipe once its writers are gone, where
reading would give the end of the file at once), none of its actions is called in that turn; nothing keeps the kernel from finding the same again at once. -/
theorem C87_hangup (ops : List EP.Op) (st : EP.St) (evs : List EP.Ev) (h : EP.Run EP.init ops st evs) (hc : Careful evs) (e1 : List EP.Ev)
    (asked : List Interest) (found : List Found) (between e2 : List EP.Ev) (he : evs = e1 ++ .polled asked found :: (between ++ e2))
    (hb : ∀ a f, .polled a f ∉ between) (fd : Nat) (hg : ∀ g ∈ found, g.fd = fd → g.r = false ∧ g.w = false ∧ g.x = false) (i : Item) (hf : i.fd = fd) :
    .acted i ∉ between := by
  intro hm
  obtain ⟨b1, b2, rfl⟩ := List.append_of_mem hm
  have he' : evs = (e1 ++ .polled asked found :: b1) ++ .acted i :: (b2 ++ e2) := by rw [he]; simp
  have hfine : Fine (e1 ++ .polled asked found :: b1) (.acted i) := (inv h).fine _ _ _ he'
  have hc1 : Careful (e1 ++ .polled asked found :: b1) := careful_left (evs' := .acted i :: (b2 ++ e2)) (by rw [← he']; exact hc)
  have hl : Last (e1 ++ .polled asked found :: b1) e1 asked found b1 := ⟨rfl, fun a f hh => hb a f (by simp [hh])⟩
  obtain ⟨_, _, g, hgm, hgf, hbit, _⟩ := hfine.2.2.2 hc1 e1 asked found b1 hl
  obtain ⟨h1, h2, h3⟩ := hg g hgm (hgf.trans hf)
  cases hcond : i.cond <;> rw [hcond] at hbit <;> simp [Found.bit, h1, h2, h3] at hbit

/-- the reading end of a pipe, registered and hung up: turn after turn without a call -/
example : ∃ ops st evs e1 asked found between e2 i, EP.Run EP.init ops st evs ∧ Careful evs ∧ evs = e1 ++ .polled asked found :: (between ++ e2) ∧
    (∀ a f, .polled a f ∉ between) ∧ InForce e1 i ∧ (∃ g ∈ found, g.fd = i.fd ∧ g.hup = true) ∧
    (∀ g ∈ found, g.fd = i.fd → g.r = false ∧ g.w = false ∧ g.x = false) ∧ e2 = [.turn, .polled asked found, .turn] := by
  obtain ⟨st, h⟩ := ep_demo [.opened 4, .register .readable 4, .run, .wait [⟨4, 0, false, false, false, true⟩], .act, .rest,
      .wait [⟨4, 0, false, false, false, true⟩], .act]
    [.opened 4 0, .registered ⟨.readable, 4, 0⟩, .began, .polled [⟨4, 0, ⟨true, false, false⟩, 0⟩] [⟨4, 0, false, false, false, true⟩], .turn,
      .polled [⟨4, 0, ⟨true, false, false⟩, 0⟩] [⟨4, 0, false, false, false, true⟩], .turn] (by decide +kernel)
  exact ⟨_, st, _, [.opened 4 0, .registered ⟨.readable, 4, 0⟩, .began], _, _, [], _, ⟨.readable, 4, 0⟩, h, tidy_careful (tidy_of (by decide +kernel)), rfl,
    by simp, ⟨by decide, by decide⟩, ⟨_, List.mem_singleton.2 rfl, rfl, rfl⟩, by simp, rfl⟩

/-- **Cleared is cleared.** After `clear` no action is in force. -/
theorem C87_cleared (ops : List EP.Op) (st : EP.St) (evs : List EP.Ev) (h : EP.Run EP.init ops st evs) (st' : EP.St) (evs' : List EP.Ev)
    (hs : EP.step st .clear = some (st', evs')) (i : Item) : ¬ InForce (evs ++ evs') i := by
  have hi := (inv h).step hs
  simp only [EP.step] at hs
  split at hs
  · cases hs
  · simp only [Option.some.injEq] at hs
    rw [hi.books.force]
    rintro ⟨d, hd, _⟩
    have hst : st' = (clearFds st (st.descs.map (·.fd))).1 := by rw [hs]
    rw [hst] at hd
    obtain ⟨h1, e, he, hef⟩ := clearFds_left _ (inv h) d hd
    exact h1 (List.mem_map.2 ⟨e, he, hef⟩)

private theorem ep_demo_step (ops : List EP.Op) (op : EP.Op) (evs evs' : List EP.Ev)
    (h : (epRuns ops EP.init []).bind (fun r => (EP.step r.1 op).map (fun q => (r.2, q.2))) = some (evs, evs')) :
    ∃ st st', EP.Run EP.init ops st evs ∧ EP.step st op = some (st', evs') := by
  obtain ⟨⟨st, evs1⟩, h1, h2⟩ := Option.bind_eq_some_iff.1 h
  obtain ⟨⟨st', evs2⟩, h3, h4⟩ := Option.map_eq_some_iff.1 h2
  simp only [Prod.mk.injEq] at h4
  obtain ⟨rfl, rfl⟩ := h4
  exact ⟨st, st', by simpa using epRuns_run EP.init ops [] EP.init [] st evs1 EP.Run.nil h1, h3⟩

example : ∃ st st', EP.Run EP.init (epDemo.take 9) st (epDemoEvs.take 10) ∧
    EP.step st .clear = some (st', [.unregistered j0, .unregistered j2, .unregistered j3]) :=
  ep_demo_step _ _ _ _ (by decide +kernel)

end Rtmfp
