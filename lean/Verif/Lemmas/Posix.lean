import Verif.Model.Posix
/-! # Lemmas about the socket adapter -/
namespace Rtmfp
namespace Posix

/-- the descriptors of interfaces -/
def fdsOf (l : List If) : List Nat := l.map (·.fd)

/-- what `close` leaves -/
def shutAll (st : St) : St :=
  { st with ifs := [], readers := st.readers.filter (fun p => p.1 ∉ fdsOf st.ifs), writers := st.writers.filter (fun p => p.1 ∉ fdsOf st.ifs),
            table := st.table.filter (fun p => p.1 ∉ fdsOf st.ifs) }

theorem filter_not (l : List (Nat × Nat)) (fd : Nat) (fds : List Nat) : (l.filter (fun p => p.1 ≠ fd)).filter (fun p => p.1 ∉ fds) = l.filter (fun p => p.1 ∉ fd :: fds) := by
  rw [List.filter_filter]
  congr 1
  funext p
  simp [Bool.and_comm]

theorem closeAll_eq : ∀ (l : List If) (st : St), closeAll l st =
    { st with ifs := [], readers := st.readers.filter (fun p => p.1 ∉ fdsOf l), writers := st.writers.filter (fun p => p.1 ∉ fdsOf l), table := st.table.filter (fun p => p.1 ∉ fdsOf l) }
  | [], st => by
    have e : ∀ l : List (Nat × Nat), l.filter (fun p => p.1 ∉ fdsOf []) = l := fun l => List.filter_eq_self.mpr (by simp [fdsOf])
    rw [closeAll, e, e, e]
  | i :: l, st => by
    rw [closeAll, closeAll_eq l]
    simp only [unregister, closeFd]
    rw [filter_not, filter_not, filter_not]
    rfl

theorem close_eq (st : St) : closeAll st.ifs st = shutAll st := closeAll_eq _ _

/-- the steps, one by one -/
inductive Step : St → Op → St → List Ev → Prop
  | added (st : St) (family name fd : Nat) (hf : family = 2 ∨ family = 10) (hfree : free st.stack = true) (hfd : fileAt st.table fd = none) (hn : find st name = none) :
      Step st (.add family name (some fd) true) ⟨st.ifs ++ [⟨name, fd, st.nextFile, family⟩], register st.readers fd name, st.writers, st.stack, st.max, st.nextCb,
        st.table ++ [(fd, st.nextFile)], st.nextFile + 1⟩ [.added name fd st.nextFile family]
  | failed (st : St) (o : Op) (n : Nat) (hfree : free st.stack = true) (hn : st.nextFile ≤ n) (ho : ∃ a b c d, o = .add a b c d) : Step st o { st with nextFile := n } []
  | closed (st : St) (hfree : free st.stack = true) : Step st .close (shutAll st) [.closed]
  | wants (st : St) (name : Nat) (i : If) (hfree : free st.stack = true) (hi : find st name = some i) :
      Step st (.notify name) { st with writers := register st.writers i.fd st.nextCb, nextCb := st.nextCb + 1 } [.wants name st.nextCb]
  | refused (st : St) (name : Nat) (hfree : free st.stack = true) (hi : find st name = none) : Step st (.notify name) st []
  | wrote (st : St) (bytes : Bytes) (name family tos : Nat) (first second : Sent) (hfree : free st.stack = true) :
      Step st (.write bytes name family tos first second) st (writePacket st bytes name family tos first second)
  | setMax (st : St) (n : Nat) (hfree : free st.stack = true) : Step st (.setMax n) { st with max := n } []
  | opened (st : St) (fd : Nat) (hfree : free st.stack = true) (hfd : fileAt st.table fd = none) :
      Step st (.opened fd) { st with table := st.table ++ [(fd, st.nextFile)], nextFile := st.nextFile + 1 } [.opened fd st.nextFile]
  | shut (st : St) (fd : Nat) (hfree : free st.stack = true) (hfd : (fileAt st.table fd).isSome = true) (hi : ∀ i ∈ st.ifs, i.fd ≠ fd) :
      Step st (.shut fd) { st with table := closeFd st.table fd } [.shut fd]
  | readable (st : St) (fd name : Nat) (hs : st.stack = []) (h : st.readers.find? (fun p => p.1 = fd) = some (fd, name)) :
      Step st (.readable fd) { st with stack := [.receiving fd name] } []
  | writable (st : St) (fd cb : Nat) (hs : st.stack = []) (h : st.writers.find? (fun p => p.1 = fd) = some (fd, cb)) :
      Step st (.writable fd) { st with stack := [.writing fd cb 0] } []
  | drained (st : St) (fd name : Nat) (s : List Frame) (hs : st.stack = .receiving fd name :: s) : Step st (.recv none) { st with stack := s } []
  | given (st : St) (fd name : Nat) (s : List Frame) (b : Bytes) (hs : st.stack = .receiving fd name :: s) (hf : (fileAt st.table fd).isSome = true) :
      Step st (.recv (some b)) { st with stack := .delivering fd name :: s } [.given name (fileAt st.table fd) b]
  | delivered (st : St) (fd name : Nat) (s : List Frame) (hs : st.stack = .delivering fd name :: s) : Step st .delivered { st with stack := .receiving fd name :: s } []
  | asked (st : St) (fd cb n : Nat) (s : List Frame) (hs : st.stack = .writing fd cb n :: s) (hn : n < st.max) : Step st .ask { st with stack := .asking fd cb n :: s } [.asked cb]
  | enough (st : St) (fd cb n : Nat) (s : List Frame) (hs : st.stack = .writing fd cb n :: s) (hn : ¬ n < st.max) : Step st .ask { st with stack := s } []
  | again (st : St) (fd cb n : Nat) (s : List Frame) (hs : st.stack = .asking fd cb n :: s) : Step st (.answer true) { st with stack := .writing fd cb (n + 1) :: s } []
  | declined (st : St) (fd cb n : Nat) (s : List Frame) (hs : st.stack = .asking fd cb n :: s) :
      Step st (.answer false) { st with stack := s, writers := unregister st.writers fd } [.declined cb]

theorem find_fd {l : List (Nat × Nat)} {fd : Nat} {p : Nat × Nat} (h : l.find? (fun p => p.1 = fd) = some p) : p.1 = fd := by
  have := List.find?_some h
  simpa using this

theorem step_cases {st st' : St} {o : Op} {e : List Ev} (h : step st o = some (st', e)) : Step st o st' e := by
  cases o with
  | add family name sock bound =>
    simp only [step] at h
    split at h
    · rename_i hfree
      simp only [add] at h
      split at h
      · cases h
        exact .failed st _ _ hfree (Nat.le_refl _) ⟨_, _, _, _, rfl⟩
      · rename_i hf
        split at h
        · cases h
          exact .failed st _ _ hfree (Nat.le_refl _) ⟨_, _, _, _, rfl⟩
        · rename_i fd
          split at h
          · cases h
          · rename_i hn
            split at h
            · cases h
              exact .failed st _ _ hfree (Nat.le_succ _) ⟨_, _, _, _, rfl⟩
            · rename_i hb
              cases h
              simp only [not_or, Bool.not_eq_true, Option.isSome_eq_false_iff, Option.isNone_iff_eq_none] at hn
              have : bound = true := by simpa using hb
              subst this
              exact .added st family name fd (by omega) hfree hn.1 hn.2
    · cases h
  | close =>
    simp only [step] at h
    split at h
    · cases h; rw [close_eq]; exact .closed st ‹_›
    · cases h
  | notify name =>
    simp only [step] at h
    split at h
    · rename_i hfree
      rw [notify] at h
      split at h
      · cases h; exact .refused st name hfree ‹_›
      · cases h; exact .wants st name _ hfree ‹_›
    · cases h
  | write bytes name family tos first second =>
    simp only [step] at h
    split at h
    · cases h; exact .wrote st bytes name family tos first second ‹_›
    · cases h
  | setMax n =>
    simp only [step] at h
    split at h
    · cases h; exact .setMax st n ‹_›
    · cases h
  | opened fd =>
    simp only [step] at h
    split at h
    · rename_i hh; cases h; exact .opened st fd hh.1 hh.2
    · cases h
  | shut fd =>
    simp only [step] at h
    split at h
    · rename_i hh; cases h; exact .shut st fd hh.1 hh.2.1 hh.2.2
    · cases h
  | readable fd =>
    simp only [step] at h
    split at h
    · rename_i hs
      rw [Option.map_eq_some_iff] at h
      obtain ⟨p, h1, h2⟩ := h
      cases h2
      have := find_fd h1
      cases p with
      | mk a b => subst this; exact .readable st _ b hs h1
    · cases h
  | writable fd =>
    simp only [step] at h
    split at h
    · rename_i hs
      rw [Option.map_eq_some_iff] at h
      obtain ⟨p, h1, h2⟩ := h
      cases h2
      have := find_fd h1
      cases p with
      | mk a b => subst this; exact .writable st _ b hs h1
    · cases h
  | recv bytes =>
    simp only [step] at h
    split at h
    · rename_i fd name s hs
      split at h
      · cases h; exact .drained st fd name s hs
      · split at h
        · cases h; exact .given st fd name s _ hs ‹_›
        · cases h
    · cases h
  | delivered =>
    simp only [step] at h
    split at h
    · cases h; exact .delivered st _ _ _ ‹_›
    · cases h
  | ask =>
    simp only [step] at h
    split at h
    · split at h
      · cases h; exact .asked st _ _ _ _ ‹_› ‹_›
      · cases h; exact .enough st _ _ _ _ ‹_› ‹_›
    · cases h
  | answer again =>
    simp only [step] at h
    split at h
    · split at h
      · rename_i ha
        cases h
        have : again = true := by simpa using ha
        subst this
        exact .again st _ _ _ _ ‹_›
      · rename_i ha
        cases h
        have : again = false := by simpa using ha
        subst this
        exact .declined st _ _ _ _ ‹_›
    · cases h

/-- histories in which every step is of a certain kind, with all that was observed -/
inductive Reach (ok : St → Op → Prop) : St → List Ev → Prop
  | start : Reach ok init []
  | step {st st' : St} {evs e : List Ev} {o : Op} (h : Reach ok st evs) (hok : ok st o) (hs : Posix.step st o = some (st', e)) : Reach ok st' (evs ++ e)

/-- any step -/
abbrev Any : St → Op → Prop := fun _ _ => True

theorem Reach.mono {ok ok' : St → Op → Prop} (hm : ∀ st o, ok st o → ok' st o) {st : St} {evs : List Ev} (h : Reach ok st evs) : Reach ok' st evs := by
  induction h with
  | start => exact .start
  | step _ hok hs ih => exact .step ih (hm _ _ hok) hs

theorem Reach.any {ok : St → Op → Prop} {st : St} {evs : List Ev} (h : Reach ok st evs) : Reach Any st evs := h.mono (fun _ _ _ => trivial)

theorem reach_run {st : St} {evs : List Ev} (h : Reach Any st evs) {ops : List Op} {st' : St} {e : List Ev} (hr : run st ops = some (st', e)) : Reach Any st' (evs ++ e) := by
  induction ops generalizing st evs e with
  | nil => cases hr; simpa using h
  | cons o os ih =>
    rw [run] at hr
    cases hs : Posix.step st o with
    | none => rw [hs] at hr; cases hr
    | some r =>
      rw [hs] at hr
      simp only [Option.bind_some, Option.map_eq_some_iff] at hr
      obtain ⟨q, h1, h2⟩ := hr
      cases h2
      have := ih (.step (e := r.2) (st' := r.1) h trivial hs) h1
      simpa [List.append_assoc] using this

/-! ## The books -/

/-- what always holds of the adapter and the kernel's table -/
structure Inv (st : St) : Prop where
  names : (st.ifs.map (·.name)).Nodup
  fds : (fdsOf st.ifs).Nodup
  tableFds : (st.table.map (·.1)).Nodup
  files : ∀ p ∈ st.table, p.2 < st.nextFile
  own : ∀ i ∈ st.ifs, (i.fd, i.file) ∈ st.table
  read : ∀ fd name, (fd, name) ∈ st.readers ↔ ∃ i ∈ st.ifs, i.fd = fd ∧ i.name = name
  write : ∀ fd cb, (fd, cb) ∈ st.writers → ∃ i ∈ st.ifs, i.fd = fd
  writers : (st.writers.map (·.1)).Nodup
  cbs : ∀ fd cb, (fd, cb) ∈ st.writers → cb < st.nextCb
  depth : st.stack.length ≤ 1

theorem nodup_key {l : List (Nat × Nat)} (h : (l.map (·.1)).Nodup) {a b c : Nat} (h1 : (a, b) ∈ l) (h2 : (a, c) ∈ l) : b = c := by
  induction l with
  | nil => cases h1
  | cons p l ih =>
    rw [List.map_cons, List.nodup_cons] at h
    rcases List.mem_cons.mp h1 with h1 | h1
    · rcases List.mem_cons.mp h2 with h2 | h2
      · rw [← h1] at h2; injection h2 with _ h2; exact h2.symm
      · exact absurd (List.mem_map.mpr ⟨_, h2, by rw [← h1]⟩) h.1
    · rcases List.mem_cons.mp h2 with h2 | h2
      · exact absurd (List.mem_map.mpr ⟨_, h1, by rw [← h2]⟩) h.1
      · exact ih h.2 h1 h2

theorem find_iff {l : List (Nat × Nat)} (h : (l.map (·.1)).Nodup) (a b : Nat) : l.find? (fun p => p.1 = a) = some (a, b) ↔ (a, b) ∈ l := by
  constructor
  · exact fun hf => List.mem_of_find?_eq_some hf
  · intro hm
    cases hf : l.find? (fun p => decide (p.1 = a)) with
    | none =>
      have := List.find?_eq_none.mp hf _ hm
      simp at this
    | some p =>
      have h1 := find_fd hf
      have h2 := List.mem_of_find?_eq_some hf
      cases p with
      | mk x y =>
        subst h1
        rw [nodup_key h h2 hm]

theorem fileAt_iff {l : List (Nat × Nat)} (h : (l.map (·.1)).Nodup) (fd f : Nat) : fileAt l fd = some f ↔ (fd, f) ∈ l := by
  rw [fileAt, Option.map_eq_some_iff]
  constructor
  · rintro ⟨p, h1, h2⟩
    have := find_fd h1
    cases p with
    | mk x y => subst this h2; exact List.mem_of_find?_eq_some h1
  · intro hm
    exact ⟨_, (find_iff h fd f).mpr hm, rfl⟩

theorem fileAt_none {l : List (Nat × Nat)} {fd : Nat} : fileAt l fd = none ↔ ∀ f, (fd, f) ∉ l := by
  rw [fileAt, Option.map_eq_none_iff, List.find?_eq_none]
  constructor
  · intro h f hm
    have := h _ hm
    simp at this
  · rintro h ⟨x, y⟩ hm he
    simp at he
    subst he
    exact h y hm

theorem nodup_if {l : List If} {g : If → Nat} (h : (l.map g).Nodup) {i j : If} (hi : i ∈ l) (hj : j ∈ l) (e : g i = g j) : i = j := by
  induction l with
  | nil => cases hi
  | cons p l ih =>
    rw [List.map_cons, List.nodup_cons] at h
    rcases List.mem_cons.mp hi with hi' | hi'
    · rcases List.mem_cons.mp hj with hj' | hj'
      · rw [hi', hj']
      · exact absurd (List.mem_map.mpr ⟨j, hj', by rw [← e, hi']⟩) h.1
    · rcases List.mem_cons.mp hj with hj' | hj'
      · exact absurd (List.mem_map.mpr ⟨i, hi', by rw [e, hj']⟩) h.1
      · exact ih h.2 hi' hj'

theorem find_if {st : St} (h : Inv st) (name : Nat) (i : If) : find st name = some i ↔ i ∈ st.ifs ∧ i.name = name := by
  rw [find]
  constructor
  · intro hf
    exact ⟨List.mem_of_find?_eq_some hf, by simpa using List.find?_some hf⟩
  · rintro ⟨h1, h2⟩
    cases hf : st.ifs.find? (fun i => decide (i.name = name)) with
    | none =>
      have := List.find?_eq_none.mp hf _ h1
      simp [h2] at this
    | some j =>
      have h3 : j.name = name := by simpa using List.find?_some hf
      rw [nodup_if h.names (List.mem_of_find?_eq_some hf) h1 (h3.trans h2.symm)]

theorem find_no {st : St} {name : Nat} : find st name = none ↔ ∀ i ∈ st.ifs, i.name ≠ name := by
  rw [find, List.find?_eq_none]
  simp

theorem mem_register {l : List (Nat × Nat)} {fd v a b : Nat} : (a, b) ∈ register l fd v ↔ ((a, b) ∈ l ∧ a ≠ fd) ∨ (a = fd ∧ b = v) := by
  simp [register]

theorem mem_unregister {l : List (Nat × Nat)} {fd a b : Nat} : (a, b) ∈ unregister l fd ↔ (a, b) ∈ l ∧ a ≠ fd := by
  simp [unregister]

theorem nodup_filter {l : List (Nat × Nat)} (h : (l.map (·.1)).Nodup) (p : Nat × Nat → Bool) : ((l.filter p).map (·.1)).Nodup :=
  List.Sublist.nodup (List.Sublist.map _ List.filter_sublist) h

theorem nodup_register {l : List (Nat × Nat)} (h : (l.map (·.1)).Nodup) (fd v : Nat) : ((register l fd v).map (·.1)).Nodup := by
  rw [register, List.map_append, List.nodup_append]
  refine ⟨nodup_filter h _, by simp, ?_⟩
  simp only [List.map_cons, List.map_nil, List.mem_singleton, List.mem_map, List.mem_filter]
  rintro a ⟨p, ⟨_, h2⟩, rfl⟩ b rfl
  simpa using h2

theorem inv_step {st st' : St} {o : Op} {e : List Ev} (h : Inv st) (hs : Step st o st' e) : Inv st' := by
  cases hs with
  | added family name fd hf hfree hfd hn =>
    have hfd' := fileAt_none.mp hfd
    have hn' := find_no.mp hn
    refine ⟨?_, ?_, ?_, ?_, ?_, ?_, ?_, h.writers, h.cbs, h.depth⟩
    · simp only [List.map_append, List.map_cons, List.map_nil]
      rw [List.nodup_append]
      refine ⟨h.names, by simp, ?_⟩
      rintro a ha b hb rfl
      obtain ⟨i, h1, rfl⟩ := List.mem_map.mp ha
      exact hn' i h1 (by simpa using hb)
    · simp only [fdsOf, List.map_append, List.map_cons, List.map_nil]
      rw [List.nodup_append]
      refine ⟨h.fds, by simp, ?_⟩
      rintro a ha b hb rfl
      obtain ⟨i, h1, rfl⟩ := List.mem_map.mp ha
      have := h.own i h1
      rw [show i.fd = fd by simpa using hb] at this
      exact hfd' _ this
    · simp only [List.map_append, List.map_cons, List.map_nil]
      rw [List.nodup_append]
      refine ⟨h.tableFds, by simp, ?_⟩
      rintro a ha b hb rfl
      obtain ⟨⟨x, y⟩, h1, rfl⟩ := List.mem_map.mp ha
      have hx : x = fd := by simpa using hb
      subst hx
      exact hfd' _ h1
    · intro p hp
      rcases List.mem_append.mp hp with hp | hp
      · exact Nat.lt_succ_of_lt (h.files p hp)
      · simp at hp; subst hp; exact Nat.lt_succ_self _
    · intro i hi
      rcases List.mem_append.mp hi with hi | hi
      · exact List.mem_append_left _ (h.own i hi)
      · simp at hi; subst hi; simp
    · intro a b
      rw [mem_register, h.read]
      constructor
      · rintro (⟨⟨i, h1, h2, h3⟩, _⟩ | ⟨rfl, rfl⟩)
        · exact ⟨i, List.mem_append_left _ h1, h2, h3⟩
        · exact ⟨_, List.mem_append_right _ (List.mem_singleton.mpr rfl), rfl, rfl⟩
      · rintro ⟨i, h1, h2, h3⟩
        rcases List.mem_append.mp h1 with h4 | h4
        · refine .inl ⟨⟨i, h4, h2, h3⟩, ?_⟩
          intro ha
          have := h.own i h4
          rw [h2, ha] at this
          exact hfd' _ this
        · simp at h4; subst h4; exact .inr ⟨h2.symm, h3.symm⟩
    · intro a b hab
      obtain ⟨i, h1, h2⟩ := h.write a b hab
      exact ⟨i, List.mem_append_left _ h1, h2⟩
  | failed _ n hfree hn ho => exact ⟨h.names, h.fds, h.tableFds, fun p hp => Nat.lt_of_lt_of_le (h.files p hp) hn, h.own, h.read, h.write, h.writers, h.cbs, h.depth⟩
  | closed hfree =>
    refine ⟨by simp [shutAll], by simp [shutAll, fdsOf], nodup_filter h.tableFds _, fun p hp => h.files p (List.mem_filter.mp hp).1, by simp [shutAll], ?_, ?_,
      nodup_filter h.writers _, fun fd cb hc => h.cbs fd cb (List.mem_filter.mp hc).1, h.depth⟩
    · intro fd name
      simp only [shutAll, List.mem_filter, decide_eq_true_eq, List.not_mem_nil, false_and, exists_false, iff_false, not_and, Decidable.not_not]
      intro hr
      obtain ⟨i, h1, h2, _⟩ := (h.read fd name).mp hr
      exact List.mem_map.mpr ⟨i, h1, h2⟩
    · intro fd cb hc
      simp only [shutAll, List.mem_filter, decide_eq_true_eq] at hc
      obtain ⟨i, h1, h2⟩ := h.write fd cb hc.1
      exact absurd (List.mem_map.mpr ⟨i, h1, h2⟩) hc.2
  | wants name i hfree hi =>
    obtain ⟨h1, h2⟩ := (find_if h _ _).mp hi
    refine ⟨h.names, h.fds, h.tableFds, h.files, h.own, h.read, ?_, nodup_register h.writers _ _, ?_, h.depth⟩
    · intro fd cb hc
      rcases mem_register.mp hc with ⟨hc, _⟩ | ⟨rfl, _⟩
      · exact h.write fd cb hc
      · exact ⟨i, h1, rfl⟩
    · intro fd cb hc
      rcases mem_register.mp hc with ⟨hc, _⟩ | ⟨_, rfl⟩
      · exact Nat.lt_succ_of_lt (h.cbs fd cb hc)
      · exact Nat.lt_succ_self _
  | refused => exact h
  | wrote => exact h
  | setMax => exact ⟨h.names, h.fds, h.tableFds, h.files, h.own, h.read, h.write, h.writers, h.cbs, h.depth⟩
  | opened fd hfree hfd =>
    have hfd' := fileAt_none.mp hfd
    refine ⟨h.names, h.fds, ?_, ?_, fun i hi => List.mem_append_left _ (h.own i hi), h.read, h.write, h.writers, h.cbs, h.depth⟩
    · simp only [List.map_append, List.map_cons, List.map_nil]
      rw [List.nodup_append]
      refine ⟨h.tableFds, by simp, ?_⟩
      rintro a ha b hb rfl
      obtain ⟨⟨x, y⟩, h1, rfl⟩ := List.mem_map.mp ha
      have hx : x = fd := by simpa using hb
      subst hx
      exact hfd' _ h1
    · intro p hp
      rcases List.mem_append.mp hp with hp | hp
      · exact Nat.lt_succ_of_lt (h.files p hp)
      · simp at hp; subst hp; exact Nat.lt_succ_self _
  | shut fd hfree hfd hi =>
    refine ⟨h.names, h.fds, nodup_filter h.tableFds _, fun p hp => h.files p (List.mem_filter.mp hp).1, ?_, h.read, h.write, h.writers, h.cbs, h.depth⟩
    intro i h1
    simp only [closeFd, List.mem_filter]
    exact ⟨h.own i h1, by simpa using hi i h1⟩
  | readable => exact ⟨h.names, h.fds, h.tableFds, h.files, h.own, h.read, h.write, h.writers, h.cbs, by simp⟩
  | writable => exact ⟨h.names, h.fds, h.tableFds, h.files, h.own, h.read, h.write, h.writers, h.cbs, by simp⟩
  | drained fd name s hs => exact ⟨h.names, h.fds, h.tableFds, h.files, h.own, h.read, h.write, h.writers, h.cbs, by have := h.depth; rw [hs] at this; simp only [List.length_cons] at this; show s.length ≤ 1; omega⟩
  | given fd name s b hs => exact ⟨h.names, h.fds, h.tableFds, h.files, h.own, h.read, h.write, h.writers, h.cbs, by have := h.depth; rw [hs] at this; simpa using this⟩
  | delivered fd name s hs => exact ⟨h.names, h.fds, h.tableFds, h.files, h.own, h.read, h.write, h.writers, h.cbs, by have := h.depth; rw [hs] at this; simpa using this⟩
  | asked fd cb n s hs => exact ⟨h.names, h.fds, h.tableFds, h.files, h.own, h.read, h.write, h.writers, h.cbs, by have := h.depth; rw [hs] at this; simpa using this⟩
  | enough fd cb n s hs => exact ⟨h.names, h.fds, h.tableFds, h.files, h.own, h.read, h.write, h.writers, h.cbs, by have := h.depth; rw [hs] at this; simp only [List.length_cons] at this; show s.length ≤ 1; omega⟩
  | again fd cb n s hs => exact ⟨h.names, h.fds, h.tableFds, h.files, h.own, h.read, h.write, h.writers, h.cbs, by have := h.depth; rw [hs] at this; simpa using this⟩
  | declined fd cb n s hs =>
    refine ⟨h.names, h.fds, h.tableFds, h.files, h.own, h.read, fun a b hab => h.write a b (mem_unregister.mp hab).1, nodup_filter h.writers _,
      fun a b hab => h.cbs a b (mem_unregister.mp hab).1, by have := h.depth; rw [hs] at this; simp only [List.length_cons] at this; show s.length ≤ 1; omega⟩

theorem inv_init : Inv init :=
  ⟨by simp [init], by simp [init, fdsOf], by simp [init], by simp [init], by simp [init], by simp [init], by simp [init], by simp [init], by simp [init], by simp [init]⟩

theorem Reach.inv {ok : St → Op → Prop} {st : St} {evs : List Ev} (h : Reach ok st evs) : Inv st := by
  induction h with
  | start => exact inv_init
  | step _ _ hs ih => exact inv_step ih (step_cases hs)

end Posix
end Rtmfp
