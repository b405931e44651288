import Verif.Lemmas.Posix
/-! # C90: the sockets of the POSIX platform adapter -/
namespace Rtmfp
open Posix

namespace Posix

/-- An interface was added, and the adapter was not closed since. -/
def InForce (evs : List Ev) (name fd file family : Nat) : Prop := ∃ a b, evs = a ++ .added name fd file family :: b ∧ Ev.closed ∉ b

theorem split_append {α : Type} {u v a b : List α} {x : α} (h : u ++ v = a ++ x :: b) : (∃ b', b = b' ++ v ∧ u = a ++ x :: b') ∨ (∃ a', a = u ++ a' ∧ v = a' ++ x :: b) := by
  rcases List.append_eq_append_iff.mp h with ⟨a', h1, h2⟩ | ⟨c', h1, h2⟩
  · exact .inr ⟨a', h1, h2⟩
  · cases c' with
    | nil =>
      refine .inr ⟨[], ?_, ?_⟩
      · simpa using h1.symm
      · simpa using h2.symm
    | cons y c' =>
      rw [List.cons_append] at h2
      injection h2 with h2 h3
      subst h2
      exact .inl ⟨c', h3, h1⟩

theorem InForce.more {evs : List Ev} {n fd f fam : Nat} (h : InForce evs n fd f fam) {e : List Ev} (he : Ev.closed ∉ e) : InForce (evs ++ e) n fd f fam := by
  obtain ⟨a, b, rfl, hb⟩ := h
  exact ⟨a, b ++ e, by simp, by simp [hb, he]⟩

theorem InForce.less {evs e : List Ev} {n fd f fam : Nat} (h : InForce (evs ++ e) n fd f fam) : (InForce evs n fd f fam ∧ Ev.closed ∉ e) ∨ Ev.added n fd f fam ∈ e := by
  obtain ⟨a, b, h1, h2⟩ := h
  rcases split_append h1 with ⟨b', rfl, rfl⟩ | ⟨a', rfl, rfl⟩
  · simp only [List.mem_append, not_or] at h2
    exact .inl ⟨⟨a, b', rfl, h2.1⟩, h2.2⟩
  · exact .inr (by simp)

theorem writePacket_evs {st : St} {bytes : Bytes} {name family tos : Nat} {first second : Sent} {x : Ev} (h : x ∈ writePacket st bytes name family tos first second) :
    (∃ f b t, x = .sent f b t) ∨ ∃ ok, x = .wrote ok := by
  revert h
  rw [writePacket]
  split
  · intro h; simp at h; exact .inr ⟨_, h⟩
  · split
    · intro h; simp at h; exact .inr ⟨_, h⟩
    · cases first with
      | ok =>
        intro h
        simp at h
        rcases h with h | h
        · exact .inl ⟨_, _, _, h⟩
        · exact .inr ⟨_, h⟩
      | other => intro h; simp at h; exact .inr ⟨_, h⟩
      | einval =>
        dsimp only
        split
        · cases second with
          | ok =>
            intro h
            simp at h
            rcases h with h | h
            · exact .inl ⟨_, _, _, h⟩
            · exact .inr ⟨_, h⟩
          | other => intro h; simp at h; exact .inr ⟨_, h⟩
          | einval => intro h; simp at h; exact .inr ⟨_, h⟩
        · intro h; simp at h; exact .inr ⟨_, h⟩

/-- which interfaces there are after a step -/
theorem step_ifs {st st' : St} {o : Op} {e : List Ev} (h : Step st o st' e) :
    (∃ n fd f fam, e = [.added n fd f fam] ∧ st'.ifs = st.ifs ++ [⟨n, fd, f, fam⟩]) ∨ (e = [.closed] ∧ st'.ifs = []) ∨
    (Ev.closed ∉ e ∧ (∀ n fd f fam, Ev.added n fd f fam ∉ e) ∧ st'.ifs = st.ifs) := by
  cases h
  case added => exact .inl ⟨_, _, _, _, rfl, rfl⟩
  case closed => exact .inr (.inl ⟨rfl, rfl⟩)
  case wrote =>
    refine .inr (.inr ⟨?_, ?_, rfl⟩)
    · intro hx
      rcases writePacket_evs hx with ⟨_, _, _, h⟩ | ⟨_, h⟩ <;> cases h
    · intro n fd f fam hx
      rcases writePacket_evs hx with ⟨_, _, _, h⟩ | ⟨_, h⟩ <;> cases h
  all_goals exact .inr (.inr ⟨by simp, by simp, rfl⟩)

theorem in_force {ok : St → Op → Prop} {st : St} {evs : List Ev} (h : Reach ok st evs) (n fd f fam : Nat) : InForce evs n fd f fam ↔ ⟨n, fd, f, fam⟩ ∈ st.ifs := by
  induction h with
  | start =>
    constructor
    · rintro ⟨a, b, h, _⟩; simp at h
    · intro h; simp [init] at h
  | @step st st' evs e o hr _ hs ih =>
    rcases step_ifs (step_cases hs) with ⟨n', fd', f', fam', rfl, h⟩ | ⟨rfl, h⟩ | ⟨h1, h2, h⟩
    · rw [h, List.mem_append, ← ih]
      constructor
      · intro hi
        rcases hi.less with ⟨hi, _⟩ | hi
        · exact .inl hi
        · simp at hi; exact .inr (by simp [hi])
      · rintro (hi | hi)
        · exact hi.more (by simp)
        · simp at hi
          obtain ⟨rfl, rfl, rfl, rfl⟩ := hi
          exact ⟨evs, [], rfl, by simp⟩
    · rw [h]
      constructor
      · intro hi
        rcases hi.less with ⟨_, hi⟩ | hi
        · simp at hi
        · simp at hi
      · intro hi; cases hi
    · rw [h, ← ih]
      constructor
      · intro hi
        rcases hi.less with ⟨hi, _⟩ | hi
        · exact hi
        · exact absurd hi (h2 _ _ _ _)
      · exact fun hi => hi.more h1

/-! ## Reading -/

/-- The adapter is not closed by what RTMFP calls when it is given a packet. -/
def Calm (st : St) (o : Op) : Prop := o = .close → ∀ fd name, Frame.delivering fd name ∉ st.stack

/-- the loops that read are for interfaces that there are -/
theorem reading {st : St} {evs : List Ev} (h : Reach Calm st evs) : ∀ fd name, Frame.receiving fd name ∈ st.stack ∨ Frame.delivering fd name ∈ st.stack → ∃ i ∈ st.ifs, i.fd = fd ∧ i.name = name := by
  induction h with
  | start => simp [init]
  | @step st st' evs e o hr hok hs ih =>
    have inv := hr.inv
    intro fd name
    cases step_cases hs
    case added =>
      intro hx
      obtain ⟨i, h1, h2⟩ := ih fd name hx
      exact ⟨i, List.mem_append_left _ h1, h2⟩
    case closed hfree =>
      intro hx
      have hc := hok rfl
      rcases hx with hx | hx
      · have hx' : Frame.receiving fd name ∈ st.stack := hx
        have hd := inv.depth
        match hst : st.stack, hx', hd with
        | [x], hx', _ =>
          simp at hx'
          subst hx'
          rw [hst] at hfree
          simp [free] at hfree
      · exact absurd hx (hc fd name)
    case readable fd' name' hst hf =>
      intro hx
      simp at hx
      obtain ⟨rfl, rfl⟩ := hx
      exact (inv.read _ _).mp (List.mem_of_find?_eq_some hf)
    case writable => intro hx; simp at hx
    case drained fd' name' s hst =>
      intro hx
      exact ih fd name (by rw [hst]; rcases hx with hx | hx <;> simp [show _ ∈ s from hx])
    case given fd' name' s b hst _ =>
      intro hx
      refine ih fd name ?_
      rw [hst]
      simp at hx ⊢
      rcases hx with hx | (hx | hx)
      · exact .inl (.inr hx)
      · exact .inl (.inl hx)
      · exact .inr hx
    case delivered fd' name' s hst =>
      intro hx
      refine ih fd name ?_
      rw [hst]
      simp at hx ⊢
      rcases hx with (hx | hx) | hx
      · exact .inr (.inl hx)
      · exact .inl hx
      · exact .inr (.inr hx)
    case asked fd' cb n s hst _ =>
      intro hx
      exact ih fd name (by rw [hst]; simpa using hx)
    case enough fd' cb n s hst _ =>
      intro hx
      exact ih fd name (by rw [hst]; simpa using hx)
    case again fd' cb n s hst =>
      intro hx
      exact ih fd name (by rw [hst]; simpa using hx)
    case declined fd' cb n s hst =>
      intro hx
      exact ih fd name (by rw [hst]; simpa using hx)
    all_goals exact ih fd name

theorem given_from {st : St} {evs : List Ev} (h : Reach Calm st evs) : ∀ a b name file bytes, evs = a ++ .given name file bytes :: b → ∃ fd f fam, file = some f ∧ InForce a name fd f fam := by
  induction h with
  | start => intro a b n f y h; simp at h
  | @step st st' evs e o hr hok hs ih =>
    intro a b name file bytes heq
    rcases split_append heq with ⟨b', _, h1⟩ | ⟨a', h1, h2⟩
    · exact ih a b' name file bytes h1
    · have hx : Ev.given name file bytes ∈ e := by rw [h2]; simp
      cases step_cases hs
      case given fd' name' s bs hst hf =>
        match a', h2 with
        | [], h2 =>
          simp at h2 h1
          obtain ⟨⟨rfl, rfl, rfl⟩, rfl⟩ := h2
          subst h1
          obtain ⟨i, hi, e1, e2⟩ := reading hr fd' name' (.inl (by rw [hst]; simp))
          have ho := hr.inv.own i hi
          refine ⟨i.fd, i.file, i.family, ?_, ?_⟩
          · rw [← e1]; exact (fileAt_iff hr.inv.tableFds _ _).mpr ho
          · rw [in_force hr, ← e2]; exact hi
        | y :: a', h2 => simp at h2
      case wrote => rcases writePacket_evs hx with ⟨_, _, _, h⟩ | ⟨_, h⟩ <;> cases h
      all_goals simp at hx

end Posix

/-- **C90** What RTMFP is given as received by an interface was received by the socket that was opened for it and is still open, as long as the adapter is not closed
while RTMFP is being given a packet (`C90_stray` shows what can happen then). -/
theorem C90_received_partial (st : St) (evs : List Ev) (h : Reach Calm st evs) (a b : List Ev) (name : Nat) (file : Option Nat) (bytes : Bytes)
    (he : evs = a ++ .given name file bytes :: b) : ∃ fd f family, file = some f ∧ InForce a name fd f family :=
  given_from h a b name file bytes he

/-- **C90** What arrives at the socket of an interface is given to RTMFP with the number of that interface. -/
theorem C90_heard (st : St) (evs : List Ev) (h : Reach Any st evs) (name fd f family : Nat) (hi : InForce evs name fd f family) (hs : st.stack = []) (bytes : Bytes) :
    ∃ st', run st [.readable fd, .recv (some bytes), .delivered, .recv none] = some (st', [.given name (some f) bytes]) ∧ st' = st := by
  have inv := h.inv
  have hm := (in_force h name fd f family).mp hi
  have hr := (inv.read fd name).mpr ⟨_, hm, rfl, rfl⟩
  -- the first registration for the descriptor is for this interface
  have hfind : st.readers.find? (fun p => p.1 = fd) = some (fd, name) := by
    cases hf : st.readers.find? (fun p => decide (p.1 = fd)) with
    | none =>
      have := List.find?_eq_none.mp hf _ hr
      simp at this
    | some p =>
      have h1 := find_fd hf
      have h2 := List.mem_of_find?_eq_some hf
      cases p with
      | mk x y =>
        subst h1
        obtain ⟨j, hj, e1, e2⟩ := (inv.read x y).mp h2
        have := nodup_if inv.fds hj hm e1
        subst this
        rw [← e2]
  have hfile := (fileAt_iff inv.tableFds fd f).mpr (inv.own _ hm)
  refine ⟨st, ?_, rfl⟩
  cases st with
  | mk ifs readers writers stack max nextCb table nextFile =>
    subst hs
    simp only at hfind hfile
    simp [run, step, hfind, hfile]

/-! ## Writing -/

namespace Posix

/-- a callback is being called in a loop, or is about to -/
def Looping (st : St) (fd cb : Nat) : Prop := ∃ n, Frame.writing fd cb n ∈ st.stack ∨ Frame.asking fd cb n ∈ st.stack

/-- a callback was asked for, and did not answer no -/
def Live (evs : List Ev) (cb : Nat) : Prop := (∃ name, Ev.wants name cb ∈ evs) ∧ Ev.declined cb ∉ evs

/-- who is registered and being called -/
structure WInv (st : St) (evs : List Ev) : Prop where
  live : ∀ fd cb, (fd, cb) ∈ st.writers → Live evs cb
  loop : ∀ fd cb, Looping st fd cb → Live evs cb
  one : ∀ fd fd' cb, (fd, cb) ∈ st.writers → (fd', cb) ∈ st.writers → fd' = fd
  same : ∀ fd fd' cb, Looping st fd cb → (fd', cb) ∈ st.writers → fd' = fd
  old : ∀ name cb, Ev.wants name cb ∈ evs → cb < st.nextCb
  oldDeclined : ∀ cb, Ev.declined cb ∈ evs → cb < st.nextCb
  oldLoop : ∀ fd cb, Looping st fd cb → cb < st.nextCb

theorem Live.more {evs : List Ev} {cb : Nat} (h : Live evs cb) {e : List Ev} (he : Ev.declined cb ∉ e) : Live (evs ++ e) cb := by
  obtain ⟨⟨n, h1⟩, h2⟩ := h
  exact ⟨⟨n, List.mem_append_left _ h1⟩, by simp [h2, he]⟩

/-- a step after which nobody else is registered or being called, and no callback is asked for or declines -/
theorem WInv.keep {st st' : St} {evs e : List Ev} (w : WInv st evs) (hw : ∀ p ∈ st'.writers, p ∈ st.writers) (hl : ∀ fd cb, Looping st' fd cb → Looping st fd cb)
    (hn : st'.nextCb = st.nextCb) (h1 : ∀ n cb, Ev.wants n cb ∉ e) (h2 : ∀ cb, Ev.declined cb ∉ e) : WInv st' (evs ++ e) where
  live fd cb h := (w.live fd cb (hw _ h)).more (h2 cb)
  loop fd cb h := (w.loop fd cb (hl _ _ h)).more (h2 cb)
  one fd fd' cb h h' := w.one fd fd' cb (hw _ h) (hw _ h')
  same fd fd' cb h h' := w.same fd fd' cb (hl _ _ h) (hw _ h')
  old n cb h := by
    rw [hn]
    rcases List.mem_append.mp h with h | h
    · exact w.old n cb h
    · exact absurd h (h1 _ _)
  oldDeclined cb h := by
    rw [hn]
    rcases List.mem_append.mp h with h | h
    · exact w.oldDeclined cb h
    · exact absurd h (h2 _)
  oldLoop fd cb h := by rw [hn]; exact w.oldLoop fd cb (hl _ _ h)

theorem winv {ok : St → Op → Prop} {st : St} {evs : List Ev} (h : Reach ok st evs) : WInv st evs := by
  induction h with
  | start =>
    constructor <;> simp [init, Looping]
  | @step st st' evs e o hr hok hs w =>
    have inv := hr.inv
    cases step_cases hs
    case added => exact w.keep (fun p hp => hp) (fun _ _ h => h) rfl (by simp) (by simp)
    case failed => exact w.keep (fun p hp => hp) (fun _ _ h => h) rfl (by simp) (by simp)
    case closed => exact w.keep (fun p hp => (List.mem_filter.mp hp).1) (fun _ _ h => h) rfl (by simp) (by simp)
    case wants name i hfree hi =>
      have hmono : ∀ cb, Live evs cb → Live (evs ++ [.wants name st.nextCb]) cb := fun cb h => h.more (by simp)
      have hfresh : ∀ fd, (fd, st.nextCb) ∉ st.writers := fun fd h => Nat.lt_irrefl _ (inv.cbs _ _ h)
      refine ⟨?_, fun fd cb h => hmono cb (w.loop fd cb h), ?_, ?_, ?_, ?_, fun fd cb h => Nat.lt_succ_of_lt (w.oldLoop fd cb h)⟩
      · intro fd cb h
        rcases mem_register.mp h with ⟨h, _⟩ | ⟨_, rfl⟩
        · exact hmono cb (w.live fd cb h)
        · refine ⟨⟨name, by simp⟩, ?_⟩
          intro hd
          simp at hd
          exact Nat.lt_irrefl _ (w.oldDeclined _ hd)
      · intro fd fd' cb h h'
        rcases mem_register.mp h with ⟨h, _⟩ | ⟨e1, e2⟩
        · rcases mem_register.mp h' with ⟨h', _⟩ | ⟨_, e2⟩
          · exact w.one fd fd' cb h h'
          · rw [e2] at h; exact absurd h (hfresh _)
        · rcases mem_register.mp h' with ⟨h', _⟩ | ⟨e3, _⟩
          · rw [e2] at h'; exact absurd h' (hfresh _)
          · rw [e1, e3]
      · intro fd fd' cb h h'
        rcases mem_register.mp h' with ⟨h', _⟩ | ⟨_, e2⟩
        · exact w.same fd fd' cb h h'
        · have := w.oldLoop fd cb h
          rw [e2] at this
          exact absurd this (Nat.lt_irrefl _)
      · intro n cb h
        rcases List.mem_append.mp h with h | h
        · exact Nat.lt_succ_of_lt (w.old n cb h)
        · simp at h; rw [h.2]; exact Nat.lt_succ_self _
      · intro cb h
        simp at h
        exact Nat.lt_succ_of_lt (w.oldDeclined cb h)
    case refused => exact w.keep (fun p hp => hp) (fun _ _ h => h) rfl (by simp) (by simp)
    case wrote =>
      refine w.keep (fun p hp => hp) (fun _ _ h => h) rfl ?_ ?_
      · intro n cb hx; rcases writePacket_evs hx with ⟨_, _, _, h⟩ | ⟨_, h⟩ <;> cases h
      · intro cb hx; rcases writePacket_evs hx with ⟨_, _, _, h⟩ | ⟨_, h⟩ <;> cases h
    case setMax => exact w.keep (fun p hp => hp) (fun _ _ h => h) rfl (by simp) (by simp)
    case opened => exact w.keep (fun p hp => hp) (fun _ _ h => h) rfl (by simp) (by simp)
    case shut => exact w.keep (fun p hp => hp) (fun _ _ h => h) rfl (by simp) (by simp)
    case readable => exact w.keep (fun p hp => hp) (by rintro fd cb ⟨n, h⟩; simp at h) rfl (by simp) (by simp)
    case writable fd cb hst hf =>
      have hm := List.mem_of_find?_eq_some hf
      have e : ∀ fd' cb', Looping { st with stack := [.writing fd cb 0] } fd' cb' → fd' = fd ∧ cb' = cb := by
        rintro fd' cb' ⟨n, h⟩
        simp at h
        exact ⟨h.1, h.2.1⟩
      rw [List.append_nil]
      refine ⟨w.live, ?_, w.one, ?_, w.old, w.oldDeclined, ?_⟩
      · intro fd' cb' h
        obtain ⟨rfl, rfl⟩ := e _ _ h
        exact w.live _ _ hm
      · intro fd' fd'' cb' h h'
        obtain ⟨rfl, rfl⟩ := e _ _ h
        exact w.one _ _ _ hm h'
      · intro fd' cb' h
        obtain ⟨rfl, rfl⟩ := e _ _ h
        exact inv.cbs _ _ hm
    case drained fd name s hst =>
      refine w.keep (fun p hp => hp) ?_ rfl (by simp) (by simp)
      rintro fd' cb' ⟨n, h⟩
      exact ⟨n, by rw [hst]; simpa using h⟩
    case given fd name s b hst _ =>
      refine w.keep (fun p hp => hp) ?_ rfl (by simp) (by simp)
      rintro fd' cb' ⟨n, h⟩
      exact ⟨n, by rw [hst]; simpa using h⟩
    case delivered fd name s hst =>
      refine w.keep (fun p hp => hp) ?_ rfl (by simp) (by simp)
      rintro fd' cb' ⟨n, h⟩
      exact ⟨n, by rw [hst]; simpa using h⟩
    case asked fd cb n s hst _ =>
      refine w.keep (fun p hp => hp) ?_ rfl (by simp) (by simp)
      rintro fd' cb' ⟨m, h⟩
      refine ⟨m, ?_⟩
      rw [hst]
      simp at h ⊢
      rcases h with h | (h | h)
      · exact .inl (.inr h)
      · exact .inl (.inl h)
      · exact .inr h
    case enough fd cb n s hst _ =>
      refine w.keep (fun p hp => hp) ?_ rfl (by simp) (by simp)
      rintro fd' cb' ⟨m, h⟩
      refine ⟨m, ?_⟩
      rw [hst]
      simp at h ⊢
      rcases h with h | h
      · exact .inl (.inr h)
      · exact .inr h
    case again fd cb n s hst =>
      refine w.keep (fun p hp => hp) ?_ rfl (by simp) (by simp)
      rintro fd' cb' ⟨m, h⟩
      rw [Looping, hst]
      simp at h ⊢
      rcases h with (⟨h1, h2, _⟩ | h) | h
      · exact ⟨n, .inr (.inl ⟨h1, h2, rfl⟩)⟩
      · exact ⟨m, .inl h⟩
      · exact ⟨m, .inr (.inr h)⟩
    case declined fd cb n s hst =>
      have hl : Looping st fd cb := ⟨n, .inr (by rw [hst]; simp)⟩
      have hd := inv.depth
      have hs : s = [] := by
        rw [hst] at hd
        cases s with
        | nil => rfl
        | cons x s => simp at hd
      subst hs
      have hno : ∀ fd' cb', ¬ Looping { st with stack := [], writers := unregister st.writers fd } fd' cb' := by
        rintro fd' cb' ⟨n, h⟩
        simp at h
      refine ⟨?_, fun fd' cb' h => absurd h (hno _ _), fun a b c h h' => w.one a b c (mem_unregister.mp h).1 (mem_unregister.mp h').1, fun a b c h => absurd h (hno _ _), ?_, ?_,
        fun a b h => absurd h (hno _ _)⟩
      · intro fd' cb' h
        obtain ⟨h1, h2⟩ := mem_unregister.mp h
        refine (w.live _ _ h1).more ?_
        simp
        rintro rfl
        exact h2 (w.same _ _ _ hl h1)
      · intro n' cb' h
        simp at h
        exact w.old _ _ h
      · intro cb' h
        simp at h
        rcases h with h | h
        · exact w.oldDeclined _ h
        · rw [h]; exact w.oldLoop _ _ hl

theorem asked_live {ok : St → Op → Prop} {st : St} {evs : List Ev} (h : Reach ok st evs) : ∀ a b cb, evs = a ++ .asked cb :: b → Live a cb := by
  induction h with
  | start => intro a b cb h; simp at h
  | @step st st' evs e o hr hok hs ih =>
    intro a b cb heq
    rcases split_append heq with ⟨b', _, h1⟩ | ⟨a', h1, h2⟩
    · exact ih a b' cb h1
    · have hx : Ev.asked cb ∈ e := by rw [h2]; simp
      cases step_cases hs
      case asked fd cb' n s hst _ =>
        match a', h2 with
        | [], h2 =>
          simp at h2 h1
          obtain ⟨rfl, rfl⟩ := h2
          subst h1
          exact (winv hr).loop fd cb' ⟨n, .inl (by rw [hst]; simp)⟩
        | y :: a', h2 => simp at h2
      case wrote => rcases writePacket_evs hx with ⟨_, _, _, h⟩ | ⟨_, h⟩ <;> cases h
      all_goals simp at hx

/-- Callbacks are not asked for while one is being called. -/
def Outside (st : St) (o : Op) : Prop := ∀ name, o = .notify name → ∀ fd cb n, Frame.asking fd cb n ∉ st.stack

/-- the callback asked for last is registered, unless it answered no or the adapter was closed -/
structure TInv (st : St) (evs : List Ev) : Prop where
  told : ∀ name cb a b, evs = a ++ .wants name cb :: b → (∀ cb', Ev.wants name cb' ∉ b) → Ev.declined cb ∉ b → Ev.closed ∉ b → ∃ i ∈ st.ifs, i.name = name ∧ (i.fd, cb) ∈ st.writers
  sole : ∀ fd cb cb', Looping st fd cb → (fd, cb') ∈ st.writers → cb' = cb

theorem TInv.keep {st st' : St} {evs e : List Ev} (t : TInv st evs) (hi : ∀ i ∈ st.ifs, i ∈ st'.ifs) (hw : st'.writers = st.writers) (hl : ∀ fd cb, Looping st' fd cb → Looping st fd cb)
    (h1 : ∀ n cb, Ev.wants n cb ∉ e) : TInv st' (evs ++ e) := by
  refine ⟨?_, fun fd cb cb' h h' => t.sole fd cb cb' (hl _ _ h) (hw ▸ h')⟩
  intro name cb a b heq b1 b2 b3
  rcases split_append heq with ⟨b', rfl, h⟩ | ⟨a', _, h⟩
  · simp only [List.mem_append, not_or] at b1 b2 b3
    obtain ⟨i, h2, h3⟩ := t.told name cb a b' h (fun cb' => (b1 cb').1) b2.1 b3.1
    rw [hw]
    exact ⟨i, hi i h2, h3⟩
  · exact absurd (by rw [h]; simp) (h1 name cb)

theorem tinv {st : St} {evs : List Ev} (h : Reach Outside st evs) : TInv st evs := by
  induction h with
  | start =>
    refine ⟨fun name cb a b h => by simp at h, fun fd cb cb' ⟨n, h⟩ => by simp [init] at h⟩
  | @step st st' evs e o hr hok hs t =>
    have inv := hr.inv
    have w := winv hr
    cases step_cases hs
    case added => exact t.keep (fun i hi => List.mem_append_left _ hi) rfl (fun _ _ h => h) (by simp)
    case failed => exact t.keep (fun i hi => hi) rfl (fun _ _ h => h) (by simp)
    case closed =>
      refine ⟨?_, fun fd cb cb' h h' => t.sole fd cb cb' h (List.mem_filter.mp h').1⟩
      intro name cb a b heq b1 b2 b3
      rcases split_append heq with ⟨b', rfl, h⟩ | ⟨a', _, h⟩
      · simp at b3
      · match a', h with
        | [], h => simp at h
        | y :: a', h => simp at h
    case wants name i hfree hi =>
      obtain ⟨hi1, hi2⟩ := (find_if inv _ _).mp hi
      refine ⟨?_, ?_⟩
      · intro name' cb a b heq b1 b2 b3
        rcases split_append heq with ⟨b', rfl, h⟩ | ⟨a', _, h⟩
        · simp only [List.mem_append, not_or, List.mem_singleton] at b1 b2 b3
          obtain ⟨j, h2, h3, h4⟩ := t.told name' cb a b' h (fun cb' => (b1 cb').1) b2.1 b3.1
          refine ⟨j, h2, h3, mem_register.mpr (.inl ⟨h4, ?_⟩)⟩
          intro hfd
          have := nodup_if inv.fds h2 hi1 hfd
          subst this
          exact (b1 st.nextCb).2 (by rw [← h3, ← hi2])
        · match a', h with
          | [], h =>
            simp at h
            obtain ⟨⟨rfl, rfl⟩, rfl⟩ := h
            exact ⟨i, hi1, hi2, mem_register.mpr (.inr ⟨rfl, rfl⟩)⟩
          | y :: a', h => simp at h
      · rintro fd cb cb' ⟨n, h⟩ h'
        exfalso
        have hd := inv.depth
        have ho := hok name rfl
        rcases h with h | h
        · have h : Frame.writing fd cb n ∈ st.stack := h
          match hst : st.stack, h, hd with
          | [x], h, _ =>
            simp at h
            subst h
            rw [hst] at hfree
            simp [free] at hfree
        · exact ho fd cb n h
    case refused => exact t.keep (fun i hi => hi) rfl (fun _ _ h => h) (by simp)
    case wrote =>
      refine t.keep (fun i hi => hi) rfl (fun _ _ h => h) ?_
      intro n cb hx; rcases writePacket_evs hx with ⟨_, _, _, h⟩ | ⟨_, h⟩ <;> cases h
    case setMax => exact t.keep (fun i hi => hi) rfl (fun _ _ h => h) (by simp)
    case opened => exact t.keep (fun i hi => hi) rfl (fun _ _ h => h) (by simp)
    case shut => exact t.keep (fun i hi => hi) rfl (fun _ _ h => h) (by simp)
    case readable => exact t.keep (fun i hi => hi) rfl (by rintro fd cb ⟨n, h⟩; simp at h) (by simp)
    case writable fd cb hst hf =>
      have hm := List.mem_of_find?_eq_some hf
      rw [List.append_nil]
      refine ⟨t.told, ?_⟩
      rintro fd' cb' cb'' ⟨n, h⟩ h'
      simp at h
      obtain ⟨rfl, rfl, _⟩ := h
      exact nodup_key inv.writers h' hm
    case drained fd name s hst =>
      refine t.keep (fun i hi => hi) rfl ?_ (by simp)
      rintro fd' cb' ⟨n, h⟩
      exact ⟨n, by rw [hst]; simpa using h⟩
    case given fd name s b hst _ =>
      refine t.keep (fun i hi => hi) rfl ?_ (by simp)
      rintro fd' cb' ⟨n, h⟩
      exact ⟨n, by rw [hst]; simpa using h⟩
    case delivered fd name s hst =>
      refine t.keep (fun i hi => hi) rfl ?_ (by simp)
      rintro fd' cb' ⟨n, h⟩
      exact ⟨n, by rw [hst]; simpa using h⟩
    case asked fd cb n s hst _ =>
      refine t.keep (fun i hi => hi) rfl ?_ (by simp)
      rintro fd' cb' ⟨m, h⟩
      refine ⟨m, ?_⟩
      rw [hst]
      simp at h ⊢
      rcases h with h | (h | h)
      · exact .inl (.inr h)
      · exact .inl (.inl h)
      · exact .inr h
    case enough fd cb n s hst _ =>
      refine t.keep (fun i hi => hi) rfl ?_ (by simp)
      rintro fd' cb' ⟨m, h⟩
      refine ⟨m, ?_⟩
      rw [hst]
      simp at h ⊢
      rcases h with h | h
      · exact .inl (.inr h)
      · exact .inr h
    case again fd cb n s hst =>
      refine t.keep (fun i hi => hi) rfl ?_ (by simp)
      rintro fd' cb' ⟨m, h⟩
      rw [Looping, hst]
      simp at h ⊢
      rcases h with (⟨h1, h2, _⟩ | h) | h
      · exact ⟨n, .inr (.inl ⟨h1, h2, rfl⟩)⟩
      · exact ⟨m, .inl h⟩
      · exact ⟨m, .inr (.inr h)⟩
    case declined fd cb n s hst =>
      have hl : Looping st fd cb := ⟨n, .inr (by rw [hst]; simp)⟩
      refine ⟨?_, ?_⟩
      · intro name cb' a b heq b1 b2 b3
        rcases split_append heq with ⟨b', rfl, h⟩ | ⟨a', _, h⟩
        · simp only [List.mem_append, not_or, List.mem_singleton] at b1 b2 b3
          obtain ⟨j, h2, h3, h4⟩ := t.told name cb' a b' h (fun cb'' => (b1 cb'').1) b2.1 b3.1
          refine ⟨j, h2, h3, mem_unregister.mpr ⟨h4, ?_⟩⟩
          intro hfd
          rw [hfd] at h4
          exact b2.2 (by rw [t.sole _ _ _ hl h4])
        · match a', h with
          | [], h => simp at h
          | y :: a', h => simp at h
      · rintro fd' cb' cb'' ⟨m, h⟩ h'
        refine t.sole fd' cb' cb'' ⟨m, ?_⟩ (mem_unregister.mp h').1
        rw [hst]
        simp at h ⊢
        rcases h with h | h
        · exact .inl h
        · exact .inr (.inr h)

end Posix

/-- **C90** A callback is called only if it was asked for and never after it answered no. -/
theorem C90_only (st : St) (evs : List Ev) (h : Reach Any st evs) (a b : List Ev) (cb : Nat) (he : evs = a ++ .asked cb :: b) :
    (∃ name, Ev.wants name cb ∈ a) ∧ Ev.declined cb ∉ a :=
  asked_live h a b cb he

/-- **C90** The callback that was asked for last for an interface, and did not answer no, is called as soon as the interface can be written to, as long as the adapter
is not closed and callbacks are not asked for while one is being called (`C90_lost`). -/
theorem C90_told_partial (st : St) (evs : List Ev) (h : Reach Outside st evs) (name cb : Nat) (a b : List Ev) (he : evs = a ++ .wants name cb :: b)
    (h1 : ∀ cb', Ev.wants name cb' ∉ b) (h2 : Ev.declined cb ∉ b) (h3 : Ev.closed ∉ b) (hs : st.stack = []) (hm : 0 < st.max) :
    ∃ fd f family, InForce evs name fd f family ∧ ∃ st', run st [.writable fd, .ask] = some (st', [.asked cb]) := by
  obtain ⟨i, hi, e1, hw⟩ := (tinv h).told name cb a b he h1 h2 h3
  refine ⟨i.fd, i.file, i.family, (in_force h _ _ _ _).mpr (by rw [← e1]; exact hi), ?_⟩
  have hf := (find_iff h.inv.writers i.fd cb).mpr hw
  cases st with
  | mk ifs readers writers stack max nextCb table nextFile =>
    subst hs
    simp only at hf hm
    simp [run, step, hf, hm]

namespace Posix

theorem burst : ∀ (ops : List Op) (st st' : St) (e : List Ev) (fd cb n : Nat), (st.stack = [.writing fd cb n] ∨ (st.stack = [.asking fd cb (n - 1)] ∧ 0 < n)) → n ≤ st.max →
    (∀ o ∈ ops, (∀ k, o ≠ .setMax k) ∧ (∀ f, o ≠ .readable f) ∧ (∀ f, o ≠ .writable f)) → run st ops = some (st', e) → (e.filter (· = .asked cb)).length ≤ st.max - n ∧
      ∀ cb', Ev.asked cb' ∈ e → cb' = cb := by
  intro ops
  induction ops with
  | nil =>
    intro st st' e fd cb n _ _ _ h
    cases h
    simp
  | cons o os ih =>
    intro st st' e fd cb n hst hn hops h
    rw [run] at h
    cases hs : step st o with
    | none => rw [hs] at h; cases h
    | some r =>
      rw [hs] at h
      simp only [Option.bind_some, Option.map_eq_some_iff] at h
      obtain ⟨q, h1, h2⟩ := h
      cases h2
      have hops' : ∀ o ∈ os, (∀ k, o ≠ .setMax k) ∧ (∀ f, o ≠ .readable f) ∧ (∀ f, o ≠ .writable f) := fun o ho => hops o (by simp [ho])
      obtain ⟨ho1, ho2, ho3⟩ := hops o (by simp)
      -- a step with nothing being called
      have hidle : ∀ (os : List Op) (st st' : St) (e : List Ev), st.stack = [] → (∀ o ∈ os, (∀ k, o ≠ .setMax k) ∧ (∀ f, o ≠ .readable f) ∧ (∀ f, o ≠ .writable f)) →
          run st os = some (st', e) → ∀ cb, Ev.asked cb ∉ e := by
        intro os
        induction os with
        | nil => intro st st' e _ _ h cb; cases h; simp
        | cons o os ih =>
          intro st st' e hst hops h cb
          rw [run] at h
          cases hs : step st o with
          | none => rw [hs] at h; cases h
          | some r =>
            rw [hs] at h
            simp only [Option.bind_some, Option.map_eq_some_iff] at h
            obtain ⟨q, h1, h2⟩ := h
            cases h2
            obtain ⟨ho1, ho2, ho3⟩ := hops o (by simp)
            have hsc := step_cases (st' := r.1) (e := r.2) hs
            have key : r.1.stack = [] ∧ Ev.asked cb ∉ r.2 := by
              generalize r.1 = st1 at hsc
              generalize r.2 = e1 at hsc
              cases hsc
              case readable fd' _ _ _ => exact absurd rfl (ho2 fd')
              case writable fd' _ _ _ => exact absurd rfl (ho3 fd')
              case drained fd' _ _ hx => rw [hst] at hx; cases hx
              case given fd' _ _ _ hx _ => rw [hst] at hx; cases hx
              case delivered fd' _ _ hx => rw [hst] at hx; cases hx
              case asked fd' _ _ _ hx _ => rw [hst] at hx; cases hx
              case enough fd' _ _ _ hx _ => rw [hst] at hx; cases hx
              case again fd' _ _ _ hx => rw [hst] at hx; cases hx
              case declined fd' _ _ _ hx => rw [hst] at hx; cases hx
              case wrote =>
                refine ⟨hst, ?_⟩
                intro hx; rcases writePacket_evs hx with ⟨_, _, _, h⟩ | ⟨_, h⟩ <;> cases h
              all_goals exact ⟨hst, by simp⟩
            simp only [List.mem_append, not_or]
            exact ⟨key.2, ih r.1 q.1 q.2 key.1 (fun o ho => hops o (by simp [ho])) h1 cb⟩
      have hsc := step_cases (st' := r.1) (e := r.2) hs
      generalize r.1 = st1 at hsc h1
      generalize r.2 = e1 at hsc
      have hstay : st1.stack = st.stack → st1.max = st.max → (∀ cb', Ev.asked cb' ∉ e1) → ((e1 ++ q.2).filter (· = .asked cb)).length ≤ st.max - n ∧ ∀ cb', Ev.asked cb' ∈ e1 ++ q.2 → cb' = cb := by
        intro k1 k2 k3
        obtain ⟨i1, i2⟩ := ih st1 q.1 q.2 fd cb n (by rw [k1]; exact hst) (by rw [k2]; exact hn) hops' h1
        rw [List.filter_append, List.filter_eq_nil_iff.mpr, List.nil_append]
        · rw [k2] at i1
          refine ⟨i1, ?_⟩
          intro cb' hx
          rcases List.mem_append.mp hx with hx | hx
          · exact absurd hx (k3 _)
          · exact i2 _ hx
        · intro x hx hc
          simp at hc
          subst hc
          exact k3 _ hx
      cases hsc
      case readable fd' _ _ _ => exact absurd rfl (ho2 fd')
      case writable fd' _ _ _ => exact absurd rfl (ho3 fd')
      case setMax k _ => exact absurd rfl (ho1 k)
      case drained fd' _ _ hx => rcases hst with hst | ⟨hst, _⟩ <;> rw [hst] at hx <;> cases hx
      case given fd' _ _ _ hx _ => rcases hst with hst | ⟨hst, _⟩ <;> rw [hst] at hx <;> cases hx
      case delivered fd' _ _ hx => rcases hst with hst | ⟨hst, _⟩ <;> rw [hst] at hx <;> cases hx
      case asked fd' cb' n' s hx hlt =>
        rcases hst with hst | ⟨hst, _⟩
        · rw [hst] at hx
          cases hx
          obtain ⟨i1, i2⟩ := ih _ q.1 q.2 fd cb (n + 1) (.inr ⟨rfl, by omega⟩) (by show n + 1 ≤ st.max; omega) hops' h1
          refine ⟨?_, ?_⟩
          · simp only [List.singleton_append, List.filter_cons, decide_true, if_true, List.length_cons]
            have : (q.2.filter (· = .asked cb)).length ≤ st.max - (n + 1) := i1
            omega
          · intro cb' hx
            rcases List.mem_append.mp hx with hx | hx
            · simpa using hx
            · exact i2 _ hx
        · rw [hst] at hx; cases hx
      case enough fd' cb' n' s hx hlt =>
        rcases hst with hst | ⟨hst, _⟩
        · rw [hst] at hx
          cases hx
          have := hidle os _ q.1 q.2 rfl hops' h1
          rw [List.nil_append, List.filter_eq_nil_iff.mpr]
          · exact ⟨by simp, fun cb' hx => absurd hx (this _)⟩
          · intro x hx hc
            simp at hc
            subst hc
            exact this _ hx
        · rw [hst] at hx; cases hx
      case again fd' cb' n' s hx =>
        rcases hst with hst | ⟨hst, h0⟩
        · rw [hst] at hx; cases hx
        · rw [hst] at hx
          cases hx
          have := ih { st with stack := [.writing fd cb (n - 1 + 1)] } q.1 q.2 fd cb n (.inl (by show [Frame.writing fd cb (n - 1 + 1)] = _; rw [Nat.sub_add_cancel h0])) hn hops' h1
          simpa using this
      case declined fd' cb' n' s hx =>
        rcases hst with hst | ⟨hst, h0⟩
        · rw [hst] at hx; cases hx
        · rw [hst] at hx
          cases hx
          have := hidle os _ q.1 q.2 rfl hops' h1
          refine ⟨?_, ?_⟩
          · rw [List.filter_append, List.filter_eq_nil_iff.mpr, List.filter_eq_nil_iff.mpr]
            · simp
            · intro x hx hc
              simp at hc
              subst hc
              exact this _ hx
            · simp
          · intro cb'' hx
            simp at hx
            exact absurd hx (this _)
      case wrote =>
        refine hstay rfl rfl ?_
        intro cb' hx; rcases writePacket_evs hx with ⟨_, _, _, h⟩ | ⟨_, h⟩ <;> cases h
      all_goals exact hstay rfl rfl (by simp)

end Posix

/-- **C90** Each time that an interface is found writable, its callback is called at most `maxWritesPerInterfaceWritable` times, and no other. -/
theorem C90_burst (st st' : St) (fd : Nat) (ops : List Op) (e : List Ev) (hops : ∀ o ∈ ops, (∀ k, o ≠ .setMax k) ∧ (∀ f, o ≠ .readable f) ∧ (∀ f, o ≠ .writable f))
    (h : run st (.writable fd :: ops) = some (st', e)) : ∃ cb, (fd, cb) ∈ st.writers ∧ (e.filter (· = .asked cb)).length ≤ st.max ∧ ∀ cb', Ev.asked cb' ∈ e → cb' = cb := by
  rw [run] at h
  cases hs : step st (.writable fd) with
  | none => rw [hs] at h; cases h
  | some r =>
    rw [hs] at h
    simp only [Option.bind_some, Option.map_eq_some_iff] at h
    obtain ⟨q, h1, h2⟩ := h
    cases h2
    have hsc := step_cases (st' := r.1) (e := r.2) hs
    generalize r.1 = st1 at hsc h1
    generalize r.2 = e1 at hsc
    cases hsc with
    | writable _ cb hst hf =>
      obtain ⟨a, b⟩ := burst ops _ q.1 q.2 fd cb 0 (.inl rfl) (Nat.zero_le _) hops h1
      exact ⟨cb, List.mem_of_find?_eq_some hf, by simpa using a, by simpa using b⟩
    | failed _ _ _ _ ho => obtain ⟨_, _, _, _, ho⟩ := ho; cases ho

/-- **C90** A packet that is to be written by an interface is sent once, from its socket, unchanged, with the traffic class that was asked for, or without if the kernel
does not take it with one; the answer is yes exactly if the kernel took it. Nothing is sent, and the answer is no, if there is no such interface or it is of the other family. -/
theorem C90_write (st : St) (evs : List Ev) (h : Reach Any st evs) (bytes : Bytes) (name family tos : Nat) (first second : Sent) (st' : St) (e : List Ev)
    (hs : step st (.write bytes name family tos first second) = some (st', e)) :
    st' = st ∧
    ((∃ fd f, InForce evs name fd f family ∧ ∃ t, e = [.sent (some f) bytes t, .wrote true] ∧ ((first = .ok ∧ t = tos) ∨ (first = .einval ∧ tos ≠ 0 ∧ second = .ok ∧ t = 0))) ∨
     (e = [.wrote false] ∧ ((¬ ∃ fd f, InForce evs name fd f family) ∨ ¬ (first = .ok ∨ (first = .einval ∧ tos ≠ 0 ∧ second = .ok))))) := by
  have inv := h.inv
  cases step_cases hs with
  | failed _ _ _ _ ho => obtain ⟨_, _, _, _, ho⟩ := ho; cases ho
  | wrote _ _ _ _ _ _ hfree =>
    refine ⟨rfl, ?_⟩
    rw [writePacket]
    cases hf : find st name with
    | none =>
      refine .inr ⟨rfl, .inl ?_⟩
      rintro ⟨fd, f, hi⟩
      exact find_no.mp hf _ ((in_force h _ _ _ _).mp hi) rfl
    | some i =>
      obtain ⟨hi, hn⟩ := (find_if inv _ _).mp hf
      dsimp only
      by_cases hfam : family = i.family
      · rw [if_neg (by simpa using hfam)]
        have hfile := (fileAt_iff inv.tableFds _ _).mpr (inv.own i hi)
        have hin : InForce evs name i.fd i.file family := by
          rw [in_force h, ← hn, hfam]; exact hi
        rw [hfile]
        cases first with
        | ok => exact .inl ⟨_, _, hin, _, rfl, .inl ⟨rfl, rfl⟩⟩
        | other => exact .inr ⟨rfl, .inr (by simp)⟩
        | einval =>
          dsimp only
          by_cases ht : tos ≠ 0
          · rw [if_pos ht]
            cases second with
            | ok => exact .inl ⟨_, _, hin, _, rfl, .inr ⟨rfl, ht, rfl, rfl⟩⟩
            | other => exact .inr ⟨rfl, .inr (by simp)⟩
            | einval => exact .inr ⟨rfl, .inr (by simp)⟩
          · rw [if_neg ht]
            exact .inr ⟨rfl, .inr (by rintro (h | ⟨_, h, _⟩); cases h; exact ht h)⟩
      · rw [if_pos (by simpa using hfam)]
        refine .inr ⟨rfl, .inl ?_⟩
        rintro ⟨fd, f, hin⟩
        have hm := (in_force h _ _ _ _).mp hin
        have := nodup_if inv.names hm hi hn.symm
        rw [← this] at hfam
        exact hfam rfl

namespace Posix

/-- which descriptors are whose -/
structure DInv (st : St) (evs : List Ev) : Prop where
  whose : ∀ fd f, (fd, f) ∈ st.table → (∃ i ∈ st.ifs, i.fd = fd ∧ i.file = f) ∨ Ev.opened fd f ∈ evs
  kept : ∀ fd f a b, evs = a ++ .opened fd f :: b → Ev.shut fd ∉ b → (fd, f) ∈ st.table
  past : ∀ fd f, Ev.opened fd f ∈ evs → f < st.nextFile
  other : ∀ fd f, Ev.opened fd f ∈ evs → ∀ i ∈ st.ifs, i.file ≠ f

theorem DInv.keep {st st' : St} {evs e : List Ev} (d : DInv st evs) (hi : st'.ifs = st.ifs) (ht : st'.table = st.table) (hf : st.nextFile ≤ st'.nextFile)
    (h1 : ∀ fd f, Ev.opened fd f ∉ e) : DInv st' (evs ++ e) where
  whose fd f h := by
    rw [ht] at h
    rw [hi]
    rcases d.whose fd f h with h | h
    · exact .inl h
    · exact .inr (List.mem_append_left _ h)
  kept fd f a b heq hb := by
    rw [ht]
    rcases split_append heq with ⟨b', rfl, h⟩ | ⟨a', _, h⟩
    · exact d.kept fd f a b' h (fun hx => hb (List.mem_append_left _ hx))
    · exact absurd (by rw [h]; simp) (h1 fd f)
  past fd f h := by
    rcases List.mem_append.mp h with h | h
    · exact Nat.lt_of_lt_of_le (d.past fd f h) hf
    · exact absurd h (h1 _ _)
  other fd f h := by
    rw [hi]
    rcases List.mem_append.mp h with h | h
    · exact d.other fd f h
    · exact absurd h (h1 _ _)

theorem dinv {ok : St → Op → Prop} {st : St} {evs : List Ev} (h : Reach ok st evs) : DInv st evs := by
  induction h with
  | start => exact ⟨by simp [init], fun fd f a b h => by simp at h, by simp, by simp⟩
  | @step st st' evs e o hr hok hs d =>
    have inv := hr.inv
    cases step_cases hs
    case added family name fd hf hfree hfd hn =>
      refine ⟨?_, ?_, ?_, ?_⟩
      · intro a f h
        rcases List.mem_append.mp h with h | h
        · rcases d.whose a f h with ⟨i, h1, h2⟩ | h
          · exact .inl ⟨i, List.mem_append_left _ h1, h2⟩
          · exact .inr (List.mem_append_left _ h)
        · simp at h
          obtain ⟨rfl, rfl⟩ := h
          exact .inl ⟨_, List.mem_append_right _ (List.mem_singleton.mpr rfl), rfl, rfl⟩
      · intro a f u v heq hv
        rcases split_append heq with ⟨b', rfl, h⟩ | ⟨a', _, h⟩
        · exact List.mem_append_left _ (d.kept a f u b' h (fun hx => hv (List.mem_append_left _ hx)))
        · match a', h with
          | [], h => simp at h
          | y :: a', h => simp at h
      · intro a f h
        simp at h
        exact Nat.lt_succ_of_lt (d.past a f h)
      · intro a f h i hi
        simp at h
        rcases List.mem_append.mp hi with hi | hi
        · exact d.other a f h i hi
        · simp at hi
          subst hi
          intro hx
          have := d.past a f h
          rw [← show st.nextFile = f from hx] at this
          exact Nat.lt_irrefl _ this
    case failed hn _ => exact d.keep rfl rfl hn (by simp)
    case closed =>
      refine ⟨?_, ?_, ?_, by simp [shutAll]⟩
      · intro a f h
        simp only [shutAll, List.mem_filter, decide_eq_true_eq] at h
        rcases d.whose a f h.1 with ⟨i, h1, h2, _⟩ | hx
        · exact absurd (List.mem_map.mpr ⟨i, h1, h2⟩) h.2
        · exact .inr (List.mem_append_left _ hx)
      · intro a f u v heq hv
        rcases split_append heq with ⟨b', rfl, h⟩ | ⟨a', _, h⟩
        · have hm := d.kept a f u b' h (fun hx => hv (List.mem_append_left _ hx))
          simp only [shutAll, List.mem_filter, decide_eq_true_eq]
          refine ⟨hm, ?_⟩
          intro hx
          obtain ⟨i, h1, h2⟩ := List.mem_map.mp hx
          have ho := inv.own i h1
          rw [h2] at ho
          exact d.other a f (by rw [h]; simp) i h1 (nodup_key inv.tableFds ho hm)
        · match a', h with
          | [], h => simp at h
          | y :: a', h => simp at h
      · intro a f h
        simp at h
        exact d.past a f h
    case wrote =>
      refine d.keep rfl rfl (Nat.le_refl _) ?_
      intro a f hx; rcases writePacket_evs hx with ⟨_, _, _, h⟩ | ⟨_, h⟩ <;> cases h
    case opened fd hfree hfd =>
      refine ⟨?_, ?_, ?_, ?_⟩
      · intro a f h
        rcases List.mem_append.mp h with h | h
        · rcases d.whose a f h with h | h
          · exact .inl h
          · exact .inr (List.mem_append_left _ h)
        · simp at h
          obtain ⟨rfl, rfl⟩ := h
          exact .inr (by simp)
      · intro a f u v heq hv
        rcases split_append heq with ⟨b', rfl, h⟩ | ⟨a', _, h⟩
        · exact List.mem_append_left _ (d.kept a f u b' h (fun hx => hv (List.mem_append_left _ hx)))
        · match a', h with
          | [], h =>
            simp at h
            obtain ⟨⟨rfl, rfl⟩, _⟩ := h
            simp
          | y :: a', h => simp at h
      · intro a f h
        simp at h
        rcases h with h | ⟨_, h⟩
        · exact Nat.lt_succ_of_lt (d.past a f h)
        · rw [h]; exact Nat.lt_succ_self _
      · intro a f h i hi
        simp at h
        rcases h with h | ⟨_, h⟩
        · exact d.other a f h i hi
        · intro hx
          have := inv.files _ (inv.own i hi)
          rw [show i.file = f from hx, h] at this
          exact Nat.lt_irrefl _ this
    case shut fd hfree hfd hi =>
      refine ⟨?_, ?_, ?_, ?_⟩
      · intro a f h
        simp only [closeFd, List.mem_filter] at h
        rcases d.whose a f h.1 with h | h
        · exact .inl h
        · exact .inr (List.mem_append_left _ h)
      · intro a f u v heq hv
        rcases split_append heq with ⟨b', rfl, h⟩ | ⟨a', _, h⟩
        · have hm := d.kept a f u b' h (fun hx => hv (List.mem_append_left _ hx))
          simp only [closeFd, List.mem_filter]
          refine ⟨hm, ?_⟩
          simp only [List.mem_append, not_or, List.mem_singleton] at hv
          have : a ≠ fd := fun hx => hv.2 (by rw [hx])
          simpa using this
        · match a', h with
          | [], h => simp at h
          | y :: a', h => simp at h
      · intro a f h
        simp at h
        exact d.past a f h
      · intro a f h
        simp at h
        exact d.other a f h
    all_goals exact d.keep rfl rfl (Nat.le_refl _) (by simp)

/-- no interface was added since the adapter was closed -/
def Shut (evs : List Ev) : Prop := ∃ a b, evs = a ++ .closed :: b ∧ ∀ n fd f fam, Ev.added n fd f fam ∉ b

theorem shut_ifs {ok : St → Op → Prop} {st : St} {evs : List Ev} (h : Reach ok st evs) (hs : Shut evs) : st.ifs = [] ∧ st.readers = [] ∧ st.writers = [] := by
  obtain ⟨a, b, rfl, hb⟩ := hs
  have h0 : st.ifs = [] := by
    cases hi : st.ifs with
    | nil => rfl
    | cons i l =>
      exfalso
      obtain ⟨u, v, h1, h2⟩ := (in_force h i.name i.fd i.file i.family).mpr (by rw [hi]; simp)
      rcases split_append h1 with ⟨b', rfl, _⟩ | ⟨a', _, h3⟩
      · exact h2 (by simp)
      · match a', h3 with
        | [], h3 => simp at h3
        | y :: a', h3 =>
          injection h3 with _ h3
          exact hb i.name i.fd i.file i.family (by rw [h3]; simp)
  refine ⟨h0, ?_, ?_⟩
  · cases hr : st.readers with
    | nil => rfl
    | cons p l =>
      obtain ⟨x, y⟩ := p
      obtain ⟨i, hi, _⟩ := (h.inv.read x y).mp (by rw [hr]; simp)
      rw [h0] at hi; cases hi
  · cases hr : st.writers with
    | nil => rfl
    | cons p l =>
      obtain ⟨x, y⟩ := p
      obtain ⟨i, hi, _⟩ := h.inv.write x y (by rw [hr]; simp)
      rw [h0] at hi; cases hi

theorem silent : ∀ (ops : List Op) (st st' : St) (e : List Ev), st.ifs = [] → st.readers = [] → st.writers = [] → st.stack = [] → (∀ n fd f fam, Ev.added n fd f fam ∉ e) → run st ops = some (st', e) →
    (∀ n f b, Ev.given n f b ∉ e) ∧ (∀ cb, Ev.asked cb ∉ e) ∧ (∀ f b t, Ev.sent f b t ∉ e) ∧ (∀ n cb, Ev.wants n cb ∉ e) ∧ Ev.wrote true ∉ e := by
  intro ops
  induction ops with
  | nil => intro st st' e _ _ _ _ _ h; cases h; simp
  | cons o os ih =>
    intro st st' e h1 h2 h3 h4 ha h
    rw [run] at h
    cases hs : step st o with
    | none => rw [hs] at h; cases h
    | some r =>
      rw [hs] at h
      simp only [Option.bind_some, Option.map_eq_some_iff] at h
      obtain ⟨q, hq, h5⟩ := h
      cases h5
      have hsc := step_cases (st' := r.1) (e := r.2) hs
      generalize r.1 = st1 at hsc hq
      generalize r.2 = e1 at hsc ha
      have hnof : ∀ name, find st name = none := fun name => find_no.mpr (by rw [h1]; simp)
      have key : (st1.ifs = [] ∧ st1.readers = [] ∧ st1.writers = [] ∧ st1.stack = []) ∧
          ((∀ n f b, Ev.given n f b ∉ e1) ∧ (∀ cb, Ev.asked cb ∉ e1) ∧ (∀ f b t, Ev.sent f b t ∉ e1) ∧ (∀ n cb, Ev.wants n cb ∉ e1) ∧ Ev.wrote true ∉ e1) := by
        cases hsc
        case added family name fd _ _ _ _ => exact absurd (by simp) (ha name fd st.nextFile family)
        case closed => exact ⟨⟨rfl, by simp [shutAll, h2], by simp [shutAll, h3], h4⟩, by simp⟩
        case wants name i _ hi => rw [hnof] at hi; cases hi
        case wrote bytes name family tos first second hfree =>
          refine ⟨⟨h1, h2, h3, h4⟩, ?_⟩
          rw [writePacket, hnof]
          simp
        case readable hst hf => rw [h2] at hf; cases hf
        case writable hst hf => rw [h3] at hf; cases hf
        case drained hx => rw [h4] at hx; cases hx
        case given hx _ => rw [h4] at hx; cases hx
        case delivered hx => rw [h4] at hx; cases hx
        case asked hx _ => rw [h4] at hx; cases hx
        case enough hx _ => rw [h4] at hx; cases hx
        case again hx => rw [h4] at hx; cases hx
        case declined hx => rw [h4] at hx; cases hx
        all_goals exact ⟨⟨h1, h2, h3, h4⟩, by simp⟩
      obtain ⟨⟨k1, k2, k3, k4⟩, m1, m2, m3, m4, m5⟩ := key
      obtain ⟨n1, n2, n3, n4, n5⟩ := ih st1 q.1 q.2 k1 k2 k3 k4 (fun n fd f fam hx => ha n fd f fam (List.mem_append_right _ hx)) hq
      simp only [List.mem_append, not_or]
      exact ⟨fun n f b => ⟨m1 n f b, n1 n f b⟩, fun cb => ⟨m2 cb, n2 cb⟩, fun f b t => ⟨m3 f b t, n3 f b t⟩, fun n cb => ⟨m4 n cb, n4 n cb⟩, ⟨m5, n5⟩⟩

end Posix

/-- **C90** Of the sockets that the adapter opens, exactly those of its interfaces are open; none after `close()`. What the application opened stays open until the application closes it. -/
theorem C90_descriptors (st : St) (evs : List Ev) (h : Reach Any st evs) (fd f : Nat) :
    ((fd, f) ∈ st.table → (∃ name family, InForce evs name fd f family) ∨ Ev.opened fd f ∈ evs) ∧
    (∀ name family, InForce evs name fd f family → (fd, f) ∈ st.table) ∧
    (∀ a b, evs = a ++ .opened fd f :: b → Ev.shut fd ∉ b → (fd, f) ∈ st.table) ∧
    (Shut evs → (fd, f) ∈ st.table → Ev.opened fd f ∈ evs) := by
  have d := dinv h
  refine ⟨?_, ?_, fun a b h1 h2 => d.kept fd f a b h1 h2, ?_⟩
  · intro hm
    rcases d.whose fd f hm with ⟨i, h1, rfl, rfl⟩ | h1
    · exact .inl ⟨i.name, i.family, (in_force h _ _ _ _).mpr h1⟩
    · exact .inr h1
  · intro name family hi
    exact h.inv.own _ ((in_force h _ _ _ _).mp hi)
  · intro hs hm
    rcases d.whose fd f hm with ⟨i, h1, _⟩ | h1
    · rw [(shut_ifs h hs).1] at h1; cases h1
    · exact h1

/-- **C90** After `close()`, and once the action has returned in which it was called, no packet is given to RTMFP, no callback is called, and nothing is sent, unless an interface is added. -/
theorem C90_closed_partial (st : St) (evs : List Ev) (h : Reach Any st evs) (hs : Shut evs) (hst : st.stack = []) (ops : List Op) (st' : St) (e : List Ev) (hr : run st ops = some (st', e))
    (ha : ∀ n fd f fam, Ev.added n fd f fam ∉ e) :
    (∀ n f b, Ev.given n f b ∉ e) ∧ (∀ cb, Ev.asked cb ∉ e) ∧ (∀ f b t, Ev.sent f b t ∉ e) ∧ (∀ n cb, Ev.wants n cb ∉ e) ∧ Ev.wrote true ∉ e := by
  obtain ⟨h1, h2, h3⟩ := shut_ifs h hs
  exact silent ops st st' e h1 h2 h3 hst ha hr

/-- **C90** (the code is not as claimed) If RTMFP's user closes the adapter when a packet is received, the adapter goes on to read from the number of the closed
socket. If something else was opened meanwhile and got that number, RTMFP is given what is to be read there. -/
theorem C90_stray : ∃ st evs, run init [.add 2 2 (some 7) true, .readable 7, .recv (some [1]), .close, .opened 7, .delivered, .recv (some [9])] = some (st, evs) ∧
    evs = [.added 2 7 0 2, .given 2 (some 0) [1], .closed, .opened 7 1, .given 2 (some 1) [9]] := ⟨_, _, rfl, by decide⟩

/-- **C90** (the code is not as claimed) A callback that is asked for while the one before is being called is forgotten if that one then answers no. -/
theorem C90_lost : ∃ st evs, run init [.add 2 2 (some 7) true, .notify 2, .writable 7, .ask, .notify 2, .answer false] = some (st, evs) ∧
    evs = [.added 2 7 0 2, .wants 2 0, .asked 0, .wants 2 1, .declined 0] ∧ step st (.writable 7) = none ∧ st.stack = [] := ⟨_, _, rfl, by decide, by decide, by decide⟩

/-- **C90** (the code is not as claimed) A callback that closes the adapter is called again after that, if it answers yes. -/
theorem C90_after_close : ∃ st evs, run init [.add 2 2 (some 7) true, .notify 2, .writable 7, .ask, .close, .answer true, .ask] = some (st, evs) ∧
    evs = [.added 2 7 0 2, .wants 2 0, .asked 0, .closed, .asked 0] := ⟨_, _, rfl, by decide⟩

namespace Posix

theorem guard_kept {g g' : Guard} {ops : List GOp} {ts : List Nat} (h : g.run ops = some (g', ts)) (hc : (if g.performer then g.isOpenPerformer else g.isOpen) = false) : ts = [] := by
  induction ops generalizing g ts with
  | nil => cases h; rfl
  | cons o os ih =>
    rw [Guard.run] at h
    cases hs : g.step o with
    | none => rw [hs] at h; cases h
    | some r =>
      rw [hs] at h
      simp only [Option.bind_some, Option.map_eq_some_iff] at h
      obtain ⟨q, h1, h2⟩ := h
      cases h2
      cases o with
      | perform t =>
        simp only [Guard.step] at hs
        split at hs
        · cases hs; exact ih h1 hc
        · cases hs
      | close =>
        simp only [Guard.step] at hs
        split at hs
        · cases hs
          refine ih h1 ?_
          show (if g.performer then (if g.performer then false else g.isOpenPerformer) else false) = false
          cases g.performer <;> rfl
        · cases hs
      | destroy =>
        simp only [Guard.step] at hs
        split at hs
        · cases hs
          refine ih h1 ?_
          show (if g.performer then g.isOpenPerformer else false) = false
          cases hp : g.performer <;> simp [hp] at hc ⊢
          exact hc
        · cases hs
      | next =>
        simp only [Guard.step] at hs
        split at hs
        · cases hs
        · cases hs
          simp only [hc]
          exact ih h1 hc

end Posix

/-- **C90** Tasks that were handed to an adapter that was closed since are not run; nor are those of a `PosixPlatformAdapter` that was destroyed since. Missing: those of a
`PerformerPosixPlatformAdapter` that was destroyed without having been closed are (`C90_destroyed`). -/
theorem C90_tasks_partial (performer : Bool) (before after : List GOp) (g g' : Guard) (ts us : List Nat) (h1 : (Guard.init performer).run before = some (g, ts)) (o : GOp)
    (ho : o = .close ∨ (o = .destroy ∧ performer = false)) (h2 : g.run (o :: after) = some (g', us)) : us = [] := by
  have hp : g.performer = performer := by
    have : ∀ (ops : List GOp) (g g' : Guard) (ts : List Nat), g.run ops = some (g', ts) → g'.performer = g.performer := by
      intro ops
      induction ops with
      | nil => intro g g' ts h; cases h; rfl
      | cons o os ih =>
        intro g g' ts h
        rw [Guard.run] at h
        cases hs : g.step o with
        | none => rw [hs] at h; cases h
        | some r =>
          rw [hs] at h
          simp only [Option.bind_some, Option.map_eq_some_iff] at h
          obtain ⟨q, h1, h2⟩ := h
          cases h2
          rw [ih r.1 q.1 q.2 h1]
          cases o <;> simp only [Guard.step] at hs <;> split at hs <;> cases hs <;> rfl
    exact this before _ _ _ h1
  rw [Guard.run] at h2
  cases hs : g.step o with
  | none => rw [hs] at h2; cases h2
  | some r =>
    rw [hs] at h2
    simp only [Option.bind_some, Option.map_eq_some_iff] at h2
    obtain ⟨q, h3, h4⟩ := h2
    cases h4
    rcases ho with rfl | ⟨rfl, rfl⟩
    · simp only [Guard.step] at hs
      split at hs
      · cases hs
        refine guard_kept h3 ?_
        show (if g.performer then (if g.performer then false else g.isOpenPerformer) else false) = false
        cases g.performer <;> rfl
      · cases hs
    · simp only [Guard.step] at hs
      split at hs
      · cases hs
        refine guard_kept h3 ?_
        show (if g.performer then g.isOpenPerformer else false) = false
        rw [hp]; rfl
      · cases hs

/-- **C90** (the code is not as claimed) A `PerformerPosixPlatformAdapter` that is destroyed is not closed by that (its own `close()` is not called), and the tasks of the
RTMFP instance that are left are run when it is gone. -/
theorem C90_destroyed : ∃ g ts, (Guard.init true).run [.perform 0, .destroy, .next] = some (g, ts) ∧ ts = [0] ∧ g.alive = false := ⟨_, _, rfl, rfl, rfl⟩

/-! ## Examples -/

namespace Posix

/-- two interfaces; both are told that they can be written to, one more often than the limit; then everything is closed -/
def demo : List Op := [.opened 3, .add 2 2 (some 7) true, .add 10 4 (some 8) true, .notify 2, .notify 4, .write [1, 2] 2 2 40 .einval .ok, .write [1, 2] 2 10 40 .ok .ok,
  .writable 8, .ask, .answer true, .ask, .answer true, .ask, .answer true, .ask, .answer true, .ask, .writable 7, .ask, .answer false,
  .readable 7, .recv (some [5]), .delivered, .recv none, .close]

theorem demo_run : ∃ st, run init demo = some (st, [.opened 3 0, .added 2 7 1 2, .added 4 8 2 10, .wants 2 0, .wants 4 1, .sent (some 1) [1, 2] 0, .wrote true, .wrote false,
    .asked 1, .asked 1, .asked 1, .asked 1, .asked 0, .declined 0, .given 2 (some 1) [5], .closed]) ∧ st.table = [(3, 0)] ∧ st.stack = [] := ⟨_, rfl, by decide, by decide⟩

/-- a history without `close` is calm -/
theorem calm_run : ∀ (ops : List Op) (st st' : St) (evs e : List Ev), Reach Calm st evs → (∀ o ∈ ops, o ≠ .close) → run st ops = some (st', e) → Reach Calm st' (evs ++ e)
  | [], st, st', evs, e, h, _, hr => by cases hr; simpa using h
  | o :: os, st, st', evs, e, h, hops, hr => by
    rw [run] at hr
    cases hs : step st o with
    | none => rw [hs] at hr; cases hr
    | some r =>
      rw [hs] at hr
      simp only [Option.bind_some, Option.map_eq_some_iff] at hr
      obtain ⟨q, h1, h2⟩ := hr
      cases h2
      have := calm_run os r.1 q.1 (evs ++ r.2) q.2 (.step (e := r.2) (st' := r.1) h (fun ho => absurd ho (hops o (by simp))) hs) (fun o ho => hops o (by simp [ho])) h1
      simpa [List.append_assoc] using this

end Posix

/-- closed, with nothing being called -/
example : ∃ st evs, Reach Any st evs ∧ Shut evs ∧ st.stack = [] ∧ Ev.wrote true ∈ evs ∧ Ev.asked 1 ∈ evs := by
  obtain ⟨st, h, _, h2⟩ := demo_run
  have hr := reach_run .start h
  refine ⟨st, _, hr, ⟨[.opened 3 0, .added 2 7 1 2, .added 4 8 2 10, .wants 2 0, .wants 4 1, .sent (some 1) [1, 2] 0, .wrote true, .wrote false,
    .asked 1, .asked 1, .asked 1, .asked 1, .asked 0, .declined 0, .given 2 (some 1) [5]], [], by simp, by simp⟩, h2, by simp, by simp⟩

/-- a calm history in which a packet is received; the interface is in force -/
example : ∃ st, Reach Calm st [.opened 3 0, .added 2 7 1 2, .given 2 (some 1) [5]] ∧ InForce [.opened 3 0, .added 2 7 1 2, .given 2 (some 1) [5]] 2 7 1 2 := by
  refine ⟨_, calm_run [.opened 3, .add 2 2 (some 7) true, .readable 7, .recv (some [5])] init _ [] _ .start (by decide) rfl, [.opened 3 0], [.given 2 (some 1) [5]], rfl, by decide⟩

/-- a callback asked for twice, outside of callbacks; the second one is to be called -/
example : ∃ st, Reach Outside st [.added 2 7 0 2, .wants 2 0, .wants 2 1] ∧ st.stack = [] ∧ 0 < st.max := by
  have h1 : Reach Outside _ ([] ++ [.added 2 7 0 2]) := .step (o := .add 2 2 (some 7) true) .start (by intro n h; cases h) rfl
  have h2 : Reach Outside _ (([] ++ [.added 2 7 0 2]) ++ [.wants 2 0]) := .step (o := .notify 2) h1 (by intro n _; simp [init]) rfl
  have h3 : Reach Outside _ ((([] ++ [.added 2 7 0 2]) ++ [.wants 2 0]) ++ [.wants 2 1]) := .step (o := .notify 2) h2 (by intro n _; simp [init]) rfl
  exact ⟨_, h3, rfl, by decide⟩

/-- four calls and no more -/
example : ∃ st st' e, run st [.writable 8, .ask, .answer true, .ask, .answer true, .ask, .answer true, .ask, .answer true, .ask] = some (st', e) ∧ e = [.asked 0, .asked 0, .asked 0, .asked 0] := by
  exact ⟨(⟨[⟨4, 8, 0, 10⟩], [(8, 4)], [(8, 0)], [], 4, 1, [(8, 0)], 1⟩ : St), _, _, rfl, by decide⟩

/-- tasks of an adapter that was closed -/
example : ∃ g g' ts us, (Guard.init true).run [.perform 0, .next, .perform 1] = some (g, ts) ∧ ts = [0] ∧ g.run [.close, .next] = some (g', us) ∧ us = [] := ⟨_, _, _, _, rfl, rfl, rfl, rfl⟩

end Rtmfp
