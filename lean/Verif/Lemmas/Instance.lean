import Verif.Lemmas.InstanceBase
/-! # Instances: what holds in every history -/
namespace Rtmfp
namespace Inst

/-! ## the kinds of steps -/

inductive Kind (C : Crypto) (st : St) (op : Op) (st' : St) (ev : List Ev) : Prop
  | tick (fr : Frame) (rest : List Frame) (h : st.stack = fr :: rest) (hu : fr ≠ .user) (e : (st', ev) = exec C { st with stack := rest } fr)
  | ret (rest : List Frame) (h : st.stack = .user :: rest) (e : st' = { st with stack := rest }) (e' : ev = [])
  | app (ht : appTurn st = true) (e : (st', ev) = appCall C st op)
  | worker (i : Nat) (t : Task) (ok : Bool) (hw : t.onWorker = true) (hi : st.tasks[i]? = some t)
      (e : (st', ev) = runTask C { st with tasks := st.tasks.eraseIdx i } t ok)
  | main (i : Nat) (t : Task) (ok : Bool) (hw : t.onWorker = false) (hs : st.stack = []) (hi : st.tasks[i]? = some t)
      (e : (st', ev) = runTask C { st with tasks := st.tasks.eraseIdx i } t ok)
  | out (hs : st.stack = []) (e : outside C st op = some (st', ev))

theorem step_kind {C : Crypto} {st st' : St} {op : Op} {ev : List Ev} (h : step C st op = some (st', ev)) : Kind C st op st' ev ∧ st.crashed = false := by
  have hc : st.crashed = false := by
    cases hc : st.crashed with
    | false => rfl
    | true => rw [step, if_pos hc] at h; cases h
  refine ⟨?_, hc⟩
  rw [step, if_neg (by simp [hc])] at h
  rw [stepOk.eq_def] at h
  split at h
  · split at h
    · cases h
    · cases h
    · rename_i fr rest hu he
      injection h with h
      exact .tick fr rest he hu h.symm
  · split at h
    · rename_i rest he
      injection h with h
      injection h with h1 h2
      exact .ret rest he h1.symm h2.symm
    · cases h
  iterate 12
    · split at h
      · rename_i ht
        injection h with h
        exact .app ht h.symm
      · cases h
  · split at h
    · rename_i i ok _ t hi
      split at h
      · rename_i hw
        injection h with h
        exact .worker i t ok hw hi h.symm
      · rename_i hw
        split at h
        · rename_i hs
          injection h with h
          exact .main i t ok (by simpa using hw) hs hi h.symm
        · cases h
    · cases h
  · split at h
    · rename_i hs
      exact .out hs h
    · cases h

/-! ## what is mentioned exists -/

def Frame.sids : Frame → List Nat
  | .sessClose s _ | .abort s | .sendLoop s | .sendCheck s _ | .recvLoop s | .recvErase s _ | .nearTail s | .farTail s | .ackClose s | .didClose s _
  | .tellOpening s _ | .flowDidClose _ s | .tellOpened s _ | .tellWillOpen s _ => [s]
  | .closeAll ss _ | .abortAll ss => ss
  | .user | .flowClose _ | .notOpening _ | .callback _ | .respond _ | .abortOpening | .check => []

def Frame.fids : Frame → List Nat
  | .sendCheck _ f | .flowDidClose f _ | .flowClose f | .notOpening f | .callback f => [f]
  | .tellOpening _ fs | .tellOpened _ fs | .tellWillOpen _ fs => fs
  | _ => []

def Tm.sids : Tm → List Nat
  | .ultimate s | .near s | .far s => [s]
  | .linger _ => []

def Tm.fids : Tm → List Nat
  | .linger f => [f]
  | _ => []

def Task.sids : Task → List Nat
  | .rhelloW s .. | .rhello s .. | .keygenW s | .abort s | .cookieW s | .rikeyingW s _ | .rikeying s _ => [s]
  | _ => []

structure Rng (st : St) : Prop where
  fresh : ∀ s : Nat, st.nS ≤ s → st.sess s = Sess.new
  freshF : ∀ f : Nat, st.nF ≤ f → st.flow f = SFlow.new 0
  frames : ∀ fr ∈ st.stack, ∀ s ∈ fr.sids, s < st.nS
  framesF : ∀ fr ∈ st.stack, ∀ f ∈ fr.fids, f < st.nF
  timers : ∀ t ∈ st.timers, ∀ s ∈ t.sids, s < st.nS
  timersF : ∀ t ∈ st.timers, ∀ f ∈ t.fids, f < st.nF
  tasks : ∀ t ∈ st.tasks, ∀ s ∈ t.sids, s < st.nS
  opening : ∀ f o : Nat, (st.flow f).opening = some o → o < st.nS
  bound : ∀ f s : Nat, (st.flow f).sess = some s → s < st.nS
  sendFlows : ∀ s f : Nat, f ∈ (st.sess s).sendFlows → f < st.nF
  table : ∀ s ∈ st.table, s < st.nS
  openingS : ∀ s ∈ st.openingS, s < st.nS
  openingF : ∀ f ∈ st.openingF, f < st.nF
  byAddr : ∀ a s : Nat, st.byAddr a = some s → s < st.nS
  byEpd : ∀ e s : Nat, st.byEpd e = some s → s < st.nS
  recv : ∀ r : Nat, r < st.nR → (st.rflow r).sess < st.nS

theorem Rng.init : Rng Inst.init := by
  constructor <;> simp [Inst.init, Sess.new, SFlow.new]

theorem abandoned_mem {st : St} {o : Option Nat} {fr : Frame} : fr ∈ abandoned st o ↔
    ∃ x : Nat, o = some x ∧ fr = .abort x ∧ (st.sess x).interest - 1 = 0 ∧ (st.sess x).state = .ihello := by
  cases o with
  | none => simp [abandoned]
  | some x => simp only [abandoned]; split <;> grind

theorem mem_eraseIdx {α : Type} {l : List α} {i : Nat} {x : α} (h : x ∈ l.eraseIdx i) : x ∈ l := List.mem_of_mem_eraseIdx h

theorem mem_of_getElem? {α : Type} {l : List α} {i : Nat} {x : α} (h : l[i]? = some x) : x ∈ l := List.mem_of_getElem? h

grind_pattern mem_eraseIdx => x ∈ l.eraseIdx i

theorem Rng.push {st : St} {fs : List Frame} (h : Rng st) (h1 : ∀ fr ∈ fs, ∀ s ∈ fr.sids, s < st.nS) (h2 : ∀ fr ∈ fs, ∀ f ∈ fr.fids, f < st.nF) :
    Rng (push st fs) := by
  cases h; constructor <;> grind

theorem Rng.setS {st : St} {s : Nat} {g : Sess → Sess} (h : Rng st) (h1 : s < st.nS) (h2 : ∀ f ∈ (g (st.sess s)).sendFlows, f < st.nF) :
    Rng (setS st s g) := by
  cases h; constructor <;> grind

theorem Rng.setF {st : St} {f : Nat} {g : SFlow → SFlow} (h : Rng st) (h1 : f < st.nF) (h2 : ∀ s, (g (st.flow f)).sess = some s → s < st.nS)
    (h3 : ∀ s, (g (st.flow f)).opening = some s → s < st.nS) : Rng (setF st f g) := by
  cases h; constructor <;> grind

theorem Rng.pop {st : St} {fr : Frame} {rest : List Frame} (h : Rng st) (hs : st.stack = fr :: rest) : Rng { st with stack := rest } := by
  cases h; constructor <;> grind

theorem Rng.gotoClosed {st : St} {f : Nat} (h : Rng st) (hf : f < st.nF) : Rng (gotoClosed st f) := by
  have ho := h.opening f
  rw [Inst.gotoClosed]
  split
  · exact h
  · refine Rng.push ?_ ?_ ?_
    · cases h; constructor <;> grind
    · intro fr hfr s hs
      obtain ⟨x, e1, e2, _⟩ := abandoned_mem.mp hfr
      subst e2
      simp [Frame.sids] at hs
      subst hs
      simpa using ho _ e1
    · intro fr hfr s hs
      obtain ⟨x, e1, e2, _⟩ := abandoned_mem.mp hfr
      subst e2
      simp [Frame.fids] at hs

theorem Rng.closeFlow {st : St} {f : Nat} (h : Rng st) (hf : f < st.nF) : Rng (closeFlow st f) := by
  have h1 : Rng (Inst.setF st f (fun e => { e with isOpen := false, handler := false })) := h.setF hf (h.bound f) (h.opening f)
  rw [Inst.closeFlow]
  split
  · split
    · exact ((h1.setF hf (h1.bound f) (h1.opening f)).push (by simp [Frame.sids]) (by simpa [Frame.fids] using hf))
    · exact (h1.push (by simp [Frame.sids]) (by simpa [Frame.fids] using hf)).gotoClosed hf
  · exact h1.push (by simp [Frame.sids]) (by simpa [Frame.fids] using hf)

theorem Rng.excReport {st : St} {f : Nat} (h : Rng st) (hf : f < st.nF) : Rng (excReport st f) := by
  rw [Inst.excReport]
  refine Rng.closeFlow (h.push ?_ ?_) hf <;> split <;> simp [Frame.sids, Frame.fids, hf]

theorem Rng.bind {st : St} {f s : Nat} (h : Rng st) (hf : f < st.nF) (hs : s < st.nS) : Rng (bind st f s).1 := by
  have ho := h.opening f
  simp only [Inst.bind]
  refine Rng.push ?_ ?_ ?_
  · cases h; constructor <;> grind
  · intro fr hfr s hs
    obtain ⟨x, e1, e2, _⟩ := abandoned_mem.mp hfr
    subst e2
    simp [Frame.sids] at hs
    subst hs
    simpa using ho _ e1
  · intro fr hfr s hs
    obtain ⟨x, e1, e2, _⟩ := abandoned_mem.mp hfr
    subst e2
    simp [Frame.fids] at hs

theorem Rng.flowDidOpen {C : Crypto} {st : St} {f s : Nat} (h : Rng st) (hf : f < st.nF) (hs : s < st.nS) : Rng (flowDidOpen C st f s).1 := by
  rw [Inst.flowDidOpen]
  split
  · exact h
  · split
    · exact h.bind hf hs
    · exact h

theorem Rng.flowWillOpen {st : St} {f s : Nat} (h : Rng st) (hf : f < st.nF) (hs : s < st.nS) : Rng (flowWillOpen st f s).1 := by
  rw [Inst.flowWillOpen]
  split
  · exact h
  · split
    · rename_i o ho
      have := h.opening f o ho
      split
      · refine Rng.push ?_ ?_ ?_
        · cases h; constructor <;> grind
        · intro fr hfr s hs
          obtain ⟨x, e1, e2, _⟩ := abandoned_mem.mp hfr
          subst e2
          simp [Frame.sids] at hs
          subst hs
          injection e1 with e1
          subst e1
          simpa using this
        · intro fr hfr s hs
          obtain ⟨x, e1, e2, _⟩ := abandoned_mem.mp hfr
          subst e2
          simp [Frame.fids] at hs
      · exact h
    · exact h

theorem Rng.didOpen {st : St} {s : Nat} (h : Rng st) (hs : s < st.nS) : Rng (didOpen st s) := by
  rw [Inst.didOpen]
  have := h.openingF
  refine Rng.push ?_ ?_ ?_
  · cases h; constructor <;> grind
  · simp [Frame.sids, hs]
  · simpa [Frame.fids] using this

theorem Rng.setOpen {C : Crypto} {st : St} {s tx : Nat} (h : Rng st) (hs : s < st.nS) : Rng (setOpen C st s tx).1 := by
  simp only [Inst.setOpen]
  exact (h.setS hs (h.sendFlows s)).didOpen hs

theorem Rng.setState {st : St} {s : Nat} {x : SState} (h : Rng st) (hs : s < st.nS) : Rng (setState st s x) := h.setS hs (h.sendFlows s)

theorem Rng.queueStartup {st : St} (h : Rng st) : Rng (queueStartup st) := by
  cases h; constructor <;> grind

theorem Rng.sessClose {st : St} {s : Nat} {o : Bool} (h : Rng st) (hs : s < st.nS) : Rng (sessClose st s o).1 := by
  have h1 : ∀ st : St, Rng st → s < st.nS → Rng (Inst.push st [.abort s]) := fun st h hs => h.push (by simpa [Frame.sids] using hs) (by simp [Frame.fids])
  rw [Inst.sessClose]
  split
  · exact h1 _ h hs
  · exact h1 _ h hs
  · exact h1 _ h hs
  · split
    · exact (h.setState hs).push (by simp [Frame.sids, Inst.setState, hs]) (by simp [Frame.fids])
    · exact h1 _ h.queueStartup hs
  · split
    · exact h
    · exact h1 _ h.queueStartup hs
  · split
    · exact h
    · exact h1 _ h.queueStartup hs
  · exact h

theorem Rng.didClose {st : St} {s : Nat} {r : Bool} (h : Rng st) (hs : s < st.nS) : Rng (didClose st s r).1 := by
  have h0 := h.openingF
  simp only [Inst.didClose]
  split <;> refine Rng.push ?_ ?_ ?_
  · cases h; constructor <;> grind
  · simp [Frame.sids, hs]
  · simpa [Frame.fids] using h0
  · cases h; constructor <;> grind
  · simp [Frame.sids, hs]
  · simpa [Frame.fids] using h0

theorem Rng.makeSession {st : St} {e : Sess} (h : Rng st) (he : e.sendFlows = []) : Rng (makeSession st e) := by
  cases h; constructor <;> grind

theorem Rng.respond {C : Crypto} {st : St} {r : Req} (h : Rng st) : Rng (respond C st r).1 := by
  have h0 := h.openingS
  simp only [Inst.respond]
  split
  · exact h
  · refine Rng.setOpen (Rng.push (h.makeSession rfl) ?_ ?_) (by simp [Inst.makeSession])
    · intro fr hfr s hs
      split at hfr
      · rename_i g hg
        have := h0 g (List.mem_of_find?_eq_some hg)
        split at hfr
        · simp at hfr
          subst hfr
          simp [Frame.sids] at hs
          subst hs
          simp only [Inst.makeSession]
          omega
        · simp at hfr
      · simp at hfr
    · intro fr hfr s hs
      split at hfr
      · split at hfr
        · simp at hfr
          subst hfr
          simp [Frame.fids] at hs
        · simp at hfr
      · simp at hfr

theorem Rng.execB {C : Crypto} {b : St} {fr : Frame} (h : Rng b) (i1 : ∀ s ∈ fr.sids, s < b.nS) (i2 : ∀ f ∈ fr.fids, f < b.nF) :
    Rng (exec C b fr).1 := by
  cases fr with
  | user => exact h
  | sessClose s o => exact h.sessClose (i1 s (by simp [Frame.sids]))
  | abort s =>
    have hs := i1 s (by simp [Frame.sids])
    simp only [Inst.exec]
    split
    · exact h
    · exact (h.setState hs).push (by simp [Frame.sids, hs]) (by simp [Frame.fids])
  | sendLoop s =>
    have hs := i1 s (by simp [Frame.sids])
    have := h.sendFlows s
    simp only [Inst.exec]
    split
    · exact h.push (by simp [Frame.sids, hs]) (by simp [Frame.fids])
    · rename_i f l e
      have := this f (by simp [e])
      exact h.push (by simp [Frame.sids, hs]) (by simp [Frame.fids, this])
  | sendCheck s f =>
    simp only [Inst.exec]
    split
    · cases h; constructor <;> grind
    · exact h
  | recvLoop s =>
    have hs := i1 s (by simp [Frame.sids])
    simp only [Inst.exec]
    split
    · exact h
    · rename_i r l e
      have h1 : Rng (setR b r (fun e => { e with isOpen := false, handler := false })) := by cases h; constructor <;> grind
      split
      · exact h1.push (by simp [Frame.sids, hs]) (by simp [Frame.fids])
      · exact h1.push (by simp [Frame.sids, hs]) (by simp [Frame.fids])
  | recvErase s r => simp only [Inst.exec]; exact h.setS (i1 s (by simp [Frame.sids])) (by exact h.sendFlows s)
  | nearTail s =>
    have hs := i1 s (by simp [Frame.sids])
    have h1 : Rng { b with timers := b.timers ++ [.near s] } := by cases h; constructor <;> grind [Tm.sids, Tm.fids]
    exact h1.push (by simp [Frame.sids, hs]) (by simp [Frame.fids])
  | farTail s =>
    have hs := i1 s (by simp [Frame.sids])
    have h1 : Rng { b with timers := b.timers ++ [.far s] } := by cases h; constructor <;> grind [Tm.sids, Tm.fids]
    exact h1.push (by simp [Frame.sids, hs]) (by simp [Frame.fids])
  | ackClose s => exact h.queueStartup
  | didClose s r => exact h.didClose (i1 s (by simp [Frame.sids]))
  | tellOpening s fs =>
    have hs := i1 s (by simp [Frame.sids])
    cases fs with
    | nil => exact h
    | cons f fs =>
      refine h.push (by simp [Frame.sids, hs]) ?_
      have := i2
      simp [Frame.fids] at this ⊢
      exact this
  | flowDidClose f s =>
    have hf := i2 f (by simp [Frame.fids])
    simp only [Inst.exec]
    split
    · exact h.excReport hf
    · exact h
  | flowClose f =>
    have hf := i2 f (by simp [Frame.fids])
    have h1 := h.push (fs := [.notOpening f]) (by simp [Frame.sids]) (by simp [Frame.fids, hf])
    simp only [Inst.exec]
    split
    · exact h1.gotoClosed hf
    · exact h1
  | notOpening f =>
    simp only [Inst.exec]
    cases h; constructor <;> grind
  | callback f => exact h.push (by simp [Frame.sids]) (by simp [Frame.fids])
  | tellOpened s fs =>
    have hs := i1 s (by simp [Frame.sids])
    cases fs with
    | nil => exact h
    | cons f fs =>
      simp [Frame.fids] at i2
      exact (h.push (by simp [Frame.sids, hs]) (by simpa [Frame.fids] using i2.2)).flowDidOpen i2.1 hs
  | tellWillOpen s fs =>
    have hs := i1 s (by simp [Frame.sids])
    cases fs with
    | nil => exact h
    | cons f fs =>
      simp [Frame.fids] at i2
      exact (h.push (by simp [Frame.sids, hs]) (by simpa [Frame.fids] using i2.2)).flowWillOpen i2.1 hs
  | respond r => exact h.respond
  | closeAll ss o =>
    cases ss with
    | nil => exact h
    | cons s ss =>
      simp [Frame.sids] at i1
      exact h.push (by simpa [Frame.sids] using i1) (by simp [Frame.fids])
  | abortOpening => exact h.push (by simpa [Frame.sids] using h.openingS) (by simp [Frame.fids])
  | abortAll ss =>
    cases ss with
    | nil => exact h
    | cons s ss =>
      simp [Frame.sids] at i1
      exact h.push (by simpa [Frame.sids] using i1) (by simp [Frame.fids])
  | check =>
    simp only [Inst.exec, Inst.check]
    split
    · cases h; constructor <;> grind
    · exact h

theorem Rng.exec {C : Crypto} {st : St} {fr : Frame} {rest : List Frame} (h : Rng st) (hs : st.stack = fr :: rest) :
    Rng (exec C { st with stack := rest } fr).1 :=
  (h.pop hs).execB (h.frames fr (by simp [hs])) (h.framesF fr (by simp [hs]))

theorem Rng.initiate {st : St} {epd : Nat} (h : Rng st) : Rng (initiate st epd) := by
  cases h
  constructor
  case timers =>
    intro t ht s hs
    simp only [initiate_timers, List.mem_append, List.mem_singleton] at ht
    rcases ht with ht | rfl
    · have := (by assumption : ∀ t ∈ st.timers, ∀ s ∈ t.sids, s < st.nS) t ht s hs
      simp only [initiate_nS]
      omega
    · simp only [Tm.sids, List.mem_singleton] at hs
      simp [hs]
  all_goals grind [Sess.new, Tm.fids]

theorem Rng.appCall {C : Crypto} {st : St} {op : Op} (h : Rng st) : Rng (appCall C st op).1 := by
  have hn : ∀ epd, Rng (newFlow st epd) := fun epd => by cases h; constructor <;> grind [SFlow.new]
  have hw : ∀ (st : St) (f s : Nat), Rng st → f < st.nF → s < st.nS → Rng (waitFor st f s) := fun st f s h h1 h2 => by cases h; constructor <;> grind
  cases op with
  | openFlow epd =>
    simp only [Inst.appCall]
    split
    · exact h
    · split
      · rename_i s hs
        exact (hn epd).flowDidOpen (by simp) ((hn epd).byEpd _ _ hs)
      · split
        · rename_i s hs
          exact hw _ _ _ (hn epd) (by simp) ((hn epd).openingS _ (List.mem_of_find?_eq_some hs))
        · refine hw _ _ _ ?_ (by simp) (by simp)
          exact (hn epd).initiate
  | openFlowVia g =>
    simp only [Inst.appCall]
    split
    · rename_i s hs
      split
      · exact (hn _).flowDidOpen (by simp) (by simpa using h.bound _ _ hs)
      · exact h
    · exact h
  | openFlowViaR r =>
    simp only [Inst.appCall]
    split
    · rename_i hr
      exact (hn _).flowDidOpen (by simp) (by simpa using h.recv _ hr.1)
    · exact h
  | setHandler f =>
    simp only [Inst.appCall]
    split
    · rename_i hf
      dsimp only
      exact h.setF hf (by exact h.bound f) (by exact h.opening f)
    · exact h
  | write f =>
    simp only [Inst.appCall]
    split
    · rename_i hf
      dsimp only
      exact h.setF hf.1 (by exact h.bound f) (by exact h.opening f)
    · exact h
  | close f =>
    simp only [Inst.appCall]
    split
    · rename_i hf
      exact h.closeFlow hf
    · exact h
  | closeSession f =>
    simp only [Inst.appCall]
    split
    · rename_i s hs
      exact h.sessClose (h.bound _ _ hs)
    · exact h
  | closeSessionR r =>
    simp only [Inst.appCall]
    split
    · rename_i hr
      exact h.sessClose (h.recv _ hr)
    · exact h
  | setComplete r =>
    simp only [Inst.appCall]
    split
    · cases h; constructor <;> grind
    · exact h
  | closeR r =>
    simp only [Inst.appCall]
    split
    · cases h; constructor <;> grind
    · exact h
  | addAddress f a =>
    simp only [Inst.appCall]
    split
    · rename_i o ho
      split
      · dsimp only
        exact h.setS (h.opening _ _ ho) (by exact h.sendFlows _)
      · exact h
    · exact h
  | shutdown imm =>
    simp only [Inst.appCall]
    cases h; constructor <;> grind [Task.sids]
  | _ => exact h

theorem Rng.addTask {st : St} {t : Task} (h : Rng st) (ht : ∀ s ∈ t.sids, s < st.nS) : Rng { st with tasks := st.tasks ++ [t] } := by
  cases h; constructor <;> grind

theorem Rng.rhello {C : Crypto} {st : St} {s cert addr ifc cookie : Nat} (h : Rng st) (hs : s < st.nS) : Rng (rhello C st s cert addr ifc cookie).1 := by
  simp only [Inst.rhello]
  split
  · exact h
  · split
    · rename_i x hx
      have hx : x < st.nS := by
        split at hx
        · rename_i y hy
          split at hx
          · injection hx with hx
            subst hx
            exact h.byEpd _ _ hy
          · cases hx
        · cases hx
      exact (h.push (by simp [Frame.sids, hs]) (by simp [Frame.fids])).didOpen hx
    · split
      · rename_i x hx
        refine h.push (by simpa [Frame.sids, hs] using h.openingS _ (List.mem_of_find?_eq_some hx)) ?_
        simpa [Frame.fids] using h.openingF
      · exact (h.setS hs (h.sendFlows _)).addTask (by simpa [Task.sids] using hs)

theorem Rng.iikeying {C : Crypto} {st : St} {r : Req} (h : Rng st) : Rng (iikeying C st r).1 := by
  simp only [Inst.iikeying]
  split
  · exact h
  · split
    · exact h
    · split
      · rename_i o ho
        split
        · exact h.push (by simpa [Frame.sids] using h.byAddr _ _ ho) (by simp [Frame.fids])
        · exact h
      · exact h.push (by simp [Frame.sids]) (by simp [Frame.fids])

theorem Rng.runTask {C : Crypto} {st : St} {t : Task} {ok : Bool} (h : Rng st) (ht : ∀ s ∈ t.sids, s < st.nS) : Rng (runTask C st t ok).1 := by
  cases t with
  | shutdown imm => exact h.push (by simpa [Frame.sids] using h.table) (by simp [Frame.fids])
  | rhelloW s => simp only [Inst.runTask]; split; exact h.addTask (by simpa [Task.sids] using ht); exact h
  | rhello s => exact h.rhello (ht s (by simp [Task.sids]))
  | keygenW s => simp only [Inst.runTask]; split; exact h; exact h.addTask (by simpa [Task.sids] using ht)
  | abort s => exact h.push (by simpa [Frame.sids] using ht s (by simp [Task.sids])) (by simp [Frame.fids])
  | cookieW s => simp only [Inst.runTask]; split; exact h; exact h.addTask (by simpa [Task.sids] using ht)
  | rikeyingW s => simp only [Inst.runTask]; split; exact h.addTask (by simpa [Task.sids] using ht); exact h
  | rikeying s => simp only [Inst.runTask]; split; exact h.setOpen (ht s (by simp [Task.sids])); exact h
  | iikeyingW r => simp only [Inst.runTask]; split <;> (cases h; constructor <;> grind [Task.sids])
  | iikeyingW2 r => simp only [Inst.runTask]; split; exact h.addTask (by simp [Task.sids]); exact h
  | iikeying r => exact h.iikeying

theorem Rng.lt {st : St} (h : Rng st) {s : Nat} (hs : (st.sess s).state ≠ .unknown) : s < st.nS := by
  rcases Nat.lt_or_ge s st.nS with h' | h'
  · exact h'
  · exact absurd (by rw [h.fresh s h']; rfl) hs

theorem Rng.outside {C : Crypto} {st st' : St} {op : Op} {ev : List Ev} (h : Rng st) (e : outside C st op = some (st', ev)) : Rng st' := by
  have hl := fun s => h.lt (s := s)
  cases op with
  | timer i late =>
    simp only [Inst.outside] at e
    have he : Rng { st with timers := st.timers.eraseIdx i } := by cases h; constructor <;> grind
    split at e
    · rename_i s ht
      have hs : s < st.nS := h.timers _ (mem_of_getElem? ht) s (by simp [Tm.sids])
      split at e
      · injection e with e; injection e with e _; subst e
        exact he.push (by simpa [Frame.sids] using hs) (by simp [Frame.fids])
      · injection e with e; injection e with e _; subst e
        exact he
    · rename_i s ht
      have hs : s < st.nS := h.timers _ (mem_of_getElem? ht) s (by simp [Tm.sids])
      split at e
      · injection e with e; injection e with e _; subst e
        exact he.push (by simpa [Frame.sids] using hs) (by simp [Frame.fids])
      · injection e with e; injection e with e _; subst e
        exact h.queueStartup
    · rename_i s ht
      have hs : s < st.nS := h.timers _ (mem_of_getElem? ht) s (by simp [Tm.sids])
      injection e with e; injection e with e _; subst e
      exact he.push (by simpa [Frame.sids] using hs) (by simp [Frame.fids])
    · rename_i f ht
      have hs : f < st.nF := h.timersF _ (mem_of_getElem? ht) f (by simp [Tm.fids])
      injection e with e; injection e with e _; subst e
      exact he.gotoClosed hs
    · cases e
  | startupWritable =>
    simp only [Inst.outside] at e
    split at e
    · cases e
    · split at e
      · injection e with e; injection e with e _; subst e
        refine Rng.push ?_ (by simp [Frame.sids]) (by simp [Frame.fids])
        cases h; constructor <;> grind
      · injection e with e; injection e with e _; subst e
        cases h; constructor <;> grind
  | startupPacket =>
    simp only [Inst.outside] at e
    injection e with e; injection e with e _; subst e
    exact h.queueStartup
  | drained f =>
    simp only [Inst.outside] at e
    split at e
    · rename_i hf
      injection e with e; injection e with e _; subst e
      have hf : f < st.nF := by
        rcases Nat.lt_or_ge f st.nF with h' | h'
        · exact h'
        · have := h.freshF f h'
          rw [this] at hf
          simp [SFlow.new] at hf
      have := h.setF (g := fun e => { e with state := .linger }) hf (h.bound f) (h.opening f)
      cases this; constructor <;> grind [Tm.sids, Tm.fids]
    · cases e
  | excChunk s f =>
    simp only [Inst.outside] at e
    split at e
    · rename_i hf
      injection e with e; injection e with e _; subst e
      exact h.excReport (h.sendFlows _ _ hf.2)
    · cases e
  | idle s =>
    simp only [Inst.outside] at e
    split at e
    · rename_i hf
      injection e with e
      have := h.sessClose (o := true) (hl s (by simp [hf.1]))
      rw [e] at this
      exact this
    · cases e
  | unanswered s =>
    simp only [Inst.outside] at e
    split at e
    · rename_i hf
      injection e with e
      have := h.sessClose (o := true) (hl s (by simp [hf]))
      rw [e] at this
      exact this
    · cases e
  | redirect s a =>
    simp only [Inst.outside] at e
    split at e
    · rename_i hf
      injection e with e; injection e with e _; subst e
      exact h.setS (hl s (by simp [hf.1])) (by exact h.sendFlows _)
    · injection e with e; injection e with e _; subst e
      exact h
  | rhello s =>
    simp only [Inst.outside] at e
    split at e
    · rename_i hf
      injection e with e; injection e with e _; subst e
      exact h.addTask (by simpa [Task.sids] using hl s (by simp [hf.1]))
    · injection e with e; injection e with e _; subst e
      exact h
  | cookieChange s =>
    simp only [Inst.outside] at e
    split at e
    · rename_i hf
      injection e with e; injection e with e _; subst e
      have hs := hl s (by simp [hf.1])
      exact (h.setS hs (h.sendFlows _)).addTask (by simpa [Task.sids] using hs)
    · injection e with e; injection e with e _; subst e
      exact h
  | rikeying s tx =>
    simp only [Inst.outside] at e
    split at e
    · rename_i hf
      injection e with e; injection e with e _; subst e
      have hs := hl s (by simp [hf])
      exact h.addTask (by simpa [Task.sids] using hs)
    · injection e with e; injection e with e _; subst e
      exact h
  | iikeying r c d =>
    simp only [Inst.outside] at e
    split at e
    · injection e with e; injection e with e _; subst e
      exact h
    · split at e
      · injection e with e; injection e with e _; subst e
        exact h
      · injection e with e; injection e with e _; subst e
        exact h.queueStartup
      · split at e
        · injection e with e; injection e with e _; subst e
          exact h
        · split at e
          · injection e with e; injection e with e _; subst e
            exact h
          · injection e with e; injection e with e _; subst e
            cases h; constructor <;> grind [Task.sids]
  | garbage s p =>
    simp only [Inst.outside] at e
    split at e
    · rename_i hf
      injection e with e; injection e with e _; subst e
      exact h.setS (hl s (by simp [hf])) (by exact h.sendFlows _)
    · injection e with e; injection e with e _; subst e
      exact h
  | closeChunk s =>
    simp only [Inst.outside] at e
    split at e
    · rename_i hf
      have hs := hl s (by simp [hf])
      injection e with e; injection e with e _; subst e
      exact (h.setState hs).push (by simp [Frame.sids, hs]) (by simp [Frame.fids])
    all_goals (injection e with e; injection e with e _; subst e)
    · exact h.queueStartup
    · exact h.queueStartup
    · exact h
  | closeAckChunk s =>
    simp only [Inst.outside] at e
    split at e
    · rename_i hf
      have hs := hl s (by simp [hf])
      injection e with e; injection e with e _; subst e
      exact h.queueStartup.push (by simp [Frame.sids, hs]) (by simp [Frame.fids])
    · rename_i hf
      have hs := hl s (by simp [hf])
      injection e with e; injection e with e _; subst e
      exact h.push (by simp [Frame.sids, hs]) (by simp [Frame.fids])
    · rename_i hf
      have hs := hl s (by simp [hf])
      injection e with e; injection e with e _; subst e
      exact h.push (by simp [Frame.sids, hs]) (by simp [Frame.fids])
    · injection e with e; injection e with e _; subst e
      exact h
  | userData s offer =>
    simp only [Inst.outside] at e
    split at e
    · rename_i hf
      have hs := hl s (by simp [hf])
      have h1 : Rng (Inst.setS { st with nR := st.nR + 1, rflow := upd st.rflow st.nR ⟨s, offer, false⟩ } s (fun e => { e with recvFlows := e.recvFlows ++ [st.nR] })) := by
        cases h; constructor <;> grind
      split at e <;> (injection e with e; injection e with e _; subst e)
      · exact h1.push (by simp [Frame.sids]) (by simp [Frame.fids])
      · exact h1
    · cases e
  | recvDone r =>
    simp only [Inst.outside] at e
    split at e
    · have h1 : Rng (setR st r (fun e => { e with isOpen := false, handler := false })) := by cases h; constructor <;> grind
      split at e <;> (injection e with e; injection e with e _; subst e)
      · exact h1.push (by simp [Frame.sids]) (by simp [Frame.fids])
      · exact h1
    · cases e
  | recvLinger r =>
    simp only [Inst.outside] at e
    split at e
    · rename_i hr
      injection e with e; injection e with e _; subst e
      exact h.setS (h.recv _ hr) (by exact h.sendFlows _)
    · cases e
  | moveTo s a ifc =>
    simp only [Inst.outside] at e
    split at e
    · rename_i hf
      have hs := hl s (by simp [hf])
      injection e with e; injection e with e _; subst e
      refine Rng.push ?_ (by simp [Frame.sids]) (by simp [Frame.fids])
      cases h; constructor <;> grind
    · cases e
  | _ => cases e

theorem Rng.step {C : Crypto} {st st' : St} {op : Op} {ev : List Ev} (h : Rng st) (hs : step C st op = some (st', ev)) : Rng st' := by
  rcases (step_kind hs).1 with ⟨fr, rest, h1, _, e⟩ | ⟨rest, h1, e, _⟩ | ⟨_, e⟩ | ⟨i, t, ok, _, hi, e⟩ | ⟨i, t, ok, _, _, hi, e⟩ | ⟨_, e⟩
  · have := h.exec (C := C) h1
    rwa [← e] at this
  · subst e
    exact h.pop h1
  · have := h.appCall (C := C) (op := op)
    rwa [← e] at this
  · have h0 : Rng { st with tasks := st.tasks.eraseIdx i } := by cases h; constructor <;> grind
    have := h0.runTask (C := C) (t := t) (ok := ok) (h.tasks t (mem_of_getElem? hi))
    rwa [← e] at this
  · have h0 : Rng { st with tasks := st.tasks.eraseIdx i } := by cases h; constructor <;> grind
    have := h0.runTask (C := C) (t := t) (ok := ok) (h.tasks t (mem_of_getElem? hi))
    rwa [← e] at this
  · exact h.outside e

end Inst
end Rtmfp
