import Verif.Spec.Redirector
import Verif.Props.C01_C03_VLU

/-! # Invariants of the redirector client -/

namespace Rtmfp
namespace Redir

/-! ## control -/

/-- what connecting and timers depend on -/
structure Ctl where
  status : Status
  minInterval : Int
  send : Option Nat
  waiting : Bool
  recv : Bool
  frames : List Frame
  timers : List Tm
  nextTimer : Nat
  reconnectTimer : Option Nat
  loadTimer : Option Nat
  lastAttempt : Option Int
  null : Bool
  flows : Nat
  attempts : List Int
  statuses : List Status

def ctl (s : RC) : Ctl :=
  { status := s.status, minInterval := s.minInterval, send := s.send, waiting := s.waiting, recv := s.recv, frames := s.frames, timers := s.timers, nextTimer := s.nextTimer, reconnectTimer := s.reconnectTimer,
    loadTimer := s.loadTimer, lastAttempt := s.lastAttempt, null := s.null, flows := s.flows, attempts := attempts s.out, statuses := statuses s.out }

/-- the status that was reported last -/
def lastStatus (l : List Status) : Status := l.getLast?.getD .idle

theorem Chain.append {a b : Status} {l : List Status} (h : Chain a l) (hf : Follows (l.getLast?.getD a) b) : Chain a (l ++ [b]) := by
  induction l generalizing a with
  | nil => exact ⟨hf, trivial⟩
  | cons c l ih =>
    refine ⟨h.1, ih h.2 ?_⟩
    cases l with
    | nil => exact hf
    | cons d l =>
      rw [List.getLast?_cons_cons] at hf
      rw [List.getLast?_eq_some_getLast (List.cons_ne_nil d l)] at hf ⊢
      exact hf

/-- given up: the client waits to connect again -/
def Down (st : Status) : Prop := st = .disconnected ∨ st = .badAuth

structure Core (m : Int) (c : Ctl) : Prop where
  null : c.null = false
  conn : c.status = .connected → c.send.isSome = true
  sent : c.send.isSome = true → c.status = .connecting ∨ c.status = .connected
  recv : c.recv = true → c.send.isSome = true
  wait : c.waiting = true → c.status = .connecting
  idle : c.status = .idle → c.lastAttempt = none ∧ c.attempts = [] ∧ c.frames = [] ∧ c.timers.all (fun t => decide (t.kind = .load)) = true
  tried : c.status ≠ .idle → c.status ≠ .closed → c.lastAttempt.isSome = true
  rec_ : ∀ t ∈ c.timers, t.kind = .reconnect → Down c.status ∧ .disconnected ∉ c.frames ∧ c.reconnectTimer = some t.id ∧ ∃ l, c.lastAttempt = some l ∧ l + max m intervalLimit ≤ t.at_
  load : ∀ t ∈ c.timers, t.kind = .load → c.loadTimer = some t.id
  recTimer : ∀ i, c.reconnectTimer = some i → ∃ t ∈ c.timers, t.id = i ∧ t.kind = .reconnect
  loadTimer : ∀ i, c.loadTimer = some i → ∃ t ∈ c.timers, t.id = i ∧ t.kind = .load
  ids : c.timers.Pairwise (fun a b => a.id ≠ b.id)
  small : ∀ t ∈ c.timers, t.id < c.nextTimer
  disc : .disconnected ∈ c.frames → (Down c.status ∨ c.status = .closed) ∧ c.frames.count .disconnected = 1 ∧ ∀ t ∈ c.timers, t.kind = .load
  last : ∀ t ∈ c.attempts, ∃ l, c.lastAttempt = some l ∧ t ≤ l
  spaced : c.attempts.Pairwise (fun a b => a + max m intervalLimit ≤ b)
  interval : m ≤ c.minInterval
  report : c.status ≠ .closed → lastStatus c.statuses = c.status
  order : Chain .idle c.statuses
  down : Down c.status → .disconnected ∉ c.frames → c.reconnectTimer.isSome = true

theorem core_init (now m : Int) (h : m ≤ 30000000) : Core m (ctl (init now)) := by
  constructor <;> simp_all [ctl, init, attempts, statuses, lastStatus, Chain, Down]

/-! ## messages -/

theorem attempts_append (a b : List Ev) : attempts (a ++ b) = attempts a ++ attempts b := List.filterMap_append
theorem statuses_append (a b : List Ev) : statuses (a ++ b) = statuses a ++ statuses b := List.filterMap_append
theorem msgs_append (k : Nat) (a b : List Ev) : msgs k (a ++ b) = msgs k a ++ msgs k b := List.filterMap_append

/-- what isn't an attempt or a status -/
def Minor : Ev → Bool
  | .attempt _ | .status _ => false
  | _ => true

theorem say_ctl (s : RC) (e : Ev) (h : Minor e = true) : ctl (say s e) = ctl s := by
  cases e <;> first | contradiction | simp [ctl, say, attempts, statuses]

theorem write_ctl (s : RC) (m : Bytes) (h : s.send.isSome = true) : ctl (write s m) = ctl s := by
  obtain ⟨k, hk⟩ := Option.isSome_iff_exists.mp h
  rw [write, hk]
  exact say_ctl _ _ rfl

theorem tell_ctl (s : RC) (e : Nat → Ev) (h : s.send.isSome = true) (he : ∀ k, Minor (e k) = true) : ctl (tell s e) = ctl s := by
  obtain ⟨k, hk⟩ := Option.isSome_iff_exists.mp h
  rw [tell, hk]
  exact say_ctl _ _ (he k)

/-- the connected client has a flow -/
def Has (s : RC) : Prop := s.status = .connected → s.send.isSome = true

theorem Has.of {s t : RC} (h : Has s) (e : ctl t = ctl s) : Has t := by
  have h1 := congrArg Ctl.status e
  have h2 := congrArg Ctl.send e
  simp only [ctl] at h1 h2
  rw [Has, h1, h2]; exact h

theorem isConnected_iff (s : RC) : isConnected s = true ↔ s.status = .connected := by simp [isConnected]

theorem sendSettings_ctl (s : RC) (h : Has s) : ctl (sendSettings s) = ctl s := by
  rw [sendSettings]
  split
  · rename_i hc
    exact write_ctl _ _ (h (by simp [isConnected] at hc; exact hc.1.1))
  · rfl

theorem sendDraining_ctl (s : RC) (h : Has s) : ctl (sendDraining s) = ctl s := by
  rw [sendDraining]
  split
  · rename_i hc
    exact write_ctl _ _ (h (by simp [isConnected] at hc; exact hc.1))
  · rfl

theorem sendLoad_ctl (s : RC) (h : Has s) : ctl (sendLoad s) = ctl s := by
  rw [sendLoad]
  have : ∀ t : RC, ctl { t with loadChanged := false } = ctl t := fun _ => rfl
  rw [this]
  split
  · rename_i hc
    exact write_ctl _ _ (h ((isConnected_iff s).mp hc))
  · rfl

theorem foldl_write_ctl (ms : List Bytes) : ∀ s : RC, s.send.isSome = true → ctl (ms.foldl write s) = ctl s := by
  induction ms with
  | nil => intro s _; rfl
  | cons m ms ih =>
    intro s h
    rw [List.foldl_cons, ih, write_ctl _ _ h]
    have := congrArg Ctl.send (write_ctl s m h)
    simp only [ctl] at this
    rw [this]; exact h

theorem afterConnected_ctl (hmac : Bytes → Bytes → Bytes) (nonce : Bytes) (s : RC) (h : Has s) : ctl (afterConnected hmac nonce s) = ctl s := by
  rw [afterConnected]
  split
  · rename_i hc
    have hs := h ((isConnected_iff s).mp hc)
    have e1 : ctl (tell s (.keepalive · s.keepalivePeriod)) = ctl s := tell_ctl _ _ hs (fun _ => rfl)
    have h1 : (tell s (.keepalive · s.keepalivePeriod)).send.isSome = true := by
      have := congrArg Ctl.send e1; simp only [ctl] at this; rw [this]; exact hs
    have e2 : ctl (tell (tell s (.keepalive · s.keepalivePeriod)) (.limit · s.retransmitLimit)) = ctl s := (tell_ctl _ _ h1 (fun _ => rfl)).trans e1
    generalize tell (tell s (.keepalive · s.keepalivePeriod)) (.limit · s.retransmitLimit) = t at *
    have h2 : t.send.isSome = true := by have := congrArg Ctl.send e2; simp only [ctl] at this; rw [this]; exact hs
    have e3 : ctl (sendAuth hmac nonce t) = ctl s := (foldl_write_ctl _ _ h2).trans e2
    have e4 := (sendSettings_ctl _ (h.of e3)).trans e3
    have e5 := (sendDraining_ctl _ (h.of e4)).trans e4
    exact (sendLoad_ctl _ (h.of e5)).trans e5
  · rfl

/-! ## every step -/

/-- the timers of the load factor -/
theorem scheduleLoad_core {m : Int} {s : RC} (h : Core m (ctl s)) : Core m (ctl (scheduleLoad s)) := by
  rw [scheduleLoad]
  split
  · rename_i hn
    dsimp only
    have e := sendLoad_ctl s h.conn
    generalize sendLoad s = t at e
    have e2 : ∀ at_, ctl { schedule t .load at_ with loadTimer := some t.nextTimer } =
        { ctl s with timers := s.timers ++ [⟨s.nextTimer, .load, at_⟩], nextTimer := s.nextTimer + 1, loadTimer := some s.nextTimer } := by
      intro at_
      rw [← e]
      have a := congrArg Ctl.timers e
      have b := congrArg Ctl.nextTimer e
      simp only [ctl] at a b
      simp [ctl, schedule, a, b]
    rw [e2]
    have hl : ∀ t ∈ s.timers, t.kind = .reconnect := by
      intro t ht
      cases hk : t.kind with
      | reconnect => rfl
      | load => have := h.load t ht hk; simp [ctl, hn] at this
    constructor
    · exact h.null
    · exact h.conn
    · exact h.sent
    · exact h.recv
    · exact h.wait
    · intro hi
      obtain ⟨a, b, c, d⟩ := h.idle hi
      exact ⟨a, b, c, by simp only [ctl] at d; simp [d]⟩
    · exact h.tried
    · intro x hx hk
      rcases List.mem_append.mp hx with hx | hx
      · exact h.rec_ x hx hk
      · simp at hx; subst hx; cases hk
    · intro x hx hk
      rcases List.mem_append.mp hx with hx | hx
      · rw [hl x hx] at hk; cases hk
      · simp at hx; subst hx; rfl
    · intro i hi
      obtain ⟨x, hx, k⟩ := h.recTimer i hi
      exact ⟨x, List.mem_append_left _ hx, k⟩
    · intro i hi
      simp at hi
      exact ⟨_, List.mem_append_right _ (List.mem_singleton.mpr rfl), hi, rfl⟩
    · show (s.timers ++ _).Pairwise _
      rw [List.pairwise_append]
      refine ⟨h.ids, List.pairwise_singleton _ _, fun a ha b hb => ?_⟩
      simp at hb; subst hb
      have := h.small a ha
      simp only [ctl] at this
      dsimp only; omega
    · intro x hx
      rcases List.mem_append.mp hx with hx | hx
      · have := h.small x hx; simp only [ctl] at this; dsimp only; omega
      · simp at hx; subst hx; dsimp only; omega
    · intro hd
      obtain ⟨a, b, c⟩ := h.disc hd
      refine ⟨a, b, fun x hx => ?_⟩
      rcases List.mem_append.mp hx with hx | hx
      · exact c x hx
      · simp at hx; subst hx; rfl
    · exact h.last
    · exact h.spaced
    · exact h.interval
    · exact h.report
    · exact h.order
    · exact h.down
  · exact h

/-- timers are told apart by their identity -/
theorem inj_ids {l : List Tm} (h : l.Pairwise (fun a b => a.id ≠ b.id)) {a b : Tm} (ha : a ∈ l) (hb : b ∈ l) (e : a.id = b.id) : a = b := by
  induction l with
  | nil => cases ha
  | cons x l ih =>
    rw [List.pairwise_cons] at h
    rcases List.mem_cons.mp ha with ea | ha <;> rcases List.mem_cons.mp hb with eb | hb
    · rw [ea, eb]
    · rw [ea] at e; exact absurd e (h.1 b hb)
    · rw [eb] at e; exact absurd e.symm (h.1 a ha)
    · exact ih h.2 ha hb

theorem setLoadInterval_core {m : Int} {s : RC} (h : Core m (ctl s)) (t : Int) : Core m (ctl (setLoadInterval s t)) := by
  have e : ctl (setLoadInterval s t) = { ctl s with timers := s.timers.map fun x => if some x.id = s.loadTimer then { x with at_ := s.now } else x } := rfl
  rw [e]
  let g : Tm → Tm := fun x => if some x.id = s.loadTimer then { x with at_ := s.now } else x
  have hid : ∀ x, (g x).id = x.id := by intro x; simp only [g]; split <;> rfl
  have hkd : ∀ x, (g x).kind = x.kind := by intro x; simp only [g]; split <;> rfl
  have hat : ∀ x ∈ s.timers, x.kind = .reconnect → g x = x := by
    intro x hx hk
    simp only [g]
    rw [if_neg]
    intro hl
    obtain ⟨y, hy, e1, e2⟩ := h.loadTimer x.id (by simp only [ctl]; exact hl.symm)
    have : y = x := inj_ids h.ids hy hx e1
    rw [this, hk] at e2; cases e2
  have hmem : ∀ {x}, x ∈ s.timers.map g → ∃ y ∈ s.timers, g y = x := fun hx => List.mem_map.mp hx
  constructor
  · exact h.null
  · exact h.conn
  · exact h.sent
  · exact h.recv
  · exact h.wait
  · intro hi
    obtain ⟨a, b, c, d⟩ := h.idle hi
    refine ⟨a, b, c, ?_⟩
    rw [List.all_eq_true] at d ⊢
    intro x hx
    obtain ⟨y, hy, rfl⟩ := hmem hx
    rw [hkd]; exact d y hy
  · exact h.tried
  · intro x hx hk
    obtain ⟨y, hy, rfl⟩ := hmem hx
    rw [hkd] at hk
    rw [hat y hy hk]
    exact h.rec_ y hy hk
  · intro x hx hk
    obtain ⟨y, hy, rfl⟩ := hmem hx
    rw [hid]; rw [hkd] at hk
    exact h.load y hy hk
  · intro i hi
    obtain ⟨x, hx, e1, e2⟩ := h.recTimer i hi
    exact ⟨g x, List.mem_map_of_mem hx, by rw [hid]; exact e1, by rw [hkd]; exact e2⟩
  · intro i hi
    obtain ⟨x, hx, e1, e2⟩ := h.loadTimer i hi
    exact ⟨g x, List.mem_map_of_mem hx, by rw [hid]; exact e1, by rw [hkd]; exact e2⟩
  · show (s.timers.map g).Pairwise _
    rw [List.pairwise_map]
    refine h.ids.imp ?_
    intro a b hab
    rw [hid, hid]; exact hab
  · intro x hx
    obtain ⟨y, hy, rfl⟩ := hmem hx
    rw [hid]; exact h.small y hy
  · intro hd
    obtain ⟨a, b, c⟩ := h.disc hd
    refine ⟨a, b, fun x hx => ?_⟩
    obtain ⟨y, hy, rfl⟩ := hmem hx
    rw [hkd]; exact c y hy
  · exact h.last
  · exact h.spaced
  · exact h.interval
  · exact h.report
  · exact h.order
  · exact h.down


/-- what holds between connections, and while one is open -/
structure Base (m : Int) (c : Ctl) : Prop where
  null : c.null = false
  norec : ∀ t ∈ c.timers, t.kind = .load
  recn : c.reconnectTimer = none
  load : ∀ t ∈ c.timers, t.kind = .load → c.loadTimer = some t.id
  loadTimer : ∀ i, c.loadTimer = some i → ∃ t ∈ c.timers, t.id = i ∧ t.kind = .load
  ids : c.timers.Pairwise (fun a b => a.id ≠ b.id)
  small : ∀ t ∈ c.timers, t.id < c.nextTimer
  disc : .disconnected ∉ c.frames
  tried : c.lastAttempt.isSome = true
  last : ∀ t ∈ c.attempts, ∃ l, c.lastAttempt = some l ∧ t ≤ l
  spaced : c.attempts.Pairwise (fun a b => a + max m intervalLimit ≤ b)
  interval : m ≤ c.minInterval
  order : Chain .idle c.statuses

/-- a connection is open -/
def Up (st : Status) : Prop := st = .connecting ∨ st = .connected

theorem Core.base {m : Int} {c : Ctl} (h : Core m c) (hu : Up c.status) : Base m c := by
  have hd : ¬ Down c.status := by rcases hu with e | e <;> simp [Down, e]
  have hc : c.status ≠ .closed := by rcases hu with e | e <;> simp [e]
  have hi : c.status ≠ .idle := by rcases hu with e | e <;> simp [e]
  have hr : ∀ t ∈ c.timers, t.kind = .load := by
    intro t ht
    cases hk : t.kind with
    | load => rfl
    | reconnect => exact absurd (h.rec_ t ht hk).1 hd
  refine ⟨h.null, hr, ?_, h.load, h.loadTimer, h.ids, h.small, ?_, h.tried hi hc, h.last, h.spaced, h.interval, h.order⟩
  · cases hn : c.reconnectTimer with
    | none => rfl
    | some i =>
      obtain ⟨t, ht, _, hk⟩ := h.recTimer i hn
      rw [hr t ht] at hk; cases hk
  · intro hm
    rcases (h.disc hm).1 with k | k
    · exact hd k
    · exact hc k

theorem Base.downCore {m : Int} {c : Ctl} (b : Base m c) {st : Status} (hst : Down st) (hf : Follows (lastStatus c.statuses) st) :
    Core m { c with status := st, send := none, waiting := false, recv := false, frames := .disconnected :: c.frames, statuses := c.statuses ++ [st] } := by
  have h1 : st ≠ .connected := by rcases hst with e | e <;> simp [e]
  have h2 : st ≠ .idle := by rcases hst with e | e <;> simp [e]
  refine ⟨b.null, fun h => absurd h h1, fun h => by simp at h, fun h => by simp at h, fun h => by simp at h, fun h => absurd h h2, fun _ _ => b.tried, ?_, b.load, ?_, b.loadTimer, b.ids, b.small, ?_,
    b.last, b.spaced, b.interval, ?_, Chain.append b.order hf, ?_⟩
  · intro t ht hk; rw [b.norec t ht] at hk; cases hk
  · intro i hi
    have := b.recn
    rw [show c.reconnectTimer = some i from hi] at this
    cases this
  · intro _
    refine ⟨Or.inl hst, ?_, b.norec⟩
    show List.count _ (_ :: _) = 1
    rw [List.count_cons_self, List.count_eq_zero.mpr b.disc]
  · intro _; simp [lastStatus]
  · intro _ h; exact absurd (List.mem_cons_self) h

theorem Base.upCore {m : Int} {c : Ctl} (b : Base m c) {st : Status} (hst : Up st) (hf : Follows (lastStatus c.statuses) st) (k n : Nat) {f : Frame} (hfr : f ≠ .disconnected)
    {w r : Bool} (hw : w = true → st = .connecting) :
    Core m { c with status := st, send := some k, waiting := w, recv := r, flows := n, frames := f :: c.frames, statuses := c.statuses ++ [st] } := by
  have h2 : st ≠ .idle := by rcases hst with e | e <;> simp [e]
  have hd : ¬ Down st := by rcases hst with e | e <;> simp [Down, e]
  have hc : st ≠ .closed := by rcases hst with e | e <;> simp [e]
  refine ⟨b.null, fun _ => rfl, fun _ => hst, fun _ => rfl, hw, fun h => absurd h h2, fun _ _ => b.tried, ?_, b.load, ?_, b.loadTimer, b.ids, b.small, ?_,
    b.last, b.spaced, b.interval, ?_, Chain.append b.order hf, fun h => absurd h hd⟩
  · intro t ht hk; rw [b.norec t ht] at hk; cases hk
  · intro i hi
    have := b.recn
    rw [show c.reconnectTimer = some i from hi] at this
    cases this
  · intro h
    rcases List.mem_cons.mp h with h | h
    · exact absurd h.symm hfr
    · exact absurd h b.disc
  · intro _; simp [lastStatus]

theorem onException_ctl (s : RC) (r : Nat) : ctl (onException s r) =
    { ctl s with status := if r = EXCEPTION_BAD_AUTH then .badAuth else .disconnected, send := none, waiting := false, recv := false, frames := .disconnected :: s.frames,
                 statuses := statuses s.out ++ [if r = EXCEPTION_BAD_AUTH then .badAuth else .disconnected] } := by
  rw [onException]
  generalize (if r = EXCEPTION_BAD_AUTH then Status.badAuth else .disconnected) = st
  cases hs : s.send <;> simp [ctl, setStatus, closeFlows, closeSend, hs, say, attempts, statuses]

theorem onException_core {m : Int} {s : RC} (h : Core m (ctl s)) (hs : s.send.isSome = true) (r : Nat) : Core m (ctl (onException s r)) := by
  rw [onException_ctl]
  have hu : Up s.status := h.sent hs
  have hl : lastStatus (ctl s).statuses = s.status := h.report (by show s.status ≠ _; rcases hu with e | e <;> simp [e])
  refine (h.base hu).downCore ?_ ?_
  · split <;> simp [Down]
  · rw [hl]
    rcases hu with e | e <;> rw [e] <;> split <;> trivial

/-- what is the case when the client may connect -/
theorem doConnect_core {m : Int} {s : RC} (b : Base m { ctl s with lastAttempt := some s.now, attempts := attempts s.out ++ [s.now] })
    (hl : lastStatus (statuses s.out) = .idle ∨ Down (lastStatus (statuses s.out))) (ok : Bool) : Core m (ctl (doConnect s ok)) := by
  rw [doConnect]
  dsimp only
  split
  · have e : ctl (setStatus { say { say s (.attempt s.now) with lastAttempt := some s.now } (.opened s.flows) with send := some s.flows, flows := s.flows + 1, waiting := true } .connecting .connecting) =
        { ctl s with lastAttempt := some s.now, attempts := attempts s.out ++ [s.now], status := .connecting, send := some s.flows, waiting := true, flows := s.flows + 1,
                     frames := .connecting :: s.frames, statuses := statuses s.out ++ [.connecting] } := by
      simp [ctl, setStatus, say, attempts, statuses]
    have := b.upCore (st := .connecting) (Or.inl rfl) (by rcases hl with e | e | e <;> simp [ctl, e, Follows]) s.flows (s.flows + 1) (f := .connecting) (by simp) (w := true) (r := s.recv) (fun _ => rfl)
    exact e ▸ this
  · rw [onException_ctl]
    have e : ctl { say s (.attempt s.now) with lastAttempt := some s.now, send := none } = { ctl s with lastAttempt := some s.now, attempts := attempts s.out ++ [s.now], send := none } := by
      simp [ctl, say, attempts, statuses]
    have := b.downCore (st := .disconnected) (Or.inl rfl) (by rcases hl with e | e | e <;> simp [ctl, e, Follows])
    have k : EXCEPTION_BAD_AUTH ≠ 0 := by decide
    rw [e]
    simpa [say, statuses, k.symm, ctl] using this

theorem close_ctl {m : Int} {s : RC} (h : Core m (ctl s)) : ctl (close s) =
    { ctl s with status := .closed, timers := [], reconnectTimer := none, loadTimer := none, send := none, waiting := false, recv := false } := by
  have ht : ((s.timers.filter fun x => !(decide (some x.id = s.reconnectTimer))).filter fun x => !(decide (some x.id = s.loadTimer))) = [] := by
    rw [List.filter_filter, List.filter_eq_nil_iff]
    intro x hx
    cases hk : x.kind with
    | reconnect => have := (h.rec_ x hx hk).2.2.1; simp only [ctl] at this; simp [this]
    | load => have := h.load x hx hk; simp only [ctl] at this; simp [this]
  cases hs : s.send <;> simp [ctl, close, closeFlows, closeSend, cancel, hs, say, attempts, statuses, ht]

theorem close_core {m : Int} {s : RC} (h : Core m (ctl s)) : Core m (ctl (close s)) := by
  rw [close_ctl h]
  refine ⟨h.null, fun h => by simp at h, fun h => by simp at h, fun h => by simp at h, fun h => by simp at h, fun h => by simp at h, fun _ h => by simp at h, fun t ht => by simp at ht,
    fun t ht => by simp at ht, fun i hi => by simp at hi, fun i hi => by simp at hi, List.Pairwise.nil, fun t ht => by simp at ht, ?_, h.last, h.spaced, h.interval, fun h => by simp at h, h.order, fun h => by simp [Down] at h⟩
  intro hd
  exact ⟨Or.inr rfl, (h.disc hd).2.1, fun t ht => by simp at ht⟩


theorem quiet_core {m : Int} {s t : RC} (h : Core m (ctl s)) (e : ctl t = ctl s) : Core m (ctl t) := e ▸ h

/-- the client waits to connect again -/
theorem afterException_core {m : Int} {s : RC} {fs : List Frame} (h : Core m (ctl s)) (hf : s.frames = .disconnected :: fs) : Core m (ctl (afterException { s with frames := fs })) := by
  obtain ⟨hst, hc, hn⟩ := h.disc (by show _ ∈ s.frames; rw [hf]; exact List.mem_cons_self)
  have hc' : .disconnected ∉ fs := by
    have : s.frames.count .disconnected = 1 := hc
    rw [hf, List.count_cons_self] at this
    exact List.count_eq_zero.mp (by omega)
  have hrn : s.reconnectTimer = none := by
    cases hr : s.reconnectTimer with
    | none => rfl
    | some i =>
      obtain ⟨t, ht, _, hk⟩ := h.recTimer i hr
      rw [hn t ht] at hk; cases hk
  rw [afterException]
  split
  · rename_i hcl
    have hcl : s.status = .closed := hcl
    have e : ctl { s with frames := fs } = { ctl s with frames := fs } := rfl
    rw [e]
    refine ⟨h.null, h.conn, h.sent, h.recv, h.wait, fun hi => ?_, h.tried, fun t ht hk => ?_, h.load, h.recTimer, h.loadTimer, h.ids, h.small, fun hd => absurd hd hc', h.last, h.spaced, h.interval, h.report, h.order, fun hd => ?_⟩
    · rw [show (ctl s).status = .closed from hcl] at hi; cases hi
    · rw [hn t ht] at hk; cases hk
    · rw [show (ctl s).status = .closed from hcl] at hd; simp [Down] at hd
  · rename_i hcl
    have hcl : s.status ≠ .closed := hcl
    have hd : Down s.status := by
      rcases hst with k | k
      · exact k
      · exact absurd k hcl
    have hi : s.status ≠ .idle := by rcases hd with e | e <;> simp [e]
    have hu : ¬ Up s.status := by rcases hd with e | e <;> simp [Up, e]
    obtain ⟨l, hl⟩ := Option.isSome_iff_exists.mp (h.tried hi hcl)
    have hl : s.lastAttempt = some l := hl
    have e : ctl { schedule { s with frames := fs } .reconnect ((s.lastAttempt.getD s.now) + max s.minInterval intervalLimit) with reconnectTimer := some s.nextTimer } =
        { ctl s with frames := fs, timers := s.timers ++ [⟨s.nextTimer, .reconnect, l + max s.minInterval intervalLimit⟩], nextTimer := s.nextTimer + 1, reconnectTimer := some s.nextTimer } := by
      simp [ctl, schedule, hl]
    refine e ▸ ?_
    have hm := h.interval
    refine ⟨h.null, h.conn, h.sent, h.recv, h.wait, fun h => absurd h hi, h.tried, fun t ht hk => ?_, fun t ht hk => ?_, fun i hx => ?_, fun i hx => ?_, ?_, fun t ht => ?_, fun hd => absurd hd hc', h.last, h.spaced, h.interval, h.report, h.order, fun _ _ => rfl⟩
    · rcases List.mem_append.mp ht with ht | ht
      · rw [hn t ht] at hk; cases hk
      · simp at ht; subst ht
        refine ⟨hd, hc', rfl, l, hl, ?_⟩
        simp only [ctl] at hm
        show l + max m intervalLimit ≤ l + max s.minInterval intervalLimit
        omega
    · rcases List.mem_append.mp ht with ht | ht
      · exact h.load t ht hk
      · simp at ht; subst ht; cases hk
    · simp at hx
      exact ⟨_, List.mem_append_right _ (List.mem_singleton.mpr rfl), hx, rfl⟩
    · obtain ⟨x, hx, k⟩ := h.loadTimer i hx
      exact ⟨x, List.mem_append_left _ hx, k⟩
    · show (s.timers ++ _).Pairwise _
      rw [List.pairwise_append]
      refine ⟨h.ids, List.pairwise_singleton _ _, fun a ha b hb => ?_⟩
      simp at hb; subst hb
      have := h.small a ha
      simp only [ctl] at this
      dsimp only; omega
    · rcases List.mem_append.mp ht with ht | ht
      · have := h.small t ht; simp only [ctl] at this; dsimp only; omega
      · simp at ht; subst ht; dsimp only; omega

/-- frames of the other kinds -/
theorem popped_core {m : Int} {s : RC} {f : Frame} {fs : List Frame} (h : Core m (ctl s)) (hf : s.frames = f :: fs) (hd : f ≠ .disconnected) : Core m (ctl { s with frames := fs }) := by
  have e : ctl { s with frames := fs } = { ctl s with frames := fs } := rfl
  rw [e]
  have hm : .disconnected ∈ fs ↔ .disconnected ∈ s.frames := by
    rw [hf, List.mem_cons]
    exact ⟨Or.inr, fun k => k.elim (fun k => absurd k.symm hd) id⟩
  have hcnt : s.frames.count .disconnected = fs.count .disconnected := by
    rw [hf, List.count_cons]
    simp [hd]
  refine ⟨h.null, h.conn, h.sent, h.recv, h.wait, fun hi => ?_, h.tried, fun t ht hk => ?_, h.load, h.recTimer, h.loadTimer, h.ids, h.small, fun hd => ?_, h.last, h.spaced, h.interval, h.report, h.order, fun hd hn => ?_⟩
  · obtain ⟨_, _, k, _⟩ := h.idle hi
    have k : s.frames = [] := k
    rw [hf] at k; cases k
  · obtain ⟨a, b, c⟩ := h.rec_ t ht hk
    exact ⟨a, fun k => b (hm.mp k), c⟩
  · obtain ⟨a, b, c⟩ := h.disc (hm.mp hd)
    exact ⟨a, by rw [← b]; exact hcnt.symm, c⟩
  · exact h.down hd fun k => hn (hm.mpr k)

/-- a timer is taken away to fire -/
theorem fired_core {m : Int} {s : RC} (h : Core m (ctl s)) {t : Tm} (ht : t ∈ s.timers) (hfr : s.frames = []) (hle : t.at_ ≤ s.now) (ok : Bool) :
    Core m (ctl (fired { s with timers := s.timers.filter fun x => !(decide (x.id = t.id)) } ok t.kind)) := by
  have hin : ∀ x, x ∈ (s.timers.filter fun x => !(decide (x.id = t.id))) ↔ x ∈ s.timers ∧ x.id ≠ t.id := by intro x; simp
  have hids : (s.timers.filter fun x => !(decide (x.id = t.id))).Pairwise (fun a b => a.id ≠ b.id) := List.Pairwise.filter _ h.ids
  cases hk : t.kind with
  | reconnect =>
    rw [fired]
    obtain ⟨hd, _, hr, l, hl, hat⟩ := h.rec_ t ht hk
    have hl : s.lastAttempt = some l := hl
    have hd : Down s.status := hd
    have hr : s.reconnectTimer = some t.id := hr
    have hst : lastStatus (statuses s.out) = s.status := h.report (by show s.status ≠ _; rcases hd with e | e <;> simp [e])
    have hnl : ∀ x ∈ s.timers, x.id ≠ t.id → x.kind = .load := by
      intro x hx hne
      cases hk2 : x.kind with
      | load => rfl
      | reconnect =>
        have := (h.rec_ x hx hk2).2.2.1
        rw [show (ctl s).reconnectTimer = some t.id from hr] at this
        simp at this
        exact absurd this.symm hne
    refine doConnect_core ?_ (Or.inr (by show Down (lastStatus (statuses s.out)); rw [hst]; exact hd)) ok
    refine ⟨h.null, fun x hx => ?_, rfl, fun x hx hk2 => ?_, fun i hi => ?_, hids, fun x hx => ?_, ?_, rfl, fun x hx => ?_, ?_, h.interval, h.order⟩
    · obtain ⟨a, b⟩ := (hin x).mp hx
      exact hnl x a b
    · exact h.load x ((hin x).mp hx).1 hk2
    · obtain ⟨x, hx, e1, e2⟩ := h.loadTimer i hi
      refine ⟨x, (hin x).mpr ⟨hx, fun e => ?_⟩, e1, e2⟩
      rw [inj_ids h.ids hx ht e, hk] at e2; cases e2
    · exact h.small x ((hin x).mp hx).1
    · show _ ∉ s.frames
      rw [hfr]; exact List.not_mem_nil
    · refine ⟨s.now, rfl, ?_⟩
      rcases List.mem_append.mp hx with hx | hx
      · obtain ⟨l', e, hle'⟩ := h.last x hx
        have e : s.lastAttempt = some l' := e
        rw [hl] at e; cases e
        have : (0 : Int) ≤ max m intervalLimit := Int.le_trans (by decide) (Int.le_max_right _ _)
        omega
      · simp at hx; omega
    · show (attempts s.out ++ [s.now]).Pairwise _
      rw [List.pairwise_append]
      refine ⟨h.spaced, List.pairwise_singleton _ _, fun a ha b hb => ?_⟩
      simp at hb; subst hb
      obtain ⟨l', e, hle'⟩ := h.last a ha
      have e : s.lastAttempt = some l' := e
      rw [hl] at e; cases e
      omega
  | load =>
    rw [fired]
    have hlt := h.load t ht hk
    have hlt : s.loadTimer = some t.id := hlt
    have hnl : ∀ x ∈ s.timers, x.id ≠ t.id → x.kind = .reconnect := by
      intro x hx hne
      cases hk2 : x.kind with
      | reconnect => rfl
      | load =>
        have := h.load x hx hk2
        rw [show (ctl s).loadTimer = some t.id from hlt] at this
        simp at this
        exact absurd this.symm hne
    have hne : ∀ x ∈ s.timers, x.kind = .reconnect → x.id ≠ t.id := by
      intro x hx hk2 e
      rw [inj_ids h.ids hx ht e, hk] at hk2; cases hk2
    have key : Core m (ctl { s with timers := s.timers.filter fun x => !(decide (x.id = t.id)), loadTimer := none }) := by
      have e : ctl { s with timers := s.timers.filter fun x => !(decide (x.id = t.id)), loadTimer := none } = { ctl s with timers := s.timers.filter fun x => !(decide (x.id = t.id)), loadTimer := none } := rfl
      rw [e]
      refine ⟨h.null, h.conn, h.sent, h.recv, h.wait, fun hi => ?_, h.tried, fun x hx hk2 => ?_, fun x hx hk2 => ?_, fun i hi => ?_, fun i hi => by simp at hi, hids, fun x hx => ?_, fun hd => ?_, h.last, h.spaced, h.interval, h.report, h.order, h.down⟩
      · obtain ⟨a, b, c, d⟩ := h.idle hi
        refine ⟨a, b, c, ?_⟩
        rw [List.all_eq_true] at d ⊢
        intro x hx
        exact d x ((hin x).mp hx).1
      · exact h.rec_ x ((hin x).mp hx).1 hk2
      · obtain ⟨a, b⟩ := (hin x).mp hx
        rw [hnl x a b] at hk2; cases hk2
      · obtain ⟨x, hx, e1, e2⟩ := h.recTimer i hi
        exact ⟨x, (hin x).mpr ⟨hx, hne x hx e2⟩, e1, e2⟩
      · exact h.small x ((hin x).mp hx).1
      · obtain ⟨a, b, c⟩ := h.disc hd
        exact ⟨a, b, fun x hx => c x ((hin x).mp hx).1⟩
    dsimp only
    split
    · exact scheduleLoad_core key
    · exact key

/-- the least interval ever set -/
def LowOp (m : Int) : Op → Prop
  | .setMinInterval t => m ≤ t
  | _ => True

theorem step_core {m : Int} {hmac : Bytes → Bytes → Bytes} {valid : Bytes → Bool} {s : RC} {op : Op} (h : Core m (ctl s)) (ha : allowed s op = true) (hop : LowOp m op) : Core m (ctl (step hmac valid s op)) := by
  cases op with
  | connect ok =>
    rw [step]
    split
    · rename_i hi
      obtain ⟨a, b, c, d⟩ := h.idle hi
      have hl : lastStatus (statuses s.out) = s.status := h.report (by show s.status ≠ _; rw [hi]; simp)
      rw [List.all_eq_true] at d
      have hnr : s.reconnectTimer = none := by
        cases hr : s.reconnectTimer with
        | none => rfl
        | some i =>
          obtain ⟨t, ht, _, hk⟩ := h.recTimer i hr
          have := of_decide_eq_true (d t ht)
          rw [this] at hk; cases hk
      refine doConnect_core ?_ (Or.inl (hl.trans hi)) ok
      have b : attempts s.out = [] := b
      refine ⟨h.null, fun t ht => of_decide_eq_true (d t ht), hnr, h.load, h.loadTimer, h.ids, h.small, ?_, rfl, ?_, ?_, h.interval, h.order⟩
      · show _ ∉ s.frames
        rw [show s.frames = [] from c]; exact List.not_mem_nil
      · intro t ht
        rw [b] at ht; simp at ht
        exact ⟨s.now, rfl, by omega⟩
      · show (attempts s.out ++ [s.now]).Pairwise _
        rw [b]; exact List.pairwise_singleton _ _
    · exact h
  | close => exact close_core h
  | setMinInterval t =>
    exact ⟨h.null, h.conn, h.sent, h.recv, h.wait, h.idle, h.tried, h.rec_, h.load, h.recTimer, h.loadTimer, h.ids, h.small, h.disc, h.last, h.spaced, hop, h.report, h.order, h.down⟩
  | setActive b =>
    rw [step, setActive]
    split
    · have e1 := sendSettings_ctl { s with active := b } h.conn
      have e2 := sendDraining_ctl (sendSettings { s with active := b }) (Has.of (s := { s with active := b }) h.conn e1)
      exact quiet_core h (e2.trans e1)
    · exact h
  | setPaused b =>
    rw [step, setPaused]
    split
    · exact h
    · exact quiet_core h (sendSettings_ctl { s with paused := false } h.conn)
  | setLoadFactor n =>
    rw [step, setLoadFactor]
    split
    · exact scheduleLoad_core (s := { s with loadFactor := n, loadChanged := true }) h
    · exact h
  | setLoadInterval t => exact setLoadInterval_core h t
  | setAdvertise b =>
    rw [step]
    split
    · exact quiet_core h (sendSettings_ctl { s with advertise := b } h.conn)
    · exact h
  | addAddress a => exact quiet_core h (sendSettings_ctl { s with addrs := insert s.addrs a } h.conn)
  | removeAddress a => exact quiet_core h (sendSettings_ctl { s with addrs := s.addrs.filter fun x => decide (x ≠ a) } h.conn)
  | clearAddresses => exact quiet_core h (sendSettings_ctl { s with addrs := [] } h.conn)
  | addAuth k p => exact h
  | setKeepalive t =>
    rw [step]
    split
    · rename_i hc
      exact quiet_core h (tell_ctl { s with keepalivePeriod := t } (.keepalive · t) (h.conn ((isConnected_iff _).mp hc)) (fun _ => rfl))
    · exact h
  | setLimit t =>
    rw [step]
    split
    · rename_i hc
      exact quiet_core h (tell_ctl { s with retransmitLimit := t } (.limit · t) (h.conn ((isConnected_iff _).mp hc)) (fun _ => rfl))
    · exact h
  | sendUserData d =>
    rw [step]
    split
    · rename_i hc
      exact quiet_core h (write_ctl _ _ (h.conn ((isConnected_iff _).mp hc)))
    · exact h
  | ret nonce =>
    rw [step]
    split
    · exact h
    · rename_i f fs hf
      cases f with
      | connecting => exact popped_core h hf (by simp)
      | connected =>
        have := popped_core h hf (by simp)
        exact quiet_core this (afterConnected_ctl hmac nonce _ this.conn)
      | disconnected => exact afterException_core h hf
  | tick d => exact h
  | fire id ok =>
    rw [step]
    split
    · exact h
    · rename_i t ht
      have hm := List.mem_of_find?_eq_some ht
      have hid : t.id = id := by have := List.find?_some ht; exact of_decide_eq_true this
      subst hid
      simp only [allowed, Bool.and_eq_true, List.isEmpty_iff, List.any_eq_true, decide_eq_true_eq] at ha
      obtain ⟨hfr, t', ht', e, hle⟩ := ha
      rw [inj_ids h.ids ht' hm e] at hle
      exact fired_core h hm hfr hle ok
  | writable =>
    simp only [allowed, Bool.and_eq_true, List.isEmpty_iff] at ha
    obtain ⟨⟨hfr, hs⟩, hw⟩ := ha
    have hc : s.status = .connecting := h.wait hw
    obtain ⟨k, hk⟩ := Option.isSome_iff_exists.mp hs
    have hl : lastStatus (statuses s.out) = s.status := h.report (by show s.status ≠ _; rw [hc]; simp)
    have e : ctl (step hmac valid s .writable) = { ctl s with status := .connected, send := some k, waiting := false, recv := s.recv, flows := s.flows, frames := .connected :: s.frames, statuses := statuses s.out ++ [.connected] } := by
      simp [step, setStatus, ctl, say, hk, attempts, statuses]
    rw [e]
    exact (h.base (Or.inl hc)).upCore (Or.inr rfl) (by show Follows (lastStatus (statuses s.out)) _; rw [hl, hc]; trivial) k s.flows (by simp) (by simp)
  | exception r => exact onException_core h ha r
  | recvFlow d =>
    rw [step]
    split
    · exact h
    · simp only [allowed, Bool.and_eq_true] at ha
      exact ⟨h.null, h.conn, h.sent, fun _ => ha.2, h.wait, h.idle, h.tried, h.rec_, h.load, h.recTimer, h.loadTimer, h.ids, h.small, h.disc, h.last, h.spaced, h.interval, h.report, h.order, h.down⟩
  | message d =>
    rw [step]
    refine quiet_core h ?_
    cases d with
    | nil => rfl
    | cons c rest =>
      rw [onMessage]
      split
      · dsimp only
        split
        · exact say_ctl { s with reflexiveValid := valid rest } _ rfl
        · rfl
      · split
        · exact say_ctl _ _ rfl
        · rfl

theorem run_core {m : Int} {hmac : Bytes → Bytes → Bytes} {valid : Bytes → Bool} {now : Int} {ops : List Op} {s : RC} (h : Run hmac valid now ops s) (hm : m ≤ 30000000) (hops : ∀ op ∈ ops, LowOp m op) : Core m (ctl s) := by
  induction h with
  | nil => exact core_init now m hm
  | snoc _ ha ih => exact step_core (ih fun op ho => hops op (List.mem_append_left _ ho)) ha (hops _ (List.mem_append_right _ (List.mem_singleton.mpr rfl)))


theorem low_exists (ops : List Op) : ∃ m : Int, m ≤ 30000000 ∧ ∀ op ∈ ops, LowOp m op := by
  induction ops with
  | nil => exact ⟨0, by decide, fun _ h => by simp at h⟩
  | cons op ops ih =>
    obtain ⟨m, hm, h⟩ := ih
    have mono : ∀ {a b : Int} {o : Op}, a ≤ b → LowOp b o → LowOp a o := by
      intro a b o hab ho
      cases o <;> simp only [LowOp] at * ; omega
    cases hop : op with
    | setMinInterval t =>
      refine ⟨min m t, by omega, fun o ho => ?_⟩
      rcases List.mem_cons.mp ho with rfl | ho
      · simp only [LowOp]; omega
      · exact mono (by omega) (h o ho)
    | _ =>
      refine ⟨m, hm, fun o ho => ?_⟩
      rcases List.mem_cons.mp ho with rfl | ho
      · trivial
      · exact h o ho

theorem run_some {hmac : Bytes → Bytes → Bytes} {valid : Bytes → Bool} {now : Int} {ops : List Op} {s : RC} (h : Run hmac valid now ops s) : ∃ m, Core m (ctl s) := by
  obtain ⟨m, hm, hl⟩ := low_exists ops
  exact ⟨m, run_core h hm hl⟩

/-! ## what the redirector reads -/

theorem lastOf_append {α : Type} (read : Bytes → Option α) (ms : List Bytes) (m : Bytes) : lastOf read (ms ++ [m]) = (read m).or (lastOf read ms) := by
  rw [lastOf, List.filterMap_append]
  cases h : read m <;> simp [h, lastOf, List.filterMap]

theorem readLoad_load (n : Nat) (h : n < W64) : readLoad (VLU.append n [CMD_LOAD_FACTOR]) = some n := by
  show (VLU.parse (VLU.encode n)).map (·.1) = some n
  have := C01_vlu_round_trip n h [] true
  rw [List.append_nil] at this
  rw [this]; rfl

theorem readReg_load (n : Nat) : readReg (VLU.append n [CMD_LOAD_FACTOR]) = none := rfl
theorem readReg_draining : readReg [CMD_DRAINING] = some .draining := rfl
theorem readLoad_draining : readLoad [CMD_DRAINING] = none := rfl
theorem readReg_user (d : Bytes) : readReg (CMD_USER_DATA :: d) = none := rfl
theorem readLoad_user (d : Bytes) : readLoad (CMD_USER_DATA :: d) = none := rfl
theorem readReg_auth (hmac : Bytes → Bytes → Bytes) (n : Bytes) (a : Bytes × Bytes) : readReg (authMsg hmac n a) = none := rfl
theorem readLoad_auth (hmac : Bytes → Bytes → Bytes) (n : Bytes) (a : Bytes × Bytes) : readLoad (authMsg hmac n a) = none := rfl

/-- the options of a registration -/
def opts (s : RC) : List Spec.Opt := (if s.advertise then [.typed SETTINGS_OPT_INCLUDE_REFLEXIVE []] else []) ++ s.addrs.map (.typed SETTINGS_OPT_ADD_ADDRESS)

theorem fold_dst (os : List Spec.Opt) : ∀ d : Bytes, os.foldl appendOpt d = d ++ os.foldl appendOpt [] := by
  induction os with
  | nil => simp
  | cons o os ih =>
    intro d
    simp only [List.foldl_cons]
    rw [ih, ih (appendOpt [] o), appendOpt_dst, List.append_assoc]

theorem settingsMsg_eq (s : RC) : settingsMsg s = CMD_SETTINGS :: (opts s).foldl appendOpt [] := by
  have h : ∀ (l : List Bytes) (d : Bytes), l.foldl (fun m a => Opt.append SETTINGS_OPT_ADD_ADDRESS a m) d = (l.map (Spec.Opt.typed SETTINGS_OPT_ADD_ADDRESS)).foldl appendOpt d := by
    intro l
    induction l with
    | nil => intro d; rfl
    | cons a l ih => intro d; simp only [List.foldl_cons, List.map_cons]; rw [ih]; rfl
  rw [settingsMsg, h, opts, List.foldl_append]
  cases s.advertise
  · rw [fold_dst]; rfl
  · rw [fold_dst]
    rw [fold_dst (s.addrs.map _) (List.foldl appendOpt [] _)]
    rfl

theorem settingsMsg_reg (s : RC) (h : ∀ a ∈ s.addrs, a.length + 10 < W64) : readReg (settingsMsg s) = some (.settings s.advertise s.addrs) := by
  rw [settingsMsg_eq]
  show (Opt.parseAll _ ((opts s).foldl appendOpt [])).map readOpts = _
  rw [C03_option_list_round_trip (opts s) ?_ _ (Nat.le_refl _)]
  · simp only [Option.map_some, readOpts, opts]
    congr 2
    · cases s.advertise
      · simp [reportOpt, SETTINGS_OPT_ADD_ADDRESS]
      · simp [reportOpt, SETTINGS_OPT_INCLUDE_REFLEXIVE]
    · have : ∀ l : List Bytes, ((l.map (Spec.Opt.typed SETTINGS_OPT_ADD_ADDRESS)).map reportOpt).filterMap (fun o => if o.type = 0x0a then o.value else none) = l := by
        intro l
        induction l with
        | nil => rfl
        | cons a l ih => simp only [List.map_cons]; rw [List.filterMap_cons_some (b := a) (by rfl), ih]
      cases s.advertise
      · exact this s.addrs
      · simp only [if_true, List.map_append, List.filterMap_append, this]; rfl
  · intro o ho
    rcases List.mem_append.mp ho with ho | ho
    · split at ho
      · simp at ho; subst ho; exact ⟨by decide, by decide⟩
      · simp at ho
    · obtain ⟨a, ha, rfl⟩ := List.mem_map.mp ho
      exact ⟨by decide, h a ha⟩

theorem settingsMsg_load (s : RC) : readLoad (settingsMsg s) = none := by
  rw [settingsMsg_eq]; rfl

/-! ## what the redirector was told -/

/-- what was read last from the messages of flow `k` -/
def heard (k : Nat) (out : List Ev) : Option Nat × Option Reg := (lastOf readLoad (msgs k out), lastOf readReg (msgs k out))

/-- as `Registered`, from what the client has stored -/
def Stored (s : RC) (r : Option Reg) : Prop :=
  (s.active = false → r = some .draining) ∧ (s.active = true → s.paused = false → r = some (.settings s.advertise s.addrs))

structure Told (s : RC) : Prop where
  load64 : s.loadFactor < W64
  addrs : ∀ a ∈ s.addrs, a.length + 10 < W64
  chg : s.loadChanged = true → s.loadTimer.isSome = true ∨ s.status = .closed
  load : s.status = .connected → .connected ∉ s.frames → ∀ k, s.send = some k → s.loadChanged = false → (heard k s.out).1 = some s.loadFactor
  reg : s.status = .connected → .connected ∉ s.frames → ∀ k, s.send = some k → Stored s (heard k s.out).2

theorem heard_write {s : RC} {k : Nat} (h : s.send = some k) (m : Bytes) : heard k (write s m).out = ((readLoad m).or (heard k s.out).1, (readReg m).or (heard k s.out).2) := by
  have e : msgs k (write s m).out = msgs k s.out ++ [m] := by simp [write, h, say, msgs]
  rw [heard, e, lastOf_append, lastOf_append]; rfl

theorem heard_say (s : RC) (e : Ev) (h : ∀ k m, e ≠ .wrote k m) (k : Nat) : heard k (say s e).out = heard k s.out := by
  have e : msgs k (say s e).out = msgs k s.out := by
    rw [say, msgs_append]
    cases e <;> first | (simp [msgs]; done) | exact absurd rfl (h _ _)
  rw [heard, heard, e]

/-- the parts that sending leaves alone -/
def keep (s : RC) := (s.loadFactor, s.addrs, s.active, s.paused, s.advertise, s.keepalivePeriod, s.retransmitLimit, s.auth, s.loadInterval, s.now)


/-- a function that only writes messages: what it leaves alone -/
structure Sends (s t : RC) : Prop where
  ctl : ctl t = ctl s
  keep : keep t = keep s

theorem Sends.refl (s : RC) : Sends s s := ⟨rfl, rfl⟩
theorem Sends.trans {s t u : RC} (a : Sends s t) (b : Sends t u) : Sends s u := ⟨b.ctl.trans a.ctl, b.keep.trans a.keep⟩
theorem Sends.send {s t : RC} (a : Sends s t) : t.send = s.send := congrArg Ctl.send a.ctl
theorem Sends.status {s t : RC} (a : Sends s t) : t.status = s.status := congrArg Ctl.status a.ctl
theorem Sends.frames {s t : RC} (a : Sends s t) : t.frames = s.frames := congrArg Ctl.frames a.ctl
theorem Sends.isConnected {s t : RC} (a : Sends s t) : isConnected t = isConnected s := by rw [Redir.isConnected, Redir.isConnected, a.status]
theorem Sends.loadTimer {s t : RC} (a : Sends s t) : t.loadTimer = s.loadTimer := congrArg Ctl.loadTimer a.ctl
theorem Sends.loadFactor {s t : RC} (a : Sends s t) : t.loadFactor = s.loadFactor := by have := a.keep; simp only [Redir.keep, Prod.mk.injEq] at this; exact this.1
theorem Sends.addrs {s t : RC} (a : Sends s t) : t.addrs = s.addrs := by have := a.keep; simp only [Redir.keep, Prod.mk.injEq] at this; exact this.2.1
theorem Sends.active {s t : RC} (a : Sends s t) : t.active = s.active := by have := a.keep; simp only [Redir.keep, Prod.mk.injEq] at this; exact this.2.2.1
theorem Sends.paused {s t : RC} (a : Sends s t) : t.paused = s.paused := by have := a.keep; simp only [Redir.keep, Prod.mk.injEq] at this; exact this.2.2.2.1
theorem Sends.advertise {s t : RC} (a : Sends s t) : t.advertise = s.advertise := by have := a.keep; simp only [Redir.keep, Prod.mk.injEq] at this; exact this.2.2.2.2.1
theorem Sends.auth {s t : RC} (a : Sends s t) : t.auth = s.auth := by have := a.keep; simp only [Redir.keep, Prod.mk.injEq] at this; exact this.2.2.2.2.2.2.2.1
theorem Sends.has {s t : RC} (a : Sends s t) (h : Has s) : Has t := h.of a.ctl

theorem write_keep (s : RC) (m : Bytes) : keep (write s m) = keep s := by rw [write]; split <;> rfl
theorem write_changed (s : RC) (m : Bytes) : (write s m).loadChanged = s.loadChanged := by rw [write]; split <;> rfl
theorem tell_keep (s : RC) (e : Nat → Ev) : keep (tell s e) = keep s := by rw [tell]; split <;> rfl
theorem tell_changed (s : RC) (e : Nat → Ev) : (tell s e).loadChanged = s.loadChanged := by rw [tell]; split <;> rfl

theorem sendSettings_sends (s : RC) (h : Has s) : Sends s (sendSettings s) := by
  refine ⟨sendSettings_ctl s h, ?_⟩
  rw [sendSettings]; split
  · exact write_keep _ _
  · rfl

theorem sendDraining_sends (s : RC) (h : Has s) : Sends s (sendDraining s) := by
  refine ⟨sendDraining_ctl s h, ?_⟩
  rw [sendDraining]; split
  · exact write_keep _ _
  · rfl

theorem sendLoad_sends (s : RC) (h : Has s) : Sends s (sendLoad s) := by
  refine ⟨sendLoad_ctl s h, ?_⟩
  rw [sendLoad]
  show keep (if isConnected s then _ else s) = _
  split
  · exact write_keep _ _
  · rfl

theorem sendSettings_changed (s : RC) : (sendSettings s).loadChanged = s.loadChanged := by
  rw [sendSettings]; split
  · exact write_changed _ _
  · rfl
theorem sendDraining_changed (s : RC) : (sendDraining s).loadChanged = s.loadChanged := by
  rw [sendDraining]; split
  · exact write_changed _ _
  · rfl
theorem sendLoad_changed (s : RC) : (sendLoad s).loadChanged = false := rfl

theorem sendSettings_heard {s : RC} {k : Nat} (hk : s.send = some k) (ha : ∀ a ∈ s.addrs, a.length + 10 < W64) : heard k (sendSettings s).out =
    ((heard k s.out).1, if isConnected s && s.active && !s.paused then some (.settings s.advertise s.addrs) else (heard k s.out).2) := by
  rw [sendSettings]
  split
  · rw [heard_write hk, settingsMsg_load, settingsMsg_reg s ha]; rfl
  · rfl

theorem sendDraining_heard {s : RC} {k : Nat} (hk : s.send = some k) : heard k (sendDraining s).out =
    ((heard k s.out).1, if isConnected s && !s.active then some .draining else (heard k s.out).2) := by
  rw [sendDraining]
  split
  · rw [heard_write hk, readLoad_draining, readReg_draining]; rfl
  · rfl

theorem sendLoad_heard {s : RC} {k : Nat} (hk : s.send = some k) (hl : s.loadFactor < W64) : heard k (sendLoad s).out =
    (if isConnected s then some s.loadFactor else (heard k s.out).1, (heard k s.out).2) := by
  rw [sendLoad]
  show heard k (if isConnected s then _ else s).out = _
  split
  · rw [heard_write hk, readLoad_load _ hl, readReg_load]; rfl
  · rfl

/-- a change of what is registered -/
theorem Told.change {s s' : RC} (h : Told s) (hh : Has s) (hc : ctl s' = ctl s) (ho : s'.out = s.out) (hl : s'.loadFactor = s.loadFactor) (hg : s'.loadChanged = s.loadChanged)
    (ha : ∀ a ∈ s'.addrs, a.length + 10 < W64) (hac : s'.active = s.active) : Told (sendSettings s') := by
  have hh' : Has s' := hh.of hc
  have S := sendSettings_sends s' hh'
  have e1 : s'.status = s.status := congrArg Ctl.status hc
  have e2 : s'.frames = s.frames := congrArg Ctl.frames hc
  have e3 : s'.send = s.send := congrArg Ctl.send hc
  have e4 : s'.loadTimer = s.loadTimer := congrArg Ctl.loadTimer hc
  refine ⟨by rw [S.loadFactor, hl]; exact h.load64, by rw [S.addrs]; exact ha, ?_, ?_, ?_⟩
  · rw [sendSettings_changed, hg, S.loadTimer, S.status, e4, e1]; exact h.chg
  · rw [S.status, S.frames, S.send, sendSettings_changed, hg, S.loadFactor, e1, e2, e3, hl]
    intro a b k hk c
    rw [sendSettings_heard (e3.trans hk) ha, ho]
    exact h.load a b k hk c
  · rw [S.status, S.frames, S.send, e1, e2, e3]
    intro a b k hk
    rw [sendSettings_heard (e3.trans hk) ha, ho]
    have hreg := h.reg a b k hk
    constructor
    · intro c
      rw [S.active, hac] at c
      simp only [hac, c]
      simpa using hreg.1 c
    · intro c d
      rw [S.active] at c
      rw [S.paused] at d
      rw [S.advertise, S.addrs]
      simp [isConnected, e1, a, c, d]

theorem Told.active {s : RC} (h : Told s) (hh : Has s) (b : Bool) : Told (setActive s b) := by
  rw [setActive]
  split
  · have hh' : Has { s with active := b } := hh
    have S1 := sendSettings_sends _ hh'
    have S2 := sendDraining_sends _ (S1.has hh')
    have S := S1.trans S2
    have H : ∀ k, s.send = some k → heard k (sendDraining (sendSettings { s with active := b })).out =
        ((heard k s.out).1, if isConnected s && !b then some .draining else if isConnected s && b && !s.paused then some (.settings s.advertise s.addrs) else (heard k s.out).2) := by
      intro k hk
      rw [sendDraining_heard (by rw [S1.send]; exact hk), sendSettings_heard (s := { s with active := b }) hk h.addrs, S1.isConnected, S1.active]
      rfl
    refine ⟨by rw [S.loadFactor]; exact h.load64, by rw [S.addrs]; exact h.addrs, ?_, ?_, ?_⟩
    · rw [sendDraining_changed, sendSettings_changed, S.loadTimer, S.status]; exact h.chg
    · rw [S.status, S.frames, S.send, sendDraining_changed, sendSettings_changed, S.loadFactor]
      intro a c k hk d
      rw [H k hk]
      exact h.load a c k hk d
    · rw [S.status, S.frames, S.send]
      intro a c k hk
      rw [H k hk]
      constructor
      · intro d
        rw [S.active] at d
        have d : b = false := d
        simp [isConnected, show s.status = .connected from a, d]
      · intro d e
        rw [S.active] at d
        rw [S.paused] at e
        have d : b = true := d
        have e : s.paused = false := e
        rw [S.advertise, S.addrs]
        simp [isConnected, show s.status = .connected from a, d, e]
  · exact h

theorem Told.scheduleLoad {s : RC} (h64 : s.loadFactor < W64) (haddr : ∀ a ∈ s.addrs, a.length + 10 < W64) (hh : Has s)
    (hl : s.loadTimer.isSome = true → s.status = .connected → .connected ∉ s.frames → ∀ k, s.send = some k → s.loadChanged = false → (heard k s.out).1 = some s.loadFactor)
    (hr : s.status = .connected → .connected ∉ s.frames → ∀ k, s.send = some k → Stored s (heard k s.out).2) : Told (scheduleLoad s) := by
  rw [Redir.scheduleLoad]
  split
  · have S := sendLoad_sends s hh
    dsimp only
    refine ⟨?_, ?_, ?_, ?_, ?_⟩
    · show (sendLoad s).loadFactor < _
      rw [S.loadFactor]; exact h64
    · show ∀ a ∈ (sendLoad s).addrs, _
      rw [S.addrs]; exact haddr
    · intro _; exact Or.inl rfl
    · show (sendLoad s).status = _ → _ ∉ (sendLoad s).frames → ∀ k, (sendLoad s).send = some k → _ → (heard k (sendLoad s).out).1 = some (sendLoad s).loadFactor
      rw [S.status, S.frames, S.send, S.loadFactor]
      intro a b k hk _
      rw [sendLoad_heard hk h64]
      simp [isConnected, a]
    · show (sendLoad s).status = _ → _ ∉ (sendLoad s).frames → ∀ k, (sendLoad s).send = some k → Stored (sendLoad s) (heard k (sendLoad s).out).2
      rw [S.status, S.frames, S.send]
      intro a b k hk
      rw [sendLoad_heard hk h64, Stored, S.active, S.paused, S.advertise, S.addrs]
      exact hr a b k hk
  · rename_i hn
    have hs : s.loadTimer.isSome = true := by
      cases h : s.loadTimer with
      | none => exact absurd h hn
      | some _ => rfl
    exact ⟨h64, haddr, fun _ => Or.inl hs, hl hs, hr⟩

/-- only other things are told -/
theorem Told.same {s t : RC} (h : Told s) (hk : keep t = keep s) (hst : t.status = s.status) (hfr : t.frames = s.frames) (hse : t.send = s.send) (hlt : t.loadTimer = s.loadTimer) (hch : t.loadChanged = s.loadChanged)
    (hh : ∀ k, heard k t.out = heard k s.out) : Told t := by
  have hk' := hk
  simp only [keep, Prod.mk.injEq] at hk'
  obtain ⟨e1, e2, e3, e4, e5, _⟩ := hk'
  refine ⟨e1 ▸ h.load64, e2 ▸ h.addrs, ?_, ?_, ?_⟩
  · rw [hch, hlt, hst]; exact h.chg
  · rw [hst, hfr, hse, hch, e1]
    intro a b k c; rw [hh]; exact h.load a b k c
  · rw [hst, hfr, hse]
    intro a b k c; rw [hh, Stored, e2, e3, e4, e5]; exact h.reg a b k c

theorem foldl_write_heard (ms : List Bytes) (hr : ∀ m ∈ ms, readLoad m = none ∧ readReg m = none) : ∀ s : RC, ∀ k, s.send = some k → heard k (ms.foldl write s).out = heard k s.out := by
  induction ms with
  | nil => intro s k _; rfl
  | cons m ms ih =>
    intro s k h
    have e : (write s m).send = some k := by rw [write, h]; exact h
    rw [List.foldl_cons, ih (fun x hx => hr x (List.mem_cons_of_mem _ hx)) _ _ e, heard_write h, (hr m List.mem_cons_self).1, (hr m List.mem_cons_self).2]
    rfl

theorem foldl_write_keep (ms : List Bytes) : ∀ s : RC, keep (ms.foldl write s) = keep s ∧ (ms.foldl write s).loadChanged = s.loadChanged := by
  induction ms with
  | nil => intro s; exact ⟨rfl, rfl⟩
  | cons m ms ih => intro s; rw [List.foldl_cons]; exact ⟨(ih _).1.trans (write_keep _ _), (ih _).2.trans (write_changed _ _)⟩

theorem Told.opened {s : RC} (hmac : Bytes → Bytes → Bytes) (nonce : Bytes) (h64 : s.loadFactor < W64) (haddr : ∀ a ∈ s.addrs, a.length + 10 < W64) (hh : Has s)
    (hchg : s.loadChanged = true → s.loadTimer.isSome = true ∨ s.status = .closed) : Told (afterConnected hmac nonce s) := by
  rw [afterConnected]
  split
  · rename_i hc
    have hst : s.status = .connected := (isConnected_iff s).mp hc
    have hs := hh hst
    have T1 : Sends s (tell s (.keepalive · s.keepalivePeriod)) := ⟨tell_ctl _ _ hs (fun _ => rfl), tell_keep _ _⟩
    have T2 : Sends (tell s (.keepalive · s.keepalivePeriod)) (tell (tell s (.keepalive · s.keepalivePeriod)) (.limit · s.retransmitLimit)) :=
      ⟨tell_ctl _ _ (by rw [T1.send]; exact hs) (fun _ => rfl), tell_keep _ _⟩
    have T := T1.trans T2
    generalize tell (tell s (.keepalive · s.keepalivePeriod)) (.limit · s.retransmitLimit) = t at T
    have A : Sends s (sendAuth hmac nonce t) := T.trans ⟨foldl_write_ctl _ _ (by rw [T.send]; exact hs), (foldl_write_keep _ _).1⟩
    generalize sendAuth hmac nonce t = u at A
    have hu := A.has hh
    have S1 := sendSettings_sends u hu
    have S2 := sendDraining_sends _ (S1.has hu)
    have S3 := sendLoad_sends _ (S2.has (S1.has hu))
    have S := A.trans (S1.trans (S2.trans S3))
    have H : ∀ k, s.send = some k → heard k (sendLoad (sendDraining (sendSettings u))).out =
        (some s.loadFactor, if !s.active then some .draining else if s.active && !s.paused then some (.settings s.advertise s.addrs) else (heard k u.out).2) := by
      intro k hk
      have k1 : u.send = some k := by rw [A.send]; exact hk
      have k2 : (sendSettings u).send = some k := by rw [S1.send]; exact k1
      have k3 : (sendDraining (sendSettings u)).send = some k := by rw [S2.send]; exact k2
      rw [sendLoad_heard k3 (by rw [S2.loadFactor, S1.loadFactor, A.loadFactor]; exact h64), sendDraining_heard k2, sendSettings_heard k1 (by rw [A.addrs]; exact haddr)]
      rw [S2.isConnected, S1.isConnected, A.isConnected, hc, S2.loadFactor, S1.loadFactor, A.loadFactor, S1.active, A.active, A.paused, A.advertise, A.addrs]
      simp
    refine ⟨by rw [S.loadFactor]; exact h64, by rw [S.addrs]; exact haddr, (fun h => absurd h (by rw [sendLoad_changed]; simp)), ?_, ?_⟩
    · rw [S.send, S.loadFactor]
      intro _ _ k hk _
      rw [H k hk]
    · rw [S.send]
      intro _ _ k hk
      rw [H k hk, Stored, S.active, S.paused, S.advertise, S.addrs]
      constructor
      · intro a; simp [a]
      · intro a b; simp [a, b]
  · rename_i hc
    have hst : s.status ≠ .connected := fun e => hc ((isConnected_iff s).mpr e)
    exact ⟨h64, haddr, hchg, fun e => absurd e hst, fun e => absurd e hst⟩

/-- without a connection nothing need be told -/
theorem Told.off {s : RC} (h64 : s.loadFactor < W64) (haddr : ∀ a ∈ s.addrs, a.length + 10 < W64) (hchg : s.loadChanged = true → s.loadTimer.isSome = true ∨ s.status = .closed) (hst : s.status ≠ .connected ∨ .connected ∈ s.frames) : Told s :=
  ⟨h64, haddr, hchg, fun a b => by rcases hst with h | h; exact absurd a h; exact absurd h b, fun a b => by rcases hst with h | h; exact absurd a h; exact absurd h b⟩

theorem onException_keep (s : RC) (r : Nat) : keep (onException s r) = keep s ∧ (onException s r).loadChanged = s.loadChanged ∧ (onException s r).loadTimer = s.loadTimer := by
  cases hs : s.send <;> simp [onException, setStatus, closeFlows, closeSend, hs, say, keep]

theorem onException_off (s : RC) (r : Nat) : (onException s r).status ≠ .connected ∧ (onException s r).status ≠ .closed := by
  show (if r = EXCEPTION_BAD_AUTH then Status.badAuth else .disconnected) ≠ .connected ∧ (if r = EXCEPTION_BAD_AUTH then Status.badAuth else .disconnected) ≠ .closed
  split <;> simp

theorem Told.down {s : RC} (h : Told s) (hc : s.status ≠ .closed) (r : Nat) : Told (onException s r) := by
  obtain ⟨k, c, l⟩ := onException_keep s r
  simp only [keep, Prod.mk.injEq] at k
  refine Told.off (k.1 ▸ h.load64) (k.2.1 ▸ h.addrs) ?_ (Or.inl (onException_off s r).1)
  rw [c, l]
  intro e
  rcases h.chg e with a | a
  · exact Or.inl a
  · exact absurd a hc

theorem Told.connect {s : RC} (h : Told s) (hc : s.status ≠ .closed) (ok : Bool) : Told (doConnect s ok) := by
  rw [doConnect]
  dsimp only
  have hchg : s.loadChanged = true → s.loadTimer.isSome = true := fun e => (h.chg e).elim id fun a => absurd a hc
  split
  · exact Told.off h.load64 h.addrs (fun e => Or.inl (hchg e)) (Or.inl (by simp [setStatus, say]))
  · obtain ⟨k, c, l⟩ := onException_keep { say s (.attempt s.now) with lastAttempt := some s.now, send := none } 0
    simp only [keep, Prod.mk.injEq] at k
    refine Told.off (k.1 ▸ h.load64) (k.2.1 ▸ h.addrs) ?_ (Or.inl (onException_off _ 0).1)
    rw [c, l]
    exact fun e => Or.inl (hchg e)

theorem insert_mem {l : List Bytes} {a b : Bytes} (h : b ∈ insert l a) : b ∈ l ∨ b = a := by
  rw [insert] at h
  split at h
  · exact Or.inl h
  · rcases List.mem_append.mp h with h | h
    · exact Or.inl h
    · exact Or.inr (by simpa using h)

theorem step_told {m : Int} {hmac : Bytes → Bytes → Bytes} {valid : Bytes → Bool} {s : RC} {op : Op} (c : Core m (ctl s)) (h : Told s) (ha : allowed s op = true) : Told (step hmac valid s op) := by
  have hh : Has s := c.conn
  cases op with
  | connect ok =>
    rw [step]
    split
    · rename_i hi
      exact h.connect (by rw [hi]; simp) ok
    · exact h
  | close =>
    have k : keep (close s) = keep { s with active := false } ∧ (close s).status = .closed := by
      cases hs : s.send <;> simp [close, closeFlows, closeSend, cancel, hs, say, keep]
    have k1 := k.1
    simp only [keep, Prod.mk.injEq] at k1
    exact Told.off (s := close s) (k1.1 ▸ h.load64) (k1.2.1 ▸ h.addrs) (fun _ => Or.inr k.2) (Or.inl (by rw [k.2]; simp))
  | setMinInterval t => exact ⟨h.load64, h.addrs, h.chg, h.load, h.reg⟩
  | setActive b => exact h.active hh b
  | setPaused b =>
    rw [step, setPaused]
    split
    · refine ⟨h.load64, h.addrs, h.chg, h.load, fun a b k hk => ⟨(h.reg a b k hk).1, fun _ e => by simp at e⟩⟩
    · exact h.change (s' := { s with paused := false }) hh rfl rfl rfl rfl h.addrs rfl
  | setLoadFactor n =>
    rw [step, setLoadFactor]
    split
    · refine Told.scheduleLoad (s := { s with loadFactor := n, loadChanged := true }) (by simpa [allowed] using ha) h.addrs hh (fun _ _ _ _ _ e => by simp at e) h.reg
    · exact h
  | setLoadInterval t => exact ⟨h.load64, h.addrs, h.chg, h.load, h.reg⟩
  | setAdvertise b =>
    rw [step]
    split
    · exact h.change (s' := { s with advertise := b }) hh rfl rfl rfl rfl h.addrs rfl
    · exact h
  | addAddress a =>
    refine h.change (s' := { s with addrs := insert s.addrs a }) hh rfl rfl rfl rfl (fun x hx => ?_) rfl
    rcases insert_mem hx with hx | hx
    · exact h.addrs x hx
    · subst hx; simpa [allowed] using ha
  | removeAddress a => exact h.change (s' := { s with addrs := s.addrs.filter fun x => decide (x ≠ a) }) hh rfl rfl rfl rfl (fun x hx => h.addrs x ((List.mem_filter.mp hx).1)) rfl
  | clearAddresses => exact h.change (s' := { s with addrs := [] }) hh rfl rfl rfl rfl (fun x hx => by simp at hx) rfl
  | addAuth k p => exact ⟨h.load64, h.addrs, h.chg, h.load, h.reg⟩
  | setKeepalive t =>
    rw [step]
    split
    · rename_i hc
      obtain ⟨k, hk⟩ := Option.isSome_iff_exists.mp (hh ((isConnected_iff _).mp hc))
      have et : tell { s with keepalivePeriod := t } (.keepalive · t) = say { s with keepalivePeriod := t } (.keepalive k t) := by simp only [tell, hk]
      rw [et]
      have e : ∀ j, heard j (say { s with keepalivePeriod := t } (.keepalive k t)).out = heard j s.out := heard_say _ _ (by simp)
      exact ⟨h.load64, h.addrs, h.chg, fun a b j c d => by rw [e]; exact h.load a b j c d, fun a b j c => by rw [e]; exact h.reg a b j c⟩
    · exact ⟨h.load64, h.addrs, h.chg, h.load, h.reg⟩
  | setLimit t =>
    rw [step]
    split
    · rename_i hc
      obtain ⟨k, hk⟩ := Option.isSome_iff_exists.mp (hh ((isConnected_iff _).mp hc))
      have et : tell { s with retransmitLimit := t } (.limit · t) = say { s with retransmitLimit := t } (.limit k t) := by simp only [tell, hk]
      rw [et]
      have e : ∀ j, heard j (say { s with retransmitLimit := t } (.limit k t)).out = heard j s.out := heard_say _ _ (by simp)
      exact ⟨h.load64, h.addrs, h.chg, fun a b j c d => by rw [e]; exact h.load a b j c d, fun a b j c => by rw [e]; exact h.reg a b j c⟩
    · exact ⟨h.load64, h.addrs, h.chg, h.load, h.reg⟩
  | sendUserData d =>
    rw [step]
    split
    · rename_i hc
      have hs := hh ((isConnected_iff _).mp hc)
      have S : Sends s (write s (CMD_USER_DATA :: d)) := ⟨write_ctl _ _ hs, write_keep _ _⟩
      refine ⟨by rw [S.loadFactor]; exact h.load64, by rw [S.addrs]; exact h.addrs, ?_, ?_, ?_⟩
      · rw [write_changed, S.loadTimer, S.status]; exact h.chg
      · rw [S.status, S.frames, S.send, write_changed, S.loadFactor]
        intro a b k hk e
        rw [heard_write hk, readLoad_user]; exact h.load a b k hk e
      · rw [S.status, S.frames, S.send]
        intro a b k hk
        rw [heard_write hk, readReg_user, Stored, S.active, S.paused, S.advertise, S.addrs]; exact h.reg a b k hk
    · exact h
  | ret nonce =>
    rw [step]
    split
    · exact h
    · rename_i f fs hf
      cases f with
      | connecting => exact ⟨h.load64, h.addrs, h.chg, fun a b => h.load a (by rw [hf]; simpa [returned] using b), fun a b => h.reg a (by rw [hf]; simpa [returned] using b)⟩
      | connected => exact Told.opened hmac nonce (s := { s with frames := fs }) h.load64 h.addrs hh h.chg
      | disconnected =>
        have hst : s.status ≠ .connected := by
          intro e
          obtain ⟨a, _⟩ := c.disc (by show _ ∈ s.frames; rw [hf]; exact List.mem_cons_self)
          have a : Down s.status ∨ s.status = .closed := a
          rw [e] at a; simp [Down] at a
        show Told (afterException { s with frames := fs })
        rw [afterException]
        split
        · exact Told.off (s := { s with frames := fs }) h.load64 h.addrs h.chg (Or.inl hst)
        · exact Told.off h.load64 h.addrs h.chg (Or.inl hst)
  | tick d => exact ⟨h.load64, h.addrs, h.chg, h.load, h.reg⟩
  | fire id ok =>
    rw [step]
    split
    · exact h
    · rename_i t ht
      have hm := List.mem_of_find?_eq_some ht
      cases hk : t.kind with
      | reconnect =>
        have hst : Down s.status := (c.rec_ t hm hk).1
        have h' : Told { s with timers := s.timers.filter (fun x => !(decide (x.id = id))), reconnectTimer := none } := ⟨h.load64, h.addrs, h.chg, h.load, h.reg⟩
        exact h'.connect (by show s.status ≠ _; rcases hst with e | e <;> simp [e]) ok
      | load =>
        rw [fired]
        dsimp only
        split
        · rename_i hc
          exact Told.scheduleLoad (s := { s with timers := s.timers.filter (fun x => !(decide (x.id = id))), loadTimer := none }) h.load64 h.addrs hh (fun e => by simp at e) h.reg
        · rename_i hc
          have hc : s.loadChanged ≠ true := hc
          exact ⟨h.load64, h.addrs, fun e => absurd e hc, h.load, h.reg⟩
  | writable =>
    refine Told.off h.load64 h.addrs ?_ (Or.inr List.mem_cons_self)
    intro e
    have hc : s.status = .connecting := by
      simp only [allowed, Bool.and_eq_true] at ha
      exact c.wait ha.2
    rcases h.chg e with a | a
    · exact Or.inl a
    · rw [hc] at a; cases a
  | exception r =>
    have hu := c.sent ha
    exact h.down (by show (ctl s).status ≠ _; rcases hu with e | e <;> simp [e]) r
  | recvFlow d =>
    rw [step]
    split
    · exact h
    · exact ⟨h.load64, h.addrs, h.chg, h.load, h.reg⟩
  | message d =>
    rw [step]
    cases d with
    | nil => exact h
    | cons c rest =>
      rw [onMessage]
      split
      · dsimp only
        split
        · exact h.same rfl rfl rfl rfl rfl rfl (heard_say { s with reflexiveValid := valid rest } _ (by simp))
        · exact ⟨h.load64, h.addrs, h.chg, h.load, h.reg⟩
      · split
        · exact h.same rfl rfl rfl rfl rfl rfl (heard_say _ _ (by simp))
        · exact h

theorem told_init (now : Int) : Told (init now) :=
  Told.off (by simp [init]) (fun a ha => by simp [init] at ha) (fun e => by simp [init] at e) (Or.inl (by simp [init]))

theorem run_told {hmac : Bytes → Bytes → Bytes} {valid : Bytes → Bool} {now : Int} {ops : List Op} {s : RC} (h : Run hmac valid now ops s) : Told s := by
  induction h with
  | nil => exact told_init now
  | snoc hr ha ih =>
    obtain ⟨m, hc⟩ := run_some hr
    exact step_told hc ih ha


/-! ## after closing -/

theorem closed_step {m : Int} {hmac : Bytes → Bytes → Bytes} {valid : Bytes → Bool} {s : RC} {op : Op} (c : Core m (ctl s)) (hs : s.status = .closed) (ha : allowed s op = true) :
    (step hmac valid s op).status = .closed ∧ (step hmac valid s op).out = s.out := by
  have hn : s.send = none := by
    cases h : s.send with
    | none => rfl
    | some k =>
      have := c.sent (by show s.send.isSome = true; rw [h]; rfl)
      have this : s.status = .connecting ∨ s.status = .connected := this
      rw [hs] at this; simp at this
  have hr : s.recv = false := by
    cases h : s.recv with
    | false => rfl
    | true => have := c.recv h; simp only [ctl, hn] at this; cases this
  cases op with
  | fire id ok =>
    rw [step]
    split
    · exact ⟨hs, rfl⟩
    · rename_i t ht
      have hm := List.mem_of_find?_eq_some ht
      cases hk : t.kind with
      | reconnect =>
        have := (c.rec_ t hm hk).1
        have this : Down s.status := this
        rw [hs] at this; simp [Down] at this
      | load =>
        rw [fired]
        dsimp only
        split
        · simp [scheduleLoad, sendLoad, isConnected, hs, schedule]
        · exact ⟨hs, rfl⟩
  | ret nonce =>
    rw [step]
    split
    · exact ⟨hs, rfl⟩
    · rename_i f fs hf
      cases f <;> simp [returned, afterConnected, afterException, isConnected, hs]
  | writable => simp [allowed, hn] at ha
  | exception r => simp [allowed, hn] at ha
  | recvFlow d => simp [allowed, hn] at ha
  | message d => simp [allowed, hr] at ha
  | setLoadFactor n =>
    rw [step, setLoadFactor]
    split
    · rw [scheduleLoad]
      split
      · simp [sendLoad, isConnected, hs, schedule]
      · exact ⟨hs, rfl⟩
    · exact ⟨hs, rfl⟩
  | setActive b =>
    rw [step, setActive]
    split
    · simp [sendSettings, sendDraining, isConnected, hs]
    · exact ⟨hs, rfl⟩
  | setPaused b =>
    rw [step, setPaused]
    split
    · exact ⟨hs, rfl⟩
    · simp [sendSettings, isConnected, hs]
  | setAdvertise b =>
    rw [step]
    split
    · simp [sendSettings, isConnected, hs]
    · exact ⟨hs, rfl⟩
  | close => simp [step, close, closeFlows, closeSend, cancel, hn]
  | _ => simp [step, sendSettings, isConnected, hs, setLoadInterval]

/-- after some state of an execution -/
theorem After.run {hmac : Bytes → Bytes → Bytes} {valid : Bytes → Bool} {now : Int} {ops more : List Op} {s t : RC} (h : Run hmac valid now ops s) (a : After hmac valid s more t) : Run hmac valid now (ops ++ more) t := by
  induction a with
  | nil => rw [List.append_nil]; exact h
  | snoc _ ha ih => rw [← List.append_assoc]; exact .snoc ih ha

/-! ## the messages of a new flow -/

/-- a flow that isn't connected has no messages, nor have later flows -/
def Fresh (s : RC) : Prop :=
  (∀ k, s.flows ≤ k → msgs k s.out = []) ∧ (s.status = .connecting → ∀ k, s.send = some k → msgs k s.out = []) ∧ ∀ k, s.send = some k → k < s.flows

theorem msgs_write {s : RC} {k : Nat} (h : s.send = some k) (m : Bytes) (j : Nat) : msgs j (write s m).out = msgs j s.out ++ (if k = j then [m] else []) := by
  simp only [write, h, say, msgs_append]
  congr 1
  simp only [msgs, List.filterMap_cons, List.filterMap_nil]
  split <;> simp_all

/-- only the connected flow is written to -/
def Wrote (s t : RC) : Prop := ∀ j, msgs j t.out ≠ msgs j s.out → s.status = .connected ∧ s.send = some j

theorem Wrote.refl (s : RC) : Wrote s s := fun _ h => absurd rfl h

theorem Wrote.say (s : RC) (e : Ev) (h : ∀ k m, e ≠ .wrote k m) : Wrote s (say s e) := by
  intro j hj
  refine absurd ?_ hj
  rw [Redir.say, msgs_append]
  cases e <;> first | (simp [msgs]; done) | exact absurd rfl (h _ _)

theorem Wrote.write {s : RC} (hc : s.status = .connected) (m : Bytes) : Wrote s (write s m) := by
  intro j hj
  refine ⟨hc, ?_⟩
  cases hs : s.send with
  | none => rw [Redir.write, hs] at hj; exact absurd rfl hj
  | some k =>
    rw [msgs_write hs] at hj
    split at hj
    · rename_i e; rw [e]
    · rw [List.append_nil] at hj; exact absurd rfl hj

theorem Wrote.trans {s t u : RC} (a : Wrote s t) (b : Wrote t u) (h1 : t.status = s.status) (h2 : t.send = s.send) : Wrote s u := by
  intro j hj
  by_cases e : msgs j t.out = msgs j s.out
  · have := b j (by rw [e]; exact hj)
    rw [h1, h2] at this; exact this
  · exact a j e


theorem Wrote.of_out {s t : RC} (h : t.out = s.out) : Wrote s t := fun j hj => absurd (by rw [h]) hj

theorem Wrote.pre {s s' t : RC} (h : Wrote s' t) (ho : s'.out = s.out) (h1 : s'.status = s.status) (h2 : s'.send = s.send) : Wrote s t :=
  (Wrote.of_out ho).trans h h1 h2

theorem Wrote.tell (s : RC) (e : Nat → Ev) (h : ∀ i k m, e i ≠ .wrote k m) : Wrote s (tell s e) := by
  rw [Redir.tell]
  split
  · exact .of_out rfl
  · exact .say _ _ (h _)

theorem sendSettings_wrote (s : RC) : Wrote s (sendSettings s) := by
  rw [sendSettings]; split
  · rename_i h; simp [isConnected] at h; exact .write h.1.1 _
  · exact .refl _

theorem sendDraining_wrote (s : RC) : Wrote s (sendDraining s) := by
  rw [sendDraining]; split
  · rename_i h; simp [isConnected] at h; exact .write h.1 _
  · exact .refl _

theorem sendLoad_wrote (s : RC) : Wrote s (sendLoad s) := by
  rw [sendLoad]
  intro j hj
  have hj : msgs j (if isConnected s then write s (VLU.append s.loadFactor [CMD_LOAD_FACTOR]) else s).out ≠ _ := hj
  split at hj
  · rename_i h; exact Wrote.write ((isConnected_iff s).mp h) _ j hj
  · exact absurd rfl hj

theorem write_status (s : RC) (m : Bytes) : (write s m).status = s.status ∧ (write s m).send = s.send := by
  rw [write]; split
  · exact ⟨rfl, rfl⟩
  · exact ⟨rfl, rfl⟩

theorem foldl_wrote (ms : List Bytes) : ∀ s : RC, s.status = .connected → Wrote s (ms.foldl write s) := by
  induction ms with
  | nil => intro s _; exact .refl _
  | cons m ms ih =>
    intro s h
    rw [List.foldl_cons]
    exact (Wrote.write h m).trans (ih _ ((write_status s m).1.trans h)) (write_status s m).1 (write_status s m).2

theorem scheduleLoad_wrote (s : RC) : Wrote s (scheduleLoad s) := by
  rw [scheduleLoad]
  split
  · exact sendLoad_wrote s
  · exact .refl _

theorem closeFlows_msgs (s : RC) (j : Nat) : msgs j (closeFlows s).out = msgs j s.out := by
  cases h : s.send <;> simp [closeFlows, closeSend, h, say, msgs]

theorem onException_wrote (s : RC) (r : Nat) : Wrote s (onException s r) := by
  intro j hj
  refine absurd ?_ hj
  rw [← closeFlows_msgs s j]
  simp [onException, setStatus, say, msgs]

theorem doConnect_wrote (s : RC) (ok : Bool) : Wrote s (doConnect s ok) := by
  intro j hj
  refine absurd ?_ hj
  rw [doConnect]
  dsimp only
  split
  · simp [setStatus, say, msgs]
  · have h2 : ∀ t : RC, msgs j (onException t 0).out = msgs j t.out := by
      intro t
      rw [← closeFlows_msgs t j]
      simp [onException, setStatus, say, msgs]
    rw [h2]
    simp [say, msgs]

theorem afterConnected_wrote (hmac : Bytes → Bytes → Bytes) (nonce : Bytes) (s : RC) (h : Has s) : Wrote s (afterConnected hmac nonce s) := by
  rw [afterConnected]
  split
  · rename_i hc
    have hst := (isConnected_iff s).mp hc
    have hs := h hst
    have T1 : Sends s (tell s (.keepalive · s.keepalivePeriod)) := ⟨tell_ctl _ _ hs (fun _ => rfl), tell_keep _ _⟩
    have T2 : Sends (tell s (.keepalive · s.keepalivePeriod)) (tell (tell s (.keepalive · s.keepalivePeriod)) (.limit · s.retransmitLimit)) :=
      ⟨tell_ctl _ _ (by rw [T1.send]; exact hs) (fun _ => rfl), tell_keep _ _⟩
    have W : Wrote s (tell (tell s (.keepalive · s.keepalivePeriod)) (.limit · s.retransmitLimit)) :=
      (Wrote.tell s _ (by simp)).trans (Wrote.tell _ _ (by simp)) T1.status T1.send
    have T := T1.trans T2
    generalize tell (tell s (.keepalive · s.keepalivePeriod)) (.limit · s.retransmitLimit) = t at T W
    have A : Sends s (sendAuth hmac nonce t) := T.trans ⟨foldl_write_ctl _ _ (by rw [T.send]; exact hs), (foldl_write_keep _ _).1⟩
    have W2 : Wrote s (sendAuth hmac nonce t) := W.trans (foldl_wrote _ t (T.status.trans hst)) T.status T.send
    generalize sendAuth hmac nonce t = u at A W2
    have hu := A.has h
    have S1 := A.trans (sendSettings_sends u hu)
    have W3 := W2.trans (sendSettings_wrote u) A.status A.send
    have S2 := S1.trans (sendDraining_sends _ (S1.has h))
    have W4 := W3.trans (sendDraining_wrote _) S1.status S1.send
    exact W4.trans (sendLoad_wrote _) S2.status S2.send
  · exact .refl _

theorem step_wrote {m : Int} {hmac : Bytes → Bytes → Bytes} {valid : Bytes → Bool} {s : RC} (op : Op) (c : Core m (ctl s)) : Wrote s (step hmac valid s op) := by
  have hh : Has s := c.conn
  cases op with
  | connect ok =>
    rw [step]; split
    · exact doConnect_wrote _ _
    · exact .refl _
  | close =>
    intro j hj
    refine absurd ?_ hj
    rw [step, close]
    exact closeFlows_msgs _ _
  | setMinInterval t => exact .of_out rfl
  | setActive b =>
    rw [step, setActive]; split
    · have S := sendSettings_sends { s with active := b } hh
      exact ((sendSettings_wrote _).trans (sendDraining_wrote _) S.status S.send).pre rfl rfl rfl
    · exact .refl _
  | setPaused b =>
    rw [step, setPaused]; split
    · exact .of_out rfl
    · exact (sendSettings_wrote _).pre rfl rfl rfl
  | setLoadFactor n =>
    rw [step, setLoadFactor]; split
    · exact (scheduleLoad_wrote _).pre rfl rfl rfl
    · exact .refl _
  | setLoadInterval t => exact .of_out rfl
  | setAdvertise b =>
    rw [step]; split
    · exact (sendSettings_wrote _).pre rfl rfl rfl
    · exact .refl _
  | addAddress a => exact (sendSettings_wrote _).pre rfl rfl rfl
  | removeAddress a => exact (sendSettings_wrote _).pre rfl rfl rfl
  | clearAddresses => exact (sendSettings_wrote _).pre rfl rfl rfl
  | addAuth k p => exact .of_out rfl
  | setKeepalive t =>
    rw [step]; split
    · exact (Wrote.tell { s with keepalivePeriod := t } _ (by simp)).pre rfl rfl rfl
    · exact .of_out rfl
  | setLimit t =>
    rw [step]; split
    · exact (Wrote.tell { s with retransmitLimit := t } _ (by simp)).pre rfl rfl rfl
    · exact .of_out rfl
  | sendUserData d =>
    rw [step]; split
    · rename_i h; exact .write ((isConnected_iff s).mp h) _
    · exact .refl _
  | ret nonce =>
    rw [step]; split
    · exact .refl _
    · rename_i f fs hf
      cases f with
      | connecting => exact .of_out rfl
      | connected => exact (afterConnected_wrote hmac nonce { s with frames := fs } hh).pre rfl rfl rfl
      | disconnected =>
        show Wrote s (afterException { s with frames := fs })
        rw [afterException]; split
        · exact .of_out rfl
        · exact .of_out rfl
  | tick d => exact .of_out rfl
  | fire id ok =>
    rw [step]; split
    · exact .refl _
    · rename_i t _
      cases t.kind with
      | reconnect => exact (doConnect_wrote _ _).pre rfl rfl rfl
      | load =>
        rw [fired]; dsimp only; split
        · exact (scheduleLoad_wrote _).pre rfl rfl rfl
        · exact .of_out rfl
  | writable =>
    intro j hj
    refine absurd ?_ hj
    simp [step, setStatus, say, msgs]
  | exception r => exact onException_wrote _ _
  | recvFlow d =>
    rw [step]; split
    · exact .refl _
    · exact .of_out rfl
  | message d =>
    rw [step]
    cases d with
    | nil => exact .refl _
    | cons c rest =>
      rw [onMessage]; split
      · dsimp only; split
        · exact (Wrote.say { s with reflexiveValid := valid rest } _ (by simp)).pre rfl rfl rfl
        · exact .of_out rfl
      · split
        · exact .say _ _ (by simp)
        · exact .refl _

/-- how the flow changes -/
def Flowed (s t : RC) : Prop :=
  (t.flows = s.flows ∧ (t.send = s.send ∨ t.send = none) ∧ (t.status = .connecting → s.status = .connecting)) ∨ (t.flows = s.flows + 1 ∧ t.send = some s.flows ∧ t.status = .connecting)

theorem Flowed.of_ctl {s t : RC} (h : ctl t = ctl s) : Flowed s t :=
  Or.inl ⟨congrArg Ctl.flows h, Or.inl (congrArg Ctl.send h), fun e => (congrArg Ctl.status h).symm.trans e⟩

theorem onException_flowed (s : RC) (r : Nat) : Flowed s (onException s r) := by
  have h := onException_ctl s r
  refine Or.inl ⟨?_, Or.inr ?_, ?_⟩
  · exact congrArg Ctl.flows h
  · exact congrArg Ctl.send h
  · intro e
    have := (congrArg Ctl.status h).symm.trans e
    dsimp only at this
    split at this <;> cases this

theorem doConnect_flowed (s : RC) (ok : Bool) : Flowed s (doConnect s ok) := by
  rw [doConnect]
  dsimp only
  split
  · exact Or.inr ⟨rfl, rfl, rfl⟩
  · rcases onException_flowed { say s (.attempt s.now) with lastAttempt := some s.now, send := none } 0 with ⟨a, b, c⟩ | ⟨_, b, _⟩
    · exact Or.inl ⟨a, Or.inr (by rcases b with b | b <;> exact b), c⟩
    · have := congrArg Ctl.send (onException_ctl { say s (.attempt s.now) with lastAttempt := some s.now, send := none } 0)
      have this : (onException { say s (.attempt s.now) with lastAttempt := some s.now, send := none } 0).send = none := this
      rw [this] at b; cases b

theorem scheduleLoad_flowed {s : RC} (h : Has s) : Flowed s (scheduleLoad s) := by
  rw [scheduleLoad]
  split
  · rcases Flowed.of_ctl (sendLoad_ctl s h) with h | h
    · exact Or.inl h
    · exact Or.inr h
  · exact .of_ctl rfl

theorem step_flowed {m : Int} {hmac : Bytes → Bytes → Bytes} {valid : Bytes → Bool} {s : RC} (op : Op) (c : Core m (ctl s)) : Flowed s (step hmac valid s op) := by
  have hh : Has s := c.conn
  have same : ∀ {s' : RC}, ctl s' = ctl s → Flowed s s' := fun h => .of_ctl h
  cases op with
  | connect ok =>
    rw [step]; split
    · exact doConnect_flowed _ _
    · exact same rfl
  | close => exact Or.inl ⟨congrArg Ctl.flows (close_ctl c), Or.inr (congrArg Ctl.send (close_ctl c)), fun e => by
      have := (congrArg Ctl.status (close_ctl c)).symm.trans e; cases this⟩
  | setMinInterval t => exact Or.inl ⟨rfl, Or.inl rfl, id⟩
  | setActive b =>
    rw [step, setActive]; split
    · have S := sendSettings_sends { s with active := b } hh
      exact same ((S.trans (sendDraining_sends _ (S.has hh))).ctl)
    · exact same rfl
  | setPaused b =>
    rw [step, setPaused]; split
    · exact same rfl
    · exact same (sendSettings_ctl { s with paused := false } hh)
  | setLoadFactor n =>
    rw [step, setLoadFactor]; split
    · exact scheduleLoad_flowed (s := { s with loadFactor := n, loadChanged := true }) hh
    · exact same rfl
  | setLoadInterval t => exact Or.inl ⟨rfl, Or.inl rfl, id⟩
  | setAdvertise b =>
    rw [step]; split
    · exact same (sendSettings_ctl { s with advertise := b } hh)
    · exact same rfl
  | addAddress a => exact same (sendSettings_ctl { s with addrs := insert s.addrs a } hh)
  | removeAddress a => exact same (sendSettings_ctl { s with addrs := s.addrs.filter fun x => decide (x ≠ a) } hh)
  | clearAddresses => exact same (sendSettings_ctl { s with addrs := [] } hh)
  | addAuth k p => exact same rfl
  | setKeepalive t =>
    rw [step]; split
    · rename_i hc
      exact same (tell_ctl { s with keepalivePeriod := t } (.keepalive · t) (hh ((isConnected_iff _).mp hc)) (fun _ => rfl))
    · exact same rfl
  | setLimit t =>
    rw [step]; split
    · rename_i hc
      exact same (tell_ctl { s with retransmitLimit := t } (.limit · t) (hh ((isConnected_iff _).mp hc)) (fun _ => rfl))
    · exact same rfl
  | sendUserData d =>
    rw [step]; split
    · rename_i hc; exact same (write_ctl _ _ (hh ((isConnected_iff s).mp hc)))
    · exact same rfl
  | ret nonce =>
    rw [step]; split
    · exact same rfl
    · rename_i f fs hf
      cases f with
      | connecting => exact Or.inl ⟨rfl, Or.inl rfl, id⟩
      | connected =>
        rcases Flowed.of_ctl (afterConnected_ctl hmac nonce { s with frames := fs } hh) with h | h
        · exact Or.inl h
        · exact Or.inr h
      | disconnected =>
        show Flowed s (afterException { s with frames := fs })
        rw [afterException]; split
        · exact Or.inl ⟨rfl, Or.inl rfl, id⟩
        · exact Or.inl ⟨rfl, Or.inl rfl, id⟩
  | tick d => exact same rfl
  | fire id ok =>
    rw [step]; split
    · exact same rfl
    · rename_i t _
      cases t.kind with
      | reconnect =>
        rw [fired]
        rcases doConnect_flowed { s with timers := s.timers.filter (fun x => !(decide (x.id = id))), reconnectTimer := none } ok with h | h
        · exact Or.inl h
        · exact Or.inr h
      | load =>
        rw [fired]; dsimp only; split
        · rcases scheduleLoad_flowed (s := { s with timers := s.timers.filter (fun x => !(decide (x.id = id))), loadTimer := none }) hh with h | h
          · exact Or.inl h
          · exact Or.inr h
        · exact Or.inl ⟨rfl, Or.inl rfl, fun e => e⟩
  | writable => exact Or.inl ⟨rfl, Or.inl rfl, fun e => by cases e⟩
  | exception r => exact onException_flowed _ _
  | recvFlow d =>
    rw [step]; split
    · exact same rfl
    · exact Or.inl ⟨rfl, Or.inl rfl, id⟩
  | message d =>
    rw [step]
    cases d with
    | nil => exact same rfl
    | cons c rest =>
      rw [onMessage]; split
      · dsimp only; split
        · exact same (say_ctl { s with reflexiveValid := valid rest } _ rfl)
        · exact same rfl
      · split
        · exact same (say_ctl _ _ rfl)
        · exact same rfl

theorem run_fresh {hmac : Bytes → Bytes → Bytes} {valid : Bytes → Bool} {now : Int} {ops : List Op} {s : RC} (h : Run hmac valid now ops s) : Fresh s := by
  induction h with
  | nil => exact ⟨fun k _ => rfl, fun _ k hk => by simp [init] at hk, fun k hk => by simp [init] at hk⟩
  | @snoc ops s op hr ha ih =>
    obtain ⟨m, c⟩ := run_some hr
    have w := step_wrote (hmac := hmac) (valid := valid) op c
    have f := step_flowed (hmac := hmac) (valid := valid) op c
    generalize step hmac valid s op = t at w f
    obtain ⟨h1, h2, h3⟩ := ih
    have key : ∀ k, s.flows ≤ k → msgs k t.out = [] := by
      intro k hk
      rw [← h1 k hk]
      apply Classical.byContradiction
      intro e
      have := h3 k (w k e).2
      omega
    rcases f with ⟨a, b, d⟩ | ⟨a, b, d⟩
    · refine ⟨fun k hk => key k (by omega), fun e k hk => ?_, fun k hk => ?_⟩
      · have hs : s.send = some k := by
          rcases b with b | b
          · rw [← b]; exact hk
          · rw [b] at hk; cases hk
        rw [← h2 (d e) k hs]
        apply Classical.byContradiction
        intro e2
        have := (w k e2).1
        rw [d e] at this; cases this
      · rw [a]
        rcases b with b | b
        · exact h3 k (by rw [← b]; exact hk)
        · rw [b] at hk; cases hk
    · refine ⟨fun k hk => key k (by omega), fun e k hk => ?_, fun k hk => ?_⟩
      · rw [b] at hk; cases hk; exact key _ (Nat.le_refl _)
      · rw [b] at hk; cases hk; omega

theorem foldl_msgs (ms : List Bytes) : ∀ (s : RC) (k : Nat), s.send = some k → msgs k (ms.foldl write s).out = msgs k s.out ++ ms := by
  induction ms with
  | nil => intro s k _; simp
  | cons m ms ih =>
    intro s k h
    rw [List.foldl_cons, ih _ _ ((write_status s m).2.trans h), msgs_write h, if_pos rfl, List.append_assoc]; rfl

theorem tell_msgs (s : RC) (e : Nat → Ev) (h : ∀ i k m, e i ≠ .wrote k m) (k : Nat) : msgs k (tell s e).out = msgs k s.out := by
  rw [tell]; split
  · rfl
  · rename_i i _
    rw [say, msgs_append]
    have := h i
    cases he : e i <;> first | (simp [msgs]; done) | exact absurd he (this _ _)

/-- the messages written when the callback for CONNECTED returns -/
theorem afterConnected_msgs (hmac : Bytes → Bytes → Bytes) (nonce : Bytes) (s : RC) (k : Nat) (hst : s.status = .connected) (hk : s.send = some k) :
    msgs k (afterConnected hmac nonce s).out = msgs k s.out ++ s.auth.map (authMsg hmac nonce) ++
      (if s.active then if s.paused then [] else [settingsMsg s] else [[CMD_DRAINING]]) ++ [VLU.append s.loadFactor [CMD_LOAD_FACTOR]] := by
  rw [afterConnected, if_pos ((isConnected_iff s).mpr hst)]
  have hs : s.send.isSome = true := by rw [hk]; rfl
  have T1 : Sends s (tell s (.keepalive · s.keepalivePeriod)) := ⟨tell_ctl _ _ hs (fun _ => rfl), tell_keep _ _⟩
  have T2 : Sends (tell s (.keepalive · s.keepalivePeriod)) (tell (tell s (.keepalive · s.keepalivePeriod)) (.limit · s.retransmitLimit)) :=
    ⟨tell_ctl _ _ (by rw [T1.send]; exact hs) (fun _ => rfl), tell_keep _ _⟩
  have M : msgs k (tell (tell s (.keepalive · s.keepalivePeriod)) (.limit · s.retransmitLimit)).out = msgs k s.out :=
    (tell_msgs _ _ (by simp) k).trans (tell_msgs _ _ (by simp) k)
  have T := T1.trans T2
  generalize tell (tell s (.keepalive · s.keepalivePeriod)) (.limit · s.retransmitLimit) = t at T M
  have A : Sends s (sendAuth hmac nonce t) := T.trans ⟨foldl_write_ctl _ _ (by rw [T.send]; exact hs), (foldl_write_keep _ _).1⟩
  have M2 : msgs k (sendAuth hmac nonce t).out = msgs k s.out ++ s.auth.map (authMsg hmac nonce) := by
    rw [sendAuth, foldl_msgs _ _ k (T.send.trans hk), M, T.auth]
  generalize sendAuth hmac nonce t = u at A M2
  have hh : Has s := fun _ => hs
  have hu := A.has hh
  have S1 := A.trans (sendSettings_sends u hu)
  have S2 := S1.trans (sendDraining_sends _ (S1.has hh))
  have k0 := A.send.trans hk
  have k1 := S1.send.trans hk
  have k2 := S2.send.trans hk
  have e0 : isConnected u = true := A.isConnected.trans ((isConnected_iff s).mpr hst)
  have e1 : isConnected (sendSettings u) = true := S1.isConnected.trans ((isConnected_iff s).mpr hst)
  have e2 : isConnected (sendDraining (sendSettings u)) = true := S2.isConnected.trans ((isConnected_iff s).mpr hst)
  have em : settingsMsg u = settingsMsg s := by rw [settingsMsg, A.addrs, A.advertise]; rfl
  have R1 : msgs k (sendSettings u).out = msgs k u.out ++ (if s.active && !s.paused then [settingsMsg s] else []) := by
    rw [sendSettings, e0, A.active, A.paused]
    split
    · rename_i hc
      rw [msgs_write k0, if_pos rfl, em, if_pos (by simpa using hc)]
    · rename_i hc
      rw [if_neg (by simpa using hc), List.append_nil]
  have R2 : msgs k (sendDraining (sendSettings u)).out = msgs k (sendSettings u).out ++ (if !s.active then [[CMD_DRAINING]] else []) := by
    rw [sendDraining, e1, S1.active]
    split
    · rename_i hc
      rw [msgs_write k1, if_pos rfl, if_pos (by simpa using hc)]
    · rename_i hc
      rw [if_neg (by simpa using hc), List.append_nil]
  have R3 : msgs k (sendLoad (sendDraining (sendSettings u))).out = msgs k (sendDraining (sendSettings u)).out ++ [VLU.append s.loadFactor [CMD_LOAD_FACTOR]] := by
    rw [sendLoad, if_pos e2]
    show msgs k (write _ _).out = _
    rw [msgs_write k2, if_pos rfl, S2.loadFactor]
  rw [R3, R2, R1, M2]
  cases s.active <;> cases s.paused <;> simp


/-! ## what the user set -/

theorem sendSettings_keep (s : RC) : keep (sendSettings s) = keep s := by
  rw [sendSettings]; split
  · exact write_keep _ _
  · rfl
theorem sendDraining_keep (s : RC) : keep (sendDraining s) = keep s := by
  rw [sendDraining]; split
  · exact write_keep _ _
  · rfl
theorem sendLoad_keep (s : RC) : keep (sendLoad s) = keep s := by
  rw [sendLoad]
  show keep (if isConnected s then _ else s) = _
  split
  · exact write_keep _ _
  · rfl
theorem scheduleLoad_keep (s : RC) : keep (scheduleLoad s) = keep s := by
  rw [scheduleLoad]; split
  · exact sendLoad_keep s
  · rfl
theorem doConnect_keep (s : RC) (ok : Bool) : keep (doConnect s ok) = keep s := by
  rw [doConnect]; dsimp only; split
  · rfl
  · exact (onException_keep _ 0).1
theorem afterConnected_keep (hmac : Bytes → Bytes → Bytes) (nonce : Bytes) (s : RC) : keep (afterConnected hmac nonce s) = keep s := by
  rw [afterConnected]; split
  · rw [sendLoad_keep, sendDraining_keep, sendSettings_keep, sendAuth, (foldl_write_keep _ _).1, tell_keep, tell_keep]
  · rfl

/-- what is stored is what the user set -/
structure Set_ (ops : List Op) (s : RC) : Prop where
  load : s.loadFactor = wantLoad ops
  active : s.active = wantActive ops
  paused : s.paused = wantPaused ops
  reflexive : s.advertise = wantReflexive ops
  addrs : Wanted ops s.addrs
  keys : (s.auth.map (·.1)).Nodup
  auth : ∀ k p, (k, p) ∈ s.auth ↔ wantAuth k ops = some p

/-- ops that set nothing -/
def Plain : Op → Bool
  | .setLoadFactor _ | .setActive _ | .close | .setPaused _ | .setAdvertise _ | .addAddress _ | .removeAddress _ | .clearAddresses | .addAuth _ _ => false
  | _ => true

/-- the part of `keep` that the user sets -/
def conf (s : RC) := (s.loadFactor, s.active, s.paused, s.advertise, s.addrs, s.auth)

theorem conf_of_keep {s t : RC} (h : keep t = keep s) : conf t = conf s := by
  simp only [keep, Prod.mk.injEq] at h
  simp only [conf, Prod.mk.injEq]
  exact ⟨h.1, h.2.2.1, h.2.2.2.1, h.2.2.2.2.1, h.2.1, h.2.2.2.2.2.2.2.1⟩

theorem plain_conf (hmac : Bytes → Bytes → Bytes) (valid : Bytes → Bool) (s : RC) (op : Op) (hp : Plain op = true) : conf (step hmac valid s op) = conf s := by
  cases op <;> first | contradiction | skip
  case connect ok =>
    rw [step]; split
    · exact conf_of_keep (doConnect_keep _ _)
    · rfl
  case setMinInterval => rfl
  case setLoadInterval => rfl
  case setKeepalive t =>
    rw [step]; split
    · exact (conf_of_keep (tell_keep { s with keepalivePeriod := t } _)).trans rfl
    · rfl
  case setLimit t =>
    rw [step]; split
    · exact (conf_of_keep (tell_keep { s with retransmitLimit := t } _)).trans rfl
    · rfl
  case sendUserData d =>
    rw [step]; split
    · exact conf_of_keep (write_keep _ _)
    · rfl
  case ret nonce =>
    rw [step]; split
    · rfl
    · rename_i f fs _
      cases f with
      | connecting => rfl
      | connected => exact conf_of_keep (afterConnected_keep hmac nonce { s with frames := fs })
      | disconnected =>
        show conf (afterException { s with frames := fs }) = _
        rw [afterException]; split <;> rfl
  case tick => rfl
  case fire id ok =>
    rw [step]; split
    · rfl
    · rename_i t _
      cases t.kind with
      | reconnect => exact conf_of_keep (doConnect_keep { s with timers := s.timers.filter (fun x => !(decide (x.id = id))), reconnectTimer := none } ok)
      | load =>
        rw [fired]; dsimp only; split
        · exact conf_of_keep (scheduleLoad_keep { s with timers := s.timers.filter (fun x => !(decide (x.id = id))), loadTimer := none })
        · rfl
  case writable => rfl
  case exception r => exact conf_of_keep (onException_keep s r).1
  case recvFlow d => rw [step]; split <;> rfl
  case message d =>
    rw [step]
    cases d with
    | nil => rfl
    | cons c rest =>
      rw [onMessage]; split
      · dsimp only; split <;> rfl
      · split <;> rfl

theorem plain_want (ops : List Op) (op : Op) (hp : Plain op = true) :
    wantLoad (ops ++ [op]) = wantLoad ops ∧ wantActive (ops ++ [op]) = wantActive ops ∧ wantPaused (ops ++ [op]) = wantPaused ops ∧ wantReflexive (ops ++ [op]) = wantReflexive ops ∧
    (∀ a, wantAddr a (ops ++ [op]) = wantAddr a ops) ∧ ∀ k, wantAuth k (ops ++ [op]) = wantAuth k ops := by
  cases op <;> first | contradiction | simp [wantLoad, wantActive, wantPaused, wantReflexive, wantAddr, wantAuth, List.foldl_append]

theorem setAuth_keys (l : List (Bytes × Bytes)) (k p : Bytes) (h : (l.map (·.1)).Nodup) : ((setAuth l k p).map (·.1)).Nodup := by
  rw [setAuth]
  split
  · have e : (l.map fun x => if x.1 = k then (k, p) else x).map (·.1) = l.map (·.1) := by
      rw [List.map_map]
      apply List.map_congr_left
      intro x _
      show (if x.1 = k then (k, p) else x).1 = x.1
      split
      · rename_i e; exact e.symm
      · rfl
    rw [e]; exact h
  · rename_i hn
    rw [List.map_append, List.nodup_append]
    refine ⟨h, by simp, ?_⟩
    intro a ha b hb
    simp at hb
    subst hb
    intro e
    subst e
    obtain ⟨x, hx, e⟩ := List.mem_map.mp ha
    exact hn (List.any_eq_true.mpr ⟨x, hx, by simpa using e⟩)

theorem setAuth_mem (l : List (Bytes × Bytes)) (k p k' p' : Bytes) : (k', p') ∈ setAuth l k p ↔ if k = k' then p = p' else (k', p') ∈ l := by
  rw [setAuth]
  split
  · rename_i ha
    obtain ⟨x, hx, e⟩ := List.any_eq_true.mp ha
    have e := of_decide_eq_true e
    rw [List.mem_map]
    split
    · rename_i ek
      subst ek
      constructor
      · rintro ⟨y, hy, ey⟩
        split at ey
        · cases ey; rfl
        · rename_i hne; rw [ey] at hne; exact absurd rfl hne
      · intro ep; subst ep
        exact ⟨x, hx, by rw [if_pos e]⟩
    · rename_i hk
      constructor
      · rintro ⟨y, hy, ey⟩
        split at ey
        · cases ey; exact absurd rfl hk
        · rw [← ey]; exact hy
      · intro hm
        exact ⟨_, hm, by rw [if_neg (fun e => hk e.symm)]⟩
  · rename_i ha
    rw [List.mem_append, List.mem_singleton]
    have hno : ∀ q, (k, q) ∉ l := fun q hq => ha (List.any_eq_true.mpr ⟨_, hq, by simp⟩)
    split
    · rename_i ek; subst ek
      constructor
      · rintro (h | h)
        · exact absurd h (hno _)
        · cases h; rfl
      · rintro rfl; exact Or.inr rfl
    · rename_i hk
      constructor
      · rintro (h | h)
        · exact h
        · cases h; exact absurd rfl hk
      · exact Or.inl

theorem run_set {hmac : Bytes → Bytes → Bytes} {valid : Bytes → Bool} {now : Int} {ops : List Op} {s : RC} (h : Run hmac valid now ops s) : Set_ ops s := by
  induction h with
  | nil => exact ⟨rfl, rfl, rfl, rfl, ⟨List.nodup_nil, fun a => by simp [init, wantAddr]⟩, List.nodup_nil, fun k p => by simp [init, wantAuth]⟩
  | @snoc ops s op hr ha ih =>
    obtain ⟨h1, h2, h3, h4, ⟨h5, h5'⟩, h6, h7⟩ := ih
    cases hp : Plain op with
    | true =>
      have c := plain_conf hmac valid s op hp
      obtain ⟨w1, w2, w3, w4, w5, w6⟩ := plain_want ops op hp
      generalize step hmac valid s op = t at c
      simp only [conf, Prod.mk.injEq] at c
      obtain ⟨c1, c2, c3, c4, c5, c6⟩ := c
      exact ⟨by rw [c1, w1, h1], by rw [c2, w2, h2], by rw [c3, w3, h3], by rw [c4, w4, h4], ⟨by rw [c5]; exact h5, fun a => by rw [c5, w5]; exact h5' a⟩, by rw [c6]; exact h6, fun k p => by rw [c6, w6]; exact h7 k p⟩
    | false =>
      have put : ∀ (t : RC), Set_ (ops ++ [op]) t → ∀ u, conf u = conf t → Set_ (ops ++ [op]) u := by
        intro t ht u c
        simp only [conf, Prod.mk.injEq] at c
        obtain ⟨c1, c2, c3, c4, c5, c6⟩ := c
        exact ⟨by rw [c1]; exact ht.load, by rw [c2]; exact ht.active, by rw [c3]; exact ht.paused, by rw [c4]; exact ht.reflexive, by rw [c5]; exact ht.addrs, by rw [c6]; exact ht.keys, by rw [c6]; exact ht.auth⟩
      cases op <;> first | contradiction | skip
      case setLoadFactor n =>
        refine put { s with loadFactor := n } ⟨by simp [wantLoad, List.foldl_append], ?_, ?_, ?_, ⟨h5, fun a => ?_⟩, h6, fun k p => ?_⟩ _ ?_
        · simpa [wantActive, List.foldl_append] using h2
        · simpa [wantPaused, List.foldl_append] using h3
        · simpa [wantReflexive, List.foldl_append] using h4
        · simpa [wantAddr, List.foldl_append] using h5' a
        · simpa [wantAuth, List.foldl_append] using h7 k p
        · rw [step, setLoadFactor]; split
          · exact conf_of_keep (scheduleLoad_keep { s with loadFactor := n, loadChanged := true })
          · rename_i e
            have e : n = s.loadFactor := Classical.byContradiction fun k => e k
            rw [e]
      case setActive b =>
        refine put { s with active := b } ⟨?_, by simp [wantActive, List.foldl_append], ?_, ?_, ⟨h5, fun a => ?_⟩, h6, fun k p => ?_⟩ _ ?_
        · simpa [wantLoad, List.foldl_append] using h1
        · simpa [wantPaused, List.foldl_append] using h3
        · simpa [wantReflexive, List.foldl_append] using h4
        · simpa [wantAddr, List.foldl_append] using h5' a
        · simpa [wantAuth, List.foldl_append] using h7 k p
        · rw [step, setActive]; split
          · exact conf_of_keep ((sendDraining_keep _).trans (sendSettings_keep { s with active := b }))
          · rename_i e
            have e : b = s.active := Classical.byContradiction fun k => e k
            rw [e]
      case close =>
        refine put { s with active := false } ⟨?_, by simp [wantActive, List.foldl_append], ?_, ?_, ⟨h5, fun a => ?_⟩, h6, fun k p => ?_⟩ _ ?_
        · simpa [wantLoad, List.foldl_append] using h1
        · simpa [wantPaused, List.foldl_append] using h3
        · simpa [wantReflexive, List.foldl_append] using h4
        · simpa [wantAddr, List.foldl_append] using h5' a
        · simpa [wantAuth, List.foldl_append] using h7 k p
        · cases hs : s.send <;> simp [step, close, closeFlows, closeSend, cancel, hs, say, conf]
      case setPaused b =>
        refine put { s with paused := b } ⟨?_, ?_, by simp [wantPaused, List.foldl_append], ?_, ⟨h5, fun a => ?_⟩, h6, fun k p => ?_⟩ _ ?_
        · simpa [wantLoad, List.foldl_append] using h1
        · simpa [wantActive, List.foldl_append] using h2
        · simpa [wantReflexive, List.foldl_append] using h4
        · simpa [wantAddr, List.foldl_append] using h5' a
        · simpa [wantAuth, List.foldl_append] using h7 k p
        · rw [step, setPaused]; split
          · rename_i e; rw [e]
          · rename_i e
            have e : b = false := by simpa using e
            rw [e]
            exact conf_of_keep (sendSettings_keep { s with paused := false })
      case setAdvertise b =>
        refine put { s with advertise := b } ⟨?_, ?_, ?_, by simp [wantReflexive, List.foldl_append], ⟨h5, fun a => ?_⟩, h6, fun k p => ?_⟩ _ ?_
        · simpa [wantLoad, List.foldl_append] using h1
        · simpa [wantActive, List.foldl_append] using h2
        · simpa [wantPaused, List.foldl_append] using h3
        · simpa [wantAddr, List.foldl_append] using h5' a
        · simpa [wantAuth, List.foldl_append] using h7 k p
        · rw [step]; split
          · exact conf_of_keep (sendSettings_keep { s with advertise := b })
          · rename_i e
            have e : b = s.advertise := Classical.byContradiction fun k => e k
            rw [e]
      case addAddress x =>
        refine put { s with addrs := insert s.addrs x } ⟨?_, ?_, ?_, ?_, ⟨?_, fun a => ?_⟩, h6, fun k p => ?_⟩ _ (conf_of_keep (sendSettings_keep { s with addrs := insert s.addrs x }))
        · simpa [wantLoad, List.foldl_append] using h1
        · simpa [wantActive, List.foldl_append] using h2
        · simpa [wantPaused, List.foldl_append] using h3
        · simpa [wantReflexive, List.foldl_append] using h4
        · show (insert s.addrs x).Nodup
          rw [insert]; split
          · exact h5
          · rename_i hn
            rw [List.nodup_append]
            exact ⟨h5, by simp, fun a hm b hb => by simp at hb; subst hb; rintro rfl; exact hn hm⟩
        · show a ∈ insert s.addrs x ↔ _
          have hw : wantAddr a (ops ++ [.addAddress x]) = (wantAddr a ops || decide (x = a)) := by simp [wantAddr, List.foldl_append]
          rw [hw, Bool.or_eq_true, ← h5', decide_eq_true_eq, insert]
          split
          · rename_i hm
            exact ⟨Or.inl, fun h => h.elim id fun e => e ▸ hm⟩
          · rw [List.mem_append, List.mem_singleton]
            exact or_congr Iff.rfl eq_comm
        · simpa [wantAuth, List.foldl_append] using h7 k p
      case removeAddress x =>
        refine put { s with addrs := s.addrs.filter fun y => decide (y ≠ x) } ⟨?_, ?_, ?_, ?_, ⟨?_, fun a => ?_⟩, h6, fun k p => ?_⟩ _ (conf_of_keep (sendSettings_keep { s with addrs := s.addrs.filter fun y => decide (y ≠ x) }))
        · simpa [wantLoad, List.foldl_append] using h1
        · simpa [wantActive, List.foldl_append] using h2
        · simpa [wantPaused, List.foldl_append] using h3
        · simpa [wantReflexive, List.foldl_append] using h4
        · exact List.Pairwise.filter _ h5
        · show a ∈ s.addrs.filter _ ↔ _
          have hw : wantAddr a (ops ++ [.removeAddress x]) = (wantAddr a ops && decide (x ≠ a)) := by simp [wantAddr, List.foldl_append]
          rw [hw, Bool.and_eq_true, ← h5', List.mem_filter, decide_eq_true_eq, decide_eq_true_eq]
          exact and_congr Iff.rfl ne_comm
        · simpa [wantAuth, List.foldl_append] using h7 k p
      case clearAddresses =>
        refine put { s with addrs := [] } ⟨?_, ?_, ?_, ?_, ⟨List.nodup_nil, fun a => ?_⟩, h6, fun k p => ?_⟩ _ (conf_of_keep (sendSettings_keep { s with addrs := [] }))
        · simpa [wantLoad, List.foldl_append] using h1
        · simpa [wantActive, List.foldl_append] using h2
        · simpa [wantPaused, List.foldl_append] using h3
        · simpa [wantReflexive, List.foldl_append] using h4
        · simp [wantAddr, List.foldl_append]
        · simpa [wantAuth, List.foldl_append] using h7 k p
      case addAuth x q =>
        refine put { s with auth := setAuth s.auth x q } ⟨?_, ?_, ?_, ?_, ⟨h5, fun a => ?_⟩, setAuth_keys _ _ _ h6, fun k p => ?_⟩ _ rfl
        · simpa [wantLoad, List.foldl_append] using h1
        · simpa [wantActive, List.foldl_append] using h2
        · simpa [wantPaused, List.foldl_append] using h3
        · simpa [wantReflexive, List.foldl_append] using h4
        · simpa [wantAddr, List.foldl_append] using h5' a
        · have hw : wantAuth k (ops ++ [.addAuth x q]) = if x = k then some q else wantAuth k ops := by simp [wantAuth, List.foldl_append]
          show (k, p) ∈ setAuth s.auth x q ↔ _
          rw [hw, setAuth_mem]
          split
          · simp
          · exact h7 k p

end Redir
end Rtmfp
