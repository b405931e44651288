import Verif.Lemmas.Redirector

/-!
# C55, C75, C76, C77: the redirector client

The client connects again at intervals, is silent after it was closed, and tells the redirector its load and its registration.
-/

namespace Rtmfp
open Redir

/-- C55: of any two attempts to connect, the later one comes at least 5 seconds, and at least the minimum reconnect interval (the least that was ever set), after the earlier one. -/
theorem C55_spacing {hmac : Bytes → Bytes → Bytes} {valid : Bytes → Bool} {now : Int} {ops : List Op} {s : RC} (h : Run hmac valid now ops s)
    (m : Int) (hm : m ≤ 30000000) (hset : ∀ t, .setMinInterval t ∈ ops → m ≤ t) : (attempts s.out).Pairwise fun a b => a + max m 5000000 ≤ b := by
  refine (run_core h hm fun op hop => ?_).spaced
  cases op <;> first | trivial | exact hset _ hop

/-- C55: the client doesn't give up: while it is disconnected and in no callback, a timer is pending, and when that fires there is another attempt. -/
theorem C55_retries {hmac : Bytes → Bytes → Bytes} {valid : Bytes → Bool} {now : Int} {ops : List Op} {s : RC} (h : Run hmac valid now ops s)
    (hd : s.status = .disconnected ∨ s.status = .badAuth) (hf : s.frames = []) :
    ∃ t ∈ s.timers, ∀ ok, (t.at_ ≤ s.now → allowed s (.fire t.id ok) = true) ∧ attempts (step hmac valid s (.fire t.id ok)).out = attempts s.out ++ [s.now] := by
  obtain ⟨m, c⟩ := run_some h
  obtain ⟨i, hi⟩ := Option.isSome_iff_exists.mp (c.down hd (by show _ ∉ s.frames; rw [hf]; exact List.not_mem_nil))
  obtain ⟨t, ht, _, hk⟩ := c.recTimer i hi
  refine ⟨t, ht, fun ok => ⟨fun hle => ?_, ?_⟩⟩
  · simp only [allowed, hf, List.isEmpty_nil, Bool.true_and, List.any_eq_true]
    exact ⟨t, ht, by simp [hle]⟩
  · rw [step]
    split
    · rename_i hn
      have := List.find?_eq_none.mp hn t ht
      simp at this
    · rename_i t' ht'
      have : t' = t := inj_ids c.ids (List.mem_of_find?_eq_some ht') ht (of_decide_eq_true (List.find?_some (p := fun x : Tm => decide (x.id = t.id)) ht'))
      rw [this, hk, fired, doConnect]
      dsimp only
      split
      · simp [setStatus, say, attempts]
      · cases hs : s.send <;> simp [onException, setStatus, closeFlows, closeSend, say, attempts]

/-- C55: after `close`, whatever happens and whatever is called, nothing more is observed: no attempt, no message, no callback. -/
theorem C55_closed {hmac : Bytes → Bytes → Bytes} {valid : Bytes → Bool} {now : Int} {ops more : List Op} {s t : RC} (h : Run hmac valid now ops s)
    (a : After hmac valid (step hmac valid s .close) more t) : t.out = (step hmac valid s .close).out ∧ t.status = .closed := by
  have hc : Run hmac valid now (ops ++ [.close]) (step hmac valid s .close) := .snoc h rfl
  have h0 : (step hmac valid s .close).status = .closed := by
    obtain ⟨m, c⟩ := run_some h
    exact congrArg Ctl.status (close_ctl c)
  suffices hs : ∀ {more t}, After hmac valid (step hmac valid s .close) more t → t.out = (step hmac valid s .close).out ∧ t.status = .closed from hs a
  intro more t a
  induction a with
  | nil => exact ⟨rfl, h0⟩
  | snoc a' ha ih =>
    obtain ⟨m, c⟩ := run_some (After.run hc a')
    have := closed_step (hmac := hmac) (valid := valid) c ih.2 ha
    exact ⟨this.2.trans ih.1, this.1⟩

/-- C55: the redirector knows the load factor: while the client is connected (and the callback that says so has returned), either the last load factor written on this connection
is the current one, or a timer is pending; when that fires, the current one is written. -/
theorem C55_load {hmac : Bytes → Bytes → Bytes} {valid : Bytes → Bool} {now : Int} {ops : List Op} {s : RC} (h : Run hmac valid now ops s)
    (hc : s.status = .connected) (hf : .connected ∉ s.frames) : ∃ k, s.send = some k ∧
      (lastOf readLoad (msgs k s.out) = some (wantLoad ops) ∨
       ∃ t ∈ s.timers, ∀ ok, (step hmac valid s (.fire t.id ok)).send = some k ∧ lastOf readLoad (msgs k (step hmac valid s (.fire t.id ok)).out) = some (wantLoad ops)) := by
  obtain ⟨m, c⟩ := run_some h
  have T := run_told h
  rw [← (run_set h).load]
  obtain ⟨k, hk⟩ := Option.isSome_iff_exists.mp (c.conn hc)
  have hk : s.send = some k := hk
  refine ⟨k, hk, ?_⟩
  cases hg : s.loadChanged with
  | false => exact Or.inl (T.load hc hf k hk hg)
  | true =>
    right
    have hlt : s.loadTimer.isSome = true := (T.chg hg).elim id fun e => by rw [hc] at e; cases e
    obtain ⟨i, hi⟩ := Option.isSome_iff_exists.mp hlt
    obtain ⟨t, ht, _, hkd⟩ := c.loadTimer i hi
    refine ⟨t, ht, fun ok => ?_⟩
    have ht : t ∈ s.timers := ht
    have e : step hmac valid s (.fire t.id ok) = fired { s with timers := s.timers.filter fun x => !(decide (x.id = t.id)) } ok .load := by
      rw [step]
      split
      · rename_i hn
        have := List.find?_eq_none.mp hn t ht
        simp at this
      · rename_i t' ht'
        have : t' = t := inj_ids c.ids (List.mem_of_find?_eq_some ht') ht (of_decide_eq_true (List.find?_some (p := fun x : Tm => decide (x.id = t.id)) ht'))
        rw [this, hkd]
    have S := sendLoad_sends { s with timers := s.timers.filter (fun x => !(decide (x.id = t.id))), loadTimer := none } c.conn
    have H := sendLoad_heard (s := { s with timers := s.timers.filter (fun x => !(decide (x.id = t.id))), loadTimer := none }) hk T.load64
    rw [e, fired, if_pos hg, scheduleLoad, if_pos rfl]
    refine ⟨S.send.trans hk, ?_⟩
    have hci : isConnected { s with timers := s.timers.filter (fun x => !(decide (x.id = t.id))), loadTimer := none } = true := (isConnected_iff _).mpr hc
    rw [if_pos hci] at H
    have H1 := congrArg Prod.fst H
    exact H1

/-- C55: the client doesn't use a flow it doesn't have, whatever is called when. -/
theorem C55_safe {hmac : Bytes → Bytes → Bytes} {valid : Bytes → Bool} {now : Int} {ops : List Op} {s : RC} (h : Run hmac valid now ops s) : s.null = false := by
  obtain ⟨m, c⟩ := run_some h
  exact c.null

/-- C75: the redirector knows the registration: while the client is connected (and the callback that says so has returned), the last registration written on this connection
says that the client is draining if it is inactive, and if it is active and not paused, it has the client's additional addresses and says whether to advertise the reflexive one. -/
theorem C75_registered {hmac : Bytes → Bytes → Bytes} {valid : Bytes → Bool} {now : Int} {ops : List Op} {s : RC} (h : Run hmac valid now ops s)
    (hc : s.status = .connected) (hf : .connected ∉ s.frames) : ∃ k, s.send = some k ∧ Registered ops (lastOf readReg (msgs k s.out)) := by
  obtain ⟨m, c⟩ := run_some h
  obtain ⟨k, hk⟩ := Option.isSome_iff_exists.mp (c.conn hc)
  have S := run_set h
  have R := (run_told h).reg hc hf k hk
  refine ⟨k, hk, ?_, ?_⟩
  · rw [← S.active]; exact R.1
  · rw [← S.active, ← S.paused, ← S.reflexive]
    exact fun a b => ⟨_, R.2 a b, S.addrs⟩

/-- C76 (partial: for a callback that doesn't call the client; see `C76_not_first`): when a connection opens, the first messages written are the authentications, one for each key,
then the registration, then the load factor. -/
theorem C76_opening_partial {hmac : Bytes → Bytes → Bytes} {valid : Bytes → Bool} {now : Int} {ops : List Op} {s : RC} (h : Run hmac valid now ops s)
    (ha : allowed s .writable = true) (nonce : Bytes) : ∃ (k : Nat) (auth : List (Bytes × Bytes)) (regs : List Bytes), s.send = some k ∧
      msgs k (step hmac valid (step hmac valid s .writable) (.ret nonce)).out = auth.map (fun a => 0x1d :: hmac a.2 nonce ++ a.1) ++ regs ++ [0x0f :: VLU.encode (wantLoad ops)] ∧
      ((auth.map (·.1)).Nodup ∧ ∀ key pw, (key, pw) ∈ auth ↔ wantAuth key ops = some pw) ∧
      if wantActive ops then if wantPaused ops then regs = [] else ∃ l, regs.map readReg = [some (.settings (wantReflexive ops) l)] ∧ Wanted ops l else regs.map readReg = [some .draining] := by
  have S := run_set h
  rw [← S.load, ← S.active, ← S.paused, ← S.reflexive]
  obtain ⟨m, c⟩ := run_some h
  simp only [allowed, Bool.and_eq_true] at ha
  obtain ⟨k, hk⟩ := Option.isSome_iff_exists.mp ha.1.2
  refine ⟨k, s.auth, if s.active then if s.paused then [] else [settingsMsg s] else [[0x00]], hk, ?_, ⟨S.keys, S.auth⟩, ?_⟩
  · have hst : s.status = .connecting := c.wait ha.2
    have h0 := (run_fresh h).2.1 hst k hk
    have e1 : msgs k (step hmac valid s .writable).out = [] := by
      rw [← h0]
      simp [step, setStatus, say, msgs]
    have e : step hmac valid (step hmac valid s .writable) (.ret nonce) = afterConnected hmac nonce { step hmac valid s .writable with frames := s.frames } := rfl
    have := afterConnected_msgs hmac nonce { step hmac valid s .writable with frames := s.frames } k rfl hk
    rw [e, this]
    show msgs k (step hmac valid s .writable).out ++ _ ++ _ ++ _ = _
    rw [e1]
    rfl
  · have := settingsMsg_reg s (run_told h).addrs
    cases ea : s.active with
    | false => rfl
    | true =>
      cases ep : s.paused with
      | true => rfl
      | false => exact ⟨s.addrs, by simp [this], S.addrs⟩

/-- C76: nothing is written to a flow before it is connected. -/
theorem C76_quiet {hmac : Bytes → Bytes → Bytes} {valid : Bytes → Bool} {now : Int} {ops : List Op} {s : RC} (h : Run hmac valid now ops s)
    (hc : s.status = .connecting) (k : Nat) (hk : s.send = some k) : msgs k s.out = [] := (run_fresh h).2.1 hc k hk

/-- C77: the statuses reported to the user come in an order that makes sense (`Follows`); while the client isn't closed, the last one reported is what it answers; closing isn't reported. -/
theorem C77_statuses {hmac : Bytes → Bytes → Bytes} {valid : Bytes → Bool} {now : Int} {ops : List Op} {s : RC} (h : Run hmac valid now ops s) :
    Chain .idle (statuses s.out) ∧ (s.status ≠ .closed → (statuses s.out).getLast?.getD .idle = s.status) := by
  obtain ⟨m, c⟩ := run_some h
  exact ⟨c.order, c.report⟩

/-! ## examples -/

/-- runs of the executable model -/
def redirRun (hmac : Bytes → Bytes → Bytes) (valid : Bytes → Bool) : RC → List Op → Option RC
  | s, [] => some s
  | s, op :: ops => if allowed s op then redirRun hmac valid (step hmac valid s op) ops else none

theorem redirRun_run {hmac : Bytes → Bytes → Bytes} {valid : Bytes → Bool} {now : Int} {ops : List Op} : ∀ {pre : List Op} {s t : RC},
    Run hmac valid now pre s → redirRun hmac valid s ops = some t → Run hmac valid now (pre ++ ops) t := by
  induction ops with
  | nil => intro pre s t h e; simp [redirRun] at e; rw [List.append_nil, ← e]; exact h
  | cons op ops ih =>
    intro pre s t h e
    rw [redirRun] at e
    split at e
    · rename_i ha
      have := ih (.snoc h ha) e
      rwa [List.append_assoc] at this
    · cases e

/-- an hmac for examples -/
def redirMac : Bytes → Bytes → Bytes := fun k m => [UInt8.ofNat (k.length + m.length)]

/-- connect twice without success, then connect, change the load quickly, and become inactive -/
def redirExample : List Op :=
  [.addAuth [1] [2, 2], .setMinInterval 1000, .connect false, .ret [], .tick 5000000, .fire 0 true, .ret [], .exception 10, .ret [], .tick 5000000, .fire 1 true, .ret [], .addAddress [9, 8],
   .setLoadInterval 100, .writable, .ret [7], .setLoadFactor 300, .setLoadFactor 301]

/-- what was set in the example -/
example : wantLoad redirExample = 301 ∧ wantActive redirExample = true ∧ wantAddr [9, 8] redirExample = true ∧ wantAuth [1] redirExample = some [2, 2] := by decide +kernel

set_option synthInstance.maxSize 1000 in
example : (redirRun redirMac (fun _ => true) (init 0) redirExample).map (fun s => (attempts s.out, statuses s.out, s.status, s.frames, s.timers, s.loadChanged)) =
    some ([0, 5000000, 10000000], [.disconnected, .connecting, .badAuth, .connecting, .connected], .connected, [], [⟨2, .load, 10000100⟩], true) := by decide +kernel

example : (redirRun redirMac (fun _ => true) (init 0) redirExample).map (fun s => (msgs 1 s.out, lastOf readLoad (msgs 1 s.out), lastOf readReg (msgs 1 s.out))) =
    some ([[0x1d, 3, 1], [5, 1, 13, 3, 10, 9, 8], [15, 0], [15, 0x82, 0x2c]], some 300, some (.settings true [[9, 8]])) := by decide +kernel

/-- the rest of the load is told when the timer fires; then it is drained and closed -/
example : (redirRun redirMac (fun _ => true) (init 0) (redirExample ++ [.tick 100, .fire 2 true, .setActive false, .close, .tick 100, .setLoadFactor 5])).map
    (fun s => ((msgs 1 s.out).drop 4, lastOf readReg (msgs 1 s.out), s.status)) = some ([[15, 0x82, 0x2d], [0]], some .draining, .closed) := by decide +kernel

/-- the hypotheses of `C55_retries` are met -/
example : (redirRun redirMac (fun _ => true) (init 0) [.connect false, .ret []]).map (fun s => (s.status, s.frames, s.timers)) = some (.disconnected, [], [⟨0, .reconnect, 30000000⟩]) := by decide +kernel

/-- the hypotheses of `C76_opening_partial` are met -/
example : (redirRun redirMac (fun _ => true) (init 0) [.addAuth [1] [2, 2], .connect true, .ret []]).map (fun s => allowed s .writable) = some true := by decide +kernel

/-- C76, the code's shortcoming: what the user calls from inside of the callback for CONNECTED is written before the authentications. -/
theorem C76_not_first : ∃ ops s, Run redirMac (fun _ => true) 0 ops s ∧ s.auth = [([1], [2, 2])] ∧ msgs 0 s.out = [[16, 7], [15, 3], [0x1d, 3, 1], [5, 1, 13], [15, 3]] := by
  have e : (redirRun redirMac (fun _ => true) (init 0) [.addAuth [1] [2, 2], .connect true, .ret [], .writable, .sendUserData [7], .setLoadFactor 3, .ret [9]]).map (fun s => (s.auth, msgs 0 s.out)) =
      some ([([1], [2, 2])], [[16, 7], [15, 3], [0x1d, 3, 1], [5, 1, 13], [15, 3]]) := by decide +kernel
  obtain ⟨s, hs, e⟩ := Option.map_eq_some_iff.mp e
  simp only [Prod.mk.injEq] at e
  exact ⟨_, s, redirRun_run .nil hs, e.1, e.2⟩

end Rtmfp
