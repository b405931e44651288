import Verif.Lemmas.SessForm

/-! # What one thing that happens does to a session, case by case -/

namespace Rtmfp
namespace Sess

/-- how a session becomes another -/
inductive Way (s : Sess) : Op → Sess → List SOut → Prop
  | advance (t : Int) : Way s (.advance t) { s with now := t } []
  | opened (p l d : Int) : Way s (.opened p l d) { s with ss := { s.ss with isOpen := true }, lastTx := s.now, lastIdle := s.now, epoch := none, period := max p MIN_PERIOD, kaTimer := some s.now, limit := max l MIN_PERIOD, idleLimit := max d MIN_PERIOD, idleTimer := some s.now } []
  | flow {op ss es rd li ps lt} : SS.step s.ss op = some (ss, es) → Adds s rd li → (lt = s.lastIdle ∨ (lt = s.now ∧ ss.sendFlows.length < s.ss.sendFlows.length)) →
      (ss.sendFlows.length < s.ss.sendFlows.length → lt = s.now ∨ ∀ i, (∀ a b c d e f, op ≠ .write i a b c d e f) ∧ (∀ a b c, op ≠ .close i a b c) ∧ op ≠ .lingerAlarm i) →
      Way s (.flow op) { s with ss := ss, ready := rd, listed := li, persist := ps, lastIdle := lt } (es.map .ss)
  | writable {x pri packet gone k k' t os} : Sent s x pri packet gone t os → Way s (.writable x pri packet gone k k') t os
  | header : Way s (.header none) { s with mid := true, anyAcks := false, seenData := false } []
  | headerSample {a b} : Way s (.header (some (a, b))) { s with mid := true, anyAcks := false, seenData := false, srtt := a, mrto := b, erto := max b MIN_ERTO } []
  | ack {i b rs rd li ps es} : Adds s rd li →
      Way s (.chunk (.ack i b rs)) { s with ss := (s.ss.onAck i b rs).1, anyAcks := true, kaOut := false, epoch := none, ready := rd, listed := li, persist := ps } (List.map SOut.ss es)
  | exception {i rid names rd li ps lt es} : Adds s rd li →
      lt = (if (s.ss.onExceptionReport i s.now rid names).1.sendFlows.length < s.ss.sendFlows.length then s.now else s.lastIdle) →
      Way s (.chunk (.exception i rid names)) { s with ss := (s.ss.onExceptionReport i s.now rid names).1, ready := rd, listed := li, persist := ps, lastIdle := lt } (List.map SOut.ss es)
  | ping : Way s (.chunk .ping) { s with lastTx := s.now } [.pong]
  | pingReply : Way s (.chunk .pingReply) { s with kaOut := false, epoch := none } []
  | data {r u li af an dl} : Adds s s.ready li → Way s (.chunk (.data r u)) { s with seenData := true, listed := li, ackFlows := af, ackNow := an, delack := dl } []
  | probe {r li af an dl} : Adds s s.ready li → Way s (.chunk (.probe r)) { s with listed := li, ackFlows := af, ackNow := an, delack := dl } []
  | after {c w li an dl rx} : Adds s s.ready li → s.anyAcks = false → Way s (.after c w) { s with mid := false, listed := li, ackNow := an, delack := dl, rxData := rx } []
  | afterAcks {c w rd li an dl rx bu f} : Adds s rd li → (∀ q, q < 8 → rd q ≠ [] → li s.dest q = true) → s.anyAcks = true → ((∃ g, s.alarm = some g ∧ s.deadline ≤ s.now + s.erto ∧ f = g) ∨ f = s.now + s.erto) →
      Way s (.after c w) { s with mid := false, ready := rd, listed := li, ackNow := an, delack := dl, rxData := rx, burst := bu, burstAlarm := none, ss := (SS.nakLoop s.ss ⟨c, false, 0⟩ s.ss.outs).1, cwnd := w, alarm := some f, deadline := s.now + s.erto, epoch := some (minInf s.epoch s.now) } []
  | moved {x li} : Adds s s.ready li → (∀ q, q < 8 → s.ready q ≠ [] → li x q = true) → Way s (.moved x) { s with dest := x, listed := li } []
  | recvAck {r u li af an dl} : Adds s s.ready li → Way s (.recvAck r u) { s with listed := li, ackFlows := af, ackNow := an, delack := dl } []
  | recvOpen (r : Nat) : Way s (.recvOpen r) { s with recvFlows := r :: s.recvFlows } []
  | recvClose (r : Nat) : Way s (.recvClose r) { s with recvFlows := s.recvFlows.filter (· ≠ r), lastIdle := s.now } []
  | setPeriod {d ka} : ((s.ss.isOpen = true ∧ ka = some s.now) ∨ (s.ss.isOpen = false ∧ ka = s.kaTimer)) → Way s (.setPeriod d) { s with period := max d MIN_PERIOD, kaTimer := ka } []
  | setLimit (d : Int) : Way s (.setLimit d) { s with limit := max d MIN_PERIOD } []
  | setIdle {d it} : ((s.ss.isOpen = true ∧ it = some s.now) ∨ (s.ss.isOpen = false ∧ it = s.idleTimer)) → Way s (.setIdle d) { s with idleLimit := max d MIN_PERIOD, idleTimer := it } []
  /-- the timeout alarm: too early; after the end; nothing was outstanding; for too long; something is lost (with and without an unanswered ping) -/
  | early : s.alarm ≠ none → s.now < s.deadline → Way s .alarm { s with alarm := some s.deadline } []
  | late : s.alarm ≠ none → s.deadline ≤ s.now → s.ss.isOpen = false → Way s .alarm { s with alarm := none, burst := MAX_BURST } []
  | quiet : s.alarm ≠ none → s.deadline ≤ s.now → s.ss.isOpen = true → s.ss.outs = [] → s.kaOut = false →
      Way s .alarm { s with alarm := none, burst := MAX_BURST, cwnd := 3 * MSS, epoch := none, kaTimer := some s.now } []
  | gaveUp {e} : s.alarm ≠ none → s.deadline ≤ s.now → s.ss.isOpen = true → (s.ss.outs ≠ [] ∨ s.kaOut = true) → s.epoch = some e → e + s.limit ≤ s.now →
      Way s .alarm (closeSession { s with alarm := none, burst := MAX_BURST }).1 (.timedOut :: (closeSession { s with alarm := none, burst := MAX_BURST }).2)
  | lost {rd li} : s.alarm ≠ none → s.deadline ≤ s.now → s.ss.isOpen = true → s.ss.outs ≠ [] → s.kaOut = false → (∀ e, s.epoch = some e → s.now < e + s.limit) → Adds s rd li → (∀ q, q < 8 → rd q ≠ [] → li s.dest q = true) →
      Way s .alarm { s with alarm := none, burst := MAX_BURST, ss := s.ss.timeout, ready := rd, listed := li, cwnd := 2 * MSS, erto := max (min (backedOff s.erto) MAX_ERTO) s.mrto } []
  | again {rd li e} : s.alarm ≠ none → s.deadline ≤ s.now → s.ss.isOpen = true → s.kaOut = true → e = max (min (backedOff s.erto) MAX_ERTO) s.mrto → (∀ e, s.epoch = some e → s.now < e + s.limit) → Adds s rd li → (∀ q, q < 8 → rd q ≠ [] → li s.dest q = true) →
      Way s .alarm { s with alarm := some (s.now + e), burst := MAX_BURST, ss := s.ss.timeout, ready := rd, listed := li, cwnd := 2 * MSS, erto := e, kaOut := true, lastTx := s.now, deadline := s.now + e, epoch := some (minInf s.epoch s.now) } [.ping]
  | keepaliveClosed : s.kaTimer ≠ none → s.ss.isOpen = false → Way s .keepalive s []
  | keepaliveEarly : s.kaTimer ≠ none → s.ss.isOpen = true → s.now < s.lastTx + s.period + (if s.responder then s.mrto else 0) →
      Way s .keepalive { s with kaTimer := some (s.lastTx + s.period + (if s.responder then s.mrto else 0)) } []
  | keepalive {f} : s.kaTimer ≠ none → s.ss.isOpen = true → s.lastTx + s.period + (if s.responder then s.mrto else 0) ≤ s.now →
      ((∃ g, s.alarm = some g ∧ s.deadline ≤ s.now + s.erto ∧ f = g) ∨ f = s.now + s.erto) →
      Way s .keepalive { s with kaTimer := none, kaOut := true, lastTx := s.now, alarm := some f, deadline := s.now + s.erto, epoch := some (minInf s.epoch s.now) } [.ping]
  | idleClosed : s.idleTimer ≠ none → s.ss.isOpen = false → Way s .idle s []
  | idleEarly : s.idleTimer ≠ none → s.ss.isOpen = true → s.now < s.lastIdle + s.idleLimit → Way s .idle { s with idleTimer := some (s.lastIdle + s.idleLimit) } []
  | idle : s.idleTimer ≠ none → s.ss.isOpen = true → s.lastIdle + s.idleLimit ≤ s.now → s.ss.sendFlows = [] → s.recvFlows = [] → Way s .idle (closeSession s).1 (.idled :: (closeSession s).2)
  | idleLater : s.idleTimer ≠ none → s.ss.isOpen = true → s.lastIdle + s.idleLimit ≤ s.now → ¬ (s.ss.sendFlows = [] ∧ s.recvFlows = []) → Way s .idle { s with idleTimer := some (s.now + s.idleLimit) } []
  | burst {b li} : s.burstAlarm ≠ none → Adds s s.ready li → 0 < b → (∀ q, q < 8 → s.ready q ≠ [] → li s.dest q = true) → Way s .burst { s with burstAlarm := none, burst := b, listed := li } []
  | delack {li an dl} : s.delack ≠ none → Adds s s.ready li → Way s .delack { s with listed := li, ackNow := an, delack := dl } []
  | persist {i ps} : s.persist i ≠ none → SFState.closing.rank < (s.ss.flow i).state.rank → Way s (.persist i) { s with persist := ps } []
  | persistProbe {i ps} : s.persist i ≠ none → (s.ss.flow i).state.rank ≤ SFState.closing.rank → ps i ≠ none → Way s (.persist i) { s with persist := ps } [.probe i]
  | close : Way s .close (closeSession s).1 (closeSession s).2

theorem ackAtOnce_form (s : Sess) : ∃ li an dl, ackAtOnce s = { s with listed := li, ackNow := an, delack := dl } ∧ Adds s s.ready li := by
  rw [ackAtOnce]
  split
  · dsimp only
    split
    · exact ⟨_, _, _, rfl, .refl s⟩
    · refine ⟨_, _, _, rfl, fun p => ⟨[], (List.append_nil _).symm⟩, fun x p h => ?_⟩
      by_cases hq : x = s.dest ∧ p = PRI_IMMEDIATE
      · show (if _ then true else _) = true; rw [if_pos hq]
      · show (if _ then true else _) = true; rw [if_neg hq]; exact h
  · exact ⟨_, _, _, rfl, .refl s⟩

theorem onTimeout_way {s : Sess} (h : s.alarm ≠ none) : Way s .alarm (onTimeout s).1 (onTimeout s).2 := by
  rw [onTimeout]
  by_cases h1 : s.now < s.deadline
  · rw [if_pos h1]; exact .early h h1
  rw [if_neg h1]
  dsimp only
  have h1' : s.deadline ≤ s.now := by omega
  by_cases h2 : s.ss.isOpen = false
  · rw [if_pos h2]; exact .late h h1' h2
  rw [if_neg h2]
  have h2' : s.ss.isOpen = true := by simpa using h2
  by_cases h3 : s.ss.outs = [] ∧ s.kaOut = false
  · rw [if_pos h3, setKeepaliveAlarm, if_pos h2']; exact .quiet h h1' h2' h3.1 h3.2
  rw [if_neg h3]
  have h3' : s.ss.outs ≠ [] ∨ s.kaOut = true := by
    by_cases e : s.ss.outs = []
    · right; simpa [e] using h3
    · exact Or.inl e
  split
  · rename_i h4
    have : ∃ e, s.epoch = some e ∧ e + s.limit ≤ s.now := by
      cases he : s.epoch with
      | none => rw [he] at h4; cases h4
      | some e => rw [he] at h4; exact ⟨e, rfl, by simpa using h4⟩
    obtain ⟨e, he, hl⟩ := this
    exact .gaveUp h h1' h2' h3' he hl
  rename_i h4
  have h4' : ∀ e, s.epoch = some e → s.now < e + s.limit := by
    intro e he
    rw [he] at h4
    simpa using h4
  obtain ⟨rd, li, e, a⟩ := loseAll_form { s with alarm := none, burst := MAX_BURST }
  rw [e]
  obtain ⟨li', e', a', c'⟩ := reschedule_form { s with alarm := none, burst := MAX_BURST, ss := s.ss.timeout, ready := rd, listed := li, cwnd := 2 * MSS, erto := max (min (backedOff s.erto) MAX_ERTO) s.mrto }
  dsimp only
  rw [e']
  have aa : Adds s rd li' := Adds.trans (t := { s with ready := rd, listed := li }) ⟨a.ready, a.listed⟩ ⟨a'.ready, a'.listed⟩
  by_cases h5 : s.kaOut = true
  · rw [if_pos h5, sendKeepalivePing, rescheduleTimeout]
    exact .again h h1' h2' h5 rfl h4' aa c'
  · rw [if_neg h5]
    exact .lost h h1' h2' (h3'.resolve_right h5) (by simpa using h5) h4' aa c'

theorem step_way {s t : Sess} {op : Op} {os : List SOut} (hs : step s op = some (t, os)) : Way s op t os := by
  cases op with
  | advance x => cases hs; exact .advance x
  | opened p l d => cases hs; exact .opened p l d
  | flow op =>
    rw [step] at hs
    cases hx : SS.step s.ss op with
    | none => rw [hx] at hs; cases hs
    | some x =>
      rw [hx] at hs
      obtain ⟨ss, es⟩ := x
      obtain ⟨rd, li, ps, lt, e, a, b, c⟩ := flowEffects_form s ss op
      have hs' : some (flowEffects s ss op, es.map SOut.ss) = some (t, os) := hs
      rw [e] at hs'
      cases hs'
      exact .flow hx a b c
  | writable x pri packet gone k k' =>
    have hs' : writable s x pri packet gone k k' = (t, os) := by injection hs
    have := writable_form s x pri packet gone k k'
    rw [hs'] at this
    exact .writable this
  | header sample =>
    cases sample with
    | none => cases hs; exact .header
    | some x => obtain ⟨a, b⟩ := x; cases hs; exact .headerSample
  | chunk c =>
    have hs' : onChunk s c = (t, os) := by injection hs
    cases c with
    | ack i b rs =>
      obtain ⟨rd, li, ps, e, a⟩ := onAck_form s i b rs
      have h1 : (onAck s i b rs).1 = t := congrArg Prod.fst hs'
      have h2 : (onAck s i b rs).2 = os := congrArg Prod.snd hs'
      rw [← h1, ← h2, e]
      exact .ack a
    | exception i rid names =>
      obtain ⟨rd, li, ps, lt, e, a, b⟩ := onException_form s i rid names
      have h1 : (onException s i rid names).1 = t := congrArg Prod.fst hs'
      have h2 : (onException s i rid names).2 = os := congrArg Prod.snd hs'
      rw [← h1, ← h2, e]
      exact .exception a b
    | ping => cases hs'; exact .ping
    | pingReply => cases hs'; exact .pingReply
    | data r u =>
      obtain ⟨li, af, an, dl, e, a⟩ := recvAck_form { s with seenData := true } r u
      have hs2 : (recvAck { s with seenData := true } r u, []) = (t, os) := hs'
      rw [e] at hs2
      cases hs2
      exact .data ⟨a.ready, a.listed⟩
    | probe r =>
      obtain ⟨li, af, an, dl, e, a⟩ := recvAck_form s r true
      have hs2 : (recvAck s r true, []) = (t, os) := hs'
      rw [e] at hs2
      cases hs2
      exact .probe a
  | after c w =>
    have hs' : (after s c w, []) = (t, os) := by injection hs
    obtain ⟨rd, li, an, dl, rx, a, b⟩ := after_form s c w
    rcases b with ⟨b1, b2, b3⟩ | ⟨b1, b4, bu, f, b2, b3⟩
    · rw [b3] at hs'; subst b2; cases hs'; exact .after a b1
    · rw [b2] at hs'; cases hs'; exact .afterAcks a b4 b1 b3
  | moved x =>
    have hs' : (moved s x, []) = (t, os) := by injection hs
    obtain ⟨li, e, a, c⟩ := reschedule_form { s with dest := x }
    rw [moved, e] at hs'
    cases hs'
    exact .moved ⟨a.ready, a.listed⟩ c
  | recvAck r u =>
    have hs' : (recvAck s r u, []) = (t, os) := by injection hs
    obtain ⟨li, af, an, dl, e, a⟩ := recvAck_form s r u
    rw [e] at hs'
    cases hs'
    exact .recvAck a
  | recvOpen r => cases hs; exact .recvOpen r
  | recvClose r => cases hs; exact .recvClose r
  | setPeriod d =>
    have hs' : (setKeepaliveAlarm { s with period := max d MIN_PERIOD }, []) = (t, os) := by injection hs
    rw [setKeepaliveAlarm] at hs'
    by_cases h : s.ss.isOpen = true
    · rw [if_pos (by exact h)] at hs'; cases hs'; exact .setPeriod (Or.inl ⟨h, rfl⟩)
    · rw [if_neg (by exact h)] at hs'; cases hs'; exact .setPeriod (Or.inr ⟨by simpa using h, rfl⟩)
  | setLimit d => cases hs; exact .setLimit d
  | setIdle d =>
    have hs' : (setIdle s d, []) = (t, os) := by injection hs
    rw [setIdle] at hs'
    dsimp only at hs'
    by_cases h : s.ss.isOpen = true
    · rw [if_pos h] at hs'; cases hs'; exact .setIdle (Or.inl ⟨h, rfl⟩)
    · rw [if_neg h] at hs'; cases hs'; exact .setIdle (Or.inr ⟨by simpa using h, rfl⟩)
  | alarm =>
    rw [step] at hs
    cases h : s.alarm with
    | none => rw [h] at hs; cases hs
    | some f =>
      rw [h] at hs
      have hs' : onTimeout s = (t, os) := by injection hs
      have := onTimeout_way (s := s) (by rw [h]; simp)
      rw [hs'] at this; exact this
  | keepalive =>
    rw [step] at hs
    cases h : s.kaTimer with
    | none => rw [h] at hs; cases hs
    | some f =>
      rw [h] at hs
      have hs' : onKeepalive s = (t, os) := by injection hs
      have hk : s.kaTimer ≠ none := by rw [h]; simp
      rw [onKeepalive] at hs'
      by_cases h1 : s.ss.isOpen = false
      · rw [if_pos h1] at hs'; cases hs'; exact .keepaliveClosed hk h1
      rw [if_neg h1] at hs'
      have h1' : s.ss.isOpen = true := by simpa using h1
      dsimp only at hs'
      by_cases h2 : s.now < s.lastTx + s.period + (if s.responder = true then s.mrto else 0)
      · rw [if_pos h2] at hs'; cases hs'; exact .keepaliveEarly hk h1' h2
      · rw [if_neg h2, sendKeepalivePing] at hs'
        obtain ⟨f, e, a⟩ := rescheduleTimeout_form { s with kaTimer := none, kaOut := true, lastTx := s.now }
        dsimp only at hs'
        rw [e] at hs'
        cases hs'
        exact .keepalive hk h1' (by omega) a
  | idle =>
    rw [step] at hs
    cases h : s.idleTimer with
    | none => rw [h] at hs; cases hs
    | some f =>
      rw [h] at hs
      have hs' : onIdle s = (t, os) := by injection hs
      have hk : s.idleTimer ≠ none := by rw [h]; simp
      rw [onIdle] at hs'
      by_cases h1 : s.ss.isOpen = false
      · rw [if_pos h1] at hs'; cases hs'; exact .idleClosed hk h1
      rw [if_neg h1] at hs'
      have h1' : s.ss.isOpen = true := by simpa using h1
      by_cases h2 : s.now < s.lastIdle + s.idleLimit
      · rw [if_pos h2] at hs'; cases hs'; exact .idleEarly hk h1' h2
      · rw [if_neg h2] at hs'
        by_cases h3 : s.ss.sendFlows = [] ∧ s.recvFlows = []
        · rw [if_pos h3] at hs'; cases hs'; exact .idle hk h1' (by omega) h3.1 h3.2
        · rw [if_neg h3] at hs'; cases hs'; exact .idleLater hk h1' (by omega) h3
  | burst =>
    rw [step] at hs
    cases h : s.burstAlarm with
    | none => rw [h] at hs; cases hs
    | some f =>
      rw [h] at hs
      have hs' : (onBurst s f, []) = (t, os) := by injection hs
      obtain ⟨li, e, a, c⟩ := reschedule_form { s with burstAlarm := none, burst := MSS + (if s.srtt ≥ BURST_RTT ∧ s.now - f > 0 then (s.now - f) * s.cwnd / s.srtt else 0) }
      rw [onBurst, e] at hs'
      cases hs'
      refine .burst (by rw [h]; simp) ⟨a.ready, a.listed⟩ ?_ c
      have : 0 ≤ (if s.srtt ≥ BURST_RTT ∧ s.now - f > 0 then (s.now - f) * s.cwnd / s.srtt else 0) := by
        split
        · rename_i hq
          have h1 : (0 : Int) ≤ (s.now - f) * s.cwnd := Int.mul_nonneg (by omega) (Int.natCast_nonneg _)
          have h2 : BURST_RTT ≤ s.srtt := hq.1
          exact Int.ediv_nonneg h1 (Int.le_trans (by decide) h2)
        · exact Int.le_refl 0
      show 0 < (MSS : Int) + _
      generalize (if s.srtt ≥ BURST_RTT ∧ s.now - f > 0 then (s.now - f) * (s.cwnd : Int) / s.srtt else 0) = z at *
      have h3 : (0 : Int) < (MSS : Int) := by decide
      omega
  | delack =>
    rw [step] at hs
    cases h : s.delack with
    | none => rw [h] at hs; cases hs
    | some f =>
      rw [h] at hs
      have hs' : (ackAtOnce s, []) = (t, os) := by injection hs
      obtain ⟨li, an, dl, e, a⟩ := ackAtOnce_form s
      rw [e] at hs'
      cases hs'
      exact .delack (by rw [h]; simp) a
  | persist i =>
    rw [step] at hs
    cases h : s.persist i with
    | none => rw [h] at hs; cases hs
    | some f =>
      rw [h] at hs
      have hs' : onPersist s i f.1 f.2 = (t, os) := by injection hs
      rw [onPersist] at hs'
      by_cases h1 : (s.ss.flow i).state.rank > SFState.closing.rank
      · rw [if_pos h1] at hs'; cases hs'; exact .persist (by rw [h]; simp) h1
      · rw [if_neg h1] at hs'; cases hs'; exact .persistProbe (by rw [h]; simp) (by omega) (by simp)
  | close =>
    have hs' : closeSession s = (t, os) := by injection hs
    have h1 : (closeSession s).1 = t := congrArg Prod.fst hs'
    have h2 : (closeSession s).2 = os := congrArg Prod.snd hs'
    rw [← h1, ← h2]
    exact .close

end Sess
end Rtmfp
