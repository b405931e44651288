import Verif.Spec.Sess
import Verif.Lemmas.SendDemo

/-! # Things that can happen to a session, to show that hypotheses can be met -/

namespace Rtmfp
namespace Sess

/-- a packet as it is when the session begins to fill it -/
def plainPacket : PA := PA.initHeader (List.replicate 1200 0) 12 1200 0 none none

theorem plainPacket_only : HeaderOnly plainPacket := ⟨List.replicate 1200 0, 12, 0, none, none, rfl, Nat.le_of_eq List.length_replicate.symm, by decide⟩

/-- some of what can happen, without functions -/
inductive Act where
  | adv (t : Int)
  | opened (p l d : Int)
  | openFlow (i pri : Nat)
  | bind (i fid : Nat)
  | write (i : Nat) (msg : Bytes) (rid k : Nat)
  | send (x pri k k' : Nat)
  | header (sample : Option (Int × Int))
  | ack (i b : Nat) (rs : List (Nat × Nat))
  | exception (i rid k : Nat)
  | ping | pingReply
  | data (r : Nat) (u : Bool)
  | after (w : Nat)
  | moved (x : Nat)
  | recvOpen (r : Nat)
  | recvClose (r : Nat)
  | setIdle (d : Int)
  | alarm | keepalive | idle | burst | delack
  | persist (i : Nat)
  | close

/-- the same in the model -/
def Act.op (now : Int) : Act → Op
  | .adv t => .advance t
  | .opened p l d => .opened p l d
  | .openFlow i pri => .flow (.openFlow i [0x61] none pri)
  | .bind i fid => .flow (.bind i fid)
  | .write i msg rid k => .flow (.write i msg now 1000000000000 1000000000000 rid (SS.demoNames k))
  | .send x pri k k' => .writable x pri plainPacket (fun _ => false) k k'
  | .header sample => .header sample
  | .ack i b rs => .chunk (.ack i b rs)
  | .exception i rid k => .chunk (.exception i rid (SS.demoNames k))
  | .ping => .chunk .ping
  | .pingReply => .chunk .pingReply
  | .data r u => .chunk (.data r u)
  | .after w => .after false w
  | .moved x => .moved x
  | .recvOpen r => .recvOpen r
  | .recvClose r => .recvClose r
  | .setIdle d => .setIdle d
  | .alarm => .alarm
  | .keepalive => .keepalive
  | .idle => .idle
  | .burst => .burst
  | .delack => .delack
  | .persist i => .persist i
  | .close => .close

/-- the flows that were opened, receipts that were issued, and whether the session was opened -/
structure Past where
  flows : List Nat
  rids : List Nat
  was : Bool

def Past.add (h : Past) : Act → Past
  | .opened _ _ _ => { h with was := true }
  | .openFlow i _ => { h with flows := i :: h.flows }
  | .write _ _ rid _ => { h with rids := rid :: h.rids }
  | .exception _ rid _ => { h with rids := rid :: h.rids }
  | _ => h

def due (now : Int) : Option Int → Bool
  | none => false
  | some f => decide (f ≤ now)

/-- it can happen -/
def ok (h : Past) (s : Sess) : Act → Bool
  | .adv t => decide (s.now ≤ t)
  | .opened _ _ _ => !s.ss.isOpen && !s.mid && !h.was
  | .openFlow i pri => decide (pri < 8) && decide ((s.ss.flow i).state = .closed) && !h.flows.contains i
  | .bind i fid => s.ss.isOpen && decide ((s.ss.flow i).state = .opened) && decide (fid < 2 ^ 64) && s.ss.sendFlows.all fun j => decide ((s.ss.flow j).flowId ≠ fid)
  | .write i msg rid k => !h.rids.contains rid && decide (0 < k) && decide (msg.length + 1 < 2 ^ 64) && (s.ss.flow i).queue.all fun f => decide (f.name % 2 ≠ k % 2)
  | .send x pri k _ => !s.mid && decide (pri < 8) && s.listed x pri && (s.ss.sendFlows.all fun i => decide ((s.ss.flow i).flowId < 2 ^ 42 ∧ (s.ss.flow i).nextSn ≤ 2 ^ 42)) && decide (0 < k)
  | .header sample => !s.mid && s.ss.isOpen && (match sample with | none => true | some x => decide (0 ≤ x.1 ∧ DELACK ≤ x.2))
  | .ack i _ _ => s.mid && s.ss.isOpen && (s.ss.flow i).bound
  | .exception i rid k => s.mid && s.ss.isOpen && (s.ss.flow i).bound && !h.rids.contains rid && decide (0 < k) && (s.ss.flow i).queue.all fun f => decide (f.name % 2 ≠ k % 2)
  | .ping | .pingReply => s.mid && s.ss.isOpen
  | .data r _ => s.mid && s.ss.isOpen && s.recvFlows.contains r
  | .after w => s.mid && decide (0 < w)
  | .moved _ => s.mid && s.ss.isOpen
  | .recvOpen r => s.ss.isOpen && !s.recvFlows.contains r
  | .recvClose r => s.recvFlows.contains r
  | .setIdle _ => true
  | .alarm => !s.mid && due s.now s.alarm
  | .keepalive => !s.mid && due s.now s.kaTimer
  | .idle => !s.mid && due s.now s.idleTimer
  | .burst => !s.mid && due s.now s.burstAlarm
  | .delack => !s.mid && due s.now s.delack
  | .persist i => !s.mid && due s.now ((s.persist i).map Prod.fst)
  | .close => s.ss.isOpen

/-- the record says what was done -/
structure Recorded (h : Past) (ops : List Op) : Prop where
  flows : ∀ i m a p, SS.Op.openFlow i m a p ∈ used ops → i ∈ h.flows
  rids : ∀ r, some r ∈ (used ops).map SS.Op.rid → r ∈ h.rids
  was : ∀ a b c, Op.opened a b c ∈ ops → h.was = true

theorem due_iff {now : Int} {o : Option Int} (h : due now o = true) : ∃ f, o = some f ∧ f ≤ now := by
  cases o with
  | none => cases h
  | some f => exact ⟨f, rfl, by simpa [due] using h⟩

theorem ok_allowed {h : Past} {ops : List Op} {s : Sess} {a : Act} (hr : Recorded h ops) (hk : ok h s a = true) : Allowed ops s (a.op s.now) := by
  cases a with
  | adv t => exact (of_decide_eq_true hk : s.now ≤ t)
  | opened p l d =>
    simp only [ok, Bool.and_eq_true, Bool.not_eq_true'] at hk
    exact ⟨hk.1.1, hk.1.2, fun a b c q => by rw [hr.was a b c q] at hk; cases hk.2⟩
  | openFlow i pri =>
    simp only [ok, Bool.and_eq_true, Bool.not_eq_true', decide_eq_true_eq] at hk
    refine ⟨hk.1.1, trivial, hk.1.2, fun m a p q => ?_, fun id q => by cases q⟩
    have := hr.flows i m a p q
    rw [← List.contains_iff_mem, hk.2] at this; cases this
  | bind i fid =>
    simp only [ok, Bool.and_eq_true, decide_eq_true_eq, List.all_eq_true] at hk
    exact ⟨trivial, trivial, hk.1.1.1, hk.1.1.2, hk.1.2, hk.2⟩
  | write i msg rid k =>
    simp only [ok, Bool.and_eq_true, Bool.not_eq_true', decide_eq_true_eq, List.all_eq_true] at hk
    refine ⟨trivial, rfl, fun q => ?_, SS.demoNames_good k hk.1.1.2 _ hk.2, hk.1.2⟩
    have := hr.rids rid q
    rw [← List.contains_iff_mem, hk.1.1.1] at this; cases this
  | send x pri k k' =>
    simp only [ok, Bool.and_eq_true, Bool.not_eq_true', decide_eq_true_eq, List.all_eq_true] at hk
    exact ⟨hk.1.1.1.1, hk.1.1.1.2, hk.1.1.2, plainPacket_only, hk.1.2, fun _ _ => hk.2⟩
  | header sample =>
    simp only [ok, Bool.and_eq_true, Bool.not_eq_true'] at hk
    refine ⟨hk.1.1, hk.1.2, fun x hx => ?_⟩
    rw [hx] at hk
    simpa using hk.2
  | ack i b rs =>
    simp only [ok, Bool.and_eq_true] at hk
    exact ⟨hk.1.1, hk.1.2, hk.2⟩
  | exception i rid k =>
    simp only [ok, Bool.and_eq_true, Bool.not_eq_true', decide_eq_true_eq, List.all_eq_true] at hk
    refine ⟨hk.1.1.1.1.1, hk.1.1.1.1.2, hk.1.1.1.2, fun q => ?_, SS.demoNames_good k hk.1.2 _ hk.2⟩
    have := hr.rids rid q
    rw [← List.contains_iff_mem, hk.1.1.2] at this; cases this
  | ping => simp only [ok, Bool.and_eq_true] at hk; exact ⟨hk.1, hk.2, trivial⟩
  | pingReply => simp only [ok, Bool.and_eq_true] at hk; exact ⟨hk.1, hk.2, trivial⟩
  | data r u => simp only [ok, Bool.and_eq_true, List.contains_iff_mem] at hk; exact ⟨hk.1.1, hk.1.2, hk.2⟩
  | after w => simp only [ok, Bool.and_eq_true, decide_eq_true_eq] at hk; exact hk
  | moved x => simp only [ok, Bool.and_eq_true] at hk; exact hk
  | recvOpen r =>
    simp only [ok, Bool.and_eq_true, Bool.not_eq_true'] at hk
    exact ⟨hk.1, fun q => by rw [← List.contains_iff_mem, hk.2] at q; cases q⟩
  | recvClose r => simp only [ok, List.contains_iff_mem] at hk; exact hk
  | setIdle d => trivial
  | alarm => simp only [ok, Bool.and_eq_true, Bool.not_eq_true'] at hk; exact ⟨hk.1, due_iff hk.2⟩
  | keepalive => simp only [ok, Bool.and_eq_true, Bool.not_eq_true'] at hk; exact ⟨hk.1, due_iff hk.2⟩
  | idle => simp only [ok, Bool.and_eq_true, Bool.not_eq_true'] at hk; exact ⟨hk.1, due_iff hk.2⟩
  | burst => simp only [ok, Bool.and_eq_true, Bool.not_eq_true'] at hk; exact ⟨hk.1, due_iff hk.2⟩
  | delack => simp only [ok, Bool.and_eq_true, Bool.not_eq_true'] at hk; exact ⟨hk.1, due_iff hk.2⟩
  | persist i =>
    simp only [ok, Bool.and_eq_true, Bool.not_eq_true'] at hk
    obtain ⟨f, q1, q2⟩ := due_iff hk.2
    cases hp : s.persist i with
    | none => rw [hp] at q1; cases q1
    | some x => rw [hp] at q1; injection q1 with q1; exact ⟨hk.1, x.1, x.2, by rw [hp], by rw [show x.1 = f from q1]; exact q2⟩
  | close => exact hk

theorem Recorded.add {h : Past} {ops : List Op} (hr : Recorded h ops) (now : Int) (a : Act) : Recorded (h.add a) (ops ++ [a.op now]) := by
  have u : used (ops ++ [a.op now]) = used ops ++ used [a.op now] := by simp [used]
  have k1 : ∀ i, i ∈ h.flows → i ∈ (h.add a).flows := by cases a <;> simp +contextual [Past.add]
  have k2 : ∀ i, i ∈ h.rids → i ∈ (h.add a).rids := by cases a <;> simp +contextual [Past.add]
  have k3 : h.was = true → (h.add a).was = true := by cases a <;> simp +contextual [Past.add]
  refine ⟨fun i m x p q => ?_, fun r q => ?_, fun x y z q => ?_⟩
  · rw [u] at q
    rcases List.mem_append.mp q with q | q
    · exact k1 i (hr.flows i m x p q)
    · cases a <;> simp [used, Act.op] at q
      simp [Past.add, q]
  · rw [u, List.map_append] at q
    rcases List.mem_append.mp q with q | q
    · exact k2 r (hr.rids r q)
    · cases a <;> simp [used, Act.op, SS.Op.rid] at q <;> simp [Past.add, q]
  · rcases List.mem_append.mp q with q | q
    · exact k3 (hr.was x y z q)
    · cases a <;> simp [Act.op] at q
      rfl

/-- everything happens, if it can -/
def play : List Act → Past → Sess → Option (Past × Sess × List Op × List SOut)
  | [], h, s => some (h, s, [], [])
  | a :: l, h, s =>
    if ok h s a then
      match step s (a.op s.now) with
      | none => none
      | some (t, os) => (play l (h.add a) t).map fun r => (r.1, r.2.1, a.op s.now :: r.2.2.1, os ++ r.2.2.2)
    else none

theorem play_next {P : Sess → Prop} (l : List Act) : ∀ {h : Past} {s : Sess} {ops0 ops : List Op} {s0 : Sess} {out : List SOut} {r}, Recorded h ops → Next P ops0 s0 ops s out →
    play l h s = some r → (∀ n r', n ≤ l.length → play (l.take n) h s = some r' → P r'.2.1) → Next P ops0 s0 (ops ++ r.2.2.1) r.2.1 (out ++ r.2.2.2) ∧ Recorded r.1 (ops ++ r.2.2.1) := by
  induction l with
  | nil => intro h s ops0 ops s0 out r hr hx hp _; cases hp; exact ⟨by simpa using hx, by simpa using hr⟩
  | cons a l ih =>
    intro h s ops0 ops s0 out r hr hx hp hP
    rw [play] at hp
    split at hp
    · rename_i hk
      split at hp
      · cases hp
      · rename_i t os hs
        cases hq : play l (h.add a) t with
        | none => rw [hq] at hp; cases hp
        | some r' =>
          rw [hq] at hp
          cases hp
          have ht : P t := hP 1 _ (by simp) (by rw [List.take_succ_cons, play, if_pos hk, hs]; rfl)
          have := ih (hr.add s.now a) (.snoc hx (ok_allowed hr hk) hs ht) hq (fun n r'' hn hq' => by
            have := hP (n + 1) (r''.1, r''.2.1, a.op s.now :: r''.2.2.1, os ++ r''.2.2.2) (by simpa using hn) (by
              rw [List.take_succ_cons, play, if_pos hk, hs]
              show (play (l.take n) (h.add a) t).map _ = _
              rw [hq']; rfl)
            exact this)
          simpa [List.append_assoc] using this
    · cases hp

theorem Next.toRun {P : Sess → Prop} {responder : Bool} {dest : Nat} {ops ops' : List Op} {s t : Sess} {out out' : List SOut} (h : Run responder dest ops s out)
    (k : Next P ops s ops' t out') : Run responder dest ops' t (out ++ out') := by
  induction k with
  | nil hp => rw [List.append_nil]; exact h
  | snoc _ ha hs hp ih => rw [← List.append_assoc]; exact .snoc ih ha hs

/-- what happened, if it could -/
def played (responder : Bool) (dest : Nat) (l : List Act) : Option (Past × Sess × List Op × List SOut) := play l ⟨[], [], false⟩ (init responder dest)

theorem play_run {responder : Bool} {dest : Nat} {l : List Act} {r} (hp : played responder dest l = some r) : Run responder dest r.2.2.1 r.2.1 r.2.2.2 ∧ Recorded r.1 r.2.2.1 := by
  have h0 : Recorded ⟨[], [], false⟩ [] := ⟨(fun _ _ _ _ q => by cases q), (fun _ q => by cases q), (fun _ _ _ q => by cases q)⟩
  obtain ⟨a, b⟩ := play_next (P := fun _ => True) l h0 (.nil trivial) hp (fun _ _ _ _ => trivial)
  exact ⟨by simpa using a.toRun (.nil (responder := responder) (dest := dest)), by simpa using b⟩

/-- a state that is reached -/
theorem demo_exists {responder : Bool} {dest : Nat} (l : List Act) (Q : Sess → Bool) (h : ((played responder dest l).map fun r => Q r.2.1) = some true) :
    ∃ ops s out, Run responder dest ops s out ∧ Q s = true := by
  cases hp : played responder dest l with
  | none => rw [hp] at h; cases h
  | some r =>
    rw [hp] at h
    injection h with h
    exact ⟨_, _, _, (play_run hp).1, h⟩

/-- a state that is reached, and how it goes on -/
theorem demo_next {responder : Bool} {dest : Nat} (l l' : List Act) (P : Sess → Prop) [DecidablePred P] (Q : Sess → Sess → List SOut → Bool)
    (h : ((played responder dest l).bind fun r => (play l' r.1 r.2.1).map fun q => Q r.2.1 q.2.1 q.2.2.2 &&
      (List.range (l'.length + 1)).all fun n => (play (l'.take n) r.1 r.2.1).all fun x => decide (P x.2.1)) = some true) :
    ∃ ops s out ops' t out', Run responder dest ops s out ∧ Next P ops s ops' t out' ∧ Q s t out' = true := by
  cases hp : played responder dest l with
  | none => rw [hp] at h; cases h
  | some r =>
    rw [hp] at h
    cases hq : play l' r.1 r.2.1 with
    | none => simp [hq] at h
    | some q =>
      simp only [Option.bind_some, hq, Option.map_some, Option.some.injEq, Bool.and_eq_true, List.all_eq_true, List.mem_range] at h
      obtain ⟨h1, h2⟩ := h
      have hP : ∀ n r', n ≤ l'.length → play (l'.take n) r.1 r.2.1 = some r' → P r'.2.1 := by
        intro n r' hn hr
        have := h2 n (by omega)
        rw [hr] at this
        simpa using this
      obtain ⟨a, b⟩ := play_run hp
      have h0 : P r.2.1 := hP 0 (r.1, r.2.1, [], []) (Nat.zero_le _) (by rw [List.take_zero]; rfl)
      exact ⟨_, _, _, _, _, _, a, (play_next l' b (.nil h0) hq hP).1, by simpa using h1⟩

/-- everything happens, if it can and `B` permits it -/
def playIf (B : Sess → Act → Bool) : List Act → Past → Sess → Option (Past × Sess × List Op × List SOut)
  | [], h, s => some (h, s, [], [])
  | a :: l, h, s =>
    if ok h s a && B s a then
      match step s (a.op s.now) with
      | none => none
      | some (t, os) => (playIf B l (h.add a) t).map fun r => (r.1, r.2.1, a.op s.now :: r.2.2.1, os ++ r.2.2.2)
    else none

theorem playIf_steps {A : Sess → Op → Prop} {B : Sess → Act → Bool} (hB : ∀ s a, B s a = true → A s (a.op s.now)) (l : List Act) : ∀ {h : Past} {s : Sess} {ops0 ops : List Op} {s0 : Sess}
    {out : List SOut} {r}, Recorded h ops → Steps A ops0 s0 ops s out → playIf B l h s = some r → Steps A ops0 s0 (ops ++ r.2.2.1) r.2.1 (out ++ r.2.2.2) := by
  induction l with
  | nil => intro h s ops0 ops s0 out r hr hx hp; cases hp; simpa using hx
  | cons a l ih =>
    intro h s ops0 ops s0 out r hr hx hp
    rw [playIf] at hp
    split at hp
    · rename_i hk
      rw [Bool.and_eq_true] at hk
      split at hp
      · cases hp
      · rename_i t os hs
        cases hq : playIf B l (h.add a) t with
        | none => rw [hq] at hp; cases hp
        | some r' =>
          rw [hq] at hp
          cases hp
          have := ih (hr.add s.now a) (.snoc hx (hB s a hk.2) (ok_allowed hr hk.1) hs) hq
          simpa [List.append_assoc] using this
    · cases hp

/-- a state that is reached, and how it goes on, as `A` permits -/
theorem demo_steps {responder : Bool} {dest : Nat} {A : Sess → Op → Prop} (B : Sess → Act → Bool) (hB : ∀ s a, B s a = true → A s (a.op s.now)) (l l' : List Act) (Q : Sess → Sess → List SOut → Bool)
    (h : ((played responder dest l).bind fun r => (playIf B l' r.1 r.2.1).map fun q => Q r.2.1 q.2.1 q.2.2.2) = some true) :
    ∃ ops s out ops' t out', Run responder dest ops s out ∧ Steps A ops s ops' t out' ∧ Q s t out' = true := by
  cases hp : played responder dest l with
  | none => rw [hp] at h; cases h
  | some r =>
    rw [hp, Option.bind_some] at h
    cases hq : playIf B l' r.1 r.2.1 with
    | none => rw [hq] at h; cases h
    | some q =>
      rw [hq, Option.map_some] at h
      injection h with h
      obtain ⟨a, b⟩ := play_run hp
      exact ⟨_, _, _, _, _, _, a, playIf_steps hB l' b .nil hq, by simpa using h⟩

/-- `Silence` -/
def quietAct (s : Sess) : Act → Bool
  | .header _ => false
  | .adv t => (match s.alarm with | none => false | some f => decide (t ≤ f))
  | _ => true

theorem quietAct_silence (s : Sess) (a : Act) (h : quietAct s a = true) : Silence s (a.op s.now) := by
  cases a with
  | header => cases h
  | adv t =>
    rw [quietAct] at h
    split at h
    · cases h
    · rename_i f hf
      exact ⟨f, hf, of_decide_eq_true h⟩
  | _ => trivial

/-- a step that can happen -/
theorem demo_step {responder : Bool} {dest : Nat} (l : List Act) (a : Act) (Q : Sess → Sess → List SOut → Bool)
    (h : ((played responder dest l).bind fun r => if ok r.1 r.2.1 a then (step r.2.1 (a.op r.2.1.now)).map fun q => Q r.2.1 q.1 q.2 else none) = some true) :
    ∃ ops s out t os, Run responder dest ops s out ∧ Allowed ops s (a.op s.now) ∧ step s (a.op s.now) = some (t, os) ∧ Q s t os = true := by
  cases hp : played responder dest l with
  | none => rw [hp] at h; cases h
  | some r =>
    rw [hp, Option.bind_some] at h
    obtain ⟨b, c⟩ := play_run hp
    split at h
    · rename_i hk
      cases hs : step r.2.1 (a.op r.2.1.now) with
      | none => rw [hs] at h; cases h
      | some q =>
        rw [hs] at h
        injection h with h
        exact ⟨_, _, _, q.1, q.2, b, ok_allowed c hk, hs, h⟩
    · cases h

instance (s : Sess) (i : Nat) : Decidable (HasData s i) := by unfold HasData; infer_instance
instance (s : Sess) (i : Nat) : Decidable (CanSend s i) := by unfold CanSend; infer_instance

/-- messages for demonstrations -/
def demoMsg (n : Nat) : Bytes := List.replicate n 7

/-- two flows of a session have two messages each to send -/
def demoActs : List Act := [.opened 10000000 30000000 60000000, .openFlow 0 3, .openFlow 1 3, .bind 0 2, .bind 1 3, .write 0 (demoMsg 1000) 1 1, .write 1 (demoMsg 1000) 2 1,
  .write 0 (demoMsg 1000) 3 2, .write 1 (demoMsg 1000) 4 2]

/-- one flow, with a message of seven fragments -/
def demoLong : List Act := [.opened 10000000 30000000 60000000, .openFlow 0 3, .bind 0 2, .write 0 (demoMsg 7000) 1 1]

end Sess
end Rtmfp
