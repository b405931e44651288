import Verif.Lemmas.SessAcks
import Verif.Lemmas.SessDemo

/-! # C81: received data is acknowledged in time -/

namespace Rtmfp
open Sess

/-- C81: not forgotten. Data for flow `r` arrived, and as long as the session is open and didn't acknowledge it: the session is in line at an interface to send the acknowledgement, or a
timer for it is set, to at most 200 milliseconds after the data arrived. -/
theorem C81_remembered {responder : Bool} {dest : Nat} {ops ops' : List Op} {s s1 t : Sess} {out out' o : List SOut} {r : Nat} {u : Bool} (h : Run responder dest ops s out)
    (ha : Allowed ops s (.chunk (.data r u))) (hs : step s (.chunk (.data r u)) = some (s1, o)) (k : Next (fun u => u.ss.isOpen = true) (ops ++ [.chunk (.data r u)]) s1 ops' t out')
    (hn : r ∉ acked out') : (t.ackNow = true ∧ ∃ x, t.listed x PRI_IMMEDIATE = true) ∨ ∃ f, t.delack = some f ∧ f ≤ s.now + 200000 := by
  obtain ⟨seg, _, hseg⟩ := owed_next h ha hs k
  obtain ⟨o1, o2, _⟩ := hseg hn
  cases hq : t.ackNow with
  | true => exact Or.inl ⟨rfl, o1.line hq⟩
  | false =>
    right
    cases hd : t.delack with
    | none => exact absurd hd (o1.later hq fun e => by rw [e] at o2; cases o2)
    | some f => exact ⟨f, rfl, o1.due f hd⟩

/-- C81: in time. If that timer is never late, then 200 milliseconds after the data arrived, it is acknowledged, or the session is in line to do so. -/
theorem C81_in_time {responder : Bool} {dest : Nat} {ops ops' : List Op} {s s1 t : Sess} {out out' o : List SOut} {r : Nat} {u : Bool} (h : Run responder dest ops s out)
    (ha : Allowed ops s (.chunk (.data r u))) (hs : step s (.chunk (.data r u)) = some (s1, o))
    (k : Next (fun u => u.ss.isOpen = true ∧ ∀ f, u.delack = some f → u.now ≤ f) (ops ++ [.chunk (.data r u)]) s1 ops' t out') (hn : r ∉ acked out') (ht : s.now + 200000 < t.now) :
    t.ackNow = true ∧ ∃ x, t.listed x PRI_IMMEDIATE = true := by
  rcases C81_remembered h ha hs (k.weaken fun _ q => q.1) hn with q | ⟨f, q1, q2⟩
  · exact q
  · have := (k.run (.snoc h ha hs)).2.2 f q1
    omega

/-- C81: at once, if the receive flow says so, or a second packet with data arrived (and since when data for `r` arrived nothing for `r` was sent). -/
theorem C81_at_once {responder : Bool} {dest : Nat} {ops ops' seg : List Op} {s s1 t : Sess} {out out' o : List SOut} {r : Nat} {u : Bool} (h : Run responder dest ops s out)
    (ha : Allowed ops s (.chunk (.data r u))) (hs : step s (.chunk (.data r u)) = some (s1, o)) (k : Next (fun u => u.ss.isOpen = true) (ops ++ [.chunk (.data r u)]) s1 ops' t out')
    (hn : r ∉ acked out') (he : ops' = ops ++ [.chunk (.data r u)] ++ seg) (hu : u = true ∨ 2 ≤ (seg.foldl countData (true, 0)).2) :
    t.ackNow = true ∧ ∃ x, t.listed x PRI_IMMEDIATE = true := by
  obtain ⟨seg', e, hseg⟩ := owed_next h ha hs k
  obtain ⟨o1, o2, o3, o4, o5, o6⟩ := hseg hn
  have : seg' = seg := List.append_cancel_left (e.symm.trans he)
  subst this
  have : t.ackNow = true := by
    rcases hu with q | q
    · exact o3 q
    · exact o6 q
  exact ⟨this, o1.line this⟩

/-- C81: sent. When acknowledgements are to be sent at once, the session's interface asks and data for `r` arrived that wasn't acknowledged, it sends a packet with acknowledgements. Flows
take turns: that of `r` is among them, or its turn comes nearer. At another interface the session moves to its own. -/
theorem C81_sent {responder : Bool} {dest : Nat} {ops ops' : List Op} {s s1 t v : Sess} {out out' o os : List SOut} {r : Nat} {u : Bool} (h : Run responder dest ops s out)
    (ha : Allowed ops s (.chunk (.data r u))) (hs : step s (.chunk (.data r u)) = some (s1, o)) (k : Next (fun u => u.ss.isOpen = true) (ops ++ [.chunk (.data r u)]) s1 ops' t out')
    (hn : r ∉ acked out') (hnow : t.ackNow = true) {x pri kk kk' : Nat} {packet : PA} {gone : Nat → Bool} (hw : Allowed ops' t (.writable x pri packet gone kk kk'))
    (hv : step t (.writable x pri packet gone kk kk') = some (v, os)) :
    (x = t.dest → acked os ≠ [] ∧ (r ∈ acked os ∨ v.ackFlows.idxOf r < t.ackFlows.idxOf r)) ∧ (x ≠ t.dest → v.listed t.dest pri = true ∧ v.ackNow = true) := by
  obtain ⟨seg', e, hseg⟩ := owed_next h ha hs k
  obtain ⟨o1, o2, _⟩ := hseg hn
  have ho := (k.run (.snoc h ha hs)).2
  have hv' : writable t x pri packet gone kk kk' = (v, os) := by injection hv
  constructor
  · rintro rfl
    obtain ⟨c1, _, _, c4⟩ := writable_acks ho hw.2.2.2.2.2 hv'
    have hne : acked os ≠ [] := c4 hnow fun e => by rw [e] at o2; cases o2
    refine ⟨hne, ?_⟩
    by_cases hm : r ∈ acked os
    · exact Or.inl hm
    · right
      rw [c1, List.idxOf_append, if_neg hm]
      have := List.length_pos_iff.mpr hne
      omega
  · intro hx
    rw [writable, if_pos hx] at hv'
    obtain ⟨rfl, rfl⟩ := Prod.mk.inj hv'
    refine ⟨?_, hnow⟩
    show (if t.dest = x ∧ pri = pri then false else if t.dest = t.dest ∧ pri = pri then true else _) = true
    rw [if_neg (fun e => hx e.1.symm), if_pos ⟨rfl, rfl⟩]

/-! ## examples -/

/-- something happens to a session, how it goes on, and something at the end -/
theorem demo_after {responder : Bool} {dest : Nat} (l : List Act) (a : Act) (l' : List Act) (b : Act) (P : Sess → Prop) [DecidablePred P] (Q : Sess → List Op → Sess → List SOut → List SOut → Bool)
    (h : ((played responder dest l).bind fun r => if ok r.1 r.2.1 a then (step r.2.1 (a.op r.2.1.now)).bind fun m => (play l' (r.1.add a) m.1).bind fun q =>
      if ok q.1 q.2.1 b then (step q.2.1 (b.op q.2.1.now)).map fun e => Q r.2.1 q.2.2.1 q.2.1 q.2.2.2 e.2 && (List.range (l'.length + 1)).all fun n =>
        (play (l'.take n) (r.1.add a) m.1).all fun x => decide (P x.2.1) else none else none) = some true) :
    ∃ ops s out s1 o seg t out' v os, Run responder dest ops s out ∧ Allowed ops s (a.op s.now) ∧ step s (a.op s.now) = some (s1, o) ∧
      Next P (ops ++ [a.op s.now]) s1 (ops ++ [a.op s.now] ++ seg) t out' ∧ Allowed (ops ++ [a.op s.now] ++ seg) t (b.op t.now) ∧ step t (b.op t.now) = some (v, os) ∧ Q s seg t out' os = true := by
  cases hp : played responder dest l with
  | none => rw [hp] at h; cases h
  | some r =>
    rw [hp, Option.bind_some] at h
    obtain ⟨h1, h2⟩ := play_run hp
    split at h
    · rename_i hk
      cases hm : step r.2.1 (a.op r.2.1.now) with
      | none => rw [hm] at h; cases h
      | some m =>
        rw [hm, Option.bind_some] at h
        cases hq : play l' (r.1.add a) m.1 with
        | none => rw [hq] at h; cases h
        | some q =>
          rw [hq, Option.bind_some] at h
          split at h
          · rename_i hb
            cases he : step q.2.1 (b.op q.2.1.now) with
            | none => rw [he] at h; cases h
            | some e =>
              rw [he, Option.map_some] at h
              simp only [Option.some.injEq, Bool.and_eq_true, List.all_eq_true, List.mem_range] at h
              obtain ⟨h3, h4⟩ := h
              have hP : ∀ n r', n ≤ l'.length → play (l'.take n) (r.1.add a) m.1 = some r' → P r'.2.1 := by
                intro n r' hn hr
                have := h4 n (by omega)
                rw [hr] at this
                simpa using this
              have h0 : P m.1 := hP 0 (r.1.add a, m.1, [], []) (Nat.zero_le _) (by rw [List.take_zero]; rfl)
              obtain ⟨k1, k2⟩ := play_next l' (h2.add r.2.1.now a) (.nil h0) hq hP
              exact ⟨_, _, _, m.1, m.2, q.2.2.1, q.2.1, _, e.1, e.2, h1, ok_allowed h2 hk, hm, k1, ok_allowed k2 hb, he, by simpa using h3⟩
          · cases h
    · cases h

/-- a flow is received -/
def receiving : List Act := [.opened 10000000 30000000 60000000, .header none, .recvOpen 7, .recvOpen 8]

/-- data arrived 150 milliseconds ago; after 50 more milliseconds the timer fires, the session gets in line and sends the acknowledgement -/
example : ∃ ops s out s1 o seg t out' v os, Run false 9 ops s out ∧ Allowed ops s (.chunk (.data 7 false)) ∧ step s (.chunk (.data 7 false)) = some (s1, o) ∧
    Next (fun u => u.ss.isOpen = true) (ops ++ [.chunk (.data 7 false)]) s1 (ops ++ [.chunk (.data 7 false)] ++ seg) t out' ∧ Allowed (ops ++ [.chunk (.data 7 false)] ++ seg) t .delack ∧
    step t .delack = some (v, os) ∧ decide (7 ∉ acked out' ∧ t.now = 200000 ∧ t.ackNow = false) = true :=
  demo_after receiving (.data 7 false) [.after 5000, .adv 150000, .adv 200000] .delack _ _ (by decide +kernel)

/-- two packets with data arrived, and 100 milliseconds later the interface asks; both flows are acknowledged -/
example : ∃ ops s out s1 o seg t out' v os, Run false 9 ops s out ∧ Allowed ops s (.chunk (.data 7 false)) ∧ step s (.chunk (.data 7 false)) = some (s1, o) ∧
    Next (fun u => u.ss.isOpen = true) (ops ++ [.chunk (.data 7 false)]) s1 (ops ++ [.chunk (.data 7 false)] ++ seg) t out' ∧
    Allowed (ops ++ [.chunk (.data 7 false)] ++ seg) t (.writable 9 5 plainPacket (fun _ => false) 2 0) ∧ step t (.writable 9 5 plainPacket (fun _ => false) 2 0) = some (v, os) ∧
    decide (7 ∉ acked out' ∧ 2 ≤ (seg.foldl countData (true, 0)).2 ∧ t.ackNow = true ∧ acked os = [7, 8]) = true :=
  demo_after receiving (.data 7 false) [.after 5000, .header none, .data 8 false, .after 5000, .adv 100000] (.send 9 5 2 0) _ _ (by decide +kernel)

/-- the flow asks for it, and more than 200 milliseconds later no interface has asked yet; the session is still in line and the acknowledgement goes out -/
example : ∃ ops s out s1 o seg t out' v os, Run false 9 ops s out ∧ Allowed ops s (.chunk (.data 7 true)) ∧ step s (.chunk (.data 7 true)) = some (s1, o) ∧
    Next (fun u => u.ss.isOpen = true ∧ (u.delack.all fun f => decide (u.now ≤ f)) = true) (ops ++ [.chunk (.data 7 true)]) s1 (ops ++ [.chunk (.data 7 true)] ++ seg) t out' ∧
    Allowed (ops ++ [.chunk (.data 7 true)] ++ seg) t (.writable 9 5 plainPacket (fun _ => false) 1 0) ∧ step t (.writable 9 5 plainPacket (fun _ => false) 1 0) = some (v, os) ∧
    decide (7 ∉ acked out' ∧ s.now + 200000 < t.now ∧ t.ackNow = true ∧ acked os = [7]) = true :=
  demo_after receiving (.data 7 true) [.after 5000, .adv 200001] (.send 9 5 1 0) _ _ (by decide +kernel)

end Rtmfp
