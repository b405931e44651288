import Verif.Lemmas.TCStream
/-! # C53: transactions get their own response once; C68: the streams of a connection -/
namespace Rtmfp
open TCConn
open AMF (Val)

/-- 1.0, 2.0, 3.0, 7.0, 0.5 and a number that is not a number -/
private abbrev d1 : UInt64 := 0x3ff0000000000000
private abbrev d2 : UInt64 := 0x4000000000000000
private abbrev d3 : UInt64 := 0x4008000000000000
private abbrev d7 : UInt64 := 0x401c000000000000
private abbrev dHalf : UInt64 := 0x3fe0000000000000
private abbrev dNaN : UInt64 := 0x7ff8000000000000

private def runs : List TCConn.Op → St → List Ev → Option (St × List Ev)
  | [], st, evs => some (st, evs)
  | op :: ops, st, evs => (step st op).bind (fun r => runs ops r.1 (evs ++ r.2))

private theorem runs_run (ops : List TCConn.Op) : ∀ (ops0 : List TCConn.Op) (st : St) (evs : List Ev) st' evs', Run ops0 st evs →
    runs ops st evs = some (st', evs') → Run (ops0 ++ ops) st' evs' := by
  induction ops with
  | nil =>
    intro ops0 st evs st' evs' h hr
    simp only [runs, Option.some.injEq, Prod.mk.injEq] at hr
    obtain ⟨rfl, rfl⟩ := hr
    simpa using h
  | cons op ops ih =>
    intro ops0 st evs st' evs' h hr
    simp only [runs, Option.bind_eq_some_iff] at hr
    obtain ⟨⟨st1, evs1⟩, h1, h2⟩ := hr
    have := ih (ops0 ++ [op]) st1 (evs ++ evs1) st' evs' (Run.step h h1) h2
    simpa using this

/-- connect, answered; a stream is created and a transaction queued; the stream is opened as 7, an unknown id is answered; closed with the transaction unanswered -/
private def demoOps : List TCConn.Op :=
  [.connect 100 true, .response true d1 [.null], .createStream true, .transact 101 "play" true, .response true d2 [.num d7], .response true d7 [],
   .close false, .transact 102 "late" true, .closeNext, .closeEnd]

/-- what is seen, in short -/
private def brief : Ev → List Nat
  | .sent t h _ => [0, t, h]
  | .invoked t h _ s _ => [1, t, h, if s then 1 else 0]
  | .opened i id => [2, i, id]
  | .status f => [3, if f then 1 else 0]
  | .closed => [4]

example : (runs demoOps {} []).map (fun r => r.2.map brief) =
    some [[0, 1, 100], [1, 1, 100, 1], [0, 2, 0], [0, 3, 101], [1, 2, 0, 1], [2, 0, 7], [3, 0], [1, 3, 101, 0], [4]] := by decide +kernel

private theorem demo_run (ops : List TCConn.Op) (f : St × List Ev → Bool) (h : (runs ops {} []).map f = some true) : ∃ st evs, Run ops st evs ∧ f (st, evs) = true := by
  cases hr : runs ops {} [] with
  | none => rw [hr] at h; simp at h
  | some r =>
    rw [hr] at h
    refine ⟨r.1, r.2, by simpa using runs_run ops [] {} [] r.1 r.2 Run.nil hr, by simpa using h⟩

/-- **At most once, and ids are not reused.** In every history of fewer than 2^53 events: the requests' ids increase; no handler is invoked twice for the same request,
and none without a request. -/
theorem C53_once (ops : List TCConn.Op) (st : St) (evs : List Ev) (h : Run ops st evs) (hl : ops.length < 2 ^ 53) :
    (sents evs).Pairwise (fun a b => a.tid < b.tid) ∧ (invs evs).Nodup ∧ ∀ t ∈ invs evs, t ∈ sents evs := by
  have hI := (run_inv h).2 hl
  exact ⟨hI.ids, hI.nodup, hI.sub⟩

example : ∃ st evs, Run demoOps st evs ∧ (decide ((sents evs).length = 3 ∧ (invs evs).length = 3)) = true :=
  demo_run demoOps (fun r => decide ((sents r.2).length = 3 ∧ (invs r.2).length = 3)) (by decide +kernel)

private theorem own_find {ops : List TCConn.Op} {st : St} {evs : List Ev} (h : Run ops st evs) (hI : Inv st evs) (hcn : st.closing = none)
    (t : Tx) (ht : t ∈ unanswered evs) (b : UInt64) (hb : IsWhole b t.tid) : findTx st.txs b = some t := by
  have hp : TCConn.pend st = st.txs := by rw [TCConn.pend, hcn]
  have hsort := hI.pendSorted
  have htp : t ∈ st.txs := by rw [← hp, hI.pend]; exact ht
  rw [findTx, isWhole_not_nan b _ hb, if_neg (by simp)]
  have hpos : ∀ x ∈ st.txs, 1 ≤ x.tid := by
    intro x hx
    rw [← hp, hI.pend, mem_unanswered] at hx
    exact (sents_pos h).2 x hx.1
  cases hf : st.txs.find? (fun t => isNat b t.tid) with
  | none =>
    rw [List.find?_eq_none] at hf
    exact absurd ((isNat_iff b t.tid (hpos t htp)).mpr hb) (hf t htp)
  | some u =>
    have hu := List.find?_some hf
    have hum := List.mem_of_find?_eq_some hf
    have := (isNat_iff b u.tid (hpos u hum)).mp hu
    have he : u.tid = t.tid := isWhole_unique b _ _ this hb
    rw [hp] at hsort
    have := filter_remove st.txs hsort t htp
    have hne : ¬ (u ≠ t) := by
      intro hne
      have h1 : u ∈ st.txs.filter (fun x => decide (x ≠ t)) := List.mem_filter.mpr ⟨hum, by simp [hne]⟩
      rw [← this] at h1
      have := (List.mem_filter.mp h1).2
      simp [he] at this
    rw [Classical.not_not.mp hne]

/-- **Its own response.** A response whose id is the number of a request that was queued and not answered invokes the handler of that request, with the kind of the
response and the first value that it carries (or with Undefined), and no other. -/
theorem C53_own_response (ops : List TCConn.Op) (st : St) (evs : List Ev) (h : Run ops st evs) (hl : ops.length < 2 ^ 53)
    (success : Bool) (b : UInt64) (args : List Val) (st' : St) (evs' : List Ev) (hs : step st (.response success b args) = some (st', evs'))
    (t : Tx) (ht : t ∈ unanswered evs) (hb : IsWhole b t.tid) :
    ∃ more, evs' = .invoked t.tid t.h t.kind success (some (args.head?.getD .undef)) :: more ∧ invs more = [] := by
  have hI := (run_inv h).2 hl
  obtain ⟨hc, hs⟩ := guard_some hs
  have hcn : st.closing = none := by cases hcc : st.closing <;> simp_all
  have hfind := own_find h hI hcn t ht b hb
  rw [onTransactionResponse, hfind] at hs
  cases hs
  refine ⟨_, rfl, ?_⟩
  rw [handler]
  split
  · rfl
  · rfl
  · rw [streamResponse]
    split
    · split
      · exact (beginClose_silent _ _).2
      · split
        · rfl
        · split <;> rfl
    · exact (beginClose_silent _ _).2

/-- the second request of the demonstration (id 3) is unanswered before the connection is closed, and 3.0 is its id -/
example : ∃ st evs, Run (demoOps.take 6) st evs ∧ (decide ((⟨3, 101, .user⟩ : Tx) ∈ unanswered evs)) = true :=
  demo_run (demoOps.take 6) (fun r => decide ((⟨3, 101, .user⟩ : Tx) ∈ unanswered r.2)) (by decide +kernel)
example : IsWhole d3 3 := by
  refine ⟨by decide, by decide, by decide, ?_⟩
  decide +kernel

/-- **Unknown ids**, as far as it holds: a response whose id is a number, but not that of an unanswered request, changes nothing and nothing is observed. Missing: ids
that are not numbers (`C53_not_a_number`). -/
theorem C53_unknown_partial (ops : List TCConn.Op) (st : St) (evs : List Ev) (h : Run ops st evs) (hl : ops.length < 2 ^ 53)
    (success : Bool) (b : UInt64) (args : List Val) (st' : St) (evs' : List Ev) (hs : step st (.response success b args) = some (st', evs'))
    (hn : ¬ IsNaN b) (hu : ∀ t ∈ unanswered evs, ¬ IsWhole b t.tid) : st' = st ∧ evs' = [] := by
  have hI := (run_inv h).2 hl
  obtain ⟨hc, hs⟩ := guard_some hs
  have hcn : st.closing = none := by cases hcc : st.closing <;> simp_all
  have hp : TCConn.pend st = st.txs := by rw [TCConn.pend, hcn]
  have hfind : findTx st.txs b = none := by
    rw [findTx, if_neg (fun hx => hn ((isNaN_iff b).mp hx)), List.find?_eq_none]
    intro x hx hxx
    have hx' : x ∈ unanswered evs := by rw [← hI.pend, hp]; exact hx
    have hpos := (sents_pos h).2 x ((mem_unanswered _ _).mp hx').1
    exact hu x hx' ((isNat_iff b x.tid hpos).mp hxx)
  rw [onTransactionResponse, hfind] at hs
  cases hs
  exact ⟨rfl, rfl⟩

/-- 7.0 is a number and not the id of an unanswered request after six events of the demonstration; a response is possible then -/
example : ¬ IsNaN d7 ∧ ¬ IsWhole d7 3 := by
  constructor
  · intro h; exact absurd h.1 (by decide)
  · intro h; exact absurd h.2.2.2 (by decide +kernel)

/-- **Ids that are not numbers** answer the first of the unanswered requests: the keys of the map are compared with `<`. -/
theorem C53_not_a_number : IsNaN dNaN ∧ (∀ n, ¬ IsWhole dNaN n) ∧ (runs [.connect 100 true, .response true dNaN [.null]] {} []).map (fun r => r.2.map brief) = some [[0, 1, 100], [1, 1, 100, 1]] := by
  refine ⟨⟨by decide, by decide⟩, ?_, by decide +kernel⟩
  intro n h
  exact h.2.2.1 (by decide)

/-- **Failure only when the connection ends, and then for all.** A handler is invoked by anything else than a response only after the connection's end was reported, with
failure and no result; when the connection is closed (`onClose` was invoked), every request's handler was invoked exactly once; after the end was reported no more requests are
queued. -/
theorem C53_close (ops : List TCConn.Op) (st : St) (evs : List Ev) (h : Run ops st evs) (hl : ops.length < 2 ^ 53) :
    (∀ op st' evs', step st op = some (st', evs') → (∀ s b a, op ≠ .response s b a) → ∀ t h k s r, .invoked t h k s r ∈ evs' → 0 < nStatus evs ∧ s = false ∧ r = none) ∧
    (0 < nClosed evs → ∀ t ∈ sents evs, (invs evs).count t = 1) ∧
    (0 < nStatus evs → ∀ op st' evs', step st op = some (st', evs') → sents evs' = []) := by
  have hI := (run_inv h).2 hl
  have hL := run_life h
  refine ⟨?_, ?_, ?_⟩
  · intro op st' evs' hs hop t x k s r hm
    have none_inv : ∀ (l : List Ev), invs l = [] → ¬ (Ev.invoked t x k s r ∈ l) := by
      intro l hl hm
      have : (⟨t, x, k⟩ : Tx) ∈ invs l := by
        rw [invs, List.mem_filterMap]
        exact ⟨_, hm, rfl⟩
      rw [hl] at this
      simp at this
    have tr : ∀ (st : St) a b c, invs (basicTransact st a b c).2 = [] := by
      intro st a b c; cases c <;> rfl
    have sr : ∀ (st : St) i s r, invs (streamResponse st i s r).2 = [] := by
      intro st i s r
      rw [streamResponse]
      split
      · split
        · exact (beginClose_silent _ _).2
        · split
          · rfl
          · split <;> rfl
      · exact (beginClose_silent _ _).2
    cases op with
    | connect y w =>
      obtain ⟨-, hs⟩ := guard_some hs
      rw [connect] at hs
      split at hs
      · cases hs; simp at hm
      · have := tr st y .connect w; rw [hs] at this; exact absurd hm (none_inv _ this)
    | transact y name w =>
      obtain ⟨-, hs⟩ := guard_some hs
      rw [transact] at hs
      split at hs
      · cases hs; simp at hm
      · have := tr st y .user w; rw [hs] at this; exact absurd hm (none_inv _ this)
    | createStream w =>
      obtain ⟨-, hs⟩ := guard_some hs
      rw [createStream] at hs
      split at hs
      · cases hs; simp at hm
      · have := tr { st with streams := st.streams ++ [⟨true, 0⟩] } 0 (.stream st.streams.length) w; rw [hs] at this; exact absurd hm (none_inv _ this)
    | deleteStream i =>
      obtain ⟨-, hs⟩ := guard_some hs
      cases hs; simp at hm
    | close e =>
      obtain ⟨-, hs⟩ := guard_some hs
      have := (beginClose_silent st e).2; rw [hs] at this; exact absurd hm (none_inv _ this)
    | response s' b a => exact absurd rfl (hop s' b a)
    | connectEnd =>
      obtain ⟨-, hs⟩ := guard_some hs
      have := (beginClose_silent { st with connectFailed := false } true).2; rw [hs] at this; exact absurd hm (none_inv _ this)
    | closeNext =>
      rw [step] at hs
      split at hs
      · rename_i t' rest hcl
        obtain ⟨-, hs⟩ := guard_some hs
        cases hs
        have hu := hL.closing (by rw [hcl]; rfl)
        rcases List.mem_cons.mp hm with he | hm
        · cases he
          refine ⟨?_, rfl, rfl⟩
          rw [hL.status, hu]; decide
        · exfalso
          revert hm
          apply none_inv
          rw [handler]
          split
          · rfl
          · rfl
          · exact sr _ _ _ _
      · simp at hs
    | closeEnd =>
      rw [step] at hs
      split at hs
      · obtain ⟨-, hs⟩ := guard_some hs
        rw [closeEnd] at hs
        dsimp only at hs
        split at hs
        · cases hs; simp at hm
        · cases hs; simp at hm
      · simp at hs
  · intro hc t ht
    have hcl := hL.closed
    have h3 : st.userOpen = false ∧ st.closing = none := by
      cases h1 : st.userOpen <;> cases h2 : st.closing <;> simp_all
    have htx := hI.done h3.1 h3.2
    have hp := hI.pend
    rw [TCConn.pend, h3.2] at hp
    have hp : st.txs = unanswered evs := hp
    rw [htx] at hp
    have hti : t ∈ invs evs := by
      apply Classical.byContradiction
      intro hn
      have := (mem_unanswered evs t).mpr ⟨ht, hn⟩
      rw [← hp] at this
      simp at this
    exact List.Nodup.count hI.nodup ▸ (by simp [hti])
  · intro hst op st' evs' hs
    have hu : st.userOpen = false := by
      have := hL.status
      cases h1 : st.userOpen <;> simp_all
    have := (run_inv (Run.step h hs)).1
    cases op with
    | connect y w =>
      obtain ⟨-, hs⟩ := guard_some hs
      rw [connect, hu, if_pos (by simp)] at hs
      cases hs; rfl
    | transact y name w =>
      obtain ⟨-, hs⟩ := guard_some hs
      rw [transact, if_pos (by simp [validateCommandName, hu])] at hs
      cases hs; rfl
    | createStream w =>
      obtain ⟨-, hs⟩ := guard_some hs
      rw [createStream, hu, if_pos (by simp)] at hs
      cases hs; rfl
    | deleteStream i =>
      obtain ⟨-, hs⟩ := guard_some hs
      cases hs; rfl
    | close e =>
      obtain ⟨-, hs⟩ := guard_some hs
      have := (beginClose_silent st e).1; rw [hs] at this; exact this
    | response s b a =>
      obtain ⟨-, hs⟩ := guard_some hs
      rw [onTransactionResponse] at hs
      split at hs
      · cases hs; rfl
      · cases hs
        show sents (handler _ _ _ _).2 = []
        rw [handler]
        split
        · rfl
        · rfl
        · rw [streamResponse]
          split
          · split
            · exact (beginClose_silent _ _).1
            · split
              · rfl
              · split <;> rfl
          · exact (beginClose_silent _ _).1
    | connectEnd =>
      obtain ⟨-, hs⟩ := guard_some hs
      have := (beginClose_silent { st with connectFailed := false } true).1; rw [hs] at this; exact this
    | closeNext =>
      rw [step] at hs
      split at hs
      · obtain ⟨-, hs⟩ := guard_some hs
        cases hs
        show sents (handler _ _ _ _).2 = []
        rw [handler]
        split
        · rfl
        · rfl
        · rw [streamResponse]
          split
          · split
            · exact (beginClose_silent _ _).1
            · split
              · rfl
              · split <;> rfl
          · exact (beginClose_silent _ _).1
      · simp at hs
    | closeEnd =>
      rw [step] at hs
      split at hs
      · obtain ⟨-, hs⟩ := guard_some hs
        rw [closeEnd] at hs
        dsimp only at hs
        split at hs
        · cases hs; rfl
        · cases hs; rfl
      · simp at hs

/-- in the demonstration the connection is closed -/
example : ∃ st evs, Run demoOps st evs ∧ (decide (0 < nClosed evs ∧ (sents evs).length = 3)) = true :=
  demo_run demoOps (fun r => decide (0 < nClosed r.2 ∧ (sents r.2).length = 3)) (by decide +kernel)

/-- **The end comes, and is told once.** The end of the connection is reported at most once and `onClose` is invoked at most once, after it; once the end was reported, closing goes
on with the next of the unanswered requests or, if there are none, finishes: it takes as many further steps as there are unanswered requests, and one. -/
theorem C53_end (ops : List TCConn.Op) (st : St) (evs : List Ev) (h : Run ops st evs) (hl : ops.length < 2 ^ 53) :
    nClosed evs ≤ nStatus evs ∧ nStatus evs ≤ 1 ∧
    (nStatus evs = 1 → nClosed evs = 0 → st.aborted = false →
      (unanswered evs ≠ [] → ∃ st' evs', step st .closeNext = some (st', evs') ∧ (unanswered (evs ++ evs')).length + 1 = (unanswered evs).length) ∧
      (unanswered evs = [] → ∃ st' evs', step st .closeEnd = some (st', evs'))) := by
  have hI := (run_inv h).2 hl
  have hL := run_life h
  refine ⟨?_, ?_, ?_⟩
  · rw [hL.status, hL.closed]
    cases st.userOpen <;> simp
    split <;> omega
  · rw [hL.status]; split <;> omega
  · intro h1 h2 ha
    have hu : st.userOpen = false := by
      have := hL.status
      cases hx : st.userOpen <;> simp_all
    have hc : ∃ r, st.closing = some r := by
      have := hL.closed
      rw [hu, ha, h2] at this
      cases hx : st.closing with
      | none => rw [hx] at this; simp at this
      | some r => exact ⟨r, rfl⟩
    obtain ⟨r, hr⟩ := hc
    have hp := hI.pend
    rw [TCConn.pend, hr] at hp
    have hp : r = unanswered evs := hp
    constructor
    · intro hne
      cases r with
      | nil => exact absurd hp.symm hne
      | cons t rest =>
        have hs : step st .closeNext = some (closeNext st t rest) := by rw [step, hr]; simp [ha]
        refine ⟨(closeNext st t rest).1, (closeNext st t rest).2, hs, ?_⟩
        have hI' := (run_inv h).2 hl
        have hb : st.nextTID < 2 ^ 53 + 1 := by have := (run_inv h).1; omega
        -- the invariant for the next state does not need another id
        have hne : st.nextTID < 2 ^ 53 ∨ st.nextTID = 2 ^ 53 := by omega
        have key : Inv { st with closing := some rest } (evs ++ [.invoked t.tid t.h t.kind false none]) := by
          have hp2 : TCConn.pend st = t :: rest := by rw [TCConn.pend, hr]
          have hsort := hI.pendSorted
          rw [hp2, List.pairwise_cons] at hsort
          apply hI.take t (by rw [hp2]; simp)
          · rw [hp2]
            show rest = _
            rw [List.filter_cons_of_neg (by simp)]
            symm
            rw [List.filter_eq_self]
            intro x hx
            have := hsort.1 x hx
            have hne : x ≠ t := by intro he; subst he; omega
            simp [hne]
          · rfl
          · rfl
          · rw [hr]; rfl
          · intro hx; simp at hx
        have hk := key.handler t false none
        have hp3 := hk.pend
        have hcl : (handler { st with closing := some rest } t false none).1.closing = some rest := by
          rw [handler]
          split
          · rfl
          · rfl
          · rename_i i hi
            rw [streamResponse]
            simp only [if_neg Bool.false_ne_true]
            rw [beginClose]
            have hsame := strmDelete_same { st with closing := some rest } i
            rw [if_pos (by rw [hsame.userOpen]; simp [hu])]
            exact hsame.closing
        rw [TCConn.pend, hcl] at hp3
        have hp3 : rest = _ := hp3
        have e : evs ++ (closeNext st t rest).2 = evs ++ [.invoked t.tid t.h t.kind false none] ++ (handler { st with closing := some rest } t false none).2 := by
          rw [closeNext]; simp
        rw [e, ← hp3, ← hp]
        simp
    · intro he
      rw [he] at hp
      subst hp
      exact ⟨_, _, by rw [step, hr]; simp [ha]; rfl⟩

/-- while the demonstration's connection is being closed, one request is unanswered -/
example : ∃ st evs, Run (demoOps.take 8) st evs ∧ (decide (nStatus evs = 1 ∧ nClosed evs = 0 ∧ st.aborted = false ∧ unanswered evs ≠ [])) = true :=
  demo_run (demoOps.take 8) (fun r => decide (nStatus r.2 = 1 ∧ nClosed r.2 = 0 ∧ r.1.aborted = false ∧ unanswered r.2 ≠ [])) (by decide +kernel)

/-! ## C68: streams -/

/-- **Ids of streams.** In every history, open streams have different ids; a message for an id other than 0 goes to the open stream that has it, and to nothing if there is
none; each stream is opened at most once; a stream that was deleted is not open. -/
theorem C68_streams (ops : List TCConn.Op) (st : St) (evs : List Ev) (h : Run ops st evs) (hl : ops.length < 2 ^ 53) :
    (∀ (i j : Nat) (s s' : Strm), st.streams[i]? = some s → st.streams[j]? = some s' → s.streamID ≠ 0 → s.streamID = s'.streamID → i = j) ∧
    (∀ id i, id ≠ 0 → (st.net.find? (fun e => e.1 == id) = some (id, i) ↔ st.streams[i]? = some ⟨true, id⟩)) ∧
    (opens evs).Pairwise (fun a b => a.1 ≠ b.1) ∧
    (∀ (i : Nat) (s : Strm), st.streams[i]? = some s → s.userOpen = false → s.streamID = 0) := by
  have hS := run_sinv h hl
  have huniq : ∀ (l : List (Nat × Nat)), l.Pairwise (fun a b => a.1 ≠ b.1) → ∀ id i j, (id, i) ∈ l → (id, j) ∈ l → i = j := by
    intro l
    induction l with
    | nil => intro _ id i j h; simp at h
    | cons a l ih =>
      intro hk id i j h1 h2
      rw [List.pairwise_cons] at hk
      rcases List.mem_cons.mp h1 with ha | ha
      · rcases List.mem_cons.mp h2 with hb | hb
        · rw [← ha] at hb; simpa using hb.symm
        · have := hk.1 _ hb; rw [← ha] at this; simp at this
      · rcases List.mem_cons.mp h2 with hb | hb
        · have := hk.1 _ ha; rw [← hb] at this; simp at this
        · exact ih hk.2 id i j ha hb
  refine ⟨?_, ?_, hS.opened, hS.dead⟩
  · intro i j s s' hi hj hne he
    have h1 := (hS.core.str i s hi hne).1
    have h2 := (hS.core.str j s' hj (by rw [← he]; exact hne)).1
    rw [← he] at h2
    exact huniq _ hS.core.keys _ _ _ h1 h2
  · intro id i hid
    constructor
    · intro hf
      exact hS.core.net id i (List.mem_of_find?_eq_some hf) hid
    · intro hs
      have hm := (hS.core.str i _ hs hid).1
      cases hf : st.net.find? (fun e => e.1 == id) with
      | none =>
        rw [List.find?_eq_none] at hf
        exact absurd (beq_self_eq_true id) (hf _ hm)
      | some e =>
        have h1 := List.find?_some hf
        have h2 := List.mem_of_find?_eq_some hf
        simp only [beq_iff_eq] at h1
        have h3 : (id, e.2) ∈ st.net := by rw [← h1]; exact h2
        have := huniq _ hS.core.keys id e.2 i h3 hm
        rw [← h1, ← this]

/-- two streams, opened with the ids 7 and 3 -/
private def demoStreams : List TCConn.Op :=
  [.connect 100 true, .response true d1 [.null], .createStream true, .createStream true, .response true d3 [.num d3], .response true d2 [.num d7]]

example : ∃ st evs, Run demoStreams st evs ∧ (decide (st.streams = [⟨true, 7⟩, ⟨true, 3⟩] ∧ st.net = [(3, 1), (7, 0)] ∧ opens evs = [(1, 3), (0, 7)])) = true :=
  demo_run demoStreams (fun r => decide (r.1.streams = [⟨true, 7⟩, ⟨true, 3⟩] ∧ r.1.net = [(3, 1), (7, 0)] ∧ opens r.2 = [(1, 3), (0, 7)])) (by decide +kernel)

private theorem stream_id (v : UInt64) (n : Nat) (h : IsWhole v n) (h1 : 1 ≤ n) (h2 : n ≤ 4294967295) : streamIdOf (.num v) = some n := by
  have := (isNat_iff v n h1).mpr h
  simp only [isNat, Bool.and_eq_true, beq_iff_eq] at this
  rw [streamIdOf, this.2, this.1]
  have hp : 0 < 2 ^ 1075 := Nat.pow_pos (by decide)
  have e1 : decide (0 < n * 2 ^ 1075) = true := decide_eq_true (Nat.mul_pos h1 hp)
  have e2 : decide (n * 2 ^ 1075 ≤ 4294967295 * 2 ^ 1075) = true := decide_eq_true (Nat.mul_le_mul_right _ h2)
  rw [e1, e2, Nat.mul_div_cancel _ hp]
  rfl

/-- **Opening a stream.** When the server answers a request for a stream with a whole number from 1 to 2^32 - 1, the stream is opened with that id, if it was not deleted and no open
stream has that id; if it was deleted, nothing else happens; if an open stream has that id, the end of the connection is reported (unless it was already). -/
theorem C68_open (ops : List TCConn.Op) (st : St) (evs : List Ev) (h : Run ops st evs) (hl : ops.length < 2 ^ 53)
    (b v : UInt64) (more : List Val) (n i : Nat) (t : Tx) (s : Strm) (st' : St) (evs' : List Ev) (hs : step st (.response true b (.num v :: more)) = some (st', evs'))
    (ht : t ∈ unanswered evs) (hb : IsWhole b t.tid) (hk : t.kind = .stream i) (hi : st.streams[i]? = some s) (hv : IsWhole v n) (h1 : 1 ≤ n) (h2 : n ≤ 4294967295) :
    ((∀ (j : Nat) (s' : Strm), st.streams[j]? = some s' → s'.streamID ≠ n) → s.userOpen = true →
      evs' = [.invoked t.tid t.h t.kind true (some (.num v)), .opened i n] ∧ st'.streams[i]? = some ⟨true, n⟩) ∧
    ((∀ (j : Nat) (s' : Strm), st.streams[j]? = some s' → s'.streamID ≠ n) → s.userOpen = false →
      evs' = [.invoked t.tid t.h t.kind true (some (.num v))] ∧ st'.streams = st.streams ∧ st'.net = st.net) ∧
    (∀ (j : Nat) (s' : Strm), st.streams[j]? = some s' → s'.streamID = n → st'.userOpen = false ∧ ∀ k id, .opened k id ∉ evs') := by
  have hI := (run_inv h).2 hl
  have hS := run_sinv h hl
  obtain ⟨hc, hs⟩ := guard_some hs
  have hcn : st.closing = none := by cases hcc : st.closing <;> simp_all
  have hfind := own_find h hI hcn t ht b hb
  rw [onTransactionResponse, hfind] at hs
  dsimp only at hs
  rw [handler, hk] at hs
  dsimp only at hs
  have hid : (if true = true then (some ((Val.num v :: more).head?.getD .undef)).bind streamIdOf else none) = some n := by
    rw [if_pos rfl]; exact stream_id v n hv h1 h2
  have hilt : i < st.streams.length := by rw [List.getElem?_eq_some_iff] at hi; exact hi.1
  have hfree : (∀ (j : Nat) (s' : Strm), st.streams[j]? = some s' → s'.streamID ≠ n) → ¬ (st.net.any (fun e => e.1 == n) = true) := by
    intro hf hany
    rw [List.any_eq_true] at hany
    obtain ⟨e, he, hee⟩ := hany
    simp only [beq_iff_eq] at hee
    have := hS.core.net e.1 e.2 he (by omega)
    exact hf _ _ this hee
  rw [streamResponse, hid] at hs
  dsimp only at hs
  refine ⟨?_, ?_, ?_⟩
  · intro hf ho
    rw [if_neg (hfree hf), hi] at hs
    dsimp only at hs
    rw [if_pos ho] at hs
    cases hs
    refine ⟨by rw [hk]; rfl, ?_⟩
    show (st.streams.set i ⟨true, n⟩)[i]? = _
    rw [set_get _ _ _ _ hilt, if_pos rfl]
  · intro hf ho
    rw [if_neg (hfree hf), hi] at hs
    dsimp only at hs
    rw [if_neg (by simp [ho])] at hs
    cases hs
    refine ⟨by rw [hk]; rfl, rfl, ?_⟩
    show (st.net ++ [(n, i)]).filter (fun e => e.1 != n) = st.net
    rw [List.filter_append]
    have : st.net.filter (fun e => e.1 != n) = st.net := by
      rw [List.filter_eq_self]
      intro e he
      simp only [bne_iff_ne, ne_eq]
      intro hee
      exact hfree hf (List.any_eq_true.mpr ⟨e, he, by simp [hee]⟩)
    rw [this]; simp
  · intro j s' hj hjn
    have hany : st.net.any (fun e => e.1 == n) = true := by
      have := (hS.core.str j s' hj (by omega)).1
      rw [List.any_eq_true]
      exact ⟨_, this, by simp [hjn]⟩
    rw [if_pos hany] at hs
    cases hs
    constructor
    · rw [beginClose]
      split
      · rename_i hx; simpa using hx
      · rfl
    · intro k id hm
      rw [beginClose] at hm
      split at hm <;> simp at hm

/-- after four events of that history, the request with the id 3 is for the second stream, which is not open -/
example : ∃ st evs, Run (demoStreams.take 4) st evs ∧ (decide ((⟨3, 0, .stream 1⟩ : Tx) ∈ unanswered evs ∧ st.streams[1]? = some ⟨true, 0⟩)) = true :=
  demo_run (demoStreams.take 4) (fun r => decide ((⟨3, 0, .stream 1⟩ : Tx) ∈ unanswered r.2 ∧ r.1.streams[1]? = some ⟨true, 0⟩)) (by decide +kernel)

/-- **A refused stream.** When a request for a stream is answered with an error, or with something that is not a number, the stream is deleted and not opened, and the end of the
connection is reported (unless it was already). -/
theorem C68_refused (ops : List TCConn.Op) (st : St) (evs : List Ev) (h : Run ops st evs) (hl : ops.length < 2 ^ 53)
    (success : Bool) (b : UInt64) (args : List Val) (i : Nat) (t : Tx) (st' : St) (evs' : List Ev) (hs : step st (.response success b args) = some (st', evs'))
    (ht : t ∈ unanswered evs) (hb : IsWhole b t.tid) (hk : t.kind = .stream i) (hf : success = false ∨ ∀ v more, args ≠ .num v :: more) :
    st'.userOpen = false ∧ 0 < nStatus (evs ++ evs') ∧ (∀ k id, .opened k id ∉ evs') ∧ ∀ s, st'.streams[i]? = some s → s = ⟨false, 0⟩ := by
  have hI := (run_inv h).2 hl
  have hL := run_life (Run.step h hs)
  obtain ⟨hc, hs⟩ := guard_some hs
  have hcn : st.closing = none := by cases hcc : st.closing <;> simp_all
  have hfind := own_find h hI hcn t ht b hb
  rw [onTransactionResponse, hfind] at hs
  dsimp only at hs
  rw [handler, hk] at hs
  dsimp only at hs
  have hid : (if success = true then (some (args.head?.getD .undef)).bind streamIdOf else none) = none := by
    rcases hf with rfl | hf
    · rfl
    · cases success with
      | false => rfl
      | true =>
        rw [if_pos rfl, Option.bind_some]
        cases args with
        | nil => rfl
        | cons a l =>
          show streamIdOf a = none
          rw [streamIdOf.eq_def]
          split
          · exact absurd rfl (hf _ l)
          · rfl
  rw [streamResponse, hid] at hs
  cases hs
  have hclosed : ∀ (st : St) e, (beginClose st e).1.userOpen = false ∧ (beginClose st e).1.streams = st.streams := by
    intro st e
    rw [beginClose]
    split
    · rename_i hx; exact ⟨by simpa using hx, rfl⟩
    · exact ⟨rfl, rfl⟩
  refine ⟨(hclosed _ _).1, ?_, ?_, ?_⟩
  · rw [hL.status, (hclosed _ _).1]; decide
  · intro k id hm
    have hno : ∀ (st : St) e, Ev.opened k id ∉ (beginClose st e).2 := by
      intro st e
      rw [beginClose]
      split <;> simp
    rcases List.mem_cons.mp hm with he | hm
    · cases he
    · exact hno _ _ hm
  · intro s hi
    rw [(hclosed _ _).2, strmDelete_streams] at hi
    rcases set_get_le _ _ _ _ _ hi with ⟨-, rfl⟩ | ⟨hne, -⟩
    · rfl
    · exact absurd rfl hne

/-- **A closed connection has no streams**, as far as it holds: unless a stream was opened with the id 0, closing does not fail an assertion, and when it is done no stream is open
and no id goes to a stream. Missing: the same for all histories; `C68_half` shows that it does not hold. -/
theorem C68_closed_partial (ops : List TCConn.Op) (st : St) (evs : List Ev) (h : Run ops st evs) (hl : ops.length < 2 ^ 53) (h0 : ∀ e ∈ opens evs, e.2 ≠ 0) :
    st.aborted = false ∧ (0 < nClosed evs → st.net = [] ∧ ∀ (i : Nat) (s : Strm), st.streams[i]? = some s → s.streamID = 0) := by
  have key : st.aborted = false ∧ (0 < nClosed evs → st.net = []) := by
    induction h with
    | nil => exact ⟨rfl, by simp [nClosed]⟩
    | @step ops st evs op st' evs' hr hs ih =>
      rw [List.length_append, List.length_singleton] at hl
      have ih := ih (by omega) (fun e he => h0 e (by rw [opens_append]; exact List.mem_append_left _ he))
      have hS := run_sinv hr (by omega)
      have hI := (run_inv hr).2 (by omega)
      have hL := run_life hr
      have hL' := run_life (Run.step hr hs)
      have hS' := run_sinv (Run.step hr hs) (by rw [List.length_append, List.length_singleton]; exact hl)
      by_cases hop : op = .closeEnd
      · subst hop
        rw [step] at hs
        split at hs
        · rename_i hcl
          obtain ⟨ha, hs⟩ := guard_some hs
          have hz : ∀ e ∈ st.net, e.1 ≠ 0 := by
            intro e he hh
            have := hS.zero e.2 (by rw [← hh]; exact he)
            exact h0 _ (by rw [opens_append]; exact List.mem_append_left _ this) rfl
          have hcore : Core { st with txs := [], closing := none } := ⟨hS.core.1, hS.core.2, hS.core.3⟩
          have hn := fold_net st.net { st with txs := [], closing := none } hcore hz (fun e he => he)
          rw [closeEnd] at hs
          dsimp only at hs
          rw [hn] at hs
          have ht : (([] : List (Nat × Nat)).isEmpty = true) := rfl
          rw [if_pos ht] at hs
          cases hs
          exact ⟨by rw [fold_aborted]; exact ha, fun _ => hn⟩
        · simp at hs
      · -- other steps: not closed, or nothing is there any more
        have hnc : nClosed evs' = 0 ∧ st'.aborted = st.aborted := by
          have sr : ∀ (st : St) i s r, nClosed (streamResponse st i s r).2 = 0 ∧ (streamResponse st i s r).1.aborted = st.aborted := by
            intro st i s r
            have hbc : ∀ (st : St) e, nClosed (beginClose st e).2 = 0 ∧ (beginClose st e).1.aborted = st.aborted := by
              intro st e; rw [beginClose]; split <;> exact ⟨rfl, rfl⟩
            rw [streamResponse]
            split
            · split
              · exact ⟨(hbc _ _).1, (hbc _ _).2.trans (strmDelete_aborted _ _)⟩
              · split
                · exact ⟨rfl, rfl⟩
                · split <;> exact ⟨rfl, rfl⟩
            · exact ⟨(hbc _ _).1, (hbc _ _).2.trans (strmDelete_aborted _ _)⟩
          have hh : ∀ (st : St) t s r, nClosed (handler st t s r).2 = 0 ∧ (handler st t s r).1.aborted = st.aborted := by
            intro st t s r
            rw [handler]
            split
            · exact ⟨rfl, rfl⟩
            · exact ⟨rfl, rfl⟩
            · exact sr _ _ _ _
          have hbc : ∀ (st : St) e, nClosed (beginClose st e).2 = 0 ∧ (beginClose st e).1.aborted = st.aborted := by
            intro st e; rw [beginClose]; split <;> exact ⟨rfl, rfl⟩
          have tr : ∀ (st : St) a b c, nClosed (basicTransact st a b c).2 = 0 ∧ (basicTransact st a b c).1.aborted = st.aborted := by
            intro st a b c; cases c <;> exact ⟨rfl, rfl⟩
          have cons : ∀ a b c d e (l : List Ev), nClosed (.invoked a b c d e :: l) = nClosed l := by intro a b c d e l; simp [nClosed]
          cases op with
          | connect y w =>
            obtain ⟨-, hs⟩ := guard_some hs
            rw [connect] at hs
            split at hs
            · cases hs; exact ⟨rfl, rfl⟩
            · have := tr st y .connect w; rw [hs] at this; exact this
          | transact y name w =>
            obtain ⟨-, hs⟩ := guard_some hs
            rw [transact] at hs
            split at hs
            · cases hs; exact ⟨rfl, rfl⟩
            · have := tr st y .user w; rw [hs] at this; exact this
          | createStream w =>
            obtain ⟨-, hs⟩ := guard_some hs
            rw [createStream] at hs
            split at hs
            · cases hs; exact ⟨rfl, rfl⟩
            · have := tr { st with streams := st.streams ++ [⟨true, 0⟩] } 0 (.stream st.streams.length) w; rw [hs] at this; exact this
          | deleteStream i =>
            obtain ⟨-, hs⟩ := guard_some hs
            cases hs; exact ⟨rfl, strmDelete_aborted _ _⟩
          | close e =>
            obtain ⟨-, hs⟩ := guard_some hs
            have := hbc st e; rw [hs] at this; exact this
          | response s b a =>
            obtain ⟨-, hs⟩ := guard_some hs
            rw [onTransactionResponse] at hs
            split at hs
            · cases hs; exact ⟨rfl, rfl⟩
            · cases hs
              rw [cons]
              exact hh _ _ _ _
          | connectEnd =>
            obtain ⟨-, hs⟩ := guard_some hs
            have := hbc { st with connectFailed := false } true; rw [hs] at this; exact this
          | closeNext =>
            rw [step] at hs
            split at hs
            · obtain ⟨-, hs⟩ := guard_some hs
              cases hs
              rw [cons]
              exact hh _ _ _ _
            · simp at hs
          | closeEnd => exact absurd rfl hop
        refine ⟨hnc.2.trans ih.1, ?_⟩
        intro hc
        rw [nClosed_append, hnc.1, Nat.add_zero] at hc
        have hnet := ih.2 hc
        -- nothing can be pending any more
        have hcl := hL.closed
        have h3 : st.userOpen = false ∧ st.closing = none := by
          cases h1 : st.userOpen <;> cases h2 : st.closing <;> simp_all
        have htx := hI.done h3.1 h3.2
        cases op with
        | connect y w =>
          obtain ⟨-, hs⟩ := guard_some hs
          rw [connect, h3.1, if_pos (by simp)] at hs
          cases hs; exact hnet
        | transact y name w =>
          obtain ⟨-, hs⟩ := guard_some hs
          rw [transact, if_pos (by simp [validateCommandName, h3.1])] at hs
          cases hs; exact hnet
        | createStream w =>
          obtain ⟨-, hs⟩ := guard_some hs
          rw [createStream, h3.1, if_pos (by simp)] at hs
          cases hs; exact hnet
        | deleteStream i =>
          obtain ⟨-, hs⟩ := guard_some hs
          cases hs
          apply List.eq_nil_iff_forall_not_mem.mpr
          intro e he
          have := strmDelete_net_sub st i e he
          rw [hnet] at this
          simp at this
        | close e =>
          obtain ⟨-, hs⟩ := guard_some hs
          rw [beginClose, h3.1, if_pos (by simp)] at hs
          cases hs; exact hnet
        | response s b a =>
          obtain ⟨-, hs⟩ := guard_some hs
          have hfn : findTx st.txs b = none := by rw [htx, findTx]; split <;> rfl
          rw [onTransactionResponse, hfn] at hs
          cases hs; exact hnet
        | connectEnd =>
          obtain ⟨-, hs⟩ := guard_some hs
          rw [beginClose, if_pos (by simp [h3.1])] at hs
          cases hs; exact hnet
        | closeNext => rw [step, h3.2] at hs; simp at hs
        | closeEnd => exact absurd rfl hop
  refine ⟨key.1, fun hc => ⟨key.2 hc, ?_⟩⟩
  intro i s hs
  apply Classical.byContradiction
  intro hne
  have := ((run_sinv h hl).core.str i s hs hne).1
  rw [key.2 hc] at this
  simp at this

/-- the two streams are closed with the connection -/
example : ∃ st evs, Run (demoStreams ++ [.close true, .closeEnd]) st evs ∧ (decide (0 < nClosed evs ∧ (opens evs).all (fun e => e.2 != 0) = true ∧ (opens evs).length = 2)) = true :=
  demo_run (demoStreams ++ [.close true, .closeEnd]) (fun r => decide (0 < nClosed r.2 ∧ (opens r.2).all (fun e => e.2 != 0) = true ∧ (opens r.2).length = 2)) (by decide +kernel)

/-- **A server can make the client abort**: it answers `createStream` with one half; the stream gets the id 0 and stays in the map when the connection is closed, so the assertion at the
end of `basicClose` fails. -/
theorem C68_half : ∃ st evs, Run [.connect 100 true, .response true d1 [.null], .createStream true, .response true d2 [.num dHalf], .close false, .closeEnd] st evs ∧ st.aborted = true :=
  demo_run [.connect 100 true, .response true d1 [.null], .createStream true, .response true d2 [.num dHalf], .close false, .closeEnd] (fun r => r.1.aborted) (by decide +kernel)

end Rtmfp
