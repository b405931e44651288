import Verif.Lemmas.PosixStreamSize
/-! # C97: between a stream protocol and a TCP socket, the adapter passes on everything, once, in order, and comes to an end -/
namespace Rtmfp
open PosixStream
open Spec.StreamAdapter

/-! ## a client to look at: it writes "hi" the first time it is called for writing, says it is done the second time; answers yes to everything else -/

namespace StreamEx

/-- how often it was called for writing -/
def times (l : List Ev) : Nat := (l.filter fun e => match e with | .writable _ => true | _ => false).length

/-- writes at its first turn, leaves at its second -/
def polite : App where
  react l := match l.getLast? with
    | some (.writable _) => if times l = 1 then [.write [104, 105]] else [.leave]
    | _ => []
  answer l := match l.getLast? with
    | some (.writable _) => times l = 1
    | _ => true

/-- writes once, and answers no -/
def single : App where
  react l := match l.getLast? with
    | some (.writable _) => [.write [104, 105]]
    | _ => []
  answer l := match l.getLast? with
    | some (.writable _) => false
    | _ => true

def opening : List Op := [.call (.receive 7), .call (.whenLost 8), .call (.notify 9), .readable (.some [1, 2]), .call (.later 4), .task]

theorem polite_proper : Proper polite := by
  refine ⟨fun l c hc => ?_, fun l b hb => ?_⟩
  · simp only [polite] at hc
    split at hc
    · split at hc <;> simp at hc <;> subst hc <;> simp [Stays]
    · simp at hc
  · simp only [polite] at hb
    split at hb
    · rename_i f h
      obtain ⟨l', rfl⟩ := List.getLast?_eq_some_iff.1 h
      exact ⟨l', f, rfl⟩
    · simp at hb

theorem polite_diligent : Diligent polite := by
  intro l f h
  have e : (l ++ [Ev.writable f]).getLast? = some (.writable f) := by simp
  simp only [polite, e] at h ⊢
  have h1 : times (l ++ [.writable f]) = 1 := by simpa using h
  rw [if_pos h1]
  exact ⟨by simp, [104, 105], by simp, by simp⟩

theorem polite_plain : Plain polite := by
  intro l
  simp [polite]

end StreamEx
open StreamEx

/-- **C97 (all in its place).** In every history, with whatever client and owner, and whatever the kernel answers: each callback is one that was asked for last and not since
dropped by leaving; bytes are given and tasks done only before the client left and the socket was closed; what the kernel is given continues what it took, by the next bytes
written; the sending side is shut down once, after the client left, when everything written was taken; the socket is closed once; the end is told once, after that. -/
theorem C97_right (app : App) (runs : Bool) (size turns : Nat) (ops : List Op) : Right (run app (init runs size turns) ops).log :=
  (run_held (init_held runs size turns) ops).inv.right

example : (run polite (init true 2048 2048) (opening ++ [.writable (.some 1), .writable (.some 1), .readable (.some [3]), .readable .eof])).log
    = [.did (.receive 7), .did (.whenLost 8), .did (.notify 9), .recv [1, 2], .data 7 [1, 2], .did (.later 4), .task 4, .writable 9, .did (.write [104, 105]), .writable 9, .did .leave,
       .sent [104], .sent [105], .shutWr, .recv [3], .closed, .ended] := by decide +kernel

/-- **C97 (silence).** After the client left, nothing is called back to it that it did not ask for since: no bytes, no deferred tasks, and not the callbacks it had given. -/
theorem C97_silent (app : App) (runs : Bool) (size turns : Nat) (ops : List Op) (l r : List Ev)
    (h : (run app (init runs size turns) ops).log = l ++ .did .leave :: r) (hn : ∀ f, .did (.notify f) ∉ r) (hl : ∀ f, .did (.whenLost f) ∉ r) :
    (∀ f, .writable f ∉ r) ∧ (∀ f b, .data f b ∉ r) ∧ (∀ f, .lost f ∉ r) ∧ (∀ t, .task t ∉ r) := by
  have hr := (run_held (init_held runs size turns) ops (app := app)).inv.right
  rw [h] at hr
  have asked_none : ∀ (r' : List Ev), (∀ f, .did (.notify f) ∉ r') → asked (l ++ .did .leave :: r') = none := by
    intro r'
    induction r' using snoc_ind with
    | nil =>
      intro _
      rw [asked_snoc]
    | snoc r' e ih =>
      intro hh
      have h1 := ih (fun f hf => hh f (by simp [hf]))
      have e1 : l ++ .did .leave :: (r' ++ [e]) = (l ++ .did .leave :: r') ++ [e] := by simp
      rw [e1, asked_snoc]
      split
      · rename_i f
        exact absurd (by simp) (hh f)
      · rfl
      · exact h1
  have tell_none : ∀ (r' : List Ev), (∀ f, .did (.whenLost f) ∉ r') → toTell (l ++ .did .leave :: r') = none := by
    intro r'
    induction r' using snoc_ind with
    | nil =>
      intro _
      rw [toTell_snoc]
    | snoc r' e ih =>
      intro hh
      have h1 := ih (fun f hf => hh f (by simp [hf]))
      have e1 : l ++ .did .leave :: (r' ++ [e]) = (l ++ .did .leave :: r') ++ [e] := by simp
      rw [e1, toTell_snoc]
      split
      · rename_i f
        exact absurd (by simp) (hh f)
      · rfl
      · exact h1
  have at_ : ∀ e, e ∈ r → ∃ r', (∀ x, x ∈ r' → x ∈ r) ∧ May (l ++ .did .leave :: r') e := by
    intro e he
    obtain ⟨a, b, hab⟩ := List.append_of_mem he
    refine ⟨a, fun x hx => by rw [hab]; simp [hx], hr _ e b ?_⟩
    rw [hab]
    simp
  refine ⟨?_, ?_, ?_, ?_⟩
  · intro f hf
    obtain ⟨r', h1, h2⟩ := at_ _ hf
    have h3 := asked_none r' (fun g hg => hn g (h1 _ hg))
    have h4 : asked (l ++ .did .leave :: r') = some f := h2
    rw [h3] at h4
    cases h4
  · intro f b hf
    obtain ⟨r', h1, h2⟩ := at_ _ hf
    exact h2.2.1 (by simp [Left])
  · intro f hf
    obtain ⟨r', h1, h2⟩ := at_ _ hf
    have h3 := tell_none r' (fun g hg => hl g (h1 _ hg))
    have h4 : toTell (l ++ .did .leave :: r') = some f := h2.1
    rw [h3] at h4
    cases h4
  · intro t hf
    obtain ⟨r', h1, h2⟩ := at_ _ hf
    exact h2.2.1 (by simp [Left])

example : (run polite (init true 2048 2048) (opening ++ [.writable (.some 1), .call (.later 5), .task, .readable (.some [3])])).log
    = [.did (.receive 7), .did (.whenLost 8), .did (.notify 9), .recv [1, 2], .data 7 [1, 2], .did (.later 4), .task 4, .writable 9, .did (.write [104, 105]), .writable 9]
      ++ .did .leave :: [.sent [104], .did (.later 5), .recv [3], .closed, .ended] := by decide +kernel

/-- **C97 (sent).** What the kernel took, with some more that is waiting, is exactly what was written while the socket was open: nothing is lost, doubled or out of order. -/
theorem C97_sent (app : App) (runs : Bool) (size turns : Nat) (ops : List Op) :
    sent (run app (init runs size turns) ops).log <+: written true (run app (init runs size turns) ops).log := by
  rw [(run_held (init_held runs size turns) ops (app := app)).inv.keep]
  exact List.prefix_append _ _

/-- **C97 (received).** What was given to the client is the beginning of what the kernel gave, and all of it as long as the client did not leave. -/
theorem C97_received (app : App) (runs : Bool) (size turns : Nat) (ops : List Op) :
    given (run app (init runs size turns) ops).log <+: received (run app (init runs size turns) ops).log ∧
      (¬ Left (run app (init runs size turns) ops).log → given (run app (init runs size turns) ops).log = received (run app (init runs size turns) ops).log) := by
  have h := run_held (init_held runs size turns) ops (app := app)
  refine ⟨h.flow.1, fun hl => h.flow.2 ?_⟩
  cases hc : (run app (init runs size turns) ops).client
  · exact absurd (h.inv.left.1 hc) hl
  · rfl

example : received (run polite (init true 2048 2048) opening).log = [1, 2] ∧ ¬ Left (run polite (init true 2048 2048) opening).log := by
  constructor
  · decide +kernel
  · show ¬ (Ev.did .leave ∈ (run polite (init true 2048 2048) opening).log)
    decide +kernel

/-- **C97 (flushed).** A client that writes only when it is called for that, on an adapter that is not moved between run loops: whenever the kernel takes everything it is given,
then after that everything written has been sent — whatever happened before. -/
theorem C97_flushed_partial (app : App) (ha : Proper app) (size turns : Nat) (ops : List Op) (ho : ∀ c, .call c ∈ ops → Mute c) (n : Nat) :
    let st := step app (run app (init true size turns) ops) (.writable (.some n))
    Ev.closed ∉ st.log → st.stuck = false → (written true st.log).length ≤ n → sent st.log = written true st.log := by
  intro st hc hs hn
  have h := run_held (init_held true size turns) ops (app := app)
  have hg := run_going ha (st := init true size turns) ⟨rfl, rfl, fun h => by simp [init] at h⟩ ho
  have hst : st = step app (run app (init true size turns) ops) (.writable (.some n)) := rfl
  clear_value st
  generalize run app (init true size turns) ops = s at *
  have hh := step_held (app := app) h (.writable (.some n))
  rw [← hst] at hh
  have hout : st.out = [] := by
    simp only [step] at hst
    by_cases hx : (s.stuck || s.wild || !s.regW) = true
    · rw [if_pos hx] at hst
      rw [hst] at hs hc ⊢
      have hw : s.regW = false := by
        have := hg.2.1
        simp_all
      by_cases hne : s.out = []
      · exact hne
      · have := hg.2.2 hne (h.inv.up.2 hc)
        simp_all
    · rw [if_neg hx] at hst
      have hr : s.regW = true := by simp_all
      have hup := (h.inv.regW hr).2
      obtain ⟨h1, h2⟩ := fill_kept (app := app) s.turns ⟨h.inv, h.rest, h.none hup⟩ h.flow
      unfold onWritable at hst
      dsimp only at hst
      split at hst
      · rename_i hst'
        rw [hst] at hs
        simp_all
      · rcases push_out (app := app) h1 h2 n with h3 | h3
        · rw [← hst] at h3
          exact absurd h3 hc
        · rw [← hst] at h3
          rw [h3]
          apply List.drop_eq_nil_of_le
          have hk := h1.inv.keep
          have hk' := hh.inv.keep
          have hlen : (fill app s.turns s).out.length ≤ (written true (fill app s.turns s).log).length := by
            rw [hk]
            simp
          have hw : written true (fill app s.turns s).log <+: written true st.log := by
            rw [hst]
            unfold push
            have gen : ∀ (a b : List Ev), Onward a b → written true a <+: written true b := by
              rintro a b ⟨es, rfl, -⟩
              induction es using snoc_ind with
              | nil => simp
              | snoc es e ih =>
                rw [← List.append_assoc, written_snoc]
                exact ih.trans (List.prefix_append _ _)
            split
            · exact gen _ _ (settle_log _)
            · split
              · rename_i hd
                exfalso
                have : Ev.closed ∈ st.log := by
                  have hcl : Ev.closed ∈ (fill app s.turns s).log := by
                    by_cases hx : Ev.closed ∈ (fill app s.turns s).log
                    · exact hx
                    · have := h1.inv.up.2 hx
                      simp_all
                  rw [hst]
                  unfold push
                  rename_i hne
                  rw [if_neg hne, if_pos hd]
                  exact (fail_pre app _).subset hcl
                exact hc this
              · refine List.IsPrefix.trans ?_ (gen _ _ (settle_log _))
                simp only [note]
                rw [written_snoc]
                exact List.prefix_append _ _
          have := hw.length_le
          omega
  have := hh.inv.keep
  rw [hout] at this
  simp at this
  exact this.symm

example : let st := step polite (run polite (init true 2048 2048) (opening ++ [.writable .again])) (.writable (.some 2))
    Ev.closed ∉ st.log ∧ st.stuck = false ∧ (written true st.log).length = 2 ∧ sent (run polite (init true 2048 2048) (opening ++ [.writable .again])).log = [] := by
  decide +kernel

/-- **C97 (shut down).** When the client has left and all it wrote was taken, the other side is told so, unless the socket was closed. -/
theorem C97_shut (app : App) (runs : Bool) (size turns : Nat) (ops : List Op) (hl : Left (run app (init runs size turns) ops).log)
    (hs : sent (run app (init runs size turns) ops).log = written true (run app (init runs size turns) ops).log) :
    .shutWr ∈ (run app (init runs size turns) ops).log ∨ .closed ∈ (run app (init runs size turns) ops).log := by
  have h := run_held (init_held runs size turns) ops (app := app)
  by_cases hc : Ev.closed ∈ (run app (init runs size turns) ops).log
  · exact Or.inr hc
  · left
    apply h.inv.shut.1
    apply h.inv.done (h.inv.left.2 hl) (h.inv.up.2 hc)
    have := h.inv.keep
    rw [← hs] at this
    simpa using this.symm

example : Left (run polite (init true 2048 2048) (opening ++ [.writable (.some 2)])).log ∧
    sent (run polite (init true 2048 2048) (opening ++ [.writable (.some 2)])).log = written true (run polite (init true 2048 2048) (opening ++ [.writable (.some 2)])).log := by
  constructor
  · show Ev.did .leave ∈ (run polite (init true 2048 2048) (opening ++ [.writable (.some 2)])).log
    decide +kernel
  · decide +kernel

/-- **C97 (ended).** Once the socket is closed, and no step is in progress, the owner has been told that it is over, and before it was not. -/
theorem C97_ended (app : App) (runs : Bool) (size turns : Nat) (ops : List Op) :
    .ended ∈ (run app (init runs size turns) ops).log ↔ .closed ∈ (run app (init runs size turns) ops).log := by
  have h := run_held (init_held runs size turns) ops (app := app)
  constructor
  · intro he
    obtain ⟨l, r, hlr⟩ := List.append_of_mem he
    have := h.inv.right l _ r hlr
    rw [hlr]
    exact List.mem_append_left _ this.1
  · intro hc
    have hu : (run app (init runs size turns) ops).up = false := by
      cases hx : (run app (init runs size turns) ops).up
      · rfl
      · exact absurd hc (h.inv.up.1 hx)
    by_cases hx : Ev.ended ∈ (run app (init runs size turns) ops).log
    · exact hx
    · have h1 := h.inv.fin.2 hx
      have h2 := h.rest hu
      rw [h1] at h2
      cases h2

example : Ev.closed ∈ (run polite (init true 2048 2048) (opening ++ [.readable .eof])).log := by decide +kernel

/-- **C97 (told).** When the socket is closed for another reason than that someone called `close`, the client that asked to be told when the stream is lost is told (if the owner's own
callback for the end does not interfere). -/
theorem C97_told (app : App) (ha : Plain app) (runs : Bool) (size turns : Nat) (ops : List Op) (l r : List Ev) (f : Nat)
    (h : (run app (init runs size turns) ops).log = l ++ .closed :: r) (hc : .did .close ∉ l) (ht : toTell l = some f) : .lost f ∈ r :=
  run_told ha (init_held runs size turns) (by intro l r f h; simp [init] at h) ops l r f h hc ht

example : (run polite (init true 2048 2048) (opening ++ [.readable .eof])).log
      = [.did (.receive 7), .did (.whenLost 8), .did (.notify 9), .recv [1, 2], .data 7 [1, 2], .did (.later 4), .task 4] ++ .closed :: [.ended, .lost 8] ∧
    toTell [.did (.receive 7), .did (.whenLost 8), .did (.notify 9), .recv [1, 2], .data 7 [1, 2], .did (.later 4), .task 4] = some 8 := by decide +kernel

/-- **C97 (why closed).** The socket is closed only when someone calls `close`, when the kernel says that the stream ended or failed, or when bytes arrive after the client left. -/
theorem C97_why (app : App) (runs : Bool) (size turns : Nat) (ops : List Op) (op : Op) (hu : .closed ∉ (run app (init runs size turns) ops).log)
    (hc : .closed ∈ (step app (run app (init runs size turns) ops) op).log) :
    .did .close ∈ (step app (run app (init runs size turns) ops) op).log ∨ op = .readable .eof ∨ op = .readable .bad ∨ op = .writable .bad ∨
      ∃ b, op = .readable (.some b) ∧ Left (run app (init runs size turns) ops).log := by
  have h := run_held (init_held runs size turns) ops (app := app)
  have h' := step_held (app := app) h op
  apply step_why h.inv op (h.inv.up.2 hu)
  cases hx : (step app (run app (init runs size turns) ops) op).up
  · rfl
  · exact absurd hc (h'.inv.up.1 hx)

example : Ev.closed ∉ (run polite (init true 2048 2048) opening).log ∧ Ev.closed ∈ (step polite (run polite (init true 2048 2048) opening) (.readable .bad)).log := by
  decide +kernel

/-- **C97 (bounded).** If the client's callback for writing writes something whenever it wants to be called again, the adapter never calls it more often than `writeSizePerSelect`
times in a row. -/
theorem C97_bounded (app : App) (ha : Diligent app) (runs : Bool) (size turns : Nat) (hs : size ≤ turns) (ops : List Op) :
    (run app (init runs size turns) ops).stuck = false := by
  have key : ∀ (ops : List Op) (st : St), Held st → st.stuck = false → st.size ≤ st.turns → (run app st ops).stuck = false := by
    intro ops
    induction ops with
    | nil => exact fun st _ h _ => h
    | cons op ops ih =>
      intro st hh h0 hle
      obtain ⟨s1, s2, s3⟩ := Size.stp ha st op hh h0 hle
      exact ih _ (step_held hh op) s3 (by rw [s1, s2]; exact hle)
  exact key ops _ (init_held runs size turns) rfl hs

example : Diligent polite ∧ times (run polite (init true 2048 2048) (opening ++ [.writable (.some 2)])).log = 2 := ⟨polite_diligent, by decide +kernel⟩

/-! ## what is asked for happens -/

theorem PosixStream.fill_first {app : App} {st : St} {f : Nat} (ho : st.onW = some f) (hl : st.out.length < st.size) (ht : 0 < st.turns) (p : Put) :
    ∃ r, (onWritable app st p).log = st.log ++ .writable f :: r := by
  obtain ⟨n, hn⟩ : ∃ n, st.turns = n + 1 := ⟨st.turns - 1, by omega⟩
  have h1 : (st.log ++ [.writable f]) <+: (fill app st.turns st).log := by
    rw [hn]
    unfold fill
    rw [if_pos hl]
    simp only [ho]
    obtain ⟨es, he, -⟩ := back_on app st (.writable f)
    have : (st.log ++ [.writable f]) <+: (back app st (.writable f)).log := by
      rw [he]
      exact List.prefix_append _ _
    refine this.trans ?_
    split
    · exact fill_pre _ _ _
    · exact fill_pre app n { back app st (.writable f) with onW := none }
  have h2 : (fill app st.turns st).log <+: (onWritable app st p).log := by
    unfold onWritable
    dsimp only
    generalize fill app st.turns st = s
    split
    · exact List.prefix_refl _
    · unfold push
      split
      · obtain ⟨es, he, -⟩ := settle_log s
        rw [he]
        exact List.prefix_append _ _
      · split
        · exact fail_pre app s
        · cases p with
          | again => exact List.prefix_refl _
          | bad => exact fail_pre app s
          | some n =>
            obtain ⟨es, he, -⟩ := settle_log (note { s with out := s.out.drop n } (.sent (s.out.take n)))
            dsimp only
            rw [he]
            simp [note]
  obtain ⟨r, hr⟩ := h1.trans h2
  exact ⟨r, by rw [← hr]; simp⟩

/-- **C97 (asked).** With room in the buffer, a callback for writing that is asked for is the next one called when the socket is writable; also if it was asked for while the
adapter was detached from its run loop, and attached again. -/
theorem C97_asked (app : App) (ha : Proper app) (size turns : Nat) (ht : 0 < turns) (ops : List Op) (ho : ∀ c, .call c ∈ ops → Mute c) (f : Nat) (p : Put) :
    let st := run app (init true size turns) ops
    Ev.closed ∉ st.log → st.stuck = false → (written true st.log).length < (sent st.log).length + size →
      (∃ r, (run app st [.call (.notify f), .writable p]).log = st.log ++ .did (.notify f) :: .writable f :: r) ∧
      ∃ r, (run app st [.call .detach, .call (.notify f), .call .attach, .writable p]).log = st.log ++ .did .detach :: .did (.notify f) :: .did .attach :: .writable f :: r := by
  intro st hc hs hl
  have h := run_held (init_held true size turns) ops (app := app)
  have hg := run_going ha (st := init true size turns) ⟨rfl, rfl, fun h => by simp [init] at h⟩ ho
  obtain ⟨hsz, htn⟩ := run_sizes (app := app) ops (init true size turns)
  have hst : st = run app (init true size turns) ops := rfl
  rw [← hst] at h hg hsz htn
  clear_value st
  have hup := h.inv.up.2 hc
  have hk := h.inv.keep
  have hlen : st.out.length < st.size := by
    rw [hk] at hl
    rw [hsz]
    simp [init] at hl ⊢
    omega
  have htt : 0 < st.turns := by rw [htn]; exact ht
  obtain ⟨hr, hw, -⟩ := hg
  constructor
  · have e1 : run app st [.call (.notify f), .writable p] = onWritable app (callOver st (.notify f)) p := by
      simp [run, step, hs, hw, call, callOver, body, note, tryW, hr, hup]
    rw [e1]
    have ew : (callOver st (.notify f)).onW = some f := by simp [callOver, body, note, tryW, hr, hup]
    have eo : (callOver st (.notify f)).out = st.out := by simp [callOver, body, note, tryW, hr, hup]
    have es : (callOver st (.notify f)).size = st.size := by simp [callOver, body, note, tryW, hr, hup]
    have et : (callOver st (.notify f)).turns = st.turns := by simp [callOver, body, note, tryW, hr, hup]
    have el : (callOver st (.notify f)).log = st.log ++ [.did (.notify f)] := by simp [callOver, body, note, tryW, hr, hup]
    obtain ⟨r, hr'⟩ := fill_first (app := app) ew (by rw [eo, es]; exact hlen) (by rw [et]; exact htt) p
    exact ⟨r, by rw [hr', el]; simp⟩
  · generalize hs2 : callOver (callOver (callOver st .detach) (.notify f)) .attach = s2
    have facts : s2.onW = some f ∧ s2.out = st.out ∧ s2.size = st.size ∧ s2.turns = st.turns ∧ s2.log = st.log ++ [.did .detach, .did (.notify f), .did .attach] ∧ s2.regW = true ∧
        s2.stuck = false ∧ s2.wild = false := by
      rw [← hs2]
      cases hx : st.onR <;> simp [callOver, body, note, tryW, tryR, hr, hup, hs, hw, hx]
    have e1 : run app st [.call .detach, .call (.notify f), .call .attach, .writable p] = onWritable app s2 p := by
      have e2 : run app st [.call .detach, .call (.notify f), .call .attach] = s2 := by
        rw [← hs2]
        simp [run, step, hs, hw, call, callOver, body, note, tryW, hr]
      show step app (run app st [.call .detach, .call (.notify f), .call .attach]) (.writable p) = _
      rw [e2]
      simp [step, facts.2.2.2.2.2.1, facts.2.2.2.2.2.2.1, facts.2.2.2.2.2.2.2]
    rw [e1]
    obtain ⟨r, hr'⟩ := fill_first (app := app) facts.1 (by rw [facts.2.1, facts.2.2.1]; exact hlen) (by rw [facts.2.2.2.1]; exact htt) p
    exact ⟨r, by rw [hr', facts.2.2.2.2.1]; simp⟩

example : Proper polite ∧ (∀ c, .call c ∈ opening ++ [.writable .again] → Mute c) ∧
    (let st := run polite (init true 2048 2048) (opening ++ [.writable .again])
     Ev.closed ∉ st.log ∧ st.stuck = false ∧ (written true st.log).length < (sent st.log).length + 2048) := by
  refine ⟨polite_proper, ?_, by decide +kernel⟩
  intro c hc
  simp [opening] at hc
  rcases hc with rfl | rfl | rfl | rfl <;> simp [Mute, Stays]

/-- **C97 (given).** A callback for bytes that is asked for while the client is there is given the next bytes. -/
theorem C97_given (app : App) (ha : Proper app) (size turns : Nat) (ops : List Op) (ho : ∀ c, .call c ∈ ops → Mute c) (f : Nat) (b : Bytes) :
    let st := run app (init true size turns) ops
    Ev.closed ∉ st.log → st.stuck = false → ¬ Left st.log →
      ∃ r, (run app st [.call (.receive f), .readable (.some b)]).log = st.log ++ .did (.receive f) :: .recv b :: .data f b :: r := by
  intro st hc hs hl
  have h := run_held (init_held true size turns) ops (app := app)
  have hg := run_going ha (st := init true size turns) ⟨rfl, rfl, fun h => by simp [init] at h⟩ ho
  have hst : st = run app (init true size turns) ops := rfl
  rw [← hst] at h hg
  clear_value st
  have hup := h.inv.up.2 hc
  have hcl : st.client = true := by
    cases hx : st.client
    · exact absurd (h.inv.left.1 hx) hl
    · rfl
  have hsh : st.shut = false := by
    cases hx : st.shut
    · rfl
    · have := h.inv.shut.1 hx
      obtain ⟨l, r, hlr⟩ := List.append_of_mem this
      have hm := h.inv.right l _ r hlr
      exact absurd (by rw [hlr]; exact List.mem_append_left _ hm.1) hl
  obtain ⟨hr, hw, -⟩ := hg
  generalize hs2 : note (callOver st (.receive f)) (.recv b) = s2
  have e1 : run app st [.call (.receive f), .readable (.some b)] = if app.answer (s2.log ++ [.data f b]) then back app s2 (.data f b) else { back app s2 (.data f b) with onR := none } := by
    rw [← hs2]
    simp [run, step, hs, hw, call, callOver, body, note, tryR, hr, hup, onReadable, hcl, hsh]
  have el : s2.log = st.log ++ [.did (.receive f), .recv b] := by
    rw [← hs2]
    simp [callOver, body, note, tryR, hr, hup]
  obtain ⟨es, he, -⟩ := back_on app s2 (.data f b)
  refine ⟨es, ?_⟩
  rw [e1]
  have : (if app.answer (s2.log ++ [.data f b]) then back app s2 (.data f b) else { back app s2 (.data f b) with onR := none }).log = (back app s2 (.data f b)).log := by
    split <;> rfl
  rw [this, he, el]
  simp

example : (let st := run polite (init true 2048 2048) opening
    Ev.closed ∉ st.log ∧ st.stuck = false) ∧ ¬ Left (run polite (init true 2048 2048) opening).log := by
  refine ⟨by decide +kernel, ?_⟩
  show ¬ (Ev.did .leave ∈ (run polite (init true 2048 2048) opening).log)
  decide +kernel

/-- **C97 (detached).** Detached from its run loop, nothing is read, sent or called, except deferred tasks. -/
theorem C97_detached (app : App) (runs : Bool) (size turns : Nat) (ops more : List Op) (hm : ∀ op, op ∈ more → (∃ g, op = .readable g) ∨ ∃ p, op = .writable p) :
    (run app (run app (init runs size turns) ops) (.call .detach :: more)).log = (run app (run app (init runs size turns) ops) [.call .detach]).log := by
  have h := run_held (init_held runs size turns) ops (app := app)
  generalize run app (init runs size turns) ops = st at *
  have key : ∀ (more : List Op) (s : St), (s.stuck || s.wild || !s.regR) = true → (s.stuck || s.wild || !s.regW) = true →
      (∀ op, op ∈ more → (∃ g, op = .readable g) ∨ ∃ p, op = .writable p) → run app s more = s := by
    intro more
    induction more with
    | nil => exact fun _ _ _ _ => rfl
    | cons op more ih =>
      intro s h1 h2 h3
      have : step app s op = s := by
        rcases h3 op (by simp) with ⟨g, rfl⟩ | ⟨p, rfl⟩
        · simp only [step]
          rw [if_pos h1]
        · simp only [step]
          rw [if_pos h2]
      show run app (step app s op) more = s
      rw [this]
      exact ih s h1 h2 (fun x hx => h3 x (by simp [hx]))
  show (run app (step app st (.call .detach)) more).log = (step app st (.call .detach)).log
  have reg : ∀ s, s = step app st (.call .detach) → (s.stuck || s.wild || !s.regR) = true ∧ (s.stuck || s.wild || !s.regW) = true := by
    intro s hs
    simp only [step] at hs
    by_cases hx : (st.stuck || st.wild) = true
    · rw [if_pos hx] at hs
      rw [hs]
      simp [hx]
    · rw [if_neg hx] at hs
      rw [hs]
      cases hr : st.runs
      · have h1 : st.regR = false := by
          cases hy : st.regR
          · rfl
          · have := h.inv.regR hy
            simp_all
        have h2 : st.regW = false := by
          cases hy : st.regW
          · rfl
          · have := h.inv.regW hy
            simp_all
        simp [call, callOver, body, note, hr, h1, h2]
      · simp [call, callOver, body, note, hr]
  obtain ⟨r1, r2⟩ := reg _ rfl
  rw [key more _ r1 r2 hm]

example : (run polite (run polite (init true 2048 2048) opening) [.call .detach, .readable .eof, .writable (.some 2)]).log
    = (run polite (init true 2048 2048) opening).log ++ [.did .detach] := by decide +kernel

/-! ## what goes wrong -/

/-- nothing happens by itself any more -/
theorem idle (app : App) (st : St) (h1 : st.regR = false) (h2 : st.regW = false) (h3 : st.tasks = []) (ops : List Op) (ho : ∀ c, .call c ∉ ops) : run app st ops = st := by
  induction ops with
  | nil => rfl
  | cons op ops ih =>
    have : step app st op = st := by
      cases op with
      | call c => exact absurd (by simp) (ho c)
      | readable g => simp [step, h1]
      | writable p => simp [step, h2]
      | task =>
        simp only [step, onTask, h3]
        split <;> rfl
    show run app (step app st op) ops = st
    rw [this]
    exact ih (fun c hc => ho c (by simp [hc]))

/-- **C97 (cut off).** The client wrote "hi" and left; the kernel was busy; one byte arrives from the other side: the socket is closed, and "hi" is never sent, although the kernel
reported nothing wrong. (It breaks: what was written before leaving is sent, unless the stream fails.) -/
theorem C97_cut : let st := run polite (init true 2048 2048) (opening ++ [.writable .again, .readable (.some [3])])
    Left st.log ∧ .closed ∈ st.log ∧ .did .close ∉ st.log ∧ written true st.log = [104, 105] ∧ sent st.log = [] := by
  refine ⟨?_, ?_, ?_, ?_, ?_⟩
  · show Ev.did .leave ∈ (run polite (init true 2048 2048) (opening ++ [.writable .again, .readable (.some [3])])).log
    decide +kernel
  all_goals decide +kernel

/-- **C97 (moved).** Bytes wait to be sent and no callback for writing is pending when the adapter is moved to another run loop: there they are never sent, whatever the kernel says. -/
theorem C97_moved (ops : List Op) (ho : ∀ c, .call c ∉ ops) :
    let st := run single (run single (init true 2048 2048) [.call (.notify 9), .writable (.some 1), .call .detach, .call .attach]) ops
    written true st.log = [104, 105] ∧ sent st.log = [104] ∧ .closed ∉ st.log := by
  intro st
  have : st = run single (init true 2048 2048) [.call (.notify 9), .writable (.some 1), .call .detach, .call .attach] :=
    idle single _ (by decide +kernel) (by decide +kernel) (by decide +kernel) ops ho
  rw [this]
  decide +kernel

/-- **C97 (unclosed).** A client that only writes leaves, the sending side is shut down: then nobody reads the other side's end of the stream, and the socket is never closed. -/
theorem C97_unclosed (ops : List Op) (ho : ∀ c, .call c ∉ ops) :
    let st := run polite (run polite (init true 2048 2048) [.call (.notify 9), .writable (.some 2)]) ops
    Left st.log ∧ .shutWr ∈ st.log ∧ .closed ∉ st.log ∧ .ended ∉ st.log := by
  intro st
  have : st = run polite (init true 2048 2048) [.call (.notify 9), .writable (.some 2)] :=
    idle polite _ (by decide +kernel) (by decide +kernel) (by decide +kernel) ops ho
  rw [this]
  refine ⟨?_, ?_, ?_, ?_⟩
  · show Ev.did .leave ∈ (run polite (init true 2048 2048) [.call (.notify 9), .writable (.some 2)]).log
    decide +kernel
  all_goals decide +kernel

/-- a client that asks again from inside, and answers that it need not be called again as it was -/
def asksAgain : App where
  react l := match l.getLast? with
    | some (.writable 9) => [.notify 10]
    | some (.data 7 _) => [.receive 11]
    | _ => []
  answer _ := false

/-- **C97 (forgotten).** A new callback for writing that is given from inside of the old one is forgotten if the old one answers no; likewise for bytes. -/
theorem C97_forgotten (ops : List Op) (ho : ∀ c, .call c ∉ ops) :
    let st := run asksAgain (run asksAgain (init true 2048 2048) [.call (.notify 9), .call (.receive 7), .writable (.some 1), .readable (.some [1]), .readable (.some [2])]) ops
    asked st.log = some 10 ∧ toGive st.log = some 11 ∧ .writable 10 ∉ st.log ∧ given st.log = [1] ∧ ¬ Left st.log ∧ .closed ∉ st.log := by
  intro st
  have : st = run asksAgain (init true 2048 2048) [.call (.notify 9), .call (.receive 7), .writable (.some 1), .readable (.some [1]), .readable (.some [2])] :=
    idle asksAgain _ (by decide +kernel) (by decide +kernel) (by decide +kernel) ops ho
  rw [this]
  refine ⟨?_, ?_, ?_, ?_, ?_, ?_⟩
  case refine_5 =>
    show ¬ (Ev.did .leave ∈ (run asksAgain (init true 2048 2048) [.call (.notify 9), .call (.receive 7), .writable (.some 1), .readable (.some [1]), .readable (.some [2])]).log)
    decide +kernel
  all_goals decide +kernel

/-- a client whose callback closes the adapter, writes, and answers that it has more -/
def goesOn : App where
  react l := match l.getLast? with
    | some (.writable _) => [.close, .write [1]]
    | _ => []
  answer _ := true

/-- **C97 (endless).** Once the adapter was closed from inside of the callback for writing, writing is refused and so the buffer never fills: a callback that always has more to write
is called again without end. -/
theorem C97_endless (turns : Nat) : (run goesOn (init true 2048 turns) [.call (.notify 9), .writable (.some 1)]).stuck = true := by
  have close1 : ∀ st : St, st.up = false → st.fin = false → st.onW = some 9 → st.out = [] → st.size = 2048 →
      ∃ st', back goesOn st (.writable 9) = st' ∧ st'.up = false ∧ st'.fin = false ∧ st'.onW = some 9 ∧ st'.out = [] ∧ st'.size = 2048 := by
    intro st h1 h2 h3 h4 h5
    refine ⟨_, rfl, ?_⟩
    have e : goesOn.react (st.log ++ [.writable 9]) = [.close, .write [1]] := by simp [goesOn]
    simp [back, e, call, callOver, body, note, drop, finish, h1, h2, h3, h4, h5]
  have loop : ∀ (n : Nat) (st : St), st.up = false → st.fin = false → st.onW = some 9 → st.out = [] → st.size = 2048 → (fill goesOn n st).stuck = true := by
    intro n
    induction n with
    | zero =>
      intro st h1 h2 h3 h4 h5
      simp [fill, h3, h4, h5]
    | succ n ih =>
      intro st h1 h2 h3 h4 h5
      obtain ⟨st', e, k1, k2, k3, k4, k5⟩ := close1 st h1 h2 h3 h4 h5
      unfold fill
      rw [if_pos (by simp [h4, h5])]
      simp only [h3]
      rw [e]
      have ha : goesOn.answer (st.log ++ [.writable 9]) = true := rfl
      rw [if_pos ha]
      exact ih st' k1 k2 k3 k4 k5
  have first : ∀ n, (fill goesOn n (call goesOn (init true 2048 turns) (.notify 9))).stuck = true := by
    intro n
    cases n with
    | zero => rfl
    | succ n =>
      unfold fill
      rw [if_pos (by show (0 : Nat) < 2048; decide)]
      exact loop n _ rfl rfl rfl rfl rfl
  show (step goesOn (call goesOn (init true 2048 turns) (.notify 9)) (.writable (.some 1))).stuck = true
  have e : step goesOn (call goesOn (init true 2048 turns) (.notify 9)) (.writable (.some 1)) =
      onWritable goesOn (call goesOn (init true 2048 turns) (.notify 9)) (.some 1) := rfl
  rw [e]
  unfold onWritable
  have et : (call goesOn (init true 2048 turns) (.notify 9)).turns = turns := rfl
  simp only [et]
  rw [if_pos (first turns)]
  exact first turns

end Rtmfp
