import Verif.Lemmas.PosixStreamLive
namespace Rtmfp
namespace PosixStream
open Spec.StreamAdapter

/-- when the socket is closed without having been told to, the client is told who asked to be -/
def Told (log : List Ev) : Prop :=
  ∀ l r f, log = l ++ .closed :: r → .did .close ∉ l → toTell l = some f → .lost f ∈ r

/-- the owner's callback for the end calls nothing -/
def Plain (app : App) : Prop := ∀ l, app.react (l ++ [.ended]) = []

theorem Told.append {log es : List Ev} (h : Told log) (he : Ev.closed ∉ es) : Told (log ++ es) := by
  intro l r f hl hc ht
  rcases List.append_eq_append_iff.1 hl with ⟨a, h1, h2⟩ | ⟨a, h1, h2⟩
  · exact absurd (by rw [h2]; simp) he
  · cases a with
    | nil =>
      simp at h2
      exact absurd (by rw [← h2]; simp) he
    | cons x a =>
      simp at h2
      obtain ⟨h2, h3⟩ := h2
      subst h2 h3
      exact List.mem_append_left _ (h l a f h1 hc ht)

theorem split_closed {log l r es : List Ev} (hn : Ev.closed ∉ log) (he : Ev.closed ∉ es) (h : log ++ .closed :: es = l ++ .closed :: r) : l = log ∧ r = es := by
  rcases List.append_eq_append_iff.1 h with ⟨a, h1, h2⟩ | ⟨a, h1, h2⟩
  · cases a with
    | nil => simp_all
    | cons x a =>
      simp at h2
      obtain ⟨h2, h3⟩ := h2
      exact absurd (by rw [h3]; simp) he
  · cases a with
    | nil => simp_all
    | cons x a =>
      simp at h2
      obtain ⟨h2, h3⟩ := h2
      subst h2
      exact absurd (by rw [h1]; simp) hn

theorem callOver_log (st : St) {c : Call} (hc : c ≠ .close) : ∃ es, (callOver st c).log = st.log ++ es ∧ Ev.closed ∉ es := by
  have one : ∃ es, st.log ++ [Ev.did c] = st.log ++ es ∧ Ev.closed ∉ es := ⟨[.did c], rfl, by simp⟩
  cases c with
  | close => exact absurd rfl hc
  | leave =>
    simp only [callOver, body, note, closeIfDone]
    split
    · exact ⟨[.did .leave, .shutWr], by simp, by simp⟩
    · exact ⟨[.did .leave], rfl, by simp⟩
  | _ =>
    simp only [callOver, body, note, tryR, tryW]
    rcases st with ⟨client, shut, runs, up, size, turns, out, onW, onR, onL, allowed, regR, regW, tasks, fin, stuck, wild, log⟩
    cases up <;> cases runs <;> cases onR <;> cases onW <;> exact one

theorem callOver_told {st : St} (hi : Inv st) (h : Told st.log) (c : Call) : Told (callOver st c).log := by
  by_cases hc : c = .close
  · subst hc
    simp only [callOver, body, drop]
    by_cases hu : st.up = true
    · have : (note st (.did .close)).up = true := hu
      rw [if_pos this]
      intro l r f hl hn ht
      have hcl := hi.up.1 hu
      have hl' : (st.log ++ [.did .close]) ++ .closed :: [] = l ++ .closed :: r := by
        simpa [note] using hl
      obtain ⟨h1, h2⟩ := split_closed (by simpa using hcl) (by simp) hl'
      exact absurd (by rw [h1]; simp) hn
    · have : ¬ (note st (.did .close)).up = true := hu
      rw [if_neg this]
      exact h.append (by simp)
  · obtain ⟨es, he, hn⟩ := callOver_log st hc
    rw [he]
    exact h.append hn

theorem fold_over_told {st : St} (hi : Inv st) (h : Told st.log) (cs : List Call) : Told (cs.foldl callOver st).log := by
  induction cs generalizing st with
  | nil => exact h
  | cons c cs ih => exact ih (callOver_inv hi c) (callOver_told hi h c)

theorem finish_told {app : App} (ha : Plain app) {st : St} (h : Told st.log) : Told (finish app st).log := by
  unfold finish
  rw [ha]
  split
  · exact h.append (by simp)
  · exact h

theorem call_told {app : App} (ha : Plain app) {st : St} (hi : Inv st) (h : Told st.log) (c : Call) : Told (call app st c).log := by
  unfold call
  dsimp only
  split
  · exact finish_told ha (callOver_told hi h c)
  · exact callOver_told hi h c

theorem fold_told {app : App} (ha : Plain app) {st : St} (hi : Inv st) (h : Told st.log) (cs : List Call) : Told (cs.foldl (call app) st).log := by
  induction cs generalizing st with
  | nil => exact h
  | cons c cs ih => exact ih (call_inv hi c) (call_told ha hi h c)

theorem back_told {app : App} (ha : Plain app) {st : St} {e : Ev} (hi : Inv (note st e)) (h : Told st.log) (he : e ≠ .closed) : Told (back app st e).log := by
  refine fold_told ha hi ?_ _
  exact h.append (by simpa using he.symm)

theorem drop_onL (st : St) : (drop st).onL = st.onL := by
  unfold drop
  split <;> rfl

theorem finish_onL {app : App} (ha : Plain app) (st : St) : (finish app st).onL = st.onL := by
  unfold finish
  rw [ha]
  split <;> rfl

theorem finish_log {app : App} (ha : Plain app) (st : St) : ∃ es, (finish app st).log = st.log ++ es ∧ Ev.closed ∉ es := by
  unfold finish
  rw [ha]
  split
  · exact ⟨[.ended], rfl, by simp⟩
  · exact ⟨[], by simp, by simp⟩

theorem fail_told {app : App} (ha : Plain app) {st : St} (h : Kept st) (ht : Told st.log) : Told (fail app st).log := by
  have hi := close_inv (app := app) h.inv
  have hu := close_up (app := app) st
  have hn := (close_on app st).lost h.none
  have hl : (close app st).onL = toTell st.log := by
    unfold close
    rw [finish_onL ha, drop_onL, h.inv.onL]
  have hlog : ∃ es, (close app st).log = st.log ++ es ∧ (st.up = true → ∃ es', es = .closed :: es' ∧ Ev.closed ∉ es') ∧ (st.up = false → Ev.closed ∉ es) := by
    unfold close
    obtain ⟨es, h1, h2⟩ := finish_log ha (drop st)
    rw [h1]
    unfold drop
    by_cases hu : st.up = true
    · rw [if_pos hu]
      exact ⟨.closed :: es, by simp [note], fun _ => ⟨es, rfl, h2⟩, fun hx => by simp_all⟩
    · rw [if_neg hu]
      exact ⟨es, rfl, fun hx => by simp_all, fun _ => h2⟩
  unfold fail
  dsimp only
  generalize close app st = s at *
  obtain ⟨es, h1, h2, h3⟩ := hlog
  cases ho : s.onL with
  | none =>
    dsimp only
    rw [h1]
    by_cases hup : st.up = true
    · obtain ⟨es', h4, h5⟩ := h2 hup
      subst h4
      intro l r f hl' _ htt
      obtain ⟨e1, e2⟩ := split_closed (h.inv.up.1 hup) h5 hl'
      rw [e1, ← hl, ho] at htt
      cases htt
    · exact ht.append (h3 (by simpa using hup))
  | some f =>
    dsimp only
    have hc : Ev.closed ∈ s.log := by
      by_cases hx : Ev.closed ∈ s.log
      · exact hx
      · have := hi.up.2 hx
        simp_all
    have hi' : Inv (note s (.lost f)) := note_inv hi _ ⟨hi.onL.trans ho, hc, hn⟩ (by nofun) (by nofun) (by nofun) (by nofun) (by nofun)
    refine fold_told ha hi' ?_ _
    show Told (s.log ++ [.lost f])
    rw [h1]
    by_cases hup : st.up = true
    · obtain ⟨es', h4, h5⟩ := h2 hup
      subst h4
      intro l r g hl' _ htt
      have hl2 : st.log ++ .closed :: (es' ++ [.lost f]) = l ++ .closed :: r := by simpa using hl'
      obtain ⟨e1, e2⟩ := split_closed (h.inv.up.1 hup) (by simpa using h5) hl2
      rw [e1, ← hl, ho] at htt
      cases htt
      rw [e2]
      simp
    · exact (ht.append (h3 (by simpa using hup))).append (by simp)

theorem onReadable_told {app : App} (ha : Plain app) {st : St} (h : Held st) (ht : Told st.log) (hr : st.regR = true) (g : Got) : Told (onReadable app st g).log := by
  have hup := (h.inv.regR hr).2
  have hk : Kept st := ⟨h.inv, h.rest, h.none hup⟩
  unfold onReadable
  by_cases hc : (st.client && st.onR.isNone) = true
  · rw [if_pos hc]
    exact ht
  · rw [if_neg hc]
    cases g with
    | again => exact ht
    | eof => exact fail_told ha hk ht
    | bad => exact fail_told ha hk ht
    | some b =>
      dsimp only
      have hcl : Ev.closed ∉ st.log := h.inv.up.1 hup
      have hi : Inv (note st (.recv b)) := note_inv h.inv _ hcl (by nofun) (by nofun) (by nofun) (by nofun) (by nofun)
      have hn : ∀ g, Ev.lost g ∉ (note st (.recv b)).log := by
        have := hk.none
        simp [note, this]
      have ht' : Told (note st (.recv b)).log := ht.append (by simp)
      by_cases hs : (note st (.recv b)).shut = true
      · rw [if_pos hs]
        exact ht'
      · rw [if_neg hs]
        by_cases hcf : (note st (.recv b)).client = false
        · rw [if_pos hcf]
          exact fail_told ha ⟨hi, h.rest, hn⟩ ht'
        · rw [if_neg hcf]
          cases ho : (note st (.recv b)).onR with
          | none => exact ht'
          | some f =>
            dsimp only
            have hm : May (note st (.recv b)).log (.data f b) := by
              refine ⟨hi.onR f ho, ?_, ?_⟩
              · intro hx
                exact hcf (hi.left.2 hx)
              · simpa [note] using hcl
            have hi2 := note_inv hi (.data f b) hm (by nofun) (by nofun) (by nofun) (by nofun) (by nofun)
            have := back_told ha hi2 ht' (by nofun)
            split
            · exact this
            · exact this

theorem fill_told {app : App} (ha : Plain app) (n : Nat) {st : St} (h : Kept st) (hf : Flow st) (ht : Told st.log) : Told (fill app n st).log := by
  induction n generalizing st with
  | zero =>
    unfold fill
    split
    · exact ht
    · exact ht
  | succ n ih =>
    unfold fill
    by_cases hl : st.out.length < st.size
    · rw [if_pos hl]
      cases ho : st.onW with
      | none => exact ht
      | some f =>
        dsimp only
        have hi := note_inv h.inv (.writable f) (h.inv.onW f ho) (by nofun) (by nofun) (by nofun) (by nofun) (by nofun)
        have hk : Kept (back app st (.writable f)) := by
          apply back_kept
          refine ⟨hi, h.rest, ?_⟩
          have := h.none
          simp [note, this]
        have hfl : Flow (back app st (.writable f)) := by
          apply back_flow
          simpa [Flow, note] using hf
        have htt := back_told ha hi ht (by nofun)
        apply ih
        · split
          · exact hk
          · exact ⟨noW_inv hk.inv, hk.rest, hk.none⟩
        · split
          · exact hfl
          · exact hfl
        · split
          · exact htt
          · exact htt
    · rw [if_neg hl]
      exact ht

theorem settle_told {st : St} (h : Told st.log) : Told (settle st).log := by
  unfold settle
  have e : (if st.out = [] ∧ st.runs = true ∧ st.onW = none then { st with regW := false } else st).log = st.log := by split <;> rfl
  generalize (if st.out = [] ∧ st.runs = true ∧ st.onW = none then { st with regW := false } else st) = t at *
  unfold closeIfDone
  split
  · show Told (t.log ++ [.shutWr])
    rw [e]
    exact h.append (by simp)
  · rw [e]
    exact h

theorem step_told {app : App} (ha : Plain app) {st : St} (h : Held st) (ht : Told st.log) (op : Op) : Told (step app st op).log := by
  cases op with
  | call c =>
    simp only [step]
    split
    · exact ht
    · exact call_told ha h.inv ht c
  | readable g =>
    simp only [step]
    split
    · exact ht
    · exact onReadable_told ha h ht (by simp_all) g
  | writable p =>
    simp only [step]
    split
    · exact ht
    · rename_i hx
      have hr : st.regW = true := by simp_all
      have hup := (h.inv.regW hr).2
      have hk : Kept st := ⟨h.inv, h.rest, h.none hup⟩
      obtain ⟨h1, h2⟩ := fill_kept (app := app) st.turns hk h.flow
      have h3 := fill_told ha st.turns hk h.flow ht
      unfold onWritable
      dsimp only
      generalize fill app st.turns st = s at *
      split
      · exact h3
      · unfold push
        split
        · exact settle_told h3
        · split
          · exact fail_told ha h1 h3
          · cases p with
            | again => exact h3
            | bad => exact fail_told ha h1 h3
            | some n => exact settle_told (h3.append (by simp))
  | task =>
    simp only [step]
    split
    · exact ht
    · unfold onTask
      cases hts : st.tasks with
      | nil => exact ht
      | cons t ts =>
        dsimp only
        split
        · rename_i hal
          obtain ⟨a1, a2⟩ := h.inv.allowed hal
          have hi : Inv { st with tasks := ts } := by
            obtain ⟨⟨⟨h1, h2, h3, h4, h5, h6, h7, h8, h9, h10, h11, h12, h13, h14, h15⟩, h16⟩, k2, k3⟩ := h
            refine ⟨?_, ?_⟩ <;> (try constructor) <;> simp_all
          have hm : May st.log (.task t) := by
            refine ⟨h.inv.tasks t (by simp [hts]), ?_, h.inv.up.1 a2⟩
            intro hx
            have := h.inv.left.2 hx
            simp_all
          have hi2 := note_inv hi (.task t) hm (by nofun) (by nofun) (by nofun) (by nofun) (by nofun)
          exact back_told ha hi2 ht (by nofun)
        · exact ht

theorem run_told {app : App} (ha : Plain app) {st : St} (h : Held st) (ht : Told st.log) (ops : List Op) : Told (run app st ops).log := by
  induction ops generalizing st with
  | nil => exact ht
  | cons op ops ih => exact ih (step_held h op) (step_told ha h ht op)

/-! ## why the socket is closed -/

theorem fold_why {app : App} (cs : List Call) {st : St} (h : (cs.foldl (call app) st).up = false) : st.up = false ∨ .did .close ∈ (cs.foldl (call app) st).log := by
  induction cs generalizing st with
  | nil => exact Or.inl h
  | cons c cs ih =>
    rcases ih h with h1 | h1
    · by_cases hc : c = .close
      · right
        obtain ⟨es, he, -⟩ := fold_on app (call app st c) cs
        rw [List.foldl_cons, he]
        apply List.mem_append_left
        subst hc
        obtain ⟨es', he', -⟩ := finish_on app (callOver st .close)
        have : (call app st .close) = finish app (callOver st .close) := by simp [call]
        rw [this, he']
        apply List.mem_append_left
        simp only [callOver, body, drop]
        split <;> simp [note]
      · left
        unfold call at h1
        simp only [hc, if_false] at h1
        rw [← h1]
        exact (body_open (note st (.did c)) c hc).symm
    · exact Or.inr h1

theorem back_why {app : App} {st : St} {e : Ev} (h : (back app st e).up = false) : st.up = false ∨ .did .close ∈ (back app st e).log := fold_why _ h

theorem back_pre (app : App) (st : St) (e : Ev) : st.log <+: (back app st e).log := by
  obtain ⟨es, he, -⟩ := back_on app st e
  rw [he, List.append_assoc]
  exact List.prefix_append _ _

theorem fail_pre (app : App) (st : St) : st.log <+: (fail app st).log := by
  obtain ⟨es, he, -⟩ := close_on app st
  have h1 : st.log <+: (close app st).log := by rw [he]; exact List.prefix_append _ _
  unfold fail
  dsimp only
  split
  · exact h1.trans (back_pre _ _ _)
  · exact h1

theorem fill_pre (app : App) (n : Nat) (st : St) : st.log <+: (fill app n st).log := by
  induction n generalizing st with
  | zero =>
    unfold fill
    split <;> exact List.prefix_refl _
  | succ n ih =>
    unfold fill
    split
    · cases ho : st.onW with
      | none => exact List.prefix_refl _
      | some f =>
        dsimp only
        refine (back_pre app st (.writable f)).trans ?_
        split
        · exact ih _
        · exact ih { back app st (.writable f) with onW := none }
    · exact List.prefix_refl _

theorem fill_why {app : App} (n : Nat) {st : St} (h : (fill app n st).up = false) : st.up = false ∨ .did .close ∈ (fill app n st).log := by
  induction n generalizing st with
  | zero =>
    left
    unfold fill at h
    split at h <;> exact h
  | succ n ih =>
    unfold fill at h ⊢
    by_cases hl : st.out.length < st.size
    · rw [if_pos hl] at h ⊢
      cases ho : st.onW with
      | none =>
        simp only [ho] at h
        exact Or.inl h
      | some f =>
        simp only [ho] at h ⊢
        rcases ih h with h1 | h1
        · have h2 : (back app st (.writable f)).up = false := by
            split at h1 <;> exact h1
          rcases back_why h2 with h3 | h3
          · exact Or.inl h3
          · right
            have hp := fill_pre app n (if app.answer (st.log ++ [.writable f]) = true then back app st (.writable f) else { back app st (.writable f) with onW := none })
            apply hp.subset
            split <;> exact h3
        · exact Or.inr h1
    · rw [if_neg hl] at h
      exact Or.inl h

theorem settle_up (st : St) : (settle st).up = st.up := by
  unfold settle closeIfDone
  (repeat' split) <;> rfl

/-- the socket is closed because someone called `close`, because the kernel said so, or because bytes came after the client had left -/
theorem step_why {app : App} {st : St} (hi : Inv st) (op : Op) (hu : st.up = true) (hc : (step app st op).up = false) :
    .did .close ∈ (step app st op).log ∨ op = .readable .eof ∨ op = .readable .bad ∨ op = .writable .bad ∨ ∃ b, op = .readable (.some b) ∧ Left st.log := by
  cases op with
  | call c =>
    left
    simp only [step] at hc ⊢
    split at hc
    · simp_all
    · rename_i hx
      rw [if_neg hx]
      rcases fold_why (app := app) [c] (st := st) hc with h | h
      · simp_all
      · exact h
  | readable g =>
    simp only [step] at hc ⊢
    split at hc
    · simp_all
    · rename_i hx
      rw [if_neg hx]
      cases g with
      | eof => simp
      | bad => simp
      | again =>
        unfold onReadable at hc
        dsimp only at hc
        split at hc <;> simp_all
      | some b =>
        unfold onReadable at hc ⊢
        by_cases hcc : (st.client && st.onR.isNone) = true
        · rw [if_pos hcc] at hc
          simp_all
        · rw [if_neg hcc] at hc ⊢
          dsimp only at hc ⊢
          by_cases hs : (note st (.recv b)).shut = true
          · rw [if_pos hs] at hc
            simp_all [note]
          · rw [if_neg hs] at hc ⊢
            by_cases hcf : (note st (.recv b)).client = false
            · right; right; right; right
              exact ⟨b, rfl, hi.left.1 hcf⟩
            · rw [if_neg hcf] at hc ⊢
              cases ho : (note st (.recv b)).onR with
              | none =>
                simp only [ho] at hc
                simp_all [note]
              | some f =>
                left
                simp only [ho] at hc ⊢
                have h2 : (back app (note st (.recv b)) (.data f b)).up = false := by
                  split at hc <;> exact hc
                rcases back_why h2 with h3 | h3
                · simp_all [note]
                · split <;> exact h3
  | writable p =>
    cases p with
    | bad => simp
    | again =>
      left
      simp only [step] at hc ⊢
      split at hc
      · simp_all
      · rename_i hx
        rw [if_neg hx]
        have hw := fill_why (app := app) st.turns (st := st)
        unfold onWritable at hc ⊢
        dsimp only at hc ⊢
        generalize fill app st.turns st = s at *
        split at hc
        · rename_i hst
          rw [if_pos hst]
          rcases hw hc with h | h
          · simp_all
          · exact h
        · rename_i hst
          rw [if_neg hst]
          have hs : s.up = false := by
            unfold push at hc
            split at hc
            · rw [settle_up] at hc
              exact hc
            · split at hc
              · assumption
              · exact hc
          have hm : .did .close ∈ s.log := by
            rcases hw hs with h | h
            · simp_all
            · exact h
          unfold push
          split
          · obtain ⟨es, he, -⟩ := settle_log s
            rw [he]
            exact List.mem_append_left _ hm
          · exact (fail_pre app s).subset hm
    | some n =>
      left
      simp only [step] at hc ⊢
      split at hc
      · simp_all
      · rename_i hx
        rw [if_neg hx]
        have hw := fill_why (app := app) st.turns (st := st)
        unfold onWritable at hc ⊢
        dsimp only at hc ⊢
        generalize fill app st.turns st = s at *
        split at hc
        · rename_i hst
          rw [if_pos hst]
          rcases hw hc with h | h
          · simp_all
          · exact h
        · rename_i hst
          rw [if_neg hst]
          have hs : s.up = false := by
            unfold push at hc
            split at hc
            · rw [settle_up] at hc
              exact hc
            · split at hc
              · assumption
              · rw [settle_up] at hc
                exact hc
          have hm : .did .close ∈ s.log := by
            rcases hw hs with h | h
            · simp_all
            · exact h
          unfold push
          split
          · obtain ⟨es, he, -⟩ := settle_log s
            rw [he]
            exact List.mem_append_left _ hm
          · exact (fail_pre app s).subset hm
  | task =>
    left
    simp only [step] at hc ⊢
    split at hc
    · simp_all
    · rename_i hx
      rw [if_neg hx]
      unfold onTask at hc ⊢
      cases hts : st.tasks with
      | nil =>
        simp only [hts] at hc
        simp_all
      | cons t ts =>
        simp only [hts] at hc ⊢
        by_cases hal : st.allowed = true
        · rw [if_pos hal] at hc ⊢
          rcases back_why hc with h | h
          · simp_all
          · exact h
        · rw [if_neg hal] at hc
          simp_all

end PosixStream
end Rtmfp
