import Verif.Spec.PosixStream
namespace Rtmfp
namespace PosixStream
open Spec.StreamAdapter

/-- induction along what was noted last -/
theorem snoc_ind {α : Type} {p : List α → Prop} (nil : p []) (snoc : ∀ l a, p l → p (l ++ [a])) (l : List α) : p l := by
  have : ∀ l : List α, p l.reverse := by
    intro l
    induction l with
    | nil => exact nil
    | cons a l ih =>
      rw [List.reverse_cons]
      exact snoc _ a ih
  have h := this l.reverse
  rwa [List.reverse_reverse] at h

theorem right_nil : Right [] := by
  intro l e r h
  simp at h

theorem right_snoc {l : List Ev} {e : Ev} : Right (l ++ [e]) ↔ Right l ∧ May l e := by
  constructor
  · intro h
    refine ⟨fun a x b hx => h a x (b ++ [e]) (by simp [hx]), h l e [] rfl⟩
  · intro ⟨h, he⟩ a x b hx
    rcases List.eq_nil_or_concat b with hb | ⟨b', y, hb⟩
    · subst hb
      have := List.append_inj' hx rfl
      obtain ⟨h1, h2⟩ := this
      subst h1
      simp at h2
      subst h2
      exact he
    · subst hb
      have hx' : l ++ [e] = (a ++ x :: b') ++ [y] := by simpa using hx
      have := List.append_inj' hx' rfl
      exact h a x b' this.1

@[simp] theorem asked_snoc (l : List Ev) (e : Ev) :
    asked (l ++ [e]) = match e with | .did (.notify f) => some f | .did .leave => none | _ => asked l := by
  unfold asked
  rw [List.foldl_append]
  rcases e with c | _ | _ | _ | _ | _ | _ | _ | _ | _ <;> first | rfl | (cases c <;> rfl)

@[simp] theorem toTell_snoc (l : List Ev) (e : Ev) :
    toTell (l ++ [e]) = match e with | .did (.whenLost f) => some f | .did .leave => none | _ => toTell l := by
  unfold toTell
  rw [List.foldl_append]
  rcases e with c | _ | _ | _ | _ | _ | _ | _ | _ | _ <;> first | rfl | (cases c <;> rfl)

@[simp] theorem toGive_snoc (l : List Ev) (e : Ev) :
    toGive (l ++ [e]) = match e with | .did (.receive f) => some f | .did .leave => none | _ => toGive l := by
  unfold toGive
  rw [List.foldl_append]
  rcases e with c | _ | _ | _ | _ | _ | _ | _ | _ | _ <;> first | rfl | (cases c <;> rfl)

@[simp] theorem sent_snoc (l : List Ev) (e : Ev) : sent (l ++ [e]) = sent l ++ match e with | .sent b => b | _ => [] := by
  induction l with
  | nil => cases e <;> simp [sent]
  | cons x l ih => cases x <;> simp [sent, ih]

@[simp] theorem received_snoc (l : List Ev) (e : Ev) : received (l ++ [e]) = received l ++ match e with | .recv b => b | _ => [] := by
  induction l with
  | nil => cases e <;> simp [received]
  | cons x l ih => cases x <;> simp [received, ih]

@[simp] theorem given_snoc (l : List Ev) (e : Ev) : given (l ++ [e]) = given l ++ match e with | .data _ b => b | _ => [] := by
  induction l with
  | nil => cases e <;> simp [given]
  | cons x l ih => cases x <;> simp [given, ih]

theorem written_snoc (up : Bool) (l : List Ev) (e : Ev) :
    written up (l ++ [e]) = written up l ++ match e with | .did (.write b) => (if up = true ∧ Ev.closed ∉ l then b else []) | _ => [] := by
  induction l generalizing up with
  | nil =>
    cases e with
    | did c => cases c <;> cases up <;> simp [written]
    | _ => simp [written]
  | cons x l ih =>
    cases x with
    | did c => cases c <;> simp [written, ih]
    | closed =>
      simp only [List.cons_append, written, ih]
      cases e with
      | did c => cases c <;> simp
      | _ => simp
    | _ => simp [written, ih]

@[simp] theorem left_snoc (l : List Ev) (e : Ev) : Left (l ++ [e]) ↔ Left l ∨ e = .did .leave := by
  simp [Left, eq_comm]

/-- what always holds, also where all has been sent and the socket is about to be shut down -/
structure Inv0 (st : St) : Prop where
  right : Right st.log
  keep : written true st.log = sent st.log ++ st.out
  up : st.up = true ↔ Ev.closed ∉ st.log
  left : st.client = false ↔ Left st.log
  onW : ∀ f, st.onW = some f → asked st.log = some f
  onR : ∀ f, st.onR = some f → toGive st.log = some f
  onL : toTell st.log = st.onL
  shut : st.shut = true ↔ Ev.shutWr ∈ st.log
  fin : st.fin = true ↔ Ev.ended ∉ st.log
  allowed : st.allowed = true → st.client = true ∧ st.up = true
  tasks : ∀ t, t ∈ st.tasks → Ev.did (.later t) ∈ st.log
  regR : st.regR = true → st.runs = true ∧ st.up = true
  regW : st.regW = true → st.runs = true ∧ st.up = true
  askW : st.onW.isSome = true → st.runs = true → st.up = true → st.regW = true
  askR : st.onR.isSome = true → st.runs = true → st.up = true → st.regR = true

/-- what always holds between two things that happen, also inside of a callback -/
structure Inv (st : St) : Prop extends Inv0 st where
  done : st.client = false → st.up = true → st.out = [] → st.shut = true

theorem init_inv (runs : Bool) (size turns : Nat) : Inv (init runs size turns) := by
  refine ⟨?_, ?_⟩
  constructor <;> simp [init, right_nil, written, sent, Left, toTell]
  simp [init, right_nil, written, sent, Left]

theorem body_up {st : St} (c : Call) (h : st.up = false) : (body st c).up = false := by
  cases c <;> simp [body, tryW, tryR, closeIfDone, drop, note] <;> (repeat' split) <;> simp_all

theorem closeIfDone_inv {st : St} (h : Inv0 st) : Inv (closeIfDone st) := by
  unfold closeIfDone
  by_cases hc : st.out = [] ∧ st.client = false ∧ st.shut = false ∧ st.up = true
  · rw [if_pos hc]
    obtain ⟨h1, h2, h3, h4, h5, h6, h7, h8, h9, h10, h11, h12, h13, h14, h15⟩ := h
    obtain ⟨c1, c2, c3, c4⟩ := hc
    refine ⟨?_, fun _ _ _ => rfl⟩
    have hm : May st.log .shutWr := by
      refine ⟨h4.1 c2, h3.1 c4, ?_, ?_⟩
      · intro hx
        have := h8.2 hx
        simp_all
      · rw [h2, c1]
        simp
    have hr := right_snoc.2 ⟨h1, hm⟩
    constructor <;> simp_all [written_snoc, note]
  · rw [if_neg hc]
    refine ⟨h, fun h1 h2 h3 => ?_⟩
    cases hs : st.shut
    · exact absurd ⟨h3, h1, hs, h2⟩ hc
    · rfl

theorem drop_inv {st : St} (h : Inv st) : Inv (drop st) := by
  obtain ⟨⟨h1, h2, h3, h4, h5, h6, h7, h8, h9, h10, h11, h12, h13, h14, h15⟩, h16⟩ := h
  unfold drop
  by_cases hc : st.up = true
  · rw [if_pos hc]
    have hm : May st.log .closed := h3.1 hc
    have hr := right_snoc.2 ⟨h1, hm⟩
    cases hn : st.runs <;> refine ⟨?_, ?_⟩ <;> (try constructor) <;> simp_all [written_snoc, note]
  · rw [if_neg hc]
    refine ⟨?_, ?_⟩ <;> (try constructor) <;> simp_all

set_option maxHeartbeats 2000000 in
theorem callOver_inv {st : St} (h : Inv st) (c : Call) : Inv (callOver st c) := by
  obtain ⟨⟨h1, h2, h3, h4, h5, h6, h7, h8, h9, h10, h11, h12, h13, h14, h15⟩, h16⟩ := h
  have hr : Right (st.log ++ [.did c]) := right_snoc.2 ⟨h1, trivial⟩
  rcases st with ⟨client, shut, runs, up, size, turns, out, onW, onR, onL, allowed, regR, regW, tasks, fin, stuck, wild, log⟩
  dsimp only at *
  cases c with
  | notify f =>
    simp only [callOver, body, note, tryW]
    cases runs <;> cases up <;> refine ⟨?_, ?_⟩ <;> (try constructor) <;> simp_all [written_snoc]
  | receive f =>
    simp only [callOver, body, note, tryR]
    cases runs <;> cases up <;> refine ⟨?_, ?_⟩ <;> (try constructor) <;> simp_all [written_snoc]
  | whenLost f =>
    simp only [callOver, body, note]
    refine ⟨?_, ?_⟩ <;> (try constructor) <;> simp_all [written_snoc]
  | later t =>
    simp only [callOver, body, note]
    cases runs <;> refine ⟨?_, ?_⟩ <;> (try constructor) <;> simp_all [written_snoc]
    intro t ht
    rcases ht with ht | ht
    · exact Or.inl (h11 t ht)
    · exact Or.inr ht
  | write b =>
    simp only [callOver, body, note]
    cases up <;> refine ⟨?_, ?_⟩ <;> (try constructor) <;> simp_all [written_snoc]
  | leave =>
    simp only [callOver, body, note]
    apply closeIfDone_inv
    constructor <;> simp_all [written_snoc]
  | close =>
    simp only [callOver, body, note]
    apply drop_inv
    refine ⟨?_, ?_⟩ <;> (try constructor) <;> simp_all [written_snoc]
  | attach =>
    simp only [callOver, body, note, tryR, tryW]
    cases up <;> cases runs <;> cases onR <;> cases onW <;> refine ⟨?_, ?_⟩ <;> (try constructor) <;> simp_all [written_snoc]
  | detach =>
    simp only [callOver, body, note]
    cases runs <;> refine ⟨?_, ?_⟩ <;> (try constructor) <;> simp_all [written_snoc]

/-- an event that changes none of what is remembered of it -/
theorem note_inv {st : St} (h : Inv st) (e : Ev) (hm : May st.log e) (hd : ∀ c, e ≠ .did c) (h1 : e ≠ .ended) (h2 : e ≠ .shutWr) (h3 : e ≠ .closed) (h4 : ∀ b, e ≠ .sent b) :
    Inv (note st e) := by
  obtain ⟨⟨g1, g2, g3, g4, g5, g6, g7, g8, g9, g10, g11, g12, g13, g14, g15⟩, g16⟩ := h
  have hr := right_snoc.2 ⟨g1, hm⟩
  cases e with
  | did c => exact absurd rfl (hd c)
  | ended => exact absurd rfl h1
  | shutWr => exact absurd rfl h2
  | closed => exact absurd rfl h3
  | sent b => exact absurd rfl (h4 b)
  | _ => refine ⟨?_, ?_⟩ <;> (try constructor) <;> simp_all [written_snoc, note]

theorem fold_over_inv {st : St} (h : Inv st) (cs : List Call) : Inv (cs.foldl callOver st) := by
  induction cs generalizing st with
  | nil => exact h
  | cons c cs ih => exact ih (callOver_inv h c)

theorem fold_over_up {st : St} (h : st.up = false) (cs : List Call) : (cs.foldl callOver st).up = false := by
  induction cs generalizing st with
  | nil => exact h
  | cons c cs ih => exact ih (body_up c h)

theorem finish_inv {app : App} {st : St} (h : Inv st) (hu : st.up = false) : Inv (finish app st) := by
  unfold finish
  by_cases hf : st.fin = true
  · rw [if_pos hf]
    apply fold_over_inv
    obtain ⟨⟨g1, g2, g3, g4, g5, g6, g7, g8, g9, g10, g11, g12, g13, g14, g15⟩, g16⟩ := h
    have hm : May st.log .ended := by
      refine ⟨?_, g9.1 hf⟩
      by_cases hx : Ev.closed ∈ st.log
      · exact hx
      · have := g3.2 hx
        simp_all
    have hr := right_snoc.2 ⟨g1, hm⟩
    refine ⟨?_, ?_⟩ <;> (try constructor) <;> simp_all [written_snoc, note]
  · rw [if_neg hf]
    exact h

theorem drop_up (st : St) : (drop st).up = false := by
  unfold drop
  split <;> simp_all [note]

theorem close_inv {app : App} {st : St} (h : Inv st) : Inv (close app st) := finish_inv (drop_inv h) (drop_up st)

theorem finish_up {app : App} {st : St} (h : st.up = false) : (finish app st).up = false := by
  unfold finish
  split
  · exact fold_over_up (by exact h) _
  · exact h

theorem close_up {app : App} (st : St) : (close app st).up = false := finish_up (drop_up st)

theorem call_inv {app : App} {st : St} (h : Inv st) (c : Call) : Inv (call app st c) := by
  unfold call
  by_cases hc : c = .close
  · simp only [hc, if_true]
    refine finish_inv (callOver_inv h _) ?_
    exact drop_up _
  · simp only [hc, if_false]
    exact callOver_inv h c

theorem fold_inv {app : App} {st : St} (h : Inv st) (cs : List Call) : Inv (cs.foldl (call app) st) := by
  induction cs generalizing st with
  | nil => exact h
  | cons c cs ih => exact ih (call_inv h c)

/-- what calls leave in the log -/
def Dull : Ev → Prop
  | .did _ | .shutWr | .closed | .ended => True
  | _ => False

/-- the log goes on, with calls only -/
def Onward (a b : List Ev) : Prop := ∃ es, b = a ++ es ∧ ∀ e, e ∈ es → Dull e

theorem Onward.refl (a : List Ev) : Onward a a := ⟨[], by simp, by simp⟩

theorem Onward.trans {a b c : List Ev} (h : Onward a b) (g : Onward b c) : Onward a c := by
  obtain ⟨x, hx, h⟩ := h
  obtain ⟨y, hy, g⟩ := g
  refine ⟨x ++ y, by simp [hx, hy], ?_⟩
  intro e he
  rcases List.mem_append.1 he with he | he
  · exact h e he
  · exact g e he

theorem Onward.one (a : List Ev) {e : Ev} (h : Dull e) : Onward a (a ++ [e]) := ⟨[e], rfl, by simpa using h⟩

theorem Onward.flow {a b : List Ev} (h : Onward a b) : given b = given a ∧ received b = received a := by
  obtain ⟨es, rfl, h⟩ := h
  induction es generalizing a with
  | nil => simp
  | cons e es ih =>
    have := @ih (a ++ [e]) (fun x hx => h x (by simp [hx]))
    rw [List.append_assoc] at this
    have he := h e (by simp)
    cases e <;> simp_all [Dull]

theorem Onward.lost {a b : List Ev} (h : Onward a b) (n : ∀ g, Ev.lost g ∉ a) : ∀ g, Ev.lost g ∉ b := by
  obtain ⟨es, rfl, h⟩ := h
  intro g hg
  rcases List.mem_append.1 hg with hg | hg
  · exact n g hg
  · exact h _ hg

theorem closeIfDone_on (st : St) : Onward st.log (closeIfDone st).log := by
  unfold closeIfDone
  split
  · exact Onward.one _ trivial
  · exact Onward.refl _

theorem callOver_on (st : St) (c : Call) : Onward st.log (callOver st c).log := by
  refine (Onward.one st.log (e := .did c) trivial).trans ?_
  have e : (note st (.did c)).log = st.log ++ [.did c] := rfl
  rw [← e]
  unfold callOver
  generalize note st (.did c) = st
  cases c with
  | leave => exact closeIfDone_on _
  | close =>
    simp only [body, drop]
    split
    · exact Onward.one _ trivial
    · exact Onward.refl _
  | _ =>
    simp only [body, tryR, tryW]
    (repeat' split) <;> exact Onward.refl _

theorem fold_over_on (st : St) (cs : List Call) : Onward st.log (cs.foldl callOver st).log := by
  induction cs generalizing st with
  | nil => exact Onward.refl _
  | cons c cs ih => exact (callOver_on st c).trans (ih _)

theorem finish_on (app : App) (st : St) : Onward st.log (finish app st).log := by
  unfold finish
  split
  · exact (Onward.one st.log (e := .ended) trivial).trans (fold_over_on (note { st with fin := false } .ended) _)
  · exact Onward.refl _

theorem drop_on (st : St) : Onward st.log (drop st).log := by
  unfold drop
  split
  · exact Onward.one _ trivial
  · exact Onward.refl _

theorem close_on (app : App) (st : St) : Onward st.log (close app st).log := (drop_on st).trans (finish_on app _)

theorem call_on (app : App) (st : St) (c : Call) : Onward st.log (call app st c).log := by
  unfold call
  split
  · exact (callOver_on st c).trans (finish_on app _)
  · exact callOver_on st c

theorem fold_on (app : App) (st : St) (cs : List Call) : Onward st.log (cs.foldl (call app) st).log := by
  induction cs generalizing st with
  | nil => exact Onward.refl _
  | cons c cs ih => exact (call_on app st c).trans (ih _)

theorem back_on (app : App) (st : St) (e : Ev) : Onward (st.log ++ [e]) (back app st e).log := fold_on app (note st e) _

/-- the callback for the end has been called when the socket is closed -/
def Rest (st : St) : Prop := st.up = false → st.fin = false

theorem body_fin (st : St) (c : Call) : (body st c).fin = st.fin := by
  cases c <;> simp [body, tryW, tryR, closeIfDone, drop, note] <;> (repeat' split) <;> rfl

theorem body_client (st : St) (c : Call) : st.client = false → (body st c).client = false := by
  cases c <;> simp [body, tryW, tryR, closeIfDone, drop, note] <;> (repeat' split) <;> simp_all

theorem body_open (st : St) (c : Call) (h : c ≠ .close) : (body st c).up = st.up := by
  cases c <;> simp [body, tryW, tryR, closeIfDone, note] at h ⊢ <;> (repeat' split) <;> rfl

theorem fold_over_fin (st : St) (cs : List Call) : (cs.foldl callOver st).fin = st.fin := by
  induction cs generalizing st with
  | nil => rfl
  | cons c cs ih =>
    rw [List.foldl_cons, ih]
    exact body_fin _ _

theorem finish_fin (app : App) (st : St) : (finish app st).fin = false := by
  unfold finish
  by_cases h : st.fin = true
  · rw [if_pos h, fold_over_fin]
    rfl
  · rw [if_neg h]
    simpa using h

theorem call_rest {app : App} {st : St} (h : Rest st) (c : Call) : Rest (call app st c) := by
  unfold call
  by_cases hc : c = .close
  · simp only [hc, if_true]
    exact fun _ => finish_fin app _
  · simp only [hc, if_false]
    intro hu
    unfold callOver at hu ⊢
    rw [body_open _ _ hc] at hu
    rw [body_fin]
    exact h hu

theorem fold_rest {app : App} {st : St} (h : Rest st) (cs : List Call) : Rest (cs.foldl (call app) st) := by
  induction cs generalizing st with
  | nil => exact h
  | cons c cs ih => exact ih (call_rest h c)

/-- what was given to the client of what was received -/
def Flow (st : St) : Prop := given st.log <+: received st.log ∧ (st.client = true → given st.log = received st.log)

/-- what holds before the stream is lost -/
structure Kept (st : St) : Prop where
  inv : Inv st
  rest : Rest st
  none : ∀ g, Ev.lost g ∉ st.log

theorem back_kept {app : App} {st : St} {e : Ev} (h : Kept (note st e)) : Kept (back app st e) :=
  ⟨fold_inv h.inv _, fold_rest h.rest _, (fold_on app (note st e) _).lost h.none⟩

theorem fold_client {app : App} {st : St} (cs : List Call) (h : st.client = false) : (cs.foldl (call app) st).client = false := by
  have over : ∀ (cs : List Call) (st : St), st.client = false → (cs.foldl callOver st).client = false := by
    intro cs
    induction cs with
    | nil => exact fun _ h => h
    | cons c cs ih => exact fun st h => ih _ (body_client _ _ h)
  induction cs generalizing st with
  | nil => exact h
  | cons c cs ih =>
    refine ih ?_
    unfold call
    have h1 : (callOver st c).client = false := body_client _ _ h
    dsimp only
    split
    · unfold finish
      split
      · exact over _ _ h1
      · exact h1
    · exact h1

theorem back_client {app : App} {st : St} {e : Ev} (h : st.client = false) : (back app st e).client = false := fold_client _ h

theorem client_of {app : App} {st : St} {e : Ev} (h : (back app st e).client = true) : st.client = true := by
  cases hc : st.client
  · have := back_client (app := app) (e := e) hc
    simp_all
  · rfl

/-- what holds between the steps -/
structure Held (st : St) : Prop where
  inv : Inv st
  rest : Rest st
  none : st.up = true → ∀ g, Ev.lost g ∉ st.log
  flow : Flow st

theorem back_flow {app : App} {st : St} {e : Ev} (h : Flow (note st e)) : Flow (back app st e) := by
  have ho := (fold_on app (note st e) (app.react (st.log ++ [e]))).flow
  unfold Flow back
  rw [ho.1, ho.2]
  refine ⟨h.1, fun hc => h.2 ?_⟩
  exact client_of (app := app) (st := st) (e := e) hc

theorem finish_client {app : App} {st : St} (h : (finish app st).client = true) : st.client = true := by
  cases hc : st.client
  · unfold finish at h
    split at h
    · have over : ∀ (cs : List Call) (st : St), st.client = false → (cs.foldl callOver st).client = false := by
        intro cs
        induction cs with
        | nil => exact fun _ h => h
        | cons c cs ih => exact fun st h => ih _ (body_client _ _ h)
      have := over (app.react (st.log ++ [.ended])) (note { st with fin := false } .ended) hc
      simp_all
    · simp_all
  · rfl

theorem close_flow {app : App} {st : St} (h : Flow st) : Flow (close app st) := by
  have ho := (close_on app st).flow
  unfold Flow
  rw [ho.1, ho.2]
  refine ⟨h.1, fun hc => h.2 ?_⟩
  have := finish_client hc
  unfold drop at this
  split at this <;> exact this

/-- the end of the stream -/
theorem fail_held {app : App} {st : St} (h : Kept st) (hf : Flow st) : Held (fail app st) := by
  have hi := close_inv (app := app) h.inv
  have hu := close_up (app := app) st
  have hr : Rest (close app st) := fun _ => finish_fin app _
  have hn := (close_on app st).lost h.none
  have hl := close_flow (app := app) hf
  unfold fail
  dsimp only
  generalize close app st = s at *
  cases ho : s.onL with
  | none => exact ⟨hi, hr, fun h => by simp_all, hl⟩
  | some f =>
    have hc : Ev.closed ∈ s.log := by
      by_cases hx : Ev.closed ∈ s.log
      · exact hx
      · have := hi.up.2 hx
        simp_all
    have hi' : Inv (note s (.lost f)) := note_inv hi _ ⟨hi.onL.trans ho, hc, hn⟩ (by nofun) (by nofun) (by nofun) (by nofun) (by nofun)
    dsimp only
    refine ⟨fold_inv hi' _, fold_rest (by exact hr) _, ?_, ?_⟩
    · intro hup
      have : ∀ (cs : List Call) (s : St), s.up = false → (cs.foldl (call app) s).up = false := by
        intro cs
        induction cs with
        | nil => exact fun _ h => h
        | cons c cs ih =>
          intro s h
          refine ih _ ?_
          unfold call
          have h1 : (callOver s c).up = false := body_up c h
          dsimp only
          split
          · exact finish_up h1
          · exact h1
      have := this (app.react (s.log ++ [.lost f])) (note s (.lost f)) hu
      unfold back at hup
      simp_all
    · apply back_flow
      simpa [Flow, note] using hl

theorem onReadable_held {app : App} {st : St} (h : Held st) (hr : st.regR = true) (g : Got) : Held (onReadable app st g) := by
  have hup := (h.inv.regR hr).2
  have hk : Kept st := ⟨h.inv, h.rest, h.none hup⟩
  unfold onReadable
  by_cases hc : (st.client && st.onR.isNone) = true
  · rw [if_pos hc]
    obtain ⟨⟨⟨h1, h2, h3, h4, h5, h6, h7, h8, h9, h10, h11, h12, h13, h14, h15⟩, h16⟩, k2, k3, k4⟩ := h
    refine ⟨⟨?_, ?_⟩, k2, k3, k4⟩ <;> (try constructor) <;> simp_all
  · rw [if_neg hc]
    cases g with
    | again => exact h
    | eof => exact fail_held hk h.flow
    | bad => exact fail_held hk h.flow
    | some b =>
      dsimp only
      have hcl : Ev.closed ∉ st.log := h.inv.up.1 hup
      have hi : Inv (note st (.recv b)) := note_inv h.inv _ hcl (by nofun) (by nofun) (by nofun) (by nofun) (by nofun)
      have hn : ∀ g, Ev.lost g ∉ (note st (.recv b)).log := by
        have := hk.none
        simp [note, this]
      have hfl : (note st (.recv b)).client = false → Flow (note st (.recv b)) := by
        intro hcf
        refine ⟨?_, fun hx => by simp_all⟩
        have := h.flow.1
        simp only [note, received_snoc, given_snoc, List.append_nil]
        exact this.trans (List.prefix_append _ _)
      by_cases hs : (note st (.recv b)).shut = true
      · rw [if_pos hs]
        refine ⟨hi, h.rest, fun _ => hn, hfl ?_⟩
        have hsh := hi.shut.1 hs
        obtain ⟨l, r, hlr⟩ := List.append_of_mem hsh
        have hm := hi.right l .shutWr r hlr
        apply hi.left.2
        rw [hlr]
        exact List.mem_append_left _ hm.1
      · rw [if_neg hs]
        by_cases hcf : (note st (.recv b)).client = false
        · rw [if_pos hcf]
          exact fail_held ⟨hi, h.rest, hn⟩ (hfl hcf)
        · rw [if_neg hcf]
          cases ho : (note st (.recv b)).onR with
          | none =>
            simp_all [note]
          | some f =>
            dsimp only
            have hm : May (note st (.recv b)).log (.data f b) := by
              refine ⟨hi.onR f ho, ?_, ?_⟩
              · intro hx
                exact hcf (hi.left.2 hx)
              · simpa [note] using hcl
            have hi2 := note_inv hi (.data f b) hm (by nofun) (by nofun) (by nofun) (by nofun) (by nofun)
            have hk2 : Kept (back app (note st (.recv b)) (.data f b)) := by
              apply back_kept
              refine ⟨hi2, h.rest, ?_⟩
              have := hk.none
              simp [note, this]
            have hf2 : Flow (back app (note st (.recv b)) (.data f b)) := by
              apply back_flow
              have hcc : st.client = true := by simpa [note] using hcf
              have := h.flow.2 hcc
              have e1 : given (note (note st (.recv b)) (.data f b)).log = given st.log ++ b := by
                show given ((st.log ++ [.recv b]) ++ [.data f b]) = _
                rw [given_snoc, given_snoc]
                simp
              have e2 : received (note (note st (.recv b)) (.data f b)).log = received st.log ++ b := by
                show received ((st.log ++ [.recv b]) ++ [.data f b]) = _
                rw [received_snoc, received_snoc]
                simp
              unfold Flow
              rw [e1, e2, this]
              exact ⟨List.prefix_refl _, fun _ => rfl⟩
            generalize back app (note st (.recv b)) (.data f b) = s at *
            split
            · exact ⟨hk2.inv, hk2.rest, fun _ => hk2.none, hf2⟩
            · obtain ⟨⟨⟨h1, h2, h3, h4, h5, h6, h7, h8, h9, h10, h11, h12, h13, h14, h15⟩, h16⟩, k2, k3⟩ := hk2
              refine ⟨⟨?_, ?_⟩, k2, fun _ => k3, hf2⟩ <;> (try constructor) <;> simp_all

theorem noW_inv {st : St} (h : Inv st) : Inv { st with onW := none } := by
  obtain ⟨⟨h1, h2, h3, h4, h5, h6, h7, h8, h9, h10, h11, h12, h13, h14, h15⟩, h16⟩ := h
  refine ⟨?_, ?_⟩ <;> (try constructor) <;> simp_all

theorem stuck_inv {st : St} (h : Inv st) : Inv { st with stuck := true } := by
  obtain ⟨⟨h1, h2, h3, h4, h5, h6, h7, h8, h9, h10, h11, h12, h13, h14, h15⟩, h16⟩ := h
  refine ⟨?_, ?_⟩ <;> (try constructor) <;> simp_all

theorem fill_kept {app : App} (n : Nat) {st : St} (h : Kept st) (hf : Flow st) : Kept (fill app n st) ∧ Flow (fill app n st) := by
  induction n generalizing st with
  | zero =>
    unfold fill
    split
    · exact ⟨⟨stuck_inv h.inv, h.rest, h.none⟩, hf⟩
    · exact ⟨h, hf⟩
  | succ n ih =>
    unfold fill
    by_cases hl : st.out.length < st.size
    · rw [if_pos hl]
      cases ho : st.onW with
      | none => exact ⟨h, hf⟩
      | some f =>
        dsimp only
        have hi := note_inv h.inv (.writable f) (h.inv.onW f ho) (by nofun) (by nofun) (by nofun) (by nofun) (by nofun)
        have hk : Kept (back app st (.writable f)) := by
          apply back_kept
          refine ⟨hi, h.rest, ?_⟩
          have := h.none
          simp [note, this]
        have hfl : Flow (back app st (.writable f)) := by
          apply back_flow
          simpa [Flow, note] using hf
        apply ih
        · split
          · exact hk
          · exact ⟨noW_inv hk.inv, hk.rest, hk.none⟩
        · split
          · exact hfl
          · exact hfl
    · rw [if_neg hl]
      exact ⟨h, hf⟩

theorem settle_inv {st : St} (h : Inv0 st) : Inv (settle st) := by
  unfold settle
  apply closeIfDone_inv
  by_cases hc : st.out = [] ∧ st.runs = true ∧ st.onW = none
  · rw [if_pos hc]
    obtain ⟨h1, h2, h3, h4, h5, h6, h7, h8, h9, h10, h11, h12, h13, h14, h15⟩ := h
    constructor <;> simp_all
  · rw [if_neg hc]
    exact h

theorem settle_kept {st : St} (h : Inv0 st) (hr : Rest st) (hn : ∀ g, Ev.lost g ∉ st.log) (hf : Flow st) : Held (settle st) := by
  have hi := settle_inv h
  unfold settle at *
  generalize ht : (if st.out = [] ∧ st.runs = true ∧ st.onW = none then { st with regW := false } else st) = t at *
  have e1 : t.log = st.log := by rw [← ht]; split <;> rfl
  have e2 : t.up = st.up := by rw [← ht]; split <;> rfl
  have e3 : t.fin = st.fin := by rw [← ht]; split <;> rfl
  have e4 : t.client = st.client := by rw [← ht]; split <;> rfl
  have ho := closeIfDone_on t
  rw [e1] at ho
  refine ⟨hi, ?_, fun _ => ho.lost hn, ?_⟩
  · unfold closeIfDone Rest
    split <;> simp_all [note, Rest]
  · unfold Flow
    rw [ho.flow.1, ho.flow.2]
    refine ⟨hf.1, fun hc => hf.2 ?_⟩
    unfold closeIfDone at hc
    split at hc <;> simp_all [note]

theorem push_held {app : App} {st : St} (h : Kept st) (hf : Flow st) (p : Put) : Held (push app st p) := by
  unfold push
  by_cases ho : st.out = []
  · rw [if_pos ho]
    exact settle_kept h.inv.toInv0 h.rest h.none hf
  · rw [if_neg ho]
    by_cases hu : st.up = false
    · rw [if_pos hu]
      exact fail_held h hf
    · rw [if_neg hu]
      have hu' : st.up = true := by simpa using hu
      cases p with
      | again => exact ⟨h.inv, h.rest, fun _ => h.none, hf⟩
      | bad => exact fail_held h hf
      | some n =>
        dsimp only
        apply settle_kept
        · obtain ⟨⟨⟨h1, h2, h3, h4, h5, h6, h7, h8, h9, h10, h11, h12, h13, h14, h15⟩, h16⟩, k2, k3⟩ := h
          have hm : May st.log (.sent (st.out.take n)) := by
            refine ⟨h3.1 hu', ?_⟩
            rw [h2]
            exact (List.prefix_append_right_inj _).2 (List.take_prefix _ _)
          have hr := right_snoc.2 ⟨h1, hm⟩
          constructor <;> simp_all [written_snoc, note]
        · exact h.rest
        · have := h.none
          simp [note, this]
        · simpa [Flow, note] using hf

theorem onWritable_held {app : App} {st : St} (h : Held st) (hr : st.regW = true) (p : Put) : Held (onWritable app st p) := by
  have hup := (h.inv.regW hr).2
  have hk : Kept st := ⟨h.inv, h.rest, h.none hup⟩
  obtain ⟨h1, h2⟩ := fill_kept (app := app) st.turns hk h.flow
  unfold onWritable
  dsimp only
  split
  · exact ⟨h1.inv, h1.rest, fun _ => h1.none, h2⟩
  · exact push_held h1 h2 p

theorem call_held {app : App} {st : St} (h : Held st) (c : Call) : Held (call app st c) := by
  refine ⟨call_inv h.inv c, call_rest h.rest c, ?_, ?_⟩
  · intro hu
    apply (call_on app st c).lost
    apply h.none
    cases hs : st.up
    · have h1 : (callOver st c).up = false := body_up c hs
      unfold call at hu
      dsimp only at hu
      split at hu
      · have := finish_up (app := app) h1
        simp_all
      · simp_all
    · rfl
  · have ho := (call_on app st c).flow
    unfold Flow
    rw [ho.1, ho.2]
    refine ⟨h.flow.1, fun hc => h.flow.2 ?_⟩
    cases hs : st.client
    · have := fold_client (app := app) [c] hs
      simp_all
    · rfl

theorem onTask_held {app : App} {st : St} (h : Held st) : Held (onTask app st) := by
  unfold onTask
  cases ht : st.tasks with
  | nil => exact h
  | cons t ts =>
    dsimp only
    have hi : Inv { st with tasks := ts } := by
      obtain ⟨⟨⟨h1, h2, h3, h4, h5, h6, h7, h8, h9, h10, h11, h12, h13, h14, h15⟩, h16⟩, k2, k3⟩ := h
      refine ⟨?_, ?_⟩ <;> (try constructor) <;> simp_all
    split
    · rename_i ha
      obtain ⟨a1, a2⟩ := h.inv.allowed ha
      have hm : May st.log (.task t) := by
        refine ⟨h.inv.tasks t (by simp [ht]), ?_, h.inv.up.1 a2⟩
        intro hx
        have := h.inv.left.2 hx
        simp_all
      have hi2 := note_inv hi (.task t) hm (by nofun) (by nofun) (by nofun) (by nofun) (by nofun)
      have hk : Kept (note { st with tasks := ts } (.task t)) := by
        refine ⟨hi2, h.rest, ?_⟩
        have := h.none a2
        simp [note, this]
      have hk2 := back_kept (app := app) hk
      refine ⟨hk2.inv, hk2.rest, fun _ => hk2.none, ?_⟩
      apply back_flow
      simpa [Flow, note] using h.flow
    · exact ⟨hi, h.rest, h.none, h.flow⟩

theorem step_held {app : App} {st : St} (h : Held st) (op : Op) : Held (step app st op) := by
  cases op with
  | call c =>
    simp only [step]
    split
    · exact h
    · exact call_held h c
  | readable g =>
    simp only [step]
    split
    · exact h
    · exact onReadable_held h (by simp_all) g
  | writable p =>
    simp only [step]
    split
    · exact h
    · exact onWritable_held h (by simp_all) p
  | task =>
    simp only [step]
    split
    · exact h
    · exact onTask_held h

theorem run_held {app : App} {st : St} (h : Held st) (ops : List Op) : Held (run app st ops) := by
  induction ops generalizing st with
  | nil => exact h
  | cons op ops ih => exact ih (step_held h op)

theorem init_held (runs : Bool) (size turns : Nat) : Held (init runs size turns) :=
  ⟨init_inv runs size turns, fun h => by simp [init] at h, fun _ g => by simp [init], by simp [Flow, init, given, received]⟩

end PosixStream
end Rtmfp
