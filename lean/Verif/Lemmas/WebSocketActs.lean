import Verif.Lemmas.WebSocketRun

/-! # Histories of a WebSocket as sequences of small actions; what is written -/

namespace Rtmfp.WS

open Spec.Web

/-- the small actions -/
inductive Act (app : App) : St → St → Prop
  | call (st : St) (c : Call) : Act app st (call st c)
  | note (st : St) (e : Ev) : st.phase ≠ .error → (e = .headers ∨ e = .writable ∨ (∃ b, e = .text b) ∨ (∃ b, e = .binary b) ∨ (∃ b, e = .pong b)) → Act app st (emit st e)
  | ping (st : St) (b : Bytes) : st.phase ≠ .error → Act app st (writeFrame (emit st (.ping b)) 10 b)
  | answer (st : St) : st.phase ≠ .error → st.closing = false → Act app st (cleanClose (emit st .peerClose))
  | second (st : St) : st.phase ≠ .error → st.closing = true → Act app st (emit st .peerClose)
  | fail (st : St) : st.phase ≠ .error → Act app st (emit (clear (emit { st with phase := .error } .released)) .failed)
  | opened (st : St) : st.phase ≠ .error → Act app st (emit (writeBytes st (response app st.headers)) .opened)
  | put (st : St) : st.phase ≠ .error → st.out ≠ [] → Act app st { emit st (.put st.out) with out := [] }
  | rest (st : St) : (st.out = [] ∧ st.phase ≠ .closing) ∨ st.phase = .error → Act app st { st with scheduled := false }
  | own (st st' : St) : st'.phase = st.phase → st'.out = st.out → st'.scheduled = st.scheduled → st'.closing = st.closing → st'.log = st.log →
      (st'.headers = st.headers ∨ Ev.opened ∉ st.log) → Act app st st'
  | over (st st' : St) : st.phase = .error → st'.phase = .error → st'.log = st.log → st'.headers = st.headers → Act app st st'

/-- sequences of them -/
inductive Acts (app : App) : St → St → Prop
  | refl (st : St) : Acts app st st
  | tail {a b c : St} : Acts app a b → Act app b c → Acts app a c

theorem Acts.trans {app : App} {a b c : St} (h : Acts app a b) (g : Acts app b c) : Acts app a c := by
  induction g with
  | refl => exact h
  | tail _ x ih => exact ih.tail x

theorem Acts.one {app : App} {a b : St} (h : Act app a b) : Acts app a b := (Acts.refl a).tail h

theorem calls_acts (app : App) (cs : List Call) (st : St) : Acts app st (cs.foldl call st) := by
  induction cs generalizing st with
  | nil => exact .refl st
  | cons c cs ih => exact (Acts.one (.call st c)).trans (ih _)

theorem callback_acts (app : App) (st : St) (e : Ev) (h : Act app st (emit st e)) : Acts app st (callback app st e) :=
  (Acts.one h).trans (calls_acts app _ _)

theorem setClosed_acts (app : App) (st : St) (hi : Inv st) : Acts app st (setClosed app st) := by
  unfold setClosed
  by_cases h : st.phase = .error
  · rw [if_neg (by simp [h])]
    exact .one (.over _ _ h h rfl rfl)
  · rw [if_pos h]
    have hc : st.cbs = true := by rw [hi]; simp [h]
    rw [if_pos hc]
    exact (Acts.one (.fail st h)).trans (calls_acts app _ _)

theorem message_acts (app : App) (st : St) (op : Int) (fin : Bool) (b : Bytes) (hi : Inv st) : Acts app st (onMessageFrame app st op fin b) := by
  unfold onMessageFrame
  split
  · exact setClosed_acts app st hi
  · split
    · exact .one (.own _ _ rfl rfl rfl rfl rfl (.inl rfl))
    · have hp : st.cbs = true → st.phase ≠ .error := by
        intro hc he; rw [hi, he] at hc; simp at hc
      split
      · split
        · rename_i hc; exact callback_acts app st _ (.note st _ (hp hc) (.inr (.inr (.inl ⟨b, rfl⟩))))
        · exact .refl st
      · split
        · split
          · rename_i hc; exact callback_acts app st _ (.note st _ (hp hc) (.inr (.inr (.inr (.inl ⟨b, rfl⟩)))))
          · exact .refl st
        · exact .refl st

theorem frame_headers (app : App) (st : St) (fin : Bool) (op : Nat) (b : Bytes) : (onFrame app st fin op b).headers = st.headers := by
  have sc : ∀ s : St, (setClosed app s).headers = s.headers := fun s => (setClosed_spec app s).1.hd
  have mf : ∀ (s : St) (op : Int) (fin : Bool) (b : Bytes), (onMessageFrame app s op fin b).headers = s.headers := by
    intro s op fin b
    unfold onMessageFrame
    split
    · exact sc s
    · split
      · rfl
      · split
        · split
          · exact (callback_calm app s _).hd
          · rfl
        · split
          · split
            · exact (callback_calm app s _).hd
            · rfl
          · rfl
  have hne : ∀ e, (if st.phase ≠ .error then emit st e else st).headers = st.headers := fun e => by split <;> rfl
  unfold onFrame
  simp only
  split
  · unfold onContinuation
    split
    · exact sc st
    · simp only
      split
      · exact mf { st with frag := st.frag ++ b, fragOp := -1 } _ _ _
      · rfl
  · split
    · exact (writeFrame_calm _ _ _).hd.trans (hne _)
    · split
      · exact hne _
      · split
        · split
          · exact (sc _).trans (hne _)
          · exact (cleanClose_calm _).hd.trans (hne _)
        · exact mf st _ _ _

theorem frame_acts (app : App) (st : St) (fin : Bool) (op : Nat) (b : Bytes) (hi : Inv st) : Acts app st (onFrame app st fin op b) := by
  by_cases he : st.phase = .error
  · obtain ⟨h1, h2, _⟩ := frame_over app st fin op b hi he
    exact .one (.over _ _ he h1 h2 (frame_headers app st fin op b))
  · have hne : ∀ e, (if st.phase ≠ .error then emit st e else st) = emit st e := fun e => by rw [if_pos he]
    unfold onFrame
    simp only [hne]
    split
    · unfold onContinuation
      split
      · exact setClosed_acts app st hi
      · simp only
        split
        · have h1 : Act app st { st with frag := st.frag ++ b, fragOp := -1 } := .own _ _ rfl rfl rfl rfl rfl (.inl rfl)
          have h2 := message_acts app { st with frag := st.frag ++ b, fragOp := -1 } st.fragOp true (st.frag ++ b) hi
          exact ((Acts.one h1).trans h2).tail (.own _ _ rfl rfl rfl rfl rfl (.inl rfl))
        · exact .one (.own _ _ rfl rfl rfl rfl rfl (.inl rfl))
    · split
      · exact .one (.ping st b he)
      · split
        · exact .one (.note st _ he (.inr (.inr (.inr (.inr ⟨b, rfl⟩)))))
        · split
          · split
            · rename_i hc
              exact (Acts.one (.second st he hc)).trans (setClosed_acts app _ hi)
            · rename_i hc
              exact .one (.answer st he (by simpa using hc))
          · exact message_acts app st _ _ _ hi

theorem frame_inv (app : App) (st : St) (fin : Bool) (op : Nat) (b : Bytes) (hi : Inv st) : Inv (onFrame app st fin op b) := by
  by_cases he : st.phase = .error
  · exact (frame_over app st fin op b hi he).2.2.1
  · have keep : ∀ {s s' : St}, Calm s s' → Inv s → Inv s' := fun c h => c.inv h
    have sc : ∀ s : St, Inv s → Inv (setClosed app s) := fun s h => (setClosed_spec app s).1.inv h
    have mf : ∀ (s : St) (op : Int) (fin : Bool) (b : Bytes), Inv s → Inv (onMessageFrame app s op fin b) := by
      intro s op fin b h
      unfold onMessageFrame
      split
      · exact sc s h
      · split
        · exact h
        · split
          · split
            · exact (callback_calm app s _).inv h
            · exact h
          · split
            · split
              · exact (callback_calm app s _).inv h
              · exact h
            · exact h
    have hne : ∀ e, (if st.phase ≠ .error then emit st e else st) = emit st e := fun e => by rw [if_pos he]
    unfold onFrame
    simp only [hne]
    split
    · unfold onContinuation
      split
      · exact sc st hi
      · simp only
        split
        · exact mf { st with frag := st.frag ++ b, fragOp := -1 } _ _ _ hi
        · exact hi
    · split
      · exact (writeFrame_calm _ _ _).inv hi
      · split
        · exact hi
        · split
          · split
            · exact sc _ hi
            · exact (cleanClose_calm _).inv hi
          · exact mf st _ _ _ hi

theorem loop_acts (app : App) (fuel : Nat) (st : St) (buf : Bytes) (hi : Inv st) : Acts app st (loop app fuel st buf).1 := by
  induction fuel generalizing st buf with
  | zero => exact .refl st
  | succ fuel ih =>
    unfold loop
    split
    · exact .refl st
    · split
      · exact .refl st
      · exact setClosed_acts app st hi
      · exact (frame_acts app st _ _ _ hi).trans (ih _ _ (frame_inv app st _ _ _ hi))

theorem body_acts (app : App) (st : St) (b : Bytes) (hi : Inv st) : Acts app st (onBody app st b) := by
  have h1 : Act app st { st with input := st.input ++ b } := .own _ _ rfl rfl rfl rfl rfl (.inl rfl)
  have h2 := loop_acts app (st.input ++ b).length { st with input := st.input ++ b } (st.input ++ b) hi
  have e : onBody app st b = endBody (loop app (st.input ++ b).length { st with input := st.input ++ b } (st.input ++ b)) := rfl
  rw [e]
  refine ((Acts.one h1).trans h2).trans ?_
  generalize loop app (st.input ++ b).length { st with input := st.input ++ b } (st.input ++ b) = r
  rcases r with ⟨st1, _ | rest⟩
  · exact .refl _
  · exact .one (.own _ _ rfl rfl rfl rfl rfl (.inl rfl))

theorem headersComplete_acts (app : App) (st : St) (hi : Inv st) : Acts app st (onHeadersComplete app st) := by
  have h1 : Acts app st (if st.cbs then callback app st .headers else st) := by
    split
    · rename_i hc
      exact callback_acts app st _ (.note st _ (by intro he; rw [hi, he] at hc; simp at hc) (.inl rfl))
    · exact .refl st
  have hi1 : Inv (if st.cbs then callback app st .headers else st) := by
    split
    · exact (callback_calm app st _).inv hi
    · exact hi
  unfold onHeadersComplete
  generalize (if st.cbs then callback app st .headers else st) = st1 at h1 hi1 ⊢
  simp only
  split
  · have hi2 := (writeBytes_calm st1 (response app st1.headers)).inv hi1
    by_cases he : st1.phase = .error
    · have hc : (writeBytes st1 (response app st1.headers)).cbs = false := by
        rw [hi2, show (writeBytes st1 (response app st1.headers)).phase = st1.phase from scheduleWrite_phase _, he]; rfl
      rw [hc]
      simp only [Bool.false_eq_true, if_false]
      refine h1.tail (.over _ _ he ((scheduleWrite_phase _).trans he) ?_ ?_)
      · unfold writeBytes
        rw [scheduleWrite_log { st1 with out := st1.out ++ response app st1.headers } he]
      · exact (writeBytes_calm st1 _).hd
    · have hc : (writeBytes st1 (response app st1.headers)).cbs = true := by
        rw [hi2, show (writeBytes st1 (response app st1.headers)).phase = st1.phase from scheduleWrite_phase _]; simp [he]
      rw [if_pos hc]
      exact (h1.tail (.opened st1 he)).trans (calls_acts app _ _)
  · exact h1.trans (setClosed_acts app st1 hi1)

theorem headerBlock_acts (app : App) (st : St) (hi : Inv st) (ho : Ev.opened ∉ st.log) : Acts app st (parseHeaderBlock app st) := by
  unfold parseHeaderBlock
  simp only
  split
  · refine (Acts.one ?_).trans (setClosed_acts app _ hi)
    exact .own _ _ rfl rfl rfl rfl rfl (.inr ho)
  · refine (Acts.one ?_).trans (headersComplete_acts app _ hi)
    exact .own _ _ rfl rfl rfl rfl rfl (.inr ho)

theorem receive_acts (app : App) (st : St) (R b : Bytes) (g : Good st R) : Acts app st (onReceive app st b) := by
  unfold onReceive
  split
  · rename_i h
    split
    · exact body_acts app st b g.inv
    · rename_i hh
      simp only
      have h1 : Acts app st (onHeader app st b).1 ∧ Inv (onHeader app st b).1 := by
        unfold onHeader
        rcases hs : scan st.gotNewline st.block b with ⟨g', k, _ | rest⟩
        · exact ⟨.one (.own _ _ rfl rfl rfl rfl rfl (.inl rfl)), g.inv⟩
        · have hno : Ev.opened ∉ st.log := fun hm => by
            obtain ⟨body, hb2⟩ := g.op hm
            rcases g.opn h.1 with ⟨_, h2, _⟩ | ⟨h2, _⟩
            · rw [bodyOf, h2] at hb2; cases hb2
            · exact hh h2
          have a1 : Act app st { st with gotNewline := g', block := k } := .own _ _ rfl rfl rfl rfl rfl (.inl rfl)
          obtain ⟨st', q0, q1, _⟩ := headerBlock_spec app { st with gotNewline := g', block := k } g.inv
          exact ⟨(Acts.one a1).trans (headerBlock_acts app _ g.inv hno), by simp only; rw [q0]; exact q1⟩
      split
      · exact h1.1.trans (body_acts app _ _ h1.2)
      · exact h1.1
  · exact .refl st

theorem writeRaw_acts (app : App) (st : St) : Acts app st (writeRaw st).1 := by
  unfold writeRaw
  split
  · rename_i h; exact .one (.put st h.1 h.2)
  · exact .refl st

theorem writable_acts (app : App) (st : St) (hi : Inv st) (hp : st.phase ≠ .error) : Acts app st (onWritable app st) := by
  unfold onWritable
  split
  · exact writeRaw_acts app st
  · rename_i hw
    have hout : st.out = [] := by
      unfold writeRaw at hw
      by_cases h : st.out = []
      · exact h
      · rw [if_pos ⟨hp, h⟩] at hw; simp at hw
    split
    · have h1 := callback_acts app st .writable (.note st _ hp (.inr (.inl rfl)))
      have h2 : Acts app (callback app st .writable) (if app.again (emit st .writable).log then callback app st .writable else { callback app st .writable with onw := false }) := by
        split
        · exact .refl _
        · exact .one (.own _ _ rfl rfl rfl rfl rfl (.inl rfl))
      exact (h1.trans h2).trans (writeRaw_acts app _)
    · simp only
      split
      · rename_i hcl
        refine (setClosed_acts app st hi).tail (.rest _ (.inr ((setClosed_spec app st).2.1 hi)))
      · rename_i hcl; exact .one (.rest _ (.inl ⟨hout, hcl⟩))

theorem step_acts (app : App) (st : St) (R : Bytes) (o : Op) (g : Good st R) : Acts app st (step app st o) := by
  unfold step
  cases o with
  | read b => exact receive_acts app st R b g
  | writable =>
    simp only
    split
    · rename_i h; exact writable_acts app st g.inv h.1
    · exact .refl st
  | lost =>
    simp only
    split
    · exact setClosed_acts app st g.inv
    · exact .refl st
  | call c => exact .one (.call st c)

theorem run_append (app : App) (st : St) (a b : List Op) : run app st (a ++ b) = run app (run app st a) b := List.foldl_append

theorem run_acts (app : App) (ops : List Op) (st : St) (R : Bytes) (g : Good st R) : Acts app st (run app st ops) := by
  induction ops generalizing st R with
  | nil => exact .refl st
  | cons o ops ih =>
    have h1 : Good (step app st o) (R ++ received [o]) := good_run app [o] st R g
    exact (step_acts app st R o g).trans (ih _ _ h1)

theorem act_log (app : App) (st st' : St) (a : Act app st st') : st.log <+: st'.log := by
  cases a with
  | call c => obtain ⟨l, h, _⟩ := (call_calm st c).log; rw [h]; exact List.prefix_append _ _
  | note e hp he => exact List.prefix_append _ _
  | ping b hp => obtain ⟨l, h, _⟩ := (writeFrame_calm (emit st (.ping b)) 10 b).log; rw [h, emit, List.append_assoc]; exact List.prefix_append _ _
  | answer hp hc => obtain ⟨l, h, _⟩ := (cleanClose_calm (emit st .peerClose)).log; rw [h, emit, List.append_assoc]; exact List.prefix_append _ _
  | second hp hc => exact List.prefix_append _ _
  | fail hp => show st.log <+: st.log ++ [.released] ++ [.failed]; rw [List.append_assoc]; exact List.prefix_append _ _
  | opened hp =>
    obtain ⟨l, h, _⟩ := (writeBytes_calm st (response app st.headers)).log
    show st.log <+: (writeBytes st (response app st.headers)).log ++ [.opened]
    rw [h, List.append_assoc]; exact List.prefix_append _ _
  | put hp ho => exact List.prefix_append _ _
  | rest ho => exact List.prefix_refl _
  | own _ h1 h2 h3 h4 h5 h6 => rw [h5]; exact List.prefix_refl _
  | over _ h1 h2 h3 h4 => rw [h3]; exact List.prefix_refl _

/-! ## What is written -/

/-- the bytes written -/
def puts (l : List Ev) : Bytes := l.flatMap (fun | .put b => b | _ => [])

/-- a Close has been sent -/
def closes (l : List Ev) : Bool := l.any (fun e => e == .did .cleanClose || e == .peerClose)

/-- What there is to write because of an event: the messages and the Close the application asks for, its own bytes, the answer to the
request when it's accepted, a Pong for every Ping and a Close for the first if there hasn't been one (`c`). -/
def due (resp : Bytes) (c : Bool) : Ev → Bytes
  | .did (.binary b) => (serverFrame 2 b).wire
  | .did (.text b) => (serverFrame 1 b).wire
  | .did .cleanClose => (serverFrame 8 []).wire
  | .did (.raw b) => b
  | .opened => resp
  | .ping b => (serverFrame 10 b).wire
  | .peerClose => if c then [] else (serverFrame 8 []).wire
  | _ => []

/-- what there is to write because of everything that has happened -/
def asked (resp : Bytes) : (c : Bool) → List Ev → Bytes
  | _, [] => []
  | c, e :: l => due resp c e ++ asked resp (c || e == .did .cleanClose || e == .peerClose) l

theorem asked_append (resp : Bytes) (c : Bool) (l m : List Ev) : asked resp c (l ++ m) = asked resp c l ++ asked resp (c || closes l) m := by
  induction l generalizing c with
  | nil => simp [asked, closes]
  | cons e l ih =>
    simp only [List.cons_append, asked, ih, List.append_assoc, closes, List.any_cons, Bool.or_assoc]

theorem asked_snoc (resp : Bytes) (l : List Ev) (e : Ev) : asked resp false (l ++ [e]) = asked resp false l ++ due resp (closes l) e := by
  rw [asked_append]; simp [asked]

theorem puts_append (l m : List Ev) : puts (l ++ m) = puts l ++ puts m := by simp [puts]

theorem closes_append (l m : List Ev) : closes (l ++ m) = (closes l || closes m) := by simp [closes]

theorem be_two (n : Nat) : be 2 n = [UInt8.ofNat ((n >>> 8) &&& 0xff), UInt8.ofNat (n &&& 0xff)] := by
  have h1 : ∀ m : Nat, m &&& 0xff = m % 256 := fun m => Nat.and_two_pow_sub_one_eq_mod m 8
  have h2 : ∀ m : Nat, UInt8.ofNat (m % 256) = UInt8.ofNat m := fun m => by
    apply UInt8.toNat_inj.mp; simp [UInt8.toNat_ofNat']
  simp [be, h1, h2, Nat.shiftRight_eq_div_pow]

theorem be_eight (n : Nat) : be 8 n = [UInt8.ofNat ((n >>> 56) &&& 0xff), UInt8.ofNat ((n >>> 48) &&& 0xff), UInt8.ofNat ((n >>> 40) &&& 0xff),
    UInt8.ofNat ((n >>> 32) &&& 0xff), UInt8.ofNat ((n >>> 24) &&& 0xff), UInt8.ofNat ((n >>> 16) &&& 0xff),
    UInt8.ofNat ((n >>> 8) &&& 0xff), UInt8.ofNat (n &&& 0xff)] := by
  have h1 : ∀ m : Nat, m &&& 0xff = m % 256 := fun m => Nat.and_two_pow_sub_one_eq_mod m 8
  have h2 : ∀ m : Nat, UInt8.ofNat (m % 256) = UInt8.ofNat m := fun m => by
    apply UInt8.toNat_inj.mp; simp [UInt8.toNat_ofNat']
  simp [be, h1, h2, Nat.shiftRight_eq_div_pow]

theorem first_server : ∀ op : Fin 16, UInt8.ofNat (0x80 ||| (op.val &&& 0x0f)) = UInt8.ofNat (128 + 16 * 0 + op.val) := by decide

/-- what `writeFrame` writes is a frame -/
theorem frame_written (op : Nat) (b : Bytes) (ho : op < 16) : frameHeader op b.length ++ b = (serverFrame op b).wire := by
  have h1 := first_server ⟨op, ho⟩
  simp only at h1
  unfold frameHeader serverFrame Frame.wire
  simp only [if_true, Option.isSome_none, Bool.false_eq_true, if_false, Nat.zero_add, h1, be_two, be_eight]
  by_cases ha : b.length < 126
  · simp [ha, show ¬ 65535 < b.length by omega, show ¬ 125 < b.length by omega, show ¬ b.length = 127 by omega, show ¬ b.length = 126 by omega]
  · by_cases hb : b.length < 2 ^ 16
    · simp [ha, show b.length < 65536 from hb, show ¬ 65535 < b.length by omega, show 125 < b.length by omega]
    · simp [ha, show ¬ b.length < 65536 by omega, show 65535 < b.length by omega]

/-- All that there was to write has been written or is waiting, in order; if something is waiting the platform adapter has been asked. -/
structure Queue (resp : Bytes) (st : St) : Prop where
  live : st.phase ≠ .error → st.closing = closes st.log ∧ puts st.log ++ st.out = asked resp false st.log ∧ (st.out ≠ [] → st.scheduled = true)
  past : puts st.log <+: asked resp false st.log

theorem queue_init (resp : Bytes) : Queue resp init := ⟨fun _ => ⟨rfl, rfl, fun h => absurd rfl h⟩, List.nil_prefix⟩

theorem put_none {e : Ev} (h : ∀ b, e ≠ .put b) : puts [e] = [] := by cases e <;> simp_all [puts]

/-- an event that isn't a write, with what is due queued -/
theorem queue_write (resp : Bytes) (st st' : St) (e : Ev) (extra : List Ev) (q : Queue resp st) (hp : st'.phase = st.phase ∨ st'.phase = .error)
    (hl : st'.log = st.log ++ e :: extra) (he : ∀ b, e ≠ .put b) (hx : ∀ x ∈ extra, x = .ask)
    (ho : st'.phase ≠ .error → st'.out = st.out ++ due resp (closes st.log) e) (hc : st'.phase ≠ .error → st'.closing = (st.closing || closes [e]))
    (hs : st'.phase ≠ .error → st'.out ≠ [] → st'.scheduled = true) : Queue resp st' := by
  have e1 : puts extra = [] := by
    simp only [puts, List.flatMap_eq_nil_iff]
    intro x h; rw [hx x h]
  have e2 : ∀ c, asked resp c extra = [] := by
    clear hl
    induction extra with
    | nil => intro c; rfl
    | cons x l ih =>
      intro c
      have := hx x (by simp); subst this
      simp only [asked, due, List.nil_append]
      exact ih (fun y h => hx y (by simp [h])) (by simpa [puts] using e1) _
  have e3 : closes extra = false := by
    simp only [closes, List.any_eq_false]
    intro x h; rw [hx x h]; decide
  have hput : puts st'.log = puts st.log := by
    rw [hl, puts_append, show e :: extra = [e] ++ extra from rfl, puts_append, put_none he, e1]; simp
  have hask : asked resp false st'.log = asked resp false st.log ++ due resp (closes st.log) e := by
    rw [hl, show st.log ++ e :: extra = (st.log ++ [e]) ++ extra by simp, asked_append, e2, List.append_nil, asked_snoc]
  have hcl : closes st'.log = (closes st.log || closes [e]) := by
    rw [hl, show st.log ++ e :: extra = (st.log ++ [e]) ++ extra by simp, closes_append, closes_append, e3]; simp
  refine ⟨fun h => ?_, ?_⟩
  · have hph : st.phase ≠ .error := by
      rcases hp with hp | hp
      · rw [← hp]; exact h
      · exact absurd hp h
    obtain ⟨k1, k2, k3⟩ := q.live hph
    exact ⟨by rw [hc h, k1, hcl], by rw [hput, ho h, hask, ← List.append_assoc, k2], hs h⟩
  · rw [hput, hask]
    exact q.past.trans (List.prefix_append _ _)

theorem scheduleWrite_cases (st : St) : (scheduleWrite st = st ∧ (st.phase = .error ∨ st.scheduled = true)) ∨
    (st.phase ≠ .error ∧ scheduleWrite st = { emit st .ask with scheduled := true }) := by
  unfold scheduleWrite
  by_cases h : st.phase ≠ .error ∧ st.scheduled = false
  · rw [if_pos h]; exact .inr ⟨h.1, rfl⟩
  · rw [if_neg h]
    refine .inl ⟨rfl, ?_⟩
    by_cases he : st.phase = .error
    · exact .inl he
    · right
      cases hs : st.scheduled with
      | true => rfl
      | false => exact absurd ⟨he, hs⟩ h

/-- what `scheduleWrite` gives in all cases -/
theorem scheduleWrite_facts (st : St) : ∃ extra, (scheduleWrite st).log = st.log ++ extra ∧ (∀ x ∈ extra, x = .ask) ∧ (scheduleWrite st).phase = st.phase ∧
    (scheduleWrite st).out = st.out ∧ (scheduleWrite st).closing = st.closing ∧ (st.phase ≠ .error → (scheduleWrite st).scheduled = true) ∧ (scheduleWrite st).headers = st.headers := by
  rcases scheduleWrite_cases st with ⟨h, h2⟩ | ⟨_, h⟩
  · rw [h]
    exact ⟨[], by simp, by simp, rfl, rfl, rfl, fun hp => h2.resolve_left hp, rfl⟩
  · rw [h]
    exact ⟨[.ask], rfl, by simp, rfl, rfl, rfl, fun _ => rfl, rfl⟩

/-- an event whose bytes are queued with `writeBytes` -/
theorem queue_bytes (resp : Bytes) (st : St) (e : Ev) (w : Bytes) (st' : St) (q : Queue resp st) (he : ∀ b, e ≠ .put b) (hw : due resp (closes st.log) e = w)
    (h1 : st'.phase = (writeBytes (emit st e) w).phase) (h2 : st'.log = (writeBytes (emit st e) w).log) (h3 : st'.out = (writeBytes (emit st e) w).out)
    (h4 : st'.scheduled = (writeBytes (emit st e) w).scheduled) (h5 : st'.closing = (st.closing || closes [e])) : Queue resp st' := by
  obtain ⟨extra, f1, f2, f3, f4, _, f6, _⟩ := scheduleWrite_facts { emit st e with out := (emit st e).out ++ w }
  refine queue_write resp st st' e extra q (.inl (h1.trans f3)) (by rw [h2]; exact f1.trans (by simp [emit])) he f2 ?_ (fun _ => h5) ?_
  · intro _; rw [h3, hw]; exact f4
  · intro hp _; rw [h4]; exact f6 (by rw [← f3]; rw [h1] at hp; exact hp)

/-- an event with nothing to write -/
theorem queue_note (resp : Bytes) (st : St) (e : Ev) (st' : St) (q : Queue resp st) (he : ∀ b, e ≠ .put b) (hw : due resp (closes st.log) e = [])
    (hc : closes [e] = false) (h1 : st'.phase = st.phase ∨ st'.phase = .error) (h2 : st'.log = st.log ++ [e]) (h3 : st'.out = st.out)
    (h4 : st'.scheduled = st.scheduled) (h5 : st'.closing = st.closing) : Queue resp st' := by
  refine queue_write resp st st' e [] q h1 h2 he (by simp) ?_ ?_ ?_
  · intro _; rw [hw, h3, List.append_nil]
  · intro _; rw [h5, hc, Bool.or_false]
  · intro hp ho
    have hph : st.phase ≠ .error := by
      rcases h1 with h1 | h1
      · rw [← h1]; exact hp
      · exact absurd h1 hp
    rw [h4]; exact (q.live hph).2.2 (by rw [← h3]; exact ho)

theorem queue_call (resp : Bytes) (st : St) (c : Call) (q : Queue resp st) : Queue resp (call st c) := by
  unfold call
  cases c with
  | binary b =>
    exact queue_bytes resp st (.did (.binary b)) _ _ q (by simp) (frame_written 2 b (by omega)).symm rfl rfl rfl rfl
        ((scheduleWrite_facts _).choose_spec.2.2.2.2.1.trans (by simp [closes, emit]))
  | text b =>
    exact queue_bytes resp st (.did (.text b)) _ _ q (by simp) (frame_written 1 b (by omega)).symm rfl rfl rfl rfl
      ((scheduleWrite_facts _).choose_spec.2.2.2.2.1.trans (by simp [closes, emit]))
  | raw b =>
    exact queue_bytes resp st (.did (.raw b)) _ _ q (by simp) rfl rfl rfl rfl rfl
      ((scheduleWrite_facts _).choose_spec.2.2.2.2.1.trans (by simp [closes, emit]))
  | cleanClose =>
    exact queue_bytes resp st (.did .cleanClose) _ _ q (by simp) (frame_written 8 [] (by omega)).symm rfl rfl rfl rfl (by simp [closes, cleanClose])
  | notify =>
    have h1 := queue_note resp st (.did .notify) { emit st (.did .notify) with onw := true } q (by simp) rfl rfl (.inl rfl) rfl rfl rfl rfl
    show Queue resp (scheduleWrite { emit st (.did .notify) with onw := true })
    generalize ({ emit st (.did .notify) with onw := true } : St) = s at h1
    rcases scheduleWrite_cases s with ⟨h, _⟩ | ⟨hp, h⟩
    · rw [h]; exact h1
    · rw [h]
      exact queue_write resp s _ .ask [] h1 (.inl rfl) rfl (by simp) (by simp) (fun _ => by simp [due, emit]) (fun _ => by simp [closes, emit]) (fun _ _ => rfl)
  | shutdown =>
    have h1 := queue_note resp st (.did .shutdown) (emit st (.did .shutdown)) q (by simp) rfl rfl (.inl rfl) rfl rfl rfl rfl
    show Queue resp (shutdown (emit st (.did .shutdown)))
    generalize emit st (.did .shutdown) = s at h1
    unfold shutdown
    split
    · rename_i hs
      have h2 : Queue resp { s with phase := .closing } := ⟨fun _ => h1.live (by rw [hs]; simp), h1.past⟩
      generalize ({ s with phase := .closing } : St) = t at h2
      rcases scheduleWrite_cases t with ⟨h, _⟩ | ⟨hp, h⟩
      · rw [h]; exact h2
      · rw [h]
        exact queue_write resp t _ .ask [] h2 (.inl rfl) rfl (by simp) (by simp) (fun _ => by simp [due, emit]) (fun _ => by simp [closes, emit]) (fun _ _ => rfl)
    · exact h1
  | close =>
    have h1 := queue_note resp st (.did .close) (emit st (.did .close)) q (by simp) rfl rfl (.inl rfl) rfl rfl rfl rfl
    show Queue resp (close (emit st (.did .close)))
    generalize emit st (.did .close) = s at h1
    rw [close_eq]
    split
    · rename_i he
      exact ⟨fun h => absurd he h, h1.past⟩
    · exact queue_note resp s .released _ h1 (by simp) rfl rfl (.inr rfl) rfl rfl rfl rfl

theorem queue_act (app : App) (st st' : St) (a : Act app st st')
    (h : ∀ resp, (Ev.opened ∈ st.log → resp = response app st.headers) → Queue resp st) :
    ∀ resp, (Ev.opened ∈ st'.log → resp = response app st'.headers) → Queue resp st' := by
  intro resp hr
  have hhead : ∀ s c, (call s c).headers = s.headers := fun s c => (call_calm s c).hd
  cases a with
  | call c =>
    refine queue_call resp st c (h resp fun hm => ?_)
    rw [← hhead st c]
    refine hr ?_
    obtain ⟨l, hl, _⟩ := (call_calm st c).log
    rw [hl]; exact List.mem_append_left _ hm
  | note e hp he =>
    have hq := h resp (fun hm => hr (by simp [emit, hm]))
    rcases he with rfl | rfl | ⟨b, rfl⟩ | ⟨b, rfl⟩ | ⟨b, rfl⟩ <;> exact queue_note resp st _ _ hq (by simp) rfl rfl (.inl rfl) rfl rfl rfl rfl
  | ping b hp =>
    have c := (writeFrame_calm (emit st (.ping b)) 10 b)
    have hq := h resp (fun hm => by
      have := hr (by obtain ⟨l, hl, _⟩ := c.log; rw [hl]; simp [emit, hm])
      rw [this, c.hd]; rfl)
    exact queue_bytes resp st (.ping b) _ _ hq (by simp) (frame_written 10 b (by omega)).symm rfl rfl rfl rfl
      ((scheduleWrite_facts _).choose_spec.2.2.2.2.1.trans (by simp [closes, emit]))
  | answer hp hc =>
    have c := (cleanClose_calm (emit st .peerClose))
    have hq := h resp (fun hm => by
      have := hr (by obtain ⟨l, hl, _⟩ := c.log; rw [hl]; simp [emit, hm])
      rw [this, c.hd]; rfl)
    have hcl : closes st.log = false := by rw [← (hq.live hp).1, hc]
    refine queue_bytes resp st .peerClose (frameHeader 8 0 ++ []) _ hq (by simp) ?_ rfl rfl rfl rfl (by simp [closes, cleanClose])
    rw [hcl]; exact (frame_written 8 [] (by omega)).symm
  | second hp hc =>
    have hq := h resp (fun hm => hr (by simp [emit, hm]))
    have hcl : closes st.log = true := by rw [← (hq.live hp).1, hc]
    refine queue_write resp st _ .peerClose [] hq (.inl rfl) rfl (by simp) (by simp) ?_ ?_ ?_
    · intro _; rw [hcl]; simp [due, emit]
    · intro _; simp [emit, closes, hc]
    · intro _ ho; exact (hq.live hp).2.2 ho
  | fail hp =>
    have hq := h resp (fun hm => hr (by simp [emit, clear, hm]))
    have h1 := queue_note resp st .released (clear (emit { st with phase := .error } .released)) hq (by simp) rfl rfl (.inr rfl) rfl rfl rfl rfl
    exact queue_note resp _ .failed _ h1 (by simp) rfl rfl (.inl rfl) rfl rfl rfl rfl
  | opened hp =>
    have c := writeBytes_calm st (response app st.headers)
    have hresp : resp = response app st.headers := by
      have := hr (by simp [emit]); rw [this]; show response app (writeBytes st (response app st.headers)).headers = _; rw [c.hd]
    have hq := h resp (fun _ => hresp)
    subst hresp
    -- the answer is queued, then the event
    obtain ⟨extra, f1, f2, f3, f4, f5, f6, _⟩ := scheduleWrite_facts { st with out := st.out ++ response app st.headers }
    have f1' : (writeBytes st (response app st.headers)).log = st.log ++ extra := f1
    have f3' : (writeBytes st (response app st.headers)).phase = st.phase := f3
    have f4' : (writeBytes st (response app st.headers)).out = st.out ++ response app st.headers := f4
    have f5' : (writeBytes st (response app st.headers)).closing = st.closing := f5
    have f6' : (writeBytes st (response app st.headers)).scheduled = true := f6 hp
    have e1 : puts extra = [] := by
      simp only [puts, List.flatMap_eq_nil_iff]
      intro x h; rw [f2 x h]
    have e3 : closes extra = false := by
      simp only [closes, List.any_eq_false]
      intro x h; rw [f2 x h]; decide
    have e2 : ∀ c, asked (response app st.headers) c extra = [] := by
      intro c
      clear f1 f1' e1 e3
      induction extra generalizing c with
      | nil => rfl
      | cons x l ih =>
        have := f2 x (by simp); subst this
        simp only [asked, due, List.nil_append]
        exact ih (fun y h => f2 y (by simp [h])) _
    obtain ⟨k1, k2, k3⟩ := hq.live hp
    have hlog : (emit (writeBytes st (response app st.headers)) .opened).log = st.log ++ extra ++ [.opened] := by
      show (writeBytes st (response app st.headers)).log ++ [.opened] = _; rw [f1']
    have hputs : puts (emit (writeBytes st (response app st.headers)) .opened).log = puts st.log := by
      rw [hlog, puts_append, puts_append, e1]; simp [puts]
    have hask : asked (response app st.headers) false (emit (writeBytes st (response app st.headers)) .opened).log = asked (response app st.headers) false st.log ++ response app st.headers := by
      rw [hlog, asked_snoc, asked_append, e2, List.append_nil]; rfl
    refine ⟨fun _ => ⟨?_, ?_, fun _ => f6'⟩, ?_⟩
    · show (writeBytes st (response app st.headers)).closing = _
      rw [f5', k1, hlog, closes_append, closes_append, e3]; simp [closes]
    · rw [hputs, hask, ← k2, List.append_assoc]
      show puts st.log ++ (writeBytes st (response app st.headers)).out = _
      rw [f4']
    · rw [hputs, hask, ← k2, List.append_assoc]; exact List.prefix_append _ _
  | put hp ho =>
    have hq := h resp (fun hm => hr (by simp [emit, hm]))
    obtain ⟨k1, k2, k3⟩ := hq.live hp
    have hputs : puts ({ emit st (.put st.out) with out := [] } : St).log = puts st.log ++ st.out := by
      show puts (st.log ++ [.put st.out]) = _
      rw [puts_append]; simp [puts]
    have hask : asked resp false ({ emit st (.put st.out) with out := [] } : St).log = asked resp false st.log := by
      show asked resp false (st.log ++ [.put st.out]) = _
      rw [asked_snoc]; simp [due]
    refine ⟨fun _ => ⟨?_, ?_, fun h => absurd rfl h⟩, ?_⟩
    · show st.closing = closes (st.log ++ [.put st.out])
      rw [closes_append, k1]; simp [closes]
    · rw [hputs, hask, k2]; simp
    · rw [hputs, hask, k2]; exact List.prefix_refl _
  | rest ho =>
    have hq := h resp hr
    refine ⟨fun hp => ?_, hq.past⟩
    obtain ⟨k1, k2, k3⟩ := hq.live hp
    refine ⟨k1, k2, fun h => ?_⟩
    rcases ho with ho | ho
    · exact absurd ho.1 h
    · exact absurd ho hp
  | own _ h1 h2 h3 h4 h5 h6 =>
    have hq := h resp (fun hm => by
      rcases h6 with h6 | h6
      · rw [← h6]; exact hr (by rw [h5]; exact hm)
      · exact absurd hm h6)
    refine ⟨fun hp => ?_, by rw [h5]; exact hq.past⟩
    rw [h1] at hp
    rw [h2, h3, h4, h5]
    exact hq.live hp
  | over _ h1 h2 h3 h4 =>
    refine ⟨fun hp => absurd h2 hp, ?_⟩
    rw [h3]
    exact (h resp (fun hm => by rw [← h4]; exact hr (by rw [h3]; exact hm))).past

end Rtmfp.WS
