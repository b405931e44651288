import Verif.Lemmas.WebSocketRun

/-!
# C91: what arrives at a WebSocket is what the peer's frames say, however the stream cuts them

Two things are not so: frames after a Close still count, and the connection isn't ended after the Close is answered (`C91_after_close`,
`C91_unclosed`); and after `shutdown` it depends on the cuts what still arrives (`C91_shutdown`). The specification of frames is
`Verif/Spec/WebSocket.lean`.
-/

namespace Rtmfp

open WS Spec.Web

/-- Frames within the limit of 16 MB, then perhaps the beginning of another; nothing after a Close. -/
structure WS.Stream (hdr : Bytes) (fs : List Frame) (part : Bytes) : Prop where
  hHdr : HeaderBlock hdr
  fits : ∀ f ∈ fs, f.Fits ∧ f.payload.length ≤ 2 ^ 24
  hPart : part = [] ∨ ∃ f y, f.Fits ∧ f.payload.length ≤ 2 ^ 24 ∧ y ≠ [] ∧ part ++ y = Frame.wire f
  closing : closeLast fs
  last : (∃ f ∈ fs, f.op = 8) → part = []

theorem WS.Stream.say {hdr : Bytes} {fs : List Frame} {part : Bytes} (s : WS.Stream hdr fs part) :
    WS.say none (fs.flatMap Frame.wire ++ part) = told none fs := by
  have hm : parse part = .more := by
    rcases s.hPart with h | ⟨f, y, h1, h2, h3, h4⟩
    · subst h; rfl
    · exact parse_part f part y h1 h2 h4 h3
  rw [say_wire fs s.fits part [] (fun p => say_more hm) s.closing (fun _ => rfl)]
  simp

theorem WS.map_some_prefix {l m : List Sig} {y t : List (Option Sig)} (h : m.map some ++ t = l.map some ++ y) (ht : t = [] ∨ t = [none]) : l <+: m := by
  induction l generalizing m with
  | nil => exact List.nil_prefix
  | cons a l ih =>
    cases m with
    | nil =>
      rcases ht with ht | ht <;> subst ht <;> simp at h
    | cons b m =>
      simp only [List.map_cons, List.cons_append, List.cons.injEq, Option.some.injEq] at h
      rw [h.1]
      exact (List.cons_prefix_cons.mpr ⟨rfl, ih h.2⟩)

theorem WS.told_tail (fs : List Frame) : ∃ t, told none fs = (meaning none fs).map some ++ t ∧ (t = [] ∨ t = [none]) := by
  unfold told
  refine ⟨_, rfl, ?_⟩
  split
  · exact .inr rfl
  · exact .inl rfl

theorem WS.meaning_no_close : ∀ (fs : List Frame) (p : Option (Nat × Bytes)), (∀ f ∈ fs, f.op ≠ 8) → Sig.close ∉ meaning p fs := by
  intro fs
  induction fs with
  | nil => intro p _; simp [meaning]
  | cons f fs ih =>
    intro p hno
    have hi := fun q => ih q (fun f hf => hno f (by simp [hf]))
    have hd : ∀ o c, Sig.close ∉ deliver o c := by
      intro o c; unfold deliver; split
      · simp
      · split <;> simp
    unfold meaning
    rw [if_neg (hno f (by simp))]
    split
    · simp [hi]
    · split
      · simp [hi]
      · split
        · cases p with
          | none => simp
          | some x =>
            obtain ⟨o, c⟩ := x
            simp only
            split
            · simp [hi, hd]
            · exact hi _
        · cases p with
          | some x => simp
          | none =>
            simp only
            split
            · simp [hi, hd]
            · exact hi _

theorem WS.map_some_inj {a b : List Sig} (h : a.map some = b.map some) : a = b := by
  induction a generalizing b with
  | nil => cases b with
    | nil => rfl
    | cons x b => simp at h
  | cons x a ih => cases b with
    | nil => simp at h
    | cons y b =>
      simp only [List.map_cons, List.cons.injEq, Option.some.injEq] at h
      rw [h.1, ih h.2]

/-- **C91.** Whatever the application does and however the bytes arrive, what arrives is the beginning of what the frames say: nothing out of
order, nothing changed, nothing invented, nothing twice. -/
theorem C91_prefix (app : App) (ops : List Op) (hdr part : Bytes) (fs : List Frame) (hs : WS.Stream hdr fs part)
    (hr : received ops = hdr ++ (fs.flatMap Frame.wire ++ part)) :
    arrivals (run app init ops).log <+: meaning none fs := by
  have g := good_run app ops init [] good_init
  rw [List.nil_append, hr] at g
  rcases g.pre with h | ⟨body, h1, h2⟩
  · rw [h]; exact List.nil_prefix
  · rw [bodyOf_header hs.hHdr] at h1
    cases h1
    obtain ⟨y, hy⟩ := h2 []
    rw [List.append_nil, hs.say] at hy
    obtain ⟨t, h3, h4⟩ := told_tail fs
    rw [h3] at hy
    exact map_some_prefix hy h4

/-- **C91 (partial).** If the application doesn't close or shut down and the stream isn't lost, and `onOpen` has been called, exactly what the
frames say has arrived; and unless they break the rules or a Close came, `onError` hasn't been called and the connection hasn't been given
up. What is missing: frames after a Close (`C91_after_close`), ending the connection then (`C91_unclosed`), applications that shut down
(`C91_shutdown`). -/
theorem C91_received_partial (app : App) (ops : List Op) (hdr part : Bytes) (fs : List Frame) (hs : WS.Stream hdr fs part)
    (hr : received ops = hdr ++ (fs.flatMap Frame.wire ++ part)) (ha : Stays app) (hl : Lasts ops) (ho : Ev.opened ∈ (run app init ops).log) :
    arrivals (run app init ops).log = meaning none fs ∧
    (broken none fs = false → (∀ f ∈ fs, f.op ≠ 8) → (run app init ops).phase = .opn ∧ Ev.failed ∉ (run app init ops).log) := by
  have g := good_run app ops init [] good_init
  have F := fate_run app ha ops init [] good_init fate_init hl
  have hp := C91_prefix app ops hdr part fs hs hr
  rw [List.nil_append, hr] at g F
  generalize run app init ops = st at g F hp ho
  obtain ⟨t, h3, h4⟩ := told_tail fs
  have hnone : ∀ {a b : List Sig} {t : List (Option Sig)}, (t = [] ∨ t = [none]) → a.map some ++ t = b.map some → a = b := by
    intro a b t ht h
    have h1 : a.map some ++ t = b.map some ++ [] := by rw [h, List.append_nil]
    have h2 : b.map some ++ [] = a.map some ++ t := h1.symm
    have p1 := map_some_prefix h1 ht
    have p2 := map_some_prefix h2 (.inl rfl)
    exact p2.eq_of_length_le p1.length_le
  have hnone2 : ∀ {a b : List Sig}, a.map some ++ [none] = b.map some ++ [none] → a = b := by
    intro a b h
    exact map_some_inj (List.append_cancel_right h)
  rcases F with ⟨F1, F2⟩ | ⟨F1, F2⟩
  · have hend : told none fs = seen st := by
      rcases g.opn F1 with ⟨_, k2, _⟩ | ⟨_, body, p, k2, _, k4, k5⟩
      · obtain ⟨body, hb⟩ := g.op ho
        rw [bodyOf, k2] at hb; cases hb
      · rw [bodyOf_header hs.hHdr] at k2
        cases k2
        have := k5 []
        rw [List.append_nil, hs.say, List.append_nil, say_more k4, List.append_nil] at this
        exact this
    refine ⟨(hnone h4 (by rw [← h3, hend]; rfl)).symm, fun _ _ => ⟨F1, fun hf => ?_⟩⟩
    have := g.fail hf
    rw [F1] at this; cases this
  · rcases F2 with h | ⟨_, _, body, h5, h6⟩ | ⟨l, h5⟩
    · exact absurd ho h
    · rw [bodyOf_header hs.hHdr] at h5
      cases h5
      have h7 := h6 []
      rw [List.append_nil, hs.say] at h7
      have hb : broken none fs = true := by
        cases hb : broken none fs with
        | true => rfl
        | false =>
          unfold told at h7
          rw [hb] at h7
          simp only [Bool.false_eq_true, if_false, List.append_nil] at h7
          have : (none : Option Sig) ∈ (meaning none fs).map some := by rw [h7]; simp
          simp at this
      unfold told at h7
      rw [hb] at h7
      exact ⟨(hnone2 h7).symm, fun h => by rw [hb] at h; cases h⟩
    · obtain ⟨y, hy⟩ := hp
      have hc := meaning_close none fs l y (by rw [← h5]; exact hy.symm)
      subst hc
      rw [List.append_nil] at hy
      refine ⟨hy, fun _ hno => ?_⟩
      exfalso
      exact meaning_no_close fs none hno (by rw [← hy, h5]; simp)

/-- **C91.** Frames that break the rules of fragmentation, or a frame that says it is longer than 16 MB (as soon as its header is there: it is
at most 14 bytes), end the connection: the platform adapter is told, `onError` is called, nothing else arrives — whatever comes after. -/
theorem C91_violation (app : App) (ops : List Op) (hdr : Bytes) (fs : List Frame) (part : Bytes) (hh : HeaderBlock hdr)
    (hf : ∀ f ∈ fs, f.Fits ∧ f.payload.length ≤ 2 ^ 24) (hc : ∀ f ∈ fs, f.op ≠ 8)
    (hbad : broken none fs = true ∨ ∃ (f : Frame) (k : Nat) (rest : Bytes), f.Fits ∧ 2 ^ 24 < f.payload.length ∧ 14 ≤ k ∧ part = f.wire.take k ++ rest)
    (hr : received ops = hdr ++ (fs.flatMap Frame.wire ++ part)) (ha : Stays app) (hl : Lasts ops) (ho : Ev.opened ∈ (run app init ops).log) :
    (run app init ops).phase = .error ∧ Ev.failed ∈ (run app init ops).log ∧ Ev.released ∈ (run app init ops).log ∧
    arrivals (run app init ops).log = meaning none fs := by
  have g := good_run app ops init [] good_init
  have F := fate_run app ha ops init [] good_init fate_init hl
  rw [List.nil_append, hr] at g F
  have hcl : closeLast fs := by
    clear hbad hr g F
    induction fs with
    | nil => trivial
    | cons f fs ih => exact ⟨fun h => absurd h (hc f (by simp)), ih (fun f h => hf f (by simp [h])) (fun f h => hc f (by simp [h]))⟩
  have hsay : WS.say none (fs.flatMap Frame.wire ++ part) = (meaning none fs).map some ++ [none] := by
    by_cases hb : broken none fs = true
    · have key : ∀ (fs : List Frame) p, (∀ f ∈ fs, f.Fits ∧ f.payload.length ≤ 2 ^ 24) → (∀ f ∈ fs, f.op ≠ 8) → broken p fs = true →
          WS.say p (fs.flatMap Frame.wire ++ part) = (meaning p fs).map some ++ [none] := by
        intro fs
        induction fs with
        | nil => intro p _ _ h; simp [broken] at h
        | cons f fs ih =>
          intro p hf hc hb
          have h1 := hf f (by simp)
          have hpar := parse_wire f (fs.flatMap Frame.wire ++ part) h1.1 h1.2
          have e : (f :: fs).flatMap Frame.wire ++ part = f.wire ++ (fs.flatMap Frame.wire ++ part) := by simp
          rw [e, say_frame hpar, List.drop_left' rfl]
          have ih' := fun p => ih p (fun g hg => hf g (by simp [hg])) (fun g hg => hc g (by simp [hg]))
          have h8 := hc f (by simp)
          unfold broken at hb
          unfold stepSig meaning
          simp only [if_neg h8] at hb ⊢
          by_cases h9 : f.op = 9
          · simp only [if_pos h9] at hb ⊢; simp [ih' _ hb]
          · simp only [if_neg h9] at hb ⊢
            by_cases h10 : f.op = 10
            · simp only [if_pos h10] at hb ⊢; simp [ih' _ hb]
            · simp only [if_neg h10] at hb ⊢
              by_cases h0 : f.op = 0
              · simp only [if_pos h0] at hb ⊢
                cases p with
                | none => rfl
                | some x =>
                  obtain ⟨o, c⟩ := x
                  cases hfin : f.fin <;> simp only [hfin, Bool.false_eq_true, if_false, if_true] at hb ⊢ <;> simp [ih' _ hb]
              · simp only [if_neg h0] at hb ⊢
                cases p with
                | some x => rfl
                | none => cases hfin : f.fin <;> simp only [hfin, Bool.false_eq_true, if_false, if_true] at hb ⊢ <;> simp [ih' _ hb]
      exact key fs none hf hc hb
    · have hb' : broken none fs = false := by simpa using hb
      obtain ⟨f, k, rest, h1, h2, h3, h4⟩ := hbad.resolve_left hb
      rw [say_wire fs hf part [none] (fun p => say_bad (by rw [h4]; exact parse_long_part f k rest h1 h2 h3)) hcl (fun ⟨f, h5, h6⟩ => absurd h6 (hc f h5))]
      unfold told; rw [hb']; simp
  have hpre : arrivals (run app init ops).log <+: meaning none fs := by
    rcases g.pre with h | ⟨body, h1, h2⟩
    · rw [h]; exact List.nil_prefix
    · rw [bodyOf_header hh] at h1
      cases h1
      obtain ⟨y, hy⟩ := h2 []
      rw [List.append_nil, hsay] at hy
      exact map_some_prefix hy (.inr rfl)
  generalize run app init ops = st at g F ho hpre
  rcases F with ⟨F1, F2⟩ | ⟨F1, F2⟩
  · exfalso
    rcases g.opn F1 with ⟨_, k2, _⟩ | ⟨_, body, p, k2, _, k4, k5⟩
    · obtain ⟨body, hb⟩ := g.op ho
      rw [bodyOf, k2] at hb; cases hb
    · rw [bodyOf_header hh] at k2
      cases k2
      have := k5 []
      rw [List.append_nil, hsay, List.append_nil, say_more k4, List.append_nil] at this
      have hm : (none : Option Sig) ∈ seen st := by rw [← this]; simp
      simp [seen] at hm
  · rcases F2 with h | ⟨h1, h2, body, h5, h6⟩ | ⟨l, h5⟩
    · exact absurd ho h
    · rw [bodyOf_header hh] at h5
      cases h5
      have h7 := h6 []
      rw [List.append_nil, hsay] at h7
      refine ⟨F1, h1, h2, ?_⟩
      exact (map_some_inj (List.append_cancel_right h7)).symm
    · exfalso
      exact meaning_no_close fs none hc (hpre.subset (by rw [h5]; simp))

/-! ## Examples and counterexamples -/

/-- an application that does nothing -/
def WS.idle : App := ⟨fun _ => [], fun _ => false, fun _ => []⟩

/-- a request -/
def WS.hello : Bytes := ascii "GET / HTTP/1.1\r\nUpgrade: websocket\r\nConnection: Upgrade\r\nSec-WebSocket-Version: 13\r\nSec-WebSocket-Key: x\r\n\r\n"

theorem WS.hello_header : HeaderBlock hello := by
  refine ⟨hello.take (hello.length - 1), by decide +kernel, by decide +kernel, ?_⟩
  have h : ∀ k < hello.length, ¬ [10, 10] <:+ ((hello.take (hello.length - 1)).take k).filter (· ≠ 13) := by decide +kernel
  intro q hq
  have hl : q.length < hello.length := by
    have h1 := hq.length_le
    have h2 : (hello.take (hello.length - 1)).length < hello.length := by decide +kernel
    omega
  rw [List.prefix_iff_eq_take.mp hq]
  exact h _ hl

/-- a frame of a client: masked -/
def WS.clientFrame (fin : Bool) (op : Nat) (b : Bytes) : Frame := ⟨fin, 0, op, some ⟨1, 2, 3, 4⟩, .short, b⟩

/-- "hi" in two fragments with a Ping between them, then half a frame -/
def WS.exFrames : List Frame := [clientFrame false 1 [104], clientFrame true 9 [7], clientFrame true 0 [105]]

example : WS.Stream hello exFrames [0x81] ∧ meaning none exFrames = [.ping [7], .text [104, 105]] ∧ Stays idle ∧
    Lasts [.read (hello ++ [0x01]), .writable, .read ((exFrames.flatMap Frame.wire).drop 1 ++ [0x81])] ∧
    received [.read (hello ++ [0x01]), .writable, .read ((exFrames.flatMap Frame.wire).drop 1 ++ [0x81])] = hello ++ (exFrames.flatMap Frame.wire ++ [0x81]) ∧
    Ev.opened ∈ (run idle init [.read (hello ++ [0x01]), .writable, .read ((exFrames.flatMap Frame.wire).drop 1 ++ [0x81])]).log ∧
    broken none exFrames = false ∧ (∀ f ∈ exFrames, f.op ≠ 8) := by
  refine ⟨⟨hello_header, ?_, .inr ⟨clientFrame true 1 [], [0x80, 1, 2, 3, 4], ⟨by decide, by decide, by simp [clientFrame]⟩, by decide, by decide, by decide⟩, ?_, ?_⟩,
    by decide, fun l => ⟨by simp [idle], by simp [idle]⟩, ⟨by simp, by simp, by simp⟩, by decide +kernel, by decide +kernel, by decide, by decide⟩
  · intro f hf
    simp only [exFrames, List.mem_cons, List.not_mem_nil, or_false] at hf
    rcases hf with h | h | h <;> subst h <;> exact ⟨⟨by decide, by decide, by simp [clientFrame]⟩, by decide⟩
  · simp [exFrames, closeLast, clientFrame]
  · simp [exFrames, clientFrame]

/-- a continuation of nothing -/
example : broken none [clientFrame true 0 [104]] = true ∧
    Ev.opened ∈ (run idle init [.read (hello ++ (clientFrame true 0 [104]).wire)]).log := by decide +kernel

/-- **C91, a defect.** A message after a Close is delivered all the same. -/
theorem C91_after_close : ∃ (ops : List Op) (fs : List Frame), Lasts ops ∧ received ops = hello ++ fs.flatMap Frame.wire ∧
    meaning none fs = [.close] ∧ arrivals (run idle init ops).log = [.close, .text [104, 105]] :=
  ⟨[.read (hello ++ [clientFrame true 8 [], clientFrame true 1 [104, 105]].flatMap Frame.wire)], [clientFrame true 8 [], clientFrame true 1 [104, 105]],
    ⟨by simp, by simp, by simp⟩, by decide +kernel, by decide, by decide +kernel⟩

/-- **C91, a defect.** After the peer's Close has been answered the connection isn't ended, however long one waits and writes. -/
theorem C91_unclosed (n : Nat) : arrivals (run idle init ([.read (hello ++ (clientFrame true 8 []).wire)] ++ List.replicate n .writable)).log = [.close] ∧
    Ev.released ∉ (run idle init ([.read (hello ++ (clientFrame true 8 []).wire)] ++ List.replicate n .writable)).log ∧
    (run idle init ([.read (hello ++ (clientFrame true 8 []).wire)] ++ List.replicate n .writable)).phase = .opn := by
  have app : ∀ (st : St) (a b : List Op), run idle st (a ++ b) = run idle (run idle st a) b := fun st a b => List.foldl_append
  have stop : ∀ (n : Nat) (st : St), step idle st .writable = st → run idle st (List.replicate n .writable) = st := by
    intro n st h
    induction n with
    | zero => rfl
    | succ n ih => rw [List.replicate_succ]; show run idle (step idle st .writable) _ = st; rw [h]; exact ih
  have s0 : ∀ k < 3, arrivals (run idle init ([.read (hello ++ (clientFrame true 8 []).wire)] ++ List.replicate k .writable)).log = [.close] ∧
      Ev.released ∉ (run idle init ([.read (hello ++ (clientFrame true 8 []).wire)] ++ List.replicate k .writable)).log ∧
      (run idle init ([.read (hello ++ (clientFrame true 8 []).wire)] ++ List.replicate k .writable)).phase = .opn := by
    decide +kernel
  have s2 : step idle (run idle init ([.read (hello ++ (clientFrame true 8 []).wire)] ++ List.replicate 2 .writable)) .writable =
      run idle init ([.read (hello ++ (clientFrame true 8 []).wire)] ++ List.replicate 2 .writable) := by decide +kernel
  by_cases hn : n < 3
  · exact s0 n hn
  · obtain ⟨m, rfl⟩ : ∃ m, n = 2 + m := ⟨n - 2, by omega⟩
    have e2 : run idle init ([.read (hello ++ (clientFrame true 8 []).wire)] ++ List.replicate (2 + m) .writable) =
        run idle init ([.read (hello ++ (clientFrame true 8 []).wire)] ++ List.replicate 2 .writable) := by
      rw [← List.replicate_append_replicate, ← List.append_assoc, app, stop m _ s2]
    rw [e2]
    exact s0 2 (by omega)

/-- an application that shuts down when it gets a text message -/
def WS.shy : App := ⟨fun l => match l.getLast? with | some (.text _) => [.shutdown] | _ => [], fun _ => false, fun _ => []⟩

/-- **C91, a defect.** After `shutdown` in a callback, messages that came in the same piece of the stream are still delivered; those in the next
piece aren't. -/
theorem C91_shutdown : ∃ (ops₁ ops₂ : List Op), received ops₁ = received ops₂ ∧
    arrivals (run shy init ops₁).log = [.text [104], .text [105]] ∧ arrivals (run shy init ops₂).log = [.text [104]] :=
  ⟨[.read (hello ++ (clientFrame true 1 [104]).wire ++ (clientFrame true 1 [105]).wire)],
    [.read (hello ++ (clientFrame true 1 [104]).wire), .read (clientFrame true 1 [105]).wire], by decide +kernel, by decide +kernel, by decide +kernel⟩

end Rtmfp
