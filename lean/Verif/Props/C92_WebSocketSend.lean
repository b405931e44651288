import Verif.Lemmas.WebSocketSend
import Verif.Props.C91_WebSocketReceive

/-!
# C92: what a WebSocket writes is what it was given to write, in order; and how it ends

One thing is not so: messages that are still waiting when the peer's Close arrives after the application's own are never written
(`C92_crossing`). `due` and `asked` (`Verif/Lemmas/WebSocketActs.lean`) say what there is to write because of what happened, `toSay` says it
as messages; the specification of frames is `Verif/Spec/WebSocket.lean`.
-/

namespace Rtmfp

open WS Spec.Web

/-- **C92.** For every application and every history: what has been written is the beginning of what there was to write — the answer to the
request when it was accepted, the application's messages, a Pong for every Ping, the Close — each once and in order. -/
theorem C92_order (app : App) (ops : List Op) :
    puts (run app init ops).log <+: asked (response app (run app init ops).headers) false (run app init ops).log :=
  (queue_run app ops).past

theorem WS.puts_mono {l m : List Ev} (h : l <+: m) : puts l <+: puts m := by
  obtain ⟨t, rfl⟩ := h; rw [puts_append]; exact List.prefix_append _ _

theorem WS.run_log (app : App) (ops more : List Op) : (run app init ops).log <+: (run app init (ops ++ more)).log := by
  rw [run_append]
  have ha := run_acts app more (run app init ops) _ (good_run app ops init [] good_init)
  generalize run app (run app init ops) more = st at ha
  induction ha with
  | refl => exact List.prefix_refl _
  | tail _ a ih => exact (ih).trans (act_log app _ _ a)

theorem WS.writable_put (app : App) (st : St) (hp : st.phase ≠ .error) (ho : st.out ≠ []) (hs : st.scheduled = true) :
    step app st .writable = { emit st (.put st.out) with out := [] } := by
  have e : writeRaw st = ({ emit st (.put st.out) with out := [] }, true) := by unfold writeRaw; rw [if_pos ⟨hp, ho⟩]
  show (if st.phase ≠ .error ∧ st.scheduled then onWritable app st else st) = _
  rw [if_pos ⟨hp, hs⟩]
  unfold onWritable
  rw [e, if_pos rfl]

/-- **C92 (partial).** If the connection hasn't ended when the stream can be written to, all there was to write until then is written. What
is missing: that it isn't lost if the connection ends without the application or the stream ending it (`C92_crossing`). -/
theorem C92_written_partial (app : App) (ops : List Op) (h : Ev.released ∉ (run app init ops).log) :
    asked (response app (run app init ops).headers) false (run app init ops).log <+: puts (run app init (ops ++ [.writable])).log := by
  have hp : (run app init ops).phase ≠ .error := fun he => h ((over_iff app ops).mp he)
  obtain ⟨_, h2, h3⟩ := (queue_run app ops).live hp
  have hm := puts_mono (run_log app ops [.writable])
  rw [run_append] at hm ⊢
  generalize run app init ops = st at *
  by_cases ho : st.out = []
  · rw [ho, List.append_nil] at h2
    rw [← h2]; exact hm
  · have hs := h3 ho
    have e : run app st [.writable] = { emit st (.put st.out) with out := [] } := by
      exact writable_put app st hp ho hs
    rw [e, ← h2]
    show _ <+: puts (st.log ++ [.put st.out])
    rw [puts_append]; simp [puts]

/-- nothing is said, nor the application's own bytes written, nor the request accepted -/
def WS.Silent (l : List Ev) : Prop := ∀ e ∈ l, sayOf false e = none ∧ Plain e

theorem WS.silent_asked (resp : Bytes) (l : List Ev) (h : Silent l) : asked resp false l = [] ∧ closes l = false ∧ toSay false l = [] := by
  have hc : closes l = false := by
    simp only [closes, List.any_eq_false]
    intro e he hh
    have h1 := (h e he).1
    rcases Bool.or_eq_true_iff.mp hh with hh | hh <;> simp only [beq_iff_eq] at hh <;> subst hh <;> simp [sayOf] at h1
  have ht : toSay false l = [] := by
    induction l with
    | nil => rfl
    | cons e l ih =>
      have hc1 : (false || e == .did .cleanClose || e == .peerClose) = false := by
        simp only [closes, List.any_cons, Bool.or_eq_false_iff] at hc
        simp [hc.1]
      have hc2 : closes l = false := by
        simp only [closes, List.any_cons, Bool.or_eq_false_iff] at hc
        exact hc.2
      simp only [toSay, (h e (by simp)).1, Option.toList_none, List.nil_append]
      rw [hc1]
      exact ih (fun e h' => h e (by simp [h'])) hc2
  refine ⟨?_, hc, ht⟩
  rw [asked_frames resp l false (fun e he => (h e he).2), ht]; rfl

theorem WS.upToClose_prefix {l m : List Sig} (h : l <+: m) : upToClose l <+: upToClose m := by
  induction l generalizing m with
  | nil => exact List.nil_prefix
  | cons s l ih =>
    cases m with
    | nil => simp at h
    | cons t m =>
      obtain ⟨rfl, h2⟩ := List.cons_prefix_cons.mp h
      cases s <;> simp only [upToClose] <;> first | exact List.prefix_refl _ | exact List.cons_prefix_cons.mpr ⟨rfl, ih h2⟩

theorem WS.sig_fits (s : Sig) (h : ∀ b, (s = .text b ∨ s = .binary b ∨ s = .ping b ∨ s = .pong b) → b.length < 2 ^ 64) : s.frame.Fits := by
  cases s with
  | close => exact serverFrame_fits 8 [] (by omega) (by simp)
  | text b => exact serverFrame_fits 1 b (by omega) (h b (by simp))
  | binary b => exact serverFrame_fits 2 b (by omega) (h b (by simp))
  | ping b => exact serverFrame_fits 9 b (by omega) (h b (by simp))
  | pong b => exact serverFrame_fits 10 b (by omega) (h b (by simp))

/-- **C92.** If the application says nothing before `onOpen` and never writes bytes of its own, then whatever frames the peer finds after the
answer to its request are the messages, Pongs and the Close that there were to say, in order, and what it hears is the beginning of that (up
to the Close). The frames can be read in one way only. -/
theorem C92_heard (app : App) (ops : List Op) (l1 l2 : List Ev) (fs : List Frame)
    (hl : (run app init ops).log = l1 ++ .opened :: l2) (h1 : Silent l1) (h2 : ∀ e ∈ l2, Plain e)
    (hf : ∀ f ∈ fs, f.Fits) (hlen : ∀ b, (∃ s ∈ toSay false l2, s = .text b ∨ s = .binary b ∨ s = .ping b ∨ s = .pong b) → b.length < 2 ^ 64)
    (hw : response app (run app init ops).headers ++ fs.flatMap Frame.wire <+: puts (run app init ops).log) :
    fs <+: (toSay false l2).map Sig.frame ∧ meaning none fs <+: upToClose (toSay false l2) := by
  have h := hw.trans (C92_order app ops)
  generalize response app (run app init ops).headers = resp at h
  rw [hl, asked_append] at h
  obtain ⟨a1, a2, a3⟩ := silent_asked resp l1 h1
  rw [a1, a2] at h
  simp only [asked, due, List.nil_append, Bool.false_or] at h
  rw [show ((Ev.opened == Ev.did Call.cleanClose || Ev.opened == Ev.peerClose)) = false from rfl, asked_frames resp l2 false h2] at h
  have h3 := (List.prefix_append_right_inj resp).mp h
  have h4 : fs.flatMap Frame.wire <+: ((toSay false l2).map Sig.frame).flatMap Frame.wire := by
    rw [List.flatMap_map]; exact h3
  have h5 := wires_prefix fs _ hf (by
    intro f hm
    obtain ⟨s, hs, rfl⟩ := List.mem_map.mp hm
    exact sig_fits s (fun b hb => hlen b ⟨s, hs, hb⟩)) h4
  refine ⟨h5, ?_⟩
  have h6 : ∃ k, fs = ((toSay false l2).take k).map Sig.frame := by
    refine ⟨fs.length, ?_⟩
    rw [List.map_take]; exact List.prefix_iff_eq_take.mp h5
  obtain ⟨k, rfl⟩ := h6
  rw [meaning_frames]
  exact upToClose_prefix (List.take_prefix _ _)

/-- **C92.** For every application and every history: until the end neither `onClientClosed` nor `onError` is called. The end comes once:
either the application calls `close`, and the platform adapter is told, or the platform adapter is told and `onError` is called. After that
nothing happens but what the application calls: nothing is written or asked for, and no callback is called. -/
theorem C92_end (app : App) (ops : List Op) :
    (Ev.released ∉ (run app init ops).log ∧ Ev.failed ∉ (run app init ops).log) ∨
    ∃ l1 l2, Ev.released ∉ l1 ∧ Ev.failed ∉ l1 ∧ (∀ e ∈ l2, ∃ c, e = .did c) ∧
      ((run app init ops).log = l1 ++ .did .close :: .released :: l2 ∨ (run app init ops).log = l1 ++ .released :: .failed :: l2) := by
  have h := ended_run app ops
  by_cases he : (run app init ops).phase = .error
  · exact .inr (h.dead he)
  · exact .inl (h.live he)

theorem WS.calls_over (cs : List Call) (st : St) (h : st.phase = .error) : (cs.foldl call st).phase = .error ∧ (cs.foldl call st).log = st.log ++ cs.map .did := by
  induction cs generalizing st with
  | nil => exact ⟨h, by simp⟩
  | cons c cs ih =>
    obtain ⟨k1, k2⟩ := (call_log st c).1 h
    obtain ⟨k3, k4⟩ := ih (call st c) k1
    exact ⟨k3, by rw [List.foldl_cons, k4, k2]; simp⟩

theorem WS.puts_did (cs : List Call) : puts (cs.map .did) = [] := by
  simp [puts]

/-- **C92.** After `shutdown`, once the stream could be written to twice, everything there was to write has been written, and nothing else;
the platform adapter has been told and `onError` has been called. -/
theorem C92_shutdown (app : App) (ops : List Op) (h : Ev.released ∉ (run app init ops).log) :
    puts (run app init (ops ++ [.call .shutdown, .writable, .writable])).log =
      asked (response app (run app init ops).headers) false (run app init ops).log ∧
    Ev.released ∈ (run app init (ops ++ [.call .shutdown, .writable, .writable])).log ∧
    Ev.failed ∈ (run app init (ops ++ [.call .shutdown, .writable, .writable])).log := by
  have hp : (run app init ops).phase ≠ .error := fun he => h ((over_iff app ops).mp he)
  have hq := queue_run app ops
  have hi := (good_run app ops init [] good_init).inv
  have hk := asked_run app ops
  rw [run_append]
  generalize run app init ops = st at *
  generalize hs1 : call st .shutdown = s
  have hcalm : Inv s := by rw [← hs1]; exact (call_calm st .shutdown).inv hi
  have h1 : s.phase = .closing := by
    rw [← hs1]
    show (shutdown (emit st (.did .shutdown))).phase = _
    unfold shutdown
    split
    · exact scheduleWrite_phase _
    · rename_i hn
      have hn' : ¬ st.phase = .opn := hn
      show st.phase = .closing
      revert hn' hp; cases st.phase <;> simp
  have h2 : s.out = st.out := by
    rw [← hs1]
    show (shutdown (emit st (.did .shutdown))).out = _
    unfold shutdown
    split
    · exact (scheduleWrite_facts _).choose_spec.2.2.2.1
    · rfl
  have h3 : puts s.log = puts st.log := by
    obtain ⟨x, hx, hx2⟩ := ((call_log st .shutdown).2.2 hp (by simp)).2
    rw [← hs1, hx, puts_append]
    have : puts (Ev.did .shutdown :: x) = [] := by
      simp only [puts, List.flatMap_eq_nil_iff]
      intro e he
      rcases List.mem_cons.mp he with rfl | he
      · rfl
      · rw [hx2 e he]
    rw [this, List.append_nil]
  have h4 : s.scheduled = true := by rw [← hs1]; exact asked_act app _ _ (.call st .shutdown) hk (by rw [hs1]; exact h1)
  have fin : ∀ t : St, t.phase = .closing → t.out = [] → t.scheduled = true → Inv t →
      (step app t .writable).phase = .error ∧ puts (step app t .writable).log = puts t.log ∧
      Ev.released ∈ (step app t .writable).log ∧ Ev.failed ∈ (step app t .writable).log := by
    intro t p1 p2 p3 p4
    have hc : t.cbs = true := by rw [p4, p1]; rfl
    have e1 : writeRaw t = (t, false) := by unfold writeRaw; rw [if_neg (by simp [p2])]
    have e2 : step app t .writable = { setClosed app t with scheduled := false } := by
      show (if t.phase ≠ .error ∧ t.scheduled then onWritable app t else t) = _
      rw [if_pos ⟨by rw [p1]; simp, p3⟩]
      unfold onWritable
      rw [e1, if_neg (by simp), if_neg (by simp [p1]), if_pos p1]
    have e3 : setClosed app t = callback app (clear (emit { t with phase := .error } .released)) .failed := by
      unfold setClosed
      rw [if_pos (by rw [p1]; simp), if_pos hc]
    obtain ⟨k1, k2⟩ := calls_over (app.react (emit (clear (emit { t with phase := .error } .released)) .failed).log)
      (emit (clear (emit { t with phase := .error } .released)) .failed) rfl
    have k2' : (setClosed app t).log = t.log ++ [.released] ++ [.failed] ++ (app.react (emit (clear (emit { t with phase := .error } .released)) .failed).log).map .did := by
      rw [e3]; exact k2
    rw [e2]
    refine ⟨by show (setClosed app t).phase = _; rw [e3]; exact k1, ?_, ?_, ?_⟩
    · show puts (setClosed app t).log = _
      rw [k2', puts_append, puts_append, puts_append, puts_did]; simp [puts]
    · show _ ∈ (setClosed app t).log; rw [k2']; simp
    · show _ ∈ (setClosed app t).log; rw [k2']; simp
  obtain ⟨_, hq2, _⟩ := hq.live hp
  have e0 : run app st [.call .shutdown, .writable, .writable] = step app (step app s .writable) .writable := by
    rw [← hs1]; rfl
  rw [e0]
  by_cases ho : s.out = []
  · obtain ⟨k1, k2, k3, k4⟩ := fin s h1 ho h4 hcalm
    have e : step app (step app s .writable) .writable = step app s .writable := by
      generalize step app s .writable = u at k1
      show (if u.phase ≠ .error ∧ u.scheduled then onWritable app u else u) = _
      rw [if_neg (by simp [k1])]
    rw [e]
    exact ⟨by rw [k2, h3, ← hq2, ← h2, ho, List.append_nil], k3, k4⟩
  · rw [writable_put app s (by rw [h1]; simp) ho h4]
    obtain ⟨k1, k2, k3, k4⟩ := fin { emit s (.put s.out) with out := [] } h1 rfl h4 hcalm
    refine ⟨?_, k3, k4⟩
    rw [k2, ← hq2, ← h2, ← h3]
    show puts (s.log ++ [.put s.out]) = _
    rw [puts_append]; simp [puts]

/-! ## Examples and a counterexample -/

/-- an application that greets -/
def WS.greet : App := ⟨fun l => match l.getLast? with | some .opened => [.text [104, 105]] | _ => [], fun _ => false, fun _ => [1]⟩

/-- a Ping while the greeting is waiting, then a message, which waits -/
example : (run greet init [.read hello, .read (clientFrame true 9 [7]).wire, .writable, .call (.binary [1, 2])]).log =
      [.headers, .ask] ++ .opened :: [.did (.text [104, 105]), .ping [7], .put (response greet (run greet init [.read hello]).headers ++
        (serverFrame 1 [104, 105]).wire ++ (serverFrame 10 [7]).wire), .did (.binary [1, 2])] ∧
    toSay false [.did (.text [104, 105]), .ping [7], .put (response greet (run greet init [.read hello]).headers ++
        (serverFrame 1 [104, 105]).wire ++ (serverFrame 10 [7]).wire), .did (.binary [1, 2])] = [.text [104, 105], .pong [7], .binary [1, 2]] := by
  decide +kernel

example : Silent [.headers, .ask] ∧ (∀ e ∈ [Ev.did (.text [104, 105]), .ping [7], .put [], .did (.binary [1, 2])], Plain e) ∧
    Ev.released ∉ (run greet init [.read hello, .read (clientFrame true 9 [7]).wire, .call (.binary [1, 2])]).log := by
  refine ⟨?_, ?_, by decide +kernel⟩
  · intro e he
    simp only [List.mem_cons, List.not_mem_nil, or_false] at he
    rcases he with rfl | rfl <;> exact ⟨rfl, trivial⟩
  · intro e he
    simp only [List.mem_cons, List.not_mem_nil, or_false] at he
    rcases he with rfl | rfl | rfl | rfl <;> trivial

/-- **C92, a defect.** The application sends a message and closes cleanly. If the peer's own Close arrives before the stream can be written
to, the message is never written, nor the Close — whatever comes after. -/
theorem C92_crossing (n : Nat) : ∃ ops : List Op, Lasts ops ∧
    ops = [.read hello, .writable, .call (.text [104, 105]), .call .cleanClose, .read (clientFrame true 8 []).wire] ∧
    puts (run idle init (ops ++ List.replicate n .writable)).log = response idle (run idle init ops).headers ∧
    asked (response idle (run idle init ops).headers) false (run idle init ops).log =
      response idle (run idle init ops).headers ++ (serverFrame 1 [104, 105]).wire ++ (serverFrame 8 []).wire ∧
    Ev.failed ∈ (run idle init ops).log := by
  refine ⟨_, ⟨by simp, by simp, by simp⟩, rfl, ?_, by decide +kernel, by decide +kernel⟩
  have hlog : ∀ (n : Nat) (st : St), st.phase = .error → run idle st (List.replicate n .writable) = st := by
    intro n st h
    induction n with
    | zero => rfl
    | succ n ih =>
      rw [List.replicate_succ]
      show run idle (if st.phase ≠ .error ∧ st.scheduled then onWritable idle st else st) _ = st
      rw [if_neg (by simp [h])]; exact ih
  rw [run_append, hlog n _ (by decide +kernel)]
  decide +kernel

end Rtmfp
