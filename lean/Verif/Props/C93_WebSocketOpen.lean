import Verif.Lemmas.WebSocketOpen
import Verif.Props.C92_WebSocketSend

/-!
# C93: a WebSocket opens exactly for requests for a WebSocket, and answers them as the protocol says

The specification of requests, base64 and the answer is `Verif/Spec/HttpUpgrade.lean`. SHA-1 is a parameter (`App.sha1`).
-/

namespace Rtmfp

open WS Spec.Web

theorem WS.scan_request (r : Request) (h : r.Valid) (more : Bytes) : ∃ g, scan false [] (r.wire ++ more) = (g, r.wire, some more) := by
  have hb := bodyOf_header (request_header r h) more
  unfold bodyOf at hb
  rcases hq : scan false [] (r.wire ++ more) with ⟨g, k, o⟩
  rw [hq] at hb
  simp only at hb
  subst hb
  have := scan_all _ _ _ hq
  rw [List.nil_append] at this
  exact ⟨g, by rw [List.append_cancel_right this]⟩

theorem WS.fine_iff (r : Request) (h : r.Valid) (hu : r.wire.length < 2 ^ 64) (fs : List (Bytes × Bytes)) :
    Fine r.wire fs ↔ r.Upgrade ∧ fs = r.fields.map (fun f => (lowered f.name, f.value)) := by
  unfold Fine
  rw [parseBlock_wire r h hu]
  constructor
  · rintro ⟨sl, e, hw⟩
    simp only [Prod.mk.injEq, Option.some.injEq] at e
    obtain ⟨rfl, rfl⟩ := e
    exact ⟨(wanted_iff r h).mp hw, rfl⟩
  · rintro ⟨hup, rfl⟩
    exact ⟨_, rfl, (wanted_iff r h).mpr hup⟩

/-- **C93.** Whatever the application does and however the bytes arrive: if `onOpen` has been called, the request was for a WebSocket, whatever
the case of letters, the white space around values and the order of the fields; and what was to be written as the answer (`asked`, C92) is
what the protocol says for its key. -/
theorem C93_only (app : App) (ops : List Op) (r : Request) (more : Bytes) (hv : r.Valid) (hu : r.wire.length < 2 ^ 64)
    (hr : received ops = r.wire ++ more) (ho : Ev.opened ∈ (run app init ops).log) :
    r.Upgrade ∧ response app (run app init ops).headers = accept app.sha1 (r.value "sec-websocket-key") := by
  obtain ⟨g, k, rest, h1, h2⟩ := opened_run app ops ho
  obtain ⟨g', h3⟩ := scan_request r hv more
  rw [hr, h3] at h1
  simp only [Prod.mk.injEq, Option.some.injEq] at h1
  obtain ⟨_, rfl, _⟩ := h1
  obtain ⟨h4, h5⟩ := (fine_iff r hv hu _).mp h2
  exact ⟨h4, by rw [h5, response_eq]⟩

/-- **C93.** If the application doesn't close or shut down and the stream isn't lost: after the request `onOpen` has been called if it is for
a WebSocket; if not, `onOpen` and callbacks for messages aren't called, `onError` is and the platform adapter is told. Before its end
`onOpen` isn't called. -/
theorem C93_opened_iff (app : App) (ops : List Op) (r : Request) (more : Bytes) (hv : r.Valid) (hu : r.wire.length < 2 ^ 64)
    (hr : received ops = r.wire ++ more) (ha : Stays app) (hl : Lasts ops) :
    (r.Upgrade ↔ Ev.opened ∈ (run app init ops).log) ∧
    (¬ r.Upgrade → Ev.failed ∈ (run app init ops).log ∧ Ev.released ∈ (run app init ops).log ∧ arrivals (run app init ops).log = []) := by
  obtain ⟨g', h3⟩ := scan_request r hv more
  obtain ⟨_, h2⟩ := answered_run app ha ops hl
  rw [hr] at h2
  obtain ⟨h4, h5⟩ := h2 _ _ _ h3
  have hno : ¬ r.Upgrade → ¬ ∃ fs, Fine r.wire fs := fun hn ⟨fs, hf⟩ => hn ((fine_iff r hv hu fs).mp hf).1
  refine ⟨⟨fun hup => h4 ⟨_, (fine_iff r hv hu _).mpr ⟨hup, rfl⟩⟩, fun ho => (C93_only app ops r more hv hu hr ho).1⟩, fun hn => ?_⟩
  obtain ⟨he, hf, ha⟩ := h5 (hno hn)
  exact ⟨hf, (over_iff app ops).mp he, ha⟩

/-- **C93.** What is written is the answer first — nothing comes before it — if the application sent nothing before `onOpen`; and if all isn't
over it is written when the stream can next be written to. -/
theorem C93_answered (app : App) (ops : List Op) (r : Request) (more : Bytes) (hv : r.Valid) (hu : r.wire.length < 2 ^ 64)
    (hr : received ops = r.wire ++ more) (l1 l2 : List Ev) (hl : (run app init ops).log = l1 ++ .opened :: l2) (h1 : Silent l1) :
    (puts (run app init ops).log <+: accept app.sha1 (r.value "sec-websocket-key") ∨ accept app.sha1 (r.value "sec-websocket-key") <+: puts (run app init ops).log) ∧
    (Ev.released ∉ (run app init ops).log → accept app.sha1 (r.value "sec-websocket-key") <+: puts (run app init (ops ++ [.writable])).log) := by
  obtain ⟨_, h2⟩ := C93_only app ops r more hv hu hr (by rw [hl]; simp)
  have h3 := C92_order app ops
  have h4 := C92_written_partial app ops
  rw [h2] at h3 h4
  generalize accept app.sha1 (r.value "sec-websocket-key") = resp at *
  have h5 : resp <+: asked resp false (run app init ops).log := by
    rw [hl, asked_append]
    obtain ⟨a1, a2, a3⟩ := silent_asked resp l1 h1
    rw [a1, a2]
    simp [asked, due]
  exact ⟨List.prefix_or_prefix_of_prefix h3 h5, fun hn => h5.trans (h4 hn)⟩

/-- **C93.** The answer tells the key's hash: from two equal answers the hashes are equal. -/
theorem C93_answer_injective (sha1 : Bytes → Bytes) (k k' : Bytes) (h : accept sha1 k = accept sha1 k') :
    sha1 (k ++ str "258EAFA5-E914-47DA-95CA-C5AB0DC85B11") = sha1 (k' ++ str "258EAFA5-E914-47DA-95CA-C5AB0DC85B11") := by
  unfold accept at h
  have h1 := List.append_cancel_right (List.append_cancel_right h)
  exact base64_inj _ _ (List.append_cancel_left h1)

/-! ## Examples -/

/-- letters of either case, white space of either kind, a field twice, one that doesn't matter -/
def WS.ask : Request :=
  ⟨str "GET", str "/chat?a=b", str "HTTP/1.1", [⟨str "Host", [32], str "example.com:80", []⟩, ⟨str "UPGRADE", [], str "WebSocket", [32, 9]⟩,
    ⟨str "connection", [9], str "keep-alive", []⟩, ⟨str "Connection", [32], str "Upgrade", []⟩, ⟨str "Sec-WebSocket-Key", [32], str "dGhlIHNhbXBsZSBub25jZQ==", []⟩,
    ⟨str "Sec-WebSocket-Version", [32, 32], str "13", [32]⟩]⟩

theorem WS.ask_valid : ask.Valid := by
  have hs : ∀ c ∈ ask.method ++ ask.target ++ ask.version, c ≠ 32 ∧ c ≠ 10 ∧ c ≠ 13 := by decide +kernel
  refine ⟨hs, ?_⟩
  intro f hf
  have hn : ∀ f ∈ ask.fields, f.name ≠ [] ∧ (∀ c ∈ f.name, c ∈ str "!#$%&'*+-.^_`|~" ∨ (48 ≤ c ∧ c ≤ 57) ∨ (65 ≤ c ∧ c ≤ 90) ∨ (97 ≤ c ∧ c ≤ 122)) ∧
      (∀ c ∈ f.pre ++ f.post, c = 32 ∨ c = 9) ∧ (∀ c ∈ f.value, c ≠ 10 ∧ c ≠ 13) ∧
      (∀ c ∈ f.value.head?, ¬ (c = 32 ∨ (9 ≤ c ∧ c ≤ 13))) ∧ (∀ c ∈ f.value.getLast?, ¬ (c = 32 ∨ (9 ≤ c ∧ c ≤ 13))) := by decide +kernel
  obtain ⟨h1, h2, h3, h4, h5, h6⟩ := hn f hf
  exact ⟨h1, h2, h3, h4, h5, h6⟩

example : ask.Valid ∧ ask.wire.length < 2 ^ 64 ∧ ask.value "connection" = str "keep-alive,Upgrade" ∧ ask.Upgrade ∧
    received [.read (ask.wire.take 40), .writable, .read (ask.wire.drop 40 ++ [0x81])] = ask.wire ++ [0x81] ∧
    Stays idle ∧ Lasts [.read (ask.wire.take 40), .writable, .read (ask.wire.drop 40 ++ [0x81])] ∧
    (run idle init [.read (ask.wire.take 40), .writable, .read (ask.wire.drop 40 ++ [0x81])]).log = [.headers, .ask] ++ .opened :: [] :=
  ⟨ask_valid, by decide +kernel, by decide +kernel, ⟨by decide +kernel, by decide +kernel, ⟨str "keep-alive,", [], by decide +kernel⟩, by decide +kernel, by decide +kernel⟩,
    by decide +kernel, fun _ => ⟨by simp [idle], by simp [idle]⟩, ⟨by simp, by simp, by simp⟩, by decide +kernel⟩

/-- the key of RFC 6455 section 1.3, given the hash written there -/
example : accept (fun _ => [0xb3, 0x7a, 0x4f, 0x2c, 0xc0, 0x62, 0x4f, 0x16, 0x90, 0xf6, 0x46, 0x06, 0xcf, 0x38, 0x59, 0x45, 0xb2, 0xbe, 0xc4, 0xea])
      (str "dGhlIHNhbXBsZSBub25jZQ==") =
    str "HTTP/1.1 101 Switching Protocols\r\nUpgrade: websocket\r\nConnection: Upgrade\r\nSec-WebSocket-Accept: s3pPLMBiTxaQ9kYGzzhZRbK+xOo=\r\n\r\n" := by
  decide +kernel

/-- a request for something else is refused -/
example : ¬ { ask with method := str "POST" }.Upgrade ∧ (run idle init [.read ({ ask with method := str "POST" }).wire]).log = [.headers, .released, .failed] :=
  ⟨fun h => absurd h.get (by decide +kernel), by decide +kernel⟩

end Rtmfp
