import Verif.Lemmas.RtmpRecv

/-!
# C94: what an RTMP gives to its application is what the chunks of the other side say, whatever the cuts

The chunk stream's specification is `Verif/Spec/Rtmp.lean`. The application may call anything from inside of any callback, and messages may be
being sent at the same time.
-/

namespace Rtmfp

open Rtmp Spec.Chunks

/-- **C94.** The other side says a version, its two handshakes, chunks. Whatever of that has arrived, in whatever pieces, and whatever the
application does: what has been given to it is a first part of the messages that the chunks say. -/
theorem C94_prefix (app : App) (server : Bool) (ops : List Op) (v : UInt8) (h1 h2 : Bytes) (chunks : List Chunk) (wire : Bytes) (fin : Dec)
    (msgs : List Message) (hv : 3 ≤ v.toNat ∧ v.toNat < 32) (l1 : h1.length = 1536) (l2 : h2.length = 1536) (hf : ∀ c ∈ chunks, c.Fits)
    (hh : Dec.init.hear chunks = some (wire, fin, msgs)) (ha : arrives ops <+: v :: (h1 ++ (h2 ++ wire))) :
    heard (run app init (.call (.init server) :: ops)).log <+: users msgs :=
  (run_hears app ops (hears_start ⟨v, h1, h2, chunks, wire, fin, msgs, hv, l1, l2, hf, hh⟩ app server) ha).pre

/-- **C94.** And when all of the first chunks has arrived, and the application has neither paused nor closed, and the stream wasn't lost, the
connection is open and all messages that those chunks say have been given to the application. -/
theorem C94_heard (app : App) (server : Bool) (ops : List Op) (v : UInt8) (h1 h2 : Bytes) (c1 c2 : List Chunk) (b1 b2 : Bytes) (d1 d2 : Dec)
    (m1 m2 : List Message) (hv : 3 ≤ v.toNat ∧ v.toNat < 32) (l1 : h1.length = 1536) (l2 : h2.length = 1536) (hf : ∀ c ∈ c1 ++ c2, c.Fits)
    (hh : Dec.init.hear c1 = some (b1, d1, m1)) (hh2 : d1.hear c2 = some (b2, d2, m2))
    (ha : arrives ops <+: v :: (h1 ++ (h2 ++ (b1 ++ b2)))) (hall : v :: (h1 ++ (h2 ++ b1)) <+: arrives ops)
    (hl : Op.lost ∉ ops) (hw : (run app init (.call (.init server) :: ops)).wild = false)
    (hc : Ev.did .close ∉ (run app init (.call (.init server) :: ops)).log)
    (hp : ∀ x, Ev.did (.pause x) ∉ (run app init (.call (.init server) :: ops)).log) :
    (run app init (.call (.init server) :: ops)).phase = .opn ∧ users m1 <+: heard (run app init (.call (.init server) :: ops)).log := by
  have hhh : Dec.init.hear (c1 ++ c2) = some (b1 ++ b2, d2, m1 ++ m2) := by rw [hear_append, hh]; simp [hh2]
  let s : Script := ⟨v, h1, h2, c1 ++ c2, b1 ++ b2, d2, m1 ++ m2, hv, l1, l2, hf, hhh⟩
  have H := run_hears app ops (hears_start s app server) ha
  rw [show run app init (.call (.init server) :: ops) = run app (step app init (.call (.init server))) ops from rfl] at *
  generalize run app (step app init (.call (.init server))) ops = x at *
  simp only [hl, decide_false, Bool.or_false, List.nil_append] at H
  have he : x.phase ≠ .error := fun h => by rcases H.er h with g | g; · exact hc g
                                            · nomatch g
  obtain ⟨k, p1, p2, p3⟩ := H.pos hw he
  obtain ⟨n1, n2⟩ := H.np hp
  have hs : Stuck x x.rx.input := by
    rcases p3 with g | g | g
    · rw [n1] at g; nomatch g
    · omega
    · exact g
  have hcb : x.cbs = true := by
    cases h : x.cbs with
    | true => rfl
    | false => exact absurd (H.cb h he) hc
  refine stuck_all s x k x.rx.input p1 ?_ hs hcb c1 c2 b1 d1 m1 rfl hh (by rw [p2]; exact hall)
  have hk := H.known
  have hcl : x.phase ≠ .closing := fun h => hc (H.cl h)
  cases hph : x.phase with
  | unknown => exact absurd hph hk
  | error => exact absurd hph he
  | closing => exact absurd hph hcl
  | opn => exact .inl rfl
  | uninit => exact .inr (.inl rfl)
  | versionSent => exact .inr (.inr (.inl rfl))
  | ackSent => exact .inr (.inr (.inr rfl))

/-- **C94.** All of what is said has arrived: exactly its messages have been given to the application. -/
theorem C94_exactly (app : App) (server : Bool) (ops : List Op) (v : UInt8) (h1 h2 : Bytes) (chunks : List Chunk) (wire : Bytes) (fin : Dec)
    (msgs : List Message) (hv : 3 ≤ v.toNat ∧ v.toNat < 32) (l1 : h1.length = 1536) (l2 : h2.length = 1536) (hf : ∀ c ∈ chunks, c.Fits)
    (hh : Dec.init.hear chunks = some (wire, fin, msgs)) (ha : arrives ops = v :: (h1 ++ (h2 ++ wire)))
    (hl : Op.lost ∉ ops) (hw : (run app init (.call (.init server) :: ops)).wild = false)
    (hc : Ev.did .close ∉ (run app init (.call (.init server) :: ops)).log)
    (hp : ∀ x, Ev.did (.pause x) ∉ (run app init (.call (.init server) :: ops)).log) :
    heard (run app init (.call (.init server) :: ops)).log = users msgs := by
  have a := C94_prefix app server ops v h1 h2 chunks wire fin msgs hv l1 l2 hf hh (by rw [ha]; exact List.prefix_rfl)
  have b := (C94_heard app server ops v h1 h2 chunks [] wire [] fin fin msgs [] hv l1 l2 (by simpa using hf) hh rfl (by rw [ha, List.append_nil]; exact List.prefix_rfl)
    (by rw [ha]; exact List.prefix_rfl) hl hw hc hp).2
  exact a.eq_of_length_le b.length_le

/-- **C94.** What the other side is allowed to say is never refused: if the connection is given up, the application closed it or the stream was
lost. -/
theorem C94_accepted (app : App) (server : Bool) (ops : List Op) (v : UInt8) (h1 h2 : Bytes) (chunks : List Chunk) (wire : Bytes) (fin : Dec)
    (msgs : List Message) (hv : 3 ≤ v.toNat ∧ v.toNat < 32) (l1 : h1.length = 1536) (l2 : h2.length = 1536) (hf : ∀ c ∈ chunks, c.Fits)
    (hh : Dec.init.hear chunks = some (wire, fin, msgs)) (ha : arrives ops <+: v :: (h1 ++ (h2 ++ wire)))
    (hr : Ev.released ∈ (run app init (.call (.init server) :: ops)).log) :
    Ev.did .close ∈ (run app init (.call (.init server) :: ops)).log ∨ Op.lost ∈ ops := by
  have H := run_hears app ops (hears_start ⟨v, h1, h2, chunks, wire, fin, msgs, hv, l1, l2, hf, hh⟩ app server) ha
  exact (H.er (H.rel hr)).imp_right (fun h => by simpa using h)

/-- **C94.** A chunk that isn't allowed where it is (of a chunk stream that doesn't exist without saying everything; a control message of a
stream that isn't 0, or too short, or with a chunk size or chunk stream that can't be) ends the connection, and nothing is heard after. -/
theorem C94_refused (app : App) (server : Bool) (ops more : List Op) (v : UInt8) (h1 h2 : Bytes) (chunks : List Chunk) (wire : Bytes) (fin : Dec)
    (msgs : List Message) (hv : 3 ≤ v.toNat ∧ v.toNat < 32) (l1 : h1.length = 1536) (l2 : h2.length = 1536) (hf : ∀ c ∈ chunks, c.Fits)
    (hh : Dec.init.hear chunks = some (wire, fin, msgs)) (ha : arrives ops = v :: (h1 ++ (h2 ++ wire)))
    (hl : Op.lost ∉ ops) (hw : (run app init (.call (.init server) :: ops)).wild = false)
    (hc : Ev.did .close ∉ (run app init (.call (.init server) :: ops)).log)
    (hp : ∀ x, Ev.did (.pause x) ∉ (run app init (.call (.init server) :: ops)).log)
    (c : Chunk) (hcf : c.Fits) (ht : fin.take c = none) (hd : ∀ s, fin.begin c = some s → c.data.length = min fin.size (s.len - s.part.length))
    (rest : Bytes) :
    (run app init (.call (.init server) :: (ops ++ .read (fin.wire c ++ rest) :: more))).phase = .error ∧
    heard (run app init (.call (.init server) :: (ops ++ .read (fin.wire c ++ rest) :: more))).log = users msgs := by
  have hx := C94_exactly app server ops v h1 h2 chunks wire fin msgs hv l1 l2 hf hh ha hl hw hc hp
  have ho := (C94_heard app server ops v h1 h2 chunks [] wire [] fin fin msgs [] hv l1 l2 (by simpa using hf) hh rfl (by rw [ha, List.append_nil]; exact List.prefix_rfl)
    (by rw [ha]; exact List.prefix_rfl) hl hw hc hp).1
  let s : Script := ⟨v, h1, h2, chunks, wire, fin, msgs, hv, l1, l2, hf, hh⟩
  have H := run_hears app ops (hears_start s app server) (by rw [List.nil_append, ha]; exact List.prefix_rfl)
  rw [show run app init (.call (.init server) :: (ops ++ .read (fin.wire c ++ rest) :: more)) =
    run app (step app (run app init (.call (.init server) :: ops)) (.read (fin.wire c ++ rest))) more by
      rw [show Op.call (Call.init server) :: (ops ++ Op.read (fin.wire c ++ rest) :: more) =
        (Op.call (Call.init server) :: ops) ++ (Op.read (fin.wire c ++ rest) :: more) from rfl, run_append]; rfl]
  rw [show run app (step app init (.call (.init server))) ops = run app init (.call (.init server) :: ops) from rfl] at H
  generalize run app init (.call (.init server) :: ops) = x at *
  obtain ⟨k, p1, p2, p3⟩ := H.pos hw (by rw [ho]; nofun)
  obtain ⟨n1, n2⟩ := H.np hp
  have hs : Stuck x x.rx.input := by
    rcases p3 with g | g | g
    · rw [n1] at g; nomatch g
    · omega
    · exact g
  obtain ⟨z1, z2⟩ := stuck_end s x k x.rx.input p1 ho hs (by rw [p2, List.nil_append, ha]; rfl)
  obtain ⟨y1, y2⟩ := refuse_step app x fin hw ho n1 z1 z2 c hcf ht hd rest
  obtain ⟨w1, w2⟩ := error_run app more _ y1
  exact ⟨w1, w2.trans (y2.trans hx)⟩

/-- **C94.** A version less than 3, or that could be the first letter of something else, ends the connection; nothing is ever heard. -/
theorem C94_version (app : App) (server : Bool) (v : UInt8) (hv : v.toNat < 3 ∨ 32 ≤ v.toNat) (rest : Bytes) (more : List Op) :
    (run app init (.call (.init server) :: .read (v :: rest) :: more)).phase = .error ∧
    heard (run app init (.call (.init server) :: .read (v :: rest) :: more)).log = [] := by
  have h0 : (step app init (.call (.init server))).phase = .uninit ∧ (step app init (.call (.init server))).wild = false ∧
      (step app init (.call (.init server))).paused = false ∧ (step app init (.call (.init server))).rx = init.rx ∧
      heard (step app init (.call (.init server))).log = [] := by
    cases server <;> exact ⟨rfl, rfl, rfl, rfl, rfl⟩
  rw [show run app init (.call (.init server) :: .read (v :: rest) :: more) = run app (step app (step app init (.call (.init server))) (.read (v :: rest))) more from rfl]
  generalize step app init (.call (.init server)) = x at *
  obtain ⟨p, w, pz, rx, hd⟩ := h0
  have hx : (step app x (.read (v :: rest))).phase = .error ∧ heard (step app x (.read (v :: rest))).log = [] := by
    unfold step
    rw [if_neg (by simp [w])]
    simp only
    rw [if_pos ⟨by rw [p]; nofun, by rw [p]; nofun⟩]
    unfold onReceive
    rw [if_neg (by rw [p]; rintro (h | h) <;> nomatch h)]
    have hi : x.rx.input = [] := by rw [rx]; rfl
    simp only [hi, List.nil_append, List.length_cons]
    unfold loop
    have hne : ¬ (v :: rest = [] ∨ x.paused = true) := by simp [pz]
    rw [if_neg hne]
    have hv' : v < 3 ∨ v ≥ 32 := by
      rcases hv with h | h
      · exact .inl (UInt8.lt_iff_toNat_lt.mpr h)
      · exact .inr (UInt8.le_iff_toNat_le.mpr h)
    simp only [onInput, p, uninitInput, List.getD_cons_zero]
    rw [if_pos hv']
    simp only
    obtain ⟨z1, z2, z3, -⟩ := setClosed_end app { x with phase := .uninit, rx := { x.rx with received := x.rx.received + UInt64.ofNat (rest.length + 1), input := v :: rest } }
    exact ⟨z1, z3.trans hd⟩
  obtain ⟨w1, w2⟩ := error_run app more _ hx.1
  exact ⟨w1, w2.trans hx.2⟩

/-- **C94.** Whatever arrives (allowed or not), of a message being received there is never more kept than its length says, which is less than 16 MB. -/
theorem C94_bounded (app : App) (ops : List Op) (i : Nat) :
    ((run app init ops).rx.streams i).payload.length ≤ ((run app init ops).rx.streams i).h.len ∧ ((run app init ops).rx.streams i).h.len < 2 ^ 24 :=
  run_small app ops init (fun _ => ⟨Nat.le_refl 0, show 0 < 2 ^ 24 by decide⟩) i


/-- an application that does nothing -/
def Rtmp.still : App where
  react := fun _ => []
  fate := fun _ _ => .stays
  now := fun _ => 0
  stamp := fun _ => 0
  thresh := fun _ => 65536
  minThresh := fun _ => 65536
  patience := 0

/-- **C94** (a defect). Pausing and resuming before `init`, and giving the run loop a turn, ends a connection on which nothing has arrived. -/
theorem C94_early : ∃ app : App, (run app init [.call (.pause true), .call (.pause false), .resume, .call (.init true)]).phase = .error :=
  ⟨Rtmp.still, by decide +kernel⟩

/-! ## Examples -/

/-- a video message in two chunks with an audio message in between, and another audio message 20 ms later -/
def Rtmp.someChunks : List Chunk :=
  [⟨3, false, .full 1000 200 9 1, List.replicate 128 7⟩, ⟨70, false, .full 990 5 8 1, [1, 2, 3, 4, 5]⟩, ⟨3, false, .same, List.replicate 72 8⟩,
    ⟨70, false, .sameKind 20, [6, 7, 8, 9, 10]⟩]

/-- what they say -/
def Rtmp.someMessages : List Message :=
  [⟨1, 8, 990, [1, 2, 3, 4, 5]⟩, ⟨1, 9, 1000, List.replicate 128 7 ++ List.replicate 72 8⟩, ⟨1, 8, 1010, [6, 7, 8, 9, 10]⟩]

/-- their bytes -/
def Rtmp.someWire : Bytes := ((Dec.init.hear someChunks).map (·.1)).getD []

/-- what is remembered after them -/
def Rtmp.someEnd : Dec := ((Dec.init.hear someChunks).map (·.2.1)).getD Dec.init

set_option maxRecDepth 20000 in
theorem Rtmp.some_hear : Dec.init.hear someChunks = some (someWire, someEnd, someMessages) := by rfl

theorem Rtmp.some_fits : ∀ c ∈ someChunks, c.Fits := by
  unfold someChunks
  intro c hc
  simp only [List.mem_cons, List.not_mem_nil, or_false] at hc
  rcases hc with rfl | rfl | rfl | rfl <;> exact ⟨by decide, by decide, by decide, by decide⟩

/-- bytes that arrive in four pieces -/
def Rtmp.pieces : List Op :=
  [.read (3 :: List.replicate 100 9), .read (List.replicate 1436 9 ++ List.replicate 1536 4 ++ someWire.take 50), .writable,
    .read ((someWire.drop 50).take 100), .read (someWire.drop 150)]

theorem Rtmp.pieces_arrive : arrives pieces = 3 :: (List.replicate 1536 9 ++ (List.replicate 1536 4 ++ someWire)) := by decide +kernel

example : heard (run still init (.call (.init true) :: pieces)).log <+: users someMessages :=
  C94_prefix still true pieces 3 _ _ someChunks someWire someEnd someMessages (by decide) List.length_replicate List.length_replicate some_fits some_hear
    (by rw [pieces_arrive]; exact List.prefix_rfl)

theorem Rtmp.pieces_calm : Op.lost ∉ pieces ∧ (run still init (.call (.init true) :: pieces)).wild = false ∧
    Ev.did .close ∉ (run still init (.call (.init true) :: pieces)).log ∧ (∀ x, Ev.did (.pause x) ∉ (run still init (.call (.init true) :: pieces)).log) := by
  refine ⟨by decide +kernel, by decide +kernel, by decide +kernel, by decide +kernel⟩

example : heard (run still init (.call (.init true) :: pieces)).log = someMessages :=
  C94_exactly still true pieces 3 _ _ someChunks someWire someEnd someMessages (by decide) List.length_replicate List.length_replicate some_fits some_hear
    pieces_arrive pieces_calm.1 pieces_calm.2.1 pieces_calm.2.2.1 pieces_calm.2.2.2

set_option maxRecDepth 20000 in
-- a chunk of type 3 of a chunk stream that doesn't exist
example : (run still init (.call (.init true) :: (pieces ++ .read (someEnd.wire ⟨9, false, .same, []⟩ ++ [1, 2]) :: [.read [3]]))).phase = .error ∧
    heard (run still init (.call (.init true) :: (pieces ++ .read (someEnd.wire ⟨9, false, .same, []⟩ ++ [1, 2]) :: [.read [3]]))).log = someMessages :=
  C94_refused still true pieces [.read [3]] 3 _ _ someChunks someWire someEnd someMessages (by decide) List.length_replicate List.length_replicate some_fits
    some_hear pieces_arrive pieces_calm.1 pieces_calm.2.1 pieces_calm.2.2.1 pieces_calm.2.2.2 ⟨9, false, .same, []⟩
    ⟨by decide, by decide, by decide, trivial⟩ rfl (fun s h => by nomatch h) [1, 2]

set_option maxRecDepth 20000 in
-- an abort of a chunk stream that doesn't exist
example : someEnd.take ⟨2, false, .full 0 4 2 0, [0, 0, 0, 50]⟩ = none ∧
    ∀ s, someEnd.begin ⟨2, false, .full 0 4 2 0, [0, 0, 0, 50]⟩ = some s → [0, 0, 0, 50].length = min someEnd.size (s.len - s.part.length) :=
  ⟨rfl, fun s h => by cases h; rfl⟩

-- an HTTP request
example : heard (run still init [.call (.init true), .read [71, 69, 84]]).log = [] := (C94_version still true 71 (by decide) _ []).2

example : (run still init (.call (.init true) :: pieces.take 3)).phase = .opn ∧
    ((run still init (.call (.init true) :: pieces.take 4)).rx.streams 3).payload.length = 128 := by
  decide +kernel

end Rtmfp
