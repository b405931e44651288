import Verif.Props.C95_RtmpSend

/-!
# C96: what one RTMP is given, another gives out

`a` writes, `b` reads: what arrives at `b` is a first part of what `a` gave to its stream, in any pieces. Both may do anything else at the same
time, from inside of callbacks as well, and whatever `a` receives (from `b` or not) doesn't matter.
-/

namespace Rtmfp

open Rtmp Spec.Chunks

theorem Rtmp.split_shake {h : Bytes} (hl : h.length = 3072) : (h.take 1536).length = 1536 ∧ (h.drop 1536).length = 1536 ∧ ∀ w, h ++ w = h.take 1536 ++ (h.drop 1536 ++ w) := by
  refine ⟨by simp [hl], by simp [hl], fun w => ?_⟩
  rw [← List.append_assoc, List.take_append_drop]

/-- **C96.** Whatever both do and whatever has arrived: what `b` has heard is a first part of the messages that `a` sent. -/
theorem C96_prefix (a b : App) (opsA opsB : List Op) (server : Bool) (h : arrives opsB <+: puts (run a init opsA).log) :
    heard (run b init (.call (.init server) :: opsB)).log <+: fins (run a init opsA).log := by
  obtain ⟨hs, chunks, wire, fin, msgs, h1, h2, h3, h4, h5⟩ := C95_wire a opsA
  obtain ⟨s1, s2, s3⟩ := split_shake h1
  rw [← h5]
  refine C94_prefix b server opsB 3 _ _ chunks wire fin msgs (by decide) s1 s2 h2 h3 ?_
  rw [← s3]
  exact h.trans h4

/-- **C96.** And it never refuses what `a` says: if it gives the connection up, its application closed it or its stream was lost. -/
theorem C96_accepted (a b : App) (opsA opsB : List Op) (server : Bool) (h : arrives opsB <+: puts (run a init opsA).log)
    (hr : Ev.released ∈ (run b init (.call (.init server) :: opsB)).log) :
    Ev.did .close ∈ (run b init (.call (.init server) :: opsB)).log ∨ Op.lost ∈ opsB := by
  obtain ⟨hs, chunks, wire, fin, msgs, h1, h2, h3, h4, h5⟩ := C95_wire a opsA
  obtain ⟨s1, s2, s3⟩ := split_shake h1
  refine C94_accepted b server opsB 3 _ _ chunks wire fin msgs (by decide) s1 s2 h2 h3 ?_ hr
  rw [← s3]
  exact h.trans h4

/-- **C96.** When `a` has given everything that it sent to its stream (C95_flushed, C95_graceful, C95_sends_partial, C95_closes), and all of it has arrived, and
`b` has neither paused nor closed: it has heard exactly the messages that `a` sent. -/
theorem C96_all (a b : App) (opsA opsB : List Op) (server : Bool) (hf : Flown (run a init opsA)) (h : arrives opsB = puts (run a init opsA).log)
    (hl : Op.lost ∉ opsB) (hw : (run b init (.call (.init server) :: opsB)).wild = false)
    (hc : Ev.did .close ∉ (run b init (.call (.init server) :: opsB)).log)
    (hp : ∀ x, Ev.did (.pause x) ∉ (run b init (.call (.init server) :: opsB)).log) :
    heard (run b init (.call (.init server) :: opsB)).log = fins (run a init opsA).log := by
  obtain ⟨hs, chunks, wire, fin, msgs, h1, h2, h3, h4, h5⟩ := hf
  obtain ⟨s1, s2, s3⟩ := split_shake h1
  rw [← h5]
  refine C94_exactly b server opsB 3 _ _ chunks wire fin msgs (by decide) s1 s2 h2 h3 ?_ hl hw hc hp
  rw [← s3, h, h4]

theorem Rtmp.queued_mem {l : List Ev} {p id : Nat} {sid : UInt32} {type : UInt8} {ts : UInt32} {x : Bytes} (h : Ev.queued p id sid type ts x ∈ l) :
    (id, (⟨sid, type, ts, x⟩ : Message)) ∈ queuedAt p l := by
  unfold queuedAt
  rw [List.mem_filterMap]
  exact ⟨_, h, by simp⟩

theorem Rtmp.left_cases {l : List Ev} {p id : Nat} {m : Message} (h : (id, m) ∈ leftAt p l) :
    Ev.finished p id m.sid m.type m.ts m.payload ∈ l ∨ Ev.dropped p id m.sid m.type m.ts m.payload ∈ l := by
  unfold leftAt at h
  rw [List.mem_filterMap] at h
  obtain ⟨e, h1, h2⟩ := h
  cases e with
  | finished q id' sid type ts b =>
    simp only at h2
    by_cases e : q = p
    · rw [if_pos e] at h2
      simp only [Option.some.injEq, Prod.mk.injEq] at h2
      obtain ⟨rfl, rfl⟩ := h2
      rw [← e]; exact .inl h1
    · rw [if_neg e] at h2; nomatch h2
  | dropped q id' sid type ts b =>
    simp only at h2
    by_cases e : q = p
    · rw [if_pos e] at h2
      simp only [Option.some.injEq, Prod.mk.injEq] at h2
      obtain ⟨rfl, rfl⟩ := h2
      rw [← e]; exact .inr h1
    · rw [if_neg e] at h2; nomatch h2
  | _ => nomatch h2

/-- **C96.** … and when nothing waits at `a`: every message written there was heard by `b`, or it was abandoned. -/
theorem C96_delivered (a b : App) (opsA opsB : List Op) (server : Bool) (hf : Flown (run a init opsA))
    (hq : ∀ p, leftAt p (run a init opsA).log = queuedAt p (run a init opsA).log) (h : arrives opsB = puts (run a init opsA).log)
    (hl : Op.lost ∉ opsB) (hw : (run b init (.call (.init server) :: opsB)).wild = false)
    (hc : Ev.did .close ∉ (run b init (.call (.init server) :: opsB)).log)
    (hp : ∀ x, Ev.did (.pause x) ∉ (run b init (.call (.init server) :: opsB)).log)
    (p id : Nat) (sid : UInt32) (type : UInt8) (ts : UInt32) (x : Bytes) (hm : Ev.queued p id sid type ts x ∈ (run a init opsA).log) :
    (⟨sid, type, ts, x⟩ : Message) ∈ heard (run b init (.call (.init server) :: opsB)).log ∨ Ev.dropped p id sid type ts x ∈ (run a init opsA).log := by
  have hm := queued_mem hm
  rw [← hq p] at hm
  refine (left_cases hm).imp_left fun g => ?_
  rw [C96_all a b opsA opsB server hf h hl hw hc hp]
  unfold fins
  rw [List.mem_filterMap]
  exact ⟨_, g, rfl⟩

theorem Rtmp.fins_left (p : Nat) (l : List Ev) (hd : ∀ q id sid type ts x, Ev.dropped q id sid type ts x ∉ l)
    (hp : ∀ q id sid type ts x, Ev.finished q id sid type ts x ∈ l → q = p) : fins l = (leftAt p l).map Prod.snd := by
  induction l with
  | nil => rfl
  | cons e l ih =>
    have ih := ih (fun q id sid type ts x h => hd q id sid type ts x (by simp [h])) (fun q id sid type ts x h => hp q id sid type ts x (by simp [h]))
    unfold fins leftAt at *
    rw [List.filterMap_cons, List.filterMap_cons]
    cases e with
    | finished q id sid type ts x =>
      dsimp only
      rw [if_pos (hp q id sid type ts x (by simp))]
      simp only [List.map_cons]
      rw [ih]
    | dropped q id sid type ts x => exact absurd (by simp) (hd q id sid type ts x)
    | _ => exact ih

/-- **C96.** If `a` writes with one priority only, and nothing is abandoned, then what `b` has heard is always a first part of what was written, in
order, each message as it was. -/
theorem C96_single (a b : App) (opsA opsB : List Op) (server : Bool) (h : arrives opsB <+: puts (run a init opsA).log) (p : Nat)
    (hp : ∀ q id sid type ts x, Ev.queued q id sid type ts x ∈ (run a init opsA).log → q = p)
    (hd : ∀ q id sid type ts x, Ev.dropped q id sid type ts x ∉ (run a init opsA).log) :
    heard (run b init (.call (.init server) :: opsB)).log <+: (queuedAt p (run a init opsA).log).map Prod.snd := by
  refine (C96_prefix a b opsA opsB server h).trans ?_
  rw [fins_left p _ hd (fun q id sid type ts x hm => hp q id sid type ts x (C95_written a opsA q id sid type ts x (.inl hm)))]
  obtain ⟨t, ht⟩ := C95_order a opsA p
  rw [← ht, List.map_append]
  exact List.prefix_append _ _

/-! ## Examples -/

/-- the example of C95 -/
def Rtmp.whole : List Op := sent ++ [.writable]

/-- bytes in three pieces -/
def Rtmp.inThree (x : Bytes) : List Op := [.read (x.take 2000), .writable, .read ((x.drop 2000).take 2000), .read ((x.drop 2000).drop 2000)]

theorem Rtmp.inThree_arrive (x : Bytes) : arrives (inThree x) = x := by
  simp only [inThree, arrives, List.flatMap_cons, List.flatMap_nil, Op.bytes, List.append_nil, List.nil_append]
  rw [List.take_append_drop, List.take_append_drop]

/-- all that was given to the stream -/
def Rtmp.carried : List Op := inThree (puts (run free init whole).log)

theorem Rtmp.carried_arrive : arrives carried = puts (run free init whole).log := inThree_arrive _

theorem Rtmp.carried_calm : Op.lost ∉ carried ∧ (run still init (.call (.init false) :: carried)).wild = false ∧
    Ev.did .close ∉ (run still init (.call (.init false) :: carried)).log ∧
    (∀ x, Ev.did (.pause x) ∉ (run still init (.call (.init false) :: carried)).log) := by
  decide +kernel

theorem Rtmp.whole_flown : Flown (run free init whole) := by
  unfold whole
  exact (C95_flushed free sent (.inl sent_facts.1) sent_facts.2.1 sent_facts.2.2.1 sent_facts.2.2.2).1

example : heard (run still init (.call (.init false) :: carried)).log = fins (run free init whole).log :=
  C96_all free still whole carried false whole_flown carried_arrive carried_calm.1 carried_calm.2.1 carried_calm.2.2.1 carried_calm.2.2.2

theorem Rtmp.whole_fins : fins (run free init whole).log = [⟨1, 8, 990, [1, 2, 3]⟩, ⟨1, 8, 1010, [4, 5, 6]⟩, ⟨1, 9, 1000, List.replicate 2500 7⟩] := by
  decide +kernel

/-- one audio message after another -/
def Rtmp.single : List Op := opening ++ [.call (.write 3 1 8 10 [1]), .call (.write 3 1 8 20 [2]), .call (.write 3 1 8 30 [3]), .writable, .writable]

theorem Rtmp.single_facts : (run free init single).log.all (fun e => match e with | .queued q .. => q = 3 | .dropped .. => false | _ => true) = true ∧
    (queuedAt 3 (run free init single).log).map Prod.snd = [⟨1, 8, 10, [1]⟩, ⟨1, 8, 20, [2]⟩, ⟨1, 8, 30, [3]⟩] ∧ (puts (run free init single).log).length > 3000 := by
  decide +kernel

/-- what arrives of it -/
def Rtmp.some : List Op := [.read ((puts (run free init single).log).take 3111)]

theorem Rtmp.some_arrive : arrives some <+: puts (run free init single).log := by
  have : arrives some = (puts (run free init single).log).take 3111 := by
    simp [some, arrives, Op.bytes]
  rw [this]
  exact List.take_prefix _ _

example : heard (run still init (.call (.init false) :: some)).log <+: [⟨1, 8, 10, [1]⟩, ⟨1, 8, 20, [2]⟩, ⟨1, 8, 30, [3]⟩] := by
  rw [← single_facts.2.1]
  refine C96_single free still single some false some_arrive 3 (fun q id sid type ts x h => ?_) (fun q id sid type ts x h => ?_)
  · simpa using List.all_eq_true.mp single_facts.1 _ h
  · simpa using List.all_eq_true.mp single_facts.1 _ h

end Rtmfp
