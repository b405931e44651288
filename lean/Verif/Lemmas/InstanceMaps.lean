import Verif.Lemmas.InstanceCount
/-! # Instances: who is found by endpoint and by address -/
namespace Rtmfp
namespace Inst

/-- a session that a frame takes leave of is no longer open -/
@[grind] def Left (st : St) : Frame → Prop
  | .sendLoop s | .sendCheck s _ | .recvLoop s | .recvErase s _ | .nearTail s | .farTail s | .ackClose s | .didClose s _ | .tellOpening s _ | .flowDidClose _ s =>
    4 ≤ (st.sess s).state.rank
  | _ => True

/-- a session is only taken leave of when it is no longer open -/
def Leaving (st : St) : Prop := ∀ fr ∈ st.stack, Left st fr

/-- the session is open, or just about to be removed from the maps -/
@[grind] def Listed (st : St) (s : Nat) : Prop :=
  (st.sess s).state = .opened ∨ .nearTail s ∈ st.stack ∨ .farTail s ∈ st.stack ∨ .didClose s true ∈ st.stack ∨ .didClose s false ∈ st.stack

/-- the maps hold open sessions, under their names -/
structure Maps (C : Crypto) (st : St) : Prop where
  epd : ∀ e s : Nat, st.byEpd e = some s → (st.sess s).epd = e ∧ (∃ c, (st.sess s).cert = some c ∧ C.canon c = e) ∧ Listed st s
  addr : ∀ a s : Nat, st.byAddr a = some s → (st.sess s).addr = a ∧ Listed st s
  cert : ∀ s : Nat, 2 ≤ (st.sess s).state.rank → (st.sess s).state = .closed ∨ ∃ c, (st.sess s).cert = some c
  canon : ∀ s c : Nat, (st.sess s).state = .opened → (st.sess s).cert = some c → (st.sess s).epd = C.canon c

section
variable {C : Crypto} {st st' : St} {ev : List Ev}

theorem Left.mono {fr : Frame} (h : Left st fr) (hw : Fwd st st') : Left st' fr := by
  cases fr <;> simp only [Left] at h ⊢ <;> exact Nat.le_trans h (hw _)

theorem Leaving.way (hr : Rng st) (h : Leaving st) (w : Way C st st' ev) : Leaving st' := by
  have hw := fwd_way hr w
  have b1 := hr.newS
  have h1 : ∀ fr ∈ st.stack, Left st' fr := fun fr hf => (h fr hf).mono hw
  have h2 : ∀ fr rest, st.stack = fr :: rest → Left st' fr := fun fr rest e => h1 fr (by simp [e])
  clear hr hw h
  unfold Leaving
  cases w <;> grind

theorem Listed.rank {s : Nat} (hl : Leaving st) (hs : Listed st s) : 3 ≤ (st.sess s).state.rank := by
  rcases hs with hs | hs | hs | hs | hs
  · rw [hs]; decide
  all_goals exact Nat.le_trans (by decide) (hl _ hs)

theorem Listed.way (hr : Rng st) (hl : Leaving st) (w : Way C st st' ev) (hc : st'.crashed = false) (s : Nat) (h : Listed st s) :
    Listed st' s ∨ ∃ b rest, st' = (didClose (setStack st rest) s b).1 := by
  have b1 := hr.newS
  clear hr hl
  cases w
  case didClose x b rest h' =>
    by_cases hx : x = s
    · subst hx
      exact .inr ⟨b, rest, rfl⟩
    · left; grind
  all_goals (left; grind)

set_option maxHeartbeats 1000000 in
theorem Maps.way_names (hr : Rng st) (hl : Leaving st) (h : Maps C st) (w : Way C st st' ev) : ∀ e s : Nat, st'.byEpd e = some s → (st'.sess s).epd = e := by
  have b1 := hr.newS
  have b2 := hr.byEpd
  have h1 : ∀ e s : Nat, st.byEpd e = some s → (st.sess s).epd = e ∧ 3 ≤ (st.sess s).state.rank := fun e s he => ⟨(h.epd e s he).1, (h.epd e s he).2.2.rank hl⟩
  clear hr h hl
  cases w <;> grind

set_option maxHeartbeats 1000000 in
theorem Maps.way_certs (hr : Rng st) (hl : Leaving st) (h : Maps C st) (w : Way C st st' ev) :
    ∀ e s : Nat, st'.byEpd e = some s → ∃ c, (st'.sess s).cert = some c ∧ C.canon c = e := by
  have b1 := hr.newS
  have b2 := hr.byEpd
  have h1 : ∀ e s : Nat, st.byEpd e = some s → (∃ c, (st.sess s).cert = some c ∧ C.canon c = e) ∧ 3 ≤ (st.sess s).state.rank ∧ (st.sess s).epd = e :=
    fun e s he => ⟨(h.epd e s he).2.1, (h.epd e s he).2.2.rank hl, (h.epd e s he).1⟩
  have h2 := h.cert
  clear hr h hl
  cases w <;> grind

set_option maxHeartbeats 1000000 in
theorem Maps.way_listed (hr : Rng st) (hl : Leaving st) (h : Maps C st) (w : Way C st st' ev) (hc : st'.crashed = false) :
    ∀ e s : Nat, st'.byEpd e = some s → Listed st' s := by
  intro e s he
  have hw := Listed.way hr hl w hc s
  have h1 := h.epd
  by_cases hb : st.byEpd e = some s
  · rcases hw (h1 e s hb).2.2 with h2 | ⟨b, rest, h2⟩
    · exact h2
    · have h3 := (h1 e s hb).1
      subst h2
      grind
  · clear hw hr hl h
    cases w <;> grind

set_option maxHeartbeats 1000000 in
theorem Maps.way_addrs (hr : Rng st) (hl : Leaving st) (h : Maps C st) (w : Way C st st' ev) : ∀ a s : Nat, st'.byAddr a = some s → (st'.sess s).addr = a := by
  have b1 := hr.newS
  have b2 := hr.byAddr
  have h1 : ∀ e s : Nat, st.byAddr e = some s → (st.sess s).addr = e ∧ 3 ≤ (st.sess s).state.rank := fun e s he => ⟨(h.addr e s he).1, (h.addr e s he).2.rank hl⟩
  clear hr h hl
  cases w <;> grind

set_option maxHeartbeats 1000000 in
theorem Maps.way_addr_listed (hr : Rng st) (hl : Leaving st) (h : Maps C st) (w : Way C st st' ev) (hc : st'.crashed = false) :
    ∀ e s : Nat, st'.byAddr e = some s → Listed st' s := by
  intro e s he
  have hw := Listed.way hr hl w hc s
  have h1 := h.addr
  have h4 := h.epd
  by_cases hb : st.byAddr e = some s
  · rcases hw (h1 e s hb).2 with h2 | ⟨b, rest, h2⟩
    · exact h2
    · have h3 := (h1 e s hb).1
      subst h2
      grind
  · clear hw hr hl h
    cases w <;> grind

theorem Maps.way_cert (hr : Rng st) (h : Maps C st) (w : Way C st st' ev) :
    ∀ s : Nat, 2 ≤ (st'.sess s).state.rank → (st'.sess s).state = .closed ∨ ∃ c, (st'.sess s).cert = some c := by
  have b1 := hr.newS
  have h1 := h.cert
  clear hr h
  cases w <;> grind

theorem Maps.way_canon (hr : Rng st) (h : Maps C st) (w : Way C st st' ev) :
    ∀ s c : Nat, (st'.sess s).state = .opened → (st'.sess s).cert = some c → (st'.sess s).epd = C.canon c := by
  have b1 := hr.newS
  have h1 := h.canon
  clear hr h
  cases w <;> grind

theorem Maps.way (hr : Rng st) (hl : Leaving st) (h : Maps C st) (w : Way C st st' ev) (hc : st'.crashed = false) : Maps C st' :=
  ⟨fun e s he => ⟨h.way_names hr hl w e s he, h.way_certs hr hl w e s he, h.way_listed hr hl w hc e s he⟩,
   fun a s ha => ⟨h.way_addrs hr hl w a s ha, h.way_addr_listed hr hl w hc a s ha⟩, h.way_cert hr w, h.way_canon hr w⟩

end
end Inst
end Rtmfp
