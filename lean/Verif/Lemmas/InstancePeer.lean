import Verif.Lemmas.InstanceHear
/-! # Instances: with whom a flow talks; what strangers can make it keep -/
namespace Rtmfp
namespace Inst

section
variable {C : Crypto} {st st' : St} {ev : List Ev}

/-- the session's peer is the one that the name asks for, as far as is known -/
@[grind] def Fits (C : Crypto) (st : St) (o e : Nat) : Prop :=
  (∃ c, (st.sess o).cert = some c ∧ C.sel c e = true) ∨ (((st.sess o).state = .ihello ∨ (st.sess o).state = .closed) ∧ (st.sess o).epd = e)

@[grind] def Task.hello (s cert : Nat) : Task → Prop
  | .rhelloW t c .. | .rhello t c .. => t = s ∧ c = cert
  | _ => False

/-- certificates fit the names that sessions were opened with -/
structure Certs (C : Crypto) (st : St) : Prop where
  unknown : ∀ s : Nat, (st.sess s).state = .ihello → (st.sess s).cert = none
  fits : ∀ s c : Nat, (st.sess s).state = .keying → (st.sess s).cert = some c → C.sel c (st.sess s).epd = true
  hello : ∀ t ∈ st.tasks, ∀ s c : Nat, t.hello s c → (st.sess s).state = .ihello → C.sel c (st.sess s).epd = true

theorem Certs.way_unknown (hi : Inv C st) (h : Certs C st) (w : Way C st st' ev) : ∀ s : Nat, (st'.sess s).state = .ihello → (st'.sess s).cert = none := by
  have h1 := h.unknown
  have h2 := hi.rng.newS
  clear hi h
  cases w <;> grind

theorem Certs.way_fits (hi : Inv C st) (h : Certs C st) (w : Way C st st' ev) :
    ∀ s c : Nat, (st'.sess s).state = .keying → (st'.sess s).cert = some c → C.sel c (st'.sess s).epd = true := by
  have h1 := h.fits
  have h2 := hi.rng.newS
  have h3 := h.hello
  clear hi h
  cases w
  case tKeygen i s cert addr ifc cookie hi hs he =>
    have := h3 _ (List.mem_of_getElem? hi) s cert (by simp [Task.hello]) he
    grind
  all_goals grind

theorem Certs.way_hello (hi : Inv C st) (h : Certs C st) (w : Way C st st' ev) :
    ∀ t ∈ st'.tasks, ∀ s c : Nat, t.hello s c → (st'.sess s).state = .ihello → C.sel c (st'.sess s).epd = true := by
  have h1 : ∀ t ∈ st.tasks, ∀ s c : Nat, t.hello s c → s < st.nS := by
    intro t ht s c h1
    refine hi.rng.tasks t ht s ?_
    cases t <;> simp_all [Task.hello, Task.sids]
  have h3 := h.hello
  clear hi h
  cases w
  case tNext i t t' hi hf =>
    have h4 := List.mem_of_getElem? hi
    intro t ht
    simp only [setTasks_tasks, List.mem_append, List.mem_singleton] at ht
    rcases ht with ht | rfl
    · simpa using h3 t (mem_eraseIdx ht)
    · cases hf
      case rhello s cert addr ifc cookie => exact fun s c hs => by simpa using h3 _ h4 s c (by simpa [Task.hello] using hs)
      all_goals grind
  all_goals grind [mem_eraseIdx]

theorem Certs.way (hi : Inv C st) (h : Certs C st) (w : Way C st st' ev) : Certs C st' := ⟨h.way_unknown hi w, h.way_fits hi w, h.way_hello hi w⟩

@[grind] def Ev.opensFlow : Ev → Bool
  | .flowOpened _ _ => true
  | _ => false

@[grind] def Ev.moves (f : Nat) : Ev → Bool
  | .moved g _ _ => g = f
  | _ => false

/-- flows that stay where they were put talk to those they were opened to -/
structure Peer (C : Crypto) (st : St) (evs : List Ev) : Prop where
  waits : ∀ f o : Nat, (st.flow f).opening = some o → evs.any (Ev.moves f) = true ∨ Fits C st o (st.flow f).epd
  bound : ∀ (f s : Nat) (b : Bool), .bound f s b ∈ evs → evs.any (Ev.moves f) = true ∨ ∃ c, (st.sess s).cert = some c ∧ C.sel c (st.flow f).epd = true
  name : ∀ f e : Nat, .flowOpened f e ∈ evs → (st.flow f).epd = e
  made : ∀ (f s : Nat) (b : Bool), .bound f s b ∈ evs → f < st.nF ∧ s < st.nS
  named : ∀ f e : Nat, .flowOpened f e ∈ evs → f < st.nF

theorem Peer.way_named {evs : List Ev} (h : Peer C st evs) (w : Way C st st' ev) : ∀ f e : Nat, .flowOpened f e ∈ evs ++ ev → f < st'.nF := by
  replace h := h.named
  cases w <;> grind

theorem Peer.way_name {evs : List Ev} (h : Peer C st evs) (w : Way C st st' ev) : ∀ f e : Nat, .flowOpened f e ∈ evs ++ ev → (st'.flow f).epd = e := by
  have h1 := h.named
  replace h := h.name
  cases w <;> grind

theorem Peer.way_made {evs : List Ev} (hi : Inv C st) (h : Peer C st evs) (w : Way C st st' ev) :
    ∀ (f s : Nat) (b : Bool), .bound f s b ∈ evs ++ ev → f < st'.nF ∧ s < st'.nS := by
  replace h := h.made
  have h1 := hi.rng.byEpd
  have h2 : ∀ s f fs rest, st.stack = .tellOpened s (f :: fs) :: rest → f < st.nF ∧ s < st.nS := by
    intro s f fs rest e
    exact ⟨hi.rng.framesF (.tellOpened s (f :: fs)) (by simp [e]) f (by simp [Frame.fids]), hi.rng.frames (.tellOpened s (f :: fs)) (by simp [e]) s (by simp [Frame.sids])⟩
  have h3 : ∀ s, (st.sess s).state = .opened → s < st.nS := by
    intro s hs
    rcases Nat.lt_or_ge s st.nS with h | h
    · exact h
    · rw [hi.rng.fresh s h] at hs; cases hs
  clear hi
  cases w <;> grind

theorem Peer.way_waits {evs : List Ev} (hi : Inv C st) (hh : Held st) (hc : Certs C st) (h : Peer C st evs) (w : Way C st st' ev) :
    ∀ f o : Nat, (st'.flow f).opening = some o → (evs ++ ev).any (Ev.moves f) = true ∨ Fits C st' o (st'.flow f).epd := by
  replace h := h.waits
  have h1 := hi.rng.opening
  have h2 := hc.unknown
  have h3 := hc.fits
  have h4 := hc.hello
  have h5 : ∀ s : Nat, s ∈ st.openingS → (st.sess s).state = .ihello ∨ ((st.sess s).state = .keying ∧ ∃ c, (st.sess s).cert = some c) ∨ (st.sess s).state = .closed := by
    intro s hs
    have := (hh.opening s).mp hs
    have := hi.maps.cert s
    cases h : (st.sess s).cert <;> grind
  clear hi hc hh
  intro f o
  replace h := h f
  cases w
  case tKeygen i s cert addr ifc cookie hi hs he =>
    have := h4 _ (List.mem_of_getElem? hi) s cert (by simp [Task.hello]) he
    grind
  case openWait epd s _ _ _ hm _ =>
    have := h5 s hm
    clear h4 h5
    by_cases hf : f = st.nF
    · subst hf
      clear h h1
      grind
    · have := h o
      clear h h1 h2 h3
      grind
  all_goals grind

theorem Peer.way_bound {evs : List Ev} (hC : ∀ c, C.sel c (C.canon c) = true) (hi : Inv C st) (hc : Certs C st) (h : Peer C st evs) (w : Way C st st' ev) :
    ∀ (f s : Nat) (b : Bool), .bound f s b ∈ evs ++ ev → (evs ++ ev).any (Ev.moves f) = true ∨ ∃ c, (st'.sess s).cert = some c ∧ C.sel c (st'.flow f).epd = true := by
  have h0 := h.waits
  have h1 := h.made
  replace h := h.bound
  have h2 : ∀ e s, st.byEpd e = some s → ∃ c, (st.sess s).cert = some c ∧ C.sel c e = true := by
    intro e s he
    obtain ⟨_, ⟨c, h3, h4⟩, _⟩ := hi.maps.epd e s he
    exact ⟨c, h3, h4 ▸ hC c⟩
  have h3 : ∀ s, (st.sess s).state = .opened → ∃ c, (st.sess s).cert = some c ∧ C.sel c (st.sess s).epd = true := by
    intro s hs
    have h4 := hi.maps.cert s (by rw [hs]; decide)
    rw [hs] at h4
    cases h5 : (st.sess s).cert with
    | none => simp [h5] at h4
    | some c =>
      refine ⟨c, rfl, ?_⟩
      rw [hi.maps.canon s c hs h5]
      exact hC c
  have h4 : ∀ s f fs rest, st.stack = .tellOpened s (f :: fs) :: rest → (st.sess s).state = .opened ∧ ((st.flow f).sess = none → (st.flow f).opening ≠ none) := by
    intro s f fs rest e
    refine ⟨?_, hi.shape.heard s f fs rest e⟩
    have := hi.shape
    rw [e] at this
    exact this.2.1.1
  have h5 := hc.unknown
  clear hi hC
  intro f s b
  replace h := h f s b
  have h6 := h0 f
  have h7 := h1 f s b
  clear h1 h0 hc
  cases w
  all_goals grind

theorem Peer.way {evs : List Ev} (hC : ∀ c, C.sel c (C.canon c) = true) (hi : Inv C st) (hh : Held st) (hc : Certs C st) (h : Peer C st evs) (w : Way C st st' ev) :
    Peer C st' (evs ++ ev) :=
  ⟨h.way_waits hi hh hc w, h.way_bound hC hi hc w, h.way_name w, h.way_made hi w, h.way_named w⟩

/-- what requests from strangers make an instance keep -/
@[grind] def Task.request : Task → Bool
  | .iikeyingW _ | .iikeyingW2 _ | .iikeying _ => true
  | _ => false

@[grind] def Task.waiting : Task → Bool
  | .iikeyingW _ => true
  | _ => false

@[grind] def Frame.request : Frame → Bool
  | .respond _ => true
  | _ => false

structure Bounds (st : St) (evs : List Ev) : Prop where
  waiting : st.waiting = st.tasks.countP Task.waiting
  few : st.waiting ≤ MAX_WAITING_PERFORM_COUNT
  early : ∀ s : Nat, (st.sess s).early.length ≤ MAX_EARLY_PACKETS
  asked : st.nS + st.tasks.countP Task.request + st.stack.countP Frame.request ≤ evs.count .keyingAccepted + st.nF
  flows : st.nF = evs.countP Ev.opensFlow


theorem countP_eraseIdx {α : Type} {l : List α} {i : Nat} {t : α} (hi : l[i]? = some t) (p : α → Bool) : (l.eraseIdx i).countP p + (if p t = true then 1 else 0) = l.countP p := by
  induction l generalizing i with
  | nil => simp at hi
  | cons a l ih =>
    cases i with
    | zero => simp at hi; subst hi; simp [List.countP_cons]
    | succ i =>
      simp at hi
      have := ih hi
      simp only [List.eraseIdx_cons_succ, List.countP_cons]
      omega

@[grind =] theorem countP_abandoned {o : Option Nat} : (abandoned st o).countP Frame.request = 0 := by
  rw [List.countP_eq_zero]
  intro fr h
  obtain ⟨x, _, h, _⟩ := abandoned_mem.mp h
  subst h; simp [Frame.request]

@[grind =] theorem countP_glared {r : Req} : (glared C st r).countP Frame.request = 0 := by
  rw [List.countP_eq_zero]
  intro fr h
  obtain ⟨x, h, _⟩ := glared_mem h
  subst h; simp [Frame.request]

theorem Bounds.way_waiting {evs : List Ev} (h : Bounds st evs) (w : Way C st st' ev) : st'.waiting = st'.tasks.countP Task.waiting := by
  replace h := h.waiting
  cases w
  case tNext i t t' hi hf => have := countP_eraseIdx hi Task.waiting; cases hf <;> grind
  case tDrop i t hi hk hk2 =>
    have h1 := countP_eraseIdx hi Task.waiting
    have h2 : t.waiting = false := by cases t <;> first | rfl | exact absurd ⟨_, rfl⟩ hk
    simp [h2] at h1
    grind
  all_goals grind [countP_eraseIdx]

theorem Bounds.way_few {evs : List Ev} (h : Bounds st evs) (w : Way C st st' ev) : st'.waiting ≤ MAX_WAITING_PERFORM_COUNT := by
  replace h := h.few
  cases w <;> grind

theorem Bounds.way_early {evs : List Ev} (hi : Inv C st) (h : Bounds st evs) (w : Way C st st' ev) : ∀ s : Nat, (st'.sess s).early.length ≤ MAX_EARLY_PACKETS := by
  replace h := h.early
  have h1 := hi.rng.newS
  clear hi
  cases w <;> grind [Sess.new]

theorem Bounds.way_asked {evs : List Ev} (h : Bounds st evs) (w : Way C st st' ev) :
    st'.nS + st'.tasks.countP Task.request + st'.stack.countP Frame.request ≤ (evs ++ ev).count .keyingAccepted + st'.nF := by
  replace h := h.asked
  cases w
  case tNext i t t' hi hf => have := countP_eraseIdx hi Task.request; cases hf <;> grind
  all_goals grind [countP_eraseIdx]

theorem Bounds.way_flows {evs : List Ev} (h : Bounds st evs) (w : Way C st st' ev) : st'.nF = (evs ++ ev).countP Ev.opensFlow := by
  replace h := h.flows
  cases w <;> grind

theorem Bounds.way {evs : List Ev} (hi : Inv C st) (h : Bounds st evs) (w : Way C st st' ev) : Bounds st' (evs ++ ev) :=
  ⟨h.way_waiting w, h.way_few w, h.way_early hi w, h.way_asked w, h.way_flows w⟩

end
end Inst
end Rtmfp
