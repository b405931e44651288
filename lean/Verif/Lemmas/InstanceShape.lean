import Verif.Lemmas.InstanceMaps
/-! # Instances: what can run while flows are told that a session opened -/
namespace Rtmfp
namespace Inst

@[grind] def Frame.isTell : Frame → Bool
  | .tellOpened _ _ | .tellWillOpen _ _ => true
  | _ => false

/-- nobody waits for the session, it has no flows -/
@[grind] def Dead (st : St) (s : Nat) : Prop := (st.sess s).interest = 0 ∧ (st.sess s).sendFlows = [] ∧ (st.sess s).recvFlows = []

/-- frames that tell no one anything -/
@[grind] def Quiet (st : St) : Frame → Prop
  | .abort s => Dead st s ∧ ((st.sess s).state = .ihello ∨ (st.sess s).state = .closed)
  | .sendLoop s | .recvLoop s | .didClose s _ | .tellOpening s _ | .flowDidClose _ s => Dead st s
  | .check => True
  | _ => False

@[grind] def Tells (st : St) : Frame → Prop
  | .tellOpened s fs => (st.sess s).state = .opened ∧ ∀ f ∈ fs, (st.flow f).sess ≠ none ∨ (st.flow f).opening ≠ none
  | .tellWillOpen s _ => (st.sess s).state = .keying
  | _ => True

def Shape (st : St) : List Frame → Prop
  | [] => True
  | fr :: rest => (Quiet st fr ∨ ∀ t ∈ rest, t.isTell = false) ∧ Tells st fr ∧ Shape st rest

/-- a request is answered when nothing else is left to do -/
@[grind] def Bottom : List Frame → Prop
  | [] => True
  | fr :: rest => (∀ r : Req, fr = .respond r → rest = []) ∧ Bottom rest

theorem Bottom.append {a l : List Frame} (h : Bottom l) (ha : ∀ fr ∈ a, ∀ r : Req, fr ≠ .respond r) : Bottom (a ++ l) := by
  induction a with
  | nil => exact h
  | cons x a ih => exact ⟨fun r e => absurd e (ha x (by simp) r), ih (fun fr hfr => ha fr (by simp [hfr]))⟩

theorem Shape.free {st : St} {l : List Frame} (h : ∀ t ∈ l, t.isTell = false) : Shape st l := by
  induction l with
  | nil => trivial
  | cons x l ih =>
    refine ⟨.inr (fun t ht => h t (by simp [ht])), ?_, ih (fun t ht => h t (by simp [ht]))⟩
    have := h x (by simp)
    cases x <;> first | trivial | simp [Frame.isTell] at this

theorem Shape.quiet {st : St} {a l : List Frame} (h : Shape st l) (ha : ∀ fr ∈ a, Quiet st fr) : Shape st (a ++ l) := by
  induction a with
  | nil => exact h
  | cons x a ih =>
    have hx := ha x (by simp)
    refine ⟨.inl hx, ?_, ih (fun fr hfr => ha fr (by simp [hfr]))⟩
    cases x <;> first | trivial | exact absurd hx (by simp [Quiet])

theorem Shape.mono {st st' : St} {l : List Frame} (h : Shape st l) (h1 : ∀ s, Dead st s → Dead st' s)
    (h3 : ∀ s, (st.sess s).state = .ihello ∨ (st.sess s).state = .closed → (st'.sess s).state = .ihello ∨ (st'.sess s).state = .closed)
    (h2 : ∀ fr ∈ l, Tells st fr → Tells st' fr) : Shape st' l := by
  induction l with
  | nil => trivial
  | cons x l ih =>
    obtain ⟨a, b, c⟩ := h
    refine ⟨a.imp ?_ id, h2 x (by simp) b, ih c (fun fr hfr => h2 fr (by simp [hfr]))⟩
    cases x <;> simp only [Quiet] <;> grind

/-- a session that isn't open yet has no flows -/
def Early (st : St) : Prop := ∀ s : Nat, (st.sess s).state.rank < 3 → (st.sess s).sendFlows = [] ∧ (st.sess s).recvFlows = []

section
variable {C : Crypto} {st st' : St} {ev : List Ev}

theorem Bottom.way (h : Bottom st.stack) (w : Way C st st' ev) : Bottom st'.stack := by
  cases w <;> grind [Bottom.append]

theorem Shape.top (h : Shape st st.stack) (hf : ¬ ∀ t ∈ st.stack, t.isTell = false) :
    ∃ fr rest, st.stack = fr :: rest ∧ Shape st rest ∧ (Quiet st fr ∨ (fr.isTell = true ∧ ∀ t ∈ rest, t.isTell = false)) := by
  cases e : st.stack with
  | nil => simp [e] at hf
  | cons fr rest =>
    rw [e] at h hf
    refine ⟨fr, rest, rfl, h.2.2, ?_⟩
    rcases h.1 with h1 | h1
    · exact .inl h1
    · refine .inr ⟨?_, h1⟩
      cases e : fr.isTell with
      | true => rfl
      | false => exact absurd (by simpa [e] using h1) hf

theorem Shape.quietly (h : Shape st st.stack) (hf : ¬ ∀ t ∈ st.stack, t.isTell = false) {fr : Frame} {rest : List Frame} (hs : st.stack = fr :: rest) (hn : fr.isTell = false) :
    Quiet st fr ∧ Shape st rest := by
  obtain ⟨fr', rest', e, h1, h2⟩ := h.top hf
  rw [hs] at e
  injection e with e1 e2
  subst e1; subst e2
  exact ⟨h2.resolve_right (by simp [hn]), h1⟩

theorem Early.way (hr : Rng st) (hl : Leaving st) (hm : Maps C st) (hs : Shape st st.stack) (h : Early st) (w : Way C st st' ev) : Early st' := by
  have b1 := hr.newS
  have h1 : ∀ e s : Nat, st.byEpd e = some s → 3 ≤ (st.sess s).state.rank := fun e s he => (hm.epd e s he).2.2.rank hl
  have h2 : ∀ s f fs rest, st.stack = .tellOpened s (f :: fs) :: rest → (st.sess s).state = .opened := fun s f fs rest e => by rw [e] at hs; exact hs.2.1.1
  unfold Early at h ⊢
  clear hr hl hm hs
  cases w <;> grind

theorem Shape.heard (h : Shape st st.stack) : Heard st := by
  intro s f fs rest e hs
  rw [e] at h
  exact ((h.2.1.2 f (by simp)).resolve_left (by simp [hs]))

theorem Shape.way_free (hb : Bnd st) (hm : Maps C st) (hB : Bottom st.stack) (hf : ∀ t ∈ st.stack, t.isTell = false) (w : Way C st st' ev) : Shape st' st'.stack := by
  have h1 : ∀ f ∈ st.openingF, st.stack = [] → (st.flow f).opening ≠ none := fun f hf hs h0 => by
    have := hb.unlisted f hf h0
    simp [hs] at this
  cases w
  case tellOpenedEnd s rest h => exact absurd (hf (.tellOpened s []) (by simp [h])) (by simp [Frame.isTell])
  case tellOpenedNot s f fs rest h _ => exact absurd (hf (.tellOpened s (f :: fs)) (by simp [h])) (by simp [Frame.isTell])
  case tellOpened s f fs rest h _ _ => exact absurd (hf (.tellOpened s (f :: fs)) (by simp [h])) (by simp [Frame.isTell])
  case tellWillOpenEnd s rest h => exact absurd (hf (.tellWillOpen s []) (by simp [h])) (by simp [Frame.isTell])
  case tellWillOpenNot s f fs rest h _ => exact absurd (hf (.tellWillOpen s (f :: fs)) (by simp [h])) (by simp [Frame.isTell])
  case tellWillOpen s f o fs rest h _ _ _ _ => exact absurd (hf (.tellWillOpen s (f :: fs)) (by simp [h])) (by simp [Frame.isTell])
  case respond r rest h =>
    have h2 : rest = [] := by rw [h] at hB; exact hB.1 r rfl
    subst h2
    have h3 : ∀ t ∈ glared C st r, t.isTell = false := by grind
    rw [setOpen_stack]
    refine ⟨.inr ?_, ?_, Shape.free ?_⟩
    · grind
    · refine ⟨by simp, ?_⟩
      intro f hf
      right
      have := hb.unlisted f hf
      simp [h] at this ⊢
      exact this
    · grind
  case tMerge i s cert addr ifc cookie x hi hs hn hx hc =>
    have h2 : (st.sess x).state = .opened := by
      have := (hm.epd _ _ hx).2.2
      simpa [Listed, hs] using this
    rw [didOpen_stack]
    refine ⟨.inr ?_, ?_, Shape.free ?_⟩
    · grind
    · refine ⟨by simpa using h2, ?_⟩
      intro f hf
      right
      simpa using h1 f hf hs
    · grind
  case tJoin i s cert addr ifc cookie x hi hs hn hx hk hne hc =>
    rw [push_stack, setTasks_stack, hs]
    refine ⟨.inr ?_, ?_, Shape.free ?_⟩
    · simp [Frame.isTell]
    · exact hk
    · simp [Frame.isTell]
  case tOpen i s tx hi hs hk =>
    rw [setOpen_stack]
    refine ⟨.inr ?_, ?_, Shape.free ?_⟩
    · grind
    · refine ⟨by simp, ?_⟩
      intro f hf
      right
      simpa using h1 f hf hs
    · grind
  all_goals (refine Shape.free ?_; grind)

theorem appTurn_stack (h : appTurn st = true) : st.stack = [] ∨ ∃ rest, st.stack = .user :: rest := by
  rw [appTurn] at h
  split at h
  · exact .inl (by assumption)
  · exact .inr ⟨_, by assumption⟩
  · cases h

theorem Shape.busy (h : Shape st st.stack) (hf : ¬ ∀ t ∈ st.stack, t.isTell = false) : appTurn st = false ∧ st.stack ≠ [] := by
  obtain ⟨fr, rest, e, _, h2⟩ := h.top hf
  refine ⟨?_, by simp [e]⟩
  cases ha : appTurn st with
  | false => rfl
  | true =>
    rcases appTurn_stack ha with h3 | ⟨r, h3⟩
    · simp [h3] at e
    · rw [h3] at e
      injection e with e1 _
      subst e1
      simp [Quiet, Frame.isTell] at h2

/-- a step that changes nothing that frames look at -/
theorem Shape.same {l : List Frame} (h : Shape st l) (h1 : ∀ s, st'.sess s = st.sess s) (h2 : ∀ f, st'.flow f = st.flow f) : Shape st' l := by
  refine h.mono ?_ ?_ ?_
  · intro s; rw [Dead, Dead, h1]; exact id
  · intro s; rw [h1]; exact id
  · intro fr _
    cases fr <;> simp only [Tells, h1, h2] <;> exact id

theorem Shape.way_tell (hb : Bnd st) (hn : Counts st) (he : Early st) (h : Shape st st.stack) (hf : ¬ ∀ t ∈ st.stack, t.isTell = false) (w : Way C st st' ev) :
    Shape st' st'.stack := by
  have hbusy := h.busy hf
  have hq := fun (fr : Frame) (rest : List Frame) => h.quietly hf (fr := fr) (rest := rest)
  have hall : ∀ (st : St) (l : List Frame), Shape st l → ∀ fr ∈ l, Tells st fr := by
    intro st l h
    induction l with
    | nil => simp
    | cons x l ih => intro fr hfr; rcases List.mem_cons.mp hfr with e | e; exact e ▸ h.2.1; exact ih h.2.2 fr e
  have htell : ∀ (fr : Frame) (rest : List Frame), st.stack = fr :: rest → fr.isTell = true → (∀ t ∈ rest, t.isTell = false) ∧ Tells st fr := by
    intro fr rest e ht
    rw [e] at h
    refine ⟨h.1.resolve_left ?_, h.2.1⟩
    cases fr <;> simp_all [Frame.isTell, Quiet]
  have hcalls : ∀ (b : St) (s : Nat) (o : Bool), ¬ Calls st b s o := by
    rintro b s o (⟨rest, e, _⟩ | ⟨_, e, _⟩)
    · exact (hq _ _ e rfl).1
    · simp [hbusy.1] at e
  cases w
  case nothing => exact h
  case tDrop => exact h.same (by simp) (by simp)
  case tNext => exact h.same (by simp) (by simp)
  case tKeying => exact h.same (by simp) (by simp)
  case closeEarly b s o hcl hr => exact absurd hcl (hcalls _ _ _)
  case closeNear b s hcl hr => exact absurd hcl (hcalls _ _ _)
  case closeRude b s hcl hr hc => exact absurd hcl (hcalls _ _ _)
  case closeNot s o hr hcl => exact absurd hcl (hcalls _ _ _)
  case abortNot s rest hs hc => exact (hq _ _ hs rfl).2.same (by simp) (by simp)
  case abort s rest hs hc =>
    obtain ⟨⟨q1, q3⟩, q2⟩ := hq _ _ hs rfl
    have q3 := q3.resolve_right hc
    clear hq hall htell hcalls hf h hbusy
    refine (Shape.mono q2 ?_ ?_ ?_).quiet ?_
    · grind
    · grind
    · intro fr hfr ht
      cases fr <;> simp only [Tells] at ht ⊢ <;> grind
    · grind
  case sendEnd s rest hs hl =>
    obtain ⟨q1, q2⟩ := hq _ _ hs rfl
    exact (q2.same (by simp) (by simp)).quiet (by grind)
  case sendNext s f l rest hs hl =>
    obtain ⟨q1, q2⟩ := hq _ _ hs rfl
    simp [q1.2.1] at hl
  case recvEnd s rest hs hl => exact (hq _ _ hs rfl).2.same (by simp) (by simp)
  case recvTold s f l rest hs hl _ _ =>
    obtain ⟨q1, q2⟩ := hq _ _ hs rfl
    simp [q1.2.2] at hl
  case recvQuiet s f l rest hs hl _ =>
    obtain ⟨q1, q2⟩ := hq _ _ hs rfl
    simp [q1.2.2] at hl
  case didClose s b rest hs =>
    obtain ⟨q1, q2⟩ := hq _ _ hs rfl
    rw [didClose_stack]
    refine Shape.quiet (a := [_, _]) (q2.same (by simp) (by simp)) ?_
    simp only [List.forall_mem_cons, Quiet, Dead]
    simp
    exact q1
  case tellOpeningEnd s rest hs => exact (hq _ _ hs rfl).2.same (by simp) (by simp)
  case tellOpening s f fs rest hs =>
    obtain ⟨q1, q2⟩ := hq _ _ hs rfl
    clear hq hall htell hcalls hf h hbusy
    exact (q2.same (by simp) (by simp)).quiet (by grind)
  case flowDidCloseNot f s rest hs hn => exact (hq _ _ hs rfl).2.same (by simp) (by simp)
  case flowDidClose f s rest hs hnn =>
    obtain ⟨q1, q2⟩ := hq _ _ hs rfl
    rcases hnn with h1 | ⟨_, h1⟩
    · have := (hb.listed s f).mpr h1
      simp [q1.2.1] at this
    · exact absurd h1 (hn.none q1.1)
  case checkNot rest hs _ => exact (hq _ _ hs rfl).2.same (by simp) (by simp)
  case check rest hs _ _ _ _ => exact (hq _ _ hs rfl).2.same (by simp) (by simp)
  case tellOpenedEnd s rest hs => exact Shape.free (by simpa using (htell _ _ hs rfl).1)
  case tellWillOpenEnd s rest hs => exact Shape.free (by simpa using (htell _ _ hs rfl).1)
  case tellOpenedNot s f fs rest hs _ =>
    obtain ⟨t1, t2⟩ := htell _ _ hs rfl
    refine ⟨.inr (by simpa using t1), ?_, Shape.free (by simpa using t1)⟩
    exact ⟨by simpa using t2.1, fun g hg => by simpa using t2.2 g (by simp [hg])⟩
  case tellWillOpenNot s f fs rest hs _ =>
    obtain ⟨t1, t2⟩ := htell _ _ hs rfl
    exact ⟨.inr (by simpa using t1), by simpa [Tells] using t2, Shape.free (by simpa using t1)⟩
  case tellOpened s f fs rest hs h1 h2 =>
    obtain ⟨t1, t2, t3⟩ := htell _ _ hs rfl
    rw [bind_stack]
    refine Shape.quiet ?_ ?_
    · refine ⟨.inr (by simpa using t1), ⟨by simpa using t2, ?_⟩, Shape.free (by simpa using t1)⟩
      intro g hg
      have := t3 g (by simp [hg])
      grind
    · intro fr hfr
      obtain ⟨x, h3, h4, h5, h6⟩ := abandoned_mem.mp hfr
      subst h4
      have := he x
      simp at h3 h5 h6
      grind
  case tellWillOpen s f o fs rest hs h1 h2 h3 h4 =>
    obtain ⟨t1, t2⟩ := htell _ _ hs rfl
    simp only [Tells] at t2
    rw [push_stack, List.append_assoc]
    refine Shape.quiet ?_ ?_
    · refine ⟨.inr (by simpa using t1), ?_, Shape.free (by simpa using t1)⟩
      simp only [Tells]
      grind
    · intro fr hfr
      obtain ⟨x, h3, h4, h5, h6⟩ := abandoned_mem.mp hfr
      subst h4
      have := he x
      grind
  all_goals first
    | (exact absurd (by assumption) hbusy.2)
    | (exact absurd ‹appTurn st = true› (by simp [hbusy.1]))
    | (exact absurd (hq _ _ ‹st.stack = _ :: _› rfl).1 (by simp [Quiet]))

theorem Shape.way (hb : Bnd st) (hm : Maps C st) (hB : Bottom st.stack) (hn : Counts st) (he : Early st) (h : Shape st st.stack) (w : Way C st st' ev) : Shape st' st'.stack := by
  by_cases hf : ∀ t ∈ st.stack, t.isTell = false
  · exact Shape.way_free hb hm hB hf w
  · exact Shape.way_tell hb hn he h hf w
end
end Inst
end Rtmfp
