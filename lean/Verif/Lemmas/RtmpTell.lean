import Verif.Lemmas.RtmpVoice

/-! # Messages, queues and chunk streams of an RTMP -/

namespace Rtmfp.Rtmp

open Spec.Chunks Spec.Web

/-- a message of the application with the number of its write -/
abbrev Key := Nat × Message

/-- what is given to the stream -/
def puts (l : List Ev) : Bytes := l.flatMap fun
  | .put b => b
  | _ => []

/-- the messages all of which was put into the output buffer -/
def fins (l : List Ev) : List Message := l.filterMap fun
  | .finished _ _ sid type ts p => some ⟨sid, type, ts, p⟩
  | _ => none

/-- … the numbers of their writes -/
def finIds (l : List Ev) : List Nat := l.filterMap fun
  | .finished _ id _ _ _ _ => some id
  | _ => none

/-- the numbers of the writes whose receipts were told that they were sent -/
def dones (l : List Ev) : List Nat := l.filterMap fun
  | .done id => some id
  | _ => none

/-- the numbers of the writes that were taken -/
def qids (l : List Ev) : List Nat := l.filterMap fun
  | .queued _ id _ _ _ _ => some id
  | _ => none

/-- the messages taken for a priority -/
def queuedAt (p : Nat) (l : List Ev) : List Key := l.filterMap fun
  | .queued q id sid type ts b => if q = p then some (id, ⟨sid, type, ts, b⟩) else none
  | _ => none

/-- the messages of a priority that were sent or abandoned -/
def leftAt (p : Nat) (l : List Ev) : List Key := l.filterMap fun
  | .finished q id sid type ts b => if q = p then some (id, ⟨sid, type, ts, b⟩) else none
  | .dropped q id sid type ts b => if q = p then some (id, ⟨sid, type, ts, b⟩) else none
  | _ => none

/-- what these are about -/
def loud : Ev → Bool
  | .put _ | .queued .. | .dropped .. | .finished .. | .done _ => true
  | _ => false

/-- the messages that are put into queue `p` -/
def newAt (p : Nat) (l : List Ev) : List Msg := l.filterMap fun
  | .queued q id sid type ts b => if q = p then some ⟨id, sid, type, ts, b, 0, none⟩ else none
  | _ => none

/-- a message of a queue -/
def Msg.key (m : Msg) : Key := (m.id, ⟨m.sid, m.type, m.ts, m.payload⟩)

/-- allowed in a queue -/
def Msg.Good (m : Msg) : Prop := m.payload.length < 2 ^ 24 ∧ isControl m.type = false

/-- nothing of this is in a log -/
def Mute (l : List Ev) : Prop := ∀ e ∈ l, loud e = false

/-- nothing but messages that are taken -/
def Fresh (l : List Ev) : Prop := ∀ e ∈ l, loud e = false ∨ ∃ q id sid type ts b, e = .queued q id sid type ts b ∧ q < 8 ∧ b.length < 2 ^ 24 ∧ isControl type = false

theorem Mute.fresh {l : List Ev} (h : Mute l) : Fresh l := fun e he => .inl (h e he)

theorem Fresh.append {a b : List Ev} (h : Fresh a) (g : Fresh b) : Fresh (a ++ b) := fun e he => (List.mem_append.mp he).elim (h e) (g e)

theorem Fresh.facts {l : List Ev} (h : Fresh l) :
    puts l = [] ∧ fins l = [] ∧ finIds l = [] ∧ dones l = [] ∧ (∀ p, leftAt p l = []) ∧ (∀ p, queuedAt p l = (newAt p l).map Msg.key) ∧
    (∀ p, ∀ m ∈ newAt p l, m.cs = none ∧ m.Good) ∧ ∀ p, newAt p l ≠ [] → p < 8 := by
  induction l with
  | nil => exact ⟨rfl, rfl, rfl, rfl, fun _ => rfl, fun _ => rfl, fun _ _ h => (by simp [newAt] at h), fun _ h => absurd rfl h⟩
  | cons e l ih =>
    obtain ⟨i1, i2, i3, i4, i5, i6, i7, i8⟩ := ih (fun x hx => h x (by simp [hx]))
    rcases h e (by simp) with g | ⟨q, id, sid, type, ts, b, rfl, g1, g2, g3⟩
    · have k : puts (e :: l) = puts l ∧ fins (e :: l) = fins l ∧ finIds (e :: l) = finIds l ∧ dones (e :: l) = dones l ∧ (∀ p, leftAt p (e :: l) = leftAt p l) ∧
          (∀ p, queuedAt p (e :: l) = queuedAt p l) ∧ (∀ p, newAt p (e :: l) = newAt p l) := by
        cases e <;> first | (simp [loud] at g; done) | exact ⟨rfl, rfl, rfl, rfl, fun _ => rfl, fun _ => rfl, fun _ => rfl⟩
      obtain ⟨k1, k2, k3, k4, k5, k6, k7⟩ := k
      rw [k1, k2, k3, k4]
      refine ⟨i1, i2, i3, i4, fun p => (k5 p).trans (i5 p), fun p => ?_, fun p => ?_, fun p => ?_⟩
      · rw [k6, k7]; exact i6 p
      · rw [k7]; exact i7 p
      · rw [k7]; exact i8 p
    · refine ⟨i1, i2, i3, i4, i5, fun p => ?_, fun p m hm => ?_, fun p hp => ?_⟩
      · by_cases e : q = p
        · simp only [queuedAt, newAt, List.filterMap_cons, e, if_true, List.map_cons]
          exact congrArg _ (i6 p)
        · simp only [queuedAt, newAt, List.filterMap_cons, e, if_false]
          exact i6 p
      · by_cases e : q = p
        · simp only [newAt, List.filterMap_cons, e, if_true, List.mem_cons] at hm
          rcases hm with rfl | hm
          · exact ⟨rfl, g2, g3⟩
          · exact i7 p m hm
        · simp only [newAt, List.filterMap_cons, e, if_false] at hm
          exact i7 p m hm
      · by_cases e : q = p
        · omega
        · simp only [newAt, List.filterMap_cons, e, if_false] at hp
          exact i8 p hp

theorem puts_append (a b : List Ev) : puts (a ++ b) = puts a ++ puts b := List.flatMap_append
theorem fins_append (a b : List Ev) : fins (a ++ b) = fins a ++ fins b := List.filterMap_append
theorem finIds_append (a b : List Ev) : finIds (a ++ b) = finIds a ++ finIds b := List.filterMap_append
theorem dones_append (a b : List Ev) : dones (a ++ b) = dones a ++ dones b := List.filterMap_append
theorem qids_append (a b : List Ev) : qids (a ++ b) = qids a ++ qids b := List.filterMap_append
theorem queuedAt_append (p : Nat) (a b : List Ev) : queuedAt p (a ++ b) = queuedAt p a ++ queuedAt p b := List.filterMap_append
theorem leftAt_append (p : Nat) (a b : List Ev) : leftAt p (a ++ b) = leftAt p a ++ leftAt p b := List.filterMap_append
theorem newAt_append (p : Nat) (a b : List Ev) : newAt p (a ++ b) = newAt p a ++ newAt p b := List.filterMap_append

/-- The queues, and the chunk streams on both sides -/
structure Link' (qs : Nat → List Msg) (d : Dec) (f : Nat → SendCs) : Prop where
  good : ∀ p, ∀ m ∈ qs p, m.Good
  low : ∀ p, qs p ≠ [] → p < 8
  tail : ∀ p m l, qs p = m :: l → ∀ x ∈ l, x.cs = none
  head : ∀ p m l k, qs p = m :: l → m.cs = some k → 3 ≤ k ∧ k < 24 ∧ (f k).busy = true ∧
    ∃ s, d.streams k = some s ∧ s.sid = m.sid ∧ s.type = m.type ∧ s.ts = m.ts ∧ s.len = m.payload.length ∧ s.part = m.payload.take m.offset
  once : ∀ p q m l m' l' k, qs p = m :: l → qs q = m' :: l' → m.cs = some k → m'.cs = some k → p = q
  busy : ∀ k, (f k).busy = true → ∃ p m l, qs p = m :: l ∧ m.cs = some k

theorem Link'.grow {qs qs' : Nat → List Msg} {d d' : Dec} {f f' : Nat → SendCs} (h : Link' qs d f) (new : Nat → List Msg)
    (hq : ∀ p, qs' p = qs p ++ new p) (hn : ∀ p, ∀ m ∈ new p, m.cs = none ∧ m.Good) (hl : ∀ p, new p ≠ [] → p < 8)
    (hd : ∀ i, i ≠ 2 → d'.streams i = d.streams i) (hf : ∀ i, i ≠ 2 → f' i = f i) (h2 : (f' 2).busy = false) : Link' qs' d' f' := by
  have hh : ∀ p m l k, qs' p = m :: l → m.cs = some k → ∃ l', qs p = m :: l' := by
    intro p m l k e hk
    rw [hq] at e
    cases hp : qs p with
    | nil =>
      rw [hp, List.nil_append] at e
      have := (hn p m (by rw [e]; simp)).1
      rw [hk] at this; nomatch this
    | cons a b =>
      rw [hp, List.cons_append] at e
      simp only [List.cons.injEq] at e
      rw [e.1]; exact ⟨b, rfl⟩
  refine ⟨fun p m hm => ?_, fun p hp => ?_, fun p m l e x hx => ?_, fun p m l k e hk => ?_, fun p q m l m' l' k e e' hk hk' => ?_, fun k hb => ?_⟩
  · rw [hq] at hm
    rcases List.mem_append.mp hm with g | g
    · exact h.good p m g
    · exact (hn p m g).2
  · rw [hq] at hp
    by_cases g : qs p = []
    · rw [g] at hp; exact hl p hp
    · exact h.low p g
  · rw [hq] at e
    cases hp : qs p with
    | nil =>
      rw [hp, List.nil_append] at e
      exact (hn p x (by rw [e]; simp [hx])).1
    | cons a b =>
      rw [hp, List.cons_append] at e
      simp only [List.cons.injEq] at e
      rw [← e.2] at hx
      rcases List.mem_append.mp hx with g | g
      · exact h.tail p a b hp x g
      · exact (hn p x g).1
  · obtain ⟨l', e'⟩ := hh p m l k e hk
    obtain ⟨a1, a2, a3, a4⟩ := h.head p m l' k e' hk
    have : k ≠ 2 := by omega
    rw [hf k this, hd k this]
    exact ⟨a1, a2, a3, a4⟩
  · obtain ⟨b1, e1⟩ := hh p m l k e hk
    obtain ⟨b2, e2⟩ := hh q m' l' k e' hk'
    exact h.once p q m b1 m' b2 k e1 e2 hk hk'
  · have : k ≠ 2 := by intro g; rw [g, h2] at hb; nomatch hb
    rw [hf k this] at hb
    obtain ⟨p, m, l, e, hk⟩ := h.busy k hb
    exact ⟨p, m, l ++ new p, by rw [hq, e]; rfl, hk⟩

/-- the first of a queue goes -/
theorem Link'.shift {qs : Nat → List Msg} {d d' : Dec} {f f' : Nat → SendCs} (h : Link' qs d f) (p : Nat) (m : Msg) (l : List Msg) (hq : qs p = m :: l) (k : Nat)
    (hk : ∀ q m' l', q ≠ p → qs q = m' :: l' → m'.cs ≠ some k) (hm : m.cs = none ∨ m.cs = some k)
    (hd : ∀ i, i ≠ 2 → i ≠ k → d'.streams i = d.streams i) (hf : ∀ i, i ≠ 2 → i ≠ k → f' i = f i) (h2 : (f' 2).busy = false) (hb : (f' k).busy = false) :
    Link' (put qs p l) d' f' := by
  have hh : ∀ q m' l' j, put qs p l q = m' :: l' → m'.cs = some j → q ≠ p ∧ qs q = m' :: l' := by
    intro q m' l' j e hj
    by_cases g : q = p
    · subst g
      rw [put_at] at e
      have := h.tail q m l hq m' (by rw [e]; simp)
      rw [hj] at this; nomatch this
    · rw [put_off _ g] at e; exact ⟨g, e⟩
  refine ⟨fun q x hx => ?_, fun q hx => ?_, fun q x b e y hy => ?_, fun q x b j e hj => ?_, fun q q' x b x' b' j e e' hj hj' => ?_, fun j hj => ?_⟩
  · by_cases g : q = p
    · subst g
      rw [put_at] at hx
      exact h.good q x (by rw [hq]; simp [hx])
    · rw [put_off _ g] at hx; exact h.good q x hx
  · by_cases g : q = p
    · subst g; exact h.low q (by rw [hq]; simp)
    · rw [put_off _ g] at hx; exact h.low q hx
  · by_cases g : q = p
    · subst g
      rw [put_at] at e
      exact h.tail q m l hq y (by rw [e]; simp [hy])
    · rw [put_off _ g] at e; exact h.tail q x b e y hy
  · obtain ⟨g, e⟩ := hh q x b j e hj
    obtain ⟨a1, a2, a3, a4⟩ := h.head q x b j e hj
    have j2 : j ≠ 2 := by omega
    have jk : j ≠ k := fun e' => hk q x b g e (e' ▸ hj)
    rw [hf j j2 jk, hd j j2 jk]
    exact ⟨a1, a2, a3, a4⟩
  · obtain ⟨g, e⟩ := hh q x b j e hj
    obtain ⟨g', e'⟩ := hh q' x' b' j e' hj'
    exact h.once q q' x b x' b' j e e' hj hj'
  · have j2 : j ≠ 2 := by intro g; rw [g, h2] at hj; nomatch hj
    have jk : j ≠ k := by intro g; rw [g, hb] at hj; nomatch hj
    rw [hf j j2 jk] at hj
    obtain ⟨q, x, b, e, hc⟩ := h.busy j hj
    have g : q ≠ p := by
      rintro rfl
      rw [hq] at e
      simp only [List.cons.injEq] at e
      rw [← e.1] at hc
      rcases hm with g | g
      · rw [g] at hc; nomatch hc
      · rw [g] at hc; exact jk (Option.some.inj hc).symm
    exact ⟨q, x, b, by rw [put_off _ g]; exact e, hc⟩

/-- the first of a queue goes on -/
theorem Link'.turn {qs : Nat → List Msg} {d d' : Dec} {f f' : Nat → SendCs} (h : Link' qs d f) (p : Nat) (m m1 : Msg) (l : List Msg) (hq : qs p = m :: l) (k : Nat)
    (hk : ∀ q m' l', q ≠ p → qs q = m' :: l' → m'.cs ≠ some k) (hm : m.cs = none ∨ m.cs = some k)
    (hd : ∀ i, i ≠ k → d'.streams i = d.streams i) (hf : ∀ i, i ≠ k → f' i = f i) (hb : (f' k).busy = true) (h3 : 3 ≤ k) (h24 : k < 24)
    (hm1 : m1.cs = some k) (hg : m1.Good) (hs : ∃ s, d'.streams k = some s ∧ s.sid = m1.sid ∧ s.type = m1.type ∧ s.ts = m1.ts ∧ s.len = m1.payload.length ∧
      s.part = m1.payload.take m1.offset) :
    Link' (put qs p (m1 :: l)) d' f' := by
  refine ⟨fun q x hx => ?_, fun q hx => ?_, fun q x b e y hy => ?_, fun q x b j e hj => ?_, fun q q' x b x' b' j e e' hj hj' => ?_, fun j hj => ?_⟩
  · by_cases g : q = p
    · subst g
      rw [put_at] at hx
      rcases List.mem_cons.mp hx with rfl | hx
      · exact hg
      · exact h.good q x (by rw [hq]; simp [hx])
    · rw [put_off _ g] at hx; exact h.good q x hx
  · by_cases g : q = p
    · subst g; exact h.low q (by rw [hq]; simp)
    · rw [put_off _ g] at hx; exact h.low q hx
  · by_cases g : q = p
    · subst g
      rw [put_at] at e
      simp only [List.cons.injEq] at e
      exact h.tail q m l hq y (by rw [e.2]; exact hy)
    · rw [put_off _ g] at e; exact h.tail q x b e y hy
  · by_cases g : q = p
    · subst g
      rw [put_at] at e
      simp only [List.cons.injEq] at e
      obtain ⟨rfl, rfl⟩ := e
      rw [hm1] at hj
      obtain rfl := Option.some.inj hj
      exact ⟨h3, h24, hb, hs⟩
    · rw [put_off _ g] at e
      have jk : j ≠ k := fun e' => hk q x b g e (e' ▸ hj)
      rw [hf j jk, hd j jk]
      exact h.head q x b j e hj
  · by_cases g : q = p
    · by_cases g' : q' = p
      · rw [g, g']
      · subst g
        rw [put_at] at e
        rw [put_off _ g'] at e'
        simp only [List.cons.injEq] at e
        rw [← e.1, hm1] at hj
        obtain rfl := Option.some.inj hj
        exact absurd hj' (hk q' x' b' g' e')
    · by_cases g' : q' = p
      · subst g'
        rw [put_at] at e'
        rw [put_off _ g] at e
        simp only [List.cons.injEq] at e'
        rw [← e'.1, hm1] at hj'
        obtain rfl := Option.some.inj hj'
        exact absurd hj (hk q x b g e)
      · rw [put_off _ g] at e
        rw [put_off _ g'] at e'
        exact h.once q q' x b x' b' j e e' hj hj'
  · by_cases jk : j = k
    · subst jk
      exact ⟨p, m1, l, put_at _ _, hm1⟩
    · rw [hf j jk] at hj
      obtain ⟨q, x, b, e, hc⟩ := h.busy j hj
      have g : q ≠ p := by
        rintro rfl
        rw [hq] at e
        simp only [List.cons.injEq] at e
        rw [← e.1] at hc
        rcases hm with g | g
        · rw [g] at hc; nomatch hc
        · rw [g] at hc; exact jk (Option.some.inj hc).symm
      exact ⟨q, x, b, by rw [put_off _ g]; exact e, hc⟩

end Rtmfp.Rtmp
