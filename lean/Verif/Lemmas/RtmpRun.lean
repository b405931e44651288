import Verif.Lemmas.RtmpHear

/-! # What an RTMP hears: histories -/

namespace Rtmfp.Rtmp

open Spec.Chunks

theorem hear_append (d : Dec) (a b : List Chunk) :
    d.hear (a ++ b) = (d.hear a).bind fun (x, e, m) => (e.hear b).map fun (y, f, n) => (x ++ y, f, m ++ n) := by
  induction a generalizing d with
  | nil =>
    simp only [List.nil_append, Dec.hear, Option.bind_some]
    cases d.hear b <;> simp
  | cons c a ih =>
    simp only [List.cons_append, Dec.hear]
    cases d.take c with
    | none => simp
    | some r =>
      obtain ⟨e, m⟩ := r
      simp only [Option.bind_some, ih]
      cases e.hear a with
      | none => simp
      | some r =>
        obtain ⟨x, f, n⟩ := r
        simp only [Option.bind_some, Option.map_some]
        cases f.hear b with
        | none => simp
        | some r => simp

theorem hear_split {d : Dec} {a b : List Chunk} {x : Bytes} {e : Dec} {m : List Message} (h : d.hear (a ++ b) = some (x, e, m)) :
    ∃ x1 e1 m1 x2 m2, d.hear a = some (x1, e1, m1) ∧ e1.hear b = some (x2, e, m2) ∧ x = x1 ++ x2 ∧ m = m1 ++ m2 := by
  rw [hear_append] at h
  cases ha : d.hear a with
  | none => rw [ha] at h; nomatch h
  | some r =>
    obtain ⟨x1, e1, m1⟩ := r
    rw [ha] at h
    simp only [Option.bind_some] at h
    cases hb : e1.hear b with
    | none => rw [hb] at h; nomatch h
    | some r =>
      obtain ⟨x2, e2, m2⟩ := r
      rw [hb] at h
      simp only [Option.map_some, Option.some.injEq, Prod.mk.injEq] at h
      obtain ⟨rfl, rfl, rfl⟩ := h
      exact ⟨x1, e1, m1, x2, m2, rfl, hb, rfl, rfl⟩

theorem hear_cons {d : Dec} {c : Chunk} {l : List Chunk} {x : Bytes} {e : Dec} {m : List Message} (h : d.hear (c :: l) = some (x, e, m)) :
    ∃ e1 m1 x2 m2, d.take c = some (e1, m1) ∧ e1.hear l = some (x2, e, m2) ∧ x = d.wire c ++ x2 ∧ m = m1 ++ m2 := by
  simp only [Dec.hear] at h
  cases ht : d.take c with
  | none => rw [ht] at h; nomatch h
  | some r =>
    obtain ⟨e1, m1⟩ := r
    rw [ht] at h
    simp only [Option.bind_some] at h
    cases hb : e1.hear l with
    | none => rw [hb] at h; nomatch h
    | some r =>
      obtain ⟨x2, e2, m2⟩ := r
      rw [hb] at h
      simp only [Option.map_some, Option.some.injEq, Prod.mk.injEq] at h
      obtain ⟨rfl, rfl, rfl⟩ := h
      exact ⟨e1, m1, x2, m2, rfl, hb, rfl, rfl⟩

theorem hear_snoc {d : Dec} {a : List Chunk} {c : Chunk} {x : Bytes} {e f : Dec} {m n : List Message} (h : d.hear a = some (x, e, m))
    (ht : e.take c = some (f, n)) : d.hear (a ++ [c]) = some (x ++ e.wire c, f, m ++ n) := by
  rw [hear_append, h]
  simp [Dec.hear, ht]

theorem users_append (a b : List Message) : users (a ++ b) = users a ++ users b := List.filter_append ..

/-- what the other side says: its handshake and chunks -/
structure Script where
  v : UInt8
  h1 : Bytes
  h2 : Bytes
  chunks : List Chunk
  wire : Bytes
  fin : Dec
  msgs : List Message
  hv : 3 ≤ v.toNat ∧ v.toNat < 32
  l1 : h1.length = 1536
  l2 : h2.length = 1536
  fits : ∀ c ∈ chunks, c.Fits
  hears : Dec.init.hear chunks = some (wire, fin, msgs)

/-- all of it -/
def Script.all (s : Script) : Bytes := s.v :: (s.h1 ++ (s.h2 ++ s.wire))

/-- `consumed` was taken: what is remembered -/
def Pos (s : Script) (st : St) (consumed : Bytes) : Prop :=
  match st.phase with
  | .unknown => False
  | .uninit => consumed = [] ∧ Link st.rx Dec.init ∧ heard st.log = []
  | .versionSent => consumed = [s.v] ∧ Link st.rx Dec.init ∧ heard st.log = []
  | .ackSent => consumed = s.v :: s.h1 ∧ Link st.rx Dec.init ∧ heard st.log = []
  | .opn => ∃ c1 c2 b1 d1 m1, s.chunks = c1 ++ c2 ∧ Dec.init.hear c1 = some (b1, d1, m1) ∧ consumed = s.v :: (s.h1 ++ (s.h2 ++ b1)) ∧ Link st.rx d1 ∧
      heard st.log <+: users m1 ∧ (st.cbs = true → heard st.log = users m1)
  | .closing => ∃ c1 c2 b1 d1 m1, s.chunks = c1 ++ c2 ∧ Dec.init.hear c1 = some (b1, d1, m1) ∧ consumed = s.v :: (s.h1 ++ (s.h2 ++ b1)) ∧ Link st.rx d1 ∧
      heard st.log <+: users m1
  | .error => heard st.log <+: users s.msgs

theorem msgs_prefix (s : Script) {c1 c2 : List Chunk} {b1 : Bytes} {d1 : Dec} {m1 : List Message} (hc : s.chunks = c1 ++ c2)
    (hh : Dec.init.hear c1 = some (b1, d1, m1)) : users m1 <+: users s.msgs := by
  have h := s.hears
  rw [hc] at h
  obtain ⟨x1, e1, n1, x2, m2, h1, h2, h3, h4⟩ := hear_split h
  rw [hh] at h1
  simp only [Option.some.injEq, Prod.mk.injEq] at h1
  obtain ⟨rfl, rfl, rfl⟩ := h1
  rw [h4, users_append]
  exact List.prefix_append _ _

theorem Pos.heard {s : Script} {st : St} {k : Bytes} (h : Pos s st k) : Rtmp.heard st.log <+: users s.msgs := by
  unfold Pos at h
  split at h
  · exact h.elim
  · rw [h.2.2]; exact List.nil_prefix
  · rw [h.2.2]; exact List.nil_prefix
  · rw [h.2.2]; exact List.nil_prefix
  · obtain ⟨c1, c2, b1, d1, m1, h1, h2, h3, h4, h5, h6⟩ := h
    exact h5.trans (msgs_prefix s h1 h2)
  · obtain ⟨c1, c2, b1, d1, m1, h1, h2, h3, h4, h5⟩ := h
    exact h5.trans (msgs_prefix s h1 h2)
  · exact h

theorem Pos.known {s : Script} {st : St} {k : Bytes} (h : Pos s st k) : st.phase ≠ .unknown := by
  intro hu
  unfold Pos at h
  rw [hu] at h
  exact h

/-- What receives nothing leaves it as it is. -/
theorem Pos.calm {s : Script} {a b : St} {k : Bytes} (h : Pos s a k) (c : Base a b) (hl : ∀ d, Link a.rx d → Link b.rx d)
    (hh : Rtmp.heard b.log = Rtmp.heard a.log) : Pos s b k := by
  have hhd := h.heard
  rcases c.phase h.known with e | ⟨_, e | ⟨e1, e2⟩⟩
  · unfold Pos at h ⊢
    rw [e]
    split at h
    · exact h.elim
    · exact ⟨h.1, hl _ h.2.1, hh.trans h.2.2⟩
    · exact ⟨h.1, hl _ h.2.1, hh.trans h.2.2⟩
    · exact ⟨h.1, hl _ h.2.1, hh.trans h.2.2⟩
    · obtain ⟨c1, c2, b1, d1, m1, h1, h2, h3, h4, h5, h6⟩ := h
      refine ⟨c1, c2, b1, d1, m1, h1, h2, h3, hl _ h4, hh ▸ h5, fun hb => ?_⟩
      rw [hh]
      refine h6 ?_
      cases hx : a.cbs with
      | true => rfl
      | false => rw [c.off hx] at hb; exact hb
    · obtain ⟨c1, c2, b1, d1, m1, h1, h2, h3, h4, h5⟩ := h
      exact ⟨c1, c2, b1, d1, m1, h1, h2, h3, hl _ h4, hh ▸ h5⟩
    · exact hh ▸ h
  · unfold Pos
    rw [e]
    exact hh ▸ hhd
  · unfold Pos at h ⊢
    rw [e1] at h
    rw [e2]
    obtain ⟨c1, c2, b1, d1, m1, h1, h2, h3, h4, h5, h6⟩ := h
    exact ⟨c1, c2, b1, d1, m1, h1, h2, h3, hl _ h4, hh ▸ h5⟩

/-- what changes only for a reason, in the loop -/
structure Soft (a b : St) : Prop where
  log : a.log <+: b.log
  wild : b.wild = a.wild
  pz : b.paused = false → a.paused = false ∨ b.resumes > 0
  rs : a.resumes ≤ b.resumes
  np : (∀ x, Ev.did (.pause x) ∉ b.log) → b.paused = a.paused ∧ b.resumes = a.resumes
  cbs : b.cbs = a.cbs ∨ Ev.did .close ∈ b.log
  shut : b.phase = .closing → a.phase = .closing ∨ Ev.did .close ∈ b.log
  input : b.rx.input = a.rx.input
  er : a.phase = .error → b.phase = .error
  rel : Ev.released ∈ b.log → Ev.released ∈ a.log ∨ b.phase = .error

theorem Soft.refl (a : St) : Soft a a :=
  ⟨List.prefix_refl _, rfl, .inl, Nat.le_refl _, fun _ => ⟨rfl, rfl⟩, .inl rfl, .inl, rfl, id, .inl⟩

theorem Soft.trans {a b c : St} (h : Soft a b) (g : Soft b c) : Soft a c where
  log := h.log.trans g.log
  wild := g.wild.trans h.wild
  pz hc := (g.pz hc).elim (fun hb => (h.pz hb).imp_right (fun x => Nat.lt_of_lt_of_le x g.rs)) .inr
  rs := Nat.le_trans h.rs g.rs
  np hc := by
    have h1 := h.np (fun x hx => hc x (g.log.subset hx))
    have h2 := g.np hc
    exact ⟨h2.1.trans h1.1, h2.2.trans h1.2⟩
  cbs := by
    rcases g.cbs with e | e
    · exact h.cbs.imp (fun e' => e.trans e') (fun hc => g.log.subset hc)
    · exact .inr e
  shut hc := by
    rcases g.shut hc with e | e
    · exact (h.shut e).imp_right (fun hc => g.log.subset hc)
    · exact .inr e
  input := g.input.trans h.input
  er ha := g.er (h.er ha)
  rel hc := (g.rel hc).elim (fun hb => (h.rel hb).imp_right g.er) .inr

theorem Base.soft {a b : St} (h : Base a b) (ha : a.phase ≠ .unknown) (hi : b.rx.input = a.rx.input) : Soft a b :=
  ⟨h.log, h.wild, h.pz, h.rs, h.np, h.cbs, fun hc => by
    rcases h.phase ha with e | ⟨e, _⟩
    · exact .inl (e ▸ hc)
    · exact .inr e, hi, h.er, h.rel⟩

/-- nothing can be taken from `buf` -/
def Stuck (st : St) (buf : Bytes) : Prop :=
  match st.phase with
  | .unknown => True
  | .uninit => buf = []
  | .versionSent => buf.length < 1536
  | .ackSent => buf.length < 1536
  | .opn => parse st.rx buf = .more
  | .closing => parse st.rx buf = .more
  | .error => True

theorem open_turn (s : Script) (app : App) (st : St) (k buf : Bytes) (hp : k ++ buf <+: s.all)
    (ho : st.phase = .opn ∨ st.phase = .closing) (hpos : Pos s st k) :
    ∃ st' n, openInput app st buf = (st', some n) ∧ Pos s st' (k ++ buf.take n) ∧ n ≤ buf.length ∧ Soft st st' ∧ st'.phase ≠ .error ∧
      (n = 0 → st' = st ∧ Stuck st buf) := by
  have hpos' : ∃ c1 c2 b1 d1 m1, s.chunks = c1 ++ c2 ∧ Dec.init.hear c1 = some (b1, d1, m1) ∧ k = s.v :: (s.h1 ++ (s.h2 ++ b1)) ∧ Link st.rx d1 ∧
      heard st.log <+: users m1 ∧ (st.cbs = true → st.phase = .opn → heard st.log = users m1) := by
    unfold Pos at hpos
    rcases ho with ho | ho
    · rw [ho] at hpos
      obtain ⟨c1, c2, b1, d1, m1, h1, h2, h3, h4, h5, h6⟩ := hpos
      exact ⟨c1, c2, b1, d1, m1, h1, h2, h3, h4, h5, fun h _ => h6 h⟩
    · rw [ho] at hpos
      obtain ⟨c1, c2, b1, d1, m1, h1, h2, h3, h4, h5⟩ := hpos
      exact ⟨c1, c2, b1, d1, m1, h1, h2, h3, h4, h5, fun _ h => by rw [ho] at h; nomatch h⟩
  obtain ⟨c1, c2, b1, d1, m1, h1, h2, h3, h4, h5, h6⟩ := hpos'
  have hs := s.hears
  rw [h1] at hs
  obtain ⟨x1, e1, n1, x2, m2, g1, g2, g3, g4⟩ := hear_split hs
  rw [h2] at g1
  simp only [Option.some.injEq, Prod.mk.injEq] at g1
  obtain ⟨rfl, rfl, rfl⟩ := g1
  have hbuf : buf <+: x2 := by
    have e : s.all = k ++ x2 := by rw [Script.all, g3, h3]; simp
    rw [e] at hp
    exact (List.prefix_append_right_inj k).mp hp
  have hstop : parse st.rx buf = .more → ∃ st' n, openInput app st buf = (st', some n) ∧ Pos s st' (k ++ buf.take n) ∧ n ≤ buf.length ∧ Soft st st' ∧
      st'.phase ≠ .error ∧ (n = 0 → st' = st ∧ Stuck st buf) := by
    intro hm
    refine ⟨st, 0, by unfold openInput; rw [hm], by simpa using hpos, Nat.zero_le _, Soft.refl st, ?_, fun _ => ⟨rfl, ?_⟩⟩
    · rcases ho with ho | ho <;> rw [ho] <;> nofun
    · unfold Stuck
      rcases ho with ho | ho <;> rw [ho] <;> exact hm
  cases c2 with
  | nil =>
    simp only [Dec.hear, Option.some.injEq, Prod.mk.injEq] at g2
    obtain ⟨rfl, rfl, rfl⟩ := g2
    have : buf = [] := List.prefix_nil.mp hbuf
    subst this
    exact hstop rfl
  | cons c l =>
    obtain ⟨e1, n1, y2, n2, t1, t2, t3, t4⟩ := hear_cons g2
    have hf : c.Fits := s.fits c (by rw [h1]; simp)
    by_cases hlen : buf.length < (d1.wire c).length
    · refine hstop ?_
      have hpw : buf <+: d1.wire c := List.prefix_of_prefix_length_le hbuf (t3 ▸ List.prefix_append _ _) (by omega)
      cases hb : d1.begin c with
      | none => unfold Dec.take at t1; rw [hb] at t1; nomatch t1
      | some sm =>
        have hd : c.data.length = min d1.size (sm.len - sm.part.length) := by
          by_cases hd : c.data.length = min d1.size (sm.len - sm.part.length)
          · exact hd
          · unfold Dec.take at t1; rw [hb] at t1; simp only [Option.bind_some] at t1; rw [if_pos hd] at t1; nomatch t1
        exact parse_part st.rx d1 h4 c hf sm hb hd buf hpw hlen
    · obtain ⟨rest, rfl⟩ : d1.wire c <+: buf := List.prefix_of_prefix_length_le (t3 ▸ List.prefix_append _ _) hbuf (by omega)
      obtain ⟨st', p1, p2, p3, p4, p5⟩ := open_take app st d1 h4 c hf e1 n1 t1 rest
      have hk : st.phase ≠ .unknown := hpos.known
      refine ⟨st', _, p1, ?_, by simp, p3.soft hk p4, ?_, fun h0 => ?_⟩
      · rw [List.take_left]
        have hsn := hear_snoc h2 t1
        have hpre : heard st'.log <+: users (m1 ++ n1) := by
          rw [p5, users_append]
          unfold told
          by_cases ht : st.cbs = true ∧ st.phase.rank < 5
          · rw [if_pos ht]
            have hop : st.phase = .opn := by
              rcases ho with ho | ho
              · exact ho
              · rw [ho] at ht; exact absurd ht.2 (by decide)
            rw [h6 ht.1 hop]
            exact List.prefix_refl _
          · rw [if_neg ht, List.append_nil]
            exact h5.trans (List.prefix_append _ _)
        have hc : s.chunks = (c1 ++ [c]) ++ l := by rw [h1]; simp
        have hkk : k ++ d1.wire c = s.v :: (s.h1 ++ (s.h2 ++ (b1 ++ d1.wire c))) := by rw [h3]; simp
        unfold Pos
        rcases p3.talk ho with ho' | ho'
        · rw [ho']
          refine ⟨c1 ++ [c], l, _, e1, m1 ++ n1, hc, hsn, hkk, p2, hpre, fun hb => ?_⟩
          have hcb : st.cbs = true := by
            cases hx : st.cbs with
            | true => rfl
            | false => rw [p3.off hx] at hb; exact hb
          have hop : st.phase = .opn := by
            rcases ho with ho | ho
            · exact ho
            · rw [p3.shut ho] at ho'; nomatch ho'
          rw [p5, told, if_pos ⟨hcb, by rw [hop]; decide⟩, h6 hcb hop, users_append]
        · rw [ho']
          exact ⟨c1 ++ [c], l, _, e1, m1 ++ n1, hc, hsn, hkk, p2, hpre⟩
      · rcases p3.talk ho with h | h <;> rw [h] <;> nofun
      · exfalso
        have : 0 < (d1.wire c).length := by
          rw [wire_length, List.length_append]
          have : 0 < c.id.length := by unfold Chunk.id; split; · simp
                                       · split <;> simp
          omega
        omega

theorem scheduleWrite_phase (st : St) : (scheduleWrite st).phase = st.phase := by
  unfold scheduleWrite
  split <;> rfl

theorem uninit_turn (s : Script) (app : App) (st : St) (k buf : Bytes) (hp : k ++ buf <+: s.all) (hne : buf ≠ [])
    (ho : st.phase = .uninit) (hpos : Pos s st k) :
    ∃ st' n, uninitInput app st buf = (st', some n) ∧ Pos s st' (k ++ buf.take n) ∧ n ≤ buf.length ∧ Soft st st' ∧ st'.phase ≠ .error ∧
      (n = 0 → st' = st ∧ Stuck st buf) := by
  unfold Pos at hpos
  rw [ho] at hpos
  obtain ⟨rfl, hl, hh⟩ := hpos
  cases buf with
  | nil => exact absurd rfl hne
  | cons b tl =>
    obtain ⟨rfl, _⟩ := List.cons_prefix_cons.mp (show b :: tl <+: s.v :: _ from hp)
    have hv := s.hv
    have hok : ¬ (s.v < 3 ∨ s.v ≥ 32) := by
      rintro (h | h)
      · have h : s.v.toNat < 3 := UInt8.lt_iff_toNat_lt.mp h
        omega
      · have h : 32 ≤ s.v.toNat := UInt8.le_iff_toNat_le.mp h
        omega
    have hc : Calm st (if st.server then handshake01 app st else st) := by
      split
      · unfold handshake01
        exact (tx_calm st _ st.scheduled st.trimPending).trans (scheduleWrite_calm _)
      · exact Calm.refl st
    have hph : (if st.server then handshake01 app st else st).phase = st.phase := by
      split
      · unfold handshake01; rw [scheduleWrite_phase]
      · rfl
    refine ⟨_, 1, by unfold uninitInput; simp only [List.getD_cons_zero]; rw [if_neg hok], ?_, by simp, ?_, by simp, by simp⟩
    · show Pos s _ [s.v]
      unfold Pos
      exact ⟨rfl, by rw [hc.rx]; exact hl, by rw [← hh]; exact hc.heard⟩
    · exact ⟨hc.log, hc.wild, hc.pz, hc.rs, hc.np, hc.cbs, by nofun, by rw [hc.rx], fun h => by (rw [ho] at h; nomatch h),
        fun h => (hc.rel h).elim .inl fun e => nomatch (ho.symm.trans (hph.symm.trans e) : Phase.uninit = Phase.error)⟩

theorem version_turn (s : Script) (app : App) (st : St) (k buf : Bytes) (hp : k ++ buf <+: s.all)
    (ho : st.phase = .versionSent) (hpos : Pos s st k) :
    ∃ st' n, versionInput app st buf = (st', some n) ∧ Pos s st' (k ++ buf.take n) ∧ n ≤ buf.length ∧ Soft st st' ∧ st'.phase ≠ .error ∧
      (n = 0 → st' = st ∧ Stuck st buf) := by
  have hpos0 := hpos
  unfold Pos at hpos
  rw [ho] at hpos
  obtain ⟨rfl, hl, hh⟩ := hpos
  unfold versionInput
  by_cases hlen : buf.length < 1536
  · rw [if_pos hlen]
    refine ⟨st, 0, rfl, by simpa using hpos0, Nat.zero_le _, Soft.refl st, by rw [ho]; nofun, fun _ => ⟨rfl, ?_⟩⟩
    unfold Stuck; rw [ho]; exact hlen
  · rw [if_neg hlen]
    have hc := (tx_calm st { st.tx with out := st.tx.out ++ (buf.take 4 ++ u32 (app.stamp st.log) ++ (buf.take 1536).drop 8) } st.scheduled st.trimPending).trans
      (scheduleWrite_calm _)
    have hph := scheduleWrite_phase { st with tx := { st.tx with out := st.tx.out ++ (buf.take 4 ++ u32 (app.stamp st.log) ++ (buf.take 1536).drop 8) } }
    refine ⟨_, 1536, rfl, ?_, by omega, ?_, by simp, by simp⟩
    · have hbuf : buf <+: s.h1 ++ (s.h2 ++ s.wire) := (List.cons_prefix_cons.mp (show s.v :: buf <+: s.v :: _ from hp)).2
      have e : buf.take 1536 = s.h1 := by
        have h1 : buf.take 1536 <+: s.h1 :=
          List.prefix_of_prefix_length_le ((List.take_prefix _ _).trans hbuf) (List.prefix_append _ _) (by rw [List.length_take, s.l1]; omega)
        exact h1.eq_of_length (by rw [List.length_take, s.l1]; omega)
      have hl2 := (fun x (e : x = st.rx) => (by rw [e]; exact hl : Link x Dec.init)) _ hc.rx
      refine (show Pos s _ _ from ⟨by rw [e]; rfl, hl2, by rw [← hh]; exact hc.heard⟩)
    · exact ⟨hc.log, hc.wild, hc.pz, hc.rs, hc.np, hc.cbs, by nofun, by rw [hc.rx], fun h => by (rw [ho] at h; nomatch h),
        fun h => (hc.rel h).elim .inl fun e => nomatch (ho.symm.trans (hph.symm.trans e) : Phase.versionSent = Phase.error)⟩

theorem ack_turn (s : Script) (app : App) (st : St) (k buf : Bytes) (hp : k ++ buf <+: s.all)
    (ho : st.phase = .ackSent) (hpos : Pos s st k) :
    ∃ st' n, ackInput app st buf = (st', some n) ∧ Pos s st' (k ++ buf.take n) ∧ n ≤ buf.length ∧ Soft st st' ∧ st'.phase ≠ .error ∧
      (n = 0 → st' = st ∧ Stuck st buf) := by
  have hpos0 := hpos
  unfold Pos at hpos
  rw [ho] at hpos
  obtain ⟨rfl, hl, hh⟩ := hpos
  unfold ackInput
  by_cases hlen : buf.length < 1536
  · rw [if_pos hlen]
    refine ⟨st, 0, rfl, by simpa using hpos0, Nat.zero_le _, Soft.refl st, by rw [ho]; nofun, fun _ => ⟨rfl, ?_⟩⟩
    unfold Stuck; rw [ho]; exact hlen
  · rw [if_neg hlen]
    simp only
    generalize refreshWindow (if st.tx.size ≠ 128 then setChunk st.tx (app.now st.log) else st.tx) (app.now st.log) = t
    have hc : Calm { st with phase := .opn, tx := t } (scheduleWrite { st with phase := .opn, tx := t }) := scheduleWrite_calm _
    have hc2 : Calm { st with phase := .opn, tx := t } (if (scheduleWrite { st with phase := .opn, tx := t }).cbs then
        callback app (scheduleWrite { st with phase := .opn, tx := t }) .opened else scheduleWrite { st with phase := .opn, tx := t }) := by
      split
      · exact hc.trans (callback_calm app _ _ rfl)
      · exact hc
    refine ⟨_, 1536, rfl, ?_, by omega, ?_, ?_, by simp⟩
    · have hbuf : buf <+: s.h2 ++ s.wire := by
        have : (s.v :: s.h1) ++ buf <+: (s.v :: s.h1) ++ (s.h2 ++ s.wire) := hp
        exact (List.prefix_append_right_inj _).mp this
      have e : buf.take 1536 = s.h2 := by
        have h1 : buf.take 1536 <+: s.h2 :=
          List.prefix_of_prefix_length_le ((List.take_prefix _ _).trans hbuf) (List.prefix_append _ _) (by rw [List.length_take, s.l2]; omega)
        exact h1.eq_of_length (by rw [List.length_take, s.l2]; omega)
      rw [e]
      have h0 : Pos s { st with phase := .opn, tx := t } (s.v :: s.h1 ++ s.h2) := by
        unfold Pos
        exact ⟨[], s.chunks, [], Dec.init, [], rfl, rfl, by simp, hl, by rw [hh]; exact List.nil_prefix, fun _ => by rw [hh]; rfl⟩
      exact h0.calm hc2.toBase (fun d h => by rw [hc2.rx]; exact h) hc2.heard
    · refine ⟨hc2.log, hc2.wild, hc2.pz, hc2.rs, hc2.np, hc2.cbs, fun h => ?_, by rw [hc2.rx], fun h => by (rw [ho] at h; nomatch h), hc2.rel⟩
      rcases hc2.phase (by simp) with e | ⟨e, _⟩
      · rw [e] at h; nomatch h
      · exact .inr e
    · rcases hc2.talk (.inl rfl) with e | e <;> rw [e] <;> nofun

/-- **A turn of the loop.** -/
theorem input_turn (s : Script) (app : App) (st : St) (k buf : Bytes) (hp : k ++ buf <+: s.all) (hne : buf ≠ []) (he : st.phase ≠ .error) (hpos : Pos s st k) :
    ∃ st' n, onInput app st buf = (st', some n) ∧ Pos s st' (k ++ buf.take n) ∧ n ≤ buf.length ∧ Soft st st' ∧ st'.phase ≠ .error ∧
      (n = 0 → st' = st ∧ Stuck st buf) := by
  unfold onInput
  cases ho : st.phase with
  | unknown => exact absurd ho hpos.known
  | error => exact absurd ho he
  | uninit => exact uninit_turn s app st k buf hp hne ho hpos
  | versionSent => exact version_turn s app st k buf hp ho hpos
  | ackSent => exact ack_turn s app st k buf hp ho hpos
  | opn => exact open_turn s app st k buf hp (.inl ho) hpos
  | closing => exact open_turn s app st k buf hp (.inr ho) hpos

theorem stuck_nil (st : St) : Stuck st [] := by
  unfold Stuck
  split <;> simp [parse]

/-- **The loop.** -/
theorem loop_all (s : Script) (app : App) (fuel : Nat) : ∀ (st : St) (k buf : Bytes), buf.length ≤ fuel → k ++ buf <+: s.all → st.phase ≠ .error → Pos s st k →
    ∃ st' j rest, loop app fuel st buf = (st', some rest) ∧ buf = j ++ rest ∧ Pos s st' (k ++ j) ∧ Soft st st' ∧ st'.phase ≠ .error ∧
      (st'.paused = true ∨ Stuck st' rest) := by
  induction fuel with
  | zero =>
    intro st k buf hf hp he hpos
    have : buf = [] := List.length_eq_zero_iff.mp (by omega)
    subst this
    exact ⟨st, [], [], rfl, rfl, by simpa using hpos, Soft.refl st, he, .inr (stuck_nil st)⟩
  | succ fuel ih =>
    intro st k buf hf hp he hpos
    unfold loop
    by_cases hstop : buf = [] ∨ st.paused = true
    · rw [if_pos hstop]
      refine ⟨st, [], buf, rfl, rfl, by simpa using hpos, Soft.refl st, he, ?_⟩
      rcases hstop with rfl | h
      · exact .inr (stuck_nil st)
      · exact .inl h
    · rw [if_neg hstop]
      obtain ⟨st', n, g1, g2, g3, g4, g5, g6⟩ := input_turn s app st k buf hp (fun h => hstop (.inl h)) he hpos
      rw [g1]
      simp only
      by_cases hn : n = 0
      · rw [if_pos hn]
        obtain ⟨rfl, hs⟩ := g6 hn
        exact ⟨st', [], buf, rfl, rfl, by simpa [hn] using g2, g4, g5, .inr hs⟩
      · rw [if_neg hn]
        obtain ⟨st2, j, rest, q1, q2, q3, q4, q5, q6⟩ := ih st' (k ++ buf.take n) (buf.drop n) (by rw [List.length_drop]; omega)
          (by rw [List.append_assoc, List.take_append_drop]; exact hp) g5 g2
        refine ⟨st2, buf.take n ++ j, rest, q1, ?_, by rw [← List.append_assoc]; exact q3, g4.trans q4, q5, q6⟩
        rw [List.append_assoc, ← q2, List.take_append_drop]

end Rtmfp.Rtmp
