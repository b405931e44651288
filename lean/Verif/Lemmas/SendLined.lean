import Verif.Lemmas.SendFate
import Verif.Lemmas.SendEvolve
import Verif.Lemmas.SendAssemble
import Verif.Props.C12_Fragment

/-! # The order of the send queue, and where transmission resumes -/

namespace Rtmfp
namespace SS

/-- Names in the queue are distinct and positive; nothing waits before the fragment transmission resumes from; fragments leave room for the startup options. -/
structure Lined (f : SF) : Prop where
  names : f.queue.Pairwise (fun a b => a.name ≠ b.name)
  pos : ∀ x ∈ f.queue, 0 < x.name
  resume : f.queue.Pairwise (fun a b => b.name = f.lastName → b.inFlight = true → a.inFlight = true)
  room : ∀ x ∈ f.queue, x.data.length + f.options.length ≤ 1161
  opts : f.options.length ≤ 529

def LinedAll (s t : SS) : Prop := ∀ j, Lined (s.flow j) → Lined (t.flow j)

theorem LinedAll.refl (s : SS) : LinedAll s s := fun _ h => h
theorem LinedAll.trans {s t u : SS} (a : LinedAll s t) (b : LinedAll t u) : LinedAll s u := fun j h => b j (a j h)

theorem lined_set {s : SS} {i : Nat} {f : SF} (h : Lined (s.flow i) → Lined f) : LinedAll s (s.setFlow i f) := by
  intro j
  by_cases e : j = i
  · subst e; rw [setFlow_same]; exact h
  · rw [setFlow_other _ _ e]; exact fun h => h

/-- fragments are removed, options perhaps dropped -/
theorem lined_sub {f g : SF} (h : Lined f) (h1 : g.queue.Sublist f.queue) (h2 : g.lastName = f.lastName) (h3 : g.options.length ≤ f.options.length) : Lined g := by
  refine ⟨h.names.sublist h1, fun x hx => h.pos x (h1.subset hx), by rw [h2]; exact h.resume.sublist h1, fun x hx => ?_, Nat.le_trans h3 h.opts⟩
  have := h.room x (h1.subset hx)
  omega

theorem lined_same {f g : SF} (h : Lined f) (h1 : g.queue = f.queue) (h2 : g.lastName = f.lastName) (h3 : g.options = f.options) : Lined g :=
  lined_sub h (by rw [h1]; exact List.Sublist.refl _) h2 (by rw [h3]; exact Nat.le_refl _)

/-- transmission begins from the front again -/
theorem lined_front {f g : SF} (h : Lined f) (h1 : Alikes f.queue g.queue) (h2 : g.lastName = 0) (h3 : g.options = f.options) : Lined g := by
  have hpos : ∀ x ∈ g.queue, 0 < x.name := by
    intro x hx; obtain ⟨y, hy, e⟩ := h1.mem hx; rw [e.name]; exact h.pos y hy
  refine ⟨?_, hpos, ?_, ?_, by rw [h3]; exact h.opts⟩
  · have : (f.queue.map SFrag.name).Pairwise (· ≠ ·) := List.pairwise_map.mpr h.names
    rw [← h1.map_eq SFrag.name (fun _ _ e => e.name)] at this
    exact List.pairwise_map.mp this
  · rw [h2]
    refine List.Pairwise.imp_of_mem (R := fun _ _ => True) ?_ (List.pairwise_of_forall (fun _ _ => trivial))
    intro a b _ hb _ e
    have := hpos b hb; omega
  · intro x hx; obtain ⟨y, hy, e⟩ := h1.mem hx; rw [e.data, h3]; exact h.room y hy

/-- only counts of a fragment change -/
theorem lined_mod {f g : SF} (h : Lined f) (u : SFrag → SFrag) (hu : ∀ x, (u x).name = x.name ∧ (u x).inFlight = x.inFlight ∧ (u x).data = x.data)
    (h1 : g.queue = f.queue.map u) (h2 : g.lastName = f.lastName) (h3 : g.options = f.options) : Lined g := by
  refine ⟨?_, ?_, ?_, ?_, by rw [h3]; exact h.opts⟩
  · rw [h1, List.pairwise_map]
    exact h.names.imp fun {a b} k => by rw [(hu a).1, (hu b).1]; exact k
  · rw [h1]; intro x hx; obtain ⟨y, hy, rfl⟩ := List.mem_map.mp hx; rw [(hu y).1]; exact h.pos y hy
  · rw [h1, List.pairwise_map, h2]
    exact h.resume.imp fun {a b} k => by rw [(hu b).1, (hu b).2.1, (hu a).2.1]; exact k
  · rw [h1, h3]; intro x hx; obtain ⟨y, hy, rfl⟩ := List.mem_map.mp hx; rw [(hu y).2.2]; exact h.room y hy

/-- fragments are added at the end -/
theorem lined_queue {s : SS} {i : Nat} {fs : List (Fra × Bytes)} {now a b : Int} {rid : Nat} {names : Nat → Nat}
    (hn : GoodNames (s.flow i).queue names) (hr : ∀ x ∈ fs, x.2.length + (s.flow i).options.length ≤ 1161) :
    LinedAll s (s.queueFrags i fs now a b rid names) := by
  intro j h
  by_cases e : j = i
  · subst e
    rw [queueFrags_flow]
    have hnew := number_new rid names fs (s.flow j).nextSn
    obtain ⟨h1, h2, _⟩ := number_eq rid names fs (s.flow j).nextSn
    have hdis : ∀ x ∈ (s.flow j).queue, ∀ y ∈ number rid names (s.flow j).nextSn fs, x.name ≠ y.name := by
      intro x hx y hy; rw [(hnew y hy).2.2.2.2.1]; exact hn.2.2 x hx _
    refine ⟨?_, ?_, ?_, ?_, h.opts⟩
    · refine List.pairwise_append.mpr ⟨h.names, ?_, hdis⟩
      have : (number rid names (s.flow j).nextSn fs).Pairwise (fun a b => a.sn ≠ b.sn) := by
        rw [← List.pairwise_map (f := SFrag.sn) (R := (· ≠ ·)), h2]; exact List.nodup_range'
      refine List.Pairwise.imp_of_mem ?_ this
      intro a b ha hb k e
      rw [(hnew a ha).2.2.2.2.1, (hnew b hb).2.2.2.2.1] at e
      exact k (hn.1 _ _ e)
    · intro x hx
      rcases List.mem_append.mp hx with hx | hx
      · exact h.pos x hx
      · rw [(hnew x hx).2.2.2.2.1]; exact hn.2.1 _
    · refine List.pairwise_append.mpr ⟨h.resume, ?_, fun a _ b hb _ k => by rw [(hnew b hb).1] at k; cases k⟩
      refine List.Pairwise.imp_of_mem (R := fun _ _ => True) ?_ (List.pairwise_of_forall (fun _ _ => trivial))
      intro a b _ hb _ _ k
      rw [(hnew b hb).1] at k; cases k
    · intro x hx
      rcases List.mem_append.mp hx with hx | hx
      · exact h.room x hx
      · have : (x.fra, x.data) ∈ fs := by rw [← h1]; exact List.mem_map.mpr ⟨x, hx, rfl⟩
        exact hr _ this
  · rw [queueFrags_other _ _ _ _ _ _ _ _ e]; exact h

/-! ## one thing happens -/

theorem gotoClosed_lined (s : SS) (i : Nat) : LinedAll s (s.gotoClosed i) := by
  intro j h
  by_cases e : j = i
  · subst e
    rw [gotoClosed_flow]
    split
    · exact h
    · exact lined_same h rfl rfl rfl
  · rw [gotoClosed_other _ _ e]; exact h

theorem closeState_lined {s : SS} {i : Nat} (now : Int) (rid : Nat) {names : Nat → Nat} (hn : GoodNames (s.flow i).queue names) :
    LinedAll s (s.closeState i now rid names) := by
  rw [closeState]
  split
  · split
    · have hfin : LinedAll s (s.addFin i now rid names) := by
        intro j h
        rcases addFin_cases s i now rid names with ⟨_, e⟩ | ⟨_, e⟩ <;> rw [e]
        · exact h
        · by_cases e : j = i
          · subst e
            exact lined_queue hn (by intro x hx; simp at hx; subst hx; have := h.opts; simp; omega) j h
          · rw [queueFrags_other _ _ _ _ _ _ _ _ e]; exact h
      exact hfin.trans (lined_set (fun h => lined_same h rfl rfl rfl))
    · exact gotoClosed_lined s i
  · exact LinedAll.refl s

theorem close_lined {s : SS} {i : Nat} (now : Int) (rid : Nat) {names : Nat → Nat} (hn : GoodNames (s.flow i).queue names) :
    LinedAll s (s.close i now rid names) := by
  rw [close]
  have h0 : LinedAll s (s.setFlow i { s.flow i with onException := false, baseOpen := false }) := lined_set (fun h => lined_same h rfl rfl rfl)
  have h1 := h0.trans (closeState_lined now rid (by rw [setFlow_same]; exact hn) (names := names))
  dsimp only
  split
  · exact h1.trans (gotoClosed_lined _ _)
  · exact h1

theorem exceptionReport_lined {s : SS} {i : Nat} (now : Int) (rid : Nat) {names : Nat → Nat} (hn : GoodNames (s.flow i).queue names) :
    LinedAll s (s.onExceptionReport i now rid names).1 := by
  rw [onExceptionReport]
  dsimp only
  have h0 : LinedAll s (s.setFlow i { s.flow i with exception := true }) := lined_set (fun h => lined_same h rfl rfl rfl)
  exact h0.trans (close_lined now rid (by rw [setFlow_same]; exact hn))

theorem didClose_lined (s : SS) (i : Nat) (now : Int) (rid : Nat) (names : Nat → Nat) : LinedAll s (s.onSessionDidClose i now rid names).1 := by
  intro j h
  have hev := didClose_evolves s i now rid names j
  have ho : ((s.onSessionDidClose i now rid names).1.flow j).options = (s.flow j).options := hev.opts.resolve_right (by simp)
  rw [onSessionDidClose] at ho ⊢
  by_cases e : j = i
  · subst e
    rw [setFlow_same] at ho ⊢
    refine ⟨List.Pairwise.nil, by simp, List.Pairwise.nil, by simp, ?_⟩
    rw [ho]; exact h.opts
  · rw [setFlow_other _ _ e, onExceptionReport]
    show Lined ((SS.close _ i now rid names).flow j)
    rw [close_other _ _ _ _ _ e, setFlow_other _ _ e]; exact h

theorem closeFlows_lined (now : Int) (l : List Nat) : ∀ s : SS, LinedAll s (closeFlows now s l).1 := by
  induction l with
  | nil => intro s; exact LinedAll.refl s
  | cons i l ih => intro s; rw [closeFlows]; exact (didClose_lined s i now 0 _).trans (ih _)

theorem trim_lined (s : SS) (i : Nat) (now : Int) : LinedAll s (s.trim i now).1 := by
  rw [trim]
  obtain ⟨k, e, _⟩ := trimLoop_queue now (s.flow i).queue s.receipts
  exact lined_set (s := s) (i := i) (f := { s.flow i with queue := (trimLoop now s.receipts (s.flow i).queue).2.1 })
    (fun h => lined_sub h (by show ((trimLoop now s.receipts (s.flow i).queue).2.1).Sublist _; rw [e]; exact List.drop_sublist k _) rfl (Nat.le_refl _))

/-- The loop: nothing is sent, or the last fragment sent has only fragments in flight before it. -/
theorem fill_resume (c : Ctx) (q : List SFrag) : ∀ s : Fill, q.Pairwise (fun a b => a.name ≠ b.name) →
    ((fill c s q).1.lastName = s.lastName ∧ (fill c s q).2 = q ∧ (fill c s q).1.first = s.first ∧ (fill c s q).1.chunks = s.chunks) ∨
    ((fill c s q).1.first = false ∧ (fill c s q).2.Pairwise (fun a b => b.name = (fill c s q).1.lastName → b.inFlight = true → a.inFlight = true) ∧
      (∃ x ∈ (fill c s q).2, x.name = (fill c s q).1.lastName ∧ x.inFlight = true ∧
        ((fill c s q).1.chunks.getLast?.map (·.sn) = some x.sn))) := by
  induction q with
  | nil => intro s _; exact Or.inl ⟨rfl, rfl, rfl, rfl⟩
  | cons frag rest ih =>
    intro s hn
    rw [fill]
    by_cases h1 : s.outstanding ≥ c.rxBuffer
    · rw [if_pos h1]; exact Or.inl ⟨rfl, rfl, rfl, rfl⟩
    rw [if_neg h1]
    by_cases h2 : frag.inFlight = true
    · rw [if_pos h2]
      rcases ih s hn.of_cons with ⟨a, b, d, f⟩ | ⟨a, b, x, hx, k⟩
      · refine Or.inl ⟨a, ?_, d, f⟩
        show frag :: (fill c s rest).2 = _
        rw [b]
      · exact Or.inr ⟨a, List.pairwise_cons.mpr ⟨fun _ _ _ _ => h2, b⟩, x, List.mem_cons_of_mem _ hx, k⟩
    rw [if_neg h2]
    dsimp only
    split
    · exact Or.inl ⟨rfl, rfl, rfl, rfl⟩
    · right
      generalize hs : (Fill.mk _ _ _ _ _ _ _ _ _ _) = t
      generalize hz : sentFrag c frag _ _ = z
      have hz1 : z.inFlight = true := by rw [← hz]; rfl
      have hz2 : z.name = frag.name := by rw [← hz]; rfl
      have hz3 : z.sn = frag.sn := by rw [← hz]; rfl
      have ht : t.lastName = frag.name := by rw [← hs]
      rcases ih t hn.of_cons with ⟨a, b, d, f⟩ | ⟨a, b, x, hx, k⟩
      · refine ⟨by rw [d, ← hs], List.pairwise_cons.mpr ⟨fun _ _ _ _ => hz1, ?_⟩, z, by simp, by rw [a, ht, hz2], hz1, ?_⟩
        · rw [a, ht, b]
          refine List.Pairwise.imp_of_mem (R := fun _ _ => True) ?_ (List.pairwise_of_forall (fun _ _ => trivial))
          intro y w _ hw _ e
          exact absurd e.symm (List.rel_of_pairwise_cons hn hw)
        · rw [f, ← hs, hz3]; simp [chunkFor]
      · exact ⟨a, List.pairwise_cons.mpr ⟨fun _ _ _ _ => hz1, b⟩, x, List.mem_cons_of_mem _ hx, k⟩

/-- what is passed over at the beginning is in flight -/
theorem startAt_flight {f : SF} (h : Lined f) : ∀ x ∈ (startAt f.lastName f.queue).1, x.inFlight = true := by
  rw [startAt]
  split
  · rename_i hany
    intro x hx
    obtain ⟨y, hy, hy2⟩ := List.any_eq_true.mp hany
    simp only [Bool.and_eq_true, decide_eq_true_eq] at hy2
    have hsplit := List.takeWhile_append_dropWhile (p := fun f_1 : SFrag => decide (f_1.name ≠ f.lastName)) (l := f.queue)
    have hyd : y ∈ f.queue.dropWhile (fun f_1 : SFrag => decide (f_1.name ≠ f.lastName)) := by
      rw [← hsplit] at hy
      rcases List.mem_append.mp hy with hy | hy
      · have := List.all_eq_true.mp List.all_takeWhile y hy
        simp [hy2.1] at this
      · exact hy
    have hr := h.resume
    rw [← hsplit] at hr
    exact (List.pairwise_append.mp hr).2.2 x hx y hyd hy2.1 hy2.2
  · simp

theorem assembleData_lined (s : SS) (i : Nat) (p : PA) (hp : p.Inv) (pri : Nat) (now : Int) (gone : Bool) : LinedAll s (s.assembleData i p pri now gone).s := by
  rw [assembleData]
  split
  · exact LinedAll.refl s
  split
  · exact LinedAll.refl s
  dsimp only
  refine (trim_lined s i now).trans ?_
  generalize (s.trim i now).1 = t
  have hd : Lined (t.flow i) → Lined (dropOptions (t.flow i) gone) := by
    intro h
    rw [dropOptions]
    split
    · exact lined_sub h (List.Sublist.refl _) rfl (Nat.zero_le _)
    · exact h
  generalize dropOptions (t.flow i) gone = f at *
  have hst := startAt_append f.lastName f.queue
  have hfl := fun h => startAt_flight (hd h)
  generalize hq0 : (startAt f.lastName f.queue).1 = q0 at *
  generalize hq1 : (startAt f.lastName f.queue).2 = q1 at *
  generalize (Ctx.mk _ _ _ _ _ _ _ _) = c at *
  generalize hx : (Fill.mk _ _ _ _ _ _ _ _ _ _) = x at *
  obtain ⟨fs, ps, g3, _⟩ := fill_puts c q1 x (by rw [← hx]; exact hp)
  have g4 : Alikes f.queue (q0 ++ (fill c x q1).2) := by
    rw [← hst]; exact (Alikes.refl q0).append g3.alikes
  have hxl : x.lastName = f.lastName := by rw [← hx]
  refine lined_set (s := t) (i := i)
    (f := { f with outstanding := (fill c x q1).1.outstanding, lastName := (fill c x q1).1.lastName, queue := q0 ++ (fill c x q1).2 }) ?_
  intro h
  have hF := hd h
  have hn1 : q1.Pairwise (fun a b => a.name ≠ b.name) := by
    have := hF.names; rw [← hst] at this; exact (List.pairwise_append.mp this).2.1
  rcases fill_resume c q1 x hn1 with ⟨a, b, _⟩ | ⟨_, b, _⟩
  · exact lined_same hF (by rw [b]; exact hst) (a.trans hxl) rfl
  · refine ⟨?_, ?_, ?_, ?_, hF.opts⟩
    · have : (f.queue.map SFrag.name).Pairwise (· ≠ ·) := List.pairwise_map.mpr hF.names
      rw [← g4.map_eq SFrag.name (fun _ _ e => e.name)] at this
      exact List.pairwise_map.mp this
    · intro x hx; obtain ⟨y, hy, e⟩ := g4.mem hx; rw [e.name]; exact hF.pos y hy
    · refine List.pairwise_append.mpr ⟨?_, b, fun a ha _ _ _ _ => hfl h a ha⟩
      refine List.Pairwise.imp_of_mem (R := fun _ _ => True) ?_ (List.pairwise_of_forall (fun _ _ => trivial))
      intro a b ha _ _ _ _
      exact hfl h a ha
    · intro x hx; obtain ⟨y, hy, e⟩ := g4.mem hx; rw [e.data]; exact hF.room y hy

theorem ackRange_sublist (i lo hi : Nat) (q : List SFrag) : ∀ a : AckAcc, ((ackRange i lo hi a q).2.1 ++ (ackRange i lo hi a q).2.2).Sublist q := by
  induction q with
  | nil => intro a; simp [ackRange]
  | cons f q ih =>
    intro a
    rw [ackRange]
    split
    · exact (ih a).cons_cons f
    split
    · exact List.Sublist.refl _
    · exact (ih _).cons f

theorem ackRanges_sublist (i : Nat) (rs : List (Nat × Nat)) : ∀ (q : List SFrag) (a : AckAcc), (ackRanges i rs a q).2.Sublist q := by
  induction rs with
  | nil => intro q a; exact List.Sublist.refl _
  | cons r rs ih =>
    intro q a
    obtain ⟨lo, hi⟩ := r
    rw [ackRanges]
    exact ((List.Sublist.refl _).append (ih _ _)).trans (ackRange_sublist i lo hi q a)

theorem onAck_lined (s : SS) (i b : Nat) (rs : List (Nat × Nat)) : LinedAll s (s.onAck i b rs).1 := by
  rw [onAck]
  dsimp only
  split
  · exact LinedAll.refl s
  · have hsub := ackRanges_sublist i rs (s.flow i).queue ⟨s.receipts, (s.flow i).outstanding, s.outs, s.outSum, s.maxTsnAck, []⟩
    generalize ackRanges i rs _ _ = x at *
    generalize (if (s.flow i).options = [] then (s.flow i).assoc else false) = as
    refine lined_set (s := s) (i := i) (f := lingerIf _) (fun h => ?_)
    rw [lingerIf]
    split <;> exact lined_sub h hsub rfl (Nat.zero_le _)

theorem lose_lined (s : SS) (o : OutRef) : LinedAll s (lose s o) := by
  rw [lose]
  exact lined_set (fun h => lined_front h (modFrag_alikes (s.flow o.flow).queue o.sn _ (fun x => by constructor <;> rfl)) rfl rfl)

theorem nakFrag_lined (s : SS) (o : OutRef) : LinedAll s (nakFrag s o) := by
  rw [nakFrag]
  exact lined_set (fun h => lined_mod h (fun f => if f.sn = o.sn then { f with nak := f.nak + 1 } else f) (fun x => by split <;> exact ⟨rfl, rfl, rfl⟩) rfl rfl rfl)

theorem loseAll_lined (l : List OutRef) : ∀ s : SS, LinedAll s (l.foldl lose s) := by
  induction l with
  | nil => intro s; exact LinedAll.refl s
  | cons o l ih => intro s; exact (lose_lined s o).trans (ih _)

theorem nakLoop_lined (l : List OutRef) : ∀ (s : SS) (k : Nak), LinedAll s (nakLoop s k l).1 := by
  induction l with
  | nil => intro s k; exact LinedAll.refl s
  | cons o l ih =>
    intro s k
    rw [nakLoop]
    split
    · exact LinedAll.refl s
    dsimp only
    split
    · exact (nakFrag_lined s o).trans (ih _ _)
    · split
      · refine ((nakFrag_lined s o).trans (lose_lined _ o)).trans ?_
        intro j h
        exact ih _ _ j h
      · exact (nakFrag_lined s o).trans (ih _ _)

theorem step_lined {ops : List Op} {s t : SS} {op : Op} {es : List Ev} (ha : Allowed ops s op) (hs : step s op = some (t, es)) : LinedAll s t := by
  cases op with
  | openFlow i m a p =>
    rw [step] at hs
    simp only [Option.some.injEq, Prod.mk.injEq] at hs
    rw [← hs.1, openFlow]
    by_cases hm : m.length > MAX_METADATA_LENGTH
    · rw [if_pos hm]; exact LinedAll.refl s
    · rw [if_neg hm]
      refine lined_set (fun _ => ⟨List.Pairwise.nil, by simp [SF.init], List.Pairwise.nil, by simp [SF.init], ?_⟩)
      exact (options_length m a (by simpa [MAX_METADATA_LENGTH] using hm) ha.2.2).2
  | sessionOpen =>
    rw [step] at hs
    simp only [Option.some.injEq, Prod.mk.injEq] at hs
    rw [← hs.1]; exact LinedAll.refl s
  | bind i fid =>
    rw [step] at hs
    simp only [Option.some.injEq, Prod.mk.injEq] at hs
    rw [← hs.1, bind]
    split
    · exact LinedAll.refl s
    · exact lined_set (s := s) (i := i) (f := { s.flow i with bound := true, flowId := fid }) (fun h => lined_same h rfl rfl rfl)
  | write i msg now a b rid names =>
    rw [step] at hs
    simp only [Option.some.injEq] at hs
    cases hw : s.write i msg now a b rid names with
    | none => rw [hw, writeRes] at hs; rw [← (Prod.mk.inj hs).1]; exact LinedAll.refl s
    | some u =>
      rw [hw, writeRes] at hs; rw [← (Prod.mk.inj hs).1]
      obtain ⟨hopen, fs, hc, e, _⟩ := write_queue hw
      intro j h
      by_cases hij : j = i
      · subst hij
        have hopt := h.opts
        have hmf : maxFrag (s.flow j).options = 1161 - (s.flow j).options.length := by
          rw [maxFrag, MAX_DATA_FRAG_LENGTH, sub64_le (by omega) (by omega)]
        obtain ⟨ps, h1, g⟩ := cut_first (maxFrag (s.flow j).options) (by omega) msg
        rw [h1] at hc
        have hc' : Spec.fragsOfPieces ps = fs := Option.some.inj hc
        rw [e]
        refine lined_queue ha.2.1 ?_ j h
        intro x hx
        have hl : ∀ l : List Bytes, ∀ y ∈ Spec.laterFrags l, y.2 ∈ l := by
          intro l
          induction l with
          | nil => intro y hy; simp [Spec.laterFrags] at hy
          | cons p l ih =>
            intro y hy
            cases l with
            | nil => simp [Spec.laterFrags] at hy; subst hy; simp
            | cons q l =>
              rw [Spec.laterFrags] at hy
              rcases List.mem_cons.mp hy with rfl | hy
              · simp
              · exact List.mem_cons_of_mem _ (ih y hy)
              all_goals simp
        have hmem : x.2 ∈ ps := by
          rw [← hc'] at hx
          cases ps with
          | nil => simp [Spec.fragsOfPieces] at hx
          | cons p ps =>
            cases ps with
            | nil => simp [Spec.fragsOfPieces] at hx; subst hx; simp
            | cons q ps =>
              rw [Spec.fragsOfPieces] at hx
              rcases List.mem_cons.mp hx with rfl | hx
              · simp
              · exact List.mem_cons_of_mem _ (hl _ x hx)
              all_goals simp
        have := g.size _ hmem
        omega
      · rw [e, queueFrags_other _ _ _ _ _ _ _ _ hij]; exact h
  | close i now rid names =>
    rw [step] at hs
    simp only [Option.some.injEq, Prod.mk.injEq] at hs
    rw [← hs.1]; exact close_lined now rid ha.2
  | setOnException i =>
    rw [step] at hs
    simp only [Option.some.injEq, Prod.mk.injEq] at hs
    rw [← hs.1]
    exact lined_set (s := s) (i := i) (f := { s.flow i with onException := true }) (fun h => lined_same h rfl rfl rfl)
  | setPriority i pri =>
    rw [step, setPriority] at hs
    dsimp only at hs
    split at hs
    · cases hs
    · simp only [priRes, Option.some.injEq, Prod.mk.injEq] at hs
      rw [← hs.1]
      exact lined_set (s := s) (i := i) (f := { s.flow i with priority := pri }) (fun h => lined_same h rfl rfl rfl)
  | receipt op =>
    rw [step] at hs
    simp only [Option.some.injEq, Prod.mk.injEq] at hs
    rw [← hs.1]; exact LinedAll.refl s
  | trim i now =>
    rw [step] at hs
    simp only [Option.some.injEq, Prod.mk.injEq] at hs
    rw [← hs.1]; exact trim_lined s i now
  | transmit i p pri now gone =>
    rw [step] at hs
    simp only [sentRes, Option.some.injEq, Prod.mk.injEq] at hs
    rw [← hs.1]
    have := assembleData_lined s i p ha.2 pri now gone
    rw [afterSend]; split <;> exact this
  | ack i b rs =>
    rw [step] at hs
    simp only [Option.some.injEq, Prod.mk.injEq] at hs
    rw [← hs.1]; exact onAck_lined s i b rs
  | afterAcks c =>
    rw [step] at hs
    simp only [Option.some.injEq, Prod.mk.injEq] at hs
    rw [← hs.1]; exact nakLoop_lined _ _ _
  | exceptionReport i now rid names =>
    rw [step] at hs
    simp only [Option.some.injEq, Prod.mk.injEq] at hs
    rw [← hs.1]; exact exceptionReport_lined now rid ha.2.2
  | timeout =>
    rw [step] at hs
    simp only [Option.some.injEq, Prod.mk.injEq] at hs
    rw [← hs.1]; exact loseAll_lined s.outs s
  | lingerAlarm i =>
    rw [step] at hs
    simp only [Option.some.injEq, Prod.mk.injEq] at hs
    rw [← hs.1]; exact gotoClosed_lined s i
  | closeSession now =>
    rw [step] at hs
    simp only [Option.some.injEq, Prod.mk.injEq] at hs
    rw [← hs.1]; exact closeFlows_lined now s.sendFlows { s with isOpen := false }
  | openingFailed i now =>
    rw [step] at hs
    simp only [Option.some.injEq, Prod.mk.injEq] at hs
    rw [← hs.1]; exact didClose_lined s i now 0 _

theorem exec_lined {ops : List Op} {s : SS} {evs : List Ev} (h : Exec ops s evs) (i : Nat) : Lined (s.flow i) := by
  induction h with
  | nil => exact ⟨List.Pairwise.nil, by simp [init, SF.init], List.Pairwise.nil, by simp [init, SF.init], by simp [init, SF.init]⟩
  | snoc _ ha hs ih => exact step_lined ha hs i ih

end SS
end Rtmfp
