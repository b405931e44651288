import Verif.Lemmas.Timer
/-! # Executions of a timer list -/
namespace Rtmfp
namespace Timers

/-- what can happen to a timer list: commands, rounds of `fireDueTimers`' loop (also of calls that never end), its start and end -/
inductive Steps (E : Env) (act : List Ev → List Cmd) (a : TL × List Ev) : TL × List Ev → Prop
  | refl : Steps E act a a
  | cmd {s tr} (h : Steps E act a (s, tr)) (c : Cmd) : Steps E act a ((exec E s c).1, tr ++ (exec E s c).2)
  | round {s tr r} (h : Steps E act a (s, tr)) (now : Int) (hr : fireOne E act s tr now = some r) : Steps E act a r
  | flag {s tr} (h : Steps E act a (s, tr)) (b : Bool) : Steps E act a ({ s with running := b }, tr)

/-- all that can happen from the start -/
abbrev Reach (E : Env) (act : List Ev → List Cmd) : TL × List Ev → Prop := Steps E act (init, [])

theorem init_wf (E : Env) : WF E init := ⟨List.Pairwise.nil, fun _ h => (by cases h), fun _ h => (by cases h), fun _ => .inl (Int.le_refl 0)⟩

/-- a round takes a canceled timer from the list, or runs a timer -/
theorem round_spec {E : Env} {act : List Ev → List Cmd} {s : TL} {tr : List Ev} {now : Int} {r : TL × List Ev} (hE : E.Ok) (h : WF E s)
    (hr : fireOne E act s tr now = some r) : ∃ x xs, s.set = x :: xs ∧ (s.tm x).when_ ≤ now ∧
      (((s.tm x).canceled = true ∧ r = ({ s with set := xs }, tr)) ∨
       (∃ ev, r.2 = tr ++ Ev.fire x (s.tm x).when_ now :: ev ∧ Fired E (act (tr ++ [.fire x (s.tm x).when_ now])) s r.1 x now ev)) := by
  rw [fireOne] at hr
  split at hr
  · cases hr
  · rename_i x xs hset
    split at hr
    · rename_i hdue
      refine ⟨x, xs, hset, hdue, ?_⟩
      by_cases hc : (s.tm x).canceled = true
      · left
        rw [basicFire, if_pos (by exact hc)] at hr
        cases hr
        exact ⟨hc, rfl⟩
      · right
        rw [Bool.not_eq_true] at hc
        obtain ⟨s', ev, h1, h2⟩ := basicFire_spec hE h act tr x xs hset now hdue hc
        rw [h1] at hr
        cases hr
        exact ⟨ev, rfl, h2⟩
    · cases hr

theorem round_wf {E : Env} {act : List Ev → List Cmd} {s : TL} {tr : List Ev} {now : Int} {r : TL × List Ev} (hE : E.Ok) (h : WF E s)
    (hr : fireOne E act s tr now = some r) : WF E r.1 := by
  obtain ⟨x, xs, hset, _, ⟨_, rfl⟩ | ⟨ev, _, F⟩⟩ := round_spec hE h hr
  · have hs := h.sorted
    rw [hset] at hs
    have sub : ∀ y ∈ xs, y ∈ s.set := fun y hy => by rw [hset]; exact List.mem_cons_of_mem _ hy
    exact ⟨(List.pairwise_cons.mp hs).2, fun y hy => h.known y (sub y hy), fun y hy => h.owned y (sub y hy), h.recur⟩
  · exact F.wf

theorem WF.flag {E s} (h : WF E s) (b : Bool) : WF E { s with running := b } := ⟨h.sorted, h.known, h.owned, h.recur⟩

theorem Steps.wf {E act a b} (hE : E.Ok) (h : Steps E act a b) (ha : WF E a.1) : WF E b.1 := by
  induction h with
  | refl => exact ha
  | cmd _ c ih => exact exec_wf hE ih c
  | round _ now hr ih => exact round_wf hE ih hr
  | flag _ b ih => exact ih.flag b

theorem Steps.trans {E act a b c} (h : Steps E act a b) (h' : Steps E act b c) : Steps E act a c := by
  induction h' with
  | refl => exact h
  | cmd _ c ih => exact .cmd ih c
  | round _ now hr ih => exact .round ih now hr
  | flag _ b ih => exact .flag ih b

theorem loop_steps {E act now} (fuel : Nat) : ∀ s tr r, fireLoop E act now fuel s tr = some r → Steps E act (s, tr) r := by
  induction fuel with
  | zero => intro s tr r h; cases h
  | succ fuel ih =>
    intro s tr r h
    rw [fireLoop] at h
    split at h
    · cases h; exact .refl
    · rename_i s' tr' hr
      exact (Steps.round .refl now hr).trans (ih _ _ _ h)

theorem pass_steps {E act now fuel s tr r} (h : fireDueTimers E act now fuel s tr = some r) : Steps E act (s, tr) r := by
  rw [fireDueTimers] at h
  obtain ⟨r', h1, h2⟩ := Option.map_eq_some_iff.mp h
  subst h2
  obtain ⟨s', tr'⟩ := r'
  exact .flag ((Steps.flag .refl true).trans (loop_steps fuel _ _ _ h1)) false

/-- everything that happened stays in the record -/
theorem Steps.prefix {E act a b} (hE : E.Ok) (h : Steps E act a b) (ha : WF E a.1) : ∃ ext, b.2 = a.2 ++ ext := by
  induction h with
  | refl => exact ⟨[], by simp⟩
  | cmd _ c ih => obtain ⟨e, he⟩ := ih; exact ⟨e ++ _, by rw [← List.append_assoc, ← he]⟩
  | round h0 now hr ih =>
    obtain ⟨e, he⟩ := ih
    obtain ⟨x, xs, _, _, ⟨_, rfl⟩ | ⟨ev, h1, _⟩⟩ := round_spec hE (h0.wf hE ha) hr
    · exact ⟨e, he⟩
    · exact ⟨e ++ _ :: ev, by rw [h1, ← List.append_assoc, ← he]⟩
  | flag _ b ih => exact ih

theorem reach_wf {E act b} (hE : E.Ok) (h : Reach E act b) : WF E b.1 := h.wf hE (init_wf E)

theorem wf_head {E s x xs} (h : WF E s) (hset : s.set = x :: xs) : ∀ y ∈ s.set, (s.tm x).when_ ≤ (s.tm y).when_ := by
  intro y hy
  have hs := h.sorted
  rw [hset] at hs hy
  rcases List.mem_cons.mp hy with rfl | hy
  · exact Int.le_refl _
  · have := (List.pairwise_cons.mp hs).1 y hy
    rw [before] at this
    split at this
    · rename_i e; omega
    · have := of_decide_eq_true this; omega

/-- the loop ends when no timer is due -/
theorem loop_end {E act now} (hE : E.Ok) (fuel : Nat) : ∀ s tr r, WF E s → fireLoop E act now fuel s tr = some r → ∀ y ∈ r.1.set, now < (r.1.tm y).when_ := by
  induction fuel with
  | zero => intro s tr r _ h; cases h
  | succ fuel ih =>
    intro s tr r hw h
    rw [fireLoop] at h
    split at h
    · rename_i hr
      cases h
      rw [fireOne] at hr
      split at hr
      · rename_i hset
        intro y hy
        rw [hset] at hy; cases hy
      · rename_i x xs hset
        split at hr
        · cases hr
        · rename_i hn
          intro y hy
          have := wf_head hw hset y hy
          show now < (s.tm y).when_
          omega
    · rename_i s' tr' hr
      exact ih _ _ _ (round_wf hE hw hr) h

theorem loop_fires {E act now} (hE : E.Ok) (fuel : Nat) : ∀ s tr r, WF E s → fireLoop E act now fuel s tr = some r →
    ∃ ext, r.2 = tr ++ ext ∧ ∀ x d n, Ev.fire x d n ∈ ext → n = now ∧ d ≤ now := by
  induction fuel with
  | zero => intro s tr r _ h; cases h
  | succ fuel ih =>
    intro s tr r hw h
    rw [fireLoop] at h
    split at h
    · cases h; exact ⟨[], by simp, fun _ _ _ h => (by cases h)⟩
    · rename_i s' tr' hr
      obtain ⟨ext, h1, h2⟩ := ih _ _ _ (round_wf hE hw hr) h
      obtain ⟨x, xs, _, hd, ⟨_, e⟩ | ⟨ev, e, F⟩⟩ := round_spec hE hw hr
      · cases e; exact ⟨ext, h1, h2⟩
      · dsimp only at e
        subst e
        refine ⟨Ev.fire x (s.tm x).when_ now :: ev ++ ext, by rw [h1]; simp, ?_⟩
        intro y d n hy
        rcases List.mem_append.mp hy with hy | hy
        · rcases List.mem_cons.mp hy with hy | hy
          · cases hy; exact ⟨rfl, hd⟩
          · exact absurd hy (F.quiet y d n)
        · exact h2 y d n hy

/-- canceled timers stay so; `cancel` has effect; and no fire of a timer after it -/
structure Gone (s : TL) (tr : List Ev) : Prop where
  gone : ∀ x, Ev.cmd (.cancel x) ∈ tr → (s.tm x).canceled = true ∧ x < s.next
  after : ∀ a x b, tr = a ++ Ev.cmd (.cancel x) :: b → ∀ d n, Ev.fire x d n ∉ b

theorem Gone.append {s s' : TL} {tr ev : List Ev} (h : Gone s tr) (hg : ∀ x, Ev.cmd (.cancel x) ∈ tr ++ ev → (s'.tm x).canceled = true ∧ x < s'.next)
    (hf : ∀ x d n, Ev.fire x d n ∈ ev → Ev.cmd (.cancel x) ∉ tr ∧ ∀ a b, ev = a ++ Ev.cmd (.cancel x) :: b → Ev.fire x d n ∉ b) : Gone s' (tr ++ ev) := by
  refine ⟨hg, ?_⟩
  intro a x b e d n hb
  rcases List.append_eq_append_iff.mp e with ⟨u, h1, h2⟩ | ⟨u, h1, h2⟩
  · exact (hf x d n (by rw [h2]; exact List.mem_append_right _ (List.mem_cons_of_mem _ hb))).2 u b h2 hb
  · cases u with
    | nil =>
      rw [List.nil_append] at h2
      have hx : Ev.fire x d n ∈ ev := by rw [← h2]; exact List.mem_cons_of_mem _ hb
      exact (hf x d n hx).2 [] b h2.symm hb
    | cons u us =>
      rw [List.cons_append] at h2
      have e2 := List.cons.inj h2
      obtain ⟨e3, e4⟩ := e2
      subst e3
      rw [e4] at hb
      rcases List.mem_append.mp hb with hb | hb
      · exact h.after a x us h1 d n hb
      · exact (hf x d n hb).1 (by rw [h1]; exact List.mem_append_right _ List.mem_cons_self)

theorem reach_gone {E act b} (hE : E.Ok) (h : Reach E act b) : Gone b.1 b.2 := by
  induction h with
  | refl => exact ⟨fun _ h => (by cases h), fun a x b e => by simp at e⟩
  | @cmd s tr h c ih =>
    obtain ⟨F, K⟩ := exec_frame hE (reach_wf hE h) c
    refine ih.append ?_ (fun x d n hx => absurd hx (F.quiet x d n))
    intro x hx
    rcases List.mem_append.mp hx with a | a
    · obtain ⟨g1, g2⟩ := ih.gone x a
      exact ⟨F.canceled x g2 g1, Nat.lt_of_lt_of_le g2 F.next_le⟩
    · exact ⟨F.cancels x a, K x a⟩
  | @round s tr r h now hr ih =>
    obtain ⟨x, xs, hset, hd, ⟨_, e⟩ | ⟨ev, e, F⟩⟩ := round_spec hE (reach_wf hE h) hr
    · subst e; exact ⟨ih.gone, ih.after⟩
    · rw [e]
      refine ih.append ?_ ?_
      · intro y hy
        rcases List.mem_append.mp hy with a | a
        · obtain ⟨g1, g2⟩ := ih.gone y a
          exact ⟨F.canceled y g2 g1, Nat.lt_of_lt_of_le g2 F.next_le⟩
        · rcases List.mem_cons.mp a with a | a
          · cases a
          · exact F.cancels y a
      · intro y d n hy
        rcases List.mem_cons.mp hy with a | a
        · cases a
          constructor
          · intro hc
            have := (ih.gone x hc).1
            have al := F.alive
            dsimp only at this
            rw [al] at this; cases this
          · intro a b e2 hb
            cases a with
            | nil => cases e2
            | cons a as =>
              have e3 := (List.cons.inj e2).2
              exact F.quiet _ _ _ (by rw [e3]; exact List.mem_append_right _ (List.mem_cons_of_mem _ hb))
        · exact absurd a (F.quiet y d n)
  | flag h b ih => exact ⟨ih.gone, ih.after⟩

/-- the last time a timer ran, and since then -/
structure Since (s : TL) (x : Nat) (d n : Int) : Prop where
  known : x < s.next
  next : (s.tm x).canceled = true ∨ (d < (s.tm x).when_ ∧ ((s.tm x).catchup = true → n ≤ (s.tm x).when_))

theorem since_kept {E act a b} (hE : E.Ok) (h : Steps E act a b) (ha : WF E a.1) {x : Nat} {d n : Int} (hs : Since a.1 x d n) :
    ∃ ext, b.2 = a.2 ++ ext ∧ ((∃ w, Ev.cmd (.setNext x w) ∈ ext) ∨ (Since b.1 x d n ∧ (b.1.tm x).catchup = (a.1.tm x).catchup ∧
      ∀ u d' n' v, ext = u ++ Ev.fire x d' n' :: v → d < d' ∧ ((a.1.tm x).catchup = true → n ≤ d'))) := by
  induction h with
  | refl => exact ⟨[], by simp, .inr ⟨hs, rfl, fun u d' n' v e => by simp at e⟩⟩
  | @cmd s tr h c ih =>
    obtain ⟨ext, e, ih⟩ := ih
    dsimp only at e ih
    obtain ⟨F, K⟩ := exec_frame hE (h.wf hE ha) c
    dsimp only at F
    refine ⟨ext ++ (exec E s c).2, by rw [← List.append_assoc, ← e], ?_⟩
    rcases ih with ⟨w, hw⟩ | ⟨S, C, R⟩
    · exact .inl ⟨w, List.mem_append_left _ hw⟩
    · rcases F.when_ x S.known with hw | ⟨w, hw⟩
      · right
        refine ⟨⟨Nat.lt_of_lt_of_le S.known F.next_le, ?_⟩, by dsimp only; rw [F.catchup x S.known, C], ?_⟩
        · rcases S.next with q | ⟨q1, q2⟩
          · exact .inl (F.canceled x S.known q)
          · right
            dsimp only
            rw [hw, F.catchup x S.known]
            exact ⟨q1, q2⟩
        · intro u d' n' v e2
          rcases List.append_eq_append_iff.mp e2 with ⟨k, h1, h2⟩ | ⟨k, h1, h2⟩
          · exact absurd (by rw [h2]; exact List.mem_append_right _ List.mem_cons_self) (F.quiet x d' n')
          · cases k with
            | nil => exact absurd (by rw [List.nil_append] at h2; rw [← h2]; exact List.mem_cons_self) (F.quiet x d' n')
            | cons k ks =>
              rw [List.cons_append] at h2
              obtain ⟨e3, e4⟩ := List.cons.inj h2
              subst e3
              exact R u d' n' ks h1
      · exact .inl ⟨w, List.mem_append_right _ hw⟩
  | @round s tr r h now hr ih =>
    obtain ⟨ext, e, ih⟩ := ih
    dsimp only at e ih
    obtain ⟨y, ys, hset, hd, ⟨_, e'⟩ | ⟨ev, e', F⟩⟩ := round_spec hE (h.wf hE ha) hr
    · subst e'
      exact ⟨ext, e, ih.imp id (fun ⟨S, C, R⟩ => ⟨⟨S.known, S.next⟩, C, R⟩)⟩
    · refine ⟨ext ++ Ev.fire y (s.tm y).when_ now :: ev, by rw [e', ← List.append_assoc, ← e], ?_⟩
      dsimp only at F
      rcases ih with ⟨w, hw⟩ | ⟨S, C, R⟩
      · exact .inl ⟨w, List.mem_append_left _ hw⟩
      · have key : (∃ w, Ev.cmd (.setNext x w) ∈ ev) ∨ Since r.1 x d n := by
          by_cases exy : x = y
          · subst exy
            rcases F.again with q | q | ⟨_, q1, q2⟩
            · exact .inr ⟨Nat.lt_of_lt_of_le S.known F.next_le, .inl q⟩
            · exact .inl q
            · refine .inr ⟨Nat.lt_of_lt_of_le S.known F.next_le, .inr ?_⟩
              rcases S.next with p | ⟨p1, p2⟩
              · rw [F.alive] at p; cases p
              · rw [F.catchup x S.known]
                exact ⟨by omega, fun hc => by have := p2 hc; omega⟩
          · rcases F.when_ x S.known exy with hw | ⟨w, hw⟩
            · refine .inr ⟨Nat.lt_of_lt_of_le S.known F.next_le, ?_⟩
              rcases S.next with q | ⟨q1, q2⟩
              · exact .inl (F.canceled x S.known q)
              · right
                rw [hw, F.catchup x S.known]
                exact ⟨q1, q2⟩
            · exact .inl ⟨w, hw⟩
        rcases key with ⟨w, hw⟩ | S'
        · exact .inl ⟨w, List.mem_append_right _ (List.mem_cons_of_mem _ hw)⟩
        · refine .inr ⟨S', by rw [F.catchup x S.known, C], ?_⟩
          have here : x = y → d < (s.tm y).when_ ∧ ((a.1.tm x).catchup = true → n ≤ (s.tm y).when_) := by
            rintro rfl
            rcases S.next with p | ⟨p1, p2⟩
            · rw [F.alive] at p; cases p
            · rw [← C]; exact ⟨p1, p2⟩
          intro u d' n' v e2
          rcases List.append_eq_append_iff.mp e2 with ⟨k, h1, h2⟩ | ⟨k, h1, h2⟩
          · cases k with
            | nil =>
              rw [List.nil_append] at h2
              cases (List.cons.inj h2).1
              exact here rfl
            | cons k ks =>
              obtain ⟨_, e4⟩ := List.cons.inj h2
              exact absurd (by rw [e4]; exact List.mem_append_right _ List.mem_cons_self) (F.quiet x d' n')
          · cases k with
            | nil =>
              rw [List.nil_append] at h2
              cases (List.cons.inj h2).1
              exact here rfl
            | cons k ks =>
              rw [List.cons_append] at h2
              obtain ⟨e3, e4⟩ := List.cons.inj h2
              subst e3
              exact R u d' n' ks h1
  | flag h b ih =>
    obtain ⟨ext, e, ih⟩ := ih
    exact ⟨ext, e, ih.imp id (fun ⟨S, C, R⟩ => ⟨⟨S.known, S.next⟩, C, R⟩)⟩

/-- how often a timer ran -/
def runs (x : Nat) (tr : List Ev) : Nat := tr.countP (fun e => match e with | .fire y _ _ => decide (y = x) | _ => false)

theorem runs_append (x : Nat) (a b : List Ev) : runs x (a ++ b) = runs x a + runs x b := List.countP_append
theorem runs_quiet (x : Nat) (a : List Ev) (h : ∀ y d n, Ev.fire y d n ∉ a) : runs x a = 0 := by
  rw [runs, List.countP_eq_zero]
  intro e he
  cases e with
  | fire y d n => exact absurd he (h y d n)
  | cmd c => simp
  | wake => simp

/-- a timer that doesn't recur -/
theorem once {E act a b} (hE : E.Ok) (h : Steps E act a b) (ha : WF E a.1) {x : Nat} (hx : x < a.1.next) (hr : (a.1.tm x).recur ≤ 0) :
    ∃ ext, b.2 = a.2 ++ ext ∧ ((∃ w, Ev.cmd (.setNext x w) ∈ ext) ∨ (∃ w, Ev.cmd (.setRecur x w) ∈ ext) ∨
      (x < b.1.next ∧ (b.1.tm x).recur ≤ 0 ∧ runs x ext ≤ 1 ∧ (0 < runs x ext → (b.1.tm x).canceled = true))) := by
  induction h with
  | refl => exact ⟨[], by simp, .inr (.inr ⟨hx, hr, Nat.zero_le _, fun h => absurd h (Nat.lt_irrefl 0)⟩)⟩
  | @cmd s tr h c ih =>
    obtain ⟨ext, e, ih⟩ := ih
    dsimp only at e ih
    obtain ⟨F, K⟩ := exec_frame hE (h.wf hE ha) c
    dsimp only at F
    refine ⟨ext ++ (exec E s c).2, by rw [← List.append_assoc, ← e], ?_⟩
    rcases ih with ⟨w, hw⟩ | ⟨w, hw⟩ | ⟨k, r, q1, q2⟩
    · exact .inl ⟨w, List.mem_append_left _ hw⟩
    · exact .inr (.inl ⟨w, List.mem_append_left _ hw⟩)
    · rcases F.recur x k with f | ⟨w, f⟩
      · right; right
        rw [runs_append, runs_quiet x _ F.quiet]
        dsimp only
        rw [f]
        exact ⟨Nat.lt_of_lt_of_le k F.next_le, r, q1, fun h => F.canceled x k (q2 h)⟩
      · exact .inr (.inl ⟨w, List.mem_append_right _ f⟩)
  | @round s tr r h now hr ih =>
    obtain ⟨ext, e, ih⟩ := ih
    dsimp only at e ih
    obtain ⟨y, ys, hset, hd, ⟨_, e'⟩ | ⟨ev, e', F⟩⟩ := round_spec hE (h.wf hE ha) hr
    · subst e'
      exact ⟨ext, e, ih⟩
    · refine ⟨ext ++ ([Ev.fire y (s.tm y).when_ now] ++ ev), by rw [e', ← List.append_assoc, ← e]; rfl, ?_⟩
      dsimp only at F
      rcases ih with ⟨w, hw⟩ | ⟨w, hw⟩ | ⟨k, r, q1, q2⟩
      · exact .inl ⟨w, List.mem_append_left _ hw⟩
      · exact .inr (.inl ⟨w, List.mem_append_left _ hw⟩)
      · rcases F.recur x k with f | ⟨w, f⟩
        · rw [runs_append, runs_append, runs_quiet x _ F.quiet]
          by_cases exy : y = x
          · subst exy
            have one : runs y [Ev.fire y (s.tm y).when_ now] = 1 := by simp [runs]
            rw [one]
            have zero : runs y ext = 0 := by
              rcases Nat.eq_zero_or_pos (runs y ext) with h | h
              · exact h
              · have := q2 h
                rw [F.alive] at this; cases this
            rw [zero, f]
            rcases F.again with q | ⟨w, q⟩ | ⟨q, _⟩
            · exact .inr (.inr ⟨Nat.lt_of_lt_of_le k F.next_le, r, Nat.le_refl _, fun _ => q⟩)
            · exact .inl ⟨w, List.mem_append_right _ (List.mem_append_right _ q)⟩
            · rw [f] at q; omega
          · have zero : runs x [Ev.fire y (s.tm y).when_ now] = 0 := by simp [runs, exy]
            rw [zero, f]
            exact .inr (.inr ⟨Nat.lt_of_lt_of_le k F.next_le, r, q1, fun h => F.canceled x k (q2 h)⟩)
        · exact .inr (.inl ⟨w, List.mem_append_right _ (List.mem_append_right _ f)⟩)
  | flag h b ih => exact ih

/-- a timer in the list, due at `w` -/
structure Pending (s : TL) (x : Nat) (w : Int) : Prop where
  mem : x ∈ s.set
  due : (s.tm x).when_ = w
  alive : (s.tm x).canceled = false

/-- what changes a timer's place in the list: commands about it, and running it -/
def concerns (x : Nat) (e : Ev) : Bool := touches x e || (match e with | .fire y _ _ => decide (y = x) | _ => false)

theorem concerns_setNext (x : Nat) (w : Int) : concerns x (.cmd (.setNext x w)) = true := by simp [concerns, touches]

theorem pending_kept {E act a b} (hE : E.Ok) (h : Steps E act a b) (ha : WF E a.1) {x : Nat} {w : Int} (hp : Pending a.1 x w) :
    ∃ ext, b.2 = a.2 ++ ext ∧ ((∃ e ∈ ext, touches x e = true) ∨ (∃ n, Ev.fire x w n ∈ ext) ∨ Pending b.1 x w) := by
  induction h with
  | refl => exact ⟨[], by simp, .inr (.inr hp)⟩
  | @cmd s tr h c ih =>
    obtain ⟨ext, e, ih⟩ := ih
    dsimp only at e ih
    have hw := h.wf hE ha
    obtain ⟨F, K⟩ := exec_frame hE hw c
    dsimp only at F hw
    refine ⟨ext ++ (exec E s c).2, by rw [← List.append_assoc, ← e], ?_⟩
    rcases ih with ⟨u, hu, hu'⟩ | ⟨n, hn⟩ | p
    · exact .inl ⟨u, List.mem_append_left _ hu, hu'⟩
    · exact .inr (.inl ⟨n, List.mem_append_left _ hn⟩)
    · by_cases ht : ∃ u ∈ (exec E s c).2, touches x u = true
      · obtain ⟨u, hu, hu'⟩ := ht
        exact .inl ⟨u, List.mem_append_right _ hu, hu'⟩
      · have ht' : ∀ u ∈ (exec E s c).2, touches x u = false := fun u hu => by
          cases q : touches x u with
          | false => rfl
          | true => exact absurd ⟨u, hu, q⟩ ht
        right; right
        have hx := hw.known x p.mem
        refine ⟨F.stays x p.mem ht', ?_, canceled_kept hE hw hx ht' p.alive⟩
        rcases F.when_ x hx with q | ⟨v, q⟩
        · exact q.trans p.due
        · have := ht' _ q
          simp [touches] at this
  | @round s tr r h now hr ih =>
    obtain ⟨ext, e, ih⟩ := ih
    dsimp only at e ih
    have hw := h.wf hE ha
    dsimp only at hw
    obtain ⟨y, ys, hset, hd, ⟨hcan, e'⟩ | ⟨ev, e', F⟩⟩ := round_spec hE hw hr
    · subst e'
      refine ⟨ext, e, ih.imp id (fun h => h.imp id (fun p => ⟨?_, p.due, p.alive⟩))⟩
      have := p.mem
      rw [hset] at this
      rcases List.mem_cons.mp this with q | q
      · rw [← q, p.alive] at hcan; cases hcan
      · exact q
    · refine ⟨ext ++ Ev.fire y (s.tm y).when_ now :: ev, by rw [e', ← List.append_assoc, ← e], ?_⟩
      rcases ih with ⟨u, hu, hu'⟩ | ⟨n, hn⟩ | p
      · exact .inl ⟨u, List.mem_append_left _ hu, hu'⟩
      · exact .inr (.inl ⟨n, List.mem_append_left _ hn⟩)
      · by_cases hy : x = y
        · subst hy
          rw [p.due]
          exact .inr (.inl ⟨now, List.mem_append_right _ List.mem_cons_self⟩)
        · by_cases ht : ∃ u ∈ ev, touches x u = true
          · obtain ⟨u, hu, hu'⟩ := ht
            exact .inl ⟨u, List.mem_append_right _ (List.mem_cons_of_mem _ hu), hu'⟩
          · have ht' : ∀ u ∈ ev, touches x u = false := fun u hu => by
              cases q : touches x u with
              | false => rfl
              | true => exact absurd ⟨u, hu, q⟩ ht
            right; right
            have hx := hw.known x p.mem
            refine ⟨F.stays x p.mem hy ht', ?_, F.live x hx hy ht' p.alive⟩
            rcases F.when_ x hx hy with q | ⟨v, q⟩
            · exact q.trans p.due
            · have := ht' _ q
              simp [touches] at this
  | flag h b ih =>
    obtain ⟨ext, e, ih⟩ := ih
    exact ⟨ext, e, ih.imp id (fun h => h.imp id (fun p => ⟨p.mem, p.due, p.alive⟩))⟩

/-- when the timers that ran were due -/
def dues (tr : List Ev) : List Int := tr.filterMap (fun e => match e with | .fire _ d _ => some d | _ => none)

theorem dues_quiet (a : List Ev) (h : ∀ y d n, Ev.fire y d n ∉ a) : dues a = [] := by
  rw [dues, List.filterMap_eq_nil_iff]
  intro e he
  cases e with
  | fire y d n => exact absurd he (h y d n)
  | cmd c => rfl
  | wake => rfl

theorem loop_order {E act now} (hE : E.Ok) (hact : ∀ tr x d, ∀ c ∈ act (tr ++ [.fire x d now]), CmdOk (d ≤ ·) c) (fuel : Nat) :
    ∀ s tr r L, WF E s → (∀ y ∈ s.set, L ≤ (s.tm y).when_) → fireLoop E act now fuel s tr = some r →
      ∃ ext, r.2 = tr ++ ext ∧ (dues ext).Pairwise (· ≤ ·) ∧ ∀ d ∈ dues ext, L ≤ d := by
  induction fuel with
  | zero => intro s tr r L _ _ h; cases h
  | succ fuel ih =>
    intro s tr r L hw hL h
    rw [fireLoop] at h
    split at h
    · cases h; exact ⟨[], by simp, List.Pairwise.nil, fun _ h => (by cases h)⟩
    · rename_i s' tr' hr
      have hw' := round_wf hE hw hr
      obtain ⟨x, xs, hset, hd, ⟨_, e⟩ | ⟨ev, e, F⟩⟩ := round_spec hE hw hr
      · cases e
        exact ih _ _ _ L hw' (fun y hy => hL y (by rw [hset]; exact List.mem_cons_of_mem _ hy)) h
      · dsimp only at e F hw'
        subst e
        have hx : x ∈ s.set := by rw [hset]; exact List.mem_cons_self
        obtain ⟨ext, h1, h2, h3⟩ := ih _ _ _ (s.tm x).when_ hw' (by
          intro y hy
          rcases F.entries ((s.tm x).when_ ≤ ·) (hact tr x _) y hy with ⟨a, _, b⟩ | a | ⟨a, b⟩
          · rw [b]; exact wf_head hw hset y a
          · exact a
          · subst a; omega) h
        refine ⟨Ev.fire x (s.tm x).when_ now :: ev ++ ext, by rw [h1]; simp, ?_⟩
        have : dues (Ev.fire x (s.tm x).when_ now :: ev ++ ext) = (s.tm x).when_ :: dues ext := by
          have := dues_quiet ev F.quiet
          have e1 : dues (Ev.fire x (s.tm x).when_ now :: ev) = (s.tm x).when_ :: dues ev := rfl
          have e2 := List.filterMap_append (l := Ev.fire x (s.tm x).when_ now :: ev) (l' := ext) (f := fun e => match e with | .fire _ d _ => some d | _ => none)
          refine e2.trans ?_
          show dues _ ++ dues _ = _
          rw [e1, this]
          rfl
        rw [this]
        refine ⟨List.pairwise_cons.mpr ⟨h3, h2⟩, ?_⟩
        intro d hd'
        rcases List.mem_cons.mp hd' with rfl | hd'
        · exact hL x hx
        · exact Int.le_trans (hL x hx) (h3 d hd')

theorem sum_le (f g : Nat → Nat) : ∀ l' l : List Nat, l'.Nodup → (∀ y ∈ l', g y = 0 ∨ (y ∈ l ∧ g y ≤ f y)) → (l'.map g).sum ≤ (l.map f).sum := by
  intro l'
  induction l' with
  | nil => intro l _ _; exact Nat.zero_le _
  | cons x xs ih =>
    intro l hn h
    obtain ⟨hx, hn⟩ := List.nodup_cons.mp hn
    rw [List.map_cons, List.sum_cons]
    rcases h x List.mem_cons_self with h0 | ⟨hm, hle⟩
    · rw [h0, Nat.zero_add]
      exact ih l hn (fun y hy => h y (List.mem_cons_of_mem _ hy))
    · have p := List.perm_cons_erase hm
      have := ih (l.erase x) hn (fun y hy => (h y (List.mem_cons_of_mem _ hy)).imp id (fun ⟨a, b⟩ =>
        ⟨(List.mem_erase_of_ne (fun e => hx (by rw [← e]; exact hy))).mpr a, b⟩))
      have e : (l.map f).sum = f x + ((l.erase x).map f).sum := by
        rw [(p.map f).sum_nat, List.map_cons, List.sum_cons]
      omega

theorem sum_lt (f g : Nat → Nat) (l : List Nat) (x : Nat) (hx : x ∈ l) (hg : ∀ y, g y ≤ f y) (hl : g x < f x) : (l.map g).sum < (l.map f).sum := by
  induction l with
  | nil => cases hx
  | cons y ys ih =>
    rw [List.map_cons, List.sum_cons, List.map_cons, List.sum_cons]
    have le : (ys.map g).sum ≤ (ys.map f).sum := by
      clear ih hx
      induction ys with
      | nil => exact Nat.le_refl _
      | cons z zs ih => rw [List.map_cons, List.sum_cons, List.map_cons, List.sum_cons]; have := hg z; omega
    have := hg y
    rcases List.mem_cons.mp hx with rfl | hx
    · omega
    · have := ih hx; omega

/-- how much a timer is overdue -/
def overdue (s : TL) (now : Int) (y : Nat) : Nat := (now + 1 - (s.tm y).when_).toNat

theorem loop_ends {E act now} (hE : E.Ok) (hact : ∀ tr, ∀ c ∈ act tr, CmdOk (now < ·) c) (k : Nat) :
    ∀ s tr, WF E s → (s.set.map (overdue s now)).sum ≤ k → ∃ r, fireLoop E act now (k + 1) s tr = some r := by
  induction k using Nat.strongRecOn with
  | ind k ih =>
    intro s tr hw hk
    rw [fireLoop]
    cases hr : fireOne E act s tr now with
    | none => exact ⟨_, rfl⟩
    | some q =>
      obtain ⟨s', tr'⟩ := q
      dsimp only
      have hw' := round_wf hE hw hr
      dsimp only at hw'
      have less : (s'.set.map (overdue s' now)).sum < (s.set.map (overdue s now)).sum := by
        obtain ⟨x, xs, hset, hd, ⟨_, e⟩ | ⟨ev, e, F⟩⟩ := round_spec hE hw hr
        · cases e
          rw [hset, List.map_cons, List.sum_cons]
          have : 0 < overdue s now x := by rw [overdue]; omega
          show (xs.map (overdue s now)).sum < _
          omega
        · dsimp only at F
          have hx : x ∈ s.set := by rw [hset]; exact List.mem_cons_self
          have h0 : 0 < overdue s now x := by rw [overdue]; omega
          have l1 := sum_lt (overdue s now) (fun y => if y = x then overdue s now x - 1 else overdue s now y) s.set x hx
            (fun y => by split; (rename_i e; subst e; omega); exact Nat.le_refl _) (by rw [if_pos rfl]; omega)
          have l2 := sum_le (fun y => if y = x then overdue s now x - 1 else overdue s now y) (overdue s' now) s'.set s.set hw'.sorted.nodup (by
            intro y hy
            rcases F.entries (now < ·) (hact _) y hy with ⟨a, b, c⟩ | a | ⟨a, b⟩
            · right
              refine ⟨a, ?_⟩
              rw [if_neg b, overdue, overdue, c]
              exact Nat.le_refl _
            · left
              rw [overdue]; omega
            · right
              subst a
              refine ⟨hx, ?_⟩
              rw [if_pos rfl, overdue, overdue]
              omega)
          omega
      obtain ⟨j, hj⟩ : ∃ j, k = j + 1 := ⟨k - 1, by omega⟩
      subst hj
      exact ih j (Nat.lt_succ_self _) s' tr' hw' (by omega)

theorem howLong_lt {E s s' now M} (h : WF E s) (hl : howLong s' now M < howLong s now M) :
    ∃ z zs, s'.set = z :: zs ∧ ∀ y ∈ s.set, (s'.tm z).when_ < (s.tm y).when_ := by
  rw [howLong, howLong] at hl
  cases hs' : s'.set with
  | nil =>
    rw [hs'] at hl
    dsimp only at hl
    cases hs : s.set with
    | nil => rw [hs] at hl; dsimp only at hl; omega
    | cons y ys => rw [hs] at hl; dsimp only at hl; omega
  | cons z zs =>
    refine ⟨z, zs, rfl, ?_⟩
    intro y hy
    rw [hs'] at hl
    dsimp only at hl
    cases hs : s.set with
    | nil => rw [hs] at hy; cases hy
    | cons x xs =>
      have := wf_head h hs y hy
      rw [hs] at hl
      dsimp only at hl
      omega

theorem earlier_of {s : TL} {x : Nat} (h : ∀ y ∈ s.set, (s.tm x).when_ < (s.tm y).when_) : earlier s x = true := by
  rw [earlier]
  split
  · rfl
  · rename_i y ys hs
    exact decide_eq_true (h y (by rw [hs]; exact List.mem_cons_self))

theorem exec_wakes {E s c now M} (hE : E.Ok) (h : WF E s) (hr : s.running = false) (hl : howLong (exec E s c).1 now M < howLong s now M) :
    Ev.wake ∈ (exec E s c).2 := by
  obtain ⟨z, zs, hset, hz⟩ := howLong_lt h hl
  have hmem : z ∈ (exec E s c).1.set := by rw [hset]; exact List.mem_cons_self
  have same : z ∈ s.set → ((exec E s c).1.tm z).when_ = (s.tm z).when_ → False := fun a b => by have := hz z a; omega
  cases c with
  | schedule w r c =>
    rw [exec] at hz hmem same ⊢
    dsimp only at hz hmem same ⊢
    rw [schedule_eq] at hz hmem same ⊢
    rw [addTimer_tm] at same hz
    have ez : z = s.next := by
      rcases (setInsert_mem E hE _ _ _ _).mp (show z ∈ setInsert E _ s.set s.next from hmem) with e | a
      · exact e
      · have hzn := h.known z a
        have hne : z ≠ s.next := by omega
        rw [if_neg hne, made_other _ _ _ _ _ hne] at same
        exact (same a rfl).elim
    subst ez
    rw [if_pos rfl] at hz
    refine List.mem_cons_of_mem _ ?_
    rw [addTimer]
    dsimp only
    rw [earlier_of (s := made E s w r c) (x := s.next) ?_, show (made E s w r c).running = false from hr]
    · exact List.mem_singleton.mpr rfl
    · intro y hy
      have hy' : y ∈ s.set := hy
      have hyn := h.known y hy'
      rw [made_other _ _ _ _ _ (show y ≠ s.next by omega)]
      exact hz y hy'
  | setNext x w =>
    rw [exec] at hz hmem same ⊢
    by_cases hx : x < s.next
    · rw [if_pos hx] at hz hmem same ⊢
      dsimp only at hz hmem same ⊢
      rw [setNext_tm] at hz same
      by_cases e : z = x
      · rw [if_pos e] at hz same
        subst e
        by_cases hc : (s.tm z).canceled = true
        · rw [if_pos hc] at hz same
          rcases (setNext_set hE s z z w).1 hmem with a | a
          · exact (same a rfl).elim
          · rw [a.2] at hc; cases hc
        · rw [if_neg hc] at hz
          refine List.mem_cons_of_mem _ ?_
          rw [setNext, if_neg hc]
          dsimp only
          by_cases hli : (s.tm z).listed = true
          · rw [if_pos hli, addTimer]
            dsimp only
            rw [earlier_of, upd_running, show (removeTimer E s z).running = s.running from rfl, hr]
            · exact List.mem_singleton.mpr rfl
            · intro y hy
              rw [upd_set] at hy
              obtain ⟨a, b⟩ := (removeTimer_mem hE s z y).mp hy
              have e1 := removeTimer_tm E s z y
              rw [if_neg b] at e1
              rw [upd_self, upd_other _ _ b, e1]
              exact hz y a
          · exfalso
            rw [setNext, if_neg hc] at hmem
            dsimp only at hmem
            rw [if_neg hli] at hmem
            rcases h.owned z hmem with q | q
            · exact hli q
            · exact hc q
      · rw [if_neg e] at same
        rcases (setNext_set hE s x z w).1 hmem with a | a
        · exact (same a rfl).elim
        · exact absurd a.1 e
    · rw [if_neg hx] at hmem same
      exact (same hmem rfl).elim
  | setRecur x r =>
    rw [exec] at hmem same
    by_cases hx : x < s.next
    · rw [if_pos hx] at hmem same
      refine (same hmem ?_).elim
      show (if z = x then _ else _ : Timer).when_ = _
      split <;> rfl
    · rw [if_neg hx] at hmem same
      exact (same hmem rfl).elim
  | cancel x =>
    rw [exec] at hmem same
    by_cases hx : x < s.next
    · rw [if_pos hx] at hmem same
      refine (same ((cancel_set hE s x z).1 hmem) ?_).elim
      dsimp only
      rw [cancel_tm]; split <;> rfl
    · rw [if_neg hx] at hmem same
      exact (same hmem rfl).elim
  | add x =>
    rw [exec] at hz hmem same ⊢
    by_cases hx : x < s.next ∧ (s.tm x).firing = false
    · rw [if_pos hx] at hz hmem same ⊢
      dsimp only at hz hmem same ⊢
      rw [addTimer_tm] at hz same
      rcases (setInsert_mem E hE _ _ _ _).mp (show z ∈ setInsert E _ s.set x from hmem) with e | a
      · rw [if_pos e] at hz
        subst e
        refine List.mem_cons_of_mem _ ?_
        rw [addTimer]
        dsimp only
        rw [earlier_of hz, hr]
        exact List.mem_singleton.mpr rfl
      · exact (same a (by split <;> rfl)).elim
    · rw [if_neg hx] at hmem same
      exact (same hmem rfl).elim
  | remove x =>
    rw [exec] at hmem same
    by_cases hx : x < s.next
    · rw [if_pos hx] at hmem same
      refine (same ((removeTimer_mem hE s x z).mp hmem).1 ?_).elim
      dsimp only
      rw [removeTimer_tm]; split <;> rfl
    · rw [if_neg hx] at hmem same
      exact (same hmem rfl).elim
  | clear => cases hmem

end Timers
end Rtmfp
