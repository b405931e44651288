import Verif.Model.Mobility
import Verif.Props.C29_Cookie

/-! # C83: a session follows its peer only where it answered -/

namespace Rtmfp
namespace Mobility

open Address Cookie

/-- Everything that happened, in order, with what was seen of it; it began with a new instance. -/
inductive Run (hash : Bytes → Bytes) (secret : Bytes) : List (Op × List Out) → State → Prop where
  | init : Run hash secret [] init
  | step {tr : List (Op × List Out)} {s t : State} {op : Op} {out : List Out} : Run hash secret tr s → Mobility.step hash secret s op = some (t, out) →
      Run hash secret (tr ++ [(op, out)]) t

/-- what happened from one moment to another -/
inductive Steps (hash : Bytes → Bytes) (secret : Bytes) : State → List (Op × List Out) → State → Prop where
  | nil {s : State} : Steps hash secret s [] s
  | snoc {s t u : State} {tr : List (Op × List Out)} {op : Op} {out : List Out} : Steps hash secret s tr t → Mobility.step hash secret t op = some (u, out) →
      Steps hash secret s (tr ++ [(op, out)]) u

/-- the time -/
def clock (tr : List (Op × List Out)) : Nat := tr.foldl (fun t e => match e.1 with | .advance a => a | _ => t) 0

/-- the checks that session `k` sent -/
def checks (k : Nat) (tr : List (Op × List Out)) : List (Nat × Sockaddr × Bytes) :=
  tr.flatMap fun e => e.2.filterMap fun o => match o with | .check j i a b => if j = k then some (i, a, b) else none | _ => none

/-- the answers that made session `k` move -/
def moves (k : Nat) (tr : List (Op × List Out)) : List Bytes :=
  tr.filterMap fun e => match e with | (.reply j _ _ b, .moved _ _ _ :: _) => if j = k then some b else none | _ => none

/-- the time a check names -/
def stamp (bytes : Bytes) : Nat := ((VLU.parse (bytes.drop 1)).map Prod.fst).getD 0

/-- where session `k` was opened, or moved to last -/
def place (k : Nat) (tr : List (Op × List Out)) : Option (Nat × Nat × Bytes × Nat) :=
  tr.foldl (fun p e => match e with
    | (.opened j i a, _) => if j = k then some (i, a.family, getIP a, getPort a) else p
    | (_, [.moved j i a]) => if j = k then some (i, a.family, a.ip, a.port) else p
    | _ => p) none

theorem make_split (hash : Bytes → Bytes) (secret : Bytes) (ts ifc : Nat) (addr : Sockaddr) : make hash secret ts ifc addr = MARK :: (VLU.encode ts ++ hash (dough secret ts ifc addr)) := by
  simp [make, VLU.append]

theorem dough_split (secret : Bytes) (ts ifc : Nat) (addr : Sockaddr) : dough secret ts ifc addr = MARK :: (VLU.encode ts ++ (VLU.encode ifc ++ (encodedAddr (some addr) ++ secret))) := by
  simp [dough, VLU.append]

theorem encode_inj {a b : Nat} (h : VLU.encode a = VLU.encode b) : a = b := by
  rw [← (encode_base128 a).2, ← (encode_base128 b).2, h]

theorem dough_inj {secret : Bytes} {t i t' i' : Nat} {a a' : Sockaddr} (ha : IsAddr a) (ha' : IsAddr a') (h : dough secret t i a = dough secret t' i' a') : t = t' ∧ i = i' ∧ a = a' := by
  rw [dough_split, dough_split] at h
  injection h with _ h
  obtain ⟨h1, h2⟩ := vlu_prefix (encode_base128 t).1 (encode_base128 t').1 h
  obtain ⟨h3, h4⟩ := vlu_prefix (encode_base128 i).1 (encode_base128 i').1 h2
  exact ⟨encode_inj h1, encode_inj h3, encodedAddr_inj ha ha' (List.append_cancel_right h4)⟩

theorem stamp_make (hash : Bytes → Bytes) (secret : Bytes) (ts ifc : Nat) (addr : Sockaddr) (h : ts < 2 ^ 64) : stamp (make hash secret ts ifc addr) = ts := by
  rw [make_split, stamp, List.drop_one, List.tail_cons, C01_vlu_round_trip ts h]
  rfl

theorem parse_lt {b : Bytes} {ts n : Nat} (h : VLU.parse b = some (ts, n)) : ts < 2 ^ 64 := by
  obtain ⟨_, _, _, h4⟩ := C02_vlu_parse_value _ _ _ _ h
  rw [if_pos rfl] at h4
  omega

/-- what a step can do -/
inductive Way (hash : Bytes → Bytes) (secret : Bytes) (s : State) : Op → State → List Out → Prop where
  | advance (a : Nat) : s.age ≤ a → Way hash secret s (.advance a) { s with age := a } []
  | opened (k i : Nat) (a : Address) : (s.sess k).ever = false → Way hash secret s (.opened k i a) (upd s k { isOpen := true, ever := true, ifc := i, addr := a, txTs := 0, rxTs := 0 }) []
  | closed (k : Nat) : Way hash secret s (.closed k) (upd s k { s.sess k with isOpen := false }) []
  | ignored (k i : Nat) (a : Sockaddr) (b : Bytes) : Way hash secret s (.reply k i a b) s []
  | moved (k i : Nat) (a : Sockaddr) (ts : Nat) : (s.sess k).isOpen = true → (s.sess k).rxTs < ts → ts < 2 ^ 64 → s.age ≤ (ts + 120) % 2 ^ 64 →
      Way hash secret s (.reply k i a (make hash secret ts i a)) (upd s k { s.sess k with rxTs := ts, ifc := i, addr := (setSockaddr (s.sess k).addr (some a)).1 }) [.moved k i a]
  | quiet (k i : Nat) (a : Sockaddr) : Way hash secret s (.after k i a) s []
  | checked (k i : Nat) (a : Sockaddr) : (s.sess k).isOpen = true → (s.sess k).txTs < s.age →
      Way hash secret s (.after k i a) (upd s k { s.sess k with txTs := s.age }) [.check k i a (make hash secret s.age i a)]

theorem step_way {hash : Bytes → Bytes} {secret : Bytes} {s t : State} {op : Op} {out : List Out} (h : Mobility.step hash secret s op = some (t, out)) : Way hash secret s op t out := by
  cases op with
  | advance a =>
    simp only [Mobility.step] at h
    split at h
    · injection h with h; injection h with h1 h2; subst h1 h2
      exact .advance a (by assumption)
    · cases h
  | opened k i a =>
    simp only [Mobility.step] at h
    split at h
    · cases h
    · rename_i hh
      injection h with h; injection h with h1 h2; subst h1 h2
      exact .opened k i a (by simpa using hh)
  | closed k =>
    simp only [Mobility.step] at h
    injection h with h; injection h with h1 h2; subst h1 h2
    exact .closed k
  | reply k i a b =>
    simp only [Mobility.step] at h
    split at h
    · rename_i ho
      injection h with h
      cases b with
      | nil =>
        simp only [onPingReply] at h
        injection h with h1 h2; subst h1 h2
        exact .ignored k i a []
      | cons m c =>
        simp only [onPingReply] at h
        split at h
        · cases hp : VLU.parse c with
          | none =>
            rw [hp] at h
            injection h with h1 h2; subst h1 h2
            exact .ignored k i a _
          | some r =>
            obtain ⟨ts, n⟩ := r
            rw [hp] at h
            simp only [onReply] at h
            split at h
            · injection h with h1 h2; subst h1 h2
              exact .ignored k i a _
            · rename_i hr
              split at h
              · injection h with h1 h2; subst h1 h2
                exact .ignored k i a _
              · rename_i hb
                have hb := Classical.not_not.mp hb
                injection h with h1 h2; subst h1 h2
                rw [hb]
                have hr' : ¬ (ts ≤ (s.sess k).rxTs ∨ (ts + 120) % 2 ^ 64 < s.age) := hr
                exact .moved k i a ts ho (by omega) (parse_lt hp) (by omega)
        · injection h with h1 h2; subst h1 h2
          exact .ignored k i a _
    · cases h
  | after k i a =>
    simp only [Mobility.step, onAfter] at h
    split at h
    · rename_i hh
      injection h with h; injection h with h1 h2; subst h1 h2
      exact .checked k i a hh.1 hh.2.2
    · injection h with h; injection h with h1 h2; subst h1 h2
      exact .quiet k i a

theorem clock_snoc (tr : List (Op × List Out)) (op : Op) (out : List Out) : clock (tr ++ [(op, out)]) = match op with | .advance a => a | _ => clock tr := by
  rw [clock, List.foldl_append]; rfl

theorem run_clock {hash : Bytes → Bytes} {secret : Bytes} {tr : List (Op × List Out)} {s : State} (h : Run hash secret tr s) : s.age = clock tr := by
  induction h with
  | init => rfl
  | step _ e ih => rw [clock_snoc]; cases step_way e <;> first | rfl | exact ih

theorem clock_mono {hash : Bytes → Bytes} {secret : Bytes} {s t : State} {tr : List (Op × List Out)} (h : Steps hash secret s tr t) : s.age ≤ t.age := by
  induction h with
  | nil => exact Nat.le_refl _
  | snoc _ e ih => cases step_way e <;> first | exact ih | exact Nat.le_trans ih (by assumption)

theorem checks_snoc (k : Nat) (tr : List (Op × List Out)) (op : Op) (out : List Out) : checks k (tr ++ [(op, out)]) = checks k tr ++
    out.filterMap fun o => match o with | .check j i a b => if j = k then some (i, a, b) else none | _ => none := by
  rw [checks, List.flatMap_append]; simp [checks]

theorem moves_snoc (k : Nat) (tr : List (Op × List Out)) (op : Op) (out : List Out) : moves k (tr ++ [(op, out)]) = moves k tr ++ moves k [(op, out)] := by
  rw [moves, List.filterMap_append]; rfl

/-- what is known of a session from what was seen -/
structure Known (hash : Bytes → Bytes) (secret : Bytes) (tr : List (Op × List Out)) (s : State) (k : Nat) : Prop where
  ever : (s.sess k).isOpen = true → (s.sess k).ever = true
  never : (s.sess k).ever = false → checks k tr = [] ∧ moves k tr = []
  tx : ∀ c ∈ checks k tr, stamp c.2.2 ≤ (s.sess k).txTs
  last : (s.sess k).txTs = 0 ∨ ∃ c ∈ checks k tr, stamp c.2.2 = (s.sess k).txTs
  sorted : ((checks k tr).map fun c => stamp c.2.2).Pairwise (· < ·)
  rx : ∀ b ∈ moves k tr, stamp b ≤ (s.sess k).rxTs
  lastMove : (s.sess k).rxTs = 0 ∨ ∃ b ∈ moves k tr, stamp b = (s.sess k).rxTs
  moved : ((moves k tr).map stamp).Pairwise (· < ·)

theorem pairwise_snoc {l : List Nat} {x : Nat} (h : l.Pairwise (· < ·)) (hx : ∀ y ∈ l, y < x) : (l ++ [x]).Pairwise (· < ·) := by
  rw [List.pairwise_append]
  refine ⟨h, by simp, fun y hy z hz => ?_⟩
  rw [List.mem_singleton.mp hz]
  exact hx y hy

theorem known {hash : Bytes → Bytes} {secret : Bytes} {tr : List (Op × List Out)} {s : State} (h : Run hash secret tr s) (hc : clock tr < 2 ^ 64) (k : Nat) : Known hash secret tr s k := by
  induction h with
  | init => exact ⟨fun h => (by cases h), fun _ => ⟨rfl, rfl⟩, fun c hc => (by cases hc), .inl rfl, (by simp [checks]), fun c hc => (by cases hc), .inl rfl, (by simp [moves])⟩
  | @step tr s t op out hr e ih =>
    have hle : clock tr ≤ clock (tr ++ [(op, out)]) := by
      rw [← run_clock hr, ← run_clock (.step hr e)]
      exact clock_mono (.snoc .nil e)
    have q := ih (by omega)
    have same : ∀ t : State, t.sess k = s.sess k → checks k (tr ++ [(op, out)]) = checks k tr → moves k (tr ++ [(op, out)]) = moves k tr → Known hash secret (tr ++ [(op, out)]) t k := by
      intro t e1 e2 e3
      obtain ⟨a, b, c, d, f, g, i, j⟩ := q
      refine ⟨?_, ?_, ?_, ?_, ?_, ?_, ?_, ?_⟩ <;> first | rw [e1, e2, e3] | rw [e1, e2] | rw [e1, e3] | rw [e1] | rw [e2] | rw [e3]
      all_goals assumption
    have hage := run_clock hr
    cases step_way e with
    | advance a _ => exact same _ rfl (by rw [checks_snoc]; simp) (by rw [moves_snoc]; simp [moves])
    | opened j i a hn =>
      have e2 : checks k (tr ++ [(Op.opened j i a, [])]) = checks k tr := by rw [checks_snoc]; simp
      have e3 : moves k (tr ++ [(Op.opened j i a, [])]) = moves k tr := by rw [moves_snoc]; simp [moves]
      by_cases hj : k = j
      · subst hj
        have hs : (upd s k { isOpen := true, ever := true, ifc := i, addr := a, txTs := 0, rxTs := 0 }).sess k = { isOpen := true, ever := true, ifc := i, addr := a, txTs := 0, rxTs := 0 } := if_pos rfl
        obtain ⟨n1, n2⟩ := q.never hn
        refine ⟨?_, ?_, ?_, ?_, ?_, ?_, ?_, ?_⟩
        · rw [hs]; exact fun _ => rfl
        · rw [hs]; exact fun h => by cases h
        · rw [e2, n1]; exact fun c hc => by cases hc
        · rw [hs]; exact .inl rfl
        · rw [e2]; exact q.sorted
        · rw [e3, n2]; exact fun c hc => by cases hc
        · rw [hs]; exact .inl rfl
        · rw [e3]; exact q.moved
      · exact same _ (if_neg hj) e2 e3
    | closed j =>
      have e2 : checks k (tr ++ [(Op.closed j, [])]) = checks k tr := by rw [checks_snoc]; simp
      have e3 : moves k (tr ++ [(Op.closed j, [])]) = moves k tr := by rw [moves_snoc]; simp [moves]
      by_cases hj : k = j
      · subst hj
        have hs : (upd s k { s.sess k with isOpen := false }).sess k = { s.sess k with isOpen := false } := if_pos rfl
        refine ⟨?_, ?_, ?_, ?_, ?_, ?_, ?_, ?_⟩
        · rw [hs]; exact fun h => by cases h
        · rw [hs, e2, e3]; exact q.never
        · rw [hs, e2]; exact q.tx
        · rw [hs, e2]; exact q.last
        · rw [e2]; exact q.sorted
        · rw [hs, e3]; exact q.rx
        · rw [hs, e3]; exact q.lastMove
        · rw [e3]; exact q.moved
      · exact same _ (if_neg hj) e2 e3
    | ignored j i a b => exact same _ rfl (by rw [checks_snoc]; simp) (by rw [moves_snoc]; simp [moves])
    | moved j i a ts ho hrx hts _ =>
      have e2 : ∀ b, checks k (tr ++ [(Op.reply j i a b, [Out.moved j i a])]) = checks k tr := fun b => by rw [checks_snoc]; simp
      by_cases hj : j = k
      · subst hj
        have e3 : moves j (tr ++ [(Op.reply j i a (make hash secret ts i a), [Out.moved j i a])]) = moves j tr ++ [make hash secret ts i a] := by rw [moves_snoc]; simp [moves]
        have hst := stamp_make hash secret ts i a hts
        have hs : (upd s j { s.sess j with rxTs := ts, ifc := i, addr := (setSockaddr (s.sess j).addr (some a)).1 }).sess j =
          { s.sess j with rxTs := ts, ifc := i, addr := (setSockaddr (s.sess j).addr (some a)).1 } := if_pos rfl
        refine ⟨?_, ?_, ?_, ?_, ?_, ?_, ?_, ?_⟩
        · rw [hs]; exact q.ever
        · rw [hs]
          intro hn
          rw [q.ever ho] at hn
          cases hn
        · rw [hs, e2]; exact q.tx
        · rw [hs, e2]; exact q.last
        · rw [e2]; exact q.sorted
        · rw [hs, e3]
          intro b hb
          rcases List.mem_append.mp hb with hb | hb
          · exact Nat.le_of_lt (Nat.lt_of_le_of_lt (q.rx b hb) hrx)
          · rw [List.mem_singleton.mp hb, hst]
        · rw [hs, e3]
          exact .inr ⟨make hash secret ts i a, by simp, hst⟩
        · rw [e3, List.map_append]
          apply pairwise_snoc q.moved
          rw [hst]
          intro y hy
          obtain ⟨b, hb, rfl⟩ := List.mem_map.mp hy
          exact Nat.lt_of_le_of_lt (q.rx b hb) hrx
      · exact same _ (if_neg (fun h => hj h.symm)) (e2 _) (by rw [moves_snoc]; simp [moves, hj])
    | quiet j i a => exact same _ rfl (by rw [checks_snoc]; simp) (by rw [moves_snoc]; simp [moves])
    | checked j i a ho ht =>
      have e3 : ∀ b, moves k (tr ++ [(Op.after j i a, [Out.check j i a b])]) = moves k tr := fun b => by rw [moves_snoc]; simp [moves]
      by_cases hj : j = k
      · subst hj
        have e2 : checks j (tr ++ [(Op.after j i a, [Out.check j i a (make hash secret s.age i a)])]) = checks j tr ++ [(i, a, make hash secret s.age i a)] := by rw [checks_snoc]; simp
        have hst := stamp_make hash secret s.age i a (by omega)
        have hs : (upd s j { s.sess j with txTs := s.age }).sess j = { s.sess j with txTs := s.age } := if_pos rfl
        refine ⟨?_, ?_, ?_, ?_, ?_, ?_, ?_, ?_⟩
        · rw [hs]; exact q.ever
        · rw [hs]
          intro hn
          rw [q.ever ho] at hn
          cases hn
        · rw [hs, e2]
          intro c hc
          rcases List.mem_append.mp hc with hc | hc
          · exact Nat.le_of_lt (Nat.lt_of_le_of_lt (q.tx c hc) ht)
          · rw [List.mem_singleton.mp hc]
            exact Nat.le_of_eq hst
        · rw [hs, e2]
          exact .inr ⟨(i, a, make hash secret s.age i a), by simp, hst⟩
        · rw [e2, List.map_append]
          apply pairwise_snoc q.sorted
          intro y hy
          obtain ⟨b, hb, rfl⟩ := List.mem_map.mp hy
          show stamp b.2.2 < stamp (make hash secret s.age i a)
          rw [hst]
          exact Nat.lt_of_le_of_lt (q.tx b hb) ht
        · rw [hs, e3]; exact q.rx
        · rw [hs, e3]; exact q.lastMove
        · rw [e3]; exact q.moved
      · exact same _ (if_neg (fun h => hj h.symm)) (by rw [checks_snoc]; simp [hj]) (e3 _)

theorem run_split {hash : Bytes → Bytes} {secret : Bytes} {tr : List (Op × List Out)} {s : State} (h : Run hash secret tr s) {pre post : List (Op × List Out)} {e : Op × List Out}
    (he : tr = pre ++ e :: post) : ∃ s1 s2, Run hash secret pre s1 ∧ Mobility.step hash secret s1 e.1 = some (s2, e.2) ∧ s2.age ≤ s.age := by
  induction h generalizing post with
  | init => simp at he
  | @step tr s t op out hr e' ih =>
    have hm : s.age ≤ t.age := clock_mono (.snoc .nil e')
    rcases List.eq_nil_or_concat post with rfl | ⟨post', x, rfl⟩
    · obtain ⟨h1, h2⟩ := List.append_inj' he rfl
      injection h2 with h2
      subst h1 h2
      exact ⟨s, t, hr, e', Nat.le_refl _⟩
    · rw [List.concat_eq_append, ← List.cons_append, ← List.append_assoc] at he
      obtain ⟨h1, h2⟩ := List.append_inj' he rfl
      obtain ⟨s1, s2, a, b, c⟩ := ih h1
      exact ⟨s1, s2, a, b, Nat.le_trans c hm⟩

theorem sent_when {hash : Bytes → Bytes} {secret : Bytes} {tr : List (Op × List Out)} {s : State} (h : Run hash secret tr s) {k : Nat} {c : Nat × Sockaddr × Bytes} (hc : c ∈ checks k tr) :
    ∃ pre post, tr = pre ++ (.after k c.1 c.2.1, [.check k c.1 c.2.1 c.2.2]) :: post ∧ c.2.2 = make hash secret (clock pre) c.1 c.2.1 ∧ clock pre ≤ clock tr := by
  induction h with
  | init => cases hc
  | @step tr s t op out hr e ih =>
    have hm : clock tr ≤ clock (tr ++ [(op, out)]) := by
      rw [← run_clock hr, ← run_clock (.step hr e)]
      exact clock_mono (.snoc .nil e)
    rw [checks_snoc] at hc
    rcases List.mem_append.mp hc with hc | hc
    · obtain ⟨pre, post, h1, h2, h3⟩ := ih hc
      exact ⟨pre, post ++ [(op, out)], by rw [h1]; simp, h2, Nat.le_trans h3 hm⟩
    · have hage := run_clock hr
      cases step_way e with
      | checked j i a ho ht =>
        by_cases hj : j = k
        · subst hj
          simp at hc
          subst hc
          exact ⟨tr, [], rfl, by rw [← hage], hm⟩
        · simp [hj] at hc
      | _ => simp at hc

end Mobility

open Mobility
open Address hiding Op step init
open Cookie hiding make check

/-- Nobody makes a valid check up: whenever an answer is received that is a valid check for the address it comes from, the instance had sent this very check to someone. -/
def Mobility.Unforged (hash : Bytes → Bytes) (secret : Bytes) (tr : List (Op × List Out)) : Prop :=
  ∀ pre k i a b out post, tr = pre ++ (.reply k i a b, out) :: post → ∀ ts, b = make hash secret ts i a → ∃ j i' a', (i', a', b) ∈ checks j pre

/-- The hash function has no collisions among what is hashed for checks. -/
def Mobility.NoCollision (hash : Bytes → Bytes) (secret : Bytes) : Prop :=
  ∀ t i a t' i' a', IsAddr a → IsAddr a' → hash (dough secret t i a) = hash (dough secret t' i' a') → dough secret t i a = dough secret t' i' a'

/-- packets come from IP addresses -/
def Mobility.FromAddr (tr : List (Op × List Out)) : Prop := ∀ e ∈ tr, ∀ k i a, (e.1 = .after k i a → IsAddr a) ∧ ∀ b, e.1 = .reply k i a b → IsAddr a

/-- C83. A session moves to an address only if within the last 120 seconds the instance had sent a check to that address, by that interface, and the check came back from there. -/
theorem C83_only_where_answered {hash : Bytes → Bytes} {secret : Bytes} {tr : List (Op × List Out)} {s : State} (h : Run hash secret tr s) (hc : clock tr < 2 ^ 63)
    (hu : Unforged hash secret tr) (hn : NoCollision hash secret) (ha : FromAddr tr)
    {pre post : List (Op × List Out)} {op : Op} {out : List Out} (he : tr = pre ++ (op, out) :: post) {k i : Nat} {a : Sockaddr} (hm : .moved k i a ∈ out) :
    ∃ j b pre' post', pre = pre' ++ (.after j i a, [.check j i a b]) :: post' ∧ op = .reply k i a b ∧ clock pre' ≤ clock pre ∧ clock pre ≤ clock pre' + 120 := by
  obtain ⟨s1, s2, hr, hs, hage⟩ := run_split h he
  have hc1 := run_clock hr
  have hct := run_clock h
  have h12 : s1.age ≤ s2.age := clock_mono (.snoc .nil hs)
  have w := step_way hs
  simp only at w
  cases w with
  | moved k' i' a' ts ho hrx hts hlate =>
    simp only [List.mem_singleton] at hm
    injection hm with e1 e2 e3
    subst e1 e2 e3
    obtain ⟨j, i', a', hsent⟩ := hu _ _ _ _ _ _ _ he ts rfl
    obtain ⟨pre', post', h1, h2, h3⟩ := sent_when hr hsent
    simp only at h1 h2
    have hia : IsAddr a := (ha (.reply k i a (make hash secret ts i a), [.moved k i a]) (by rw [he]; simp) k i a).2 _ rfl
    have hia' : IsAddr a' := (ha (.after j i' a', [.check j i' a' (make hash secret ts i a)]) (by rw [he, h1]; simp) j i' a').1 rfl
    have h4 := h2
    rw [make_split, make_split] at h4
    injection h4 with _ h4
    obtain ⟨h5, h6⟩ := vlu_prefix (encode_base128 ts).1 (encode_base128 (clock pre')).1 h4
    obtain ⟨h7, h8, h9⟩ := dough_inj hia hia' (hn _ _ _ _ _ _ hia hia' h6)
    subst h8 h9
    exact ⟨j, _, pre', post', h1, rfl, h3, by omega⟩
  | _ => simp at hm

/-- C83. A check can't be made without the secret: two instances that make the same check have the same secret, unless the two particular strings they hash are a collision. -/
theorem C83_needs_secret {hash : Bytes → Bytes} {s1 s2 : Bytes} (hl : s1.length = s2.length) {t i t' i' : Nat} {a a' : Sockaddr} (ha : IsAddr a) (ha' : IsAddr a')
    (hn : hash (dough s1 t i a) = hash (dough s2 t' i' a') → dough s1 t i a = dough s2 t' i' a') (h : make hash s1 t i a = make hash s2 t' i' a') :
    s1 = s2 ∧ t = t' ∧ i = i' ∧ a = a' := by
  rw [make_split, make_split] at h
  injection h with _ h
  obtain ⟨_, h6⟩ := vlu_prefix (encode_base128 t).1 (encode_base128 t').1 h
  have h7 := hn h6
  have hs : s1 = s2 := by
    rw [dough, dough] at h7
    exact (List.append_inj' h7 hl).2
  subst hs
  exact ⟨rfl, dough_inj ha ha' h7⟩

/-- C83. Each answer that moves a session names a later time than those before: old answers, seen again, have no effect. -/
theorem C83_no_replay {hash : Bytes → Bytes} {secret : Bytes} {tr : List (Op × List Out)} {s : State} (h : Run hash secret tr s) (hc : clock tr < 2 ^ 64) (k : Nat) :
    ((moves k tr).map stamp).Pairwise (· < ·) := (known h hc k).moved

/-- C83. Whatever packets come from wherever, a session sends at most one check each second; a check names the time it was sent. -/
theorem C83_rate {hash : Bytes → Bytes} {secret : Bytes} {tr : List (Op × List Out)} {s : State} (h : Run hash secret tr s) (hc : clock tr < 2 ^ 64) (k : Nat) :
    ((checks k tr).map fun c => stamp c.2.2).Pairwise (· < ·) ∧
    ∀ c ∈ checks k tr, ∃ pre post, tr = pre ++ (.after k c.1 c.2.1, [.check k c.1 c.2.1 c.2.2]) :: post ∧ stamp c.2.2 = clock pre := by
  refine ⟨(known h hc k).sorted, fun c hk => ?_⟩
  obtain ⟨pre, post, h1, h2, h3⟩ := sent_when h hk
  exact ⟨pre, post, h1, by rw [h2]; exact stamp_make _ _ _ _ _ (by omega)⟩

theorem Mobility.place_snoc (k : Nat) (tr : List (Op × List Out)) (e : Op × List Out) : place k (tr ++ [e]) = match e with
    | (.opened j i a, _) => if j = k then some (i, a.family, getIP a, getPort a) else place k tr
    | (_, [.moved j i a]) => if j = k then some (i, a.family, a.ip, a.port) else place k tr
    | _ => place k tr := by
  rw [place, List.foldl_append]; rfl

/-- C83. The packets of a session go to where it was opened, or where it moved last. -/
theorem C83_destination {hash : Bytes → Bytes} {secret : Bytes} {tr : List (Op × List Out)} {s : State} (h : Run hash secret tr s) (ha : FromAddr tr) (k : Nat)
    (ho : (s.sess k).isOpen = true) : place k tr = some ((s.sess k).ifc, (s.sess k).addr.family, getIP (s.sess k).addr, getPort (s.sess k).addr) := by
  have key : ((s.sess k).ever = true → place k tr = some ((s.sess k).ifc, (s.sess k).addr.family, getIP (s.sess k).addr, getPort (s.sess k).addr)) ∧ ((s.sess k).isOpen = true → (s.sess k).ever = true) := by
    clear ho
    induction h with
    | init => exact ⟨fun h => (by cases h), fun h => (by cases h)⟩
    | @step tr s t op out hr e ih =>
      obtain ⟨ih, ih2⟩ := ih (fun e he => ha e (List.mem_append_left _ he))
      rw [place_snoc]
      cases step_way e with
      | advance a _ => exact ⟨ih, ih2⟩
      | opened j i a hn =>
        by_cases hj : j = k
        · subst hj; simp [upd]
        · simp only [upd, if_neg hj, if_neg (fun h => hj (Eq.symm h))]; exact ⟨ih, ih2⟩
      | closed j =>
        by_cases hj : j = k
        · subst hj; simp only [upd, if_pos]; exact ⟨ih, fun h => (by cases h)⟩
        · simp only [upd, if_neg (fun h => hj (Eq.symm h))]; exact ⟨ih, ih2⟩
      | ignored j i a b => exact ⟨ih, ih2⟩
      | moved j i a ts ho hrx hts _ =>
        by_cases hj : j = k
        · subst hj
          have hia : IsAddr a := (ha _ (List.mem_append_right _ (List.mem_singleton_self _)) j i a).2 _ rfl
          simp only [upd, if_pos]
          refine ⟨fun _ => ?_, ih2⟩
          simp only [setSockaddr]
          rw [if_pos hia.2]
          obtain ⟨⟨p1, p2, p3⟩, p4⟩ := hia
          rcases p4 with p4 | p4
          · simp [getIP, getPort, ipLength, p4, p2 p4]
          · simp [getIP, getPort, ipLength, p4, p3 p4]
        · simp only [upd, if_neg hj, if_neg (fun h => hj (Eq.symm h))]; exact ⟨ih, ih2⟩
      | quiet j i a => exact ⟨ih, ih2⟩
      | checked j i a ho ht =>
        by_cases hj : j = k
        · subst hj; simp only [upd, if_pos]; exact ⟨ih, ih2⟩
        · simp only [upd, if_neg (fun h => hj (Eq.symm h))]; exact ⟨ih, ih2⟩
  exact key.1 (key.2 ho)

/-- sessions are opened to IP addresses -/
def Mobility.ToAddr (tr : List (Op × List Out)) : Prop := ∀ e ∈ tr, ∀ k i A, e.1 = .opened k i A → Sound A

theorem Mobility.place_len {hash : Bytes → Bytes} {secret : Bytes} {tr : List (Op × List Out)} {s : State} (h : Run hash secret tr s) (haf : FromAddr tr) (hop : ToAddr tr) (k : Nat)
    {i f p : Nat} {ip : Bytes} (hp : place k tr = some (i, f, ip, p)) : (f = 2 → ip.length = 4) ∧ (f = 10 → ip.length = 16) := by
  induction h generalizing i f ip p with
  | init => cases hp
  | @step tr s t op out hr e ih =>
    have ih := @ih (fun e he => haf e (List.mem_append_left _ he)) (fun e he => hop e (List.mem_append_left _ he))
    rw [place_snoc] at hp
    cases step_way e with
    | opened j i' a hn =>
      by_cases hj : j = k
      · simp only [if_pos hj] at hp
        have hs := hop _ (List.mem_append_right _ (List.mem_singleton_self _)) j i' a rfl
        injection hp with hp
        injection hp with e1 hp
        injection hp with e2 hp
        injection hp with e3 hp
        subst e2 e3
        rw [getIP_eq hs]
        rcases hs.kind with q | q | q
        · exact ⟨fun _ => q.2, fun w => by omega⟩
        · exact ⟨fun w => by omega, fun _ => q.2⟩
        · exact ⟨fun w => by omega, fun w => by omega⟩
      · simp only [if_neg hj] at hp
        exact ih hp
    | moved j i' a ts ho hrx hts _ =>
      by_cases hj : j = k
      · simp only [if_pos hj] at hp
        have hia : IsAddr a := (haf _ (List.mem_append_right _ (List.mem_singleton_self _)) j i' a).2 _ rfl
        injection hp with hp
        injection hp with e1 hp
        injection hp with e2 hp
        injection hp with e3 hp
        subst e2 e3
        exact ⟨hia.1.2.1, hia.1.2.2⟩
      · simp only [if_neg hj] at hp
        exact ih hp
    | _ => exact ih hp

/-- C83. A session that sent no check yet in this second gets a packet from elsewhere: it sends a check there. When the check comes back from there within 120 seconds, in whatever way things went
on meanwhile but that the session didn't move, the session moves there. -/
theorem C83_follows {hash : Bytes → Bytes} {secret : Bytes} {tr : List (Op × List Out)} {s : State} (h : Run hash secret tr s) (hc : clock tr < 2 ^ 63) {k i : Nat} {a : Sockaddr} (ha : IsAddr a)
    (ho : (s.sess k).isOpen = true) (hp : place k tr ≠ some (i, a.family, a.ip, a.port)) (haf : FromAddr tr) (hop : ToAddr tr) (h1 : 1 ≤ clock tr) (hf : ∀ c ∈ checks k tr, stamp c.2.2 < clock tr)
    (hm : ∀ b ∈ moves k tr, stamp b < clock tr) :
    ∃ b s1, Mobility.step hash secret s (.after k i a) = some (s1, [.check k i a b]) ∧
      ∀ tr2 s2, Steps hash secret s1 tr2 s2 → (s2.sess k).isOpen = true → moves k tr2 = [] → s2.age ≤ clock tr + 120 →
        ∃ s3, Mobility.step hash secret s2 (.reply k i a b) = some (s3, [.moved k i a]) := by
  have q := known h (by omega) k
  have hage := run_clock h
  have htx : (s.sess k).txTs < s.age := by
    rcases q.last with e | ⟨c, hc, e⟩
    · omega
    · rw [← e, hage]; exact hf c hc
  have hrx : (s.sess k).rxTs < s.age := by
    rcases q.lastMove with e | ⟨c, hc, e⟩
    · omega
    · rw [← e, hage]; exact hm c hc
  have hpl : ¬ (i = (s.sess k).ifc ∧ Address.eq (ofSockaddr (some a) 0) (s.sess k).addr = true) := by
    rintro ⟨e1, e2⟩
    apply hp
    have d := C83_destination h haf k ho
    rw [d, e1]
    simp only [Address.eq, Bool.and_eq_true, decide_eq_true_eq] at e2
    obtain ⟨⟨e2, e3⟩, e4⟩ := e2
    obtain ⟨⟨p1, p2, p3⟩, p4⟩ := ha
    have hfam : (ofSockaddr (some a) 0).family = a.family := by simp only [ofSockaddr, setSockaddr]; rw [if_pos p4]
    have hport : getPort (ofSockaddr (some a) 0) = a.port := by
      simp only [ofSockaddr, setSockaddr]; rw [if_pos p4]; simp only [getPort]; rw [if_pos p4]
    have hip : getIP (ofSockaddr (some a) 0) = a.ip := by
      simp only [ofSockaddr, setSockaddr]; rw [if_pos p4]
      rcases p4 with p4 | p4
      · simp [getIP, ipLength, p4, p2 p4]
      · simp [getIP, ipLength, p4, p3 p4]
    rw [hip] at e3
    rw [hport] at e4
    rw [hfam] at e2
    have hlen := place_len h haf hop k d
    have hl : a.ip.length = (getIP (s.sess k).addr).length := by
      rcases p4 with p4 | p4
      · rw [p2 p4, hlen.1 (by rw [← e2, p4])]
      · rw [p3 p4, hlen.2 (by rw [← e2, p4])]
    rw [← e2, ← ((memcmp_value _ _ hl).2.2).mp e3, ← e4]
  refine ⟨make hash secret s.age i a, upd s k { s.sess k with txTs := s.age }, ?_, ?_⟩
  · simp only [Mobility.step, onAfter]
    rw [if_pos ⟨ho, hpl, htx⟩]
  · intro tr2 s2 hs hopen hmv hlate
    have key : (s2.sess k).rxTs < s.age := by
      have hgen : ∀ s1 : State, (s1.sess k).rxTs < s.age → (s1.sess k).ever = true → ∀ tr2 s2, Steps hash secret s1 tr2 s2 → moves k tr2 = [] → (s2.sess k).rxTs < s.age ∧ (s2.sess k).ever = true := by
        clear hs hopen hmv hlate
        intro s1 h1 h1e tr2 s2 hs hmv
        induction hs with
        | nil => exact ⟨h1, h1e⟩
        | @snoc t u tr2 op out hs e ih =>
          rw [moves_snoc] at hmv
          obtain ⟨m1, m2⟩ := List.append_eq_nil_iff.mp hmv
          obtain ⟨i1, i2⟩ := ih m1
          cases step_way e with
          | opened j i a hn =>
            by_cases hj : k = j
            · subst hj; rw [i2] at hn; cases hn
            · simp only [upd, if_neg hj]; exact ⟨i1, i2⟩
          | closed j =>
            by_cases hj : k = j
            · subst hj; simp only [upd, if_pos]; exact ⟨i1, i2⟩
            · simp only [upd, if_neg hj]; exact ⟨i1, i2⟩
          | moved j i a ts _ _ _ _ =>
            by_cases hj : k = j
            · subst hj; simp [moves] at m2
            · simp only [upd, if_neg hj]; exact ⟨i1, i2⟩
          | checked j i a _ _ =>
            by_cases hj : k = j
            · subst hj; simp only [upd, if_pos]; exact ⟨i1, i2⟩
            · simp only [upd, if_neg hj]; exact ⟨i1, i2⟩
          | _ => exact ⟨i1, i2⟩
      exact (hgen (upd s k { s.sess k with txTs := s.age }) (by simp only [upd, if_pos]; exact hrx) (by simp only [upd, if_pos]; exact q.ever ho) tr2 s2 hs hmv).1
    have hpar : VLU.parse (VLU.encode s.age ++ hash (dough secret s.age i a)) = some (s.age, (VLU.encode s.age).length) := C01_vlu_round_trip s.age (by omega) _ _
    have hno : ¬ (s.age ≤ (s2.sess k).rxTs ∨ (s.age + 120) % 2 ^ 64 < s2.age) := by omega
    refine ⟨upd s2 k { s2.sess k with rxTs := s.age, ifc := i, addr := (setSockaddr (s2.sess k).addr (some a)).1 }, ?_⟩
    simp only [Mobility.step]
    rw [if_pos hopen, make_split]
    simp only [onPingReply, if_pos, hpar, onReply]
    rw [if_neg (show ¬ (s.age ≤ (s2.sess k).rxTs ∨ (s.age + MAX_LIFETIME) % W64 < s2.age) from hno), if_neg (fun hh => hh (make_split hash secret s.age i a).symm)]

namespace Mobility

/-- things happen, one after another -/
def exec (hash : Bytes → Bytes) (secret : Bytes) : List Op → List (Op × List Out) → State → Option (List (Op × List Out) × State)
  | [], tr, s => some (tr, s)
  | op :: ops, tr, s => match Mobility.step hash secret s op with | none => none | some (t, out) => exec hash secret ops (tr ++ [(op, out)]) t

theorem exec_run {hash : Bytes → Bytes} {secret : Bytes} {ops : List Op} {tr tr' : List (Op × List Out)} {s s' : State} (h : Run hash secret tr s) (e : exec hash secret ops tr s = some (tr', s')) :
    Run hash secret tr' s' := by
  induction ops generalizing tr s with
  | nil => injection e with e; injection e with e1 e2; subst e1 e2; exact h
  | cons op ops ih =>
    simp only [exec] at e
    cases hs : Mobility.step hash secret s op with
    | none => rw [hs] at e; cases e
    | some r => obtain ⟨t, out⟩ := r; rw [hs] at e; exact ih (.step h hs) e

/-- a hash function without collisions, for examples -/
def idHash (x : Bytes) : Bytes := x

def hostA : Sockaddr := { family := 2, ip := [192, 0, 2, 7], port := 1935 }
def hostB : Sockaddr := { family := 2, ip := [192, 0, 2, 8], port := 1935 }
def hostC : Sockaddr := { family := 10, ip := List.replicate 16 3, port := 40000 }

theorem hostA_ok : IsAddr hostA := ⟨⟨by decide, fun _ => rfl, fun h => by cases h⟩, .inl rfl⟩
theorem hostC_ok : IsAddr hostC := ⟨⟨by decide, fun h => absurd h (by decide), fun _ => rfl⟩, .inr rfl⟩

/-- two sessions; a packet of the first comes from elsewhere, which is checked -/
def demo : List Op := [.opened 1 1 (ofSockaddr (some hostA) 0), .opened 2 1 (ofSockaddr (some hostB) 0), .advance 5, .after 1 1 hostA, .after 1 2 hostC, .after 1 2 hostC, .advance 7]

/-- and the answer comes back -/
def answer (k : Nat) : List Op := [.reply k 2 hostC (make idHash [9, 9] 5 2 hostC)]

def traceOf (k : Nat) : List (Op × List Out) :=
  [(.opened 1 1 (ofSockaddr (some hostA) 0), []), (.opened 2 1 (ofSockaddr (some hostB) 0), []), (.advance 5, []), (.after 1 1 hostA, []),
   (.after 1 2 hostC, [.check 1 2 hostC (make idHash [9, 9] 5 2 hostC)]), (.after 1 2 hostC, []), (.advance 7, []), (.reply k 2 hostC (make idHash [9, 9] 5 2 hostC), [.moved k 2 hostC])]

theorem demo_run (k : Nat) (hk : k = 1 ∨ k = 2) : ∃ s, Run idHash [9, 9] (traceOf k) s := by
  rcases hk with rfl | rfl
  · exact ⟨_, exec_run (ops := demo ++ answer 1) .init rfl⟩
  · exact ⟨_, exec_run (ops := demo ++ answer 2) .init rfl⟩

theorem demo_from (k : Nat) : FromAddr (traceOf k) := by
  intro e he j i a
  simp only [traceOf, List.mem_cons, List.not_mem_nil, or_false] at he
  rcases he with rfl | rfl | rfl | rfl | rfl | rfl | rfl | rfl <;> simp <;> intros <;> subst_vars <;> first | exact hostA_ok | exact hostC_ok

theorem demo_copied (k : Nat) : Unforged idHash [9, 9] (traceOf k) := by
  intro pre j i a b out post he ts hb
  simp only [traceOf] at he
  rcases pre with _ | ⟨e0, pre⟩
  · simp at he
  rw [List.cons_append] at he
  injection he with h0 he
  rcases pre with _ | ⟨e1, pre⟩
  · simp at he
  rw [List.cons_append] at he
  injection he with h1 he
  rcases pre with _ | ⟨e2, pre⟩
  · simp at he
  rw [List.cons_append] at he
  injection he with h2 he
  rcases pre with _ | ⟨e3, pre⟩
  · simp at he
  rw [List.cons_append] at he
  injection he with h3 he
  rcases pre with _ | ⟨e4, pre⟩
  · simp at he
  rw [List.cons_append] at he
  injection he with h4 he
  rcases pre with _ | ⟨e5, pre⟩
  · simp at he
  rw [List.cons_append] at he
  injection he with h5 he
  rcases pre with _ | ⟨e6, pre⟩
  · simp at he
  rw [List.cons_append] at he
  injection he with h6 he
  rcases pre with _ | ⟨e7, pre⟩
  · rw [List.nil_append] at he
    injection he with h7 he
    injection h7 with h7 h8
    injection h7 with h7 h9 h10 h11
    subst h11 h4
    exact ⟨1, 2, hostC, by simp [checks]⟩
  · simp at he

theorem demo_to (k : Nat) : ToAddr (traceOf k) := by
  intro e he j i A
  have hB : IsAddr hostB := ⟨⟨by decide, fun _ => rfl, fun h => by cases h⟩, .inl rfl⟩
  simp only [traceOf, List.mem_cons, List.not_mem_nil, or_false] at he
  rcases he with rfl | rfl | rfl | rfl | rfl | rfl | rfl | rfl <;> simp <;> intros <;> subst_vars <;> first | exact addr_sound hostA_ok | exact addr_sound hB

theorem id_free (secret : Bytes) : NoCollision idHash secret := fun _ _ _ _ _ _ _ _ h => h

end Mobility

/-- The checks are the instance's: a session can move to an address that was checked for another session, without a check of its own. -/
theorem C83_foreign_check : ∃ tr s, Run idHash [9, 9] tr s ∧ Unforged idHash [9, 9] tr ∧ FromAddr tr ∧ checks 2 tr = [] ∧ (s.sess 2).isOpen = true ∧
    place 2 tr = some (2, hostC.family, hostC.ip, hostC.port) := by
  exact ⟨_, _, exec_run (ops := demo ++ answer 2) .init rfl, demo_copied 2, demo_from 2, rfl, rfl, rfl⟩

-- C83_only_where_answered, C83_no_replay, C83_rate, C83_destination
example : ∃ s, Run idHash [9, 9] (traceOf 1) s ∧ clock (traceOf 1) < 2 ^ 63 ∧ Unforged idHash [9, 9] (traceOf 1) ∧ NoCollision idHash [9, 9] ∧ FromAddr (traceOf 1) ∧ ToAddr (traceOf 1) ∧
    (moves 1 (traceOf 1)).length = 1 ∧ (checks 1 (traceOf 1)).length = 1 := by
  obtain ⟨s, h⟩ := demo_run 1 (.inl rfl)
  exact ⟨s, h, by decide, demo_copied 1, id_free _, demo_from 1, demo_to 1, rfl, rfl⟩

example : make idHash [9, 9] 5 2 hostC ≠ make idHash [9, 8] 5 2 hostC := fun h => absurd (C83_needs_secret (s1 := [9, 9]) (s2 := [9, 8]) (hash := idHash) rfl hostC_ok hostC_ok (fun h => h) h).1 (by decide)

-- C83_follows: the first three things of the example happened, and now a packet comes from elsewhere
example : ∃ s, Run idHash [9, 9] ((traceOf 1).take 3) s ∧ clock ((traceOf 1).take 3) = 5 ∧ (s.sess 1).isOpen = true ∧
    place 1 ((traceOf 1).take 3) ≠ some (2, hostC.family, hostC.ip, hostC.port) ∧ FromAddr ((traceOf 1).take 3) ∧ ToAddr ((traceOf 1).take 3) ∧
    checks 1 ((traceOf 1).take 3) = [] ∧ moves 1 ((traceOf 1).take 3) = [] := by
  refine ⟨_, exec_run (ops := demo.take 3) .init rfl, rfl, rfl, by decide, fun e he => demo_from 1 e (List.mem_of_mem_take he), fun e he => demo_to 1 e (List.mem_of_mem_take he), rfl, rfl⟩

end Rtmfp
