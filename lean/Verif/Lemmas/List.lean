import Verif.Model.List
import Verif.Spec.List
import Mathlib.Tactic.Tauto

namespace Rtmfp

/-! ### Rings of links -/

/-- consecutive elements are linked in both directions -/
def Path (nx pv : Nat → Nat) : List Nat → Prop
  | a :: b :: l => (nx a = b ∧ pv b = a) ∧ Path nx pv (b :: l)
  | _ => True

/-- a ring: consecutive elements and last/first are linked -/
def Ring (nx pv : Nat → Nat) : List Nat → Prop
  | [] => True
  | h :: t => Path nx pv (h :: t ++ [h])

theorem path_split (nx pv : Nat → Nat) (p : List Nat) (a : Nat) (q : List Nat) :
    Path nx pv (p ++ a :: q) ↔ Path nx pv (p ++ [a]) ∧ Path nx pv (a :: q) := by
  induction p with
  | nil => simp [Path]
  | cons x p ih =>
    cases p with
    | nil => cases q <;> simp [Path]
    | cons y p =>
      simp only [List.cons_append, Path] at ih ⊢
      rw [ih]; constructor
      · rintro ⟨h, h1, h2⟩; exact ⟨⟨h, h1⟩, h2⟩
      · rintro ⟨⟨h, h1⟩, h2⟩; exact ⟨h, h1, h2⟩

theorem path_congr (nx pv nx' pv' : Nat → Nat) (l : List Nat) (h1 : ∀ a ∈ l.dropLast, nx' a = nx a)
    (h2 : ∀ b ∈ l.tail, pv' b = pv b) (h : Path nx pv l) : Path nx' pv' l := by
  induction l with
  | nil => trivial
  | cons x l ih =>
    cases l with
    | nil => trivial
    | cons y l =>
      obtain ⟨⟨a, b⟩, c⟩ := h
      refine ⟨⟨?_, ?_⟩, ?_⟩
      · rw [h1 x (by simp)]; exact a
      · rw [h2 y (by simp)]; exact b
      · apply ih _ _ c
        · intro a ha; exact h1 a (by simp [ha])
        · intro b hb; exact h2 b (by simp at hb ⊢; exact Or.inr hb)

theorem ring_congr (nx pv nx' pv' : Nat → Nat) (l : List Nat) (h1 : ∀ a ∈ l, nx' a = nx a)
    (h2 : ∀ b ∈ l, pv' b = pv b) (h : Ring nx pv l) : Ring nx' pv' l := by
  cases l with
  | nil => trivial
  | cons x l =>
    apply path_congr nx pv _ _ _ _ _ h
    · intro a ha
      rw [List.dropLast_concat] at ha
      exact h1 a ha
    · intro b hb
      simp at hb
      apply h2; simp; tauto

theorem ring_rotate1 (nx pv : Nat → Nat) (x : Nat) (l : List Nat) :
    Ring nx pv (x :: l) ↔ Ring nx pv (l ++ [x]) := by
  cases l with
  | nil => rfl
  | cons y m =>
    have e1 : Ring nx pv (x :: y :: m) ↔ (nx x = y ∧ pv y = x) ∧ Path nx pv (y :: m ++ [x]) := by
      simp [Ring, Path]
    have e2 : Ring nx pv (y :: m ++ [x]) ↔ Path nx pv (y :: m ++ [x]) ∧ (nx x = y ∧ pv y = x) := by
      have : Ring nx pv (y :: m ++ [x]) ↔ Path nx pv ((y :: m) ++ x :: [y]) := by simp [Ring]
      rw [this, path_split]
      simp [Path]
    rw [e1, e2, and_comm]

theorem ring_rotate (nx pv : Nat → Nat) (p q : List Nat) :
    Ring nx pv (p ++ q) ↔ Ring nx pv (q ++ p) := by
  induction p generalizing q with
  | nil => simp
  | cons x p ih =>
    rw [List.cons_append, ring_rotate1, List.append_assoc, ih]
    simp

theorem ring_ends (nx pv : Nat → Nat) (x : Nat) (l : List Nat) (h : Ring nx pv (x :: l)) :
    nx x = (l ++ [x]).head (by simp) ∧ pv x = (x :: l).getLast (by simp) := by
  constructor
  · cases l with
    | nil => exact h.1.1
    | cons y m => exact h.1.1
  · rcases List.eq_nil_or_concat l with rfl | ⟨m, z, rfl⟩
    · exact h.1.2
    · have h' : Path nx pv ((x :: m) ++ z :: [x]) := by simpa [Ring] using h
      rw [path_split] at h'
      have : pv x = z := h'.2.1.2
      rw [this, List.getLast_cons (by simp)]; simp

theorem ring_unlink (nx pv : Nat → Nat) (x : Nat) (l : List Nat) (hne : l ≠ [])
    (hnd : (x :: l).Nodup) (h : Ring nx pv (x :: l)) :
    Ring (fset nx (pv x) (nx x)) (fset pv (nx x) (pv x)) l ∧ pv x ∈ l ∧ nx x ∈ l := by
  obtain ⟨e1, e2⟩ := ring_ends nx pv x l h
  obtain ⟨m', z, hl⟩ : ∃ m' z, l = m' ++ [z] := ⟨l.dropLast, l.getLast hne, (List.dropLast_concat_getLast hne).symm⟩
  cases l with
  | nil => exact absurd rfl hne
  | cons y m =>
    have e1' : nx x = y := by rw [e1]; simp
    have e2' : pv x = z := by rw [e2, List.getLast_cons (by simp)]; simp [hl]
    rw [e1', e2']
    have hz : z ∈ y :: m := by rw [hl]; simp
    refine ⟨?_, hz, by simp⟩
    have hp : Path nx pv (y :: m) := by
      have h0 : Path nx pv ((x :: y :: m) ++ [x]) := h
      rw [hl] at h0
      have h0' : Path nx pv ((x :: m') ++ z :: [x]) := by simpa using h0
      rw [path_split] at h0'
      have h1 := h0'.1
      have h2 : Path nx pv (x :: (y :: m)) := by rw [hl]; simpa using h1
      exact h2.2
    rw [List.nodup_cons] at hnd
    obtain ⟨hx, hnd⟩ := hnd
    have hnd' := hnd
    rw [hl, List.nodup_append] at hnd'
    have hp' : Path (fset nx z y) (fset pv y z) (y :: m) := by
      apply path_congr nx pv _ _ _ _ _ hp
      · intro a ha
        have ha' : a ∈ m' := by rw [hl, List.dropLast_concat] at ha; exact ha
        have : a ≠ z := fun h => by exact hnd'.2.2 a ha' z (by simp) h
        simp [fset, this]
      · intro b hb
        simp at hb
        have : b ≠ y := by rintro rfl; exact (List.nodup_cons.mp hnd).1 hb
        simp [fset, this]
    show Path _ _ (y :: m ++ [y])
    rw [hl] at hp' ⊢
    have : m' ++ [z] ++ [y] = m' ++ z :: [y] := by simp
    rw [this, path_split]
    refine ⟨hp', ?_⟩
    simp [Path, fset]

theorem ring_linkBefore (nx pv : Nat → Nat) (x b : Nat) (l : List Nat) (hnd : (b :: l).Nodup)
    (hx : x ∉ b :: l) (h : Ring nx pv (b :: l)) :
    Ring (fset (fset nx x b) (pv b) x) (fset (fset pv x (pv b)) b x) (b :: l ++ [x]) ∧ pv b ∈ b :: l := by
  obtain ⟨e1, e2⟩ := ring_ends nx pv b l h
  obtain ⟨m, z, hl⟩ : ∃ m z, b :: l = m ++ [z] :=
    ⟨(b :: l).dropLast, (b :: l).getLast (by simp), (List.dropLast_concat_getLast (by simp)).symm⟩
  have ez : pv b = z := by rw [e2]; simp [hl]
  rw [ez]
  have hz : z ∈ b :: l := by rw [hl]; simp
  refine ⟨?_, hz⟩
  have hxz : x ≠ z := by rintro rfl; exact hx hz
  have hxb : x ≠ b := by rintro rfl; simp at hx
  have hp : Path nx pv (b :: l) := by
    have h0 : Path nx pv ((b :: l) ++ [b]) := h
    rw [hl] at h0
    have h0' : Path nx pv (m ++ z :: [b]) := by simpa using h0
    rw [path_split] at h0'
    rw [hl]; exact h0'.1
  have hnd' := hnd
  rw [hl, List.nodup_append] at hnd'
  have hp' : Path (fset (fset nx x b) z x) (fset (fset pv x z) b x) (b :: l) := by
    apply path_congr nx pv _ _ _ _ _ hp
    · intro a ha
      have ha' : a ∈ m := by rw [hl, List.dropLast_concat] at ha; exact ha
      have h1 : a ≠ z := fun h => by exact hnd'.2.2 a ha' z (by simp) h
      have h2 : a ≠ x := by rintro rfl; exact hx (by rw [hl]; simp [ha'])
      simp [fset, h1, h2]
    · intro a ha
      simp at ha
      have h1 : a ≠ b := by rintro rfl; exact (List.nodup_cons.mp hnd).1 ha
      have h2 : a ≠ x := by rintro rfl; exact hx (by simp [ha])
      simp [fset, h1, h2]
  show Path _ _ (b :: l ++ [x] ++ [b])
  rw [hl] at hp' ⊢
  have e : m ++ [z] ++ [x] ++ [b] = m ++ z :: [x, b] := by simp
  rw [e, path_split]
  refine ⟨hp', ?_⟩
  simp [Path, fset, hxb, hxz]

theorem ring_linkAfter (nx pv : Nat → Nat) (x a : Nat) (l : List Nat) (hnd : (a :: l).Nodup)
    (hx : x ∉ a :: l) (h : Ring nx pv (a :: l)) :
    Ring (fset (fset nx x (nx a)) a x) (fset (fset pv x a) (nx a) x) (a :: x :: l) ∧ nx a ∈ a :: l := by
  have hxa : x ≠ a := by rintro rfl; simp at hx
  obtain ⟨e1, -⟩ := ring_ends nx pv a l h
  cases l with
  | nil =>
    have : nx a = a := by rw [e1]; simp
    rw [this]
    have hax := hxa.symm
    simp [Ring, Path, fset, hxa, hax]
  | cons y m =>
    have ey : nx a = y := by rw [e1]; simp
    rw [ey]
    have hxy : x ≠ y := by rintro rfl; simp at hx
    refine ⟨?_, by simp⟩
    have hp : Path nx pv (y :: m ++ [a]) := h.2
    have hay : a ≠ y := by rintro rfl; simp at hnd
    show Path _ _ (a :: x :: y :: m ++ [a])
    refine ⟨by simp [fset, hay, hxa, hxy], by simp [fset, hxa], ?_⟩
    apply path_congr nx pv _ _ _ _ _ hp
    · intro c hc
      rw [List.dropLast_concat] at hc
      have h1 : c ≠ a := by rintro rfl; exact (List.nodup_cons.mp hnd).1 hc
      have h2 : c ≠ x := by rintro rfl; exact hx (by simp at hc ⊢; tauto)
      simp [fset, h1, h2]
    · intro c hc
      simp at hc
      have h1 : c ≠ y := by
        rintro rfl
        rw [List.nodup_cons, List.nodup_cons] at hnd
        rcases hc with h | h
        · exact hnd.2.1 h
        · exact hay h.symm
      have h2 : c ≠ x := by rintro rfl; exact hx (by simp; tauto)
      simp [fset, h1, h2]

/-! ### The representation invariant -/

namespace LS
variable {α : Type}

structure Rep (s : LS α) (live free : List Nat) : Prop where
  ring0 : Ring s.nx s.pv (0 :: live)
  ring1 : Ring s.nx s.pv (1 :: free)
  nodup : (0 :: 1 :: (live ++ free)).Nodup
  bound : ∀ x ∈ 0 :: 1 :: (live ++ free), x < s.cap
  used : ∀ i, i < s.cap → (s.inUse i = true ↔ i = 0 ∨ i ∈ live)
  size : s.size = live.length
  blank : ∀ i ∈ free, s.val i = s.blank

theorem range'_path (nx pv : Nat → Nat) (c k : Nat)
    (h : ∀ i, c ≤ i → i + 1 < c + k → nx i = i + 1 ∧ pv (i + 1) = i) :
    Path nx pv (List.range' c k) := by
  induction k generalizing c with
  | zero => trivial
  | succ k ih =>
    cases k with
    | zero => simp [List.range', Path]
    | succ k =>
      rw [List.range'_succ]
      have e := ih (c + 1) (fun i h1 h2 => h i (by omega) (by omega))
      rw [List.range'_succ] at e ⊢
      exact ⟨h c (by omega) (by omega), e⟩

theorem Rep.grow (s : LS α) (live free : List Nat) (h : Rep s live free) (k : Nat) (hk : 0 < k) :
    Rep (initNewNodes { s with cap := s.cap + k } s.cap) live (free ++ List.range' s.cap k) := by
  obtain ⟨r0, r1, nd, bd, us, sz, bl⟩ := h
  have hb0 : 0 < s.cap := bd 0 (by simp)
  have hb1 : 1 < s.cap := bd 1 (by simp)
  obtain ⟨m, z, hm⟩ : ∃ m z, 1 :: free = m ++ [z] :=
    ⟨(1 :: free).dropLast, (1 :: free).getLast (by simp), (List.dropLast_concat_getLast (by simp)).symm⟩
  have ez : s.pv 1 = z := by rw [(ring_ends _ _ _ _ r1).2]; simp [hm]
  have hz : z ∈ 1 :: free := by rw [hm]; simp
  have hzb : z < s.cap := bd z (by simp at hz ⊢; tauto)
  have hnd1 : (1 :: free).Nodup := by
    simp only [List.nodup_cons, List.nodup_append, List.mem_append, List.mem_cons] at nd ⊢
    tauto
  have hz0 : z ≠ 0 := by
    rintro rfl
    simp only [List.nodup_cons, List.mem_append, List.mem_cons] at nd hz
    tauto
  have hzl : z ∉ live := by
    intro hzl
    simp only [List.nodup_cons, List.nodup_append, List.mem_append, List.mem_cons] at nd hz
    rcases hz with h | h
    · subst h; tauto
    · exact nd.2.2.2.2 z hzl z h rfl
  have h1l : 1 ∉ live := by
    simp only [List.nodup_cons, List.mem_append, List.mem_cons] at nd; tauto
  have hpv1 : (if s.cap ≤ 1 ∧ 1 < s.cap + k then 1 - 1 else s.pv 1) = z := by
    rw [if_neg (by omega), ez]
  have hpvc : fset (fun i => if s.cap ≤ i ∧ i < s.cap + k then i - 1 else s.pv i) s.cap z 1 = z := by
    have : (1 : Nat) ≠ s.cap := by omega
    simp only [fset, if_neg this]; exact hpv1
  -- the resulting link functions
  have hnx : (initNewNodes { s with cap := s.cap + k } s.cap).nx = fun i =>
      if i = z then s.cap else if i = s.cap + k - 1 then 1 else if s.cap ≤ i ∧ i < s.cap + k then i + 1 else s.nx i := by
    funext i
    simp only [initNewNodes]
    rw [hpv1, hpvc]
    simp only [fset]
  have hpv : (initNewNodes { s with cap := s.cap + k } s.cap).pv = fun i =>
      if i = 1 then s.cap + k - 1 else if i = s.cap then z else if s.cap ≤ i ∧ i < s.cap + k then i - 1 else s.pv i := by
    funext i
    simp only [initNewNodes]
    rw [hpv1]
    simp only [fset]
  refine ⟨?_, ?_, ?_, ?_, ?_, ?_, ?_⟩
  · rw [hnx, hpv]
    apply ring_congr s.nx s.pv _ _ _ _ _ r0
    · intro a ha
      have hab : a < s.cap := bd a (by simp at ha ⊢; tauto)
      have : a ≠ z := by
        rintro rfl
        simp at ha; tauto
      simp only [if_neg this]
      rw [if_neg (by omega), if_neg (by omega)]
    · intro a ha
      have hab : a < s.cap := bd a (by simp at ha ⊢; tauto)
      have : a ≠ 1 := by
        rintro rfl
        simp at ha; tauto
      simp only [if_neg this]
      rw [if_neg (by omega), if_neg (by omega)]
  · rw [hnx, hpv]
    show Path _ _ ((1 :: free) ++ List.range' s.cap k ++ [1])
    obtain ⟨k', rfl⟩ : ∃ k', k = k' + 1 := ⟨k - 1, by omega⟩
    have e1 : (1 :: free) ++ List.range' s.cap (k' + 1) ++ [1] =
        m ++ z :: (List.range' s.cap (k' + 1) ++ [1]) := by rw [hm]; simp
    rw [e1, path_split]
    constructor
    · rw [← hm]
      have h0 : Path s.nx s.pv (1 :: free) := by
        have h0 : Path s.nx s.pv ((1 :: free) ++ [1]) := r1
        rw [hm] at h0
        have h0' : Path s.nx s.pv (m ++ z :: [1]) := by simpa using h0
        rw [path_split] at h0'
        rw [hm]; exact h0'.1
      apply path_congr s.nx s.pv _ _ _ _ _ h0
      · intro a ha
        have ha' : a ∈ m := by rw [hm, List.dropLast_concat] at ha; exact ha
        have hab : a < s.cap := bd a (by
          have : a ∈ 1 :: free := by rw [hm]; simp [ha']
          simp at this ⊢; tauto)
        have : a ≠ z := by
          rw [hm, List.nodup_append] at hnd1
          exact hnd1.2.2 a ha' z (by simp)
        simp only [if_neg this]
        rw [if_neg (by omega), if_neg (by omega)]
      · intro a ha
        simp at ha
        have hab : a < s.cap := bd a (by simp; tauto)
        have : a ≠ 1 := by rintro rfl; exact (List.nodup_cons.mp hnd1).1 ha
        simp only [if_neg this]
        rw [if_neg (by omega), if_neg (by omega)]
    · rw [List.range'_succ, List.cons_append]
      refine ⟨⟨by simp, ?_⟩, ?_⟩
      · dsimp only; rw [if_neg (by omega), if_pos rfl]
      · rw [← List.cons_append, ← List.range'_succ]
        rw [List.range'_concat, List.append_assoc]
        have : ∀ x : List Nat, x ++ ([s.cap + 1 * k'] ++ [1]) = x ++ (s.cap + k') :: [1] := by simp
        rw [this, path_split]
        constructor
        · have : List.range' s.cap k' ++ [s.cap + k'] = List.range' s.cap (k' + 1) := by
            rw [List.range'_concat]; simp
          rw [this]
          apply range'_path
          intro i h1 h2
          refine ⟨?_, ?_⟩
          · rw [if_neg (by omega), if_neg (by omega), if_pos (by omega)]
          · rw [if_neg (by omega), if_neg (by omega), if_pos (by omega)]; omega
        · refine ⟨⟨?_, ?_⟩, trivial⟩
          · dsimp only; rw [if_neg (by omega), if_pos (by omega)]
          · dsimp only; rw [if_pos rfl]; omega
  · have : 0 :: 1 :: (live ++ (free ++ List.range' s.cap k)) = (0 :: 1 :: (live ++ free)) ++ List.range' s.cap k := by simp
    rw [this, List.nodup_append]
    refine ⟨nd, List.nodup_range', ?_⟩
    intro a ha b hb
    have := bd a ha
    rw [List.mem_range'_1] at hb
    omega
  · intro x hx
    show x < s.cap + k
    simp only [List.mem_cons, List.mem_append, List.mem_range'_1] at hx
    rcases hx with rfl | rfl | hx | hx | hx
    · omega
    · omega
    · have := bd x (by simp [hx]); omega
    · have := bd x (by simp [hx]); omega
    · omega
  · intro i hi
    show (if s.cap ≤ i ∧ i < s.cap + k then false else s.inUse i) = true ↔ _
    by_cases hc : s.cap ≤ i ∧ i < s.cap + k
    · rw [if_pos hc]
      constructor
      · simp
      · rintro (rfl | h)
        · omega
        · have := bd i (by simp [h]); omega
    · rw [if_neg hc]
      have : i < s.cap + k := hi
      exact us i (by omega)
  · exact sz
  · intro i hi
    show (if s.cap ≤ i ∧ i < s.cap + k then s.blank else s.val i) = s.blank
    split
    · rfl
    · apply bl
      rw [List.mem_append, List.mem_range'_1] at hi
      rcases hi with h | h
      · exact h
      · omega

theorem Rep.init (b : α) : ∃ free, Rep (LS.init b) [] free := by
  have h : Rep (α := α) ⟨2, fun i => i, fun i => i, fun _ => b, fun i => decide (i = 0), 0, b⟩ [] [] := by
    refine ⟨by simp [Ring, Path], by simp [Ring, Path], by simp, by simp, by simp, rfl, by simp⟩
  exact ⟨_, h.grow _ _ _ 14 (by omega)⟩

theorem Rep.has_iff {s : LS α} {live free : List Nat} (h : Rep s live free) (name : Int) :
    s.has name = true ↔ ∃ n ∈ live, name = (n : Nat) := by
  have nd := h.nodup
  simp only [List.nodup_cons, List.mem_cons, List.mem_append] at nd
  constructor
  · intro hh
    simp only [has, Bool.and_eq_true, decide_eq_true_eq] at hh
    obtain ⟨⟨h1, h2⟩, h3⟩ := hh
    rcases (h.used name.toNat (by omega)).mp h3 with h4 | h4
    · omega
    · exact ⟨_, h4, by omega⟩
  · rintro ⟨n, hn, rfl⟩
    have hb := h.bound n (by simp [hn])
    have hne : n ≠ 0 := by rintro rfl; tauto
    simp only [has, Bool.and_eq_true, decide_eq_true_eq]
    refine ⟨⟨by omega, by omega⟩, ?_⟩
    simp only [Int.toNat_natCast]
    exact (h.used n hb).mpr (Or.inr hn)

theorem Rep.isUsing_iff {s : LS α} {live free : List Nat} (h : Rep s live free) (name : Int) :
    s.isUsing name = true ↔ ∃ n ∈ 0 :: live, name = (n : Nat) := by
  simp only [isUsing, Bool.or_eq_true, decide_eq_true_eq, h.has_iff]
  simp

theorem freelist_nonempty {s : LS α} {live free : List Nat} (h : Rep s live free) :
    s.freeListEmpty = false ↔ free ≠ [] := by
  simp only [freeListEmpty, decide_eq_false_iff_not]
  rw [(ring_ends _ _ _ _ h.ring1).1]
  cases free with
  | nil => simp
  | cons f fs =>
    have nd := h.nodup
    simp only [List.nodup_cons, List.mem_cons, List.mem_append] at nd
    simp
    rintro rfl
    tauto

set_option maxHeartbeats 1600000 in
/-- `basicAdd` once the free list is not empty. -/
theorem Rep.add {s : LS α} {p q : List Nat} {f : Nat} {fs : List Nat} {n : Nat} (after : Bool)
    (h : Rep s (if n = 0 then q else p ++ n :: q) (f :: fs)) (hp : n = 0 → p = []) :
    s.nx 1 = f ∧
    ∀ s', s' = (let u := s.unlink f
      let u := { u with inUse := fset u.inUse f true }
      let u := if after then u.linkAfter f n else u.linkBefore f n
      { u with size := u.size + 1 }) →
    Rep s' (if n = 0 then (if after then f :: q else q ++ [f])
            else if after then p ++ n :: f :: q else p ++ f :: n :: q) fs ∧ s'.val = s.val ∧ s'.blank = s.blank := by
  obtain ⟨r0, r1, nd, bd, us, sz, bl⟩ := h
  have ef : s.nx 1 = f := by rw [(ring_ends _ _ _ _ r1).1]; simp
  refine ⟨ef, ?_⟩
  have hndR1 : (1 :: f :: fs).Nodup := by
    simp only [List.nodup_cons, List.nodup_append, List.mem_append, List.mem_cons] at nd ⊢
    tauto
  -- unlinking f from the free ring
  have hrot : Ring s.nx s.pv (f :: (fs ++ [1])) := by
    have := (ring_rotate1 _ _ _ _).mp r1; simpa using this
  have hndrot : (f :: (fs ++ [1])).Nodup := by
    have : (f :: (fs ++ [1])).Perm (1 :: f :: fs) := by
      have := List.perm_append_comm (l₁ := [1]) (l₂ := f :: fs)
      simpa using this.symm
    exact this.nodup_iff.mpr hndR1
  obtain ⟨u1, u2, u3⟩ := ring_unlink _ _ f _ (by simp) hndrot hrot
  have u1' : Ring (fset s.nx (s.pv f) (s.nx f)) (fset s.pv (s.nx f) (s.pv f)) (1 :: fs) :=
    (ring_rotate1 _ _ _ _).mpr u1
  -- the live ring, headed by n
  have hlive : ∃ pre : List Nat, Ring s.nx s.pv (n :: (q ++ pre)) ∧
      (∀ x, x ∈ n :: (q ++ pre) ↔ x ∈ 0 :: (if n = 0 then q else p ++ n :: q)) ∧
      (n :: (q ++ pre)).Nodup ∧ pre = (if n = 0 then [] else 0 :: p) := by
    have hndL : (0 :: (if n = 0 then q else p ++ n :: q)).Nodup := by
      have : (0 :: (if n = 0 then q else p ++ n :: q)).Sublist (0 :: 1 :: ((if n = 0 then q else p ++ n :: q) ++ f :: fs)) := by
        apply List.Sublist.cons_cons
        apply List.Sublist.cons
        exact List.sublist_append_left _ _
      exact this.nodup nd
    by_cases hn : n = 0
    · subst hn
      refine ⟨[], ?_⟩
      simp only [if_true] at r0 hndL ⊢
      simp only [List.append_nil]
      exact ⟨r0, fun x => by simp, hndL, trivial⟩
    · refine ⟨0 :: p, ?_⟩
      simp only [if_neg hn] at r0 hndL ⊢
      have e : 0 :: (p ++ n :: q) = (0 :: p) ++ (n :: q) := by simp
      have e' : n :: (q ++ 0 :: p) = (n :: q) ++ (0 :: p) := by simp
      rw [e] at r0 hndL
      have hperm : ((n :: q) ++ (0 :: p)).Perm ((0 :: p) ++ (n :: q)) := List.perm_append_comm
      refine ⟨?_, ?_, ?_, trivial⟩
      · rw [e']; exact (ring_rotate _ _ _ _).mp r0
      · intro x; rw [e', e]; exact hperm.mem_iff
      · rw [e']; exact hperm.nodup_iff.mpr hndL
  obtain ⟨pre, l1, l2, l3, l4⟩ := hlive
  have hdisj : ∀ x, x ∈ n :: (q ++ pre) → x ≠ 1 ∧ x ≠ f ∧ x ∉ fs := by
    intro x hx
    rw [l2] at hx
    simp only [List.nodup_cons, List.nodup_append, List.mem_append, List.mem_cons] at nd hx
    obtain ⟨n0, n1, n2, n3, n4⟩ := nd
    rcases hx with rfl | hx
    · refine ⟨by omega, ?_, ?_⟩ <;> intro hh <;> apply n0
      · right; right; left; exact hh
      · right; right; right; exact hh
    · refine ⟨?_, ?_, ?_⟩
      · rintro rfl; exact n1 (Or.inl hx)
      · rintro rfl; exact n4 x hx x (Or.inl rfl) rfl
      · intro hh; exact n4 x hx x (Or.inr hh) rfl
  have l1' : Ring (fset s.nx (s.pv f) (s.nx f)) (fset s.pv (s.nx f) (s.pv f)) (n :: (q ++ pre)) := by
    apply ring_congr s.nx s.pv _ _ _ _ _ l1
    · intro a ha
      have := hdisj a ha
      have : a ≠ s.pv f := by rintro rfl; simp at u2; tauto
      simp [fset, this]
    · intro a ha
      have := hdisj a ha
      have : a ≠ s.nx f := by rintro rfl; simp at u3; tauto
      simp [fset, this]
  have hfn : f ∉ n :: (q ++ pre) := fun hh => (hdisj f hh).2.1 rfl
  have hfne : f ≠ n := by rintro rfl; simp at hfn
  have hnef : n ≠ f := fun e => hfne e.symm
  -- unlink as computed by the model
  have hun : s.unlink f = { s with nx := fset s.nx (s.pv f) (s.nx f), pv := fset s.pv (s.nx f) (s.pv f) } := by
    have hne : f ≠ s.pv f := by
      intro e
      have : s.pv f ∉ fs ++ [1] := by rw [← e]; exact (List.nodup_cons.mp hndrot).1
      exact this u2
    simp only [unlink, fset, if_neg hne]
  intro s' hs'
  rw [hun] at hs'
  cases after with
  | true =>
    obtain ⟨k1, k2⟩ := ring_linkAfter _ _ f n _ l3 hfn l1'
    have hs : s' = { s with
        nx := fset (fset (fset s.nx (s.pv f) (s.nx f)) f (fset s.nx (s.pv f) (s.nx f) n)) n f
        pv := fset (fset (fset s.pv (s.nx f) (s.pv f)) f n) (fset s.nx (s.pv f) (s.nx f) n) f
        inUse := fset s.inUse f true, size := s.size + 1 } := by
      rw [hs']
      simp only [if_true, linkAfter]
      have e : fset (fset s.nx (s.pv f) (s.nx f)) f (fset s.nx (s.pv f) (s.nx f) n) n = fset s.nx (s.pv f) (s.nx f) n := by
        simp [fset, hnef]
      rw [e]
    have hres : (if n = 0 then (if true = true then f :: q else q ++ [f]) else if true = true then p ++ n :: f :: q else p ++ f :: n :: q)
        = if n = 0 then f :: q else p ++ n :: f :: q := by simp
    rw [hres]
    have hfin : Ring (fset (fset (fset s.nx (s.pv f) (s.nx f)) f (fset s.nx (s.pv f) (s.nx f) n)) n f)
       (fset (fset (fset s.pv (s.nx f) (s.pv f)) f n) (fset s.nx (s.pv f) (s.nx f) n) f) (0 :: (if n = 0 then f :: q else p ++ n :: f :: q)) := by
      by_cases hn : n = 0
      · subst hn
        simp only [if_true] at l4 ⊢
        subst l4
        simpa using k1
      · simp only [if_neg hn] at l4 ⊢
        subst l4
        have e : n :: f :: (q ++ 0 :: p) = (n :: f :: q) ++ (0 :: p) := by simp
        rw [e, ring_rotate] at k1
        simpa using k1
    have hmem : ∀ x, x ∈ (if n = 0 then f :: q else p ++ n :: f :: q) ↔ x = f ∨ x ∈ (if n = 0 then q else p ++ n :: q) := by
      intro x; by_cases hn : n = 0 <;> simp [hn] <;> tauto
    have hperm : ((if n = 0 then f :: q else p ++ n :: f :: q) ++ fs).Perm ((if n = 0 then q else p ++ n :: q) ++ f :: fs) := by
      by_cases hn : n = 0
      · simp only [hn, if_true]; exact List.perm_middle.symm
      · simp only [hn, if_false]
        have a1 : (p ++ n :: f :: q ++ fs).Perm (f :: (p ++ n :: q ++ fs)) := by
          have := List.perm_middle (a := f) (l₁ := p ++ [n]) (l₂ := q ++ fs)
          simpa using this
        exact a1.trans (List.perm_middle.symm)
    have hlen : (if n = 0 then f :: q else p ++ n :: f :: q).length = (if n = 0 then q else p ++ n :: q).length + 1 := by
      by_cases hn : n = 0 <;> simp [hn]; omega
    subst hs
    refine ⟨⟨hfin, ?_, ?_, ?_, ?_, ?_, ?_⟩, rfl, rfl⟩
    · apply ring_congr _ _ _ _ _ _ _ u1'
      · intro a ha
        have h1 : a ≠ f := by
          rintro rfl
          simp at hndR1 ha
          tauto
        have h2 : a ≠ n := by
          rintro rfl
          have := hdisj a (by simp)
          simp at ha; tauto
        simp [fset, h1, h2]
      · intro a ha
        have h1 : a ≠ f := by
          rintro rfl
          simp at hndR1 ha
          tauto
        have h2 : a ≠ fset s.nx (s.pv f) (s.nx f) n := by
          rintro rfl
          have := hdisj _ k2
          simp at ha; tauto
        show fset (fset (fset s.pv (s.nx f) (s.pv f)) f n) (fset s.nx (s.pv f) (s.nx f) n) f a = fset s.pv (s.nx f) (s.pv f) a
        rw [fset, if_neg h2, fset, if_neg h1]
    · exact ((hperm.cons 1).cons 0).nodup_iff.mpr nd
    · intro x hx
      exact bd x ((((hperm.cons 1).cons 0).mem_iff).mp hx)
    · intro i hi
      simp only [fset]
      by_cases e : i = f
      · simp [e, hmem]
      · rw [if_neg e, us i hi, hmem]; tauto
    · show s.size + 1 = _
      rw [hlen, sz]
    · intro i hi
      exact bl i (by simp [hi])
  | false =>
    obtain ⟨k1, k2⟩ := ring_linkBefore _ _ f n _ l3 hfn l1'
    have hs : s' = { s with
        nx := fset (fset (fset s.nx (s.pv f) (s.nx f)) f n) (fset s.pv (s.nx f) (s.pv f) n) f
        pv := fset (fset (fset s.pv (s.nx f) (s.pv f)) f (fset s.pv (s.nx f) (s.pv f) n)) n f
        inUse := fset s.inUse f true, size := s.size + 1 } := by
      rw [hs']
      simp only [Bool.false_eq_true, if_false, linkBefore]
      have e : fset (fset s.pv (s.nx f) (s.pv f)) f (fset s.pv (s.nx f) (s.pv f) n) n = fset s.pv (s.nx f) (s.pv f) n := by
        simp [fset, hnef]
      rw [e]
    have hres : (if n = 0 then (if false = true then f :: q else q ++ [f]) else if false = true then p ++ n :: f :: q else p ++ f :: n :: q)
        = if n = 0 then q ++ [f] else p ++ f :: n :: q := by simp
    rw [hres]
    have hfin : Ring (fset (fset (fset s.nx (s.pv f) (s.nx f)) f n) (fset s.pv (s.nx f) (s.pv f) n) f)
        (fset (fset (fset s.pv (s.nx f) (s.pv f)) f (fset s.pv (s.nx f) (s.pv f) n)) n f)
        (0 :: (if n = 0 then q ++ [f] else p ++ f :: n :: q)) := by
      by_cases hn : n = 0
      · subst hn
        simp only [if_true] at l4 ⊢
        subst l4
        simpa using k1
      · simp only [if_neg hn] at l4 ⊢
        subst l4
        have e : n :: (q ++ 0 :: p) ++ [f] = (n :: q) ++ (0 :: p ++ [f]) := by simp
        rw [e, ring_rotate] at k1
        simpa using k1
    have hmem : ∀ x, x ∈ (if n = 0 then q ++ [f] else p ++ f :: n :: q) ↔ x = f ∨ x ∈ (if n = 0 then q else p ++ n :: q) := by
      intro x; by_cases hn : n = 0 <;> simp [hn] <;> tauto
    have hperm : ((if n = 0 then q ++ [f] else p ++ f :: n :: q) ++ fs).Perm ((if n = 0 then q else p ++ n :: q) ++ f :: fs) := by
      by_cases hn : n = 0
      · simp only [hn, if_true]; simp
      · simp only [hn, if_false]
        have a1 : (p ++ f :: n :: q ++ fs).Perm (f :: (p ++ n :: q ++ fs)) := by
          have := List.perm_middle (a := f) (l₁ := p) (l₂ := n :: q ++ fs)
          simpa using this
        exact a1.trans (List.perm_middle.symm)
    have hlen : (if n = 0 then q ++ [f] else p ++ f :: n :: q).length = (if n = 0 then q else p ++ n :: q).length + 1 := by
      by_cases hn : n = 0 <;> simp [hn]; omega
    subst hs
    refine ⟨⟨hfin, ?_, ?_, ?_, ?_, ?_, ?_⟩, rfl, rfl⟩
    · apply ring_congr _ _ _ _ _ _ _ u1'
      · intro a ha
        have h1 : a ≠ f := by
          rintro rfl
          simp at hndR1 ha
          tauto
        have h2 : a ≠ fset s.pv (s.nx f) (s.pv f) n := by
          rintro rfl
          have := hdisj _ k2
          simp at ha; tauto
        show fset (fset (fset s.nx (s.pv f) (s.nx f)) f n) (fset s.pv (s.nx f) (s.pv f) n) f a = fset s.nx (s.pv f) (s.nx f) a
        rw [fset, if_neg h2, fset, if_neg h1]
      · intro a ha
        have h1 : a ≠ f := by
          rintro rfl
          simp at hndR1 ha
          tauto
        have h2 : a ≠ n := by
          rintro rfl
          have := hdisj a (by simp)
          simp at ha; tauto
        simp [fset, h1, h2]
    · exact ((hperm.cons 1).cons 0).nodup_iff.mpr nd
    · intro x hx
      exact bd x ((((hperm.cons 1).cons 0).mem_iff).mp hx)
    · intro i hi
      simp only [fset]
      by_cases e : i = f
      · simp [e, hmem]
      · rw [if_neg e, us i hi, hmem]; tauto
    · show s.size + 1 = _
      rw [hlen, sz]
    · intro i hi
      exact bl i (by simp [hi])

/-! ### Unlink and link on rings of a state -/

/-- the fields other than the links are the same -/
structure SameVals (s t : LS α) : Prop where
  cap : t.cap = s.cap
  val : t.val = s.val
  inUse : t.inUse = s.inUse
  size : t.size = s.size
  blank : t.blank = s.blank

theorem unlink_R (s : LS α) (x : Nat) (l : List Nat) (hne : l ≠ []) (hnd : (x :: l).Nodup)
    (h : Ring s.nx s.pv (x :: l)) :
    Ring (s.unlink x).nx (s.unlink x).pv l ∧ SameVals s (s.unlink x) ∧
    ∀ l', Ring s.nx s.pv l' → (∀ a ∈ l', a ∉ x :: l) → Ring (s.unlink x).nx (s.unlink x).pv l' := by
  obtain ⟨u1, u2, u3⟩ := ring_unlink _ _ x l hne hnd h
  have hun : s.unlink x = { s with nx := fset s.nx (s.pv x) (s.nx x), pv := fset s.pv (s.nx x) (s.pv x) } := by
    have hne : x ≠ s.pv x := by
      intro e
      have := (List.nodup_cons.mp hnd).1
      rw [e] at this
      exact this u2
    simp only [unlink, fset, if_neg hne]
  rw [hun]
  refine ⟨u1, ⟨rfl, rfl, rfl, rfl, rfl⟩, ?_⟩
  intro l' hr hd
  apply ring_congr _ _ _ _ _ _ _ hr
  · intro a ha
    have : a ≠ s.pv x := by rintro rfl; exact hd _ ha (by simp [u2])
    simp [fset, this]
  · intro a ha
    have : a ≠ s.nx x := by rintro rfl; exact hd _ ha (by simp [u3])
    simp [fset, this]

theorem linkBefore_R (s : LS α) (x b : Nat) (l : List Nat) (hnd : (b :: l).Nodup) (hx : x ∉ b :: l)
    (h : Ring s.nx s.pv (b :: l)) :
    Ring (s.linkBefore x b).nx (s.linkBefore x b).pv (b :: l ++ [x]) ∧ SameVals s (s.linkBefore x b) ∧
    ∀ l', Ring s.nx s.pv l' → (∀ a ∈ l', a ∉ x :: b :: l) →
      Ring (s.linkBefore x b).nx (s.linkBefore x b).pv l' := by
  obtain ⟨k1, k2⟩ := ring_linkBefore _ _ x b l hnd hx h
  have hbx : b ≠ x := by rintro rfl; simp at hx
  have he : s.linkBefore x b = { s with
        nx := fset (fset s.nx x b) (s.pv b) x
        pv := fset (fset s.pv x (s.pv b)) b x } := by
    simp only [linkBefore]
    have e : fset s.pv x (s.pv b) b = s.pv b := by simp [fset, hbx]
    rw [e]
  rw [he]
  refine ⟨k1, ⟨rfl, rfl, rfl, rfl, rfl⟩, ?_⟩
  intro l' hr hd
  apply ring_congr _ _ _ _ _ _ _ hr
  · intro a ha
    have h1 : a ≠ s.pv b := by rintro rfl; exact hd _ ha (List.mem_cons_of_mem _ k2)
    have h2 : a ≠ x := by rintro rfl; exact hd _ ha (by simp)
    simp [fset, h1, h2]
  · intro a ha
    have h1 : a ≠ b := by rintro rfl; exact hd _ ha (by simp)
    have h2 : a ≠ x := by rintro rfl; exact hd _ ha (by simp)
    simp [fset, h1, h2]

theorem linkAfter_R (s : LS α) (x b : Nat) (l : List Nat) (hnd : (b :: l).Nodup) (hx : x ∉ b :: l)
    (h : Ring s.nx s.pv (b :: l)) :
    Ring (s.linkAfter x b).nx (s.linkAfter x b).pv (b :: x :: l) ∧ SameVals s (s.linkAfter x b) ∧
    ∀ l', Ring s.nx s.pv l' → (∀ a ∈ l', a ∉ x :: b :: l) →
      Ring (s.linkAfter x b).nx (s.linkAfter x b).pv l' := by
  obtain ⟨k1, k2⟩ := ring_linkAfter _ _ x b l hnd hx h
  have hbx : b ≠ x := by rintro rfl; simp at hx
  have he : s.linkAfter x b = { s with
        nx := fset (fset s.nx x (s.nx b)) b x
        pv := fset (fset s.pv x b) (s.nx b) x } := by
    simp only [linkAfter]
    have e : fset s.nx x (s.nx b) b = s.nx b := by simp [fset, hbx]
    rw [e]
  rw [he]
  refine ⟨k1, ⟨rfl, rfl, rfl, rfl, rfl⟩, ?_⟩
  intro l' hr hd
  apply ring_congr _ _ _ _ _ _ _ hr
  · intro a ha
    have h1 : a ≠ b := by rintro rfl; exact hd _ ha (by simp)
    have h2 : a ≠ x := by rintro rfl; exact hd _ ha (by simp)
    simp [fset, h1, h2]
  · intro a ha
    have h1 : a ≠ s.nx b := by rintro rfl; exact hd _ ha (List.mem_cons_of_mem _ k2)
    have h2 : a ≠ x := by rintro rfl; exact hd _ ha (by simp)
    simp [fset, h1, h2]

/-- a permutation of the live names -/
theorem Rep.perm {s t : LS α} {live live' free : List Nat} (h : Rep s live free) (hp : live'.Perm live)
    (hv : SameVals s t) (h0 : Ring t.nx t.pv (0 :: live')) (h1 : Ring t.nx t.pv (1 :: free)) :
    Rep t live' free := by
  have hpp : (0 :: 1 :: (live' ++ free)).Perm (0 :: 1 :: (live ++ free)) := ((hp.append_right free).cons 1).cons 0
  refine ⟨h0, h1, hpp.nodup_iff.mpr h.nodup, ?_, ?_, ?_, ?_⟩
  · intro x hx; rw [hv.cap]; exact h.bound x (hpp.mem_iff.mp hx)
  · intro i hi
    rw [hv.cap] at hi
    rw [hv.inUse, h.used i hi, hp.mem_iff]
  · rw [hv.size, h.size, hp.length_eq]
  · intro i hi; rw [hv.val, hv.blank]; exact h.blank i hi

theorem SameVals.trans {s t u : LS α} (h1 : SameVals s t) (h2 : SameVals t u) : SameVals s u :=
  ⟨h2.cap.trans h1.cap, h2.val.trans h1.val, h2.inUse.trans h1.inUse, h2.size.trans h1.size, h2.blank.trans h1.blank⟩

theorem Rep.nodup_live {s : LS α} {live free : List Nat} (h : Rep s live free) : (0 :: live).Nodup := by
  have : (0 :: live).Sublist (0 :: 1 :: (live ++ free)) :=
    List.Sublist.cons_cons _ (List.Sublist.cons _ (List.sublist_append_left _ _))
  exact this.nodup h.nodup

theorem Rep.nodup_free {s : LS α} {live free : List Nat} (h : Rep s live free) : (1 :: free).Nodup := by
  have : (1 :: free).Sublist (0 :: 1 :: (live ++ free)) :=
    List.Sublist.cons _ (List.Sublist.cons_cons _ (List.sublist_append_right _ _))
  exact this.nodup h.nodup

theorem Rep.disj {s : LS α} {live free : List Nat} (h : Rep s live free) :
    ∀ a ∈ 1 :: free, a ∉ 0 :: live := by
  have nd := h.nodup
  simp only [List.nodup_cons, List.nodup_append, List.mem_append, List.mem_cons] at nd
  obtain ⟨n0, n1, n2, n3, n4⟩ := nd
  intro a ha hb
  simp only [List.mem_cons] at ha hb
  rcases ha with rfl | ha
  · rcases hb with hb | hb
    · omega
    · exact n1 (Or.inl hb)
  · rcases hb with rfl | hb
    · exact n0 (Or.inr (Or.inr ha))
    · exact n4 a hb a ha rfl

/-- unlinking a live name -/
theorem Rep.unlinkLive {s : LS α} {p q free : List Nat} {n : Nat} (h : Rep s (p ++ n :: q) free) :
    Ring (s.unlink n).nx (s.unlink n).pv (0 :: (p ++ q)) ∧ Ring (s.unlink n).nx (s.unlink n).pv (1 :: free) ∧
    SameVals s (s.unlink n) := by
  have e : 0 :: (p ++ n :: q) = (0 :: p) ++ (n :: q) := by simp
  have hperm : (n :: (q ++ 0 :: p)).Perm (0 :: (p ++ n :: q)) := by
    rw [e]; exact List.perm_append_comm (l₁ := n :: q)
  have hr : Ring s.nx s.pv (n :: (q ++ 0 :: p)) := by
    have h0 := h.ring0
    rw [e, ring_rotate] at h0
    simpa using h0
  obtain ⟨a, b, c⟩ := unlink_R s n (q ++ 0 :: p) (by simp) (hperm.nodup_iff.mpr h.nodup_live) hr
  refine ⟨?_, ?_, b⟩
  · rw [ring_rotate] at a
    simpa using a
  · apply c _ h.ring1
    intro x hx hx'
    exact h.disj x hx (hperm.mem_iff.mp hx')

theorem Rep.split {s : LS α} {p q free : List Nat} {n : Nat} (h : Rep s (p ++ n :: q) free) :
    n ∉ 0 :: (p ++ q) ∧ (0 :: (p ++ q)).Nodup ∧ n ∉ 1 :: free ∧ (∀ a ∈ 1 :: free, a ∉ n :: 0 :: (p ++ q)) ∧
    (∀ a ∈ 0 :: (p ++ q), a ∉ n :: 1 :: free) := by
  have hp : (n :: 0 :: (p ++ q)).Perm (0 :: (p ++ n :: q)) := by
    have := List.perm_middle (a := n) (l₁ := 0 :: p) (l₂ := q)
    simpa using this.symm
  have hnd := hp.nodup_iff.mpr h.nodup_live
  have hd := h.disj
  rw [List.nodup_cons] at hnd
  refine ⟨hnd.1, hnd.2, ?_, ?_, ?_⟩
  · intro hn; exact hd n hn (by simp)
  · intro a ha hb; exact hd a ha (hp.mem_iff.mp hb)
  · intro a ha hb
    rw [List.mem_cons] at hb
    rcases hb with rfl | hb
    · exact hnd.1 ha
    · exact hd a hb (hp.mem_iff.mp (List.mem_cons_of_mem _ ha))

theorem Rep.remove {s : LS α} {p q free : List Nat} {n : Nat} (h : Rep s (p ++ n :: q) free) :
    Rep (s.remove n).1 (p ++ q) (free ++ [n]) ∧ (s.remove n).2 = true ∧
    (s.remove n).1.val = fset s.val n s.blank ∧ (s.remove n).1.blank = s.blank := by
  have hh : s.has n = true := (h.has_iff n).mpr ⟨n, by simp, rfl⟩
  obtain ⟨a, b, c⟩ := h.unlinkLive
  obtain ⟨d1, d2, d3, d4, d5⟩ := h.split
  obtain ⟨w, hw, w1, w2, w3, w4, w5, w6, w7⟩ : ∃ w : LS α, w = { s.unlink n with size := (s.unlink n).size - 1, inUse := fset (s.unlink n).inUse n false } ∧
      w.nx = (s.unlink n).nx ∧ w.pv = (s.unlink n).pv ∧ w.cap = s.cap ∧ w.val = s.val ∧ w.inUse = fset s.inUse n false ∧
      w.size = s.size - 1 ∧ w.blank = s.blank :=
    ⟨_, rfl, rfl, rfl, c.cap, c.val, by show fset (s.unlink n).inUse n false = _; rw [c.inUse],
      by show (s.unlink n).size - 1 = _; rw [c.size], c.blank⟩
  have hR : Ring w.nx w.pv (1 :: free) := by rw [w1, w2]; exact b
  obtain ⟨k1, k2, k3⟩ := linkBefore_R _ n 1 free h.nodup_free d3 hR
  have hres : s.remove n = ({ w.linkBefore n 1 with val := fset (w.linkBefore n 1).val n (w.linkBefore n 1).blank }, true) := by
    simp only [LS.remove, hh, Bool.not_true, Bool.false_eq_true, if_false, Int.toNat_natCast]
    rw [hw]
  rw [hres]
  have hp : (0 :: 1 :: (p ++ q ++ (free ++ [n]))).Perm (0 :: 1 :: (p ++ n :: q ++ free)) := by
    apply List.Perm.cons; apply List.Perm.cons
    have : (p ++ q ++ (free ++ [n])).Perm (n :: (p ++ q ++ free)) := by
      rw [← List.append_assoc]; exact List.perm_append_singleton n _
    refine this.trans ?_
    have := List.perm_middle (a := n) (l₁ := p) (l₂ := q ++ free)
    simpa using this.symm
  refine ⟨⟨?_, k1, hp.nodup_iff.mpr h.nodup, ?_, ?_, ?_, ?_⟩, rfl, ?_, ?_⟩
  · exact k3 _ (by rw [w1, w2]; exact a) d5
  · intro x hx
    show x < (w.linkBefore n 1).cap
    rw [k2.cap, w3]
    exact h.bound x (hp.mem_iff.mp hx)
  · intro i hi
    have hi' : i < (w.linkBefore n 1).cap := hi
    rw [k2.cap, w3] at hi'
    show (w.linkBefore n 1).inUse i = true ↔ _
    rw [k2.inUse, w5]
    simp only [fset]
    by_cases e : i = n
    · subst e
      simp only [if_true]
      simp at d1 ⊢
      tauto
    · rw [if_neg e, h.used i hi']
      simp [e]
  · show (w.linkBefore n 1).size = _
    rw [k2.size, w6, h.size]
    simp
  · intro i hi
    show fset (w.linkBefore n 1).val n (w.linkBefore n 1).blank i = (w.linkBefore n 1).blank
    rw [k2.val, k2.blank, w4, w7]
    by_cases e : i = n
    · simp [fset, e]
    · simp only [fset, if_neg e]
      simp [e] at hi
      exact h.blank i hi
  · show fset (w.linkBefore n 1).val n (w.linkBefore n 1).blank = _
    rw [k2.val, k2.blank, w4, w7]
  · show (w.linkBefore n 1).blank = _
    rw [k2.blank, w7]

theorem Rep.ne_zero {s : LS α} {live free : List Nat} (h : Rep s live free) {n : Nat} (hn : n ∈ live) :
    (n : Int) ≠ 0 := by
  intro e
  have : n = 0 := by omega
  subst this
  exact (List.nodup_cons.mp h.nodup_live).1 hn

theorem Rep.moveToHead {s : LS α} {p q free : List Nat} {n : Nat} (h : Rep s (p ++ n :: q) free) :
    Rep (s.moveToHead n).1 (n :: (p ++ q)) free ∧ (s.moveToHead n).2 = true ∧ SameVals s (s.moveToHead n).1 := by
  have hh : s.has n = true := (h.has_iff n).mpr ⟨n, by simp, rfl⟩
  have hn0 := h.ne_zero (n := n) (by simp)
  obtain ⟨a, b, c⟩ := h.unlinkLive
  obtain ⟨d1, d2, d3, d4, d5⟩ := h.split
  obtain ⟨k1, k2, k3⟩ := linkAfter_R _ n 0 _ d2 d1 a
  have hres : s.moveToHead n = ((s.unlink n).linkAfter n 0, true) := by
    simp only [LS.moveToHead, if_neg hn0, hh, Bool.not_true, Bool.false_eq_true, if_false, Int.toNat_natCast]
  rw [hres]
  refine ⟨?_, rfl, c.trans k2⟩
  exact h.perm List.perm_middle.symm (c.trans k2) k1 (k3 _ b d4)

theorem Rep.moveToTail {s : LS α} {p q free : List Nat} {n : Nat} (h : Rep s (p ++ n :: q) free) :
    Rep (s.moveToTail n).1 (p ++ q ++ [n]) free ∧ (s.moveToTail n).2 = true ∧ SameVals s (s.moveToTail n).1 := by
  have hh : s.has n = true := (h.has_iff n).mpr ⟨n, by simp, rfl⟩
  have hn0 := h.ne_zero (n := n) (by simp)
  obtain ⟨a, b, c⟩ := h.unlinkLive
  obtain ⟨d1, d2, d3, d4, d5⟩ := h.split
  obtain ⟨k1, k2, k3⟩ := linkBefore_R _ n 0 _ d2 d1 a
  have hres : s.moveToTail n = ((s.unlink n).linkBefore n 0, true) := by
    simp only [LS.moveToTail, if_neg hn0, hh, Bool.not_true, Bool.false_eq_true, if_false, Int.toNat_natCast]
  rw [hres]
  refine ⟨?_, rfl, c.trans k2⟩
  refine h.perm ?_ (c.trans k2) k1 (k3 _ b d4)
  exact (List.perm_append_singleton n _).trans List.perm_middle.symm

/-- unlinking the sentinel of a non-empty list -/
theorem Rep.unlinkSentinel {s : LS α} {p q free : List Nat} {n : Nat} (h : Rep s (p ++ n :: q) free) :
    Ring (s.unlink 0).nx (s.unlink 0).pv (n :: (q ++ p)) ∧ Ring (s.unlink 0).nx (s.unlink 0).pv (1 :: free) ∧
    SameVals s (s.unlink 0) ∧ (n :: (q ++ p)).Nodup ∧ 0 ∉ n :: (q ++ p) ∧ (∀ a ∈ 1 :: free, a ∉ 0 :: n :: (q ++ p)) := by
  obtain ⟨a, b, c⟩ := unlink_R s 0 _ (by simp) h.nodup_live h.ring0
  have hperm : (n :: (q ++ p)).Perm (p ++ n :: q) := List.perm_append_comm (l₁ := n :: q)
  have hnd := List.nodup_cons.mp h.nodup_live
  refine ⟨?_, c _ h.ring1 h.disj, b, hperm.nodup_iff.mpr hnd.2, fun h0 => hnd.1 (hperm.mem_iff.mp h0), ?_⟩
  · rw [ring_rotate] at a; simpa using a
  · intro x hx hx'
    exact h.disj x hx ((hperm.cons 0).mem_iff.mp hx')

theorem Rep.rotateToHead {s : LS α} {p q free : List Nat} {n : Nat} (h : Rep s (p ++ n :: q) free) :
    Rep (s.rotateToHead n).1 (n :: q ++ p) free ∧ (s.rotateToHead n).2 = true ∧ SameVals s (s.rotateToHead n).1 := by
  have hh : s.has n = true := (h.has_iff n).mpr ⟨n, by simp, rfl⟩
  have hn0 := h.ne_zero (n := n) (by simp)
  obtain ⟨a, b, c, d, e, f⟩ := h.unlinkSentinel
  obtain ⟨k1, k2, k3⟩ := linkBefore_R _ 0 n _ d e a
  have hres : s.rotateToHead n = ((s.unlink 0).linkBefore 0 n, true) := by
    simp only [LS.rotateToHead, if_neg hn0, hh, Bool.not_true, Bool.false_eq_true, if_false, Int.toNat_natCast]
  rw [hres]
  refine ⟨?_, rfl, c.trans k2⟩
  refine h.perm List.perm_append_comm (c.trans k2) ?_ (k3 _ b f)
  exact (ring_rotate1 _ _ _ _).mpr k1

theorem Rep.rotateToTail {s : LS α} {p q free : List Nat} {n : Nat} (h : Rep s (p ++ n :: q) free) :
    Rep (s.rotateToTail n).1 (q ++ p ++ [n]) free ∧ (s.rotateToTail n).2 = true ∧ SameVals s (s.rotateToTail n).1 := by
  have hh : s.has n = true := (h.has_iff n).mpr ⟨n, by simp, rfl⟩
  have hn0 := h.ne_zero (n := n) (by simp)
  obtain ⟨a, b, c, d, e, f⟩ := h.unlinkSentinel
  obtain ⟨k1, k2, k3⟩ := linkAfter_R _ 0 n _ d e a
  have hres : s.rotateToTail n = ((s.unlink 0).linkAfter 0 n, true) := by
    simp only [LS.rotateToTail, if_neg hn0, hh, Bool.not_true, Bool.false_eq_true, if_false, Int.toNat_natCast]
  rw [hres]
  refine ⟨?_, rfl, c.trans k2⟩
  refine h.perm ?_ (c.trans k2) ?_ (k3 _ b f)
  · exact (List.perm_append_singleton n _).trans (List.perm_append_comm (l₁ := n :: q))
  · have := (ring_rotate1 _ _ _ _).mp k1
    simpa using this

/-- `basicAdd` in general: the answered name is a fresh positive name. -/
theorem Rep.basicAdd {s : LS α} {p q live free : List Nat} {n : Nat} (after : Bool)
    (h : Rep s live free) (hlive : live = if n = 0 then q else p ++ n :: q) (hp : n = 0 → p = []) :
    ∃ f free', Rep (s.basicAdd n after).1
      (if n = 0 then (if after then f :: q else q ++ [f]) else if after then p ++ n :: f :: q else p ++ f :: n :: q) free' ∧
      (s.basicAdd n after).2 = (f : Nat) ∧ f ∉ 0 :: live ∧
      (∀ i ∈ live, (s.basicAdd n after).1.val i = s.val i) ∧ (s.basicAdd n after).1.val f = s.blank ∧
      (s.basicAdd n after).1.blank = s.blank := by
  have hu : s.isUsing n = true := by
    rw [h.isUsing_iff]
    refine ⟨n, ?_, rfl⟩
    rw [hlive]
    by_cases hn : n = 0 <;> simp [hn]
  have key : ∀ (t : LS α) (f : Nat) (fs : List Nat), Rep t live (f :: fs) →
      t = (if s.freeListEmpty then s.growFreeList else s) →
      (∀ i ∈ live, t.val i = s.val i) → t.blank = s.blank → ∃ f free', Rep (s.basicAdd n after).1
      (if n = 0 then (if after then f :: q else q ++ [f]) else if after then p ++ n :: f :: q else p ++ f :: n :: q) free' ∧
      (s.basicAdd n after).2 = (f : Nat) ∧ f ∉ 0 :: live ∧
      (∀ i ∈ live, (s.basicAdd n after).1.val i = s.val i) ∧ (s.basicAdd n after).1.val f = s.blank ∧
      (s.basicAdd n after).1.blank = s.blank := by
    intro t f fs ht hte hval hbl
    have ht' := ht
    rw [hlive] at ht'
    obtain ⟨e1, e2⟩ := Rep.add after ht' hp
    obtain ⟨e3, e4, e5⟩ := e2 _ rfl
    have hres : s.basicAdd n after = ((let u := t.unlink f
      let u := { u with inUse := fset u.inUse f true }
      let u := if after then u.linkAfter f n else u.linkBefore f n
      { u with size := u.size + 1 }), (f : Int)) := by
      simp only [LS.basicAdd, hu, Bool.not_true, Bool.false_eq_true, if_false, Int.toNat_natCast]
      rw [← hte, e1]
    rw [hres]
    refine ⟨f, fs, e3, rfl, ?_, ?_, ?_, ?_⟩
    · exact ht.disj f (by simp)
    · intro i hi
      show (LS.val _) i = _
      rw [e4]; exact hval i hi
    · show (LS.val _) f = _
      rw [e4, ht.blank f (by simp), hbl]
    · show (LS.blank _) = _
      rw [e5, hbl]
  by_cases hf : free = []
  · have hfe : s.freeListEmpty = true := by
      cases hb : s.freeListEmpty with
      | true => rfl
      | false => exact absurd hf ((freelist_nonempty h).mp hb)
    have hg := h.grow s live free 16 (by omega)
    rw [hf] at hg
    have hg' : Rep s.growFreeList live (s.cap :: List.range' (s.cap + 1) 15) := by
      simpa [growFreeList, List.range'_succ] using hg
    refine key _ _ _ hg' (by simp [hfe]) ?_ rfl
    intro i hi
    have hb := h.bound i (by simp [hi])
    show (if s.cap ≤ i ∧ i < s.cap + 16 then s.blank else s.val i) = s.val i
    rw [if_neg (by omega)]
  · obtain ⟨f, fs, rfl⟩ : ∃ f fs, free = f :: fs := by
      cases free with
      | nil => exact absurd rfl hf
      | cons f fs => exact ⟨f, fs, rfl⟩
    have hfe : s.freeListEmpty = false := (freelist_nonempty h).mpr hf
    exact key s f fs h (by simp [hfe]) (fun _ _ => rfl) rfl

end LS
end Rtmfp
