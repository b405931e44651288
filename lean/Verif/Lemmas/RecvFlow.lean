import Verif.Model.RecvFlow
import Verif.Lemmas.IndexSet

/-! # The receive buffer: runs of consecutive fragments of a message -/

namespace Rtmfp
namespace RFlow

/-- the fragments of the sender, by sequence number -/
abbrev St := Nat → Option (Fra × Bytes)

/-- fragment `k` is followed by another fragment of the same message -/
def Link (st : St) (k : Nat) : Prop := ∃ d, st k = some (.begin, d) ∨ st k = some (.middle, d)

/-- marks of neighbours fit together, numbers are below 2^64 -/
structure WFst (st : St) : Prop where
  adj : ∀ k fa da fb db, st k = some (fa, da) → st (k + 1) = some (fb, db) →
    ((fa = .begin ∨ fa = .middle) ↔ (fb = .middle ∨ fb = .end))
  small : ∀ k x, st k = some x → k < W64
  back : ∀ k f d, st k = some (f, d) → f = .middle ∨ f = .end → ∃ j, j + 1 = k ∧ Link st j
  fwd : ∀ k, Link st k → ∃ x, st (k + 1) = some x
  zero : st 0 = none

abbrev Buf := List (Nat × RFrag)

def InBuf (b : Buf) (k : Nat) : Prop := ∃ x ∈ b, x.2.sn = k

structure BufOK (st : St) (b : Buf) : Prop where
  sorted : b.Pairwise (fun x y => x.2.sn < y.2.sn)
  names : (b.map (·.1)).Nodup
  cont : ∀ x ∈ b, st x.2.sn = some (x.2.fra, x.2.data)

def Con (st : St) (b : Buf) (lo hi : Nat) : Prop :=
  lo ≤ hi ∧ (∀ k, lo ≤ k → k ≤ hi → InBuf b k) ∧ (∀ k, lo ≤ k → k < hi → Link st k)

def NoPred (st : St) (b : Buf) (lo : Nat) : Prop := ∀ k, k + 1 = lo → InBuf b k → ¬ Link st k
def NoSucc (st : St) (b : Buf) (hi : Nat) : Prop := InBuf b (hi + 1) → ¬ Link st hi

/-- `lo … hi` is a maximal run of consecutive buffered fragments of one message -/
structure Run (st : St) (b : Buf) (lo hi : Nat) : Prop where
  con : Con st b lo hi
  pred : NoPred st b lo
  succ : NoSucc st b hi

def RunInv (st : St) (b : Buf) : Prop :=
  ∀ x ∈ b, ∀ y ∈ b, Run st b x.2.sn y.2.sn → x.2.segEnd = y.1 ∧ y.2.segStart = x.1

theorem sorted_inj {b : Buf} (h : b.Pairwise (fun x y => x.2.sn < y.2.sn)) {x y : Nat × RFrag} (hx : x ∈ b) (hy : y ∈ b)
    (e : x.2.sn = y.2.sn) : x = y := by
  induction b with
  | nil => simp at hx
  | cons a b ih =>
    rw [List.pairwise_cons] at h
    simp only [List.mem_cons] at hx hy
    rcases hx with rfl | hx <;> rcases hy with rfl | hy
    · rfl
    · have := h.1 y hy; omega
    · have := h.1 x hx; omega
    · exact ih h.2 hx hy

theorem names_inj {b : Buf} (h : (b.map (·.1)).Nodup) {x y : Nat × RFrag} (hx : x ∈ b) (hy : y ∈ b)
    (e : x.1 = y.1) : x = y := by
  induction b with
  | nil => simp at hx
  | cons a b ih =>
    rw [List.map_cons, List.nodup_cons] at h
    simp only [List.mem_cons] at hx hy
    rcases hx with rfl | hx <;> rcases hy with rfl | hy
    · rfl
    · exact absurd (List.mem_map.mpr ⟨y, hy, e.symm⟩) h.1
    · exact absurd (List.mem_map.mpr ⟨x, hx, e⟩) h.1
    · exact ih h.2 hx hy

theorem at?_of_mem {b : Buf} (h : (b.map (·.1)).Nodup) {x : Nat × RFrag} (hx : x ∈ b) : at? b x.1 = some x.2 := by
  induction b with
  | nil => simp at hx
  | cons a b ih =>
    have h' := h
    rw [List.map_cons, List.nodup_cons] at h
    simp only [at?, List.find?_cons]
    by_cases e : a.1 = x.1
    · have := names_inj h' (by simp) hx e
      subst this; simp
    · have hx' : x ∈ b := by
        simp only [List.mem_cons] at hx
        rcases hx with rfl | hx
        · exact absurd rfl e
        · exact hx
      have : (a.1 == x.1) = false := by simpa using e
      rw [this]
      exact ih h.2 hx'

/-! ### insertion position -/

theorem ins_split (b : Buf) (sn : Nat) : insPre b sn ++ insSuf b sn = b := by
  unfold insPre insSuf
  rw [← List.reverse_append, List.takeWhile_append_dropWhile, List.reverse_reverse]

theorem mem_takeWhile' {α} {p : α → Bool} {l : List α} {x : α} (h : x ∈ l.takeWhile p) : p x = true := by
  induction l with
  | nil => simp at h
  | cons a l ih =>
    rw [List.takeWhile_cons] at h
    split at h
    · simp only [List.mem_cons] at h
      rcases h with rfl | h
      · assumption
      · exact ih h
    · simp at h

theorem insSuf_ge (b : Buf) (sn : Nat) : ∀ x ∈ insSuf b sn, sn ≤ x.2.sn := by
  intro x hx
  unfold insSuf at hx
  rw [List.mem_reverse] at hx
  have := mem_takeWhile' hx
  simpa using this

theorem insPre_lt {b : Buf} (h : b.Pairwise (fun x y => x.2.sn < y.2.sn)) (sn : Nat) : ∀ x ∈ insPre b sn, x.2.sn < sn := by
  have e := ins_split b sn
  intro x hx
  rcases List.eq_nil_or_concat (insPre b sn) with e0 | ⟨l, z, e0⟩
  · rw [e0] at hx; simp at hx
  · have hz : z.2.sn < sn := by
      have e1 : (insPre b sn).reverse = b.reverse.dropWhile (fun x => !decide (x.2.sn < sn)) := by
        unfold insPre; rw [List.reverse_reverse]
      rw [e0] at e1
      have e2 : (l ++ [z]).reverse = z :: l.reverse := by simp
      rw [List.concat_eq_append] at e1
      rw [e2] at e1
      have := List.head?_dropWhile_not (fun x : Nat × RFrag => !decide (x.2.sn < sn)) b.reverse
      rw [← e1] at this
      simpa using this
    rw [← e, List.pairwise_append] at h
    rw [e0] at hx h
    have h1 := h.1
    rw [List.concat_eq_append, List.pairwise_append] at h1
    rw [List.concat_eq_append] at hx
    simp only [List.mem_append, List.mem_singleton] at hx
    rcases hx with hx | rfl
    · have := h1.2.2 x hx z (by simp); omega
    · exact hz

/-! ### runs -/

theorem InBuf_lt {b : Buf} : ∃ M, ∀ k, InBuf b k → k < M := by
  induction b with
  | nil => exact ⟨0, by rintro k ⟨x, hx, _⟩; simp at hx⟩
  | cons a b ih =>
    obtain ⟨M, hM⟩ := ih
    refine ⟨max M (a.2.sn + 1), ?_⟩
    rintro k ⟨x, hx, rfl⟩
    simp only [List.mem_cons] at hx
    rcases hx with rfl | hx
    · omega
    · have := hM x.2.sn ⟨x, hx, rfl⟩; omega

theorem exists_lo (st : St) (b : Buf) (k : Nat) (h : InBuf b k) : ∃ lo, Con st b lo k ∧ NoPred st b lo := by
  induction k with
  | zero => exact ⟨0, ⟨Nat.le_refl _, fun j _ h2 => by have : j = 0 := by omega
                                                       subst this; exact h, fun j _ h2 => by omega⟩, fun j hj => by omega⟩
  | succ k ih =>
    by_cases hp : InBuf b k ∧ Link st k
    · obtain ⟨lo, ⟨h1, h2, h3⟩, h4⟩ := ih hp.1
      refine ⟨lo, ⟨by omega, fun j a c => ?_, fun j a c => ?_⟩, h4⟩
      · by_cases e : j = k + 1
        · subst e; exact h
        · exact h2 j a (by omega)
      · by_cases e : j = k
        · subst e; exact hp.2
        · exact h3 j a (by omega)
    · refine ⟨k + 1, ⟨Nat.le_refl _, fun j a c => by have : j = k + 1 := by omega
                                                     subst this; exact h, fun j a c => by omega⟩, fun j hj hb hl => ?_⟩
      have : j = k := by omega
      subst this; exact hp ⟨hb, hl⟩

theorem exists_hi (st : St) (b : Buf) (k : Nat) (h : InBuf b k) : ∃ hi, Con st b k hi ∧ NoSucc st b hi := by
  obtain ⟨M, hM⟩ := @InBuf_lt b
  obtain ⟨d, hd⟩ : ∃ d, M - k = d := ⟨_, rfl⟩
  induction d generalizing k with
  | zero => have := hM k h; omega
  | succ d ih =>
    by_cases hp : InBuf b (k + 1) ∧ Link st k
    · obtain ⟨hi, ⟨h1, h2, h3⟩, h4⟩ := ih (k + 1) hp.1 (by omega)
      refine ⟨hi, ⟨by omega, fun j a c => ?_, fun j a c => ?_⟩, h4⟩
      · by_cases e : j = k
        · subst e; exact h
        · exact h2 j (by omega) c
      · by_cases e : j = k
        · subst e; exact hp.2
        · exact h3 j (by omega) c
    · refine ⟨k, ⟨Nat.le_refl _, fun j a c => by have : j = k := by omega
                                                 subst this; exact h, fun j a c => by omega⟩, fun hb hl => hp ⟨hb, hl⟩⟩

theorem lo_unique {st : St} {b : Buf} {a a' k : Nat} (h : Con st b a k) (h' : Con st b a' k) (n : NoPred st b a)
    (n' : NoPred st b a') : a = a' := by
  obtain ⟨h1, h2, h3⟩ := h
  obtain ⟨h1', h2', h3'⟩ := h'
  rcases Nat.lt_trichotomy a a' with hlt | e | hlt
  · exact absurd (h3 (a' - 1) (by omega) (by omega)) (n' (a' - 1) (by omega) (h2 _ (by omega) (by omega)))
  · exact e
  · exact absurd (h3' (a - 1) (by omega) (by omega)) (n (a - 1) (by omega) (h2' _ (by omega) (by omega)))

theorem hi_unique {st : St} {b : Buf} {a a' k : Nat} (h : Con st b k a) (h' : Con st b k a') (n : NoSucc st b a)
    (n' : NoSucc st b a') : a = a' := by
  obtain ⟨h1, h2, h3⟩ := h
  obtain ⟨h1', h2', h3'⟩ := h'
  rcases Nat.lt_trichotomy a a' with hlt | e | hlt
  · exact absurd (h3' a (by omega) (by omega)) (n (h2' _ (by omega) (by omega)))
  · exact e
  · exact absurd (h3 a' (by omega) (by omega)) (n' (h2 _ (by omega) (by omega)))

theorem Con.self (st : St) {b : Buf} {k : Nat} (h : InBuf b k) : Con st b k k := by
  refine ⟨Nat.le_refl _, fun j a c => ?_, fun j a c => by omega⟩
  have : j = k := by omega
  rw [this]; exact h
theorem Con.left {st : St} {b : Buf} {a k c : Nat} (h : Con st b a c) (h1 : a ≤ k) (h2 : k ≤ c) : Con st b a k :=
  ⟨h1, fun j x y => h.2.1 j x (by omega), fun j x y => h.2.2 j x (by omega)⟩
theorem Con.right {st : St} {b : Buf} {a k c : Nat} (h : Con st b a c) (h1 : a ≤ k) (h2 : k ≤ c) : Con st b k c :=
  ⟨h2, fun j x y => h.2.1 j (by omega) y, fun j x y => h.2.2 j (by omega) y⟩
theorem Con.join {st : St} {b : Buf} {a k c : Nat} (h : Con st b a k) (h' : Con st b k c) : Con st b a c :=
  ⟨by have := h.1; have := h'.1; omega, fun j x y => if e : j ≤ k then h.2.1 j x e else h'.2.1 j (by omega) y,
    fun j x y => if e : j < k then h.2.2 j x e else h'.2.2 j (by omega) y⟩

/-- two runs that share a number are the same -/
theorem Run.unique {st : St} {b : Buf} {a c a' c' k : Nat} (h : Run st b a c) (h' : Run st b a' c')
    (h1 : a ≤ k) (h2 : k ≤ c) (h3 : a' ≤ k) (h4 : k ≤ c') : a = a' ∧ c = c' :=
  ⟨lo_unique (h.con.left h1 h2) (h'.con.left h3 h4) h.pred h'.pred,
   hi_unique (h.con.right h1 h2) (h'.con.right h3 h4) h.succ h'.succ⟩

theorem exists_run (st : St) (b : Buf) (k : Nat) (h : InBuf b k) : ∃ lo hi, Run st b lo hi ∧ lo ≤ k ∧ k ≤ hi := by
  obtain ⟨lo, h1, h2⟩ := exists_lo st b k h
  obtain ⟨hi, h3, h4⟩ := exists_hi st b k h
  exact ⟨lo, hi, ⟨h1.join h3, h2, h4⟩, h1.1, h3.1⟩

/-! ### insertion -/

/-- the two pointer updates of `insertFragment` -/
def upd2 (sS sE : Nat) (x : Nat × RFrag) : Nat × RFrag :=
  (x.1, { x.2 with segEnd := if x.1 = sS then sE else x.2.segEnd, segStart := if x.1 = sE then sS else x.2.segStart })

theorem InBuf_upd2 (b : Buf) (sS sE k : Nat) : InBuf (b.map (upd2 sS sE)) k ↔ InBuf b k := by
  constructor
  · rintro ⟨x, hx, rfl⟩
    obtain ⟨y, hy, rfl⟩ := List.mem_map.mp hx
    exact ⟨y, hy, rfl⟩
  · rintro ⟨x, hx, rfl⟩
    exact ⟨_, List.mem_map.mpr ⟨x, hx, rfl⟩, rfl⟩

theorem Run_congr {st : St} {b b' : Buf} (h : ∀ k, InBuf b k ↔ InBuf b' k) {lo hi : Nat} (r : Run st b lo hi) : Run st b' lo hi :=
  ⟨⟨r.con.1, fun k a c => (h k).1 (r.con.2.1 k a c), r.con.2.2⟩, fun k a c => r.pred k a ((h k).2 c), fun a => r.succ ((h _).2 a)⟩

theorem BufOK.upd2 {st : St} {b : Buf} (h : BufOK st b) (sS sE : Nat) : BufOK st (b.map (upd2 sS sE)) := by
  refine ⟨?_, ?_, ?_⟩
  · rw [List.pairwise_map]; exact h.sorted
  · rw [List.map_map]; exact h.names
  · intro x hx
    obtain ⟨y, hy, rfl⟩ := List.mem_map.mp hx
    exact h.cont y hy

theorem insert_core {st : St} {b b0 : Buf} {new X Y : Nat × RFrag} (_hb : BufOK st b) (hr : RunInv st b)
    (h0 : BufOK st b0) (hm : ∀ x, x ∈ b0 ↔ x = new ∨ x ∈ b) (_hn : ¬ InBuf b new.2.sn)
    (hX : X ∈ b0) (hY : Y ∈ b0) (hrun : Run st b0 X.2.sn Y.2.sn) (hXs : X.2.sn ≤ new.2.sn) (hYs : new.2.sn ≤ Y.2.sn) :
    RunInv st (b0.map (upd2 X.1 Y.1)) := by
  have hin : ∀ k, InBuf b0 k ↔ k = new.2.sn ∨ InBuf b k := by
    intro k
    constructor
    · rintro ⟨x, hx, rfl⟩
      rcases (hm x).1 hx with rfl | hx
      · exact .inl rfl
      · exact .inr ⟨x, hx, rfl⟩
    · rintro (rfl | ⟨x, hx, rfl⟩)
      · exact ⟨new, (hm _).2 (.inl rfl), rfl⟩
      · exact ⟨x, (hm _).2 (.inr hx), rfl⟩
  intro x' hx' y' hy' hrun'
  obtain ⟨x, hx, rfl⟩ := List.mem_map.mp hx'
  obtain ⟨y, hy, rfl⟩ := List.mem_map.mp hy'
  have hrun1 : Run st b0 x.2.sn y.2.sn := Run_congr (InBuf_upd2 b0 _ _) hrun'
  by_cases hc : x.2.sn ≤ new.2.sn ∧ new.2.sn ≤ y.2.sn
  · obtain ⟨e1, e2⟩ := hrun1.unique hrun hc.1 hc.2 hXs hYs
    have e1 := sorted_inj h0.sorted hx hX e1
    have e2 := sorted_inj h0.sorted hy hY e2
    subst e1 e2
    simp [RFlow.upd2]
  · have hxn : x ∈ b := by
      rcases (hm x).1 hx with rfl | h
      · exact absurd ⟨Nat.le_refl _, hrun1.con.1⟩ hc
      · exact h
    have hyn : y ∈ b := by
      rcases (hm y).1 hy with rfl | h
      · exact absurd ⟨hrun1.con.1, Nat.le_refl _⟩ hc
      · exact h
    have hrb : Run st b x.2.sn y.2.sn := by
      refine ⟨⟨hrun1.con.1, fun k a c => ?_, hrun1.con.2.2⟩, fun k a c => hrun1.pred k a ((hin k).2 (.inr c)),
        fun a => hrun1.succ ((hin _).2 (.inr a))⟩
      rcases (hin k).1 (hrun1.con.2.1 k a c) with rfl | h
      · exact absurd ⟨a, c⟩ hc
      · exact h
    obtain ⟨i1, i2⟩ := hr x hxn y hyn hrb
    have n1 : x.1 ≠ X.1 := by
      intro e
      have e := names_inj h0.names hx hX e
      subst e
      have := hrun1.unique hrun (Nat.le_refl _) hrun1.con.1 (Nat.le_refl _) hrun.con.1
      rw [this.2] at hc
      exact hc ⟨hXs, hYs⟩
    have n2 : y.1 ≠ Y.1 := by
      intro e
      have e := names_inj h0.names hy hY e
      subst e
      have := hrun1.unique hrun hrun1.con.1 (Nat.le_refl _) hrun.con.1 (Nat.le_refl _)
      rw [this.1] at hc
      exact hc ⟨hXs, hYs⟩
    simp only [RFlow.upd2, if_neg n1, if_neg n2]
    exact ⟨i1, i2⟩

theorem link_iff_next {st : St} (w : WFst st) {k : Nat} {fra : Fra} {d : Bytes} (h : st (k + 1) = some (fra, d)) {x : Fra × Bytes}
    (hk : st k = some x) : Link st k ↔ (fra = .middle ∨ fra = .end) := by
  rw [← w.adj k x.1 x.2 fra d hk h]
  unfold Link
  constructor
  · rintro ⟨d, h | h⟩ <;> rw [h] at hk <;> cases hk <;> simp
  · rintro (h | h)
    · exact ⟨x.2, .inl (by rw [hk, ← h])⟩
    · exact ⟨x.2, .inr (by rw [hk, ← h])⟩

theorem link_iff {st : St} {k : Nat} {fra : Fra} {d : Bytes} (h : st k = some (fra, d)) : Link st k ↔ (fra = .begin ∨ fra = .middle) := by
  unfold Link
  rw [h]
  constructor
  · rintro ⟨d, h | h⟩ <;> cases h <;> simp
  · rintro (rfl | rfl)
    · exact ⟨d, .inl rfl⟩
    · exact ⟨d, .inr rfl⟩

theorem InBuf_st {st : St} {b : Buf} (h : BufOK st b) {k : Nat} (hk : InBuf b k) : ∃ x, st k = some x := by
  obtain ⟨x, hx, rfl⟩ := hk
  exact ⟨_, h.cont x hx⟩

/-- what `segStart` is -/
theorem ins_segStart {st : St} (w : WFst st) {b : Buf} (hb : BufOK st b) (hr : RunInv st b) {sn nm : Nat} {fra : Fra} {d : Bytes}
    (hs : st sn = some (fra, d)) (hn : ¬ InBuf b sn) (hf : fra ≠ .whole) :
    let v := joinPrev (insPre b sn) nm sn fra
    (v = nm ∧ NoPred st b sn) ∨ (∃ x ∈ b, v = x.1 ∧ ∃ k, k + 1 = sn ∧ Con st b x.2.sn k ∧ NoPred st b x.2.sn ∧ Link st k) := by
  intro v
  have hpre := insPre_lt hb.sorted sn
  have hsuf := insSuf_ge b sn
  have hsp := ins_split b sn
  by_cases hp : ∃ k, k + 1 = sn ∧ InBuf b k ∧ Link st k
  · obtain ⟨k, rfl, ⟨p, hpb, hpk⟩, hl⟩ := hp
    right
    have hpp : p ∈ insPre b (k + 1) := by
      rw [← hsp] at hpb
      rcases List.mem_append.mp hpb with h | h
      · exact h
      · have := hsuf p h; omega
    have hlast : (insPre b (k + 1)).getLast? = some p := by
      rcases List.eq_nil_or_concat (insPre b (k + 1)) with e0 | ⟨l, z, e0⟩
      · rw [e0] at hpp; simp at hpp
      · rw [List.concat_eq_append] at e0
        rw [e0, List.getLast?_concat]
        have hz := hpre z (by rw [e0]; simp)
        rw [e0] at hpp
        simp only [List.mem_append, List.mem_singleton] at hpp
        rcases hpp with h | rfl
        · have hs := hb.sorted
          rw [← hsp, e0, List.pairwise_append, List.pairwise_append] at hs
          have := hs.1.2.2 p h z (by simp)
          omega
        · rfl
    have hfra : fra ≠ .begin := by
      have := (link_iff_next w hs (by rw [← hpk]; exact hb.cont p hpb)).1 hl
      rintro rfl
      simp at this
    have hv : v = p.2.segStart := by
      show joinPrev _ _ _ _ = _
      rw [joinPrev, hlast]
      show (if fra ≠ Fra.begin ∧ p.2.sn + 1 = (k + 1) then p.2.segStart else nm) = _
      rw [if_pos ⟨hfra, by omega⟩]
    obtain ⟨lo, hc, hnp⟩ := exists_lo st b k ⟨p, hpb, hpk⟩
    obtain ⟨x, hx, hxl⟩ := hc.2.1 lo (Nat.le_refl _) hc.1
    have hrun : Run st b x.2.sn p.2.sn := by
      rw [hxl, hpk]
      exact ⟨hc, hnp, fun h => absurd h hn⟩
    refine ⟨x, hx, ?_, k, rfl, by rw [hxl]; exact hc, by rw [hxl]; exact hnp, hl⟩
    rw [hv]
    exact (hr x hx p hpb hrun).2
  · left
    refine ⟨?_, fun k a c l => hp ⟨k, a, c, l⟩⟩
    show joinPrev _ _ _ _ = _
    rw [joinPrev]
    cases e : (insPre b sn).getLast? with
    | none => rfl
    | some p =>
      have hpb : p ∈ b := by
        rw [← hsp]
        exact List.mem_append.mpr (.inl (List.mem_of_getLast? e))
      show (if fra ≠ Fra.begin ∧ p.2.sn + 1 = sn then p.2.segStart else nm) = _
      apply if_neg
      rintro ⟨h1, h2⟩
      apply hp
      refine ⟨p.2.sn, h2, ⟨p, hpb, rfl⟩, ?_⟩
      subst h2
      rw [link_iff_next w hs (hb.cont p hpb)]
      cases fra <;> simp_all

/-- what `segEnd` is -/
theorem ins_segEnd {st : St} (w : WFst st) {b : Buf} (hb : BufOK st b) (hr : RunInv st b) {sn nm : Nat} {fra : Fra} {d : Bytes}
    (hs : st sn = some (fra, d)) (hn : ¬ InBuf b sn) (hf : fra ≠ .whole) :
    let v := joinNext (insSuf b sn) nm sn fra
    (v = nm ∧ NoSucc st b sn) ∨ (∃ x ∈ b, v = x.1 ∧ Con st b (sn + 1) x.2.sn ∧ NoSucc st b x.2.sn ∧ Link st sn) := by
  intro v
  have hpre := insPre_lt hb.sorted sn
  have hsuf := insSuf_ge b sn
  have hsp := ins_split b sn
  have hw := w.small _ _ hs
  by_cases hp : InBuf b (sn + 1) ∧ Link st sn
  · obtain ⟨⟨p, hpb, hpk⟩, hl⟩ := hp
    right
    have hpp : p ∈ insSuf b sn := by
      rw [← hsp] at hpb
      rcases List.mem_append.mp hpb with h | h
      · have := hpre p h; omega
      · exact h
    have hhead : (insSuf b sn).head? = some p := by
      cases e0 : insSuf b sn with
      | nil => rw [e0] at hpp; simp at hpp
      | cons z l =>
        rw [List.head?_cons]
        have hz := hsuf z (by rw [e0]; simp)
        rw [e0] at hpp
        simp only [List.mem_cons] at hpp
        rcases hpp with rfl | h
        · rfl
        · have hs := hb.sorted
          rw [← hsp, e0, List.pairwise_append, List.pairwise_cons] at hs
          have := hs.2.1.1 p h
          have : z.2.sn = sn := by omega
          exact absurd ⟨z, by rw [← hsp, e0]; simp, this⟩ hn
    have hfra : fra ≠ .end := by
      have := (link_iff hs).1 hl
      rintro rfl
      simp at this
    have hpw := w.small _ _ (hb.cont p hpb)
    have hv : v = p.2.segEnd := by
      show joinNext _ _ _ _ = _
      rw [joinNext, hhead]
      show (if fra ≠ Fra.end ∧ p.2.sn = (sn + 1) % W64 then p.2.segEnd else nm) = _
      rw [if_pos ⟨hfra, by omega⟩]
    obtain ⟨hi, hc, hns⟩ := exists_hi st b (sn + 1) ⟨p, hpb, hpk⟩
    obtain ⟨x, hx, hxl⟩ := hc.2.1 hi hc.1 (Nat.le_refl _)
    have hrun : Run st b p.2.sn x.2.sn := by
      rw [hxl, hpk]
      exact ⟨hc, fun k a c => by have : k = sn := by omega
                                 subst this; exact absurd c hn, hns⟩
    refine ⟨x, hx, ?_, by rw [hxl]; exact hc, by rw [hxl]; exact hns, hl⟩
    rw [hv]
    exact (hr p hpb x hx hrun).1
  · left
    refine ⟨?_, fun c l => hp ⟨c, l⟩⟩
    show joinNext _ _ _ _ = _
    rw [joinNext]
    cases e : (insSuf b sn).head? with
    | none => rfl
    | some p =>
      have hps := List.mem_of_head? e
      have hpb : p ∈ b := by
        rw [← hsp]
        exact List.mem_append.mpr (.inr hps)
      show (if fra ≠ Fra.end ∧ p.2.sn = (sn + 1) % W64 then p.2.segEnd else nm) = _
      apply if_neg
      rintro ⟨h1, h2⟩
      have h3 := hsuf p hps
      apply hp
      refine ⟨⟨p, hpb, by omega⟩, ?_⟩
      rw [link_iff hs]
      cases fra <;> simp_all

theorem modify_self {b : Buf} (hb : (b.map (·.1)).Nodup) {x : Nat × RFrag} (hx : x ∈ b) (g : RFrag → RFrag) (hg : g x.2 = x.2) :
    modify b x.1 g = b := by
  unfold modify
  conv => rhs; rw [← List.map_id b]
  apply List.map_congr_left
  intro y hy
  split
  · rename_i e
    have := names_inj hb hy hx e
    subst this
    rw [hg]; rfl
  · rfl

theorem modify_modify (b : Buf) (sS sE : Nat) :
    modify (modify b sS (fun x => { x with segEnd := sE })) sE (fun x => { x with segStart := sS }) = b.map (upd2 sS sE) := by
  unfold modify upd2
  rw [List.map_map]
  apply List.map_congr_left
  intro x _
  simp only [Function.comp]
  by_cases h1 : x.1 = sS
  · rw [if_pos h1, if_pos h1]
    by_cases h2 : x.1 = sE
    · rw [if_pos h2, if_pos h2]
    · rw [if_neg h2, if_neg h2]
  · rw [if_neg h1, if_neg h1]
    by_cases h2 : x.1 = sE
    · rw [if_pos h2, if_pos h2]
    · rw [if_neg h2, if_neg h2]

theorem at?_modify {b : Buf} {n : Nat} {g : RFrag → RFrag} (m : Nat) :
    at? (modify b n g) m = (at? b m).map (fun x => if m = n then g x else x) := by
  unfold at? modify
  induction b with
  | nil => rfl
  | cons a b ih =>
    rw [List.map_cons, List.find?_cons, List.find?_cons]
    by_cases h : a.1 = n
    · by_cases h2 : a.1 = m
      · subst h; subst h2; simp
      · have : (a.1 == m) = false := by simpa using h2
        simp only [if_pos h, this]
        exact ih
    · by_cases h2 : a.1 = m
      · subst h2; simp [h]
      · have : (a.1 == m) = false := by simpa using h2
        simp only [if_neg h, this]
        exact ih

/-- **insertion of a fragment of the stream**: never throws, keeps the run structure, and the hint is right -/
theorem insert_ok {st : St} (w : WFst st) {b : Buf} (hb : BufOK st b) (hr : RunInv st b) {sn nm : Nat} {flags : UInt8} {d : Bytes}
    (hs : st sn = some (Fra.ofFlags flags, d)) (hn : ¬ InBuf b sn) (hnm : nm ∉ b.map (·.1)) :
    ∃ b' hint, insertFragment b nm sn flags d = .ok (b', hint) ∧ BufOK st b' ∧ RunInv st b' ∧
      (∀ k, InBuf b' k ↔ k = sn ∨ InBuf b k) ∧ (∀ n, n ∈ b'.map (·.1) ↔ n = nm ∨ n ∈ b.map (·.1)) ∧
      ∃ X ∈ b', ∃ Y ∈ b', Run st b' X.2.sn Y.2.sn ∧ X.2.sn ≤ sn ∧ sn ≤ Y.2.sn ∧
        hint = if (X.2.fra = .begin ∧ Y.2.fra = .end) ∨ X.2.fra = .whole then some X.1 else none := by
  obtain ⟨fra, hfra⟩ : ∃ fra, fra = Fra.ofFlags flags := ⟨_, rfl⟩
  rw [← hfra] at hs
  have hpre := insPre_lt hb.sorted sn
  have hsuf := insSuf_ge b sn
  have hsp := ins_split b sn
  have hsuf' : ∀ x ∈ insSuf b sn, sn < x.2.sn := by
    intro x hx
    have h1 := hsuf x hx
    have : x.2.sn ≠ sn := fun e => hn ⟨x, by rw [← hsp]; exact List.mem_append.mpr (.inr hx), e⟩
    omega
  -- the buffer with the new element, whatever its pointers
  have key : ∀ sS sE : Nat, ∀ b0, b0 = insPre b sn ++ (nm, (⟨sn, sS, sE, fra, d⟩ : RFrag)) :: insSuf b sn →
      BufOK st b0 ∧ (∀ x, x ∈ b0 ↔ x = (nm, (⟨sn, sS, sE, fra, d⟩ : RFrag)) ∨ x ∈ b) ∧ (∀ k, InBuf b0 k ↔ k = sn ∨ InBuf b k) ∧
      (∀ n, n ∈ b0.map (·.1) ↔ n = nm ∨ n ∈ b.map (·.1)) := by
    intro sS sE b0 e0
    have hm : ∀ x, x ∈ b0 ↔ x = (nm, (⟨sn, sS, sE, fra, d⟩ : RFrag)) ∨ x ∈ b := by
      intro x
      conv => rhs; rw [← hsp]
      rw [e0]
      simp only [List.mem_append, List.mem_cons]
      constructor
      · rintro (h | h | h)
        · exact .inr (.inl h)
        · exact .inl h
        · exact .inr (.inr h)
      · rintro (h | h | h)
        · exact .inr (.inl h)
        · exact .inl h
        · exact .inr (.inr h)
    refine ⟨⟨?_, ?_, ?_⟩, hm, ?_, ?_⟩
    · rw [e0]
      have h1 := hb.sorted
      rw [← hsp, List.pairwise_append] at h1
      rw [List.pairwise_append, List.pairwise_cons]
      refine ⟨h1.1, ⟨fun x hx => hsuf' x hx, h1.2.1⟩, ?_⟩
      intro x hx y hy
      simp only [List.mem_cons] at hy
      rcases hy with rfl | hy
      · exact hpre x hx
      · exact h1.2.2 x hx y hy
    · rw [e0]
      have h1 := hb.names
      rw [← hsp] at h1 hnm
      rw [List.map_append, List.map_cons, List.nodup_append, List.nodup_cons]
      rw [List.map_append, List.nodup_append] at h1
      rw [List.map_append, List.mem_append] at hnm
      refine ⟨h1.1, ⟨fun h => hnm (.inr h), h1.2.1⟩, ?_⟩
      intro x hx y hy
      simp only [List.mem_cons] at hy
      rcases hy with rfl | hy
      · rintro rfl; exact hnm (.inl hx)
      · exact h1.2.2 x hx y hy
    · intro x hx
      rcases (hm x).1 hx with rfl | h
      · exact hs
      · exact hb.cont x h
    · intro k
      constructor
      · rintro ⟨x, hx, rfl⟩
        rcases (hm x).1 hx with rfl | h
        · exact .inl rfl
        · exact .inr ⟨x, h, rfl⟩
      · rintro (rfl | ⟨x, hx, rfl⟩)
        · exact ⟨_, (hm _).2 (.inl rfl), rfl⟩
        · exact ⟨x, (hm _).2 (.inr hx), rfl⟩
    · intro n
      simp only [List.mem_map]
      constructor
      · rintro ⟨x, hx, rfl⟩
        rcases (hm x).1 hx with rfl | h
        · exact .inl rfl
        · exact .inr ⟨x, h, rfl⟩
      · rintro (rfl | ⟨x, hx, rfl⟩)
        · exact ⟨_, (hm _).2 (.inl rfl), rfl⟩
        · exact ⟨x, (hm _).2 (.inr hx), rfl⟩
  -- general case, given where the run starts and ends
  have main : ∀ (sS sE : Nat) (b0 : Buf), b0 = insPre b sn ++ (nm, (⟨sn, sS, sE, fra, d⟩ : RFrag)) :: insSuf b sn →
      ((sS = nm ∧ NoPred st b sn) ∨ (∃ x ∈ b, sS = x.1 ∧ ∃ k, k + 1 = sn ∧ Con st b x.2.sn k ∧ NoPred st b x.2.sn ∧ Link st k)) →
      ((sE = nm ∧ NoSucc st b sn) ∨ (∃ x ∈ b, sE = x.1 ∧ Con st b (sn + 1) x.2.sn ∧ NoSucc st b x.2.sn ∧ Link st sn)) →
      ∃ X ∈ b0, ∃ Y ∈ b0, X.1 = sS ∧ Y.1 = sE ∧ Run st b0 X.2.sn Y.2.sn ∧ X.2.sn ≤ sn ∧ sn ≤ Y.2.sn := by
    intro sS sE b0 e0 hS hE
    obtain ⟨-, hm, hin, -⟩ := key sS sE b0 e0
    have hsn : InBuf b0 sn := (hin _).2 (.inl rfl)
    have hmono : ∀ {lo hi}, Con st b lo hi → Con st b0 lo hi := fun h => ⟨h.1, fun k a c => (hin k).2 (.inr (h.2.1 k a c)), h.2.2⟩
    have hself : Con st b0 sn sn := Con.self st hsn
    have hX : ∃ X ∈ b0, X.1 = sS ∧ Con st b0 X.2.sn sn ∧ NoPred st b0 X.2.sn := by
      rcases hS with ⟨rfl, h⟩ | ⟨x, hx, rfl, k, rfl, hc, hnp, hl⟩
      · refine ⟨_, (hm _).2 (.inl rfl), rfl, hself, fun k a c => ?_⟩
        rcases (hin k).1 c with e | c
        · have : k + 1 = sn := a
          omega
        · exact h k a c
      · refine ⟨x, (hm _).2 (.inr hx), rfl, ?_, fun j a c => ?_⟩
        · have := hmono hc
          refine ⟨by have := hc.1; omega, fun j a c => ?_, fun j a c => ?_⟩
          · by_cases e : j = k + 1
            · subst e; exact hsn
            · exact this.2.1 j a (by omega)
          · by_cases e : j = k
            · subst e; exact hl
            · exact this.2.2 j a (by omega)
        · rcases (hin j).1 c with e | c
          · have := hc.1; omega
          · exact hnp j a c
    have hY : ∃ Y ∈ b0, Y.1 = sE ∧ Con st b0 sn Y.2.sn ∧ NoSucc st b0 Y.2.sn := by
      rcases hE with ⟨rfl, h⟩ | ⟨x, hx, rfl, hc, hns, hl⟩
      · refine ⟨_, (hm _).2 (.inl rfl), rfl, hself, fun c => ?_⟩
        rcases (hin _).1 c with e | c
        · simp at e
        · exact h c
      · refine ⟨x, (hm _).2 (.inr hx), rfl, ?_, fun c => ?_⟩
        · have := hmono hc
          refine ⟨by have := hc.1; omega, fun j a c => ?_, fun j a c => ?_⟩
          · by_cases e : j = sn
            · subst e; exact hsn
            · exact this.2.1 j (by omega) c
          · by_cases e : j = sn
            · subst e; exact hl
            · exact this.2.2 j (by omega) c
        · rcases (hin _).1 c with e | c
          · have := hc.1; omega
          · exact hns c
    obtain ⟨X, hX, eX, cX, pX⟩ := hX
    obtain ⟨Y, hY, eY, cY, pY⟩ := hY
    exact ⟨X, hX, Y, hY, eX, eY, ⟨cX.join cY, pX, pY⟩, cX.1, cY.1⟩
  -- what the code computes with those pointers
  have fin : ∀ (sS sE : Nat) (b0 : Buf), b0 = insPre b sn ++ (nm, (⟨sn, sS, sE, fra, d⟩ : RFrag)) :: insSuf b sn →
      ∀ X ∈ b0, ∀ Y ∈ b0, X.1 = sS → Y.1 = sE → Run st b0 X.2.sn Y.2.sn → X.2.sn ≤ sn → sn ≤ Y.2.sn →
      ∀ hint, hint = (if (X.2.fra = .begin ∧ Y.2.fra = .end) ∨ X.2.fra = .whole then some X.1 else none) →
      BufOK st (b0.map (upd2 sS sE)) ∧ RunInv st (b0.map (upd2 sS sE)) ∧
      (∀ k, InBuf (b0.map (upd2 sS sE)) k ↔ k = sn ∨ InBuf b k) ∧
      (∀ n, n ∈ (b0.map (upd2 sS sE)).map (·.1) ↔ n = nm ∨ n ∈ b.map (·.1)) ∧
      ∃ X ∈ b0.map (upd2 sS sE), ∃ Y ∈ b0.map (upd2 sS sE), Run st (b0.map (upd2 sS sE)) X.2.sn Y.2.sn ∧ X.2.sn ≤ sn ∧ sn ≤ Y.2.sn ∧
        hint = if (X.2.fra = .begin ∧ Y.2.fra = .end) ∨ X.2.fra = .whole then some X.1 else none := by
    intro sS sE b0 e0 X hX Y hY eX eY hrun h1 h2 hint hhint
    obtain ⟨hok, hm, hin, hnames⟩ := key sS sE b0 e0
    refine ⟨hok.upd2 _ _, ?_, fun k => (InBuf_upd2 _ _ _ _).trans (hin k), ?_, ?_⟩
    · rw [← eX, ← eY]
      exact insert_core hb hr hok hm hn hX hY hrun h1 h2
    · intro n
      rw [← hnames, List.map_map]
      rfl
    · refine ⟨_, List.mem_map.mpr ⟨X, hX, rfl⟩, _, List.mem_map.mpr ⟨Y, hY, rfl⟩, ?_, h1, h2, hhint⟩
      exact Run_congr (fun k => (InBuf_upd2 _ _ _ _).symm) hrun
  by_cases hwh : fra = .whole
  · obtain ⟨b0, e0⟩ : ∃ b0, b0 = insPre b sn ++ (nm, (⟨sn, nm, nm, fra, d⟩ : RFrag)) :: insSuf b sn := ⟨_, rfl⟩
    obtain ⟨hok, hm, hin, hnames⟩ := key nm nm b0 e0
    have hnl : ¬ Link st sn := by rw [link_iff hs, hwh]; simp
    have hnp : NoPred st b sn := by
      intro k hk hb' hl
      subst hk
      obtain ⟨x, hx⟩ := InBuf_st hb hb'
      rw [link_iff_next w hs hx, hwh] at hl
      simp at hl
    have hnew : (nm, (⟨sn, nm, nm, fra, d⟩ : RFrag)) ∈ b0 := (hm _).2 (.inl rfl)
    have hrun : Run st b0 sn sn := by
      refine ⟨⟨Nat.le_refl _, fun k a c => ?_, fun k a c => by omega⟩, fun k a c => ?_, fun _ => hnl⟩
      · have : k = sn := by omega
        subst this
        exact ⟨_, hnew, rfl⟩
      · rcases (hin _).1 c with e | c
        · omega
        · exact hnp k a c
    have hid : b0.map (upd2 nm nm) = b0 := by
      rw [← modify_modify, modify_self hok.names hnew _ rfl, modify_self hok.names hnew _ rfl]
    have := fin nm nm b0 e0 _ hnew _ hnew rfl rfl hrun (Nat.le_refl _) (Nat.le_refl _) (some nm) (by simp [hwh])
    rw [hid] at this
    refine ⟨b0, some nm, ?_, this⟩
    rw [insertFragment, ← hfra]
    simp only [if_pos hwh, e0]
  · have hS := ins_segStart w hb hr (nm := nm) hs hn hwh
    have hE := ins_segEnd w hb hr (nm := nm) hs hn hwh
    obtain ⟨sS, hsS⟩ : ∃ sS, sS = (joinPrev (insPre b sn) nm sn fra) := ⟨_, rfl⟩
    obtain ⟨sE, hsE⟩ : ∃ sE, sE = (joinNext (insSuf b sn) nm sn fra) := ⟨_, rfl⟩
    simp only [← hsS] at hS
    simp only [← hsE] at hE
    obtain ⟨b0, e0⟩ : ∃ b0, b0 = insPre b sn ++ (nm, (⟨sn, sS, sE, fra, d⟩ : RFrag)) :: insSuf b sn := ⟨_, rfl⟩
    obtain ⟨hok, hm, hin, hnames⟩ := key sS sE b0 e0
    obtain ⟨X, hX, Y, hY, eX, eY, hrun, h1, h2⟩ := main sS sE b0 e0 hS hE
    have hnew : (nm, (⟨sn, sS, sE, fra, d⟩ : RFrag)) ∈ b0 := (hm _).2 (.inl rfl)
    have hXw : X.2.fra ≠ .whole := by
      intro hw'
      by_cases e : X.2.sn = sn
      · have := sorted_inj hok.sorted hX hnew e
        rw [this] at hw'
        exact hwh hw'
      · have hl := hrun.con.2.2 X.2.sn (Nat.le_refl _) (by omega)
        rw [link_iff (hok.cont X hX), hw'] at hl
        simp at hl
    refine ⟨b0.map (upd2 sS sE), _, ?_, fin sS sE b0 e0 X hX Y hY eX eY hrun h1 h2 _ rfl⟩
    rw [insertFragment, ← hfra]
    simp only [if_neg hwh, ← hsS, ← hsE, ← e0]
    have hatX : at? b0 sS = some X.2 := by rw [← eX]; exact at?_of_mem hok.names hX
    have hatY : at? b0 sE = some Y.2 := by rw [← eY]; exact at?_of_mem hok.names hY
    have r1 : fixStart b0 nm sS sE fra = .ok (modify b0 sS (fun x => { x with segEnd := sE }), decide (X.2.fra = Fra.begin)) := by
      rw [fixStart]
      by_cases e : sS = nm
      · have : X = _ := names_inj hok.names hX hnew (eX.trans e)
        rw [if_neg (by simpa using e), this]
        rw [e]
        have := modify_self hok.names hnew (fun x => { x with segEnd := sE }) rfl
        simp only at this
        rw [this]
      · rw [if_pos e, hatX]
    rw [r1]
    dsimp only
    have hatY' : ∃ Y', at? (modify b0 sS (fun x => { x with segEnd := sE })) sE = some Y' ∧ Y'.fra = Y.2.fra := by
      rw [at?_modify, hatY]
      refine ⟨_, rfl, ?_⟩
      simp only [apply_ite RFrag.fra]
      split <;> rfl
    obtain ⟨Y', hY', hYf⟩ := hatY'
    have r2 : fixEnd (modify b0 sS (fun x => { x with segEnd := sE })) nm sS sE fra =
        .ok (b0.map (upd2 sS sE), decide (Y.2.fra = Fra.end)) := by
      rw [fixEnd]
      by_cases e : sE = nm
      · have hYn : Y = _ := names_inj hok.names hY hnew (eY.trans e)
        rw [if_neg (by simpa using e), hYn, ← modify_modify]
        congr 2
        symm
        rw [e]
        by_cases e2 : sS = nm
        · have := modify_self hok.names hnew (fun x => { x with segEnd := nm }) (by rw [← e])
          simp only at this
          rw [e2, this]
          have := modify_self hok.names hnew (fun x => { x with segStart := nm }) (by rw [← e2])
          exact this
        · rw [modify, modify, List.map_map]
          apply List.map_congr_left
          intro z hz
          simp only [Function.comp]
          by_cases h : z.1 = nm
          · have := names_inj hok.names hz hnew h
            rw [this]
            simp [Ne.symm e2]
          · by_cases h' : z.1 = sS
            · simp [h', e2]
            · simp [h, h']
      · rw [if_pos e, hY', modify_modify]
        simp only [hYf]
    rw [r2]
    simp only [hXw, or_false, eX, Bool.and_eq_true, decide_eq_true_eq]

/-! ### delivery of a complete run -/

/-- `lo … hi` are the fragments of one message -/
def IsMsg (st : St) (lo hi : Nat) : Prop :=
  (lo = hi ∧ ∃ d, st lo = some (.whole, d)) ∨
  (lo < hi ∧ (∃ d, st lo = some (.begin, d)) ∧ (∃ d, st hi = some (.end, d)) ∧ ∀ k, lo ≤ k → k < hi → Link st k)

/-- the payload of fragment `k` -/
def payload (st : St) (k : Nat) : Bytes := ((st k).map (·.2)).getD []

/-- the payloads of `lo … hi` -/
def content (st : St) (lo hi : Nat) : Bytes := (List.range' lo (hi + 1 - lo)).flatMap (payload st)

theorem strict_ext {l l' : List Nat} (h : l.Pairwise (· < ·)) (h' : l'.Pairwise (· < ·)) (e : ∀ k, k ∈ l ↔ k ∈ l') : l = l' := by
  induction l generalizing l' with
  | nil => cases l' with
    | nil => rfl
    | cons a l' => have := (e a).2 (by simp); simp at this
  | cons a l ih =>
    cases l' with
    | nil => have := (e a).1 (by simp); simp at this
    | cons a' l' =>
      rw [List.pairwise_cons] at h h'
      have hle : ∀ x ∈ a :: l, a ≤ x := fun x hx => by
        simp only [List.mem_cons] at hx
        rcases hx with rfl | hx
        · omega
        · have := h.1 x hx; omega
      have hle' : ∀ x ∈ a' :: l', a' ≤ x := fun x hx => by
        simp only [List.mem_cons] at hx
        rcases hx with rfl | hx
        · omega
        · have := h'.1 x hx; omega
      have h1 := hle a' ((e a').2 (by simp))
      have h2 := hle' a ((e a).1 (by simp))
      have ea : a = a' := by omega
      subst ea
      rw [ih h.2 h'.2 ?_]
      intro k
      constructor
      · intro hk
        have := (e k).1 (by simp [hk])
        simp only [List.mem_cons] at this
        rcases this with rfl | this
        · have := h.1 k hk; omega
        · exact this
      · intro hk
        have := (e k).2 (by simp [hk])
        simp only [List.mem_cons] at this
        rcases this with rfl | this
        · have := h'.1 k hk; omega
        · exact this

def blk (b : Buf) (lo hi : Nat) : Buf := b.filter (fun x => decide (lo ≤ x.2.sn ∧ x.2.sn ≤ hi))
def rem (b : Buf) (lo hi : Nat) : Buf := b.filter (fun x => !decide (lo ≤ x.2.sn ∧ x.2.sn ≤ hi))

theorem mem_blk {b : Buf} {lo hi : Nat} {x} : x ∈ blk b lo hi ↔ x ∈ b ∧ lo ≤ x.2.sn ∧ x.2.sn ≤ hi := by
  simp [blk, List.mem_filter]
theorem mem_rem {b : Buf} {lo hi : Nat} {x} : x ∈ rem b lo hi ↔ x ∈ b ∧ ¬ (lo ≤ x.2.sn ∧ x.2.sn ≤ hi) := by
  rw [rem, List.mem_filter, Bool.not_eq_true', decide_eq_false_iff_not]

theorem split3 {b : Buf} (h : b.Pairwise (fun x y => x.2.sn < y.2.sn)) (lo hi : Nat) :
    b = b.filter (fun x => decide (x.2.sn < lo)) ++ (blk b lo hi ++ b.filter (fun x => decide (lo ≤ x.2.sn ∧ hi < x.2.sn))) := by
  induction b with
  | nil => rfl
  | cons a b ih =>
    rw [List.pairwise_cons] at h
    have ih := ih h.2
    have e1 : lo ≤ a.2.sn → b.filter (fun x => decide (x.2.sn < lo)) = [] := by
      intro hl
      rw [List.filter_eq_nil_iff]
      intro x hx
      have := h.1 x hx
      simp; omega
    have e2 : lo ≤ a.2.sn → hi < a.2.sn → blk b lo hi = [] := by
      intro hl hh
      rw [blk, List.filter_eq_nil_iff]
      intro x hx
      have := h.1 x hx
      simp; omega
    by_cases c1 : a.2.sn < lo
    · have c2 : ¬ (lo ≤ a.2.sn ∧ a.2.sn ≤ hi) := by omega
      have c3 : ¬ (lo ≤ a.2.sn ∧ hi < a.2.sn) := by omega
      rw [blk] at ih ⊢
      rw [List.filter_cons_of_pos (by simpa using c1), List.filter_cons_of_neg (by simpa using c2),
        List.filter_cons_of_neg (by simpa using c3), List.cons_append, ← ih]
    · have e1 := e1 (by omega)
      by_cases c2 : a.2.sn ≤ hi
      · have c3 : ¬ (lo ≤ a.2.sn ∧ hi < a.2.sn) := by omega
        rw [blk] at ih ⊢
        rw [e1] at ih
        rw [List.filter_cons_of_neg (by simpa using c1), List.filter_cons_of_pos (by simp; omega),
          List.filter_cons_of_neg (by simpa using c3), e1, List.nil_append, List.cons_append]
        rw [List.nil_append] at ih
        rw [← ih]
      · have e2 := e2 (by omega) (by omega)
        rw [e1, e2] at ih
        rw [blk] at e2 ⊢
        rw [List.filter_cons_of_neg (by simpa using c1), List.filter_cons_of_neg (by simp; omega),
          List.filter_cons_of_pos (by simp; omega), e1, e2, List.nil_append, List.nil_append]
        rw [List.nil_append, List.nil_append] at ih
        rw [← ih]

theorem blk_sns {b : Buf} (h : b.Pairwise (fun x y => x.2.sn < y.2.sn)) {lo hi : Nat}
    (hc : ∀ k, lo ≤ k → k ≤ hi → InBuf b k) : (blk b lo hi).map (fun x => x.2.sn) = List.range' lo (hi + 1 - lo) := by
  apply strict_ext
  · rw [List.pairwise_map]; exact h.sublist List.filter_sublist
  · exact List.pairwise_lt_range'
  · intro k
    rw [List.mem_range'_1, List.mem_map]
    constructor
    · rintro ⟨x, hx, rfl⟩
      have := mem_blk.mp hx
      omega
    · intro hk
      obtain ⟨x, hx, rfl⟩ := hc k (by omega) (by omega)
      exact ⟨x, mem_blk.mpr ⟨hx, by omega⟩, rfl⟩

theorem blk_content {st : St} {b : Buf} (h : BufOK st b) {lo hi : Nat}
    (hc : ∀ k, lo ≤ k → k ≤ hi → InBuf b k) : (blk b lo hi).flatMap (fun y : Nat × RFrag => y.2.data) = content st lo hi := by
  rw [content, ← blk_sns h.sorted hc, List.flatMap_map]
  have : ∀ l : Buf, (∀ x ∈ l, x ∈ b) → l.flatMap (fun y : Nat × RFrag => y.2.data) = l.flatMap (fun a => payload st a.2.sn) := by
    intro l hl
    induction l with
    | nil => rfl
    | cons a l ih =>
      rw [List.flatMap_cons, List.flatMap_cons, ih (fun x hx => hl x (by simp [hx]))]
      congr 1
      rw [payload, h.cont a (hl a (by simp))]
      rfl
  exact this _ (fun x hx => (mem_blk.mp hx).1)

theorem upToEnd_append (l C : Buf) (y : Nat × RFrag) (h : ∀ x ∈ l, x.2.fra ≠ .end) (hy : y.2.fra = .end) :
    upToEnd (l ++ y :: C) = some (l ++ [y]) := by
  induction l with
  | nil => simp [upToEnd, hy]
  | cons a l ih =>
    rw [List.cons_append, upToEnd, if_neg (h a (by simp)), ih (fun x hx => h x (by simp [hx]))]
    rfl

theorem dropWhile_append_of_all {α} {p : α → Bool} (A B : List α) (h : ∀ x ∈ A, p x = true) :
    (A ++ B).dropWhile p = B.dropWhile p := by
  induction A with
  | nil => rfl
  | cons a A ih =>
    rw [List.cons_append, List.dropWhile_cons, if_pos (h a (by simp)), ih (fun x hx => h x (by simp [hx]))]

/-- what delivering a message does to the flow -/
def deliverOut (f : RFlow) (b1 : Buf) (data : Bytes) (sn count : Nat) (rc : Nat → React) : RFlow × List REv :=
  let r0 := if f.prevRwnd < 2 then f.scheduleAck true else (f, [])
  let g := { r0.1 with buf := b1 }
  if g.onMessage then ((g.react (rc sn)).1, r0.2 ++ REv.msg data sn count :: (g.react (rc sn)).2) else (g, r0.2)

theorem IsMsg.le {st : St} {lo hi : Nat} (h : IsMsg st lo hi) : lo ≤ hi := by
  rcases h with ⟨h, _⟩ | ⟨h, _⟩ <;> omega

theorem react_erase (f : RFlow) (n : Nat) (r : React) :
    (({ f with buf := erase f.buf n } : RFlow).react r) = ({ (f.react r).1 with buf := erase (f.react r).1.buf n }, (f.react r).2) := by
  cases r with
  | none => rfl
  | order o => rfl
  | close =>
    simp only [react, close]
    by_cases h : f.state = .opened <;> simp [h, scheduleAck, erase]
  | abort =>
    simp only [react, abort, closeAndNotify, close, isOpen]
    by_cases h : f.state = .opened <;> simp [h, scheduleAck, erase]

theorem content_self (st : St) (k : Nat) : content st k k = payload st k := by
  have : k + 1 - k = 1 := by omega
  rw [content, this]; simp

theorem deliver_eq {st : St} {f : RFlow} (hb : BufOK st f.buf) {X : Nat × RFrag} (hX : X ∈ f.buf) {hi : Nat}
    (hc : ∀ k, X.2.sn ≤ k → k ≤ hi → InBuf f.buf k) (hm : IsMsg st X.2.sn hi) (rc : Nat → React) :
    f.deliverMessage X.1 rc =
      .ok (deliverOut f (rem f.buf X.2.sn hi) (content st X.2.sn hi) X.2.sn (hi + 1 - X.2.sn) rc) := by
  obtain ⟨r0, hr0⟩ : ∃ r0, r0 = if f.prevRwnd < 2 then f.scheduleAck true else (f, []) := ⟨_, rfl⟩
  have hbuf : r0.1.buf = f.buf := by rw [hr0]; split <;> rfl
  rw [deliverMessage, deliverOut]
  simp only [← hr0, hbuf, at?_of_mem hb.names hX]
  have hXs := hb.cont X hX
  rcases hm with ⟨e, d, hw⟩ | ⟨hlt, ⟨d, hbeg⟩, ⟨d', hend⟩, hl⟩
  · subst e
    rw [hw, Option.some.injEq, Prod.mk.injEq] at hXs
    obtain ⟨hfra, hdat⟩ := hXs
    have hco : content st X.2.sn X.2.sn = X.2.data := by
      rw [content_self, payload, hw, hdat]; rfl
    have h1 : X.2.sn + 1 - X.2.sn = 1 := by omega
    have hrem : rem f.buf X.2.sn X.2.sn = erase f.buf X.1 := by
      rw [rem, erase]
      apply List.filter_congr
      intro y hy
      by_cases e : y.1 = X.1
      · have := names_inj hb.names hy hX e
        subst this; simp
      · have : ¬ (X.2.sn ≤ y.2.sn ∧ y.2.sn ≤ X.2.sn) := by
          intro hh
          have := sorted_inj hb.sorted hy hX (by omega)
          exact e (by rw [this])
        simp [this, e]
    rw [hco, h1, hrem, if_pos hfra.symm]
    have := react_erase r0.1 X.1 (rc X.2.sn)
    rw [hbuf] at this
    clear hr0
    rcases r0 with ⟨g, e0⟩
    dsimp only at hbuf this ⊢
    by_cases ho : g.onMessage = true
    · rw [if_pos ho, if_pos ho, this]
    · rw [if_neg ho, if_neg ho, ← hbuf]
      dsimp only
      rw [List.append_nil]
  · have hf : X.2.fra = .begin := by rw [hbeg, Option.some.injEq, Prod.mk.injEq] at hXs; exact hXs.1.symm
    obtain ⟨Y, hY, hYs⟩ := hc hi (by omega) (Nat.le_refl _)
    have hYf : Y.2.fra = .end := by
      have := hb.cont Y hY
      rw [hYs, hend, Option.some.injEq, Prod.mk.injEq] at this; exact this.1.symm
    have hsns := blk_sns hb.sorted hc
    have hspl := split3 hb.sorted X.2.sn hi
    -- the block ends with Y
    obtain ⟨l, hl'⟩ : ∃ l, blk f.buf X.2.sn hi = l ++ [Y] := by
      rcases List.eq_nil_or_concat (blk f.buf X.2.sn hi) with e0 | ⟨l, z, e0⟩
      · have : Y ∈ blk f.buf X.2.sn hi := mem_blk.mpr ⟨hY, by omega⟩
        rw [e0] at this; simp at this
      · rw [List.concat_eq_append] at e0
        refine ⟨l, ?_⟩
        rw [e0]
        have hz : z ∈ blk f.buf X.2.sn hi := by rw [e0]; simp
        have hz' := mem_blk.mp hz
        have hYb : Y ∈ blk f.buf X.2.sn hi := mem_blk.mpr ⟨hY, by omega⟩
        rw [e0] at hYb
        simp only [List.mem_append, List.mem_singleton] at hYb
        rcases hYb with h | h
        · have hs : (blk f.buf X.2.sn hi).Pairwise (fun x y => x.2.sn < y.2.sn) := hb.sorted.sublist List.filter_sublist
          rw [e0, List.pairwise_append] at hs
          have := hs.2.2 Y h z (by simp)
          omega
        · rw [h]
    have hlne : ∀ x ∈ l, x.2.fra ≠ .end := by
      intro x hx hxe
      have hxb : x ∈ blk f.buf X.2.sn hi := by rw [hl']; simp [hx]
      have hx' := mem_blk.mp hxb
      have hs : (blk f.buf X.2.sn hi).Pairwise (fun x y => x.2.sn < y.2.sn) := hb.sorted.sublist List.filter_sublist
      rw [hl', List.pairwise_append] at hs
      have := hs.2.2 x hx Y (by simp)
      have := hl x.2.sn (by omega) (by omega)
      rw [link_iff (hb.cont x hx'.1), hxe] at this
      simp at this
    have hdw : f.buf.dropWhile (fun x => x.1 ≠ X.1) =
        blk f.buf X.2.sn hi ++ f.buf.filter (fun x => decide (X.2.sn ≤ x.2.sn ∧ hi < x.2.sn)) := by
      conv => lhs; rw [hspl]
      rw [dropWhile_append_of_all]
      · cases e : blk f.buf X.2.sn hi with
        | nil => rw [e] at hl'; simp at hl'
        | cons z t =>
          have hz := mem_blk.mp (by rw [e]; simp : z ∈ blk f.buf X.2.sn hi)
          have : z.2.sn = X.2.sn := by
            rw [e, List.map_cons] at hsns
            have h2 : hi + 1 - X.2.sn = (hi - X.2.sn) + 1 := by omega
            rw [h2, List.range'_succ] at hsns
            exact (List.cons.inj hsns).1
          have := sorted_inj hb.sorted hz.1 hX this
          rw [this, List.cons_append, List.dropWhile_cons, if_neg (by simp)]
      · intro x hx
        rw [List.mem_filter] at hx
        have h2 := of_decide_eq_true hx.2
        have : x.1 ≠ X.1 := by
          intro e
          have := names_inj hb.names hx.1 hX e
          rw [this] at h2; omega
        simpa using this
    have hup : upToEnd (f.buf.dropWhile (fun x => x.1 ≠ X.1)) = some (blk f.buf X.2.sn hi) := by
      rw [hdw, hl', List.append_assoc, List.singleton_append, upToEnd_append l _ Y hlne hYf]
    have hrem : f.buf.filter (fun x => x.1 ∉ (blk f.buf X.2.sn hi).map (fun y : Nat × RFrag => y.1)) = rem f.buf X.2.sn hi := by
      rw [rem]
      apply List.filter_congr
      intro y hy
      have : (y.1 ∈ (blk f.buf X.2.sn hi).map (fun y : Nat × RFrag => y.1)) ↔ (X.2.sn ≤ y.2.sn ∧ y.2.sn ≤ hi) := by
        constructor
        · intro h
          obtain ⟨z, hz, e⟩ := List.mem_map.mp h
          have hz' := mem_blk.mp hz
          have := names_inj hb.names hz'.1 hy e
          rw [← this]; exact hz'.2
        · intro h
          exact List.mem_map.mpr ⟨y, mem_blk.mpr ⟨hy, h⟩, rfl⟩
      simp only [this, decide_not]
    have hlen : (blk f.buf X.2.sn hi).length = hi + 1 - X.2.sn := by
      have := congrArg List.length hsns
      simpa using this
    rw [if_neg (by rw [hf]; simp)]
    simp only [hup, hrem, blk_content hb hc, hlen]
    by_cases ho : r0.1.onMessage = true
    · simp only [ho, if_true]
    · simp only [ho]
      simp

/-! ### removal of a complete run, and of the first fragment -/

theorem InBuf_rem {b : Buf} {lo hi k : Nat} : InBuf (rem b lo hi) k ↔ InBuf b k ∧ ¬ (lo ≤ k ∧ k ≤ hi) := by
  constructor
  · rintro ⟨x, hx, rfl⟩
    have := mem_rem.mp hx
    exact ⟨⟨x, this.1, rfl⟩, this.2⟩
  · rintro ⟨⟨x, hx, rfl⟩, h⟩
    exact ⟨x, mem_rem.mpr ⟨hx, h⟩, rfl⟩

theorem BufOK.sub {st : St} {b b' : Buf} (h : BufOK st b) (hs : b'.Sublist b) : BufOK st b' :=
  ⟨h.sorted.sublist hs, h.names.sublist (hs.map _), fun x hx => h.cont x (hs.subset hx)⟩

theorem rem_sublist (b : Buf) (lo hi : Nat) : (rem b lo hi).Sublist b := List.filter_sublist

theorem IsMsg.not_link {st : St} {lo hi : Nat} (h : IsMsg st lo hi) : ¬ Link st hi := by
  rcases h with ⟨rfl, d, h⟩ | ⟨_, _, ⟨d, h⟩, _⟩ <;> rw [link_iff h] <;> simp

theorem IsMsg.not_link_pred {st : St} (w : WFst st) {lo hi k : Nat} (h : IsMsg st lo hi) (e : k + 1 = lo) {x} (hk : st k = some x) :
    ¬ Link st k := by
  subst e
  rcases h with ⟨_, d, h⟩ | ⟨_, ⟨d, h⟩, _⟩ <;> rw [link_iff_next w h hk] <;> simp

/-- the pointers are right, except perhaps those of the first run while it is being discarded -/
def RunInvF (st : St) (c : Nat) (b : Buf) : Prop :=
  ∀ x ∈ b, ∀ y ∈ b, Run st b x.2.sn y.2.sn →
    (b.head? = some x → x.2.fra = .begin ∨ x.2.fra = .whole ∨ c < x.2.sn) → x.2.segEnd = y.1 ∧ y.2.segStart = x.1

theorem RunInv.toF {st : St} {b : Buf} (h : RunInv st b) (c : Nat) : RunInvF st c b := fun x hx y hy r _ => h x hx y hy r

theorem RunInvF.toFull {st : St} {b : Buf} {c : Nat} (h : RunInvF st c b)
    (hf : ∀ x, b.head? = some x → x.2.fra = .begin ∨ x.2.fra = .whole ∨ c < x.2.sn) : RunInv st b :=
  fun x hx y hy r => h x hx y hy r (hf x)

theorem RunInv.rem {st : St} (w : WFst st) {b : Buf} (hb : BufOK st b) (h : RunInv st b) {lo hi : Nat}
    (hc : ∀ k, lo ≤ k → k ≤ hi → InBuf b k) (hm : IsMsg st lo hi) : RunInv st (rem b lo hi) := by
  intro x hx y hy r
  have hx' := mem_rem.mp hx
  have hy' := mem_rem.mp hy
  refine h x hx'.1 y hy'.1 ⟨⟨r.con.1, fun k a c => (InBuf_rem.mp (r.con.2.1 k a c)).1, r.con.2.2⟩, ?_, ?_⟩
  · intro k e hk hl
    by_cases hin : lo ≤ k ∧ k ≤ hi
    · have : k = hi := by have := hx'.2; omega
      subst this
      exact hm.not_link hl
    · exact r.pred k e (InBuf_rem.mpr ⟨hk, hin⟩) hl
  · intro hk hl
    by_cases hin : lo ≤ y.2.sn + 1 ∧ y.2.sn + 1 ≤ hi
    · have : y.2.sn + 1 = lo := by have := hy'.2; omega
      exact hm.not_link_pred w this (hb.cont y hy'.1) hl
    · exact r.succ (InBuf_rem.mpr ⟨hk, hin⟩) hl

theorem InBuf_cons {X : Nat × RFrag} {rest : Buf} {k : Nat} : InBuf (X :: rest) k ↔ k = X.2.sn ∨ InBuf rest k := by
  constructor
  · rintro ⟨x, hx, rfl⟩
    simp only [List.mem_cons] at hx
    rcases hx with rfl | hx
    · exact .inl rfl
    · exact .inr ⟨x, hx, rfl⟩
  · rintro (rfl | ⟨x, hx, rfl⟩)
    · exact ⟨X, by simp, rfl⟩
    · exact ⟨x, by simp [hx], rfl⟩

theorem RunInvF.drop {st : St} (w : WFst st) {c : Nat} {X : Nat × RFrag} {rest : Buf} (hb : BufOK st (X :: rest)) (h : RunInvF st c (X :: rest))
    (hcl : InBuf rest (X.2.sn + 1) → X.2.sn + 1 ≤ c) : RunInvF st c rest := by
  intro x hx y hy r hfr
  have hs := hb.sorted
  rw [List.pairwise_cons] at hs
  have hXx := hs.1 x hx
  have hXy := hs.1 y hy
  have hhead : ∀ z, (X :: rest).head? = some z → z.2.fra = .begin ∨ z.2.fra = .whole ∨ c < z.2.sn ∨ z = X := by
    intro z hz
    rw [List.head?_cons] at hz
    cases hz
    exact .inr (.inr (.inr rfl))
  refine h x (by simp [hx]) y (by simp [hy]) ⟨⟨r.con.1, fun k a d => InBuf_cons.mpr (.inr (r.con.2.1 k a d)), r.con.2.2⟩, ?_, ?_⟩ ?_
  · intro k e hk hl
    rcases InBuf_cons.mp hk with rfl | hk
    · -- x follows X in the same message: it is the head of the rest
      have hxc := hcl ⟨x, hx, e.symm⟩
      have hhd : rest.head? = some x := by
        cases rest with
        | nil => simp at hx
        | cons z t =>
          rw [List.head?_cons]
          have hz := hs.1 z (by simp)
          have hs2 := hs.2
          rw [List.pairwise_cons] at hs2
          simp only [List.mem_cons] at hx
          rcases hx with rfl | hx
          · rfl
          · have := hs2.1 x hx; omega
      have hxs := hb.cont x (by simp [hx])
      rw [← e] at hxs
      have := (link_iff_next w hxs (hb.cont X (by simp))).1 hl
      rcases hfr hhd with h1 | h1 | h1
      · rw [h1] at this; simp at this
      · rw [h1] at this; simp at this
      · omega
    · exact r.pred k e hk hl
  · intro hk hl
    rcases InBuf_cons.mp hk with e | hk
    · omega
    · exact r.succ hk hl
  · intro hz
    rw [List.head?_cons] at hz
    cases hz
    exact absurd hXx (Nat.lt_irrefl _)

/-! ### the delivery loop -/

/-- what the delivery loop does, in terms of runs -/
inductive Loop (st : St) (c : Nat) (rc : Nat → React) : RFlow → List REv → RFlow → Prop
  | stop (f : RFlow) : f.order = .hold ∨ f.isOpen = false → Loop st c rc f [] f
  | rest (f : RFlow) : f.order ≠ .hold → f.isOpen = true →
      (∀ X r, f.buf = X :: r → c < X.2.sn ∨ (X.2.fra = .begin ∧ ∃ hi, Run st f.buf X.2.sn hi ∧ ¬ IsMsg st X.2.sn hi ∧ c ≤ hi)) →
      Loop st c rc f [] f
  | deliver (f : RFlow) (X : Nat × RFrag) (r : Buf) (hi : Nat) (ev : List REv) (f2 : RFlow) :
      f.order ≠ .hold → f.isOpen = true → f.buf = X :: r → X.2.sn ≤ c → Run st f.buf X.2.sn hi → IsMsg st X.2.sn hi →
      Loop st c rc (deliverOut f (rem f.buf X.2.sn hi) (content st X.2.sn hi) X.2.sn (hi + 1 - X.2.sn) rc).1 ev f2 →
      Loop st c rc f ((deliverOut f (rem f.buf X.2.sn hi) (content st X.2.sn hi) X.2.sn (hi + 1 - X.2.sn) rc).2 ++ ev) f2
  | drop (f : RFlow) (X : Nat × RFrag) (r : Buf) (ev : List REv) (f2 : RFlow) :
      f.order ≠ .hold → f.isOpen = true → f.buf = X :: r → X.2.sn ≤ c → X.2.fra ≠ .whole →
      (X.2.fra ≠ .begin ∨ ∃ hi, Run st f.buf X.2.sn hi ∧ hi < c ∧ ¬ IsMsg st X.2.sn hi) →
      Loop st c rc { f with buf := r } ev f2 → Loop st c rc f ev f2

theorem react_buf (f : RFlow) (r : React) : (f.react r).1.buf = f.buf ∨ (f.react r).1.buf = [] := by
  cases r with
  | none => exact .inl rfl
  | order o => exact .inl rfl
  | close => exact .inr rfl
  | abort => exact .inr rfl

theorem deliverOut_buf (f : RFlow) (b1 : Buf) (data : Bytes) (sn count : Nat) (rc : Nat → React) :
    (deliverOut f b1 data sn count rc).1.buf = b1 ∨ (deliverOut f b1 data sn count rc).1.buf = [] := by
  rw [deliverOut]
  generalize (if f.prevRwnd < 2 then f.scheduleAck true else (f, [])) = r0
  dsimp only
  split
  · have := react_buf ({ r0.1 with buf := b1 } : RFlow) (rc sn)
    exact this
  · exact .inl rfl

theorem Run_whole {st : St} (w : WFst st) {b : Buf} (hb : BufOK st b) {X : Nat × RFrag} (hX : X ∈ b) (hf : X.2.fra = .whole) :
    Run st b X.2.sn X.2.sn := by
  have hs := hb.cont X hX
  refine ⟨Con.self st ⟨X, hX, rfl⟩, fun k e hk => ?_, fun _ => ?_⟩
  · obtain ⟨x, hx⟩ := InBuf_st hb hk
    rw [← e] at hs
    rw [link_iff_next w hs hx, hf]
    simp
  · rw [link_iff hs, hf]; simp

theorem loop_ok {st : St} (w : WFst st) {c : Nat} {rc : Nat → React} (fuel : Nat) (f : RFlow) (hb : BufOK st f.buf)
    (hr : RunInvF st c f.buf) (hcl : ∀ k, InBuf f.buf k → k ≤ c → InBuf f.buf (k + 1) → k + 1 ≤ c)
    (hfu : f.buf.length < fuel) (hst : f.order = .hold ∨ f.isOpen = false → RunInv st f.buf) :
    ∃ f' ev, deliverLoop c rc fuel f = .ok (f', ev) ∧ Loop st c rc f ev f' ∧ BufOK st f'.buf ∧ RunInv st f'.buf := by
  induction fuel generalizing f with
  | zero => omega
  | succ fuel ih =>
    rw [deliverLoop]
    by_cases hgo : f.order ≠ .hold ∧ f.isOpen = true
    · rw [if_pos hgo]
      cases hbf : f.buf with
      | nil =>
        refine ⟨f, [], rfl, .rest f hgo.1 hgo.2 (fun X r e => by rw [hbf] at e; cases e), hb, ?_⟩
        rw [hbf]; intro x hx; simp at hx
      | cons X rest =>
        have hX : X ∈ f.buf := by rw [hbf]; simp
        have hXs := hb.cont X hX
        -- common continuations
        have hdrop : X.2.sn ≤ c → X.2.fra ≠ .whole →
            (X.2.fra ≠ .begin ∨ ∃ hi, Run st f.buf X.2.sn hi ∧ hi < c ∧ ¬ IsMsg st X.2.sn hi) →
            ∃ f' ev, deliverLoop c rc fuel { f with buf := rest } = .ok (f', ev) ∧ Loop st c rc f ev f' ∧ BufOK st f'.buf ∧ RunInv st f'.buf := by
          intro h1 h2 h3
          have hb' : BufOK st rest := hb.sub (by rw [hbf]; exact List.sublist_cons_self _ _)
          have hr' : RunInvF st c rest := by
            rw [hbf] at hr hb
            refine hr.drop w hb (fun hk => ?_)
            rw [hbf] at hcl
            exact hcl _ ⟨X, by simp, rfl⟩ h1 (InBuf_cons.mpr (.inr hk))
          obtain ⟨f', ev, e1, e2, e3, e4⟩ := ih { f with buf := rest } hb' hr' (fun k a b d => by
              rw [hbf] at hcl; exact hcl k (InBuf_cons.mpr (.inr a)) b (InBuf_cons.mpr (.inr d)))
            (by rw [hbf] at hfu; simp at hfu ⊢; omega)
            (fun h => by
              have : f.order = .hold ∨ f.isOpen = false := h
              rcases this with h | h
              · exact absurd h hgo.1
              · rw [hgo.2] at h; simp at h)
          exact ⟨f', ev, e1, .drop f X rest ev f' hgo.1 hgo.2 hbf h1 h2 h3 e2, e3, e4⟩
        have hdeliver : ∀ hi, X.2.sn ≤ c → Run st f.buf X.2.sn hi → IsMsg st X.2.sn hi →
            ∃ f' ev, (match f.deliverMessage X.1 rc with
              | .error e => (.error e : Except RErr (RFlow × List REv))
              | .ok (f, ev) => match deliverLoop c rc fuel f with
                | .error e => .error e
                | .ok (f, ev') => .ok (f, ev ++ ev')) = .ok (f', ev) ∧ Loop st c rc f ev f' ∧ BufOK st f'.buf ∧ RunInv st f'.buf := by
          intro hi h1 hrun hmsg
          have hdel := deliver_eq hb hX hrun.con.2.1 hmsg rc
          obtain ⟨out, hout⟩ : ∃ out, out = deliverOut f (rem f.buf X.2.sn hi) (content st X.2.sn hi) X.2.sn (hi + 1 - X.2.sn) rc := ⟨_, rfl⟩
          rw [hdel, ← hout]
          dsimp only
          have hfull : RunInv st f.buf := by
            apply hr.toFull
            intro x hx
            rw [hbf, List.head?_cons] at hx
            cases hx
            rcases hmsg with ⟨_, d, hw⟩ | ⟨_, ⟨d, hw⟩, _⟩ <;> rw [hw, Option.some.injEq, Prod.mk.injEq] at hXs
            · exact .inr (.inl hXs.1.symm)
            · exact .inl hXs.1.symm
          have hrr := hfull.rem w hb hrun.con.2.1 hmsg
          have hbb := hb.sub (rem_sublist f.buf X.2.sn hi)
          have hob : out.1.buf = rem f.buf X.2.sn hi ∨ out.1.buf = [] := by rw [hout]; exact deliverOut_buf _ _ _ _ _ _
          have hlen : (rem f.buf X.2.sn hi).length < f.buf.length := by
            have h2 : rem f.buf X.2.sn hi = rem rest X.2.sn hi := by
              rw [hbf]
              exact List.filter_cons_of_neg (by simp [hrun.con.1])
            rw [h2, hbf]
            have := (rem_sublist rest X.2.sn hi).length_le
            simp only [List.length_cons]; omega
          have hrO : RunInv st out.1.buf := by
            rcases hob with e | e <;> rw [e]
            · exact hrr
            · intro x hx; simp at hx
          have hbO : BufOK st out.1.buf := by
            rcases hob with e | e <;> rw [e]
            · exact hbb
            · exact ⟨List.Pairwise.nil, by simp, by simp⟩
          obtain ⟨f', ev, e1, e2, e3, e4⟩ := ih out.1 hbO (hrO.toF c) (fun k a b d => by
              rcases hob with e | e <;> rw [e] at a d
              · exact hcl k (InBuf_rem.mp a).1 b (InBuf_rem.mp d).1
              · obtain ⟨x, hx, _⟩ := a; simp at hx)
            (by rcases hob with e | e <;> rw [e]
                · omega
                · rw [hbf] at hfu; simp at hfu ⊢; omega)
            (fun _ => hrO)
          rw [e1]
          refine ⟨f', out.2 ++ ev, rfl, ?_, e3, e4⟩
          rw [hout] at e2 ⊢
          exact .deliver f X rest hi ev f' hgo.1 hgo.2 hbf h1 hrun hmsg e2
        dsimp only
        by_cases h1 : X.2.sn > c
        · rw [if_pos h1]
          refine ⟨f, [], rfl, .rest f hgo.1 hgo.2 (fun Z r e => ?_), hb, ?_⟩
          · rw [hbf] at e; cases e; exact .inl h1
          · apply hr.toFull
            intro x hx
            rw [hbf, List.head?_cons] at hx
            cases hx
            exact .inr (.inr h1)
        · rw [if_neg h1]
          by_cases h2 : X.2.fra = .whole
          · rw [if_pos h2]
            have := hdeliver X.2.sn (by omega) (Run_whole w hb hX h2) (.inl ⟨rfl, _, by rw [hXs, h2]⟩)
            exact this
          · rw [if_neg h2]
            by_cases h3 : X.2.fra = .begin
            · rw [if_neg (by simp [h3])]
              obtain ⟨hi, hcon, hns⟩ := exists_hi st f.buf X.2.sn ⟨X, hX, rfl⟩
              obtain ⟨Y, hY, hYs⟩ := hcon.2.1 hi hcon.1 (Nat.le_refl _)
              have hrun : Run st f.buf X.2.sn hi := by
                refine ⟨hcon, fun k e hk => ?_, hns⟩
                obtain ⟨x, hx⟩ := InBuf_st hb hk
                rw [← e] at hXs
                rw [link_iff_next w hXs hx, h3]
                simp
              have hptr := (hr X hX Y hY (by rw [hYs]; exact hrun) (fun _ => .inl h3)).1
              rw [← hbf, hptr, at?_of_mem hb.names hY]
              dsimp only
              have hYst := hb.cont Y hY
              by_cases h4 : Y.2.fra = .end
              · rw [if_pos h4]
                have hlt : X.2.sn < hi := by
                  rcases Nat.lt_or_ge X.2.sn hi with h | h
                  · exact h
                  · have hh := hcon.1
                    have : X = Y := sorted_inj hb.sorted hX hY (by omega)
                    rw [this, h4] at h3
                    cases h3
                have := hdeliver hi (by omega) hrun (.inr ⟨hlt, ⟨_, by rw [hXs, h3]⟩, ⟨_, by rw [← hYs, hYst, h4]⟩, hcon.2.2⟩)
                exact this
              · rw [if_neg h4]
                have hnm : ¬ IsMsg st X.2.sn hi := by
                  rintro (⟨_, d, h⟩ | ⟨_, _, ⟨d, h⟩, _⟩)
                  · rw [hXs, h3] at h; simp at h
                  · rw [← hYs, hYst] at h
                    simp only [Option.some.injEq, Prod.mk.injEq] at h
                    exact h4 h.1
                by_cases h5 : Y.2.sn < c
                · rw [if_pos h5]
                  exact hdrop (by omega) h2 (.inr ⟨hi, hrun, by omega, hnm⟩)
                · rw [if_neg h5]
                  refine ⟨f, [], rfl, .rest f hgo.1 hgo.2 (fun Z r e => ?_), hb, ?_⟩
                  · rw [hbf] at e; cases e
                    exact .inr ⟨h3, hi, hrun, hnm, by omega⟩
                  · apply hr.toFull
                    intro x hx
                    rw [hbf, List.head?_cons] at hx
                    cases hx
                    exact .inl h3
            · rw [if_pos (by simpa using h3)]
              exact hdrop (by omega) h2 (.inl h3)
    · rw [if_neg hgo]
      have : f.order = .hold ∨ f.isOpen = false := by
        by_cases h : f.order = .hold
        · exact .inl h
        · right
          cases e : f.isOpen with
          | false => rfl
          | true => exact absurd ⟨h, e⟩ hgo
      exact ⟨f, [], rfl, .stop f this, hb, hst this⟩

end RFlow
end Rtmfp
