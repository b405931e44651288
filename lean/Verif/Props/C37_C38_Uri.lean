import Verif.Model.Uri
import Verif.Spec.Uri
import Verif.Props.C36_Hex

/-! # C37, C38: paths, splitting and percent decoding -/

namespace Rtmfp
namespace Uri

open Spec

theorem segments_ne (p : Bytes) : segments p ≠ [] := by
  induction p with
  | nil => simp [segments]
  | cons c p ih =>
    rw [segments]
    split
    · exact absurd ‹_› ih
    · split <;> simp

theorem segments_spec (p : Bytes) : ∃ f segs, segments p = f :: segs ∧ p = f ++ slashed segs ∧ (∀ s ∈ f :: segs, (47 : UInt8) ∉ s) := by
  induction p with
  | nil => exact ⟨[], [], rfl, rfl, by simp⟩
  | cons c p ih =>
    obtain ⟨f, segs, h1, h2, h3⟩ := ih
    by_cases hc : c = 47
    · refine ⟨[], f :: segs, by simp [segments, h1, hc], by simp [hc, slashed, h2], ?_⟩
      intro s hs
      rcases List.mem_cons.mp hs with h | h
      · rw [h]; simp
      · exact h3 s h
    · refine ⟨c :: f, segs, by simp [segments, h1, hc], by simp [h2], ?_⟩
      intro s hs
      rcases List.mem_cons.mp hs with h | h
      · rw [h]
        intro hm
        rcases List.mem_cons.mp hm with h | h
        · exact hc h.symm
        · exact h3 f (by simp) h
      · exact h3 s (by simp [h])

theorem segments_append (f : Bytes) (segs : List Bytes) (hf : (47 : UInt8) ∉ f) (hs : ∀ s ∈ segs, (47 : UInt8) ∉ s) :
    segments (f ++ slashed segs) = f :: segs := by
  induction segs generalizing f with
  | nil =>
    simp only [slashed, List.map_nil, List.flatten_nil, List.append_nil]
    induction f with
    | nil => rfl
    | cons c f ih =>
      have hc : c ≠ 47 := fun h => hf (by simp [h])
      rw [segments, ih (fun h => hf (by simp [h]))]
      simp [hc]
  | cons s segs ih =>
    have e : slashed (s :: segs) = 47 :: (s ++ slashed segs) := by simp [slashed]
    rw [e]
    have hs' := ih s (hs s (by simp)) (fun t ht => hs t (by simp [ht]))
    induction f with
    | nil =>
      rw [List.nil_append, segments, hs']
      simp
    | cons c f ihf =>
      have hc : c ≠ 47 := fun h => hf (by simp [h])
      rw [List.cons_append, segments, ihf (fun h => hf (by simp [h]))]
      simp [hc]

theorem slashed_cons (s : Bytes) (segs : List Bytes) : slashed (s :: segs) = 47 :: (s ++ slashed segs) := by simp [slashed]

/-- `slashed` is empty or begins with a slash -/
theorem slashed_cases (segs : List Bytes) : (segs = [] ∧ slashed segs = []) ∨ (segs ≠ [] ∧ ∃ t, slashed segs = 47 :: t) := by
  cases segs with
  | nil => exact .inl ⟨rfl, rfl⟩
  | cons s segs => exact .inr ⟨by simp, _, slashed_cons s segs⟩

theorem takeWhile_slashed (s : Bytes) (segs : List Bytes) (hs : (47 : UInt8) ∉ s) :
    (s ++ slashed segs).takeWhile (· ≠ slash) = s ∧ (s ++ slashed segs).dropWhile (· ≠ slash) = slashed segs := by
  induction s with
  | nil =>
    rcases slashed_cases segs with ⟨_, h⟩ | ⟨_, t, h⟩
    · rw [h]; simp
    · rw [h]; simp
  | cons c s ih =>
    have hc : c ≠ 47 := fun h => hs (by simp [h])
    have ih := ih (fun h => hs (by simp [h]))
    have hd : (decide (c ≠ slash)) = true := by simpa using hc
    constructor
    · rw [List.cons_append, List.takeWhile_cons, if_pos hd, ih.1]
    · rw [List.cons_append, List.dropWhile_cons, if_pos hd, ih.2]

/-- A slash-free segment followed by slashed ones begins with a word and a slash exactly when the segment is the word and it isn't the last. -/
theorem starts_seg (w s : Bytes) (segs : List Bytes) (hw : (47 : UInt8) ∉ w) (hs : (47 : UInt8) ∉ s) :
    (s ++ slashed segs).take (w.length + 1) = w ++ [47] ↔ s = w ∧ segs ≠ [] := by
  constructor
  · intro h
    induction w generalizing s with
    | nil =>
      cases s with
      | nil =>
        rcases slashed_cases segs with ⟨hn, h'⟩ | ⟨hn, _⟩
        · rw [h'] at h; cases h
        · exact ⟨rfl, hn⟩
      | cons c s =>
        simp only [List.length_nil, Nat.zero_add, List.cons_append, List.take_succ_cons, List.nil_append] at h
        injection h with h _
        exact absurd (by simp [h]) hs
    | cons d w ih =>
      cases s with
      | nil =>
        rcases slashed_cases segs with ⟨_, h'⟩ | ⟨_, t, h'⟩
        · rw [h'] at h; cases h
        · rw [h'] at h
          simp only [List.nil_append, List.length_cons, List.take_succ_cons, List.cons_append] at h
          injection h with h _
          exact absurd (by simp [← h]) hw
      | cons c s =>
        simp only [List.length_cons, List.cons_append, List.take_succ_cons] at h
        injection h with h1 h2
        obtain ⟨h3, h4⟩ := ih s (fun h => hw (by simp [h])) (fun h => hs (by simp [h])) h2
        exact ⟨by rw [h1, h3], h4⟩
  · rintro ⟨rfl, hn⟩
    rcases slashed_cases segs with ⟨hn', _⟩ | ⟨_, t, ht⟩
    · exact absurd hn' hn
    · rw [ht, List.take_length_add_append]; rfl

theorem is_seg (w s : Bytes) (segs : List Bytes) (hw : (47 : UInt8) ∉ w) (hs : (47 : UInt8) ∉ s) : s ++ slashed segs = w ↔ s = w ∧ segs = [] := by
  constructor
  · intro h
    rcases slashed_cases segs with ⟨hn, h'⟩ | ⟨_, t, ht⟩
    · rw [h', List.append_nil] at h; exact ⟨h, hn⟩
    · rw [ht] at h
      exact absurd (by rw [← h]; simp) hw
  · rintro ⟨rfl, rfl⟩; simp [slashed]

theorem dots_free : (47 : UInt8) ∉ ([46] : Bytes) ∧ (47 : UInt8) ∉ ([46, 46] : Bytes) := by decide

/-- one round on an input that begins with a slash -/
theorem round_slash (s : Bytes) (segs : List Bytes) (out : List Bytes) (hs : (47 : UInt8) ∉ s) :
    dotRound (slashed (s :: segs)) out =
      if s = [46] then (47 :: (slashed segs).drop 1, out)
      else if s = [46, 46] then (47 :: (slashed segs).drop 1, out.tail)
      else (slashed segs, (47 :: s) :: out) := by
  rw [slashed_cons]
  have a1 : startsWith [dot, dot, slash] (47 :: (s ++ slashed segs)) = false := by
    simp [startsWith, dot]
  have a2 : startsWith [dot, slash] (47 :: (s ++ slashed segs)) = false := by
    simp [startsWith, dot]
  have a3 : (startsWith [slash, dot, slash] (47 :: (s ++ slashed segs)) || decide ((47 :: (s ++ slashed segs)) = [slash, dot])) = decide (s = [46]) := by
    have e1 := starts_seg [46] s segs dots_free.1 hs
    have e2 := is_seg [46] s segs dots_free.1 hs
    rw [Bool.eq_iff_iff]
    simp only [startsWith, Bool.or_eq_true, decide_eq_true_eq]
    constructor
    · rintro (h | h)
      · simp only [List.length_cons, List.length_nil, Nat.zero_add, List.take_succ_cons, List.cons.injEq, true_and] at h
        exact (e1.mp (by simpa using h)).1
      · injection h with _ h
        exact (e2.mp h).1
    · intro h
      by_cases hn : segs = []
      · right; rw [e2.mpr ⟨h, hn⟩]
      · left
        have := e1.mpr ⟨h, hn⟩
        simp only [List.length_cons, List.length_nil, Nat.zero_add] at this
        simp only [List.length_cons, List.length_nil, Nat.zero_add, List.take_succ_cons, this]
        rfl
  have a4 : (startsWith [slash, dot, dot, slash] (47 :: (s ++ slashed segs)) || decide ((47 :: (s ++ slashed segs)) = [slash, dot, dot])) = decide (s = [46, 46]) := by
    have e1 := starts_seg [46, 46] s segs dots_free.2 hs
    have e2 := is_seg [46, 46] s segs dots_free.2 hs
    rw [Bool.eq_iff_iff]
    simp only [startsWith, Bool.or_eq_true, decide_eq_true_eq]
    constructor
    · rintro (h | h)
      · simp only [List.length_cons, List.length_nil, Nat.zero_add, List.take_succ_cons, List.cons.injEq, true_and] at h
        exact (e1.mp (by simpa using h)).1
      · injection h with _ h
        exact (e2.mp h).1
    · intro h
      by_cases hn : segs = []
      · right; rw [e2.mpr ⟨h, hn⟩]
      · left
        have := e1.mpr ⟨h, hn⟩
        simp only [List.length_cons, List.length_nil, Nat.zero_add] at this
        simp only [List.length_cons, List.length_nil, Nat.zero_add, List.take_succ_cons, this]
        rfl
  have a5 : (decide ((47 :: (s ++ slashed segs)) = [dot, dot]) || decide ((47 :: (s ++ slashed segs)) = [dot])) = false := by
    simp [dot]
  rw [dotRound, a1, a2, a3, a4, a5]
  simp only [Bool.false_eq_true, if_false, decide_eq_true_eq]
  by_cases h1 : s = [46]
  · rw [if_pos h1, if_pos h1, h1]; rfl
  · rw [if_neg h1, if_neg h1]
    by_cases h2 : s = [46, 46]
    · rw [if_pos h2, if_pos h2, h2]
      cases out <;> rfl
    · rw [if_neg h2, if_neg h2]
      have ht := takeWhile_slashed s segs hs
      simp only [cutAtSlash, ht.1, ht.2]

/-- the loop on an input that begins with a slash, or is empty -/
theorem loop_slash (segs : List Bytes) (out : List Bytes) (fuel : Nat) (hs : ∀ s ∈ segs, (47 : UInt8) ∉ s) (hf : (slashed segs).length ≤ fuel) :
    dotLoop fuel (slashed segs) out = some (resolve out segs) := by
  induction segs generalizing out fuel with
  | nil =>
    cases fuel <;> rfl
  | cons s rest ih =>
    have hr := round_slash s rest out (hs s (by simp))
    have hlen : (slashed (s :: rest)).length = 1 + s.length + (slashed rest).length := by
      rw [slashed_cons]; simp; omega
    have hs' : ∀ t ∈ rest, (47 : UInt8) ∉ t := fun t ht => hs t (by simp [ht])
    cases fuel with
    | zero => rw [hlen] at hf; omega
    | succ fuel =>
      have unroll : dotLoop (fuel + 1) (slashed (s :: rest)) out = dotLoop fuel (dotRound (slashed (s :: rest)) out).1 (dotRound (slashed (s :: rest)) out).2 := by
        rw [slashed_cons]; rfl
      -- a trailing slash alone
      have tail : ∀ (o : List Bytes) (k : Nat), 1 ≤ k → dotLoop k [47] o = some ([47] :: o) := by
        intro o k hk
        cases k with
        | zero => omega
        | succ k =>
          have : dotRound [47] o = ([], [47] :: o) := by
            have := round_slash [] [] o (by simp)
            simpa [slashed] using this
          rw [dotLoop, this]
          cases k <;> rfl
      rw [unroll, hr, resolve]
      by_cases h1 : s = [46]
      · rw [if_pos h1, if_pos h1]
        have h1l : s.length = 1 := by rw [h1]; rfl
        cases rest with
        | nil =>
          rw [if_pos rfl]
          exact tail out fuel (by omega)
        | cons t rest =>
          rw [if_neg (by simp)]
          have e : (47 : UInt8) :: (slashed (t :: rest)).drop 1 = slashed (t :: rest) := by rw [slashed_cons]; rfl
          rw [e]
          exact ih out fuel hs' (by omega)
      · rw [if_neg h1, if_neg h1]
        by_cases h2 : s = [46, 46]
        · rw [if_pos h2, if_pos h2]
          have h2l : s.length = 2 := by rw [h2]; rfl
          cases rest with
          | nil =>
            rw [if_pos rfl]
            exact tail out.tail fuel (by omega)
          | cons t rest =>
            rw [if_neg (by simp)]
            have e : (47 : UInt8) :: (slashed (t :: rest)).drop 1 = slashed (t :: rest) := by rw [slashed_cons]; rfl
            rw [e]
            exact ih out.tail fuel hs' (by omega)
        · rw [if_neg h2, if_neg h2]
          exact ih _ fuel hs' (by omega)

/-- one round on an input that begins with something else -/
theorem round_word (f : Bytes) (segs : List Bytes) (hf : (47 : UInt8) ∉ f) (hne : f ≠ []) :
    dotRound (f ++ slashed segs) [] =
      if isDots f then ((slashed segs).drop 1, []) else (slashed segs, [f]) := by
  obtain ⟨c, s, rfl⟩ : ∃ c s, f = c :: s := by
    cases f with
    | nil => exact absurd rfl hne
    | cons c s => exact ⟨c, s, rfl⟩
  have hc : c ≠ 47 := fun h => hf (by simp [h])
  have e1 := starts_seg [46, 46] (c :: s) segs dots_free.2 hf
  have e2 := starts_seg [46] (c :: s) segs dots_free.1 hf
  have e3 := is_seg [46, 46] (c :: s) segs dots_free.2 hf
  have e4 := is_seg [46] (c :: s) segs dots_free.1 hf
  have b1 : startsWith [dot, dot, slash] (c :: s ++ slashed segs) = decide (c :: s = [46, 46] ∧ segs ≠ []) := by
    rw [Bool.eq_iff_iff]; simp only [startsWith, decide_eq_true_eq]; exact e1
  have b2 : startsWith [dot, slash] (c :: s ++ slashed segs) = decide (c :: s = [46] ∧ segs ≠ []) := by
    rw [Bool.eq_iff_iff]; simp only [startsWith, decide_eq_true_eq]; exact e2
  have b3 : (startsWith [slash, dot, slash] (c :: s ++ slashed segs) || decide (c :: s ++ slashed segs = [slash, dot])) = false := by
    simp [startsWith, hc]
  have b4 : (startsWith [slash, dot, dot, slash] (c :: s ++ slashed segs) || decide (c :: s ++ slashed segs = [slash, dot, dot])) = false := by
    simp [startsWith, hc]
  have b5 : (decide (c :: s ++ slashed segs = [dot, dot]) || decide (c :: s ++ slashed segs = [dot])) = decide (isDots (c :: s) ∧ segs = []) := by
    rw [Bool.eq_iff_iff, Bool.or_eq_true]
    constructor
    · rintro (h | h)
      · have := e3.mp (of_decide_eq_true h)
        exact decide_eq_true ⟨.inr this.1, this.2⟩
      · have := e4.mp (of_decide_eq_true h)
        exact decide_eq_true ⟨.inl this.1, this.2⟩
    · intro h
      obtain ⟨h | h, h'⟩ := of_decide_eq_true h
      · exact .inr (decide_eq_true (e4.mpr ⟨h, h'⟩))
      · exact .inl (decide_eq_true (e3.mpr ⟨h, h'⟩))
  rw [dotRound, b1, b2, b3, b4, b5]
  simp only [Bool.false_eq_true, if_false, decide_eq_true_eq]
  have drp : ∀ w : Bytes, (w ++ slashed segs).drop (w.length + 1) = (slashed segs).drop 1 := by
    intro w; rw [← List.drop_drop, List.drop_left]
  by_cases h1 : c :: s = [46, 46]
  · have hd : isDots (c :: s) := .inr h1
    rw [if_pos hd]
    by_cases hn : segs = []
    · rw [if_neg (fun h => h.2 hn), if_neg (fun h => h.2 hn), if_pos ⟨hd, hn⟩, hn]; rfl
    · rw [if_pos ⟨h1, hn⟩, h1]
      exact congrArg (fun x => (x, ([] : List Bytes))) (drp [46, 46])
  · rw [if_neg (fun h => h1 h.1)]
    by_cases h2 : c :: s = [46]
    · have hd : isDots (c :: s) := .inl h2
      rw [if_pos hd]
      by_cases hn : segs = []
      · rw [if_neg (fun h => h.2 hn), if_pos ⟨hd, hn⟩, hn]; rfl
      · rw [if_pos ⟨h2, hn⟩, h2]
        exact congrArg (fun x => (x, ([] : List Bytes))) (drp [46])
    · have hd : ¬ isDots (c :: s) := fun h => h.elim h2 h1
      rw [if_neg (fun h => h2 h.1), if_neg (fun h => hd h.1), if_neg hd]
      have ht := takeWhile_slashed s segs (fun h => hf (by simp [h]))
      simp only [cutAtSlash, List.cons_append, ht.1, ht.2]

/-- the loop on any input -/
theorem loop_path (f : Bytes) (segs : List Bytes) (fuel : Nat) (hf : (47 : UInt8) ∉ f) (hs : ∀ s ∈ segs, (47 : UInt8) ∉ s)
    (hfuel : (f ++ slashed segs).length ≤ fuel) : dotLoop fuel (f ++ slashed segs) [] = some (resolvePath (f :: segs)) := by
  induction segs generalizing f fuel with
  | nil =>
    by_cases hne : f = []
    · subst hne
      cases fuel <;> rfl
    · have hr := round_word f [] hf hne
      obtain ⟨c, t, rfl⟩ : ∃ c t, f = c :: t := by
        cases f with
        | nil => exact absurd rfl hne
        | cons c s => exact ⟨c, s, rfl⟩
      cases fuel with
      | zero => simp at hfuel
      | succ fuel =>
        have unroll : dotLoop (fuel + 1) (c :: t ++ slashed []) [] = dotLoop fuel (dotRound (c :: t ++ slashed []) []).1 (dotRound (c :: t ++ slashed []) []).2 := rfl
        rw [unroll, hr, resolvePath]
        by_cases hd : isDots (c :: t)
        · rw [if_pos hd, if_pos hd]
          cases fuel <;> rfl
        · rw [if_neg hd, if_neg hd, if_neg hne]
          cases fuel <;> rfl
  | cons g rest ih =>
    by_cases hne : f = []
    · subst hne
      have hnd : ¬ isDots [] := by decide
      rw [resolvePath, if_neg hnd, if_pos rfl]
      exact loop_slash _ _ _ hs hfuel
    · have hr := round_word f (g :: rest) hf hne
      obtain ⟨c, t, rfl⟩ : ∃ c t, f = c :: t := by
        cases f with
        | nil => exact absurd rfl hne
        | cons c s => exact ⟨c, s, rfl⟩
      rw [List.length_append] at hfuel
      cases fuel with
      | zero => simp at hfuel
      | succ fuel =>
        have unroll : dotLoop (fuel + 1) (c :: t ++ slashed (g :: rest)) [] =
            dotLoop fuel (dotRound (c :: t ++ slashed (g :: rest)) []).1 (dotRound (c :: t ++ slashed (g :: rest)) []).2 := rfl
        rw [unroll, hr, resolvePath]
        by_cases hd : isDots (c :: t)
        · rw [if_pos hd, if_pos hd]
          have e : (slashed (g :: rest)).drop 1 = g ++ slashed rest := by rw [slashed_cons]; rfl
          rw [e]
          refine ih g fuel (hs g (by simp)) (fun s h => hs s (by simp [h])) ?_
          rw [slashed_cons, List.length_cons] at hfuel
          simp only [List.length_cons] at hfuel
          omega
        · rw [if_neg hd, if_neg hd, if_neg hne]
          refine loop_slash _ _ _ hs ?_
          simp only [List.length_cons] at hfuel
          omega

theorem remove_eq (p : Bytes) : removeDotSegments p = some (resolvePath (segments p)).reverse.flatten := by
  obtain ⟨f, segs, h1, h2, h3⟩ := segments_spec p
  rw [h1, removeDotSegments]
  have := loop_path f segs _ (h3 f (by simp)) (fun s hs => h3 s (by simp [hs])) (Nat.le_refl _)
  rw [← h2] at this
  rw [this]
  rfl

/-- what has been entered: slashed segments that are not dots, perhaps after a first one without a slash -/
def Clean (out : List Bytes) : Prop :=
  ∃ f segs, out = (segs.map (fun s => 47 :: s)).reverse ++ (if f = [] then [] else [f]) ∧ (∀ s ∈ f :: segs, (47 : UInt8) ∉ s ∧ ¬ isDots s)

theorem clean_push {out : List Bytes} (h : Clean out) {s : Bytes} (hs : (47 : UInt8) ∉ s ∧ ¬ isDots s) : Clean ((47 :: s) :: out) := by
  obtain ⟨f, segs, he, ha⟩ := h
  refine ⟨f, segs ++ [s], by simp [he], ?_⟩
  intro t ht
  rcases List.mem_cons.mp ht with h | h
  · exact ha t (by simp [h])
  · rcases List.mem_append.mp h with h | h
    · exact ha t (by simp [h])
    · rw [List.mem_singleton.mp h]; exact hs

theorem clean_pop {out : List Bytes} (h : Clean out) : Clean out.tail := by
  obtain ⟨f, segs, he, ha⟩ := h
  rcases List.eq_nil_or_concat segs with rfl | ⟨segs', s, rfl⟩
  · refine ⟨[], [], ?_, by simp [isDots]⟩
    rw [he]
    by_cases hf : f = [] <;> simp [hf]
  · refine ⟨f, segs', by rw [he]; simp, ?_⟩
    intro t ht
    rcases List.mem_cons.mp ht with h | h
    · exact ha t (by simp [h])
    · exact ha t (by simp [h])

theorem clean_resolve (segs : List Bytes) (hs : ∀ s ∈ segs, (47 : UInt8) ∉ s) (out : List Bytes) (h : Clean out) : Clean (resolve out segs) := by
  have hempty : (47 : UInt8) ∉ ([] : Bytes) ∧ ¬ isDots [] := by decide
  induction segs generalizing out with
  | nil => exact h
  | cons s rest ih =>
    have ih := ih (fun t ht => hs t (by simp [ht]))
    rw [resolve]
    by_cases h1 : s = [46]
    · rw [if_pos h1]
      split
      · exact clean_push h hempty
      · exact ih out h
    · rw [if_neg h1]
      by_cases h2 : s = [46, 46]
      · rw [if_pos h2]
        split
        · exact clean_push (clean_pop h) hempty
        · exact ih _ (clean_pop h)
      · rw [if_neg h2]
        exact ih _ (clean_push h ⟨hs s (by simp), fun h => h.elim h1 h2⟩)

theorem clean_path (segs : List Bytes) (hs : ∀ s ∈ segs, (47 : UInt8) ∉ s) : Clean (resolvePath segs) := by
  induction segs with
  | nil => exact ⟨[], [], rfl, by simp [isDots]⟩
  | cons f segs ih =>
    rw [resolvePath]
    split
    · exact ih (fun s h => hs s (by simp [h]))
    · rename_i hd
      refine clean_resolve segs (fun s h => hs s (by simp [h])) _ ⟨f, [], by simp, ?_⟩
      intro t ht
      rw [List.mem_singleton.mp ht]
      exact ⟨hs f (by simp), hd⟩

theorem clean_segments {out : List Bytes} (h : Clean out) : ∀ s ∈ segments out.reverse.flatten, ¬ isDots s := by
  obtain ⟨f, segs, he, ha⟩ := h
  have : out.reverse.flatten = f ++ slashed segs := by
    rw [he, List.reverse_append, List.reverse_reverse, List.flatten_append, slashed]
    congr 1
    by_cases hf : f = [] <;> simp [hf]
  rw [this, segments_append f segs (ha f (by simp)).1 (fun s h => (ha s (by simp [h])).1)]
  exact fun s h => (ha s h).2

theorem resolve_clean (segs : List Bytes) (hd : ∀ s ∈ segs, ¬ isDots s) (out : List Bytes) :
    (resolve out segs).reverse.flatten = out.reverse.flatten ++ slashed segs := by
  induction segs generalizing out with
  | nil => simp [resolve, slashed]
  | cons s rest ih =>
    have hs := hd s (by simp)
    rw [resolve, if_neg (fun h => hs (.inl h)), if_neg (fun h => hs (.inr h)), ih (fun t h => hd t (by simp [h])), slashed_cons]
    simp

theorem remove_clean (p : Bytes) (hd : ∀ s ∈ segments p, ¬ isDots s) : removeDotSegments p = some p := by
  rw [remove_eq]
  obtain ⟨f, segs, h1, h2, h3⟩ := segments_spec p
  rw [h1] at hd ⊢
  rw [resolvePath, if_neg (hd f (by simp)), resolve_clean segs (fun s h => hd s (by simp [h]))]
  have e : some p = some (f ++ slashed segs) := by rw [← h2]
  rw [e]
  congr 2
  by_cases hf : f = [] <;> simp [hf]

end Uri

open Uri Spec

/-- `text "abc"` is the bytes of an ASCII string, for examples. -/
def text (s : String) : Bytes := s.toList.map (fun c => UInt8.ofNat c.toNat)

/-- Removing dot segments ends, for every string, and gives what walking through the segments gives: "." stays, ".." leaves the segment
entered last, others are entered. -/
theorem C37_resolves (path : Bytes) : removeDotSegments path = some (resolvePath (segments path)).reverse.flatten := remove_eq path

example : removeDotSegments (text "/a/b/c/./../../g") = some (text "/a/g") ∧ removeDotSegments (text "mid/content=5/../6") = some (text "mid/6") ∧
    removeDotSegments (text "../../etc/passwd/..") = some (text "etc/") := by decide +kernel

/-- No segment of the result is "." or "..". -/
theorem C37_no_dot_segments (path q : Bytes) (h : removeDotSegments path = some q) : ∀ s ∈ segments q, s ≠ [46] ∧ s ≠ [46, 46] := by
  rw [remove_eq] at h
  injection h with h
  subst h
  obtain ⟨f, segs, h1, _, h3⟩ := segments_spec path
  intro s hs
  have := clean_segments (clean_path (segments path) (by rw [h1]; exact h3)) s hs
  exact ⟨fun h => this (.inl h), fun h => this (.inr h)⟩

example : ∃ q, removeDotSegments (text "/../../a/./b/../../..//..") = some q ∧ q = text "/" := ⟨text "/", by decide +kernel, rfl⟩

/-- A path without dot segments is unchanged; so removing them again changes nothing. -/
theorem C37_idempotent (path q : Bytes) :
    ((∀ s ∈ segments path, s ≠ [46] ∧ s ≠ [46, 46]) → removeDotSegments path = some path) ∧
    (removeDotSegments path = some q → removeDotSegments q = some q) := by
  constructor
  · intro h
    exact remove_clean path (fun s hs hd => hd.elim (h s hs).1 (h s hs).2)
  · intro h
    have := C37_no_dot_segments path q h
    exact remove_clean q (fun s hs hd => hd.elim (this s hs).1 (this s hs).2)

example : (∀ s ∈ segments (text "/a/.b/..c/"), s ≠ [46] ∧ s ≠ [46, 46]) := by decide +kernel

/-- A path that begins with a slash still does (and so never climbs above its root). -/
theorem C37_absolute (t : Bytes) : ∃ u, removeDotSegments (47 :: t) = some (47 :: u) := by
  rw [remove_eq]
  obtain ⟨f, segs, h1, _, h3⟩ := segments_spec t
  have hseg : segments (47 :: t) = [] :: f :: segs := by rw [segments, h1]; simp
  have hnd : ¬ isDots [] := by decide
  rw [hseg, resolvePath, if_neg hnd, if_pos rfl]
  have key : ∀ (segs : List Bytes), segs ≠ [] → ∀ out : List Bytes, (∀ e ∈ out, ∃ s, e = 47 :: s) →
      resolve out segs ≠ [] ∧ ∀ e ∈ resolve out segs, ∃ s, e = 47 :: s := by
    intro segs
    induction segs with
    | nil => intro h; exact absurd rfl h
    | cons s rest ih =>
      intro _ out ho
      have hpush : ∀ (o : List Bytes) (w : Bytes), (∀ e ∈ o, ∃ s, e = 47 :: s) → ∀ e ∈ (47 :: w) :: o, ∃ s, e = 47 :: s := by
        intro o w ho e he
        rcases List.mem_cons.mp he with h | h
        · exact ⟨w, h⟩
        · exact ho e h
      have hpop : ∀ e ∈ out.tail, ∃ s, e = 47 :: s := fun e he => ho e (List.mem_of_mem_tail he)
      rw [resolve]
      by_cases h1 : s = [46]
      · rw [if_pos h1]
        split
        · exact ⟨by simp, hpush _ [] ho⟩
        · exact ih ‹_› out ho
      · rw [if_neg h1]
        by_cases h2 : s = [46, 46]
        · rw [if_pos h2]
          split
          · exact ⟨by simp, hpush _ [] hpop⟩
          · exact ih ‹_› _ hpop
        · rw [if_neg h2]
          by_cases hr : rest = []
          · rw [hr, resolve]; exact ⟨by simp, hpush _ s ho⟩
          · exact ih hr _ (hpush _ s ho)
  obtain ⟨k1, k2⟩ := key (f :: segs) (by simp) [] (by simp)
  generalize resolve [] (f :: segs) = r at k1 k2
  rcases hr : r.reverse with _ | ⟨x, xs⟩
  · exact absurd (by simpa using hr) k1
  · obtain ⟨s, rfl⟩ := k2 x (List.mem_reverse.mp (by rw [hr]; simp))
    exact ⟨s ++ xs.flatten, by simp⟩

example : removeDotSegments (text "/../../../etc") = some (text "/etc") := by decide +kernel

namespace Uri

theorem segments_slash (a r : Bytes) : segments (a ++ 47 :: r) = segments a ++ segments r := by
  induction a with
  | nil =>
    obtain ⟨f, segs, h, _⟩ := segments_spec r
    simp only [List.nil_append, segments, h, if_true, List.cons_append]
  | cons c a ih =>
    obtain ⟨f, segs, h, _⟩ := segments_spec a
    rw [List.cons_append, segments, ih, segments, h]
    simp only [List.cons_append]
    split <;> simp

theorem segments_free (p : Bytes) (h : (47 : UInt8) ∉ p) : segments p = [p] := by
  have := segments_append p [] h (by simp)
  simpa [slashed] using this

/-- a path without a slash, or cut at its last slash -/
theorem last_slash (p : Bytes) : ((47 : UInt8) ∉ p ∧ (p.reverse.dropWhile (· ≠ slash)).reverse = []) ∨
    ∃ a b, p = a ++ 47 :: b ∧ (47 : UInt8) ∉ b ∧ (p.reverse.dropWhile (· ≠ slash)).reverse = a ++ [47] := by
  have hd := List.takeWhile_append_dropWhile (p := (· ≠ slash)) (l := p.reverse)
  have ht : ∀ y ∈ p.reverse.takeWhile (· ≠ slash), y ≠ 47 := fun y hy => by
    have := List.all_eq_true.mp List.all_takeWhile y hy
    simpa [slash] using this
  rcases h : p.reverse.dropWhile (· ≠ slash) with _ | ⟨c, r⟩
  · left
    rw [h, List.append_nil] at hd
    refine ⟨fun hm => ht 47 (by rw [hd]; exact List.mem_reverse.mpr hm) rfl, rfl⟩
  · right
    have hc : c = 47 := by
      have := List.head_dropWhile_not (p := (· ≠ slash)) (l := p.reverse) (by rw [h]; simp)
      simp only [h, List.head_cons] at this
      simpa [slash] using this
    subst hc
    refine ⟨r.reverse, (p.reverse.takeWhile (· ≠ slash)).reverse, ?_, ?_, by simp⟩
    · rw [h] at hd
      have := congrArg List.reverse hd
      rw [List.reverse_reverse, List.reverse_append, List.reverse_cons, List.append_assoc] at this
      exact this.symm
    · intro hm
      exact ht 47 (List.mem_reverse.mp hm) rfl

end Uri

/-- **C37.** A relative path is resolved against a base path by replacing the base's last segment with it (all of RFC 3986 section 5.2.3): the merged
path has the base's other segments and then those of the relative path, and starts at the root if the base has an authority and no path. -/
theorem C37_merge (authority path rel : Bytes) (hne : rel ≠ []) (hrel : rel.head? ≠ some 47) :
    (authority ≠ [] → path = [] → segments (mergedRelativePath authority path rel) = [] :: segments rel) ∧
    (authority = [] ∨ path ≠ [] → segments (mergedRelativePath authority path rel) = (segments path).dropLast ++ segments rel) := by
  have h0 : ¬ (rel = [] ∨ rel.head? = some slash) := by
    rintro (h | h)
    · exact hne h
    · exact hrel h
  constructor
  · intro ha hp
    rw [mergedRelativePath, if_neg h0, if_pos ⟨ha, hp⟩]
    exact segments_slash [] rel
  · intro h
    have h1 : ¬ (authority ≠ [] ∧ path = []) := by
      rintro ⟨x, y⟩
      rcases h with h | h
      · exact x h
      · exact h y
    rw [mergedRelativePath, if_neg h0, if_neg h1]
    rcases last_slash path with ⟨g1, g2⟩ | ⟨a, b, g1, g2, g3⟩
    · rw [g2, segments_free path g1]; rfl
    · rw [g3, g1, segments_slash, segments_free b g2, List.append_assoc, List.dropLast_concat]
      exact segments_slash a rel

example : mergedRelativePath (text "//h") (text "/a/b/c") (text "../d") = text "/a/b/../d" := by decide +kernel

namespace Uri

/-- no character of the part is a separator -/
def Free (seps part : Bytes) : Prop := ∀ c ∈ part, c ∉ seps

/-- each part followed by its separator -/
def chain : List Bytes → Bytes → Bytes
  | p :: ps, d :: ds => p ++ d :: chain ps ds
  | _, _ => []

/-- the parts with separators between them -/
def joined : List Bytes → Bytes → Bytes
  | p :: ps, d :: ds => p ++ d :: joined ps ds
  | p :: _, [] => p
  | [], _ => []

theorem joined_chain (ps : List Bytes) (ds : Bytes) (last : Bytes) (h : ps.length = ds.length) : joined (ps ++ [last]) ds = chain ps ds ++ last := by
  induction ps generalizing ds with
  | nil =>
    cases ds with
    | nil => rfl
    | cons _ _ => cases h
  | cons p ps ih =>
    cases ds with
    | nil => cases h
    | cons d ds =>
      simp only [List.cons_append, joined, chain]
      rw [ih ds (by simpa using h)]
      simp

theorem find_none {str seps : Bytes} {cursor : Nat} (h : findFirstOf str seps cursor = none) : Free seps (str.drop cursor) := by
  rw [findFirstOf] at h
  split at h
  · rename_i hn
    rw [List.findIdx?_eq_none_iff] at hn
    intro c hc
    have := hn c hc
    simpa using this
  · cases h

theorem find_some {str seps : Bytes} {cursor found : Nat} (h : findFirstOf str seps cursor = some found) :
    cursor ≤ found ∧ found < str.length ∧ Free seps ((str.drop cursor).take (found - cursor)) ∧
      ∃ d ∈ seps, str.drop cursor = (str.drop cursor).take (found - cursor) ++ d :: str.drop (found + 1) := by
  rw [findFirstOf] at h
  split at h
  · cases h
  · rename_i i hi
    injection h with h
    subst h
    rw [List.findIdx?_eq_some_iff_getElem] at hi
    obtain ⟨hl, hp, hb⟩ := hi
    have hl' : cursor + i < str.length := by rw [List.length_drop] at hl; omega
    refine ⟨by omega, hl', ?_, ⟨(str.drop cursor)[i], by simpa using hp, ?_⟩⟩
    · have e : cursor + i - cursor = i := by omega
      rw [e]
      intro c hc
      obtain ⟨j, hj, rfl⟩ := List.mem_iff_getElem.mp hc
      rw [List.length_take] at hj
      have := hb j (by omega)
      rw [List.getElem_take]
      simpa using this
    · have e : cursor + i - cursor = i := by omega
      rw [e]
      have e2 : str.drop (cursor + i + 1) = (str.drop cursor).drop (i + 1) := by rw [List.drop_drop]; rfl
      rw [e2, ← List.drop_eq_getElem_cons hl, List.take_append_drop]

theorem splitLoop_spec (str seps : Bytes) (fuel m cursor : Nat) (hm : m < 2 ^ 64) (hc : cursor ≤ str.length) (hf : str.length - cursor < fuel) :
    ∃ ps c ds, splitLoop str seps fuel m cursor = some (ps, c) ∧ cursor ≤ c ∧ c ≤ str.length ∧ ps.length = ds.length ∧
      str.drop cursor = chain ps ds ++ str.drop c ∧ (∀ d ∈ ds, d ∈ seps) ∧ (∀ p ∈ ps, Free seps p) ∧
      ps.length ≤ (if m = 0 then 2 ^ 64 - 1 else m - 1) ∧ (ps.length < (if m = 0 then 2 ^ 64 - 1 else m - 1) → Free seps (str.drop c)) := by
  induction fuel generalizing m cursor with
  | zero => omega
  | succ fuel ih =>
    rw [splitLoop]
    have hbu : (if m = 0 then U64MAX else m - 1) = (if m = 0 then 2 ^ 64 - 1 else m - 1) := by
      by_cases h : m = 0
      · rw [if_pos h]
      · rw [if_neg h]
    rw [hbu]
    have hb : (if m = 0 then 2 ^ 64 - 1 else m - 1) < 2 ^ 64 := by
      by_cases h : m = 0
      · rw [if_pos h]; decide
      · rw [if_neg h]; omega
    generalize (if m = 0 then 2 ^ 64 - 1 else m - 1) = b at hb
    by_cases hcond : b ≠ 0 ∧ cursor < str.length
    · rw [if_pos hcond]
      cases hfi : findFirstOf str seps cursor with
      | none => exact ⟨[], cursor, [], rfl, Nat.le_refl _, hc, rfl, rfl, by simp, by simp, Nat.zero_le _, fun _ => find_none hfi⟩
      | some found =>
        obtain ⟨h1, h2, h3, d, hd, h4⟩ := find_some hfi
        obtain ⟨ps, c, ds, g1, g2, g3, g4, g5, g6, g7, g8, g9⟩ := ih b (found + 1) hb (by omega) (by omega)
        rw [if_neg hcond.1] at g8 g9
        refine ⟨(str.drop cursor).take (found - cursor) :: ps, c, d :: ds, by simp only [g1, Option.map_some], by omega, g3, by simp [g4], ?_, ?_, ?_, ?_, ?_⟩
        · rw [h4]
          have : (str.drop cursor).take (found - cursor) = ((str.drop cursor).take (found - cursor) ++ d :: str.drop (found + 1)).take (found - cursor) := by
            rw [← h4]
          rw [← this, chain, g5]; simp
        · intro e he
          rcases List.mem_cons.mp he with h | h
          · rw [h]; exact hd
          · exact g6 e h
        · intro p hp
          rcases List.mem_cons.mp hp with h | h
          · rw [h]; exact h3
          · exact g7 p h
        · have := hcond.1
          simp only [List.length_cons]; omega
        · intro hlt
          simp only [List.length_cons] at hlt
          exact g9 (by omega)
    · rw [if_neg hcond]
      refine ⟨[], cursor, [], rfl, Nat.le_refl _, hc, rfl, rfl, by simp, by simp, Nat.zero_le _, ?_⟩
      intro hlt
      simp only [List.length_nil] at hlt
      have : str.length ≤ cursor := by
        by_cases h : cursor < str.length
        · exact absurd ⟨by omega, h⟩ hcond
        · omega
      rw [List.drop_eq_nil_of_le this]
      intro c hc; cases hc

end Uri

/-- Splitting any string at any separators, for any limit: the parts with one separator put back between each two are the string; no part but
the last contains a separator; there are at most as many parts as asked for (if not 0); and the last contains a separator only if there are
exactly that many. -/
theorem C38_split (str seps : Bytes) (maxParts : Nat) (hm : maxParts < 2 ^ 64) (hs : seps ≠ []) (hlen : str.length < 2 ^ 64 - 1) :
    ∃ parts last ds, split str seps maxParts = some (parts ++ [last]) ∧ ds.length = parts.length ∧ (∀ d ∈ ds, d ∈ seps) ∧
      joined (parts ++ [last]) ds = str ∧
      (∀ p ∈ parts, ∀ c ∈ p, c ∉ seps) ∧
      (0 < maxParts → (parts ++ [last]).length ≤ maxParts) ∧
      ((∃ c ∈ last, c ∈ seps) → 0 < maxParts ∧ (parts ++ [last]).length = maxParts) := by
  obtain ⟨ps, c, ds, g1, _, g3, g4, g5, g6, g7, g8, g9⟩ := splitLoop_spec str seps (str.length + 1) maxParts 0 hm (Nat.zero_le _) (by omega)
  refine ⟨ps, str.drop c, ds, ?_, g4.symm, g6, ?_, g7, ?_, ?_⟩
  · rw [split, if_neg hs, g1]
    dsimp only
    rw [if_pos g3]
  · rw [joined_chain _ _ _ g4, ← g5]; rfl
  · intro h
    rw [if_neg (by omega)] at g8
    simp only [List.length_append, List.length_cons, List.length_nil]; omega
  · rintro ⟨d, hd, hds⟩
    have hnot : ¬ ps.length < (if maxParts = 0 then 2 ^ 64 - 1 else maxParts - 1) := fun h => g9 h d hd hds
    by_cases h0 : maxParts = 0
    · exfalso
      rw [if_pos h0] at hnot
      have hcl : ∀ (ps : List Bytes) (ds : Bytes), ps.length = ds.length → ps.length ≤ (chain ps ds).length := by
        intro ps
        induction ps with
        | nil => intro ds _; exact Nat.zero_le _
        | cons p ps ih =>
          intro ds h
          cases ds with
          | nil => cases h
          | cons d ds =>
            have := ih ds (by simpa using h)
            simp only [chain, List.length_append, List.length_cons]; omega
      have h1 := hcl ps ds g4
      have h2 := congrArg List.length g5
      simp only [List.drop_zero, List.length_append] at h2
      omega
    · rw [if_neg h0] at hnot g8
      refine ⟨by omega, ?_⟩
      simp only [List.length_append, List.length_cons, List.length_nil]; omega

example : split (text "a,b;c,,d") (text ",;") 0 = some [text "a", text "b", text "c", [], text "d"] ∧
    split (text "a,b;c,,d") (text ",;") 3 = some [text "a", text "b", text "c,,d"] ∧ split (text "a,") (text ",") 0 = some [text "a", []] ∧
    split [] (text ",") 0 = some [[]] := by decide +kernel

/-- Without separators there are no parts at all, not even the string. -/
theorem C38_split_no_separators (str : Bytes) (maxParts : Nat) : split str [] maxParts = some [] := by rw [split, if_pos rfl]

namespace Uri

open Hex

/-- `s` spells `bs`: each byte as itself (neither '%', 37, nor NUL) or as '%' and two hex digits (not NUL) -/
inductive Percent : Bytes → Bytes → Prop
  | nil : Percent [] []
  | plain {c s bs} : c ≠ 37 → c ≠ 0 → Percent s bs → Percent (c :: s) (c :: bs)
  | coded {a b s bs hi lo} : digitValue a = some hi → digitValue b = some lo → 16 * hi + lo ≠ 0 → Percent s bs →
      Percent (37 :: a :: b :: s) (UInt8.ofNat (16 * hi + lo) :: bs)

theorem readAt_append (pre rest : Bytes) (k : Nat) : readAt (pre ++ rest) (pre.length + k) = (rest ++ [0])[k]? := by
  rw [readAt, List.append_assoc, List.getElem?_append_right (by omega)]
  congr 1; omega

theorem digit_zero : decodeDigit 0 = -2 := by decide

/-- what reading a byte's code at the front of what is left does -/
theorem decodeByte_rest (pre rest : Bytes) (hz : (0 : UInt8) ∉ rest) :
    (∃ a b s hi lo, rest = a :: b :: s ∧ digitValue a = some hi ∧ digitValue b = some lo ∧ hi < 16 ∧ lo < 16 ∧
      decodeByteAt (pre ++ rest) pre.length = some (some (16 * hi + lo))) ∨
    ((¬ ∃ a b s hi lo, rest = a :: b :: s ∧ digitValue a = some hi ∧ digitValue b = some lo) ∧ decodeByteAt (pre ++ rest) pre.length = some none) := by
  have r0 := readAt_append pre rest 0
  have r1 := readAt_append pre rest 1
  rw [Nat.add_zero] at r0
  rw [decodeByteAt]
  cases rest with
  | nil =>
    simp only [List.nil_append, List.getElem?_cons_zero] at r0
    right
    rw [r0]
    dsimp only
    rw [digit_zero, if_neg (by decide)]
    exact ⟨by rintro ⟨a, b, s, hi, lo, h, _⟩; (cases h), rfl⟩
  | cons a rest =>
    simp only [List.cons_append, List.getElem?_cons_zero] at r0
    rw [r0]
    dsimp only
    have nodig : digitValue a = none → ¬ ∃ a' b s hi lo, a :: rest = a' :: b :: s ∧ digitValue a' = some hi ∧ digitValue b = some lo := by
      rintro hn ⟨a', b, s, hi, lo, h, h1, _⟩
      injection h with h _
      subst h
      rw [hn] at h1; cases h1
    rcases digit_cases a with ⟨d1, d2, _⟩ | ⟨d1, d2, _⟩ | ⟨x, hx, d1, d2, _⟩
    · rw [d1, if_neg (by decide)]; exact .inr ⟨nodig d2, rfl⟩
    · rw [d1, if_neg (by decide)]; exact .inr ⟨nodig d2, rfl⟩
    · rw [d1, if_pos (by omega)]
      cases rest with
      | nil =>
        simp only [List.cons_append, List.nil_append, List.getElem?_cons_succ, List.getElem?_cons_zero] at r1
        rw [r1]
        dsimp only
        rw [digit_zero, if_neg (by decide)]
        exact .inr ⟨by rintro ⟨a, b, s, hi, lo, h, _⟩; (cases h), rfl⟩
      | cons b rest =>
        simp only [List.cons_append, List.getElem?_cons_succ, List.getElem?_cons_zero] at r1
        rw [r1]
        dsimp only
        have nodig2 : digitValue b = none → ¬ ∃ a' b' s hi lo, a :: b :: rest = a' :: b' :: s ∧ digitValue a' = some hi ∧ digitValue b' = some lo := by
          rintro hn ⟨a', b', s, hi, lo, h, _, h2⟩
          injection h with _ h
          injection h with h _
          subst h
          rw [hn] at h2; cases h2
        rcases digit_cases b with ⟨e1, e2, _⟩ | ⟨e1, e2, _⟩ | ⟨y, hy, e1, e2, _⟩
        · rw [e1, if_neg (by decide)]; exact .inr ⟨nodig2 e2, rfl⟩
        · rw [e1, if_neg (by decide)]; exact .inr ⟨nodig2 e2, rfl⟩
        · rw [e1, if_pos (by omega)]
          refine .inl ⟨a, b, rest, x, y, rfl, d2, e2, hx, hy, ?_⟩
          simp only [Int.toNat_natCast, Nat.shiftLeft_eq]
          congr 2; omega

theorem percentLoop_spec (fuel : Nat) (pre rest rv : Bytes) (hz : (0 : UInt8) ∉ rest) (tail : Bytes) (ht : tail = [] ∨ ∃ t, tail = 0 :: t)
    (hf : rest.length < fuel) (hdec : ∀ pre' rest', pre ++ rest = pre' ++ rest' →
      decodeByteAt (pre ++ rest ++ tail) pre'.length = decodeByteAt (pre ++ rest) pre'.length) :
    (∃ bs, Percent rest bs ∧ percentLoop (pre ++ rest ++ tail) fuel pre.length rv = some (rv ++ bs)) ∨
    ((∀ bs, ¬ Percent rest bs) ∧ percentLoop (pre ++ rest ++ tail) fuel pre.length rv = some []) := by
  induction fuel generalizing pre rest rv with
  | zero => omega
  | succ fuel ih =>
    have r0 := readAt_append pre (rest ++ tail) 0
    rw [Nat.add_zero, ← List.append_assoc] at r0
    rw [percentLoop]
    cases rest with
    | nil =>
      have e : readAt (pre ++ [] ++ tail) pre.length = some 0 := by
        rw [r0]
        rcases ht with rfl | ⟨t, rfl⟩ <;> rfl
      rw [e]
      dsimp only
      rw [if_pos rfl]
      exact .inl ⟨[], .nil, by simp⟩
    | cons c rest =>
      have e : readAt (pre ++ c :: rest ++ tail) pre.length = some c := by rw [r0]; rfl
      rw [e]
      dsimp only
      have hc0 : c ≠ 0 := fun h => hz (by simp [h])
      have hz' : (0 : UInt8) ∉ rest := fun h => hz (by simp [h])
      rw [if_neg hc0]
      simp only [List.length_cons] at hf
      by_cases hp : c = percent
      · rw [if_pos hp]
        have e1 : pre ++ c :: rest = (pre ++ [c]) ++ rest := by simp
        have e2 : pre.length + 1 = (pre ++ [c]).length := by simp
        have hd := hdec (pre ++ [c]) rest e1
        rw [e2, hd, e1]
        rcases decodeByte_rest (pre ++ [c]) rest hz' with ⟨a, b, s, hi, lo, h1, h2, h3, h4, h5, h6⟩ | ⟨h1, h2⟩
        · rw [h6]
          dsimp only
          by_cases hb : 16 * hi + lo < 1
          · rw [if_pos hb]
            refine .inr ⟨?_, rfl⟩
            intro bs hbs
            subst h1
            cases hbs with
            | plain hne _ _ => exact hne hp
            | coded g1 g2 g3 _ =>
              rw [h2] at g1; rw [h3] at g2
              injection g1 with g1; injection g2 with g2
              subst g1; subst g2; omega
          · rw [if_neg hb]
            subst h1
            have e3 : (pre ++ [c]) ++ a :: b :: s = (pre ++ [c, a, b]) ++ s := by simp
            have e4 : pre.length + 3 = (pre ++ [c, a, b]).length := by simp
            rw [e3, e4]
            have hzs : (0 : UInt8) ∉ s := fun h => hz' (by simp [h])
            have := ih (pre ++ [c, a, b]) s (rv ++ [UInt8.ofNat (16 * hi + lo)]) hzs (by simp only [List.length_cons] at hf; omega)
              (by rw [← e3, ← e1]; exact hdec)
            rcases this with ⟨bs, k1, k2⟩ | ⟨k1, k2⟩
            · refine .inl ⟨UInt8.ofNat (16 * hi + lo) :: bs, ?_, by rw [k2]; simp⟩
              rw [hp]
              exact .coded h2 h3 (by omega) k1
            · refine .inr ⟨?_, k2⟩
              intro bs hbs
              cases hbs with
              | plain hne _ _ => exact hne hp
              | coded _ _ _ g => exact k1 _ g
        · rw [h2]
          refine .inr ⟨?_, rfl⟩
          intro bs hbs
          cases hbs with
          | plain hne _ _ => exact hne hp
          | coded g1 g2 _ _ => exact h1 ⟨_, _, _, _, _, rfl, g1, g2⟩
      · rw [if_neg hp]
        have e1 : pre ++ c :: rest = (pre ++ [c]) ++ rest := by simp
        have e2 : pre.length + 1 = (pre ++ [c]).length := by simp
        rw [e1, e2]
        rcases ih (pre ++ [c]) rest (rv ++ [c]) hz' (by omega) (by rw [← e1]; exact hdec) with ⟨bs, k1, k2⟩ | ⟨k1, k2⟩
        · exact .inl ⟨c :: bs, .plain hp hc0 k1, by rw [k2]; simp⟩
        · refine .inr ⟨?_, k2⟩
          intro bs hbs
          cases hbs with
          | plain _ _ g => exact k1 _ g
          | coded _ _ _ _ => exact hp rfl

/-- a NUL in the string is like its end -/
theorem decodeByte_tail (str tail : Bytes) (ht : tail = [] ∨ ∃ t, tail = 0 :: t) (pre rest : Bytes) (he : str = pre ++ rest) :
    decodeByteAt (str ++ tail) pre.length = decodeByteAt str pre.length := by
  have rd : ∀ i, i ≤ str.length → readAt (str ++ tail) i = readAt str i := by
    intro i hi
    rw [readAt, readAt, List.append_assoc]
    by_cases h : i < str.length
    · rw [List.getElem?_append_left h, List.getElem?_append_left h]
    · have : i = str.length := by omega
      subst this
      rw [List.getElem?_append_right (Nat.le_refl _), List.getElem?_append_right (Nat.le_refl _), Nat.sub_self]
      rcases ht with rfl | ⟨t, rfl⟩ <;> rfl
  have hl : pre.length ≤ str.length := by rw [he]; simp
  rw [decodeByteAt, decodeByteAt, rd _ hl]
  by_cases hlt : pre.length < str.length
  · rw [rd _ hlt]
  · have e : readAt str pre.length = some 0 := by
      have : pre.length = str.length := by omega
      rw [readAt, this, List.getElem?_append_right (Nat.le_refl _), Nat.sub_self]; rfl
    rw [e]
    dsimp only
    rw [digit_zero, if_neg (by decide), if_neg (by decide)]

theorem percentDecode_spec (str tail : Bytes) (hz : (0 : UInt8) ∉ str) (ht : tail = [] ∨ ∃ t, tail = 0 :: t) :
    (∃ bs, Percent str bs ∧ percentDecode (str ++ tail) = some bs) ∨ ((∀ bs, ¬ Percent str bs) ∧ percentDecode (str ++ tail) = some []) := by
  rw [percentDecode]
  have := percentLoop_spec ((str ++ tail).length + 1) [] str [] hz tail ht (by simp; omega)
    (fun pre' rest' he => decodeByte_tail str tail ht pre' rest' he)
  exact this

theorem until_nul (str : Bytes) : ∃ head tail, str = head ++ tail ∧ (0 : UInt8) ∉ head ∧ (tail = [] ∨ ∃ t, tail = 0 :: t) := by
  induction str with
  | nil => exact ⟨[], [], rfl, by simp, .inl rfl⟩
  | cons c s ih =>
    by_cases hc : c = 0
    · exact ⟨[], c :: s, rfl, by simp, .inr ⟨s, by rw [hc]⟩⟩
    · obtain ⟨h, t, e, hz, ht⟩ := ih
      refine ⟨c :: h, t, by simp [e], ?_, ht⟩
      intro hm
      rcases List.mem_cons.mp hm with h | h
      · exact hc h.symm
      · exact hz h

end Uri

/-- Percent decoding never reads past the end of any string: there always is an answer. -/
theorem C38_percent_in_bounds (str : Bytes) : ∃ rv, percentDecode str = some rv := by
  obtain ⟨head, tail, rfl, hz, ht⟩ := until_nul str
  rcases percentDecode_spec head tail hz ht with ⟨bs, _, h⟩ | ⟨_, h⟩
  · exact ⟨bs, h⟩
  · exact ⟨[], h⟩

/-- Decoding inverts encoding, whichever bytes were encoded and in whichever case of digits; what isn't such a code (up to the first NUL, if
any) gives an empty string, or for the safe variant the string itself. -/
theorem C38_percent_decode (str tail : Bytes) (hz : (0 : UInt8) ∉ str) (ht : tail = [] ∨ ∃ t, tail = 0 :: t) :
    (∀ bs, Percent str bs → percentDecode (str ++ tail) = some bs) ∧
    ((¬ ∃ bs, Percent str bs) → percentDecode (str ++ tail) = some [] ∧ safePercentDecode (str ++ tail) = some (str ++ tail)) := by
  have uniq : ∀ s as bs, Percent s as → Percent s bs → as = bs := by
    intro s as bs ha
    induction ha generalizing bs with
    | nil => intro hb; cases hb; rfl
    | plain h1 _ _ ih =>
      intro hb
      cases hb with
      | plain _ _ g => rw [ih _ g]
      | coded => exact absurd rfl h1
    | coded h1 h2 _ _ ih =>
      intro hb
      cases hb with
      | plain h _ _ => exact absurd rfl h
      | coded g1 g2 _ g =>
        rw [h1] at g1; rw [h2] at g2
        injection g1 with g1; injection g2 with g2
        subst g1; subst g2
        rw [ih _ g]
  rcases percentDecode_spec str tail hz ht with ⟨bs, h1, h2⟩ | ⟨h1, h2⟩
  · refine ⟨fun cs h => by rw [h2, uniq _ _ _ h1 h], fun h => absurd ⟨bs, h1⟩ h⟩
  · refine ⟨fun cs h => absurd h (h1 cs), fun _ => ⟨h2, ?_⟩⟩
    rw [safePercentDecode, h2]; rfl

example : percentDecode (text "a%20b%2fC%2F") = some (text "a b/C/") ∧ percentDecode (text "100%") = some [] ∧ percentDecode (text "%0") = some [] ∧
    safePercentDecode (text "100%") = some (text "100%") := by decide +kernel
example : Percent (text "%41b") (text "Ab") := .coded (hi := 4) (lo := 1) (by decide) (by decide) (by decide) (.plain (by decide) (by decide) .nil)

end Rtmfp
