import Verif.Lemmas.RecvFlow
import Verif.Spec.Stream

/-! # The specification stream satisfies what the receiver's invariants need -/

namespace Rtmfp
namespace Spec
open RFlow (WFst IsMsg Link content payload)

/-- the mark of piece `i` of `n` -/
def mark (n i : Nat) : Fra := if n = 1 then .whole else if i = 0 then .begin else if i + 1 = n then .end else .middle

theorem laterFrags_get (q : List Bytes) (i : Nat) (h : i < q.length) :
    (laterFrags q)[i]? = some (if i + 1 = q.length then .end else .middle, q[i]) := by
  induction q generalizing i with
  | nil => simp at h
  | cons p q ih =>
    cases q with
    | nil =>
      have : i = 0 := by simp at h; omega
      subst this; rfl
    | cons p' q =>
      rw [laterFrags]
      · cases i with
        | zero => simp
        | succ i =>
          rw [List.getElem?_cons_succ, ih i (by simpa using h)]
          simp
      · simp

theorem frags_get (m : List Bytes) (i : Nat) (h : i < m.length) : (fragsOfPieces m)[i]? = some (mark m.length i, m[i]) := by
  match m, h with
  | [], h => simp at h
  | [p], h =>
    have : i = 0 := by simp at h; omega
    subst this; rfl
  | p :: p' :: q, h =>
    rw [fragsOfPieces]
    · cases i with
      | zero => simp [mark]
      | succ i =>
        rw [List.getElem?_cons_succ, laterFrags_get _ i (by simpa using h)]
        simp [mark]
    · simp

theorem laterFrags_length (q : List Bytes) : (laterFrags q).length = q.length := by
  induction q with
  | nil => rfl
  | cons p q ih => cases q with
    | nil => rfl
    | cons p' q => rw [laterFrags] <;> simp_all

theorem frags_length (m : List Bytes) : (fragsOfPieces m).length = m.length := by
  match m with
  | [] => rfl
  | [p] => rfl
  | p :: p' :: q => rw [fragsOfPieces] <;> simp [laterFrags_length]

/-- messages with their first number -/
def blocks : Nat → List (List Bytes) → List (Nat × List Bytes)
  | _, [] => []
  | s, m :: ms => (s, m) :: blocks (s + m.length) ms

/-- the fragment numbered `k` when the first has number `s` -/
def fragFrom (s : Nat) (ms : List (List Bytes)) (k : Nat) : Option (Fra × Bytes) := if k < s then none else (stream ms)[k - s]?

theorem fragAt_eq (ms : List (List Bytes)) (k : Nat) : fragAt ms k = fragFrom 1 ms k := by
  rw [fragAt, fragFrom]
  by_cases h : k = 0
  · rw [if_pos h, if_pos (by omega)]
  · rw [if_neg h, if_neg (by omega)]

theorem blocks_ge (ms : List (List Bytes)) (s : Nat) : ∀ b ∈ blocks s ms, s ≤ b.1 := by
  induction ms generalizing s with
  | nil => simp [blocks]
  | cons m ms ih =>
    intro b hb
    rw [blocks, List.mem_cons] at hb
    rcases hb with rfl | hb
    · exact Nat.le_refl _
    · have := ih _ b hb; omega

theorem blocks_sorted (ms : List (List Bytes)) (s : Nat) : (blocks s ms).Pairwise (fun a b => a.1 + a.2.length ≤ b.1) := by
  induction ms generalizing s with
  | nil => exact List.Pairwise.nil
  | cons m ms ih =>
    rw [blocks, List.pairwise_cons]
    exact ⟨fun b hb => blocks_ge ms _ b hb, ih _⟩

theorem fragFrom_iff (ms : List (List Bytes)) (s k : Nat) (x : Fra × Bytes) :
    fragFrom s ms k = some x ↔ ∃ b ∈ blocks s ms, b.1 ≤ k ∧ ∃ h : k - b.1 < b.2.length, x = (mark b.2.length (k - b.1), b.2[k - b.1]) := by
  induction ms generalizing s with
  | nil => simp [fragFrom, stream, blocks]
  | cons m ms ih =>
    have hst : stream (m :: ms) = fragsOfPieces m ++ stream ms := rfl
    rw [fragFrom, hst, blocks]
    by_cases h : k < s
    · rw [if_pos h]
      constructor
      · simp
      · rintro ⟨b, hb, h1, _⟩
        have := blocks_ge (m :: ms) s b (by rw [blocks]; exact hb)
        omega
    · rw [if_neg h]
      by_cases h2 : k - s < m.length
      · rw [List.getElem?_append_left (by rw [frags_length]; exact h2), frags_get m _ h2]
        constructor
        · intro e
          cases e
          exact ⟨(s, m), by simp, by simpa using h, h2, rfl⟩
        · rintro ⟨b, hb, h1, h3, e⟩
          rw [List.mem_cons] at hb
          rcases hb with rfl | hb
          · rw [e]
          · have := blocks_ge ms _ b hb
            omega
      · have ih := ih (s + m.length)
        rw [List.getElem?_append_right (by rw [frags_length]; omega), frags_length]
        rw [fragFrom, if_neg (by omega)] at ih
        have e : k - s - m.length = k - (s + m.length) := by omega
        rw [e, ih]
        constructor
        · rintro ⟨b, hb, h1⟩
          exact ⟨b, List.mem_cons_of_mem _ hb, h1⟩
        · rintro ⟨b, hb, h1, h3, e⟩
          rw [List.mem_cons] at hb
          rcases hb with rfl | hb
          · exact absurd h3 h2
          · exact ⟨b, hb, h1, h3, e⟩

theorem blocks_disj {ms : List (List Bytes)} {s : Nat} {a b : Nat × List Bytes} (ha : a ∈ blocks s ms) (hb : b ∈ blocks s ms) :
    a = b ∨ a.1 + a.2.length ≤ b.1 ∨ b.1 + b.2.length ≤ a.1 := by
  have h := blocks_sorted ms s
  generalize blocks s ms = l at *
  induction l with
  | nil => simp at ha
  | cons c l ih =>
    rw [List.pairwise_cons] at h
    rw [List.mem_cons] at ha hb
    rcases ha with rfl | ha <;> rcases hb with rfl | hb
    · exact .inl rfl
    · exact .inr (.inl (h.1 b hb))
    · exact .inr (.inr (h.1 a ha))
    · exact ih ha hb h.2

theorem fragFrom_at {ms : List (List Bytes)} {s : Nat} {b : Nat × List Bytes} (hb : b ∈ blocks s ms) (i : Nat) (h : i < b.2.length) :
    fragFrom s ms (b.1 + i) = some (mark b.2.length i, b.2[i]) := by
  rw [fragFrom_iff]
  have e : b.1 + i - b.1 = i := by omega
  refine ⟨b, hb, by omega, by omega, ?_⟩
  simp only [e]

theorem link_at {ms : List (List Bytes)} {s : Nat} {b : Nat × List Bytes} (hb : b ∈ blocks s ms) (i : Nat) (h : i + 1 < b.2.length) :
    Link (fragFrom s ms) (b.1 + i) := by
  have := fragFrom_at hb i (by omega)
  rw [RFlow.link_iff this, mark]
  by_cases e : i = 0
  · left; rw [if_neg (by omega), if_pos e]
  · right; rw [if_neg (by omega), if_neg e, if_neg (by omega)]

theorem link_inv {ms : List (List Bytes)} {s k : Nat} (h : Link (fragFrom s ms) k) :
    ∃ b ∈ blocks s ms, b.1 ≤ k ∧ k + 1 < b.1 + b.2.length := by
  obtain ⟨x, hx⟩ : ∃ x, fragFrom s ms k = some x := by
    obtain ⟨d, h | h⟩ := h <;> exact ⟨_, h⟩
  obtain ⟨b, hb, h1, h2, e⟩ := (fragFrom_iff ms s k x).1 hx
  refine ⟨b, hb, h1, ?_⟩
  rw [e] at hx
  rw [RFlow.link_iff hx, mark] at h
  by_cases e1 : b.2.length = 1
  · rw [if_pos e1] at h; simp at h
  · by_cases e2 : k - b.1 = 0
    · omega
    · by_cases e3 : k - b.1 + 1 = b.2.length
      · rw [if_neg e1, if_neg e2, if_pos e3] at h; simp at h
      · omega

theorem wf_fragFrom (ms : List (List Bytes)) (s : Nat) (hs : 1 ≤ s) (hw : s + (stream ms).length ≤ W64) : WFst (fragFrom s ms) := by
  refine ⟨?_, ?_, ?_, ?_, ?_⟩
  · intro k fa da fb db ha hb'
    have e1 : (fa = .begin ∨ fa = .middle) ↔ Link (fragFrom s ms) k := (RFlow.link_iff ha).symm
    rw [e1]
    obtain ⟨b, hb, h1, h2, e⟩ := (fragFrom_iff ms s k _).1 ha
    obtain ⟨b', hb2, h1', h2', e'⟩ := (fragFrom_iff ms s (k + 1) _).1 hb'
    constructor
    · intro hl
      obtain ⟨c, hc, c1, c2⟩ := link_inv hl
      have : c = b' := by
        rcases blocks_disj hc hb2 with h | h | h
        · exact h
        · omega
        · omega
      subst this
      cases e'
      rw [mark, if_neg (by omega), if_neg (by omega)]
      by_cases e3 : k + 1 - c.1 + 1 = c.2.length
      · rw [if_pos e3]; exact .inr rfl
      · rw [if_neg e3]; exact .inl rfl
    · intro hf
      have hi : k + 1 - b'.1 ≠ 0 := by
        intro e0
        cases e'
        rw [e0, mark] at hf
        by_cases e1 : b'.2.length = 1
        · rw [if_pos e1] at hf; simp at hf
        · rw [if_neg e1, if_pos rfl] at hf; simp at hf
      have := link_at hb2 (k - b'.1) (by omega)
      have e0 : b'.1 + (k - b'.1) = k := by omega
      rw [e0] at this
      exact this
  · intro k x hx
    rw [fragFrom] at hx
    by_cases h : k < s
    · omega
    · rw [if_neg h] at hx
      have := (List.getElem?_eq_some_iff.mp hx).1
      omega
  · intro k f d hx hf
    obtain ⟨b, hb, h1, h2, e⟩ := (fragFrom_iff ms s k _).1 hx
    have hi : k - b.1 ≠ 0 := by
      intro e0
      cases e
      rw [e0, mark] at hf
      by_cases e1 : b.2.length = 1
      · rw [if_pos e1] at hf; simp at hf
      · rw [if_neg e1, if_pos rfl] at hf; simp at hf
    refine ⟨k - 1, by omega, ?_⟩
    have := link_at hb (k - 1 - b.1) (by omega)
    have e0 : b.1 + (k - 1 - b.1) = k - 1 := by omega
    rw [e0] at this
    exact this
  · intro k hl
    obtain ⟨b, hb, h1, h2⟩ := link_inv hl
    have := fragFrom_at hb (k + 1 - b.1) (by omega)
    have e0 : b.1 + (k + 1 - b.1) = k + 1 := by omega
    rw [e0] at this
    exact ⟨_, this⟩
  · rw [fragFrom, if_pos (by omega)]

theorem isMsg_block {ms : List (List Bytes)} {s : Nat} {b : Nat × List Bytes} (hb : b ∈ blocks s ms) (hn : b.2 ≠ []) :
    IsMsg (fragFrom s ms) b.1 (b.1 + b.2.length - 1) := by
  have hl : 0 < b.2.length := List.length_pos_iff.mpr hn
  by_cases e : b.2.length = 1
  · left
    refine ⟨by omega, b.2[0], ?_⟩
    have := fragFrom_at hb 0 hl
    simp only [mark, e, Nat.add_zero, if_true] at this
    exact this
  · right
    refine ⟨by omega, ⟨b.2[0], ?_⟩, ⟨b.2[b.2.length - 1], ?_⟩, ?_⟩
    · have := fragFrom_at hb 0 hl
      rw [mark, if_neg e, if_pos rfl] at this
      exact this
    · have := fragFrom_at hb (b.2.length - 1) (by omega)
      rw [mark, if_neg e, if_neg (by omega), if_pos (by omega)] at this
      have e0 : b.1 + (b.2.length - 1) = b.1 + b.2.length - 1 := by omega
      rw [e0] at this
      exact this
    · intro k h1 h2
      have := link_at hb (k - b.1) (by omega)
      have e0 : b.1 + (k - b.1) = k := by omega
      rw [e0] at this
      exact this

theorem isMsg_unique {st : RFlow.St} {lo hi hi' : Nat} (h : IsMsg st lo hi) (h' : IsMsg st lo hi') : hi = hi' := by
  have key : ∀ {a b : Nat}, IsMsg st lo a → IsMsg st lo b → ¬ a < b := by
    intro a b ha hb hlt
    have hl := ha.le
    rcases hb with ⟨e, _⟩ | ⟨_, _, _, h4⟩
    · omega
    · exact ha.not_link (h4 a hl hlt)
  have := key h h'
  have := key h' h
  omega

theorem isMsg_inv {ms : List (List Bytes)} {s lo hi : Nat} (hne : ∀ m ∈ ms, m ≠ []) (h : IsMsg (fragFrom s ms) lo hi) :
    ∃ b ∈ blocks s ms, b.1 = lo ∧ b.1 + b.2.length - 1 = hi := by
  obtain ⟨f, d, hst, hf⟩ : ∃ f d, fragFrom s ms lo = some (f, d) ∧ (f = .whole ∨ f = .begin) := by
    rcases h with ⟨_, d, h⟩ | ⟨_, ⟨d, h⟩, _⟩
    · exact ⟨_, _, h, .inl rfl⟩
    · exact ⟨_, _, h, .inr rfl⟩
  obtain ⟨b, hb, h1, h2, e⟩ := (fragFrom_iff ms s lo _).1 hst
  have hbne : b.2 ≠ [] := List.length_pos_iff.mp (by omega)
  have e0 : lo = b.1 := by
    have : lo - b.1 = 0 := by
      cases e
      rw [mark] at hf
      by_cases e1 : b.2.length = 1
      · omega
      · by_cases e2 : lo - b.1 = 0
        · exact e2
        · rw [if_neg e1, if_neg e2] at hf
          by_cases e3 : lo - b.1 + 1 = b.2.length
          · rw [if_pos e3] at hf; simp at hf
          · rw [if_neg e3] at hf; simp at hf
    omega
  refine ⟨b, hb, e0.symm, ?_⟩
  rw [e0] at h
  exact isMsg_unique (isMsg_block hb hbne) h

theorem content_block {ms : List (List Bytes)} {s : Nat} {b : Nat × List Bytes} (hb : b ∈ blocks s ms) (hn : b.2 ≠ []) :
    content (fragFrom s ms) b.1 (b.1 + b.2.length - 1) = b.2.flatten := by
  have hl : 0 < b.2.length := List.length_pos_iff.mpr hn
  have e : b.1 + b.2.length - 1 + 1 - b.1 = b.2.length := by omega
  rw [content, e, List.flatMap_def]
  congr 1
  apply List.ext_getElem
  · simp
  · intro i h1 h2
    rw [List.getElem_map, List.getElem_range', payload]
    have : b.1 + 1 * i = b.1 + i := by omega
    rw [this, fragFrom_at hb i h2]
    rfl

theorem numbered_eq (ms : List (List Bytes)) (s : Nat) : numbered s ms = (blocks s ms).map (fun b => ⟨b.2.flatten, b.1, b.2.length⟩) := by
  induction ms generalizing s with
  | nil => rfl
  | cons m ms ih => rw [numbered, blocks, List.map_cons, ih]

theorem blocks_mem {ms : List (List Bytes)} {s : Nat} {b : Nat × List Bytes} (hb : b ∈ blocks s ms) : b.2 ∈ ms := by
  induction ms generalizing s with
  | nil => simp [blocks] at hb
  | cons m ms ih =>
    rw [blocks, List.mem_cons] at hb
    rcases hb with rfl | hb
    · simp
    · exact List.mem_cons_of_mem _ (ih hb)

/-- the messages of a stream are the complete runs of marks -/
theorem mem_messages {ms : List (List Bytes)} (hne : ∀ m ∈ ms, m ≠ []) (m : Msg) :
    m ∈ messages ms ↔ IsMsg (fragFrom 1 ms) m.sn m.last ∧ m.count = m.last + 1 - m.sn ∧ m.data = content (fragFrom 1 ms) m.sn m.last := by
  rw [messages, numbered_eq, List.mem_map]
  constructor
  · rintro ⟨b, hb, rfl⟩
    have hbne := hne _ (blocks_mem hb)
    have hl : 0 < b.2.length := List.length_pos_iff.mpr hbne
    refine ⟨isMsg_block hb hbne, ?_, (content_block hb hbne).symm⟩
    simp only [Msg.last]; omega
  · rintro ⟨h1, h2, h3⟩
    obtain ⟨b, hb, e1, e2⟩ := isMsg_inv hne h1
    have hbne := hne _ (blocks_mem hb)
    have hl : 0 < b.2.length := List.length_pos_iff.mpr hbne
    refine ⟨b, hb, ?_⟩
    rw [← e1, ← e2, content_block hb hbne] at h3
    cases m with
    | mk d sn c =>
      simp only [Msg.last] at *
      simp only [Msg.mk.injEq]
      refine ⟨h3.symm, e1, by omega⟩

theorem messages_sorted {ms : List (List Bytes)} (hne : ∀ m ∈ ms, m ≠ []) : (messages ms).Pairwise (fun a b => a.last < b.sn) := by
  rw [messages, numbered_eq, List.pairwise_map]
  have hall : ∀ b ∈ blocks 1 ms, 0 < b.2.length := fun b hb => List.length_pos_iff.mpr (hne _ (blocks_mem hb))
  have h1 : ∀ b ∈ blocks 1 ms, 1 ≤ b.1 := blocks_ge ms 1
  have hs := blocks_sorted ms 1
  generalize blocks 1 ms = l at *
  induction l with
  | nil => exact List.Pairwise.nil
  | cons a l ih =>
    rw [List.pairwise_cons] at hs ⊢
    refine ⟨fun b hb => ?_, ih (fun b hb => hall b (by simp [hb])) (fun b hb => h1 b (by simp [hb])) hs.2⟩
    have := hs.1 b hb
    have := hall a (by simp)
    have := h1 a (by simp)
    simp only [Msg.last]; omega

end Spec
end Rtmfp
