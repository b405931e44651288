import Verif.Spec.RTWebSocket

/-!
# Sending flows: what one flow has said and what it owes

The books of one sending flow against what has been seen of it.
-/

namespace Rtmfp.RTWS

open Rtmfp.Spec.Flows

/-- One sending flow with what has been seen of it. -/
structure Vw where
  f : SFlow
  mid : Bool
  wire : List Msg
  wrote : List Bytes
  told : List (Nat × Bool)

/-- `carried`, from its parts. -/
def carriedOf (told : List (Nat × Bool)) (wrote : List Bytes) : List (Nat × Bytes) :=
  told.filterMap fun p => if p.2 then .some (p.1, (wrote[p.1 - 1]?).getD []) else .none

/-- What is known about the flow by one who listens, while `lost` messages are yet to be reported
abandoned: `p` messages have left the list, `front` is the first that hasn't. -/
def Tune (e : Ear) (lost p : Nat) (front : Option WMsg) : Prop :=
  match lost with
  | 0 => match front with
    | .none => e.part = .none ∧ e.next = p + 1
    | .some m =>
      if m.fin then e.part = .none ∧ e.next = p + 2
      else if m.off = 0 then e.part = .none ∧ e.next = p + 1
      else e.part = .some (p + 1, m.bytes.take m.off) ∧ e.next = p + 2
  | l + 1 => (∀ m, front = .some m → m.off = 0 ∧ m.fin = false) ∧
      ((e.part = .none ∧ e.next + (l + 1) = p + 1) ∨ (∃ k b, e.part = .some (k, b) ∧ e.next = k + 1 ∧ k + (l + 1) = p + 1))

/-- The messages on the wire are of this flow, begin with its opening, and end with its closing. -/
def Framed (f : SFlow) (wire : List Msg) : Prop :=
  match f.opening with
  | .some m => wire = [] ∧ ∃ ret about, m = .opens f.id ret about
  | .none => ∃ ret about body, wire = .opens f.id ret about :: (body ++ if f.shut then [.closes f.id] else []) ∧
      ∀ m ∈ body, (∃ more b, m = .data f.id more b) ∨ ∃ n, m = .abandon f.id n

/-- The books are right. -/
structure Good (v : Vw) : Prop where
  count : v.f.count = v.wrote.length
  fits : v.f.buf.length ≤ v.wrote.length
  bytes : v.f.buf.map WMsg.bytes = v.wrote.drop (v.wrote.length - v.f.buf.length)
  nums : v.f.buf.map WMsg.num = List.range' (v.wrote.length - v.f.buf.length + 1) v.f.buf.length
  later : ∀ m ∈ v.f.buf.tail, m.off = 0 ∧ m.fin = false
  front : ∀ m, v.f.buf.head? = .some m → m.off ≤ m.bytes.length ∧ (m.off = m.bytes.length → m.fin = false → m.off = 0)
  mid : v.mid = true → v.f.buf ≠ [] ∧ ∀ m, v.f.buf.head? = .some m → m.fin = false
  told : v.told.map (·.1) = List.range' 1
    (v.wrote.length - v.f.buf.length + if v.mid = true ∨ (∃ m, v.f.buf.head? = .some m ∧ m.fin = true) then 1 else 0)
  out : (listen v.wire).out = carriedOf v.told v.wrote
  over : (listen v.wire).over = v.f.shut
  tune : v.f.shut = false → Tune (listen v.wire) v.f.lost (v.wrote.length - v.f.buf.length) v.f.buf.head?
  framed : Framed v.f v.wire
  early : v.f.opening.isSome → v.f.shut = false
  shut : v.f.shut = true → v.f.up = false ∧ v.f.buf = [] ∧ v.f.lost = 0

theorem listen_snoc (ms : List Msg) (m : Msg) : listen (ms ++ [m]) = hear (listen ms) m := by
  simp [listen]

theorem carriedOf_snoc (t : List (Nat × Bool)) (p : Nat × Bool) (w : List Bytes) :
    carriedOf (t ++ [p]) w = carriedOf t w ++ (if p.2 then [(p.1, (w[p.1 - 1]?).getD [])] else []) := by
  unfold carriedOf
  rw [List.filterMap_append]
  cases h : p.2 <;> simp [h]

theorem carriedOf_write (t : List (Nat × Bool)) (w : List Bytes) (b : Bytes)
    (h : ∀ p ∈ t, p.1 - 1 < w.length) : carriedOf t (w ++ [b]) = carriedOf t w := by
  unfold carriedOf
  induction t with
  | nil => rfl
  | cons p t ih =>
    have h1 : p.1 - 1 < w.length := h p (by simp)
    have h2 := ih (fun q hq => h q (by simp [hq]))
    simp only [List.filterMap_cons, h2, List.getElem?_append_left h1]

/-- What doesn't touch messages, opening and closing leaves the books right. -/
theorem Good.ctl {v : Vw} (h : Good v) (f' : SFlow) (h1 : f'.id = v.f.id) (h2 : f'.buf = v.f.buf)
    (h3 : f'.count = v.f.count) (h4 : f'.lost = v.f.lost) (h5 : f'.opening = v.f.opening)
    (h6 : f'.shut = v.f.shut) (h7 : v.f.up = false → f'.up = false) : Good { v with f := f' } where
  count := by simpa [h3] using h.count
  fits := by simpa [h2] using h.fits
  bytes := by simpa [h2] using h.bytes
  nums := by simpa [h2] using h.nums
  later := by simpa [h2] using h.later
  front := by simpa [h2] using h.front
  mid := by simpa [h2] using h.mid
  told := by simpa [h2] using h.told
  out := h.out
  over := by simpa [h6] using h.over
  tune := by simpa [h2, h4, h6] using h.tune
  framed := by
    have := h.framed
    unfold Framed at this ⊢
    simpa [h5, h1, h6] using this
  early := by simpa [h5, h6] using h.early
  shut := by
    intro hs
    have hs' : v.f.shut = true := by simpa [h6] using hs
    obtain ⟨a, b, c⟩ := h.shut hs'
    exact ⟨h7 a, by simpa [h2] using b, by simpa [h4] using c⟩

theorem Good.told_lt {v : Vw} (h : Good v) : ∀ p ∈ v.told, 1 ≤ p.1 ∧ p.1 - 1 < v.wrote.length := by
  intro p hp
  have h1 : p.1 ∈ v.told.map (·.1) := List.mem_map.2 ⟨p, hp, rfl⟩
  rw [h.told, List.mem_range'_1] at h1
  have h2 := h.fits
  have h3 : (if v.mid = true ∨ (∃ m, v.f.buf.head? = .some m ∧ m.fin = true) then 1 else 0) ≤ v.f.buf.length := by
    split
    · rename_i hc
      rcases hc with hc | ⟨m, hm, _⟩
      · have := (h.mid hc).1
        cases hb : v.f.buf with
        | nil => exact absurd hb this
        | cons a l => simp
      · cases hb : v.f.buf with
        | nil => simp [hb] at hm
        | cons a l => simp
    · omega
  omega

theorem Good.write {v : Vw} (h : Good v) (hu : v.f.up = true) (b : Bytes) :
    Good { v with
      f := { v.f with buf := v.f.buf ++ [⟨v.f.count + 1, b, 0, false⟩], count := v.f.count + 1 }
      wrote := v.wrote ++ [b] } := by
  have hf := h.fits
  have hp : (v.wrote ++ [b]).length - (v.f.buf ++ [(⟨v.f.count + 1, b, 0, false⟩ : WMsg)]).length
      = v.wrote.length - v.f.buf.length := by simp
  have hh : (v.f.buf ++ [(⟨v.f.count + 1, b, 0, false⟩ : WMsg)]).head? =
      if v.f.buf = [] then .some ⟨v.f.count + 1, b, 0, false⟩ else v.f.buf.head? := by
    cases v.f.buf <;> simp
  have hns : v.f.shut = false := by
    cases hs : v.f.shut with
    | false => rfl
    | true => have := (h.shut hs).1; simp [hu] at this
  refine ⟨?_, ?_, ?_, ?_, ?_, ?_, ?_, ?_, ?_, ?_, ?_, ?_, ?_, ?_⟩
  · simp [h.count]
  · simpa using hf
  · simp only [hp]
    rw [List.map_append, h.bytes, List.drop_append_of_le_length (by omega)]; rfl
  · simp only [hp]
    rw [List.map_append, h.nums]
    simp only [List.map_cons, List.map_nil, List.length_append, List.length_cons, List.length_nil]
    rw [List.range'_concat]
    simp [h.count]; omega
  · intro m hm
    cases hb : v.f.buf with
    | nil => simp [hb] at hm
    | cons a l =>
      simp only [hb, List.cons_append, List.tail_cons, List.mem_append, List.mem_singleton] at hm
      rcases hm with hm | hm
      · exact h.later m (by simp [hb, hm])
      · subst hm; simp
  · intro m hm
    simp only [hh] at hm
    split at hm
    · simp at hm; subst hm; simp
    · exact h.front m hm
  · intro hm
    obtain ⟨h1, h2⟩ := h.mid hm
    refine ⟨by simp, ?_⟩
    intro m hm'
    simp only [hh, if_neg h1] at hm'
    exact h2 m hm'
  · simp only [hp, hh]
    rw [h.told]
    congr 1
    by_cases hb : v.f.buf = []
    · simp [hb]
    · simp [hb]
  · have := carriedOf_write v.told v.wrote b (fun p hp => (h.told_lt p hp).2)
    simp [this, h.out]
  · exact h.over
  · intro _
    have ht := h.tune hns
    simp only [hp, hh]
    by_cases hb : v.f.buf = []
    · simp only [hb, if_true]
      simp only [hb, List.head?_nil] at ht
      cases hl : v.f.lost with
      | zero => simp only [hl, Tune] at ht ⊢; simpa [hb] using ht
      | succ l => simp only [hl, Tune] at ht ⊢; exact ⟨by simp, by simpa [hb] using ht.2⟩
    · simp only [if_neg hb]; exact ht
  · exact h.framed
  · exact h.early
  · intro hs; simp [hns] at hs

theorem Good.dropNote {v : Vw} (h : Good v) (m : WMsg) (rest : List WMsg) (hb : v.f.buf = m :: rest)
    (hm : v.mid = false) (hfin : m.fin = false) : Good { v with mid := true, told := v.told ++ [(m.num, false)] } := by
  have hn := h.nums
  simp only [hb, List.map_cons, List.length_cons, List.range'_succ, List.cons.injEq] at hn
  refine ⟨h.count, h.fits, h.bytes, h.nums, h.later, h.front, ?_, ?_, ?_, h.over, h.tune, h.framed, h.early, h.shut⟩
  · intro _; simp [hb, hfin]
  · have := h.told
    have hh : ¬ (v.mid = true ∨ (∃ m, v.f.buf.head? = .some m ∧ m.fin = true)) := by simp [hm, hb, hfin]
    rw [if_neg hh] at this
    simp only [List.map_append, this, true_or, if_true]
    rw [List.range'_concat]
    simp [hb, hn.1]; omega
  · simp [carriedOf_snoc, h.out]

theorem Good.dropRemove {v : Vw} (h : Good v) (hm : v.mid = true) :
    Good { v with mid := false, f := { v.f with buf := v.f.buf.tail, lost := v.f.lost + 1 } } := by
  obtain ⟨h1, h2⟩ := h.mid hm
  cases hb : v.f.buf with
  | nil => exact absurd hb h1
  | cons m rest =>
    have hfin := h2 m (by simp [hb])
    have hf := h.fits
    simp only [hb, List.length_cons] at hf
    have hp : v.wrote.length - rest.length = v.wrote.length - (m :: rest).length + 1 := by simp; omega
    have hns : v.f.shut = false := by
      cases hs : v.f.shut with
      | false => rfl
      | true => have := (h.shut hs).2.1; simp [hb] at this
    refine ⟨h.count, by simp; omega, ?_, ?_, ?_, ?_, by simp, ?_, h.out, h.over, ?_, h.framed, h.early, ?_⟩
    · have := h.bytes
      simp only [hb, List.map_cons] at this
      simp only [List.tail_cons, hp]
      rw [← List.drop_drop, ← this]; simp
    · have := h.nums
      simp only [hb, List.map_cons, List.length_cons, List.range'_succ, List.cons.injEq] at this
      simp only [List.tail_cons, hp, this.2, List.length_cons]
    · intro x hx
      have := h.later x (by simp only [hb, List.tail_cons]; exact List.mem_of_mem_tail (by simpa using hx))
      exact this
    · intro x hx
      have := h.later x (by
        simp only [hb, List.tail_cons]
        exact List.mem_of_mem_head? (by simpa using hx))
      simp [this.1]
    · have := h.told
      simp only [hm, true_or, if_true] at this
      rw [this]
      have h3 : ¬ (∃ x, rest.head? = .some x ∧ x.fin = true) := by
        rintro ⟨x, hx, hx'⟩
        have := (h.later x (by simp only [hb, List.tail_cons]; exact List.mem_of_mem_head? hx)).2
        simp [hx'] at this
      simp only [List.tail_cons, Bool.false_eq_true, false_or, if_neg h3, hp, hb, Nat.add_zero]
    · intro _
      have ht := h.tune hns
      simp only [hb, List.head?_cons] at ht
      simp only [List.tail_cons, hp]
      have hr : ∀ x, rest.head? = .some x → x.off = 0 ∧ x.fin = false := by
        intro x hx
        exact h.later x (by simp only [hb, List.tail_cons]; exact List.mem_of_mem_head? hx)
      generalize hq : v.wrote.length - (m :: rest).length = q at ht ⊢
      cases hl : v.f.lost with
      | zero =>
        simp only [hl, Tune, hfin] at ht
        refine ⟨hr, ?_⟩
        simp only [Bool.false_eq_true, if_false] at ht
        split at ht
        · left; exact ⟨ht.1, by simp only [hl] at *; omega⟩
        · right; exact ⟨q + 1, _, ht.1, by omega, by (simp only [hl] at *) <;> omega⟩
      | succ l =>
        simp only [hl, Tune] at ht
        refine ⟨hr, ?_⟩
        rcases ht.2 with ⟨a, b⟩ | ⟨k, b, a, c, d⟩
        · left; exact ⟨a, by omega⟩
        · right; exact ⟨k, b, a, c, by omega⟩
    · intro hs; simp [hns] at hs

theorem Good.sayOpen {v : Vw} (h : Good v) (m : Msg) (ho : v.f.opening = .some m) :
    Good { v with wire := v.wire ++ [m], f := { v.f with opening := .none } } := by
  have hfr := h.framed
  simp only [Framed, ho] at hfr
  obtain ⟨hw, ret, about, rfl⟩ := hfr
  have hs := h.early (by simp [ho])
  have hl : listen (v.wire ++ [.opens v.f.id ret about]) = listen v.wire := by rw [listen_snoc]; rfl
  refine ⟨h.count, h.fits, h.bytes, h.nums, h.later, h.front, h.mid, h.told, by simpa [hl] using h.out,
    by simpa [hl] using h.over, by simpa [hl] using h.tune, ?_, by simp, h.shut⟩
  simp only [Framed]
  exact ⟨ret, about, [], by simp [hw, hs], by simp⟩

theorem Framed.body {f f' : SFlow} {w : List Msg} (h : Framed f w) (m : Msg) (ho : f.opening = .none) (hs : f.shut = false)
    (hi : f'.id = f.id) (ho' : f'.opening = .none) (hs' : f'.shut = false)
    (hm : (∃ more b, m = .data f.id more b) ∨ ∃ n, m = .abandon f.id n) : Framed f' (w ++ [m]) := by
  simp only [Framed, ho, hs] at h
  obtain ⟨ret, about, body, h1, h2⟩ := h
  simp only [Framed, ho', hs', hi]
  refine ⟨ret, about, body ++ [m], by simp [h1], ?_⟩
  intro x hx
  simp only [List.mem_append, List.mem_singleton] at hx
  rcases hx with hx | hx
  · exact h2 x hx
  · subst hx; exact hm

theorem Good.sayAbandon {v : Vw} (h : Good v) (hl : 0 < v.f.lost) (ho : v.f.opening = .none) :
    Good { v with wire := v.wire ++ [.abandon v.f.id (v.f.lost - 1)], f := { v.f with lost := 0 } } := by
  have hns : v.f.shut = false := by
    cases hs : v.f.shut with
    | false => rfl
    | true => have := (h.shut hs).2.2; omega
  have ht := h.tune hns
  obtain ⟨l, hl'⟩ : ∃ l, v.f.lost = l + 1 := ⟨v.f.lost - 1, by omega⟩
  simp only [hl', Tune] at ht
  have hh : listen (v.wire ++ [.abandon v.f.id (v.f.lost - 1)]) = (listen v.wire).skip (l + 1) := by
    rw [listen_snoc]; simp [hear, hl']
  have ho2 : ((listen v.wire).skip (l + 1)).out = (listen v.wire).out := by
    unfold Ear.skip; split <;> rfl
  have ho3 : ((listen v.wire).skip (l + 1)).over = (listen v.wire).over := by
    unfold Ear.skip; split <;> rfl
  refine ⟨h.count, h.fits, h.bytes, h.nums, h.later, h.front, h.mid, h.told, by simpa [hh, ho2] using h.out,
    by simpa [hh, ho3] using h.over, ?_, ?_, h.early, by simp [hns]⟩
  · intro _
    simp only [hh]
    have h4 : ((listen v.wire).skip (l + 1)).part = .none ∧
        ((listen v.wire).skip (l + 1)).next = v.wrote.length - v.f.buf.length + 1 := by
      rcases ht.2 with ⟨a, b⟩ | ⟨k, b, a, c, d⟩
      · simp only [Ear.skip, a]; exact ⟨trivial, b⟩
      · simp only [Ear.skip, a]; refine ⟨trivial, ?_⟩; simp only [Nat.add_sub_cancel]; omega
    cases hb : v.f.buf.head? with
    | none => simpa [Tune] using h4
    | some m =>
      have := ht.1 m hb
      simpa [Tune, this.1, this.2] using h4
  · exact Framed.body h.framed _ ho hns rfl ho hns (Or.inr ⟨_, rfl⟩)

theorem Good.sayClose {v : Vw} (h : Good v) (hl : v.f.lost = 0) (hb : v.f.buf = []) (hu : v.f.up = false)
    (hns : v.f.shut = false) (ho : v.f.opening = .none) :
    Good { v with wire := v.wire ++ [.closes v.f.id], f := { v.f with shut := true } } := by
  have hh : listen (v.wire ++ [.closes v.f.id]) = { listen v.wire with over := true, part := .none } := by
    rw [listen_snoc]; rfl
  refine ⟨h.count, h.fits, h.bytes, h.nums, h.later, h.front, h.mid, h.told, by simpa [hh] using h.out,
    by simp [hh], by simp, ?_, by simp [ho], by simp [hl, hb, hu]⟩
  have := h.framed
  simp only [Framed, ho, hns] at this ⊢
  obtain ⟨ret, about, body, h1, h2⟩ := this
  exact ⟨ret, about, body, by simp [h1], h2⟩

theorem Good.more {v : Vw} (h : Good v) (m : WMsg) (rest : List WMsg) (hb : v.f.buf = m :: rest) (hfin : m.fin = false)
    (hl : v.f.lost = 0) (ho : v.f.opening = .none) (n k : Nat) (hn : 0 < n) (hk : m.off + n < m.bytes.length) :
    Good { v with
      wire := v.wire ++ [.data v.f.id true ((m.bytes.drop m.off).take n)]
      f := { v.f with sent := k, buf := { m with off := m.off + n } :: rest } } := by
  have hns : v.f.shut = false := by
    cases hs : v.f.shut with
    | false => rfl
    | true => have := (h.shut hs).2.1; simp [hb] at this
  have ht := h.tune hns
  simp only [hl, hb, List.head?_cons, Tune, hfin, Bool.false_eq_true, if_false] at ht
  have hh := listen_snoc v.wire (.data v.f.id true ((m.bytes.drop m.off).take n))
  simp only [hear] at hh
  have h5 : m.bytes.take (m.off + n) = m.bytes.take m.off ++ (m.bytes.drop m.off).take n := by
    rw [List.take_add]
  have h6 : ((listen v.wire).piece true ((m.bytes.drop m.off).take n)).out = (listen v.wire).out ∧
      ((listen v.wire).piece true ((m.bytes.drop m.off).take n)).over = (listen v.wire).over ∧
      ((listen v.wire).piece true ((m.bytes.drop m.off).take n)).part =
        .some (v.wrote.length - v.f.buf.length + 1, m.bytes.take (m.off + n)) ∧
      ((listen v.wire).piece true ((m.bytes.drop m.off).take n)).next = v.wrote.length - v.f.buf.length + 2 := by
    split at ht
    · rename_i h0
      simp only [Ear.piece, ht.1, if_true, ht.2, hb]
      refine ⟨trivial, trivial, ?_, trivial⟩
      rw [h5, h0]; simp
    · simp only [Ear.piece, ht.1, if_true, ht.2, hb, h5, and_self]
  refine ⟨h.count, by simpa [hb] using h.fits, by simpa [hb] using h.bytes, by simpa [hb] using h.nums,
    by simpa [hb] using h.later, ?_, ?_, ?_, by simpa [hh, h6.1] using h.out, by simpa [hh, h6.2.1] using h.over, ?_, ?_,
    h.early, by simp [hns]⟩
  · intro x hx
    simp at hx; subst hx
    exact ⟨by simp; omega, by simp; omega⟩
  · intro _; simp [hfin]
  · have := h.told
    simp only [hb, List.head?_cons, List.length_cons] at this
    rw [this]
    simp [hfin]
  · intro _
    simp only [hh, hl, List.head?_cons, Tune, hfin, Bool.false_eq_true, if_false]
    rw [if_neg (by omega)]
    have := h6.2.2
    simp only [hb, List.length_cons] at this ⊢
    exact this
  · exact Framed.body h.framed _ ho hns rfl ho hns (Or.inl ⟨_, _, rfl⟩)

theorem Good.doneNote {v : Vw} (h : Good v) (m : WMsg) (rest : List WMsg) (hb : v.f.buf = m :: rest) (hfin : m.fin = false)
    (hmid : v.mid = false) (hl : v.f.lost = 0) (ho : v.f.opening = .none) (n k : Nat) (hk : m.bytes.length ≤ m.off + n) :
    Good { v with
      wire := v.wire ++ [.data v.f.id false ((m.bytes.drop m.off).take n)]
      told := v.told ++ [(m.num, true)]
      f := { v.f with sent := k, buf := { m with off := m.bytes.length, fin := true } :: rest } } := by
  have hns : v.f.shut = false := by
    cases hs : v.f.shut with
    | false => rfl
    | true => have := (h.shut hs).2.1; simp [hb] at this
  have ht := h.tune hns
  simp only [hl, hb, List.head?_cons, Tune, hfin, Bool.false_eq_true, if_false] at ht
  have hh := listen_snoc v.wire (.data v.f.id false ((m.bytes.drop m.off).take n))
  simp only [hear] at hh
  have hfr := h.front m (by simp [hb])
  have h5 : m.bytes = m.bytes.take m.off ++ (m.bytes.drop m.off).take n := by
    rw [List.take_of_length_le (i := n) (by simp; omega), List.take_append_drop]
  have hnum := h.nums
  simp only [hb, List.map_cons, List.length_cons, List.range'_succ, List.cons.injEq] at hnum
  have hby := h.bytes
  have hfit := h.fits
  simp only [hb, List.length_cons] at hfit
  have hw : (v.wrote[m.num - 1]?).getD [] = m.bytes := by
    simp only [hb, List.map_cons, List.length_cons] at hby
    have h8 : v.wrote[v.wrote.length - (rest.length + 1)]? = .some m.bytes := by
      have := congrArg (fun l => l[0]?) hby
      simp only [List.getElem?_cons_zero, List.getElem?_drop, Nat.add_zero] at this
      exact this.symm
    rw [hnum.1, Nat.add_sub_cancel, h8]; rfl
  have h6 : ((listen v.wire).piece false ((m.bytes.drop m.off).take n)).out = (listen v.wire).out ++ [(m.num, m.bytes)] ∧
      ((listen v.wire).piece false ((m.bytes.drop m.off).take n)).over = (listen v.wire).over ∧
      ((listen v.wire).piece false ((m.bytes.drop m.off).take n)).part = .none ∧
      ((listen v.wire).piece false ((m.bytes.drop m.off).take n)).next = v.wrote.length - v.f.buf.length + 2 := by
    split at ht
    · rename_i h0
      simp only [Ear.piece, ht.1, Bool.false_eq_true, if_false, ht.2, hb]
      refine ⟨?_, trivial, trivial, trivial⟩
      have h9 : (m.bytes.drop m.off).take n = m.bytes := by
        conv => rhs; rw [h5]
        simp [h0]
      rw [h9, hnum.1]; simp
    · simp only [Ear.piece, ht.1, Bool.false_eq_true, if_false, ht.2, hb, and_true]
      rw [← h5, hnum.1]; simp
  refine ⟨h.count, by simpa [hb] using h.fits, by simpa [hb] using h.bytes, by simpa [hb] using h.nums,
    by simpa [hb] using h.later, ?_, by simp [hmid], ?_, ?_, by simpa [hh, h6.2.1] using h.over, ?_, ?_,
    h.early, by simp [hns]⟩
  · intro x hx
    simp at hx; subst hx
    simp
  · have := h.told
    have h10 : ¬ (v.mid = true ∨ (∃ m, v.f.buf.head? = .some m ∧ m.fin = true)) := by simp [hmid, hb, hfin]
    rw [if_neg h10] at this
    simp only [List.map_append, this, List.map_cons, List.map_nil, hmid, Bool.false_eq_true, List.head?_cons, false_or]
    rw [if_pos ⟨_, rfl, rfl⟩, List.range'_concat]
    simp [hb, hnum.1]; omega
  · simp only [hh, h6.1, carriedOf_snoc, if_true, hw, h.out]
  · intro _
    simp only [hh, hl, List.head?_cons, Tune, if_true]
    have h7 : ({ m with off := m.bytes.length, fin := true } :: rest).length = v.f.buf.length := by simp [hb]
    rw [h7]
    exact h6.2.2
  · exact Framed.body h.framed _ ho hns rfl ho hns (Or.inl ⟨_, _, rfl⟩)

theorem Good.doneRemove {v : Vw} (h : Good v) (m : WMsg) (rest : List WMsg) (hb : v.f.buf = m :: rest) (hfin : m.fin = true) :
    Good { v with f := { v.f with buf := v.f.buf.tail } } := by
  have hmid : v.mid = false := by
    cases hm : v.mid with
    | false => rfl
    | true => have := (h.mid hm).2 m (by simp [hb]); simp [hfin] at this
  have hf := h.fits
  simp only [hb, List.length_cons] at hf
  have hp : v.wrote.length - rest.length = v.wrote.length - (m :: rest).length + 1 := by simp; omega
  have hns : v.f.shut = false := by
    cases hs : v.f.shut with
    | false => rfl
    | true => have := (h.shut hs).2.1; simp [hb] at this
  have hr : ∀ x, rest.head? = .some x → x.off = 0 ∧ x.fin = false := by
    intro x hx
    exact h.later x (by simp only [hb, List.tail_cons]; exact List.mem_of_mem_head? hx)
  simp only [hb, List.tail_cons]
  refine ⟨h.count, by simp; omega, ?_, ?_, ?_, ?_, by simp [hmid], ?_, h.out, h.over, ?_, h.framed, h.early, ?_⟩
  · have := h.bytes
    simp only [hb, List.map_cons] at this
    simp only [hp]
    rw [← List.drop_drop, ← this]; simp
  · have := h.nums
    simp only [hb, List.map_cons, List.length_cons, List.range'_succ, List.cons.injEq] at this
    simp only [hp, this.2, List.length_cons]
  · intro x hx
    exact h.later x (by simp only [hb, List.tail_cons]; exact List.mem_of_mem_tail (by simpa using hx))
  · intro x hx
    simp [(hr x hx).1]
  · have := h.told
    rw [if_pos (Or.inr ⟨m, by simp [hb], hfin⟩)] at this
    rw [this]
    have h3 : ¬ (∃ x, rest.head? = .some x ∧ x.fin = true) := by
      rintro ⟨x, hx, hx'⟩
      have := (hr x hx).2
      simp [hx'] at this
    simp only [hmid, Bool.false_eq_true, false_or, if_neg h3, hp, hb, Nat.add_zero]
  · intro _
    have ht := h.tune hns
    simp only [hb, List.head?_cons] at ht
    simp only [hp]
    generalize hq : v.wrote.length - (m :: rest).length = q at ht ⊢
    cases hl : v.f.lost with
    | zero =>
      simp only [hl, Tune, hfin, if_true] at ht
      cases hx : rest.head? with
      | none => simp only [Tune]; exact ⟨ht.1, by omega⟩
      | some x => simp only [Tune, (hr x hx).1, (hr x hx).2, Bool.false_eq_true, if_false, if_true]; exact ⟨ht.1, by omega⟩
    | succ l =>
      simp only [hl, Tune] at ht
      have := (ht.1 m rfl).2
      simp [hfin] at this
  · intro hs; simp [hns] at hs

end Rtmfp.RTWS
