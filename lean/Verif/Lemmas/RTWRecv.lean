import Verif.Spec.RTWebSocket

/-!
# Receiving flows: what one flow has heard, and what it has passed on
-/

namespace Rtmfp.RTWS

open Rtmfp.Spec.Flows

/-- One receiving flow with what has been seen of it. -/
structure Rw where
  f : RFlow
  heard : List Msg
  given : List (Nat × Bytes)
  endings : Nat

/-- What is in the list, as the application would see it. -/
def inBuf (l : List RMsg) : List (Nat × Bytes) := (l.filter (·.whole)).map fun m => (m.num, m.bytes)

/-- The unfinished message, if any. -/
def partOf (l : List RMsg) : Option (Nat × Bytes) :=
  match l.getLast? with
  | .some m => if m.whole then .none else .some (m.num, m.bytes)
  | .none => .none

/-- How much is in the list. -/
def total (l : List RMsg) : Nat := (l.map fun m => m.bytes.length).sum

/-- The books of a receiving flow are right; `u` says that the connection hasn't been closed. -/
structure RGood (u : Bool) (v : Rw) : Prop where
  out : (listen v.heard).out = v.given ++ inBuf v.f.buf
  init : ∀ m ∈ v.f.buf.dropLast, m.whole = true
  going : v.f.ended = false → (listen v.heard).over = false ∧ v.f.next = (listen v.heard).next ∧ partOf v.f.buf = (listen v.heard).part
  ended : v.f.ended = true → ∀ m ∈ v.f.buf, m.whole = true
  user : u = true → v.f.ended = (listen v.heard).over
  size : v.f.size = total v.f.buf
  once : v.endings ≤ 1
  told : v.endings = 1 → v.f.told = true
  fin : u = true → v.endings = 1 → v.f.ended = true ∧ v.f.buf = []
  fresh : v.f.up = true → v.f.yes = false → v.f.buf = [] ∧ v.f.ended = false

theorem inBuf_append (a b : List RMsg) : inBuf (a ++ b) = inBuf a ++ inBuf b := by simp [inBuf]

theorem total_append (a b : List RMsg) : total (a ++ b) = total a + total b := by simp [total]

theorem snoc_cases (l : List RMsg) : l = [] ∨ ∃ a m, l = a ++ [m] := by
  rcases List.eq_nil_or_concat l with h | ⟨a, m, h⟩
  · exact Or.inl h
  · exact Or.inr ⟨a, m, by simpa using h⟩

theorem listen_more (ms : List Msg) (m : Msg) : listen (ms ++ [m]) = hear (listen ms) m := by simp [listen]

/-- What `onData` does to the list. -/
def addData (f : RFlow) (more : Bool) (b : Bytes) : RFlow :=
  match f.buf.getLast? with
  | .some m => if m.whole then { f with buf := f.buf ++ [⟨f.next, b, !more⟩], next := f.next + 1 } else
      { f with buf := f.buf.dropLast ++ [⟨m.num, m.bytes ++ b, !more⟩] }
  | .none => { f with buf := [⟨f.next, b, !more⟩], next := f.next + 1 }

/-- What `onDataAbandon` does to the list. -/
def cutData (f : RFlow) (extra : Nat) : RFlow :=
  match f.buf.getLast? with
  | .some m => if m.whole then { f with next := f.next + (extra + 1) } else
      { f with size := f.size - m.bytes.length, buf := f.buf.dropLast, next := f.next + extra }
  | .none => { f with next := f.next + (extra + 1) }

theorem addData_same (f : RFlow) (more : Bool) (b : Bytes) : (addData f more b).ended = f.ended ∧ (addData f more b).up = f.up ∧
    (addData f more b).yes = f.yes ∧ (addData f more b).told = f.told ∧ (addData f more b).id = f.id ∧ (addData f more b).size = f.size ∧
    (addData f more b).pending = f.pending ∧ (addData f more b).paused = f.paused := by
  unfold addData
  split
  · split <;> exact ⟨rfl, rfl, rfl, rfl, rfl, rfl, rfl, rfl⟩
  · exact ⟨rfl, rfl, rfl, rfl, rfl, rfl, rfl, rfl⟩

theorem cutData_same (f : RFlow) (n : Nat) : (cutData f n).ended = f.ended ∧ (cutData f n).up = f.up ∧
    (cutData f n).yes = f.yes ∧ (cutData f n).told = f.told ∧ (cutData f n).id = f.id ∧
    (cutData f n).pending = f.pending ∧ (cutData f n).paused = f.paused := by
  unfold cutData
  split
  · split <;> exact ⟨rfl, rfl, rfl, rfl, rfl, rfl, rfl⟩
  · exact ⟨rfl, rfl, rfl, rfl, rfl, rfl, rfl⟩

/-- A piece of a message arrives. -/
theorem RGood.data {u : Bool} {v : Rw} (h : RGood u v) (he : v.f.ended = false) (hy : v.f.up = true → v.f.yes = true) (n id : Nat)
    (more : Bool) (b : Bytes) : RGood u { v with
      f := addData { v.f with got := n, size := v.f.size + b.length } more b
      heard := v.heard ++ [.data id more b] } := by
  obtain ⟨s1, s2, s3, s4, _, s6, _, _⟩ := addData_same { v.f with got := n, size := v.f.size + b.length } more b
  obtain ⟨g1, g2, g3⟩ := h.going he
  have hk : ∀ (P : RFlow → Prop), (∀ a m, v.f.buf = a ++ [m] → m.whole = false →
      P { v.f with got := n, size := v.f.size + b.length, buf := a ++ [⟨m.num, m.bytes ++ b, !more⟩] }) →
      ((∀ m ∈ v.f.buf, m.whole = true) → P { v.f with got := n, size := v.f.size + b.length, buf := v.f.buf ++ [⟨v.f.next, b, !more⟩], next := v.f.next + 1 }) →
      P (addData { v.f with got := n, size := v.f.size + b.length } more b) := by
    intro P h1 h2
    rcases snoc_cases v.f.buf with hb | ⟨a, m, hb⟩
    · simp only [addData, hb, List.getLast?_nil]
      have := h2 (by simp [hb])
      simpa [hb] using this
    · have hw := h.init
      simp only [hb, List.dropLast_concat] at hw
      simp only [addData, hb, List.getLast?_append, List.getLast?_singleton, Option.some_or]
      cases hm : m.whole with
      | true =>
        simp only [if_true]
        have := h2 (by
          intro x hx
          simp only [hb, List.mem_append, List.mem_singleton] at hx
          rcases hx with hx | hx
          · exact hw x hx
          · subst hx; exact hm)
        rw [hb] at this
        exact this
      | false =>
        simp only [Bool.false_eq_true, if_false, List.dropLast_concat]
        exact h1 a m hb hm
  have hl := listen_more v.heard (.data id more b)
  simp only [hear] at hl
  refine ⟨?_, ?_, ?_, ?_, ?_, ?_, h.once, ?_, ?_, ?_⟩
  · simp only [hl]
    refine hk (fun f => ((listen v.heard).piece more b).out = v.given ++ inBuf f.buf) ?_ ?_
    · intro a m hb hm
      have hp : (listen v.heard).part = .some (m.num, m.bytes) := by rw [← g3]; simp [partOf, hb, hm]
      have ho := h.out
      rw [hb, inBuf_append] at ho
      cases more <;> simp_all [Ear.piece, inBuf]
    · intro hw
      have hp : (listen v.heard).part = .none := by
        rw [← g3]
        rcases snoc_cases v.f.buf with hb | ⟨a, m, hb⟩
        · simp [partOf, hb]
        · have := hw m (by simp [hb]); simp [partOf, hb, this]
      have ho := h.out
      dsimp only
      rw [inBuf_append]
      cases more <;> simp_all [Ear.piece, inBuf]
  · refine hk (fun f => ∀ m ∈ f.buf.dropLast, m.whole = true) ?_ ?_
    · intro a m hb _
      have hw := h.init
      simp only [hb, List.dropLast_concat] at hw ⊢
      exact hw
    · intro hw
      simpa using hw
  · intro _
    simp only [hl]
    refine hk (fun f => ((listen v.heard).piece more b).over = false ∧ f.next = ((listen v.heard).piece more b).next ∧
      partOf f.buf = ((listen v.heard).piece more b).part) ?_ ?_
    · intro a m hb hm
      have hp : (listen v.heard).part = .some (m.num, m.bytes) := by rw [← g3]; simp [partOf, hb, hm]
      cases more <;> simp [Ear.piece, hp, g1, g2, partOf]
    · intro hw
      have hp : (listen v.heard).part = .none := by
        rw [← g3]
        rcases snoc_cases v.f.buf with hb | ⟨a, m, hb⟩
        · simp [partOf, hb]
        · have := hw m (by simp [hb]); simp [partOf, hb, this]
      cases more <;> simp [Ear.piece, hp, g1, g2, partOf]
  · intro hc; simp only [s1] at hc; simp [he] at hc
  · intro hu
    simp only [s1, hl]
    have h1 := h.user hu
    have h2 : ((listen v.heard).piece more b).over = (listen v.heard).over := by
      unfold Ear.piece
      split <;> split <;> rfl
    rw [h2]; exact h1
  · simp only [s6]
    have hsz := h.size
    refine hk (fun f => v.f.size + b.length = total f.buf) ?_ ?_
    · intro a m hb _
      rw [hb] at hsz
      simp [total] at hsz ⊢; omega
    · intro _
      simp [total] at hsz ⊢; omega
  · intro hc; simp only [s4]; exact h.told hc
  · intro hu hc
    have := (h.fin hu hc).1
    simp [he] at this
  · intro hu hy'
    simp only [s2] at hu
    simp only [s3] at hy'
    have := hy hu
    simp [hy'] at this

/-- Messages are abandoned. -/
theorem RGood.abandon {u : Bool} {v : Rw} (h : RGood u v) (he : v.f.ended = false) (id n : Nat) :
    RGood u { v with f := cutData v.f n, heard := v.heard ++ [.abandon id n] } := by
  obtain ⟨s1, s2, s3, s4, _⟩ := cutData_same v.f n
  obtain ⟨g1, g2, g3⟩ := h.going he
  have hk : ∀ (P : RFlow → Prop), (∀ a m, v.f.buf = a ++ [m] → m.whole = false →
      P { v.f with size := v.f.size - m.bytes.length, buf := a, next := v.f.next + n }) →
      ((∀ m ∈ v.f.buf, m.whole = true) → P { v.f with next := v.f.next + (n + 1) }) → P (cutData v.f n) := by
    intro P h1 h2
    rcases snoc_cases v.f.buf with hb | ⟨a, m, hb⟩
    · simp only [cutData, hb, List.getLast?_nil]
      have := h2 (by simp [hb])
      simpa [hb] using this
    · have hw := h.init
      simp only [hb, List.dropLast_concat] at hw
      simp only [cutData, hb, List.getLast?_append, List.getLast?_singleton, Option.some_or]
      cases hm : m.whole with
      | true =>
        simp only [if_true]
        have := h2 (by
          intro x hx
          simp only [hb, List.mem_append, List.mem_singleton] at hx
          rcases hx with hx | hx
          · exact hw x hx
          · subst hx; exact hm)
        simpa [hb] using this
      | false =>
        simp only [Bool.false_eq_true, if_false, List.dropLast_concat]
        exact h1 a m hb hm
  have hl := listen_more v.heard (.abandon id n)
  simp only [hear] at hl
  have hp2 : ((listen v.heard).skip (n + 1)).out = (listen v.heard).out ∧ ((listen v.heard).skip (n + 1)).over = (listen v.heard).over := by
    unfold Ear.skip; split <;> exact ⟨rfl, rfl⟩
  refine ⟨?_, ?_, ?_, ?_, ?_, ?_, h.once, ?_, ?_, ?_⟩
  · simp only [hl, hp2.1]
    refine hk (fun f => (listen v.heard).out = v.given ++ inBuf f.buf) ?_ ?_
    · intro a m hb hm
      have ho := h.out
      rw [hb, inBuf_append] at ho
      simpa [inBuf, hm] using ho
    · intro _; exact h.out
  · refine hk (fun f => ∀ m ∈ f.buf.dropLast, m.whole = true) ?_ ?_
    · intro a m hb _
      have hw := h.init
      simp only [hb, List.dropLast_concat] at hw
      intro x hx
      exact hw x (List.dropLast_subset _ hx)
    · intro _; exact h.init
  · intro _
    simp only [hl, hp2.2]
    refine hk (fun f => (listen v.heard).over = false ∧ f.next = ((listen v.heard).skip (n + 1)).next ∧
      partOf f.buf = ((listen v.heard).skip (n + 1)).part) ?_ ?_
    · intro a m hb hm
      have hp : (listen v.heard).part = .some (m.num, m.bytes) := by rw [← g3]; simp [partOf, hb, hm]
      have hw := h.init
      simp only [hb, List.dropLast_concat] at hw
      refine ⟨g1, by simp [Ear.skip, hp, g2], ?_⟩
      simp only [Ear.skip, hp]
      rcases snoc_cases a with ha | ⟨a', m', ha⟩
      · simp [partOf, ha]
      · have := hw m' (by simp [ha]); simp [partOf, ha, this]
    · intro hw
      have hp : (listen v.heard).part = .none := by
        rw [← g3]
        rcases snoc_cases v.f.buf with hb | ⟨a, m, hb⟩
        · simp [partOf, hb]
        · have := hw m (by simp [hb]); simp [partOf, hb, this]
      refine ⟨g1, by simp [Ear.skip, hp, g2], ?_⟩
      rw [g3]; simp [Ear.skip, hp]
  · intro hc; simp only [s1] at hc; simp [he] at hc
  · intro hu
    simp only [s1, hl, hp2.2]; exact h.user hu
  · have hsz := h.size
    refine hk (fun f => f.size = total f.buf) ?_ ?_
    · intro a m hb _
      rw [hb, total_append] at hsz
      simp only [hsz]
      simp [total]
    · intro _; exact hsz
  · intro hc; simp only [s4]; exact h.told hc
  · intro hu hc
    have := (h.fin hu hc).1
    simp [he] at this
  · intro hu hy
    simp only [s2] at hu
    simp only [s3] at hy
    obtain ⟨f1, f2⟩ := h.fresh hu hy
    refine ⟨?_, by simp only [s1]; exact f2⟩
    simp [cutData, f1]

/-- The flow ends: because that was heard, or because the connection is closed. -/
theorem RGood.ends {u : Bool} {v : Rw} (h : RGood u v) (hy : v.f.up = true → v.f.yes = true) (hs : List Msg)
    (ho : (listen hs).out = (listen v.heard).out) (hu : u = true → (listen hs).over = true) (he : u = true → v.f.ended = false) :
    RGood u { v with f := cutData { v.f with ended := true } 0, heard := hs } := by
  obtain ⟨s1, s2, s3, s4, _⟩ := cutData_same { v.f with ended := true } 0
  have hk : ∀ (P : RFlow → Prop), (∀ a m, v.f.buf = a ++ [m] → m.whole = false →
      P { v.f with ended := true, size := v.f.size - m.bytes.length, buf := a, next := v.f.next + 0 }) →
      ((∀ m ∈ v.f.buf, m.whole = true) → P { v.f with ended := true, next := v.f.next + (0 + 1) }) → P (cutData { v.f with ended := true } 0) := by
    intro P h1 h2
    rcases snoc_cases v.f.buf with hb | ⟨a, m, hb⟩
    · simp only [cutData, hb, List.getLast?_nil]
      have := h2 (by simp [hb])
      simpa [hb] using this
    · have hw := h.init
      simp only [hb, List.dropLast_concat] at hw
      simp only [cutData, hb, List.getLast?_append, List.getLast?_singleton, Option.some_or]
      cases hm : m.whole with
      | true =>
        simp only [if_true]
        have := h2 (by
          intro x hx
          simp only [hb, List.mem_append, List.mem_singleton] at hx
          rcases hx with hx | hx
          · exact hw x hx
          · subst hx; exact hm)
        simpa [hb] using this
      | false =>
        simp only [Bool.false_eq_true, if_false, List.dropLast_concat]
        exact h1 a m hb hm
  refine ⟨?_, ?_, ?_, ?_, ?_, ?_, h.once, ?_, ?_, ?_⟩
  · simp only [ho]
    refine hk (fun f => (listen v.heard).out = v.given ++ inBuf f.buf) ?_ ?_
    · intro a m hb hm
      have ho := h.out
      rw [hb, inBuf_append] at ho
      simpa [inBuf, hm] using ho
    · intro _; exact h.out
  · refine hk (fun f => ∀ m ∈ f.buf.dropLast, m.whole = true) ?_ ?_
    · intro a m hb _
      have hw := h.init
      simp only [hb, List.dropLast_concat] at hw
      intro x hx
      exact hw x (List.dropLast_subset _ hx)
    · intro _; exact h.init
  · intro hc; simp only [s1] at hc; simp at hc
  · intro _
    refine hk (fun f => ∀ m ∈ f.buf, m.whole = true) ?_ ?_
    · intro a m hb _
      have hw := h.init
      simp only [hb, List.dropLast_concat] at hw
      exact hw
    · intro hw; exact hw
  · intro hu'
    simp only [s1]; exact (hu hu').symm
  · have hsz := h.size
    refine hk (fun f => f.size = total f.buf) ?_ ?_
    · intro a m hb _
      rw [hb, total_append] at hsz
      simp only [hsz]
      simp [total]
    · intro _; exact hsz
  · intro hc; simp only [s4]; exact h.told hc
  · intro hu' hc
    have := (h.fin hu' hc).1
    simp [he hu'] at this
  · intro hu' hy'
    simp only [s2] at hu'
    simp only [s3] at hy'
    have := hy hu'
    simp [hy'] at this

/-- A change that doesn't touch the messages. -/
theorem RGood.ctl {u : Bool} {v : Rw} (h : RGood u v) (f' : RFlow) (h1 : f'.buf = v.f.buf) (h2 : f'.ended = v.f.ended)
    (h3 : f'.next = v.f.next) (h4 : f'.size = v.f.size) (h5 : v.f.told = true → f'.told = true)
    (h6 : f'.up = true → f'.yes = false → v.f.up = true ∧ v.f.yes = false) : RGood u { v with f := f' } where
  out := by simpa [h1] using h.out
  init := by simpa [h1] using h.init
  going := by simpa [h1, h2, h3] using h.going
  ended := by simpa [h1, h2] using h.ended
  user := by simpa [h2] using h.user
  size := by simpa [h1, h4] using h.size
  once := h.once
  told := fun hc => h5 (h.told hc)
  fin := by simpa [h1, h2] using h.fin
  fresh := fun a b => by simpa [h1, h2] using h.fresh (h6 a b).1 (h6 a b).2

/-- A message is passed on. -/
theorem RGood.pass {u : Bool} {v : Rw} (h : RGood u v) (m : RMsg) (rest : List RMsg) (hb : v.f.buf = m :: rest) (hw : m.whole = true) :
    RGood u { v with f := { v.f with buf := rest, size := v.f.size - m.bytes.length }, given := v.given ++ [(m.num, m.bytes)] } := by
  have hd : rest ≠ [] → v.f.buf.dropLast = m :: rest.dropLast := by
    intro hr
    rw [hb]; exact List.dropLast_cons_of_ne_nil hr
  have hp : partOf rest = partOf v.f.buf := by
    rw [hb]
    cases rest with
    | nil => simp [partOf, hw]
    | cons x l => simp [partOf]
  refine ⟨?_, ?_, ?_, ?_, h.user, ?_, h.once, h.told, ?_, ?_⟩
  · have := h.out
    rw [this, hb]; simp [inBuf, hw]
  · intro x hx
    dsimp only at hx
    cases hr : rest with
    | nil => simp [hr] at hx
    | cons y l =>
      refine h.init x ?_
      rw [hd (by simp [hr])]; exact List.mem_cons_of_mem _ hx
  · intro he
    rw [hp]; exact h.going he
  · intro he x hx
    exact h.ended he x (by rw [hb]; exact List.mem_cons_of_mem _ hx)
  · have := h.size
    dsimp only
    rw [this, hb]; simp [total]
  · intro hu hc
    have := (h.fin hu hc).2
    simp [hb] at this
  · intro hu hy
    have := (h.fresh hu hy).1
    simp [hb] at this

/-- The reader is told of the end. -/
theorem RGood.tells {u : Bool} {v : Rw} (h : RGood u v) (ht : v.f.told = false) (he : u = true → v.f.ended = true ∧ v.f.buf = []) :
    RGood u { v with f := { v.f with told := true }, endings := v.endings + 1 } := by
  have h0 : v.endings = 0 := by
    have h1 := h.once
    have h2 : v.endings ≠ 1 := fun hc => by have := h.told hc; simp [ht] at this
    omega
  refine ⟨h.out, h.init, h.going, h.ended, h.user, h.size, by simp [h0], fun _ => rfl, fun hu _ => he hu, h.fresh⟩

end Rtmfp.RTWS
