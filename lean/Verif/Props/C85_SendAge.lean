import Verif.Lemmas.SendAge
import Verif.Lemmas.SendDemo

/-! # C85: the ages a sending flow reports -/

namespace Rtmfp
open SS

/-- Specification: a part of the message with these fragment numbers is in the buffer of the flow. -/
def Waiting (s : SS) (i a n : Nat) : Prop := ∃ x ∈ (s.flow i).queue, a ≤ x.sn ∧ x.sn < a + n

namespace SS

/-- a receipt is issued once -/
theorem rid_unique {ops : List Op} {s : SS} {evs : List Ev} (h : Exec ops s evs) {o1 o2 : Op} {k : Nat} (h1 : o1 ∈ ops) (h2 : o2 ∈ ops) (r1 : o1.rid = some k) (r2 : o2.rid = some k) : o1 = o2 := by
  induction h with
  | nil => cases h1
  | @snoc ops s evs op t es he ha hs ih =>
    have old : ∀ o ∈ ops, o.rid = some k → issuedBy ops k := fun o ho e => List.mem_map.mpr ⟨o, ho, e⟩
    rcases List.mem_append.mp h1 with h1 | h1
    · rcases List.mem_append.mp h2 with h2 | h2
      · exact ih h1 h2
      · rw [List.mem_singleton.mp h2] at r2
        exact absurd (old o1 h1 r1) (allowed_fresh ha r2)
    · rcases List.mem_append.mp h2 with h2 | h2
      · rw [List.mem_singleton.mp h1] at r1
        exact absurd (old o2 h2 r2) (allowed_fresh ha r1)
      · rw [List.mem_singleton.mp h1, List.mem_singleton.mp h2]

/-- the receipt of a fragment of a message -/
theorem frag_receipt {ops : List Op} {s : SS} {evs : List Ev} (h : Exec ops s evs) {i r a n : Nat} {M : Bytes} (hm : Ev.accepted i r a n M ∈ evs) {x : SFrag} (hx : x ∈ (s.flow i).queue)
    (h1 : a ≤ x.sn) (h2 : x.sn < a + n) : x.receipt = r := by
  obtain ⟨ms, hms⟩ := exec_stream h i
  exact hms.own r a n M hm x hx h1 h2

/-- what the loop answers: the first message of the queue that isn't started -/
theorem unstartedFrom_spec (r : RStore) (now : Int) (q : List SFrag) (hq : Sorted q) :
    (∃ x ∈ q, (r.r x.receipt).started = false ∧ (∀ y ∈ q, (r.r y.receipt).started = false → x.sn ≤ y.sn) ∧ unstartedFrom r now q = now - (r.r x.receipt).origin) ∨
    ((∀ x ∈ q, (r.r x.receipt).started = true) ∧ unstartedFrom r now q = 0) := by
  induction q with
  | nil => exact Or.inr ⟨(fun x h => by cases h), rfl⟩
  | cons f q ih =>
    have hq' := List.pairwise_cons.mp hq
    rw [unstartedFrom]
    cases hf : (r.r f.receipt).started with
    | false =>
      left
      refine ⟨f, List.mem_cons_self, hf, fun y hy _ => ?_, by simp⟩
      rcases List.mem_cons.mp hy with e | hy
      · rw [e]; exact Nat.le_refl _
      · exact Nat.le_of_lt (hq'.1 y hy)
    | true =>
      rw [if_neg (by simp)]
      rcases ih hq'.2 with ⟨x, hx, h1, h2, h3⟩ | ⟨h1, h2⟩
      · left
        refine ⟨x, List.mem_cons_of_mem _ hx, h1, fun y hy hs => ?_, h3⟩
        rcases List.mem_cons.mp hy with e | hy
        · rw [e, hf] at hs; cases hs
        · exact h2 y hy hs
      · right
        refine ⟨fun x hx => ?_, h2⟩
        rcases List.mem_cons.mp hx with e | hx
        · rw [e]; exact hf
        · exact h1 x hx

/-- what is passed over is started -/
theorem unstartedFrom_append (r : RStore) (now : Int) (p q : List SFrag) (h : ∀ x ∈ p, (r.r x.receipt).started = true) : unstartedFrom r now (p ++ q) = unstartedFrom r now q := by
  induction p with
  | nil => rfl
  | cons f p ih =>
    rw [List.cons_append, unstartedFrom, if_neg (by rw [h f List.mem_cons_self]; simp)]
    exact ih (fun x hx => h x (List.mem_cons_of_mem _ hx))

theorem unstartedAge_whole {ops : List Op} {s : SS} {evs : List Ev} (h : Exec ops s evs) (i : Nat) (now : Int) : unstartedAge s i now = unstartedFrom s.receipts now (s.flow i).queue := by
  conv => rhs; rw [← startAt_append (s.flow i).lastName (s.flow i).queue]
  rw [unstartedFrom_append, unstartedAge]
  intro x hx
  refine (exec_ages h).flight i x ?_ (startAt_flight (exec_lined h i) x hx)
  rw [← startAt_append (s.flow i).lastName (s.flow i).queue]
  exact List.mem_append_left _ hx

/-! ## an execution to show that hypotheses can be met -/

/-- Three messages are written, at 5, 9 and 12; a packet has room for the first only. -/
def ageOps : List Op :=
  [.openFlow 0 [0x61] none 3, .sessionOpen, .bind 0 2, .write 0 (List.replicate 60 1) 5 1000000000 1000000000 1 (demoNames 1),
   .write 0 (List.replicate 50 2) 9 1000000000 1000000000 2 (demoNames 2), .transmit 0 demoPacket 3 10 false, .write 0 [3] 12 1000000000 1000000000 3 (fun n => 100 + n)]

/-- state and events after the first `n` -/
def aged : Nat → SS × List Ev
  | 0 => (init, [])
  | n + 1 => match ageOps[n]? with
    | none => aged n
    | some op => ((go (aged n).1 op).1, (aged n).2 ++ (go (aged n).1 op).2)

theorem aged_step (n : Nat) (op : Op) (hop : ageOps[n]? = some op) (h : Exec (ageOps.take n) (aged n).1 (aged n).2)
    (ha : Allowed (ageOps.take n) (aged n).1 op) (ho : (step (aged n).1 op).isSome = true) : Exec (ageOps.take (n + 1)) (aged (n + 1)).1 (aged (n + 1)).2 := by
  have := h.then op ha ho
  rw [aged, hop, List.take_succ, hop]
  exact this

theorem aged0 : Exec (ageOps.take 0) (aged 0).1 (aged 0).2 := .nil
theorem aged1 : Exec (ageOps.take 1) (aged 1).1 (aged 1).2 := aged_step 0 _ rfl aged0 ⟨rfl, by simp, by simp⟩ rfl
theorem aged2 : Exec (ageOps.take 2) (aged 2).1 (aged 2).2 := aged_step 1 _ rfl aged1 trivial rfl
theorem aged3 : Exec (ageOps.take 3) (aged 3).1 (aged 3).2 := aged_step 2 _ rfl aged2 ⟨rfl, by decide +kernel, by decide, by decide +kernel⟩ rfl
theorem aged4 : Exec (ageOps.take 4) (aged 4).1 (aged 4).2 := aged_step 3 _ rfl aged3 ⟨by decide, demoNames_good _ (by decide) _ (by decide +kernel), by decide⟩ rfl
theorem aged5 : Exec (ageOps.take 5) (aged 5).1 (aged 5).2 := aged_step 4 _ rfl aged4 ⟨by decide, demoNames_good _ (by decide) _ (by decide +kernel), by decide⟩ rfl
theorem aged6 : Exec (ageOps.take 6) (aged 6).1 (aged 6).2 := aged_step 5 _ rfl aged5 ⟨by decide +kernel, demoPacket_inv⟩ rfl
theorem aged7 : Exec (ageOps.take 7) (aged 7).1 (aged 7).2 :=
  aged_step 6 _ rfl aged6 ⟨by decide, ⟨fun a b h => by simpa using h, fun a => by show 0 < 100 + a; omega, fun f hf a => by
    have : ∀ f ∈ ((aged 6).1.flow 0).queue, f.name < 100 := by decide +kernel
    have := this f hf
    show f.name ≠ 100 + a
    omega⟩, by decide⟩ rfl

theorem aged_accepted : Ev.accepted 0 1 1 1 (List.replicate 60 1) ∈ (aged 7).2 ∧ Ev.accepted 0 2 2 1 (List.replicate 50 2) ∈ (aged 7).2 ∧ Ev.accepted 0 3 3 1 [3] ∈ (aged 7).2 :=
  ⟨.head _, .tail _ (.head _), .tail _ (.tail _ (.tail _ (.head _)))⟩

end SS

/-- A receipt tells when its message was written. -/
theorem C85_created {ops : List SS.Op} {s : SS} {evs : List SS.Ev} (h : SS.Exec ops s evs) (i r a n : Nat) (M : Bytes) (hm : Ev.accepted i r a n M ∈ evs) (j : Nat) (M' : Bytes) (w x y : Int)
    (names : Nat → Nat) (hw : Op.write j M' w x y r names ∈ ops) : (s.receipts.r r).origin = w := by
  obtain ⟨w', x', y', names', h1, h2⟩ := (exec_ages h).origin i r a n M hm
  have := rid_unique h hw h1 rfl rfl
  cases this
  exact h2

example : SS.Exec ageOps (aged 7).1 (aged 7).2 ∧ Ev.accepted 0 2 2 1 (List.replicate 50 2) ∈ (aged 7).2 ∧ ((aged 7).1.receipts.r 2).origin = 9 := ⟨aged7, aged_accepted.2.1, by decide +kernel⟩

/-- A receipt says that its message was started exactly if something of the message was sent. -/
theorem C85_started {ops : List SS.Op} {s : SS} {evs : List SS.Ev} (h : SS.Exec ops s evs) (i r a n : Nat) (M : Bytes) (hm : Ev.accepted i r a n M ∈ evs) :
    (s.receipts.r r).started = true ↔ Begun evs i a n := ⟨(exec_ages h).began i r a n M hm, (exec_ages h).sent i r a n M hm⟩

example : ((aged 7).1.receipts.r 1).started = true ∧ ((aged 7).1.receipts.r 2).started = false := by decide +kernel

/-- The buffered age is the time since the first message was written of those of which a part is in the buffer. -/
theorem C85_buffered {ops : List SS.Op} {s : SS} {evs : List SS.Ev} (h : SS.Exec ops s evs) (i r a n : Nat) (M : Bytes) (hm : Ev.accepted i r a n M ∈ evs) (j : Nat) (M' : Bytes) (w x y : Int)
    (names : Nat → Nat) (hw : Op.write j M' w x y r names ∈ ops) (hwait : Waiting s i a n)
    (hfirst : ∀ r' a' n' M', Ev.accepted i r' a' n' M' ∈ evs → Waiting s i a' n' → a ≤ a') (now : Int) : bufferedAge s i now = now - w := by
  obtain ⟨z, hz, z1, z2⟩ := hwait
  have hs := ((exec_books h).flow i).ok.sorted
  cases hq : (s.flow i).queue with
  | nil => rw [hq] at hz; cases hz
  | cons f q =>
    have hf : f ∈ (s.flow i).queue := by rw [hq]; exact List.mem_cons_self
    have hfz : f.sn ≤ z.sn := by
      rw [hq] at hz hs
      rcases List.mem_cons.mp hz with e | hz
      · rw [e]; exact Nat.le_refl _
      · exact Nat.le_of_lt ((List.pairwise_cons.mp hs).1 z hz)
    have hr : f.receipt = r := by
      rcases (exec_ages h).cover i f hf with ⟨r', a', n', M', k1, k2, k3⟩ | ⟨_, k⟩
      · have := hfirst r' a' n' M' k1 ⟨f, hf, k2, k3⟩
        exact frag_receipt h hm hf (by omega) (by omega)
      · have := k r a n M hm
        omega
    simp only [bufferedAge, hq]
    rw [hr, C85_created h i r a n M hm j M' w x y names hw]

example : Waiting (aged 7).1 0 1 1 ∧ bufferedAge (aged 7).1 0 20 = 15 := ⟨by
  have : ((aged 7).1.flow 0).queue.any (fun x => decide (1 ≤ x.sn) && decide (x.sn < 2)) = true := by decide +kernel
  obtain ⟨x, hx, h⟩ := List.any_eq_true.mp this
  exact ⟨x, hx, by simpa using h⟩, by decide +kernel⟩

/-- Of an open flow it is zero when nothing of any message is in the buffer. -/
theorem C85_buffered_none {ops : List SS.Op} {s : SS} {evs : List SS.Ev} (h : SS.Exec ops s evs) (i : Nat) (ho : (s.flow i).baseOpen = true)
    (hno : ∀ r a n M, Ev.accepted i r a n M ∈ evs → ¬ Waiting s i a n) (now : Int) : bufferedAge s i now = 0 := by
  cases hq : (s.flow i).queue with
  | nil => simp only [bufferedAge, hq]
  | cons f q =>
    have hf : f ∈ (s.flow i).queue := by rw [hq]; exact List.mem_cons_self
    rcases (exec_ages h).cover i f hf with ⟨r, a, n, M, k1, k2⟩ | ⟨k, _⟩
    · exact absurd ⟨f, hf, k2⟩ (hno r a n M k1)
    · exact absurd (((exec_books h).flow i).ok.opened ho) k

example : SS.Exec (ageOps.take 3) (aged 3).1 (aged 3).2 ∧ ((aged 3).1.flow 0).baseOpen = true ∧ ((aged 3).1.flow 0).queue = [] := ⟨aged3, by decide +kernel, by decide +kernel⟩

/-- The unstarted age is the time since the first message was written of those in the buffer of which nothing was sent yet. -/
theorem C85_unstarted {ops : List SS.Op} {s : SS} {evs : List SS.Ev} (h : SS.Exec ops s evs) (i r a n : Nat) (M : Bytes) (hm : Ev.accepted i r a n M ∈ evs) (j : Nat) (M' : Bytes) (w x y : Int)
    (names : Nat → Nat) (hw : Op.write j M' w x y r names ∈ ops) (hwait : Waiting s i a n) (hun : ¬ Begun evs i a n)
    (hfirst : ∀ r' a' n' M', Ev.accepted i r' a' n' M' ∈ evs → Waiting s i a' n' → ¬ Begun evs i a' n' → a ≤ a') (now : Int) : unstartedAge s i now = now - w := by
  obtain ⟨z, hz, z1, z2⟩ := hwait
  have hns : ∀ r' a' n' M', Ev.accepted i r' a' n' M' ∈ evs → ((s.receipts.r r').started = false ↔ ¬ Begun evs i a' n') := by
    intro r' a' n' M' k
    rw [← C85_started h i r' a' n' M' k]
    simp
  have hzr := frag_receipt h hm hz z1 z2
  rw [unstartedAge_whole h]
  rcases unstartedFrom_spec s.receipts now (s.flow i).queue ((exec_books h).flow i).ok.sorted with ⟨f, hf, h1, h2, h3⟩ | ⟨h1, _⟩
  · have hfz := h2 z hz (by rw [hzr]; exact (hns r a n M hm).mpr hun)
    have hr : f.receipt = r := by
      rcases (exec_ages h).cover i f hf with ⟨r', a', n', M', k1, k2, k3⟩ | ⟨_, k⟩
      · have e := frag_receipt h k1 hf k2 k3
        rw [e] at h1
        have := hfirst r' a' n' M' k1 ⟨f, hf, k2, k3⟩ ((hns r' a' n' M' k1).mp h1)
        exact frag_receipt h hm hf (by omega) (by omega)
      · have := k r a n M hm
        omega
    rw [h3, hr, C85_created h i r a n M hm j M' w x y names hw]
  · have := h1 z hz
    rw [hzr, (hns r a n M hm).mpr hun] at this
    cases this

example : SS.Exec ageOps (aged 7).1 (aged 7).2 ∧ Waiting (aged 7).1 0 2 1 ∧ ¬ Begun (aged 7).2 0 2 1 ∧ Begun (aged 7).2 0 1 1 ∧ unstartedAge (aged 7).1 0 20 = 11 :=
  ⟨aged7, by
    have : ((aged 7).1.flow 0).queue.any (fun x => decide (2 ≤ x.sn) && decide (x.sn < 3)) = true := by decide +kernel
    obtain ⟨x, hx, h⟩ := List.any_eq_true.mp this
    exact ⟨x, hx, by simpa using h⟩,
   fun k => absurd ((C85_started aged7 0 2 2 1 _ aged_accepted.2.1).mpr k) (by decide +kernel), (C85_started aged7 0 1 1 1 _ aged_accepted.1).mp (by decide +kernel), by decide +kernel⟩

/-- Of an open flow it is zero when something was sent of every message in the buffer. -/
theorem C85_unstarted_none {ops : List SS.Op} {s : SS} {evs : List SS.Ev} (h : SS.Exec ops s evs) (i : Nat) (ho : (s.flow i).baseOpen = true)
    (hno : ∀ r a n M, Ev.accepted i r a n M ∈ evs → Waiting s i a n → Begun evs i a n) (now : Int) : unstartedAge s i now = 0 := by
  rw [unstartedAge_whole h]
  rcases unstartedFrom_spec s.receipts now (s.flow i).queue ((exec_books h).flow i).ok.sorted with ⟨f, hf, h1, h2, h3⟩ | ⟨_, h2⟩
  · rcases (exec_ages h).cover i f hf with ⟨r, a, n, M, k1, k2, k3⟩ | ⟨k, _⟩
    · rw [frag_receipt h k1 hf k2 k3, (C85_started h i r a n M k1).mpr (hno r a n M k1 ⟨f, hf, k2, k3⟩)] at h1
      cases h1
    · exact absurd (((exec_books h).flow i).ok.opened ho) k
  · exact h2

/-- one message, of which something was sent -/
example : SS.Exec (demoOps.take 8) (demo 8).1 (demo 8).2 ∧ ((demo 8).1.flow 0).baseOpen = true ∧ ((demo 8).1.flow 0).queue ≠ [] ∧
    ∀ x ∈ ((demo 8).1.flow 0).queue, ((demo 8).1.receipts.r x.receipt).started = true := ⟨demo8, by decide +kernel, by decide +kernel, by decide +kernel⟩

end Rtmfp
