import Verif.Lemmas.SendExec

/-! # An execution to show that hypotheses can be met -/

namespace Rtmfp
namespace SS

/-- a step that is possible -/
def go (s : SS) (op : Op) : SS × List Ev := (step s op).getD (s, [])

/-- one more thing that happens -/
theorem Exec.then {ops : List Op} {s : SS} {evs : List Ev} (h : Exec ops s evs) (op : Op) (ha : Allowed ops s op) (ho : (step s op).isSome = true) :
    Exec (ops ++ [op]) (go s op).1 (evs ++ (go s op).2) := by
  obtain ⟨x, hx⟩ := Option.isSome_iff_exists.mp ho
  refine .snoc h ha ?_
  rw [go, hx]
  rfl

/-- a packet with 100 bytes -/
def demoPacket : PA := PA.initHeader (List.replicate 100 0) 2 100 0 none none

theorem demoPacket_inv : demoPacket.Inv := ⟨by decide, by decide, by decide, by decide, by decide, by decide⟩

/-- names of list elements -/
def demoNames (k n : Nat) : Nat := 2 * n + k

theorem demoNames_good (k : Nat) (hk : 0 < k) (q : List SFrag) (h : ∀ f ∈ q, f.name % 2 ≠ k % 2) : GoodNames q (demoNames k) :=
  ⟨fun a b h => by simp only [demoNames] at h; omega, fun a => by simp only [demoNames]; omega, fun f hf a => by
    have := h f hf
    simp only [demoNames]; omega⟩

/-- Two messages are written to a flow, the second with no time to begin; both are sent in a packet (the second as abandoned), the first is lost, sent again and
acknowledged; the flow is closed. -/
def demoOps : List Op :=
  [.openFlow 0 [0x61] none 3, .sessionOpen, .bind 0 2, .write 0 [1, 2, 3] 0 1000000000 1000000000 1 (demoNames 1),
   .write 0 [4, 5] 0 (-1) (-1) 2 (demoNames 2), .transmit 0 demoPacket 3 1 false, .timeout, .transmit 0 demoPacket 3 2 false,
   .ack 0 5000 [(0, 1)], .close 0 3 3 (demoNames 1), .transmit 0 demoPacket 3 4 false]

/-- the state and what was observed after the first `n` of them -/
def demo : Nat → SS × List Ev
  | 0 => (init, [])
  | n + 1 => match demoOps[n]? with
    | none => demo n
    | some op => ((go (demo n).1 op).1, (demo n).2 ++ (go (demo n).1 op).2)

theorem demo_step (n : Nat) (op : Op) (hop : demoOps[n]? = some op) (h : Exec (demoOps.take n) (demo n).1 (demo n).2)
    (ha : Allowed (demoOps.take n) (demo n).1 op) (ho : (step (demo n).1 op).isSome = true) :
    Exec (demoOps.take (n + 1)) (demo (n + 1)).1 (demo (n + 1)).2 := by
  have := h.then op ha ho
  rw [demo, hop, List.take_succ, hop]
  exact this

theorem demo0 : Exec (demoOps.take 0) (demo 0).1 (demo 0).2 := .nil
theorem demo1 : Exec (demoOps.take 1) (demo 1).1 (demo 1).2 := demo_step 0 _ rfl demo0 ⟨rfl, by simp, by simp⟩ rfl
theorem demo2 : Exec (demoOps.take 2) (demo 2).1 (demo 2).2 := demo_step 1 _ rfl demo1 trivial rfl
theorem demo3 : Exec (demoOps.take 3) (demo 3).1 (demo 3).2 :=
  demo_step 2 _ rfl demo2 ⟨rfl, by decide +kernel, by decide, by decide +kernel⟩ rfl
theorem demo4 : Exec (demoOps.take 4) (demo 4).1 (demo 4).2 :=
  demo_step 3 _ rfl demo3 ⟨by decide, demoNames_good _ (by decide) _ (by decide +kernel), by decide⟩ rfl
theorem demo5 : Exec (demoOps.take 5) (demo 5).1 (demo 5).2 :=
  demo_step 4 _ rfl demo4 ⟨by decide, demoNames_good _ (by decide) _ (by decide +kernel), by decide⟩ rfl
theorem demo6 : Exec (demoOps.take 6) (demo 6).1 (demo 6).2 :=
  demo_step 5 _ rfl demo5 ⟨by decide +kernel, demoPacket_inv⟩ rfl
theorem demo7 : Exec (demoOps.take 7) (demo 7).1 (demo 7).2 := demo_step 6 _ rfl demo6 trivial rfl
theorem demo8 : Exec (demoOps.take 8) (demo 8).1 (demo 8).2 :=
  demo_step 7 _ rfl demo7 ⟨by decide +kernel, demoPacket_inv⟩ rfl
theorem demo9 : Exec (demoOps.take 9) (demo 9).1 (demo 9).2 :=
  demo_step 8 _ rfl demo8 (by show ((demo 8).1.flow 0).bound = true; decide +kernel) rfl
theorem demo10 : Exec (demoOps.take 10) (demo 10).1 (demo 10).2 :=
  demo_step 9 _ rfl demo9 ⟨by decide, demoNames_good _ (by decide) _ (by decide +kernel)⟩ rfl
theorem demo11 : Exec (demoOps.take 11) (demo 11).1 (demo 11).2 :=
  demo_step 10 _ rfl demo10 ⟨by decide +kernel, demoPacket_inv⟩ rfl

end SS
end Rtmfp
