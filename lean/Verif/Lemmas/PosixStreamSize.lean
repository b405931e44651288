import Verif.Lemmas.PosixStreamTold
namespace Rtmfp
namespace PosixStream
namespace Size
variable {app : App}

theorem sizes : ∀ (st : St) (c : Call), (callOver st c).size = st.size ∧ (callOver st c).turns = st.turns := by
  intro st c
  rcases st with ⟨client, shut, runs, up, size, turns, out, onW, onR, onL, allowed, regR, regW, tasks, fin, stuck, wild, log⟩
  cases up <;> cases runs <;> cases c <;> simp [callOver, body, note, tryW, tryR, closeIfDone, drop] <;> (repeat' split) <;> simp

theorem over : ∀ (cs : List Call) (st : St), (cs.foldl callOver st).size = st.size ∧ (cs.foldl callOver st).turns = st.turns := by
  intro cs
  induction cs with
  | nil => exact fun _ => ⟨rfl, rfl⟩
  | cons c cs ih => exact fun st => ⟨(ih _).1.trans (sizes st c).1, (ih _).2.trans (sizes st c).2⟩

theorem fin : ∀ (st : St), (finish app st).size = st.size ∧ (finish app st).turns = st.turns ∧ (finish app st).stuck = st.stuck := by
  intro st
  unfold finish
  split
  · refine ⟨(over _ _).1, (over _ _).2, ?_⟩
    have : ∀ (cs : List Call) (st : St), (cs.foldl callOver st).stuck = st.stuck := by
      intro cs
      induction cs with
      | nil => exact fun _ => rfl
      | cons c cs ih =>
        intro st
        refine (ih _).trans ?_
        rcases st with ⟨client, shut, runs, up, size, turns, out, onW, onR, onL, allowed, regR, regW, tasks, fin, stuck, wild, log⟩
        cases up <;> cases runs <;> cases c <;> simp [callOver, body, note, tryW, tryR, closeIfDone, drop] <;> (repeat' split) <;> simp
    exact this _ _
  · exact ⟨rfl, rfl, rfl⟩

theorem drp : ∀ (st : St), (drop st).size = st.size ∧ (drop st).turns = st.turns ∧ (drop st).stuck = st.stuck := by
  intro st
  unfold drop
  split <;> exact ⟨rfl, rfl, rfl⟩

theorem cal : ∀ (st : St) (c : Call), (call app st c).size = st.size ∧ (call app st c).turns = st.turns ∧ (call app st c).stuck = st.stuck := by
  intro st c
  refine ⟨?_, ?_, call_stuck st c⟩ <;> unfold call <;> dsimp only <;> split
  · exact (fin _).1.trans (sizes st c).1
  · exact (sizes st c).1
  · exact (fin _).2.1.trans (sizes st c).2
  · exact (sizes st c).2

theorem bck : ∀ (st : St) (e : Ev), (back app st e).size = st.size ∧ (back app st e).turns = st.turns ∧ (back app st e).stuck = st.stuck := by
  intro st e
  unfold back
  have : ∀ (cs : List Call) (st : St), (cs.foldl (call app) st).size = st.size ∧ (cs.foldl (call app) st).turns = st.turns ∧ (cs.foldl (call app) st).stuck = st.stuck := by
    intro cs
    induction cs with
    | nil => exact fun _ => ⟨rfl, rfl, rfl⟩
    | cons c cs ih => exact fun st => ⟨(ih _).1.trans (cal st c).1, (ih _).2.1.trans (cal st c).2.1, (ih _).2.2.trans (cal st c).2.2⟩
  exact this _ _

theorem fai : ∀ (st : St), (fail app st).size = st.size ∧ (fail app st).turns = st.turns ∧ (fail app st).stuck = st.stuck := by
  intro st
  have h1 : (close app st).size = st.size ∧ (close app st).turns = st.turns ∧ (close app st).stuck = st.stuck :=
    ⟨(fin _).1.trans (drp st).1, (fin _).2.1.trans (drp st).2.1, (fin _).2.2.trans (drp st).2.2⟩
  unfold fail
  dsimp only
  split
  · exact ⟨(bck _ _).1.trans h1.1, (bck _ _).2.1.trans h1.2.1, (bck _ _).2.2.trans h1.2.2⟩
  · exact h1

theorem fil : ∀ (n : Nat) (st : St), (fill app n st).size = st.size ∧ (fill app n st).turns = st.turns := by
  intro n
  induction n with
  | zero =>
    intro st
    unfold fill
    split <;> exact ⟨rfl, rfl⟩
  | succ n ih =>
    intro st
    unfold fill
    split
    · cases ho : st.onW with
      | none => exact ⟨rfl, rfl⟩
      | some f =>
        dsimp only
        split
        · exact ⟨(ih _).1.trans (bck _ _).1, (ih _).2.trans (bck _ _).2.1⟩
        · exact ⟨(ih _).1.trans (bck _ _).1, (ih _).2.trans (bck _ _).2.1⟩
    · exact ⟨rfl, rfl⟩

theorem stl : ∀ (st : St), (settle st).size = st.size ∧ (settle st).turns = st.turns ∧ (settle st).stuck = st.stuck := by
  intro st
  unfold settle closeIfDone
  (repeat' split) <;> exact ⟨rfl, rfl, rfl⟩

theorem stp (ha : Diligent app) : ∀ (st : St) (op : Op), Held st → st.stuck = false → st.size ≤ st.turns →
    (step app st op).size = st.size ∧ (step app st op).turns = st.turns ∧ (step app st op).stuck = false := by
  intro st op hh h0 hle
  cases op with
  | call c =>
    simp only [step]
    split
    · exact ⟨rfl, rfl, h0⟩
    · exact ⟨(cal st c).1, (cal st c).2.1, (cal st c).2.2.trans h0⟩
  | readable g =>
    simp only [step]
    split
    · exact ⟨rfl, rfl, h0⟩
    · unfold onReadable
      split
      · exact ⟨rfl, rfl, h0⟩
      · cases g with
        | again => exact ⟨rfl, rfl, h0⟩
        | eof => exact ⟨(fai st).1, (fai st).2.1, (fai st).2.2.trans h0⟩
        | bad => exact ⟨(fai st).1, (fai st).2.1, (fai st).2.2.trans h0⟩
        | some b =>
          dsimp only
          split
          · exact ⟨rfl, rfl, h0⟩
          · split
            · exact ⟨(fai _).1, (fai _).2.1, (fai _).2.2.trans h0⟩
            · split
              · exact ⟨rfl, rfl, h0⟩
              · split
                · exact ⟨(bck _ _).1, (bck _ _).2.1, (bck _ _).2.2.trans h0⟩
                · exact ⟨(bck _ _).1, (bck _ _).2.1, (bck _ _).2.2.trans h0⟩
  | writable p =>
    simp only [step]
    split
    · exact ⟨rfl, rfl, h0⟩
    · rename_i hx
      have hup := (hh.inv.regW (by simp_all)).2
      have hf := fill_free ha st.turns st hup h0 (by omega)
      obtain ⟨f1, f2⟩ := fil st.turns st
      unfold onWritable
      dsimp only
      generalize fill app st.turns st = s at *
      rw [if_neg (by simp [hf])]
      unfold push
      split
      · exact ⟨(stl s).1.trans f1, (stl s).2.1.trans f2, (stl s).2.2.trans hf⟩
      · split
        · exact ⟨(fai s).1.trans f1, (fai s).2.1.trans f2, (fai s).2.2.trans hf⟩
        · cases p with
          | again => exact ⟨f1, f2, hf⟩
          | bad => exact ⟨(fai s).1.trans f1, (fai s).2.1.trans f2, (fai s).2.2.trans hf⟩
          | some n => exact ⟨(stl _).1.trans f1, (stl _).2.1.trans f2, (stl _).2.2.trans hf⟩
  | task =>
    simp only [step]
    split
    · exact ⟨rfl, rfl, h0⟩
    · unfold onTask
      split
      · exact ⟨rfl, rfl, h0⟩
      · dsimp only
        split
        · exact ⟨(bck _ _).1, (bck _ _).2.1, (bck _ _).2.2.trans h0⟩
        · exact ⟨rfl, rfl, h0⟩

theorem step_sizes : ∀ (st : St) (op : Op), (step app st op).size = st.size ∧ (step app st op).turns = st.turns := by
  intro st op
  cases op with
  | call c =>
    simp only [step]
    split
    · exact ⟨rfl, rfl⟩
    · exact ⟨(cal st c).1, (cal st c).2.1⟩
  | readable g =>
    simp only [step]
    split
    · exact ⟨rfl, rfl⟩
    · unfold onReadable
      split
      · exact ⟨rfl, rfl⟩
      · cases g with
        | again => exact ⟨rfl, rfl⟩
        | eof => exact ⟨(fai st).1, (fai st).2.1⟩
        | bad => exact ⟨(fai st).1, (fai st).2.1⟩
        | some b =>
          dsimp only
          split
          · exact ⟨rfl, rfl⟩
          · split
            · exact ⟨(fai _).1, (fai _).2.1⟩
            · split
              · exact ⟨rfl, rfl⟩
              · split
                · exact ⟨(bck _ _).1, (bck _ _).2.1⟩
                · exact ⟨(bck _ _).1, (bck _ _).2.1⟩
  | writable p =>
    simp only [step]
    split
    · exact ⟨rfl, rfl⟩
    · obtain ⟨f1, f2⟩ := fil st.turns st
      unfold onWritable
      dsimp only
      generalize fill app st.turns st = s at *
      split
      · exact ⟨f1, f2⟩
      unfold push
      split
      · exact ⟨(stl s).1.trans f1, (stl s).2.1.trans f2⟩
      · split
        · exact ⟨(fai s).1.trans f1, (fai s).2.1.trans f2⟩
        · cases p with
          | again => exact ⟨f1, f2⟩
          | bad => exact ⟨(fai s).1.trans f1, (fai s).2.1.trans f2⟩
          | some n => exact ⟨(stl _).1.trans f1, (stl _).2.1.trans f2⟩
  | task =>
    simp only [step]
    split
    · exact ⟨rfl, rfl⟩
    · unfold onTask
      split
      · exact ⟨rfl, rfl⟩
      · dsimp only
        split
        · exact ⟨(bck _ _).1, (bck _ _).2.1⟩
        · exact ⟨rfl, rfl⟩

end Size

theorem run_sizes {app : App} (ops : List Op) (st : St) : (run app st ops).size = st.size ∧ (run app st ops).turns = st.turns := by
  induction ops generalizing st with
  | nil => exact ⟨rfl, rfl⟩
  | cons op ops ih => exact ⟨(ih _).1.trans (Size.step_sizes st op).1, (ih _).2.trans (Size.step_sizes st op).2⟩

end PosixStream
end Rtmfp
