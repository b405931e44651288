import Verif.Model.Packet
import Verif.Lemmas.VLU

namespace Rtmfp

theorem poke_length (buf : Bytes) (pos : Nat) (bs : Bytes) (h : pos + bs.length ≤ buf.length) :
    (poke buf pos bs).length = buf.length := by
  simp [poke]; omega

theorem poke_take (buf : Bytes) (pos n : Nat) (bs : Bytes) (h : n ≤ pos) (h2 : pos ≤ buf.length) :
    (poke buf pos bs).take n = buf.take n := by
  simp only [poke, List.append_assoc]
  rw [List.take_append_of_le_length (by simp; omega), List.take_take, Nat.min_eq_left h]

theorem poke_drop (buf : Bytes) (pos n : Nat) (bs : Bytes) (h : pos + bs.length ≤ n)
    (h2 : pos ≤ buf.length) : (poke buf pos bs).drop n = buf.drop n := by
  simp only [poke]
  rw [List.drop_append]
  have : List.drop n (List.take pos buf ++ bs) = [] := by
    apply List.drop_eq_nil_of_le; simp; omega
  rw [this, List.nil_append, List.drop_drop]
  congr 1
  simp
  omega

theorem poke_take_end (buf : Bytes) (pos : Nat) (bs : Bytes) (h2 : pos ≤ buf.length) :
    (poke buf pos bs).take (pos + bs.length) = buf.take pos ++ bs := by
  simp only [poke]
  rw [List.take_append_of_le_length (by simp; omega)]
  rw [List.take_of_length_le (by simp; omega)]

theorem poke_take_ge (buf : Bytes) (pos n : Nat) (bs : Bytes) (h : pos + bs.length ≤ n)
    (h2 : n ≤ buf.length) : (poke buf pos bs).take n = poke (buf.take n) pos bs := by
  simp only [poke]
  have h1 : n = (List.take pos buf ++ bs).length + (n - (pos + bs.length)) := by simp; omega
  rw [h1, List.take_length_add_append, ← h1]
  congr 1
  · congr 1; rw [List.take_take]; congr 1; omega
  · rw [List.drop_take]

namespace PA

/-- Representation invariant. -/
structure Inv (p : PA) : Prop where
  lim : p.limit ≤ p.buf.length
  w : p.limit < W64
  cur : p.cursor ≤ p.limit
  fm : p.frontMargin ≤ p.cursor
  cs : ∀ s, p.chunkStart = some s → p.frontMargin + 3 ≤ s ∧ s ≤ p.cursor
  fl : ∀ i, p.flags = some i → p.frontMargin ≤ i ∧ i < p.limit

theorem Inv.remaining {p : PA} (h : p.Inv) : p.remaining = p.limit - p.cursor := by
  rw [PA.remaining, if_pos h.cur]

/-- What stays fixed outside of the packet. -/
def Same (p q : PA) : Prop :=
  q.buf.length = p.buf.length ∧ q.limit = p.limit ∧ q.frontMargin = p.frontMargin ∧
  q.buf.drop p.limit = p.buf.drop p.limit ∧ q.buf.take p.frontMargin = p.buf.take p.frontMargin ∧
  q.flags = p.flags

theorem Same.refl (p : PA) : Same p p := ⟨rfl, rfl, rfl, rfl, rfl, rfl⟩

theorem Same.trans {p q r : PA} (h1 : Same p q) (h2 : Same q r) : Same p r := by
  obtain ⟨a1, a2, a3, a4, a5, a6⟩ := h1
  obtain ⟨b1, b2, b3, b4, b5, b6⟩ := h2
  refine ⟨by omega, by omega, by omega, ?_, ?_, ?_⟩
  · rw [a2] at b4; rw [b4, a4]
  · rw [a3] at b5; rw [b5, a5]
  · rw [b6, a6]

theorem put_inv {p : PA} (h : p.Inv) (bs : Bytes) (hb : p.cursor + bs.length ≤ p.limit) :
    (p.put bs).Inv ∧ Same p (p.put bs) ∧ (p.put bs).toVector = p.toVector ++ bs ∧
      (p.put bs).chunkStart = p.chunkStart ∧ (p.put bs).cursor = p.cursor + bs.length := by
  obtain ⟨h1, h2, h3, h4, h5, h6⟩ := h
  have hl := poke_length p.buf p.cursor bs (by omega)
  refine ⟨⟨?_, h2, ?_, ?_, ?_, h6⟩, ⟨hl, rfl, rfl, ?_, ?_, rfl⟩, ?_, rfl, rfl⟩
  · simp only [put]; omega
  · simp only [put]; omega
  · simp only [put]; omega
  · intro s hs; have := h5 s hs; simp only [put]; omega
  · exact poke_drop _ _ _ _ hb (by omega)
  · exact poke_take _ _ _ _ h4 (by omega)
  · exact poke_take_end _ _ _ (by omega)

theorem push_inv {p : PA} (h : p.Inv) (bs : Bytes) :
    (p.push bs).1.Inv ∧ Same p (p.push bs).1 ∧
    (p.push bs).1.chunkStart = p.chunkStart ∧
    ((p.push bs).2 = true → (p.push bs).1.toVector = p.toVector ++ bs ∧
        (p.push bs).1.cursor = p.cursor + bs.length) ∧
    ((p.push bs).2 = false → (p.push bs).1 = p) := by
  unfold push
  rw [h.remaining]
  split
  · exact ⟨h, Same.refl p, rfl, by simp, by simp⟩
  · have := h.cur
    obtain ⟨a, b, c, d, e⟩ := put_inv h bs (by omega)
    exact ⟨a, b, d, fun _ => ⟨c, e⟩, by simp⟩

theorem startChunk_inv {p : PA} (h : p.Inv) (t : UInt8) :
    (p.startChunk t).1.Inv ∧ Same p (p.startChunk t).1 ∧
    ((p.startChunk t).2 = true → (p.startChunk t).1.toVector = p.toVector ++ [t, 0, 0] ∧
        (p.startChunk t).1.cursor = p.cursor + 3 ∧
        (p.startChunk t).1.chunkStart = some (p.cursor + 3)) ∧
    ((p.startChunk t).2 = false → (p.startChunk t).1 = p) := by
  unfold startChunk
  rw [h.remaining]
  split
  · exact ⟨h, Same.refl p, by simp, by simp⟩
  · have := h.cur
    obtain ⟨a, b, c, d, e⟩ := put_inv h [t, 0, 0] (by simp; omega)
    refine ⟨⟨a.lim, a.w, a.cur, a.fm, ?_, a.fl⟩, b, ?_, by simp⟩
    · intro s hs
      simp at hs
      have := a.fm
      have h4 := h.fm
      simp only [put] at hs ⊢
      simp at hs ⊢; omega
    · intro _
      exact ⟨c, e, by simp [put]⟩

theorem pushField_inv {p : PA} (h : p.Inv) (bs : Bytes) :
    (p.pushField bs).1.Inv ∧ Same p (p.pushField bs).1 ∧
    (p.pushField bs).1.chunkStart = p.chunkStart ∧
    ((p.pushField bs).2 = true → (p.pushField bs).1.toVector = p.toVector ++ (VLU.encode bs.length ++ bs) ∧
        (p.pushField bs).1.cursor = p.cursor + (VLU.encode bs.length ++ bs).length) ∧
    ((p.pushField bs).2 = false → (p.pushField bs).1.toVector = p.toVector ∧
        (p.pushField bs).1.cursor = p.cursor) := by
  obtain ⟨a1, a2, a3, a4, a5⟩ := push_inv h (VLU.encode bs.length)
  obtain ⟨b1, b2, b3, b4, b5⟩ := push_inv a1 bs
  by_cases hr1 : (p.push (VLU.encode bs.length)).2 = true
  · obtain ⟨hv, hc⟩ := a4 hr1
    by_cases hr2 : ((p.push (VLU.encode bs.length)).1.push bs).2 = true
    · have he : p.pushField bs = (((p.push (VLU.encode bs.length)).1.push bs).1, true) := by
        simp only [pushField, pushVLU, hr1, hr2, if_true]
      rw [he]
      obtain ⟨hv2, hc2⟩ := b4 hr2
      refine ⟨b1, a2.trans b2, b3.trans a3, ?_, by simp⟩
      intro _
      simp only
      rw [hv2, hv, hc2, hc]
      simp; omega
    · have he : p.pushField bs = ({ (p.push (VLU.encode bs.length)).1 with cursor := p.cursor }, false) := by
        simp only [pushField, pushVLU, hr1, hr2, if_true]; rw [b5 (by simpa using hr2)]; simp
      rw [he]
      generalize (p.push (VLU.encode bs.length)).1 = p2 at *
      have hcur := h.cur
      have hfm := h.fm
      have hl := a2.2.1
      have hf := a2.2.2.1
      refine ⟨⟨a1.lim, a1.w, ?_, ?_, ?_, a1.fl⟩, a2, a3, by simp, ?_⟩
      · show p.cursor ≤ p2.limit; omega
      · show p2.frontMargin ≤ p.cursor; omega
      · intro s hs
        change p2.chunkStart = some s at hs
        show p2.frontMargin + 3 ≤ s ∧ s ≤ p.cursor
        rw [a3] at hs
        have := h.cs s hs
        omega
      · intro _
        refine ⟨?_, rfl⟩
        show p2.buf.take p.cursor = p.buf.take p.cursor
        simp only [toVector] at hv
        have := congrArg (List.take p.cursor) hv
        have hlb := h.lim
        rw [List.take_take, Nat.min_eq_left (by omega), List.take_append_of_le_length (by simp; omega),
          List.take_take, Nat.min_self] at this
        exact this
  · have he : p.pushField bs = (p, false) := by
      simp [pushField, pushVLU, hr1, a5 (by simpa using hr1)]
    rw [he]
    exact ⟨h, Same.refl _, rfl, by simp, by simp⟩

theorem be16_length (v : Nat) : (be16 v).length = 2 := rfl

theorem commit_inv {p p' : PA} (h : p.Inv) (hc : p.commitChunk = some p') :
    p'.Inv ∧ Same p p' ∧ p'.chunkStart = none ∧ p'.cursor = p.cursor ∧
    ∃ s, p.chunkStart = some s ∧ p'.toVector = poke p.toVector (s - 2) (be16 (p.cursor - s)) := by
  unfold commitChunk at hc
  split at hc
  · simp at hc
  · next s hs =>
    simp at hc; subst hc
    obtain ⟨h1, h2, h3, h4, h5, h6⟩ := h
    have h5' := h5 s hs
    have hl := poke_length p.buf (s - 2) (be16 (p.cursor - s)) (by rw [be16_length]; omega)
    refine ⟨⟨by simp only; omega, h2, h3, h4, by simp, h6⟩, ⟨hl, rfl, rfl, ?_, ?_, rfl⟩, rfl, rfl, s, hs, ?_⟩
    · exact poke_drop _ _ _ _ (by rw [be16_length]; omega) (by omega)
    · exact poke_take _ _ _ _ (by omega) (by omega)
    · simp only [toVector]
      exact poke_take_ge _ _ _ _ (by rw [be16_length]; omega) (by omega)

theorem rollback_inv {p : PA} (h : p.Inv) :
    p.rollbackChunk.Inv ∧ Same p p.rollbackChunk ∧ p.rollbackChunk.chunkStart = none := by
  unfold rollbackChunk
  split
  · next hs => exact ⟨h, Same.refl _, hs⟩
  · next s hs =>
    obtain ⟨h1, h2, h3, h4, h5, h6⟩ := h
    have h5' := h5 s hs
    exact ⟨⟨h1, h2, by simp only; omega, by simp only; omega, by simp, h6⟩, ⟨rfl, rfl, rfl, rfl, rfl, rfl⟩, rfl⟩

theorem setTC_inv {p p' : PA} (h : p.Inv) (hc : p.setTimeCriticalFlag = some p') :
    p'.Inv ∧ Same p p' := by
  unfold setTimeCriticalFlag at hc
  split at hc
  · simp at hc
  · next i hi =>
    simp at hc; subst hc
    obtain ⟨h1, h2, h3, h4, h5, h6⟩ := h
    have := h6 i hi
    refine ⟨⟨by simpa using h1, h2, h3, h4, h5, h6⟩, ⟨by simp, rfl, rfl, ?_, ?_, rfl⟩⟩
    · simp only [List.drop_set]
      rw [if_pos this.2]
    · simp only [List.take_set]
      rw [List.set_eq_of_length_le]
      simp; omega

theorem step_inv {p p' : PA} {r : Bool} (h : p.Inv) (op : Op) (hs : p.step op = some (p', r)) :
    p'.Inv ∧ Same p p' := by
  cases op with
  | startChunk t =>
    simp [step] at hs
    have := startChunk_inv h t
    rw [hs] at this; exact ⟨this.1, this.2.1⟩
  | push bs =>
    simp [step] at hs
    have := push_inv h bs
    rw [hs] at this; exact ⟨this.1, this.2.1⟩
  | pushField bs =>
    simp [step] at hs
    have := pushField_inv h bs
    rw [hs] at this; exact ⟨this.1, this.2.1⟩
  | pushVLU v =>
    simp [step, pushVLU] at hs
    have := push_inv h (VLU.encode v)
    rw [hs] at this; exact ⟨this.1, this.2.1⟩
  | setTC =>
    simp [step] at hs
    obtain ⟨q, hs, rfl, _⟩ := hs
    exact setTC_inv h hs
  | commit =>
    simp [step] at hs
    obtain ⟨q, hs, rfl, _⟩ := hs
    have := commit_inv h hs
    exact ⟨this.1, this.2.1⟩
  | rollback =>
    simp [step] at hs
    have := rollback_inv h
    rw [← hs.1]; exact ⟨this.1, this.2.1⟩

theorem run_inv {p p' : PA} {rs : List Bool} (h : p.Inv) (ops : List Op) (hr : p.run ops = some (p', rs)) :
    p'.Inv ∧ Same p p' := by
  induction ops generalizing p rs with
  | nil => simp [run] at hr; rw [← hr.1]; exact ⟨h, Same.refl _⟩
  | cons op ops ih =>
    simp only [run] at hr
    split at hr
    · simp at hr
    · next p1 r hs =>
      rw [Option.map_eq_some_iff] at hr
      obtain ⟨⟨q, qs⟩, hr1, hr2⟩ := hr
      simp at hr2
      obtain ⟨a, b⟩ := step_inv h op hs
      obtain ⟨rfl, _⟩ := hr2
      obtain ⟨c, d⟩ := ih a hr1
      exact ⟨c, b.trans d⟩

theorem init_inv (buf : Bytes) (fm n : Nat) (h1 : fm ≤ n) (h2 : n ≤ buf.length) (h3 : n < W64) :
    (init buf fm n).Inv :=
  ⟨h2, h3, h1, Nat.le_refl _, by simp [init], by simp [init]⟩

/-- bytes of an optional timestamp -/
def tsBytes : Option Nat → Bytes
  | some t => be16 t
  | none => []

theorem tsBytes_length (t : Option Nat) : (tsBytes t).length ≤ 2 := by
  cases t <;> simp [tsBytes, be16]

theorem putTimestamp_inv {p : PA} (h : p.Inv) (t : Option Nat) (hb : p.cursor + 2 ≤ p.limit) :
    (p.putTimestamp t).Inv ∧ Same p (p.putTimestamp t) ∧
      (p.putTimestamp t).toVector = p.toVector ++ tsBytes t ∧
      (p.putTimestamp t).chunkStart = p.chunkStart ∧
      (p.putTimestamp t).cursor = p.cursor + (tsBytes t).length := by
  cases t with
  | none => exact ⟨h, Same.refl _, by simp [putTimestamp, tsBytes], rfl, rfl⟩
  | some t => exact put_inv h (be16 t) (by rw [be16_length]; omega)

theorem initHeader_inv (buf : Bytes) (fm n : Nat) (f : UInt8) (ts tse : Option Nat)
    (h1 : fm + 5 ≤ n) (h2 : n ≤ buf.length) (h3 : n < W64) :
    (initHeader buf fm n f ts tse).Inv ∧
    (initHeader buf fm n f ts tse).buf.length = buf.length ∧
    (initHeader buf fm n f ts tse).limit = n ∧
    (initHeader buf fm n f ts tse).frontMargin = fm ∧
    (initHeader buf fm n f ts tse).buf.drop n = buf.drop n ∧
    (initHeader buf fm n f ts tse).buf.take fm = buf.take fm ∧
    (initHeader buf fm n f ts tse).flags = some fm ∧
    (initHeader buf fm n f ts tse).chunkStart = none ∧
    (initHeader buf fm n f ts tse).toVector =
      buf.take fm ++ headerFlags f ts tse :: (tsBytes ts ++ tsBytes tse) := by
  have hi := init_inv buf fm n (by omega) h2 h3
  obtain ⟨a1, ⟨a2, a3, a4, a5, a6, a7⟩, a8, a9, a10⟩ :=
    put_inv hi [headerFlags f ts tse] (by simp [init]; omega)
  have hcur0 : (init buf fm n).cursor = fm := rfl
  unfold initHeader
  generalize hF : headerFlags f ts tse = fl at *
  have hpa : ((init buf fm n).putFlags fl).Inv :=
    ⟨a1.lim, a1.w, a1.cur, a1.fm, a1.cs, by
      intro i hi
      change some fm = some i at hi
      injection hi with hi
      subst hi
      change fm ≤ fm ∧ fm < n
      omega⟩
  have hP1 : ((init buf fm n).putFlags fl).buf.length = buf.length := a2
  have hP2 : ((init buf fm n).putFlags fl).limit = n := rfl
  have hP3 : ((init buf fm n).putFlags fl).frontMargin = fm := rfl
  have hP4 : ((init buf fm n).putFlags fl).buf.drop n = buf.drop n := a5
  have hP5 : ((init buf fm n).putFlags fl).buf.take fm = buf.take fm := a6
  have hP6 : ((init buf fm n).putFlags fl).flags = some fm := rfl
  have hP7 : ((init buf fm n).putFlags fl).chunkStart = none := rfl
  have hP8 : ((init buf fm n).putFlags fl).toVector = buf.take fm ++ [fl] := a8
  have hP9 : ((init buf fm n).putFlags fl).cursor = fm + 1 := rfl
  generalize (init buf fm n).putFlags fl = P at *
  obtain ⟨b1, ⟨b2, b3, b4, b5, b6, b7⟩, b8, b9, b10⟩ := putTimestamp_inv hpa ts (by omega)
  generalize P.putTimestamp ts = Q at *
  have hts := tsBytes_length ts
  obtain ⟨c1, ⟨c2, c3, c4, c5, c6, c7⟩, c8, c9, c10⟩ := putTimestamp_inv b1 tse (by omega)
  generalize Q.putTimestamp tse = R at *
  rw [hP2] at b5 b3; rw [b3] at c5
  rw [hP3] at b6 b4; rw [b4] at c6
  refine ⟨c1, by omega, by omega, by omega, ?_, ?_, ?_, ?_, ?_⟩
  · rw [c5, b5, hP4]
  · rw [c6, b6, hP5]
  · rw [c7, b7, hP6]
  · rw [c9, b9, hP7]
  · rw [c8, b8, hP8]; simp

end PA
end Rtmfp
