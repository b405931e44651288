import Verif.Model.UserData
import Verif.Lemmas.Ack
import Verif.Props.C04_C06_Packet
import Verif.Props.C01_C03_VLU

/-! # Data chunks: what is put in a packet and what is read from it -/

namespace Rtmfp
namespace SS
open PA

/-- header of a data chunk -/
def putHead (c : Put) : Bytes := if c.next then [] else VLU.encode c.flowId ++ (VLU.encode c.sn ++ VLU.encode c.off)

/-- contents of a data chunk -/
def putPayload (c : Put) : Bytes := c.flags :: (putHead c ++ (c.options ++ c.data))

/-- type of a data chunk -/
def putType (c : Put) : UInt8 := if c.next then CHUNK_NEXT_USERDATA else CHUNK_USERDATA

/-- all of a data chunk -/
def putWire (c : Put) : Bytes := PA.wire (putType c) (putPayload c)

theorem putHeader_spec {p : PA} (h : p.Inv) (c : Put) :
    (∃ bs, Pushed p (putHeader p c).1 bs) ∧ ((putHeader p c).2 = true → Pushed p (putHeader p c).1 (putHead c)) ∧
    (p.cursor + (putHead c).length ≤ p.limit → (putHeader p c).2 = true) := by
  by_cases hn : c.next = true
  · rw [putHeader, putHead]
    simp only [if_pos hn]
    exact ⟨⟨[], Pushed.nil h⟩, fun _ => Pushed.nil h, fun _ => trivial⟩
  · have hd : putHeader p c =
        if (p.push (VLU.encode c.flowId)).2 = false then p.push (VLU.encode c.flowId) else
        if ((p.push (VLU.encode c.flowId)).1.push (VLU.encode c.sn)).2 = false then (p.push (VLU.encode c.flowId)).1.push (VLU.encode c.sn) else
        ((p.push (VLU.encode c.flowId)).1.push (VLU.encode c.sn)).1.push (VLU.encode c.off) := by
      rw [putHeader, if_neg hn]; rfl
    rw [hd, putHead, if_neg hn]
    by_cases ha : (p.push (VLU.encode c.flowId)).2 = true
    · have pa := push_true h ha
      rw [if_neg (by simp [ha])]
      by_cases hb : ((p.push (VLU.encode c.flowId)).1.push (VLU.encode c.sn)).2 = true
      · have pb := push_true pa.inv hb
        rw [if_neg (by simp [hb])]
        by_cases hc : (((p.push (VLU.encode c.flowId)).1.push (VLU.encode c.sn)).1.push (VLU.encode c.off)).2 = true
        · have pc := push_true pb.inv hc
          have := (pa.trans pb).trans pc
          rw [List.append_assoc] at this
          exact ⟨⟨_, this⟩, fun _ => this, fun _ => hc⟩
        · have hc' := Bool.eq_false_iff.mpr hc
          refine ⟨⟨VLU.encode c.flowId ++ VLU.encode c.sn, ?_⟩, fun h => absurd h hc, fun hr => absurd (push_ok pb.inv _ ?_) hc⟩
          · rw [push_false pb.inv hc']
            exact pa.trans pb
          · have h1 := pa.cur; have h2 := pb.cur; have h3 := pa.same.2.1; have h4 := pb.same.2.1
            simp only [List.length_append] at hr
            omega
      · have hb' := Bool.eq_false_iff.mpr hb
        rw [if_pos hb']
        refine ⟨⟨VLU.encode c.flowId, ?_⟩, fun h => absurd h hb, fun hr => absurd (push_ok pa.inv _ ?_) hb⟩
        · rw [push_false pa.inv hb']
          exact pa
        · have h1 := pa.cur; have h3 := pa.same.2.1
          simp only [List.length_append] at hr
          omega
    · have ha' := Bool.eq_false_iff.mpr ha
      rw [if_pos ha']
      refine ⟨⟨[], ?_⟩, fun h => absurd h ha, fun hr => absurd (push_ok h _ ?_) ha⟩
      · rw [push_false h ha']
        exact Pushed.nil h
      · simp only [List.length_append] at hr; omega

theorem putBody_spec {p : PA} (h : p.Inv) (c : Put) :
    (∃ bs, Pushed p (putBody p c).1 bs) ∧ ((putBody p c).2 = true → Pushed p (putBody p c).1 (putPayload c)) ∧
    (p.cursor + (putPayload c).length ≤ p.limit → (putBody p c).2 = true) := by
  rw [putBody]
  by_cases ha : (p.push [c.flags]).2 = true
  · have pa := push_true h ha
    rw [if_neg (by simp [ha])]
    obtain ⟨⟨bs, b1⟩, b2, b3⟩ := putHeader_spec pa.inv c
    by_cases hb : (putHeader (p.push [c.flags]).1 c).2 = true
    · have pb := b2 hb
      rw [if_neg (by simp [hb])]
      by_cases hd : ((putHeader (p.push [c.flags]).1 c).1.push c.options).2 = true
      · have pd := push_true pb.inv hd
        rw [if_neg (by simp [hd])]
        by_cases he : (((putHeader (p.push [c.flags]).1 c).1.push c.options).1.push c.data).2 = true
        · have pe := push_true pd.inv he
          have := ((pa.trans pb).trans pd).trans pe
          have e : [c.flags] ++ putHead c ++ c.options ++ c.data = putPayload c := by simp [putPayload]
          rw [e] at this
          exact ⟨⟨_, this⟩, fun _ => this, fun _ => he⟩
        · have he' := Bool.eq_false_iff.mpr he
          refine ⟨⟨[c.flags] ++ putHead c ++ c.options, ?_⟩, fun h => absurd h he, fun hr => absurd (push_ok pd.inv _ ?_) he⟩
          · rw [push_false pd.inv he']
            exact (pa.trans pb).trans pd
          · have h1 := ((pa.trans pb).trans pd).cur; have h2 := ((pa.trans pb).trans pd).same.2.1
            simp only [putPayload, List.length_append, List.length_cons, List.length_nil] at hr h1
            omega
      · have hd' := Bool.eq_false_iff.mpr hd
        rw [if_pos hd']
        refine ⟨⟨[c.flags] ++ putHead c, ?_⟩, fun h => absurd h hd, fun hr => absurd (push_ok pb.inv _ ?_) hd⟩
        · rw [push_false pb.inv hd']
          exact pa.trans pb
        · have h1 := (pa.trans pb).cur; have h2 := (pa.trans pb).same.2.1
          simp only [putPayload, List.length_append, List.length_cons, List.length_nil] at hr h1
          omega
    · have hb' := Bool.eq_false_iff.mpr hb
      rw [if_pos hb']
      refine ⟨⟨[c.flags] ++ bs, pa.trans b1⟩, fun h => absurd h hb, fun hr => absurd (b3 ?_) hb⟩
      have h1 := pa.cur; have h2 := pa.same.2.1
      simp only [putPayload, List.length_append, List.length_cons, List.length_nil] at hr h1
      omega
  · have ha' := Bool.eq_false_iff.mpr ha
    rw [if_pos ha']
    refine ⟨⟨[], ?_⟩, fun h => absurd h ha, fun hr => absurd (push_ok h _ ?_) ha⟩
    · rw [push_false h ha']; exact Pushed.nil h
    · simp only [putPayload, List.length_append, List.length_cons, List.length_nil] at hr ⊢; omega

/-- after a chunk was given up the packet is as before -/
structure Unchanged (p q : PA) : Prop where
  inv : q.Inv
  same : Same p q
  vec : q.toVector = p.toVector
  cur : q.cursor = p.cursor

/-- after a chunk was committed -/
structure Added (p q : PA) (bs : Bytes) : Prop where
  inv : q.Inv
  same : Same p q
  vec : q.toVector = p.toVector ++ bs
  cur : q.cursor = p.cursor + bs.length

theorem putChunk_spec {p : PA} (h : p.Inv) (c : Put) :
    ((putChunk p c).2 = true → Added p (putChunk p c).1 (putWire c)) ∧
    ((putChunk p c).2 = false → Unchanged p (putChunk p c).1) ∧
    ((putChunk p c).2 = true ↔ p.cursor + (putWire c).length ≤ p.limit) := by
  have ht : (if c.next then CHUNK_NEXT_USERDATA else CHUNK_USERDATA) = putType c := rfl
  have hl : (putWire c).length = (putPayload c).length + 3 := PA.wire_length _ _
  have key : ((putChunk p c).2 = true → Added p (putChunk p c).1 (putWire c)) ∧
    ((putChunk p c).2 = false → Unchanged p (putChunk p c).1) ∧
    (p.cursor + (putWire c).length ≤ p.limit → (putChunk p c).2 = true) := by
    rw [putChunk, ht]
    by_cases hs : (p.startChunk (putType c)).2 = true
    · obtain ⟨a1, a2, a3, _⟩ := startChunk_inv h (putType c)
      obtain ⟨v1, v2, v3⟩ := a3 hs
      rw [if_neg (by simp [hs])]
      obtain ⟨⟨bs, b1⟩, b2, b3⟩ := putBody_spec a1 c
      by_cases hb : (putBody (p.startChunk (putType c)).1 c).2 = true
      · rw [if_neg (by simp [hb])]
        obtain ⟨r, r1, r2, r3, r4, r5⟩ := chunk_done h hs (b2 hb)
        rw [r1]
        exact ⟨fun _ => ⟨r2, r3, r4, r5⟩, fun h => (by cases h), fun _ => rfl⟩
      · have hb' := Bool.eq_false_iff.mpr hb
        rw [if_pos hb']
        refine ⟨fun h => (by cases h), fun _ => ?_, fun hr => absurd (b3 ?_) hb⟩
        · obtain ⟨c1, c2, _⟩ := rollback_inv b1.inv
          have hcs : (putBody (p.startChunk (putType c)).1 c).1.chunkStart = some (p.cursor + 3) := by rw [b1.cs, v3]
          have hcur : (putBody (p.startChunk (putType c)).1 c).1.rollbackChunk.cursor = p.cursor := by
            rw [rollbackChunk, hcs]; simp
          refine ⟨c1, (a2.trans b1.same).trans c2, ?_, hcur⟩
          have hv := b1.vec
          rw [v1] at hv
          have h1 := h.cur; have h2 := h.lim; have h3 := b1.inv.cur; have h4 := b1.inv.lim; have h5 := b1.cur
          rw [rollbackChunk, hcs]
          simp only [toVector] at hv ⊢
          have := congrArg (List.take p.cursor) hv
          rw [List.take_take, Nat.min_eq_left (by omega), List.append_assoc,
            List.take_append_of_le_length (by simp; omega), List.take_take, Nat.min_self] at this
          simpa using this
        · have := a2.2.1; omega
    · have hs' := Bool.eq_false_iff.mpr hs
      rw [if_pos hs']
      obtain ⟨_, _, _, a4⟩ := startChunk_inv h (putType c)
      refine ⟨fun h => absurd h hs, fun _ => ?_, fun hr => absurd (startChunk_ok h _ (by omega)) hs⟩
      rw [a4 hs']
      exact ⟨h, Same.refl _, rfl, rfl⟩
  refine ⟨key.1, key.2.1, fun ht => ?_, key.2.2⟩
  have k := key.1 ht
  have h1 := k.inv.cur; have h2 := k.same.2.1; have h3 := k.cur
  omega

end SS
end Rtmfp
