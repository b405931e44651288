import Verif.Lemmas.RtmpCalls

/-! # What an RTMP hears: one chunk -/

namespace Rtmfp.Rtmp

open Spec.Chunks

theorem put_same (f : Nat → α) (i : Nat) (a : α) : put f i a i = a := by simp [put]

theorem put_other (f : Nat → α) {i j : Nat} (a : α) (h : j ≠ i) : put f i a j = f j := by simp [put, h]

/-- the chunk stream `cs` is between messages -/
def settle (rx : Rx) (cs : Nat) : Rx := { rx with streams := put rx.streams cs { rx.streams cs with payload := [] } }

theorem Link.congr {rx rx' : Rx} {d : Dec} (L : Link rx d) (h1 : rx'.size = rx.size) (h2 : rx'.streams = rx.streams) : Link rx' d :=
  ⟨h1.trans L.size, fun i => by rw [h2]; exact L.streams i⟩

theorem rx_base (st : St) (rx : Rx) : Base st { st with rx := rx } := { Base.refl st with }

/-- what only changes what is to be sent (and what was acknowledged) -/
structure Plain (a b : St) : Prop extends Base a b where
  size : b.rx.size = a.rx.size
  streams : b.rx.streams = a.rx.streams
  input : b.rx.input = a.rx.input
  heard : heard b.log = heard a.log

theorem Calm.plain {a b : St} (h : Calm a b) : Plain a b :=
  ⟨h.toBase, by rw [h.rx], by rw [h.rx], by rw [h.rx], h.heard⟩

theorem Plain.trans {a b c : St} (h : Plain a b) (g : Plain b c) : Plain a c :=
  ⟨h.toBase.trans g.toBase, g.size.trans h.size, g.streams.trans h.streams, g.input.trans h.input, g.heard.trans h.heard⟩

theorem sendAck_plain (app : App) (st : St) : Plain st (sendAck app st) := by
  unfold sendAck
  split
  · refine Plain.trans ?_ (scheduleWrite_calm _).plain
    exact ⟨{ Base.refl st with }, rfl, rfl, rfl, rfl⟩
  · exact (Calm.refl st).plain

theorem onAck_plain (st : St) (p : Bytes) : Plain st (onAck st p).1 := by
  unfold onAck
  split
  · exact (Calm.refl st).plain
  · exact ((tx_calm st _ st.scheduled st.trimPending).trans (scheduleWrite_calm _)).plain

theorem onWindow_plain (app : App) (st : St) (p : Bytes) : Plain st (onWindowAckSize app st p).1 := by
  unfold onWindowAckSize
  split
  · exact (Calm.refl st).plain
  · refine Plain.trans ?_ (sendAck_plain app _)
    exact ⟨{ Base.refl st with }, rfl, rfl, rfl, rfl⟩

theorem onBandwidth_plain (app : App) (st : St) (p : Bytes) : Plain st (onSetPeerBandwidth app st p).1 := by
  unfold onSetPeerBandwidth
  split
  · exact (Calm.refl st).plain
  · simp only
    split
    · exact (Calm.refl st).plain
    · exact (tx_calm st _ st.scheduled st.trimPending).plain

theorem onAck_ok (st : St) (p : Bytes) : (onAck st p).2 = decide (4 ≤ p.length) := by
  unfold onAck
  split <;> simp <;> omega

theorem onWindow_ok (app : App) (st : St) (p : Bytes) : (onWindowAckSize app st p).2 = decide (4 ≤ p.length) := by
  unfold onWindowAckSize
  split <;> simp <;> omega

theorem onBandwidth_ok (app : App) (st : St) (p : Bytes) : (onSetPeerBandwidth app st p).2 = decide (5 ≤ p.length) := by
  unfold onSetPeerBandwidth
  split
  · simp; omega
  · simp only
    split <;> simp <;> omega

theorem control_iff (t : UInt8) : t ∈ [1, 2, 3, 5, 6] ↔ isControl t = true := by
  simp only [isControl, List.mem_cons, List.not_mem_nil, or_false, Bool.or_eq_true, decide_eq_true_eq, or_assoc]

/-- what the application hears of a message -/
def told (st : St) (l : List Message) : List Message := if st.cbs ∧ st.phase.rank < 5 then users l else []

/-- **A message is complete**: what is done is what the chunk streams do, and it is heard if it isn't theirs. -/
theorem completed (app : App) (st : St) (cs : Nat) (d : Dec) (L : Link (settle st.rx cs) d) (m : Message) :
    match d.obey m with
    | some d2 => (onMessageCompleted app st m.sid m.type m.ts m.payload).2 = true ∧
        Link (settle (onMessageCompleted app st m.sid m.type m.ts m.payload).1.rx cs) d2 ∧
        Base st (onMessageCompleted app st m.sid m.type m.ts m.payload).1 ∧
        (onMessageCompleted app st m.sid m.type m.ts m.payload).1.rx.input = st.rx.input ∧
        heard (onMessageCompleted app st m.sid m.type m.ts m.payload).1.log = heard st.log ++ told st [m]
    | none => onMessageCompleted app st m.sid m.type m.ts m.payload = (st, false) := by
  obtain ⟨sid, type, ts, p⟩ := m
  have hplain : ∀ b, Plain st b → isControl type = true → Link (settle b.rx cs) d ∧ Base st b ∧ b.rx.input = st.rx.input ∧
      heard b.log = heard st.log ++ told st [⟨sid, type, ts, p⟩] := by
    intro b h hc
    refine ⟨L.congr h.size (by simp only [settle, h.streams]), h.toBase, h.input, ?_⟩
    rw [h.heard, show told st [⟨sid, type, ts, p⟩] = [] by simp [told, users, hc], List.append_nil]
  unfold onMessageCompleted Dec.obey
  simp only
  by_cases hc : isControl type = true
  · rw [if_pos ((control_iff type).mpr hc), if_neg (by rw [hc]; simp)]
    by_cases hs' : sid ≠ 0
    · rw [if_pos hs', if_pos (.inl hs')]
    · have hs : sid = 0 := Decidable.not_not.mp hs'
      rw [if_neg hs']
      by_cases hl : p.length < 4
      · rw [if_pos (.inr hl)]
        simp only
        unfold onSetChunkSize onAbort onAck onWindowAckSize onSetPeerBandwidth
        simp only [if_pos hl, if_pos (show p.length < 5 by omega), ite_self]
      · rw [if_neg (by rintro (h | h) <;> contradiction)]
        have hrd : (readBe (p.take 4)).toNat = num (p.take 4) := readBe_num _ (by simp; omega)
        by_cases h1 : type = 1
        · rw [if_pos h1, if_pos h1]
          unfold onSetChunkSize
          rw [if_neg hl]
          simp only
          by_cases hn : 0 < num (p.take 4) ∧ num (p.take 4) < 2 ^ 31
          · have hm : ¬ (readBe (p.take 4) = 0 ∨ readBe (p.take 4) > 0x7fffffff) := by
              rintro (h | h)
              · rw [h] at hrd; have : num (p.take 4) = 0 := hrd.symm; omega
              · have h := UInt32.lt_iff_toNat_lt.mp h
                rw [hrd] at h
                have : num (p.take 4) > 0x7fffffff := h
                omega
            rw [if_pos hn, if_neg hm]
            refine ⟨rfl, ⟨hrd, L.streams⟩, { Base.refl st with }, rfl, ?_⟩
            rw [show told st [⟨sid, type, ts, p⟩] = [] by simp [told, users, hc], List.append_nil]
          · have hm : readBe (p.take 4) = 0 ∨ readBe (p.take 4) > 0x7fffffff := by
              by_cases h0 : num (p.take 4) = 0
              · left; apply UInt32.toNat_inj.mp; rw [hrd, h0]; rfl
              · right; apply UInt32.lt_iff_toNat_lt.mpr; rw [hrd]
                show 0x7fffffff < num (p.take 4)
                omega
            rw [if_neg hn, if_pos hm]
        · rw [if_neg h1, if_neg h1]
          by_cases h2 : type = 2
          · rw [if_pos h2, if_pos h2]
            unfold onAbort
            rw [if_neg hl]
            simp only
            by_cases hn : 2 ≤ num (p.take 4) ∧ num (p.take 4) ≤ 65599
            · have hm : ¬ (readBe (p.take 4) < 2 ∨ readBe (p.take 4) > 65599) := by
                rintro (h | h)
                · have h := UInt32.lt_iff_toNat_lt.mp h
                  rw [hrd] at h
                  have : num (p.take 4) < 2 := h
                  omega
                · have h := UInt32.lt_iff_toNat_lt.mp h
                  rw [hrd] at h
                  have : 65599 < num (p.take 4) := h
                  omega
              rw [if_pos hn, if_neg hm, hrd]
              generalize num (p.take 4) = n
              have hin : (st.rx.streams n).h.initted = ((settle st.rx cs).streams n).h.initted := by
                simp only [settle, put]; split <;> simp_all
              cases hst : d.streams n with
              | none =>
                rw [if_pos (by rw [hin]; exact L.none hst)]
                simp
              | some s =>
                have S := L.some hst
                rw [if_neg (by rw [hin, S.init]; simp)]
                refine ⟨rfl, ⟨L.size, fun i => ?_⟩, { Base.refl st with }, rfl, ?_⟩
                · have hi := L.streams i
                  by_cases hic : i = n
                  · subst hic
                    simp only [Dec.set, if_true]
                    have hx : Same { (settle st.rx cs).streams i with payload := [] } { s with part := [] } :=
                      ⟨S.init, S.sid, S.ts, S.delta, S.len, S.type, rfl⟩
                    by_cases hcs : i = cs
                    · subst hcs; simpa [settle, put] using hx
                    · simpa [settle, put, hcs] using hx
                  · simp only [Dec.set, hic, if_false]
                    have e : (settle { st.rx with streams := put st.rx.streams n { st.rx.streams n with payload := [] } } cs).streams i =
                        (settle st.rx cs).streams i := by
                      simp only [settle, put]
                      by_cases hcs : i = cs
                      · subst hcs; simp [hic]
                      · simp [hcs, hic]
                    show match d.streams i with | none => _ | some s => _
                    rw [e]
                    exact hi
                · rw [show told st [⟨sid, type, ts, p⟩] = [] by simp [told, users, hc], List.append_nil]
            · have hm : readBe (p.take 4) < 2 ∨ readBe (p.take 4) > 65599 := by
                by_cases h0 : num (p.take 4) < 2
                · left; apply UInt32.lt_iff_toNat_lt.mpr; rw [hrd]; exact h0
                · right; apply UInt32.lt_iff_toNat_lt.mpr; rw [hrd]
                  show 65599 < num (p.take 4)
                  omega
              rw [if_neg hn, if_pos hm]
          · rw [if_neg h2, if_neg h2]
            by_cases h3 : type = 3
            · rw [if_pos h3, if_neg (by rw [h3]; rintro ⟨h, _⟩; revert h; decide)]
              exact ⟨by rw [onAck_ok]; simp; omega, hplain _ (onAck_plain st p) hc⟩
            · rw [if_neg h3]
              by_cases h5 : type = 5
              · rw [if_pos h5, if_neg (by rw [h5]; rintro ⟨h, _⟩; revert h; decide)]
                exact ⟨by rw [onWindow_ok]; simp; omega, hplain _ (onWindow_plain app st p) hc⟩
              · rw [if_neg h5]
                have h6 : type = 6 := by
                  rcases (by simpa [isControl] using hc : ((((type = 1 ∨ type = 2) ∨ type = 3) ∨ type = 5) ∨ type = 6)) with (((h | h) | h) | h) | h <;>
                    first | exact h | contradiction
                by_cases hl5 : p.length < 5
                · rw [if_pos ⟨h6, hl5⟩]
                  unfold onSetPeerBandwidth
                  rw [if_pos hl5]
                · rw [if_neg (fun h => hl5 h.2)]
                  exact ⟨by rw [onBandwidth_ok]; simp; omega, hplain _ (onBandwidth_plain app st p) hc⟩
  · have hc' : isControl type = false := by simpa using hc
    rw [if_neg (fun h => hc ((control_iff type).mp h)), if_pos hc']
    simp only
    have hu : users [⟨sid, type, ts, p⟩] = [⟨sid, type, ts, p⟩] := by simp [users, hc']
    by_cases ht : st.cbs = true ∧ st.phase.rank < 5
    · rw [if_pos ht, show told st [⟨sid, type, ts, p⟩] = [⟨sid, type, ts, p⟩] by rw [told, if_pos ht, hu]]
      have h1 : Base st (emit st (.message sid type ts p)) := { Base.refl st with log := List.prefix_append _ _, cbs := .inl rfl, np := fun _ => ⟨rfl, rfl⟩, phase := fun _ => .inl rfl, rel := fun h => .inl (by simpa [emit] using h) }
      have h2 := calls_calm app (app.react (emit st (.message sid type ts p)).log) (emit st (.message sid type ts p))
      unfold callback
      refine ⟨trivial, L.congr ?_ ?_, h1.trans h2.toBase, ?_, ?_⟩
      · show _ = (settle (emit st (.message sid type ts p)).rx cs).size
        rw [h2.rx]
      · show _ = (settle (emit st (.message sid type ts p)).rx cs).streams
        rw [h2.rx]
      · rw [h2.rx]; rfl
      · rw [h2.heard]
        show Rtmp.heard (st.log ++ [_]) = _
        rw [heard_append]
        rfl
    · rw [if_neg ht, show told st [⟨sid, type, ts, p⟩] = [] by rw [told, if_neg ht], List.append_nil]
      exact ⟨trivial, L, Base.refl st, rfl, rfl⟩

theorem wire_length (d : Dec) (c : Chunk) :
    (d.wire c).length = (c.id ++ c.form.bytes).length + (extended (d.time c)).length + c.data.length := by
  unfold Dec.wire; rw [List.length_append, List.length_append]

/-- **Not all of a chunk is not looked at.** -/
theorem parse_part (rx : Rx) (d : Dec) (L : Link rx d) (c : Chunk) (hf : c.Fits) (s : Stream) (hb : d.begin c = some s)
    (hd : c.data.length = min d.size (s.len - s.part.length)) (p : Bytes) (hp : p <+: d.wire c) (hl : p.length < (d.wire c).length) :
    parse rx p = .more := by
  have hw : d.wire c = (c.id ++ c.form.bytes) ++ (extended (d.time c) ++ c.data) := by simp [Dec.wire]
  by_cases h : p.length < (c.id ++ c.form.bytes).length
  · exact parse_short rx c hf p (List.prefix_of_prefix_length_le hp (hw ▸ List.prefix_append _ _) (by omega)) h
  · obtain ⟨y, rfl⟩ : (c.id ++ c.form.bytes) <+: p := List.prefix_of_prefix_length_le (hw ▸ List.prefix_append _ _) hp (by omega)
    refine (parse_chunk rx d L c hf s hb y).1 ?_
    rw [wire_length, List.length_append (as := c.id ++ c.form.bytes) (bs := y)] at hl
    omega

/-- **A chunk is received.** -/
theorem open_take (app : App) (st : St) (d : Dec) (L : Link st.rx d) (c : Chunk) (hf : c.Fits) (d2 : Dec) (ms : List Message)
    (ht : d.take c = some (d2, ms)) (rest : Bytes) :
    ∃ st', openInput app st (d.wire c ++ rest) = (st', some (d.wire c).length) ∧ Link st'.rx d2 ∧ Base st st' ∧ st'.rx.input = st.rx.input ∧
      heard st'.log = heard st.log ++ told st ms := by
  unfold Dec.take at ht
  cases hb : d.begin c with
  | none => rw [hb] at ht; nomatch ht
  | some s =>
    rw [hb] at ht
    simp only [Option.bind_some] at ht
    have hd : c.data.length = min d.size (s.len - s.part.length) := by
      by_cases hd : c.data.length = min d.size (s.len - s.part.length)
      · exact hd
      · rw [if_pos hd] at ht; nomatch ht
    rw [if_neg (by simp [hd])] at ht
    obtain ⟨c', hp, S⟩ := (parse_chunk st.rx d L c hf s hb (extended (d.time c) ++ c.data ++ rest)).2 rest hd rfl
    have hp : parse st.rx (d.wire c ++ rest) = .chunk c.cs c' (d.wire c).length := by
      rw [← hp]; simp [Dec.wire]
    unfold openInput
    rw [hp]
    simp only
    have hlen : c'.payload.length = c'.h.len ↔ (s.part ++ c.data).length = s.len := by rw [S.payload, S.len]
    by_cases hw : (s.part ++ c.data).length = s.len
    · rw [if_pos hw] at ht
      rw [if_pos (hlen.mpr hw)]
      have L1 : Link (settle { st.rx with streams := put st.rx.streams c.cs c' } c.cs) (d.set c.cs { s with part := [] }) := by
        refine ⟨L.size, fun i => ?_⟩
        by_cases hi : i = c.cs
        · subst hi
          simp only [Dec.set, if_true, settle, put]
          exact ⟨S.init, S.sid, S.ts, S.delta, S.len, S.type, rfl⟩
        · simp only [Dec.set, hi, if_false, settle, put]
          exact L.streams i
      have key := completed app { st with rx := { st.rx with streams := put st.rx.streams c.cs c' } } c.cs (d.set c.cs { s with part := [] }) L1
        ⟨s.sid, s.type, s.ts, s.part ++ c.data⟩
      cases ho : (d.set c.cs { s with part := [] }).obey ⟨s.sid, s.type, s.ts, s.part ++ c.data⟩ with
      | none => rw [ho] at ht; nomatch ht
      | some d' =>
        rw [ho] at ht key
        simp only [Option.map_some, Option.some.injEq, Prod.mk.injEq] at ht
        obtain ⟨rfl, rfl⟩ := ht
        simp only at key
        rw [S.sid, S.type, S.ts, S.payload]
        simp only
        generalize onMessageCompleted app { st with rx := { st.rx with streams := put st.rx.streams c.cs c' } } s.sid s.type s.ts (s.part ++ c.data) = R at key
        obtain ⟨k1, k2, k3, k4, k5⟩ := key
        rw [if_pos k1]
        refine ⟨_, rfl, k2, ?_, k4, k5⟩
        exact (rx_base st _).trans (k3.trans (rx_base _ _))
    · rw [if_neg hw] at ht
      rw [if_neg (fun h => hw (hlen.mp h))]
      simp only [Option.some.injEq, Prod.mk.injEq] at ht
      obtain ⟨rfl, rfl⟩ := ht
      refine ⟨_, rfl, ⟨L.size, fun i => ?_⟩, { Base.refl st with }, rfl, by simp [told, users]⟩
      by_cases hi : i = c.cs
      · subst hi
        simp only [Dec.set, if_true, put]
        exact S
      · simp only [Dec.set, hi, if_false, put]
        exact L.streams i

/-- **What isn't allowed is refused.** -/
theorem open_refuse (app : App) (st : St) (d : Dec) (L : Link st.rx d) (c : Chunk) (hf : c.Fits) (ht : d.take c = none)
    (hd : ∀ s, d.begin c = some s → c.data.length = min d.size (s.len - s.part.length)) (rest : Bytes) :
    (openInput app st (d.wire c ++ rest)).2 = none ∧ heard (openInput app st (d.wire c ++ rest)).1.log = heard st.log := by
  cases hb : d.begin c with
  | none =>
    have hp : parse st.rx (d.wire c ++ rest) = .bad := by
      have e : d.wire c ++ rest = c.id ++ (c.form.bytes ++ (extended (d.time c) ++ c.data ++ rest)) := by simp [Dec.wire]
      have h0 : d.streams c.cs = none ∧ bitsOf c.form ≠ 0 := by
        unfold Dec.begin at hb
        split at hb
        · nomatch hb
        · nomatch hb
        · nomatch hb
        · nomatch hb
        · next h4 h3 =>
          refine ⟨h4, ?_⟩
          cases hfm : c.form with
          | full a b e g => exact absurd hfm (h3 a b e g)
          | _ => simp [bitsOf, Form.num]
      rw [e, parse_id st.rx c hf, if_neg]
      · unfold parseHead
        rw [if_pos ⟨L.none h0.1, h0.2⟩]
      · rw [List.length_append, List.length_append (as := c.form.bytes), bytes_length]; omega
    unfold openInput
    rw [hp]
    exact ⟨rfl, rfl⟩
  | some s =>
    unfold Dec.take at ht
    rw [hb] at ht
    have hd := hd s hb
    simp only [Option.bind_some] at ht
    rw [if_neg (by simp [hd])] at ht
    obtain ⟨c', hp, S⟩ := (parse_chunk st.rx d L c hf s hb (extended (d.time c) ++ c.data ++ rest)).2 rest hd rfl
    have hp : parse st.rx (d.wire c ++ rest) = .chunk c.cs c' (d.wire c).length := by
      rw [← hp]; simp [Dec.wire]
    unfold openInput
    rw [hp]
    simp only
    have hlen : c'.payload.length = c'.h.len ↔ (s.part ++ c.data).length = s.len := by rw [S.payload, S.len]
    by_cases hw : (s.part ++ c.data).length = s.len
    · rw [if_pos hw] at ht
      rw [if_pos (hlen.mpr hw)]
      have L1 : Link (settle { st.rx with streams := put st.rx.streams c.cs c' } c.cs) (d.set c.cs { s with part := [] }) := by
        refine ⟨L.size, fun i => ?_⟩
        by_cases hi : i = c.cs
        · subst hi
          simp only [Dec.set, if_true, settle, put]
          exact ⟨S.init, S.sid, S.ts, S.delta, S.len, S.type, rfl⟩
        · simp only [Dec.set, hi, if_false, settle, put]
          exact L.streams i
      have key := completed app { st with rx := { st.rx with streams := put st.rx.streams c.cs c' } } c.cs (d.set c.cs { s with part := [] }) L1
        ⟨s.sid, s.type, s.ts, s.part ++ c.data⟩
      cases ho : (d.set c.cs { s with part := [] }).obey ⟨s.sid, s.type, s.ts, s.part ++ c.data⟩ with
      | some d' => rw [ho] at ht; nomatch ht
      | none =>
        rw [ho] at key
        simp only at key
        rw [S.sid, S.type, S.ts, S.payload]
        simp only [key]
        exact ⟨by simp, by simp⟩
    · rw [if_neg hw] at ht
      nomatch ht

end Rtmfp.Rtmp
