import Verif.Model.SendFlow
import Verif.Spec.Stream
import Verif.Props.C01_C03_VLU

/-!
# C12: fragmentation preserves the message
-/

namespace Rtmfp

theorem sub64_le {a b : Nat} (h : b ≤ a) (ha : a < 2 ^ 64) : sub64 a b = a - b := by
  have hb : b % W64 = b := Nat.mod_eq_of_lt (by omega)
  rw [sub64, hb]
  have : a + (W64 - b) = (a - b) + W64 := by omega
  rw [this, Nat.add_mod_right, Nat.mod_eq_of_lt (by omega)]

/-- What the pieces of a message look like. -/
structure GoodPieces (maxLen : Nat) (msg : Bytes) (ps : List Bytes) : Prop where
  ne : ps ≠ []
  whole : ps.flatten = msg
  size : ∀ p ∈ ps, p.length ≤ maxLen
  full : ∀ p ∈ ps.dropLast, p.length = maxLen
  last : msg ≠ [] → ∀ p ∈ ps, p ≠ []

theorem cut_later (maxLen : Nat) (hm : 0 < maxLen) (fuel : Nat) : ∀ (fra : Fra) (rem : Bytes), fra ≠ .whole → rem ≠ [] → rem.length < fuel →
    ∃ ps, cut maxLen fuel fra rem = some (Spec.laterFrags ps) ∧ GoodPieces maxLen rem ps := by
  induction fuel with
  | zero => intro _ _ _ _ h; omega
  | succ n ih =>
    intro fra rem hf hr hlen
    have hpos : 0 < rem.length := List.length_pos_iff.mpr hr
    rw [cut]
    by_cases hl : rem.length > maxLen
    · rw [if_pos hl, if_pos hl, if_neg hf]
      have hd : rem.drop maxLen ≠ [] := by
        intro h; have := congrArg List.length h; rw [List.length_drop] at this; simp at this; omega
      rw [if_neg hd]
      obtain ⟨ps, h1, g⟩ := ih .middle (rem.drop maxLen) (by simp) hd (by rw [List.length_drop]; omega)
      refine ⟨rem.take maxLen :: ps, ?_, ?_⟩
      · rw [h1]
        obtain ⟨p, ps', rfl⟩ := List.exists_cons_of_ne_nil g.ne
        rfl
      · have hlt : (rem.take maxLen).length = maxLen := by rw [List.length_take]; omega
        constructor
        · simp
        · rw [List.flatten_cons, g.whole, List.take_append_drop]
        · intro p hp
          rcases List.mem_cons.mp hp with rfl | hp
          · omega
          · exact g.size p hp
        · intro p hp
          rw [List.dropLast_cons_of_ne_nil g.ne] at hp
          rcases List.mem_cons.mp hp with rfl | hp
          · exact hlt
          · exact g.full p hp
        · intro _ p hp
          rcases List.mem_cons.mp hp with rfl | hp
          · intro h; rw [h] at hlt; simp at hlt; omega
          · exact g.last hd p hp
    · rw [if_neg hl, if_neg hl, if_neg hf, List.drop_length, if_pos rfl, List.take_length]
      refine ⟨[rem], rfl, by simp, by simp, ?_, by simp, ?_⟩
      · intro p hp; simp at hp; subst hp; omega
      · intro _ p hp; simp at hp; subst hp; exact hr

theorem cut_first (maxLen : Nat) (hm : 0 < maxLen) (msg : Bytes) :
    ∃ ps, cut maxLen (msg.length + 1) .whole msg = some (Spec.fragsOfPieces ps) ∧ GoodPieces maxLen msg ps := by
  rw [cut]
  by_cases hl : msg.length > maxLen
  · rw [if_pos hl, if_pos hl, if_pos rfl]
    have hd : msg.drop maxLen ≠ [] := by
      intro h; have := congrArg List.length h; rw [List.length_drop] at this; simp at this; omega
    rw [if_neg hd]
    obtain ⟨ps, h1, g⟩ := cut_later maxLen hm msg.length .begin (msg.drop maxLen) (by simp) hd (by rw [List.length_drop]; omega)
    refine ⟨msg.take maxLen :: ps, ?_, ?_⟩
    · rw [h1]
      obtain ⟨p, ps', rfl⟩ := List.exists_cons_of_ne_nil g.ne
      rfl
    · have hlt : (msg.take maxLen).length = maxLen := by rw [List.length_take]; omega
      constructor
      · simp
      · rw [List.flatten_cons, g.whole, List.take_append_drop]
      · intro p hp
        rcases List.mem_cons.mp hp with rfl | hp
        · omega
        · exact g.size p hp
      · intro p hp
        rw [List.dropLast_cons_of_ne_nil g.ne] at hp
        rcases List.mem_cons.mp hp with rfl | hp
        · exact hlt
        · exact g.full p hp
      · intro _ p hp
        rcases List.mem_cons.mp hp with rfl | hp
        · intro h; rw [h] at hlt; simp at hlt; omega
        · exact g.last hd p hp
  · rw [if_neg hl, if_neg hl, if_pos rfl, List.drop_length, if_pos rfl, List.take_length]
    refine ⟨[msg], rfl, by simp, by simp, ?_, by simp, ?_⟩
    · intro p hp; simp at hp; subst hp; omega
    · intro hn p hp; simp at hp; subst hp; exact hn

theorem number_eq (rid : Nat) (names : Nat → Nat) (frags : List (Fra × Bytes)) : ∀ sn,
    (number rid names sn frags).map (fun f => (f.fra, f.data)) = frags ∧
    (number rid names sn frags).map SFrag.sn = List.range' sn frags.length ∧
    (∀ f ∈ number rid names sn frags, f.receipt = rid ∧ f.inFlight = false ∧ f.everSent = false ∧ f.name = names f.sn) := by
  induction frags with
  | nil => intro sn; simp [number]
  | cons a l ih =>
    intro sn
    obtain ⟨h1, h2, h3⟩ := ih (sn + 1)
    obtain ⟨fra, d⟩ := a
    refine ⟨by simp [number, h1, SFrag.new], by simp [number, h2, SFrag.new, List.range'_succ], ?_⟩
    intro f hf
    rw [number] at hf
    rcases List.mem_cons.mp hf with rfl | hf
    · exact ⟨rfl, rfl, rfl, rfl⟩
    · exact h3 f hf

theorem number_length (rid : Nat) (names : Nat → Nat) (frags : List (Fra × Bytes)) (sn : Nat) : (number rid names sn frags).length = frags.length := by
  have := congrArg List.length (number_eq rid names frags sn).2.1
  simpa using this

theorem opt_append_length (t : Nat) (v : Bytes) (dst : Bytes) (ht : t < 128) (hv : v.length + 1 < 128 * 128) :
    (Opt.append t v dst).length ≤ dst.length + 3 + v.length := by
  have h1 : (VLU.encode t).length ≤ 1 := encode_length_bound 0 t (by simpa using ht)
  have h2 : (VLU.encode (((VLU.encode t).length + v.length) % W64)).length ≤ 2 := by
    apply encode_length_bound 1
    rw [Nat.mod_eq_of_lt (by omega)]
    omega
  rw [Opt.append]
  simp only [List.length_append]
  omega

theorem options_length (metadata : Bytes) (assoc : Option Nat) (h : metadata.length ≤ 512) (ha : ∀ x, assoc = some x → x < 2 ^ 64) :
    0 < (startupOptions metadata assoc).length ∧ (startupOptions metadata assoc).length ≤ 529 := by
  have hm : ∀ o : Bytes, (Opt.appendMarker o).length = o.length + 1 := by
    intro o; simp [Opt.appendMarker, VLU.append, encode_eq_encode_zero]
  have h1 := opt_append_length USERDATA_OPTION_METADATA metadata [] (by decide) (by omega)
  simp at h1
  rw [startupOptions, hm]
  refine ⟨by omega, ?_⟩
  cases assoc with
  | none => rw [assocOption]; omega
  | some x =>
    rw [assocOption]
    have := encode_length_le x (ha x rfl)
    have h2 := opt_append_length USERDATA_OPTION_RETURN_ASSOCIATION (VLU.encode x) (Opt.append USERDATA_OPTION_METADATA metadata []) (by decide) (by omega)
    rw [Opt.appendVLU]
    omega

/-- C12. Writing a message to a flow (with startup options shorter than the fragment limit) always ends, and queues pieces that concatenate
to the message, with consecutive numbers, marked as the specification of the stream says; no piece is longer than the limit, all but the last are
exactly as long, and none is empty unless the message is. -/
theorem C12_write_fragments (s : SS) (i : Nat) (msg : Bytes) (now a b : Int) (rid : Nat) (names : Nat → Nat)
    (hopen : (s.flow i).baseOpen = true) (ho : (s.flow i).options.length < 1161) :
    ∃ t ps added, s.write i msg now a b rid names = some t ∧ (t.flow i).queue = (s.flow i).queue ++ added ∧
      added.map (fun f => (f.fra, f.data)) = Spec.fragsOfPieces ps ∧
      added.map SFrag.sn = List.range' (s.flow i).nextSn ps.length ∧ (t.flow i).nextSn = (s.flow i).nextSn + ps.length ∧
      (∀ f ∈ added, f.receipt = rid) ∧
      ps ≠ [] ∧ ps.flatten = msg ∧ (∀ p ∈ ps, p.length ≤ 1161 - (s.flow i).options.length) ∧
      (∀ p ∈ ps.dropLast, p.length = 1161 - (s.flow i).options.length) ∧ (msg ≠ [] → ∀ p ∈ ps, p ≠ []) ∧
      (∀ j, j ≠ i → t.flow j = s.flow j) := by
  have hmf : maxFrag (s.flow i).options = 1161 - (s.flow i).options.length := by
    rw [maxFrag, MAX_DATA_FRAG_LENGTH, sub64_le (by omega) (by omega)]
  obtain ⟨ps, h1, g⟩ := cut_first (maxFrag (s.flow i).options) (by omega) msg
  have hlen : (Spec.fragsOfPieces ps).length = ps.length := by
    have hl : ∀ l : List Bytes, (Spec.laterFrags l).length = l.length := by
      intro l
      induction l with
      | nil => rfl
      | cons x l ih =>
        cases l with
        | nil => rfl
        | cons y l => simp only [Spec.laterFrags, List.length_cons] at ih ⊢; omega
    cases ps with
    | nil => rfl
    | cons x l =>
      cases l with
      | nil => rfl
      | cons y l => simp only [Spec.fragsOfPieces, List.length_cons, hl]
  obtain ⟨n1, n2, n3⟩ := number_eq rid names (Spec.fragsOfPieces ps) (s.flow i).nextSn
  refine ⟨s.queueFrags i (Spec.fragsOfPieces ps) now a b rid names, ps, number rid names (s.flow i).nextSn (Spec.fragsOfPieces ps), ?_, ?_, n1, ?_, ?_, fun f hf => (n3 f hf).1, g.ne, g.whole, ?_, ?_, g.last, ?_⟩
  · rw [SS.write, if_pos hopen, SS.basicWrite, h1, Option.map_some]
  · simp [SS.queueFrags, SS.setFlow]
  · rw [n2, hlen]
  · simp [SS.queueFrags, SS.setFlow, hlen]
  · rw [← hmf]; exact g.size
  · rw [← hmf]; exact g.full
  · intro j hj; simp [SS.queueFrags, SS.setFlow, hj]

theorem ex12_options : startupOptions [1, 2, 3] (some 5) = [4, 0, 1, 2, 3, 2, 10, 5, 0] := by
  decide +kernel

/-- a flow with 9 bytes of options -/
def ex12 : SS := SS.init.openFlow 0 [1, 2, 3] (some 5) 3

/-- `C12_write_fragments` applies: 3000 bytes become three fragments of at most 1152 bytes. -/
example : (ex12.flow 0).baseOpen = true ∧ (ex12.flow 0).options.length = 9 ∧
    ((ex12.write 0 (List.replicate 3000 7) 0 1 1 1 id).map fun t => (t.flow 0).queue.map fun f => (f.sn, f.fra, f.data.length)) =
      some [(1, .begin, 1152), (2, .middle, 1152), (3, .end, 696)] := by
  rw [ex12, SS.openFlow, ex12_options]
  decide +kernel

/-- C12. The options of every flow that can be opened leave room: at least 632 bytes of a message go in each fragment. -/
theorem C12_options_leave_room (s : SS) (i : Nat) (metadata : Bytes) (assoc : Option Nat) (pri : Nat) (ha : ∀ x, assoc = some x → x < 2 ^ 64)
    (hnew : (s.openFlow i metadata assoc pri).flow i ≠ s.flow i) : ((s.openFlow i metadata assoc pri).flow i).options.length ≤ 529 := by
  rw [SS.openFlow] at hnew ⊢
  by_cases h : metadata.length > MAX_METADATA_LENGTH
  · rw [if_pos h] at hnew; exact absurd rfl hnew
  · rw [if_neg h]
    simp only [SS.setFlow, if_true, SF.init]
    exact (options_length metadata assoc (by simpa [MAX_METADATA_LENGTH] using h) ha).2

example : (SS.init.openFlow 0 [1, 2, 3] (some 5) 3).flow 0 ≠ SS.init.flow 0 := by
  rw [SS.openFlow, ex12_options]
  decide +kernel

end Rtmfp
