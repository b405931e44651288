import Verif.Spec.AMF
/-! # Lemmas about AMF0 -/
namespace Rtmfp
namespace AMF

theorem byte_ofNat (v : Nat) : (UInt8.ofNat (v &&& 0xff)).toNat = v % 256 := by
  have : v &&& 0xff = v % 2 ^ 8 := Nat.and_two_pow_sub_one_eq_mod v 8
  rw [this]
  simp

theorem rdNum_be16 (n : Nat) (h : n < 2 ^ 16) (c : Bytes) : rdNum 2 0 (be16 n ++ c) = some (n, c) := by
  show some ((0 * 256 + (UInt8.ofNat ((n >>> 8) &&& 0xff)).toNat) * 256 + (UInt8.ofNat (n &&& 0xff)).toNat, c) = _
  rw [byte_ofNat, byte_ofNat, Nat.shiftRight_eq_div_pow]
  congr 2
  omega

theorem rdNum_be32 (n : Nat) (h : n < 2 ^ 32) (c : Bytes) : rdNum 4 0 (be32 n ++ c) = some (n, c) := by
  show some ((((0 * 256 + (UInt8.ofNat ((n >>> 24) &&& 0xff)).toNat) * 256 + (UInt8.ofNat ((n >>> 16) &&& 0xff)).toNat) * 256 +
    (UInt8.ofNat ((n >>> 8) &&& 0xff)).toNat) * 256 + (UInt8.ofNat (n &&& 0xff)).toNat, c) = _
  simp only [byte_ofNat, Nat.shiftRight_eq_div_pow]
  congr 2
  omega

theorem rdNum_be64 (n : Nat) (h : n < 2 ^ 64) (c : Bytes) : rdNum 8 0 (be64 n ++ c) = some (n, c) := by
  show some ((((((((0 * 256 + (UInt8.ofNat ((n >>> 56) &&& 0xff)).toNat) * 256 + (UInt8.ofNat ((n >>> 48) &&& 0xff)).toNat) * 256 +
    (UInt8.ofNat ((n >>> 40) &&& 0xff)).toNat) * 256 + (UInt8.ofNat ((n >>> 32) &&& 0xff)).toNat) * 256 +
    (UInt8.ofNat ((n >>> 24) &&& 0xff)).toNat) * 256 + (UInt8.ofNat ((n >>> 16) &&& 0xff)).toNat) * 256 +
    (UInt8.ofNat ((n >>> 8) &&& 0xff)).toNat) * 256 + (UInt8.ofNat (n &&& 0xff)).toNat, c) = _
  simp only [byte_ofNat, Nat.shiftRight_eq_div_pow]
  congr 2
  omega

theorem be16_length (n : Nat) : (be16 n).length = 2 := rfl
theorem be32_length (n : Nat) : (be32 n).length = 4 := rfl
theorem be64_length (n : Nat) : (be64 n).length = 8 := rfl

theorem rdN_append (s c : Bytes) : rdN s.length (s ++ c) = some (s, c) := by
  rw [rdN, if_pos (by simp)]
  simp

/-- reading a number from enough bytes -/
theorem rdNum_ok : ∀ (n acc : Nat) (c : Bytes), n ≤ c.length → ∃ v, rdNum n acc c = some (v, c.drop n) ∧ v < (acc + 1) * 256 ^ n := by
  intro n
  induction n with
  | zero => intro acc c _; exact ⟨acc, rfl, by simp⟩
  | succ n ih =>
    intro acc c h
    cases c with
    | nil => simp at h
    | cons b c =>
      obtain ⟨v, h1, h2⟩ := ih (acc * 256 + b.toNat) c (by simpa using h)
      refine ⟨v, h1, Nat.lt_of_lt_of_le h2 ?_⟩
      have : b.toNat < 256 := b.toNat_lt
      have e : (acc + 1) * 256 ^ (n + 1) = ((acc + 1) * 256) * 256 ^ n := by rw [Nat.pow_succ, Nat.mul_assoc, Nat.mul_comm 256]
      rw [e]
      exact Nat.mul_le_mul_right _ (by omega)

theorem rdN_ok (n : Nat) (c : Bytes) (h : n ≤ c.length) : rdN n c = some (c.take n, c.drop n) := by rw [rdN, if_pos h]

theorem keyLt_irrefl : ∀ a, keyLt a a = false := by
  intro a
  induction a with
  | nil => rfl
  | cons x xs ih => simp [keyLt, ih]

theorem keyLt_trans : ∀ a b c, keyLt a b = true → keyLt b c = true → keyLt a c = true := by
  intro a
  induction a with
  | nil =>
    intro b c h h'
    cases c with
    | nil => cases b <;> simp [keyLt] at h'
    | cons z zs => rfl
  | cons x xs ih =>
    intro b c h h'
    cases b with
    | nil => simp [keyLt] at h
    | cons y ys =>
      cases c with
      | nil => simp [keyLt] at h'
      | cons z zs =>
        simp only [keyLt, Bool.or_eq_true, decide_eq_true_eq, Bool.and_eq_true, beq_iff_eq] at h h' ⊢
        rcases h with h | ⟨h, h2⟩
        · rcases h' with h' | ⟨h', _⟩
          · exact .inl (UInt8.lt_trans h h')
          · subst h'; exact .inl h
        · subst h
          rcases h' with h' | ⟨h', h3⟩
          · exact .inl h'
          · exact .inr ⟨h', ih ys zs h2 h3⟩

theorem keyLt_total : ∀ a b, keyLt a b = true ∨ keyLt b a = true ∨ a = b := by
  intro a
  induction a with
  | nil => intro b; cases b with
    | nil => exact .inr (.inr rfl)
    | cons y ys => exact .inl rfl
  | cons x xs ih =>
    intro b
    cases b with
    | nil => exact .inr (.inl rfl)
    | cons y ys =>
      simp only [keyLt, Bool.or_eq_true, decide_eq_true_eq, Bool.and_eq_true, beq_iff_eq]
      rcases Nat.lt_trichotomy x.toNat y.toNat with h | h | h
      · exact .inl (.inl (UInt8.lt_iff_toNat_lt.mpr h))
      · have e : x = y := UInt8.toNat_inj.mp h
        subst e
        rcases ih ys with h | h | h
        · exact .inl (.inr ⟨rfl, h⟩)
        · exact .inr (.inl (.inr ⟨rfl, h⟩))
        · exact .inr (.inr (by rw [h]))
      · exact .inr (.inl (.inl (UInt8.lt_iff_toNat_lt.mpr h)))

theorem toList_ofList (l : List (Bytes × Val)) : (Mem.ofList l).toList = l := by
  induction l with
  | nil => rfl
  | cons e l ih => obtain ⟨k, v⟩ := e; show (k, v) :: _ = _; rw [ih]

theorem ofList_toList : ∀ m : Mem, Mem.ofList m.toList = m
  | .nil => rfl
  | .cons k v m => by show Mem.cons k v (Mem.ofList m.toList) = _; rw [ofList_toList m]

theorem vtoList_ofList (l : List Val) : (Vals.ofList l).toList = l := by
  induction l with
  | nil => rfl
  | cons e l ih => show e :: _ = _; rw [ih]

theorem vofList_toList : ∀ m : Vals, Vals.ofList m.toList = m
  | .nil => rfl
  | .cons v m => by show Vals.cons v (Vals.ofList m.toList) = _; rw [vofList_toList m]

theorem norm_keys : ∀ m : Mem, m.norm.toList = m.toList.map (fun e => (e.1, e.2.norm))
  | .nil => rfl
  | .cons k v m => by
    rw [Mem.norm, Mem.toList, Mem.toList, List.map_cons, norm_keys m]

/-! ## maps -/

theorem mapPut_mem (l : List (Bytes × Val)) (k : Bytes) (v : Val) (e : Bytes × Val) (h : e ∈ mapPut l k v) : e = (k, v) ∨ e ∈ l := by
  induction l with
  | nil => exact .inl (by simpa [mapPut] using h)
  | cons x l ih =>
    obtain ⟨k', v'⟩ := x
    rw [mapPut] at h
    split at h
    · rcases List.mem_cons.mp h with h | h
      · exact .inl h
      · exact .inr h
    · split at h
      · rcases List.mem_cons.mp h with h | h
        · exact .inr (by rw [h]; exact List.mem_cons_self)
        · exact (ih h).imp id (List.mem_cons_of_mem _)
      · rename_i h1 h2
        have e1 : k = k' := by
          rcases keyLt_total k k' with a | a | a
          · exact absurd a h1
          · exact absurd a h2
          · exact a
        rcases List.mem_cons.mp h with h | h
        · exact .inl (by rw [h, e1])
        · exact .inr (List.mem_cons_of_mem _ h)

theorem mapPut_ok (l : List (Bytes × Val)) (k : Bytes) (v : Val) (h : (Mem.ofList l).Ok) (hk : k.length < 2 ^ 16) (hv : v.Ok) : (Mem.ofList (mapPut l k v)).Ok := by
  induction l with
  | nil => exact ⟨hk, fun e he => (by cases he), hv, trivial⟩
  | cons x l ih =>
    obtain ⟨k', v'⟩ := x
    obtain ⟨h1, h2, h3, h4⟩ := h
    rw [toList_ofList] at h2
    rw [mapPut]
    split
    · rename_i hlt
      refine ⟨hk, ?_, hv, h1, by rw [toList_ofList]; exact h2, h3, h4⟩
      intro e he
      rcases List.mem_cons.mp he with he | he
      · rw [he]; exact hlt
      · rw [toList_ofList] at he
        exact keyLt_trans _ _ _ hlt (h2 e he)
    · split
      · rename_i hlt
        refine ⟨h1, ?_, h3, ih h4⟩
        rw [toList_ofList]
        intro e he
        rcases mapPut_mem _ _ _ _ he with he | he
        · rw [he]; exact hlt
        · exact h2 e he
      · exact ⟨h1, by rw [toList_ofList]; exact h2, hv, h4⟩

theorem mapPut_last (l : List (Bytes × Val)) (k : Bytes) (v : Val) (h : ∀ e ∈ l, keyLt e.1 k = true) : mapPut l k v = l ++ [(k, v)] := by
  induction l with
  | nil => rfl
  | cons x l ih =>
    obtain ⟨k', v'⟩ := x
    have h1 := h _ List.mem_cons_self
    dsimp only at h1
    have h2 : keyLt k k' = false := by
      cases e : keyLt k k' with
      | false => rfl
      | true => have := keyLt_trans _ _ _ h1 e; rw [keyLt_irrefl] at this; cases this
    rw [mapPut, h2, if_neg Bool.false_ne_true, if_pos h1, ih (fun e he => h e (List.mem_cons_of_mem _ he))]
    rfl

/-! ## what decoding gives back -/

theorem enc_head (v : Val) : ∃ b t, v.encode = b :: t ∧ b ≠ 0x09 := by
  cases v with
  | nullptr => exact ⟨_, _, rfl, by decide⟩
  | num b => exact ⟨_, _, rfl, by decide⟩
  | bool b => exact ⟨_, _, rfl, by decide⟩
  | str s =>
    rw [Val.encode, encodeStr]
    split
    · exact ⟨_, _, rfl, by decide⟩
    · exact ⟨_, _, rfl, by decide⟩
  | obj m => exact ⟨_, _, rfl, by decide⟩
  | null => exact ⟨_, _, rfl, by decide⟩
  | undef => exact ⟨_, _, rfl, by decide⟩
  | ecma m => exact ⟨_, _, rfl, by decide⟩
  | arr l => exact ⟨_, _, rfl, by decide⟩
  | typed n m => exact ⟨_, _, rfl, by decide⟩

/-- a decoder's answer turned into the cursor's place on failure -/
theorem decodeD_cons (k : Nat) (b : UInt8) (c : Bytes) : decodeD (k + 1) (b :: c) = (setFrom (decodeD k) b c).map (fun r =>
    match r.1 with
    | some v => (some v, r.2)
    | none => (none, b :: c)) := rfl

theorem decodeString_short (s c : Bytes) (h : s.length < 2 ^ 16) : decodeString false (be16 s.length ++ s ++ c) = some (some s, c) := by
  rw [decodeString, if_neg (by simp [be16_length]), List.append_assoc]
  show (rdNum 2 0 _).bind _ = _
  rw [rdNum_be16 _ h, Option.bind_some]
  dsimp only
  rw [if_neg (by simp), rdN_append]
  rfl

theorem decodeString_long (s c : Bytes) (h : s.length < 2 ^ 32) : decodeString true (be32 s.length ++ s ++ c) = some (some s, c) := by
  rw [decodeString, if_neg (by simp [be32_length]), List.append_assoc]
  show (rdNum 4 0 _).bind _ = _
  rw [rdNum_be32 _ h, Option.bind_some]
  dsimp only
  rw [if_neg (by simp), rdN_append]
  rfl

/-- one member -/
theorem objLoop_member (dec : Dec) (c0 : Bytes) (fuel : Nat) (k : Bytes) (hk : k.length < 2 ^ 16) (b : UInt8) (hb : b ≠ 0x09) (t : Bytes) (m : List (Bytes × Val)) :
    objLoop dec c0 (fuel + 1) (be16 k.length ++ (k ++ (b :: t))) m = (dec (b :: t)).bind (fun v =>
      match v.1 with
      | none => some (none, c0)
      | some x => objLoop dec c0 fuel v.2 (putValueAtKey m x k)) := by
  rw [objLoop, if_neg (by simp [be16_length]; omega), rdNum_be16 _ hk, Option.bind_some]
  dsimp only
  rw [if_neg (by simp)]
  have : (if k.length = 0 then (rd (k ++ b :: t)).map (fun e => decide (e.1 = 0x09)) else some false) = some false := by
    split
    · rename_i h
      rw [List.length_eq_zero_iff] at h
      subst h
      simp [rd, hb]
    · rfl
  rw [this, Option.bind_some, if_neg Bool.false_ne_true, rdN_append, Option.bind_some]
  rfl

theorem objLoop_end (dec : Dec) (c0 : Bytes) (fuel : Nat) (c : Bytes) (m : List (Bytes × Val)) :
    objLoop dec c0 (fuel + 1) (0 :: 0 :: 0x09 :: c) m = some (some m, c) := by
  have e : (0 :: 0 :: 0x09 :: c : Bytes) = be16 0 ++ 0x09 :: c := rfl
  rw [e, objLoop, if_neg (by simp [be16_length]; omega), rdNum_be16 _ (by decide), Option.bind_some]
  dsimp only
  rw [if_neg (by simp), if_pos rfl]
  rfl

theorem setFrom_num (dec : Dec) (c : Bytes) : setFrom dec 0x00 c =
    if c.length < 8 then some (none, c) else (rdNum 8 0 c).map (fun r => (some (.num (UInt64.ofNat r.1)), r.2)) := rfl
theorem setFrom_ecma (dec : Dec) (c : Bytes) : setFrom dec 0x08 c =
    if c.length < 4 then some (none, c) else (decodeObj dec (c.drop 4)).map (fun r => (r.1.map (fun m => .ecma (.ofList m)), r.2)) := rfl

mutual
theorem rt_val : ∀ (v : Val) (k : Nat) (post : Bytes), v.Ok → v.nest < k → decodeD k (v.encode ++ post) = some (some v.norm, post)
  | .nullptr, 0, _, _, h => absurd h (Nat.not_lt_zero _)
  | .nullptr, _ + 1, _, _, _ => rfl
  | .num b, 0, _, _, h => absurd h (Nat.not_lt_zero _)
  | .num b, k + 1, post, _, _ => by
    show decodeD (k + 1) (0x00 :: (be64 b.toNat ++ post)) = _
    rw [decodeD_cons, setFrom_num, if_neg (by simp [be64_length]), rdNum_be64 _ b.toNat_lt]
    simp [Val.norm]
  | .bool b, 0, _, _, h => absurd h (Nat.not_lt_zero _)
  | .bool b, k + 1, post, _, _ => by cases b <;> rfl
  | .str s, 0, _, _, h => absurd h (Nat.not_lt_zero _)
  | .str s, k + 1, post, h, _ => by
    rw [Val.encode, encodeStr]
    split
    · show decodeD (k + 1) (0x0c :: (be32 s.length ++ s ++ post)) = _
      rw [decodeD_cons]
      show ((decodeString true _).map _).map _ = _
      rw [decodeString_long s post h]
      rfl
    · show decodeD (k + 1) (0x02 :: (be16 s.length ++ s ++ post)) = _
      rw [decodeD_cons]
      show ((decodeString false _).map _).map _ = _
      rw [decodeString_short s post (by omega)]
      rfl
  | .null, 0, _, _, h => absurd h (Nat.not_lt_zero _)
  | .null, _ + 1, _, _, _ => rfl
  | .undef, 0, _, _, h => absurd h (Nat.not_lt_zero _)
  | .undef, _ + 1, _, _, _ => rfl
  | .obj m, 0, _, _, h => absurd h (Nat.not_lt_zero _)
  | .obj m, k + 1, post, h, hn => by
    show decodeD (k + 1) (0x03 :: (m.encode ++ post)) = _
    rw [decodeD_cons]
    show ((decodeObj (decodeD k) _).map _).map _ = _
    rw [decodeObj, rt_mem m k _ _ [] post h (Nat.le_of_lt_succ hn) (fun _ h => (by cases h)) (Nat.lt_succ_self _)]
    simp [Val.norm, ofList_toList]
  | .ecma m, 0, _, _, h => absurd h (Nat.not_lt_zero _)
  | .ecma m, k + 1, post, h, hn => by
    show decodeD (k + 1) (0x08 :: (be32 (min m.size 0xffffffff) ++ m.encode ++ post)) = _
    rw [decodeD_cons, setFrom_ecma, if_neg (by simp [be32_length]), List.append_assoc, show ∀ x, (be32 (min m.size 0xffffffff) ++ x).drop 4 = x from fun x => rfl]
    rw [decodeObj, rt_mem m k _ _ [] post h (Nat.le_of_lt_succ hn) (fun _ h => (by cases h)) (Nat.lt_succ_self _)]
    simp [Val.norm, ofList_toList]
  | .arr l, 0, _, _, h => absurd h (Nat.not_lt_zero _)
  | .arr l, k + 1, post, h, hn => by
    show decodeD (k + 1) (0x0a :: (be32 l.size ++ l.encode ++ post)) = _
    rw [decodeD_cons]
    show ((decodeArr (decodeD k) _).map _).map _ = _
    rw [decodeArr, if_neg (by simp [be32_length]), List.append_assoc, rdNum_be32 _ h.1, Option.bind_some]
    dsimp only
    rw [rt_vals l k _ [] post h.2 (Nat.le_of_lt_succ hn)]
    simp [Val.norm, vofList_toList]
  | .typed n m, 0, _, _, h => absurd h (Nat.not_lt_zero _)
  | .typed n m, k + 1, post, h, hn => by
    show decodeD (k + 1) (0x10 :: (be16 n.length ++ n ++ m.encode ++ post)) = _
    rw [decodeD_cons]
    show ((decodeString false _).bind _).map _ = _
    rw [List.append_assoc, decodeString_short n _ h.1, Option.bind_some]
    dsimp only
    rw [decodeObj, rt_mem m k _ _ [] post h.2 (Nat.le_of_lt_succ hn) (fun _ h => (by cases h)) (Nat.lt_succ_self _)]
    simp [Val.norm, ofList_toList]
theorem rt_mem : ∀ (m : Mem) (k : Nat) (c0 : Bytes) (fuel : Nat) (acc : List (Bytes × Val)) (post : Bytes), m.Ok → m.nest ≤ k →
    (∀ e ∈ acc, ∀ e' ∈ m.toList, keyLt e.1 e'.1 = true) → (m.encode ++ post).length < fuel →
    objLoop (decodeD k) c0 fuel (m.encode ++ post) acc = some (some (acc ++ m.norm.toList), post)
  | .nil, k, c0, 0, acc, post, _, _, _, hf => absurd hf (Nat.not_lt_zero _)
  | .nil, k, c0, fuel + 1, acc, post, _, _, _, hf => by
    show objLoop _ c0 (fuel + 1) (0 :: 0 :: 0x09 :: post) acc = _
    rw [objLoop_end, Mem.norm, Mem.toList, List.append_nil]
  | .cons key v m, k, c0, 0, acc, post, _, _, _, hf => absurd hf (Nat.not_lt_zero _)
  | .cons key v m, k, c0, fuel + 1, acc, post, h, hn, ha, hf => by
    obtain ⟨h1, h2, h3, h4⟩ := h
    rw [Mem.nest] at hn
    rw [Mem.encode] at hf ⊢
    simp only [List.append_assoc] at hf ⊢
    obtain ⟨b, t, he, hb⟩ := enc_head v
    have e1 : v.encode ++ (m.encode ++ post) = b :: (t ++ (m.encode ++ post)) := by rw [he]; rfl
    rw [e1, objLoop_member _ _ _ _ h1 _ hb, ← e1, rt_val v k _ h3 (by omega), Option.bind_some]
    dsimp only
    rw [putValueAtKey, if_pos h1, mapPut_last _ _ _ (fun e he => ha e he _ List.mem_cons_self),
      rt_mem m k c0 fuel _ post h4 (by omega) ?_ ?_]
    · simp [Mem.norm, Mem.toList]
    · intro e he' e' he''
      rcases List.mem_append.mp he' with a | a
      · exact ha e a e' (List.mem_cons_of_mem _ he'')
      · rw [List.mem_singleton.mp a]; exact h2 e' he''
    · simp only [List.length_append, be16_length] at hf ⊢
      omega
theorem rt_vals : ∀ (l : Vals) (k : Nat) (c0 : Bytes) (acc : List Val) (post : Bytes), l.Ok → l.nest ≤ k →
    arrLoop (decodeD k) c0 l.size (l.encode ++ post) acc = some (some (acc ++ l.norm.toList), post)
  | .nil, k, c0, acc, post, _, _ => by
    show some (some acc, post) = _
    rw [Vals.norm, Vals.toList, List.append_nil]
  | .cons v l, k, c0, acc, post, h, hn => by
    rw [Vals.nest] at hn
    rw [Vals.size, Vals.encode, arrLoop, List.append_assoc, rt_val v k _ h.1 (by omega), Option.bind_some]
    dsimp only
    rw [rt_vals l k c0 _ post h.2 (by omega)]
    simp [Vals.norm, Vals.toList]
end

/-! ## values nested too deep -/

theorem decodeD_zero (c : Bytes) : decodeD 0 c = some (none, c) := rfl

mutual
theorem deep_val : ∀ (v : Val) (k : Nat) (post : Bytes), v.Ok → k ≤ v.nest → decodeD k (v.encode ++ post) = some (none, v.encode ++ post)
  | v, 0, _, _, _ => rfl
  | .nullptr, k + 1, _, _, h => absurd h (Nat.not_succ_le_zero _)
  | .num b, k + 1, _, _, h => absurd h (Nat.not_succ_le_zero _)
  | .bool b, k + 1, _, _, h => absurd h (Nat.not_succ_le_zero _)
  | .str s, k + 1, _, _, h => absurd h (Nat.not_succ_le_zero _)
  | .null, k + 1, _, _, h => absurd h (Nat.not_succ_le_zero _)
  | .undef, k + 1, _, _, h => absurd h (Nat.not_succ_le_zero _)
  | .obj m, k + 1, post, h, hn => by
    show decodeD (k + 1) (0x03 :: (m.encode ++ post)) = _
    rw [decodeD_cons]
    show ((decodeObj (decodeD k) _).map _).map _ = _
    rw [decodeObj, deep_mem m k _ _ [] post h hn (Nat.lt_succ_self _)]
    rfl
  | .ecma m, k + 1, post, h, hn => by
    show decodeD (k + 1) (0x08 :: (be32 (min m.size 0xffffffff) ++ m.encode ++ post)) = _
    rw [decodeD_cons, setFrom_ecma, if_neg (by simp [be32_length]), List.append_assoc, show ∀ x, (be32 (min m.size 0xffffffff) ++ x).drop 4 = x from fun x => rfl]
    rw [decodeObj, deep_mem m k _ _ [] post h hn (Nat.lt_succ_self _)]
    simp [Val.encode]
  | .arr l, k + 1, post, h, hn => by
    show decodeD (k + 1) (0x0a :: (be32 l.size ++ l.encode ++ post)) = _
    rw [decodeD_cons]
    show ((decodeArr (decodeD k) _).map _).map _ = _
    rw [decodeArr, if_neg (by simp [be32_length]), List.append_assoc, rdNum_be32 _ h.1, Option.bind_some]
    dsimp only
    rw [deep_vals l k _ [] post h.2 hn]
    simp [Val.encode]
  | .typed n m, k + 1, post, h, hn => by
    show decodeD (k + 1) (0x10 :: (be16 n.length ++ n ++ m.encode ++ post)) = _
    rw [decodeD_cons]
    show ((decodeString false _).bind _).map _ = _
    rw [List.append_assoc, decodeString_short n _ h.1, Option.bind_some]
    dsimp only
    rw [decodeObj, deep_mem m k _ _ [] post h.2 hn (Nat.lt_succ_self _)]
    simp [Val.encode]
theorem deep_mem : ∀ (m : Mem) (k : Nat) (c0 : Bytes) (fuel : Nat) (acc : List (Bytes × Val)) (post : Bytes), m.Ok → k < m.nest →
    (m.encode ++ post).length < fuel → objLoop (decodeD k) c0 fuel (m.encode ++ post) acc = some (none, c0)
  | .nil, k, c0, fuel, acc, post, _, hn, _ => absurd hn (Nat.not_lt_zero _)
  | .cons key v m, k, c0, 0, acc, post, _, _, hf => absurd hf (Nat.not_lt_zero _)
  | .cons key v m, k, c0, fuel + 1, acc, post, h, hn, hf => by
    obtain ⟨h1, h2, h3, h4⟩ := h
    rw [Mem.nest] at hn
    rw [Mem.encode] at hf ⊢
    simp only [List.append_assoc] at hf ⊢
    obtain ⟨b, t, he, hb⟩ := enc_head v
    have e1 : v.encode ++ (m.encode ++ post) = b :: (t ++ (m.encode ++ post)) := by rw [he]; rfl
    rw [e1, objLoop_member _ _ _ _ h1 _ hb, ← e1]
    by_cases hv : k ≤ v.nest
    · rw [deep_val v k _ h3 hv]
      rfl
    · rw [rt_val v k _ h3 (by omega), Option.bind_some]
      dsimp only
      rw [deep_mem m k c0 fuel _ post h4 (by omega) ?_]
      simp only [List.length_append, be16_length] at hf ⊢
      omega
theorem deep_vals : ∀ (l : Vals) (k : Nat) (c0 : Bytes) (acc : List Val) (post : Bytes), l.Ok → k < l.nest →
    arrLoop (decodeD k) c0 l.size (l.encode ++ post) acc = some (none, c0)
  | .nil, k, c0, acc, post, _, hn => absurd hn (Nat.not_lt_zero _)
  | .cons v l, k, c0, acc, post, h, hn => by
    rw [Vals.nest] at hn
    rw [Vals.size, Vals.encode, arrLoop, List.append_assoc]
    by_cases hv : k ≤ v.nest
    · rw [deep_val v k _ h.1 hv]
      rfl
    · rw [rt_val v k _ h.1 (by omega), Option.bind_some]
      dsimp only
      rw [deep_vals l k c0 _ post h.2 (by omega)]
end

/-! ## decoding arbitrary bytes -/

/-- a value decoded from some bytes, `k` levels allowed -/
structure Fine (k : Nat) (v : Val) (used : Nat) : Prop where
  ok : v.Ok
  nest : v.nest < k
  full : v.norm = v
  nodes : v.nodes ≤ used

/-- decoding never goes outside, keeps the cursor on failure and advances it on success -/
def Safe (k : Nat) (dec : Dec) : Prop :=
  ∀ c, ∃ r c', dec c = some (r, c') ∧ (r = none → c' = c) ∧ ∀ v, r = some v → ∃ used, used ≠ [] ∧ c = used ++ c' ∧ Fine k v used.length

/-- members decoded so far -/
structure FineM (k : Nat) (m : List (Bytes × Val)) (used : Nat) : Prop where
  ok : (Mem.ofList m).Ok
  nest : (Mem.ofList m).nest ≤ k
  full : (Mem.ofList m).norm = Mem.ofList m
  nodes : (Mem.ofList m).nodes ≤ used

theorem mapPut_nest (l : List (Bytes × Val)) (key : Bytes) (v : Val) (k : Nat) (h : (Mem.ofList l).nest ≤ k) (hv : v.nest < k) :
    (Mem.ofList (mapPut l key v)).nest ≤ k := by
  induction l with
  | nil => show max (v.nest + 1) 0 ≤ k; omega
  | cons x l ih =>
    obtain ⟨k', v'⟩ := x
    have h' : max (v'.nest + 1) (Mem.ofList l).nest ≤ k := h
    rw [mapPut]
    split
    · show max (v.nest + 1) (max (v'.nest + 1) (Mem.ofList l).nest) ≤ k; omega
    · split
      · have := ih (by omega)
        show max (v'.nest + 1) (Mem.ofList (mapPut l key v)).nest ≤ k; omega
      · show max (v.nest + 1) (Mem.ofList l).nest ≤ k; omega

theorem mapPut_nodes (l : List (Bytes × Val)) (key : Bytes) (v : Val) : (Mem.ofList (mapPut l key v)).nodes ≤ (Mem.ofList l).nodes + v.nodes := by
  induction l with
  | nil => show v.nodes + 0 ≤ 0 + v.nodes; omega
  | cons x l ih =>
    obtain ⟨k', v'⟩ := x
    have e : (Mem.ofList ((k', v') :: l)).nodes = v'.nodes + (Mem.ofList l).nodes := rfl
    rw [e, mapPut]
    split
    · show v.nodes + (v'.nodes + (Mem.ofList l).nodes) ≤ _; omega
    · split
      · show v'.nodes + (Mem.ofList (mapPut l key v)).nodes ≤ _; omega
      · show v.nodes + (Mem.ofList l).nodes ≤ _; omega

theorem mapPut_full (l : List (Bytes × Val)) (key : Bytes) (v : Val) (h : (Mem.ofList l).norm = Mem.ofList l) (hv : v.norm = v) :
    (Mem.ofList (mapPut l key v)).norm = Mem.ofList (mapPut l key v) := by
  induction l with
  | nil => show Mem.cons key v.norm .nil = _; rw [hv]; rfl
  | cons x l ih =>
    obtain ⟨k', v'⟩ := x
    have h' : Mem.cons k' v'.norm (Mem.ofList l).norm = Mem.cons k' v' (Mem.ofList l) := h
    injection h' with _ h1 h2
    rw [mapPut]
    split
    · show Mem.cons key v.norm (Mem.cons k' v'.norm (Mem.ofList l).norm) = Mem.cons key v (Mem.cons k' v' (Mem.ofList l))
      rw [hv, h1, h2]
    · split
      · show Mem.cons k' v'.norm (Mem.ofList (mapPut l key v)).norm = Mem.cons k' v' (Mem.ofList (mapPut l key v))
        rw [h1, ih h2]
      · show Mem.cons k' v.norm (Mem.ofList l).norm = Mem.cons k' v (Mem.ofList l)
        rw [hv, h2]

theorem put_fine {k m n v u} (hm : FineM k m n) (hv : Fine k v u) (key : Bytes) : FineM k (putValueAtKey m v key) (n + u) := by
  rw [putValueAtKey]
  split
  · rename_i h
    refine ⟨mapPut_ok _ _ _ hm.ok h hv.ok, mapPut_nest _ _ _ _ hm.nest hv.nest, mapPut_full _ _ _ hm.full hv.full, ?_⟩
    have := mapPut_nodes m key v
    have := hm.nodes
    have := hv.nodes
    omega
  · exact ⟨hm.ok, hm.nest, hm.full, Nat.le_trans hm.nodes (Nat.le_add_right _ _)⟩

theorem objLoop_safe {k dec} (hd : Safe k dec) (c0 : Bytes) : ∀ (fuel : Nat) (c : Bytes) (m : List (Bytes × Val)) (n : Nat), c.length < fuel → FineM k m n →
    ∃ r c', objLoop dec c0 fuel c m = some (r, c') ∧ (r = none → c' = c0) ∧ ∀ m', r = some m' → ∃ used, used ≠ [] ∧ c = used ++ c' ∧ FineM k m' (n + used.length) := by
  intro fuel
  induction fuel with
  | zero => intro c m n h; omega
  | succ fuel ih =>
    intro c m n hf hm
    rw [objLoop]
    by_cases h3 : c.length < 3
    · rw [if_pos h3]
      exact ⟨none, c0, rfl, fun _ => rfl, fun _ h => (by cases h)⟩
    · rw [if_neg h3]
      obtain ⟨kl, h1, _⟩ := rdNum_ok 2 0 c (by omega)
      rw [h1, Option.bind_some]
      dsimp only
      by_cases hk : (c.drop 2).length < kl
      · rw [if_pos hk]
        exact ⟨none, c0, rfl, fun _ => rfl, fun _ h => (by cases h)⟩
      · rw [if_neg hk]
        have hend : ∃ isEnd, (if kl = 0 then (rd (c.drop 2)).map (fun e => decide (e.1 = 0x09)) else some false) = some isEnd := by
          split
          · cases hc : c.drop 2 with
            | nil => have := congrArg List.length hc; simp at this; omega
            | cons b t => exact ⟨_, rfl⟩
          · exact ⟨_, rfl⟩
        obtain ⟨isEnd, hend⟩ := hend
        rw [hend, Option.bind_some]
        by_cases he : isEnd = true
        · rw [if_pos he]
          refine ⟨some m, (c.drop 2).drop 1, rfl, fun h => (by cases h), ?_⟩
          intro m' h'
          cases h'
          refine ⟨c.take 3, ?_, ?_, hm.ok, hm.nest, hm.full, Nat.le_trans hm.nodes (Nat.le_add_right _ _)⟩
          · intro e
            have := congrArg List.length e
            rw [List.length_take, List.length_nil] at this
            omega
          · rw [List.drop_drop]
            exact (List.take_append_drop 3 c).symm
        · rw [if_neg he, rdN_ok _ _ (by omega), Option.bind_some]
          dsimp only
          obtain ⟨r, c1, q1, q2, q3⟩ := hd ((c.drop 2).drop kl)
          rw [q1, Option.bind_some]
          dsimp only
          cases r with
          | none => exact ⟨none, c0, rfl, fun _ => rfl, fun _ h => (by cases h)⟩
          | some v =>
            obtain ⟨used, u1, u2, u3⟩ := q3 v rfl
            have len : c1.length < fuel := by
              have e1 := congrArg List.length u2
              have e2 : 0 < used.length := List.length_pos_iff.mpr u1
              simp only [List.length_drop, List.length_append] at e1
              omega
            obtain ⟨r', c', w1, w2, w3⟩ := ih c1 (putValueAtKey m v ((c.drop 2).take kl)) _ len (put_fine hm u3 _)
            refine ⟨r', c', w1, w2, ?_⟩
            intro m' hm'
            obtain ⟨used', v1, v2, v3⟩ := w3 m' hm'
            refine ⟨c.take 2 ++ (c.drop 2).take kl ++ used ++ used', ?_, ?_, ⟨v3.ok, v3.nest, v3.full, ?_⟩⟩
            · intro e
              exact v1 (List.append_eq_nil_iff.mp e).2
            · have e1 : c.take 2 ++ (c.drop 2).take kl ++ used ++ used' ++ c' = c.take 2 ++ ((c.drop 2).take kl ++ (used ++ (used' ++ c'))) := by simp
              rw [e1, ← v2, ← u2, List.take_append_drop, List.take_append_drop]
            · have := v3.nodes
              simp only [List.length_append]
              omega

theorem decodeObj_safe {k dec} (hd : Safe k dec) (c : Bytes) :
    ∃ r c', decodeObj dec c = some (r, c') ∧ (r = none → c' = c) ∧ ∀ m', r = some m' → ∃ used, used ≠ [] ∧ c = used ++ c' ∧ FineM k m' used.length := by
  obtain ⟨r, c', h1, h2, h3⟩ := objLoop_safe hd c (c.length + 1) c [] 0 (Nat.lt_succ_self _) ⟨trivial, Nat.zero_le _, rfl, Nat.le_refl _⟩
  refine ⟨r, c', h1, h2, fun m' hm => ?_⟩
  obtain ⟨u, a, b, d⟩ := h3 m' hm
  exact ⟨u, a, b, by rw [Nat.zero_add] at d; exact d⟩

/-- elements decoded so far -/
structure FineL (k : Nat) (l : List Val) (used : Nat) : Prop where
  ok : (Vals.ofList l).Ok
  nest : (Vals.ofList l).nest ≤ k
  full : (Vals.ofList l).norm = Vals.ofList l
  nodes : (Vals.ofList l).nodes ≤ used

theorem FineL.snoc {k l n v u} (h : FineL k l n) (hv : Fine k v u) : FineL k (l ++ [v]) (n + u) := by
  obtain ⟨h1, h2, h3, h4⟩ := h
  induction l generalizing n with
  | nil =>
    refine ⟨⟨hv.ok, trivial⟩, ?_, ?_, ?_⟩
    · show max (v.nest + 1) 0 ≤ k; have := hv.nest; omega
    · show Vals.cons v.norm .nil = _; rw [hv.full]; rfl
    · show v.nodes + 0 ≤ _; have := hv.nodes; omega
  | cons x l ih =>
    have e2 : max (x.nest + 1) (Vals.ofList l).nest ≤ k := h2
    have e3 : Vals.cons x.norm (Vals.ofList l).norm = Vals.cons x (Vals.ofList l) := h3
    have e4 : x.nodes + (Vals.ofList l).nodes ≤ n := h4
    injection e3 with e3 e3'
    have q := ih (n := n - x.nodes) h1.2 (by omega) e3' (by omega)
    refine ⟨⟨h1.1, q.ok⟩, ?_, ?_, ?_⟩
    · show max (x.nest + 1) (Vals.ofList (l ++ [v])).nest ≤ k; have := q.nest; omega
    · show Vals.cons x.norm (Vals.ofList (l ++ [v])).norm = Vals.cons x (Vals.ofList (l ++ [v])); rw [e3, q.full]
    · show x.nodes + (Vals.ofList (l ++ [v])).nodes ≤ _; have := q.nodes; omega

theorem size_ofList (l : List Val) : (Vals.ofList l).size = l.length := by
  induction l with
  | nil => rfl
  | cons x l ih => show (Vals.ofList l).size + 1 = _; rw [ih]; rfl

theorem arrLoop_safe {k dec} (hd : Safe k dec) (c0 : Bytes) : ∀ (n : Nat) (c : Bytes) (l : List Val) (b : Nat), FineL k l b →
    ∃ r c', arrLoop dec c0 n c l = some (r, c') ∧ (r = none → c' = c0) ∧ ∀ l', r = some l' → l'.length = l.length + n ∧ ∃ used, c = used ++ c' ∧ FineL k l' (b + used.length) := by
  intro n
  induction n with
  | zero =>
    intro c l b hl
    refine ⟨some l, c, rfl, fun h => (by cases h), ?_⟩
    intro l' h
    cases h
    exact ⟨rfl, [], rfl, hl⟩
  | succ n ih =>
    intro c l b hl
    rw [arrLoop]
    obtain ⟨r, c1, q1, q2, q3⟩ := hd c
    rw [q1, Option.bind_some]
    dsimp only
    cases r with
    | none => exact ⟨none, c0, rfl, fun _ => rfl, fun _ h => (by cases h)⟩
    | some v =>
      obtain ⟨used, u1, u2, u3⟩ := q3 v rfl
      obtain ⟨r', c', w1, w2, w3⟩ := ih c1 (l ++ [v]) _ (hl.snoc u3)
      refine ⟨r', c', w1, w2, ?_⟩
      intro l' hl'
      obtain ⟨w4, used', v2, v3⟩ := w3 l' hl'
      refine ⟨by rw [w4]; simp; omega, used ++ used', by rw [List.append_assoc, ← v2]; exact u2, ?_⟩
      rw [List.length_append, ← Nat.add_assoc]
      exact v3

theorem decodeArr_safe {k dec} (hd : Safe k dec) (c : Bytes) :
    ∃ r c', decodeArr dec c = some (r, c') ∧ (r = none → c' = c) ∧ ∀ l', r = some l' → l'.length < 2 ^ 32 ∧ ∃ used, used ≠ [] ∧ c = used ++ c' ∧ FineL k l' used.length := by
  rw [decodeArr]
  by_cases h : c.length < 4
  · rw [if_pos h]
    exact ⟨none, c, rfl, fun _ => rfl, fun _ h => (by cases h)⟩
  · rw [if_neg h]
    obtain ⟨n, h1, h2⟩ := rdNum_ok 4 0 c (by omega)
    rw [h1, Option.bind_some]
    dsimp only
    obtain ⟨r, c', q1, q2, q3⟩ := arrLoop_safe hd c n (c.drop 4) [] 0 ⟨trivial, Nat.zero_le _, rfl, Nat.le_refl _⟩
    refine ⟨r, c', q1, q2, ?_⟩
    intro l' hl
    obtain ⟨a, used, b, d⟩ := q3 l' hl
    refine ⟨by rw [a, show ([] : List Val).length = 0 from rfl]; omega, c.take 4 ++ used, ?_, ?_, d.ok, d.nest, d.full, ?_⟩
    · intro e
      have := congrArg List.length (List.append_eq_nil_iff.mp e).1
      rw [List.length_take, List.length_nil] at this
      omega
    · rw [List.append_assoc, ← b, List.take_append_drop]
    · have := d.nodes
      simp only [List.length_append]
      omega

theorem decodeString_safe (isLong : Bool) (c : Bytes) : ∃ r c', decodeString isLong c = some (r, c') ∧ (r = none → c' = c) ∧
    ∀ s, r = some s → s.length < (if isLong then 2 ^ 32 else 2 ^ 16) ∧ ∃ used, used ≠ [] ∧ c = used ++ c' := by
  rw [decodeString]
  generalize hw : (if isLong then 4 else 2) = w
  by_cases h : c.length < w
  · rw [if_pos h]
    exact ⟨none, c, rfl, fun _ => rfl, fun _ h => (by cases h)⟩
  · rw [if_neg h]
    obtain ⟨n, h1, h2⟩ := rdNum_ok w 0 c (by omega)
    rw [h1, Option.bind_some]
    dsimp only
    by_cases hn : (c.drop w).length < n
    · rw [if_pos hn]
      exact ⟨none, c, rfl, fun _ => rfl, fun _ h => (by cases h)⟩
    · rw [if_neg hn, rdN_ok _ _ (by omega)]
      refine ⟨_, _, rfl, fun h => (by cases h), ?_⟩
      intro s hs
      cases hs
      refine ⟨?_, c.take w ++ (c.drop w).take n, ?_, ?_⟩
      · rw [List.length_take]
        cases isLong
        · simp at hw; subst hw; simp only [Bool.false_eq_true, if_false]; omega
        · simp at hw; subst hw; simp only [if_true]; omega
      · intro e
        have := congrArg List.length (List.append_eq_nil_iff.mp e).1
        simp at this
        cases isLong
        · simp at hw; subst hw; cases this with
          | inl h => cases h
          | inr h => subst h; simp at *
        · simp at hw; subst hw; cases this with
          | inl h => cases h
          | inr h => subst h; simp at *
      · rw [List.append_assoc, List.take_append_drop, List.take_append_drop]

/-- the answer of `setFromEncoding` -/
def SafeAt (k : Nat) (c : Bytes) (q : Option (Option Val × Bytes)) : Prop :=
  ∃ r c', q = some (r, c') ∧ ∀ v, r = some v → ∃ used, c = used ++ c' ∧ Fine k v (used.length + 1)

theorem SafeAt.fail {k c} (c' : Bytes) : SafeAt k c (some (none, c')) := ⟨none, c', rfl, fun _ h => (by cases h)⟩

theorem Fine.leaf {k v n} (h1 : v.Ok) (h2 : v.nest = 0) (h3 : v.norm = v) (h4 : v.nodes = 1) : Fine (k + 1) v (n + 1) := ⟨h1, by omega, h3, by omega⟩

theorem setFrom_safe {k dec} (hd : Safe k dec) (marker : UInt8) (c : Bytes) : SafeAt (k + 1) c (setFrom dec marker c) := by
  have obj : ∀ (c : Bytes) (f : Mem → Val), (∀ m : Mem, m.Ok → (f m).Ok) → (∀ m, (f m).nest = m.nest) → (∀ m, (f m).norm = f m.norm) → (∀ m, (f m).nodes = 1 + m.nodes) →
      SafeAt (k + 1) c ((decodeObj dec c).map (fun r => (r.1.map (fun m => f (.ofList m)), r.2))) := by
    intro c f f1 f2 f3 f4
    obtain ⟨r, c', h1, h2, h3⟩ := decodeObj_safe hd c
    rw [h1]
    cases r with
    | none => exact .fail _
    | some m =>
      refine ⟨_, _, rfl, ?_⟩
      intro v hv
      cases hv
      obtain ⟨used, u1, u2, u3⟩ := h3 m rfl
      refine ⟨used, u2, f1 _ u3.ok, by rw [f2]; have := u3.nest; omega, by rw [f3, u3.full], by rw [f4]; have := u3.nodes; omega⟩
  have str : ∀ b, SafeAt (k + 1) c ((decodeString b c).map (fun r => (r.1.map Val.str, r.2))) := by
    intro b
    obtain ⟨r, c', h1, h2, h3⟩ := decodeString_safe b c
    rw [h1]
    cases r with
    | none => exact .fail _
    | some s =>
      refine ⟨_, _, rfl, ?_⟩
      intro v hv
      cases hv
      obtain ⟨a, used, u1, u2⟩ := h3 s rfl
      refine ⟨used, u2, .leaf ?_ rfl rfl rfl⟩
      show s.length < 2 ^ 32
      split at a <;> omega
  rw [setFrom]
  split
  · split
    · exact .fail _
    · rename_i h
      obtain ⟨n, h1, _⟩ := rdNum_ok 8 0 c (by omega)
      rw [h1]
      refine ⟨_, _, rfl, ?_⟩
      intro v hv
      cases hv
      exact ⟨c.take 8, (List.take_append_drop 8 c).symm, .leaf trivial rfl rfl rfl⟩
  · split
    · exact .fail _
    · rename_i h
      cases c with
      | nil => exact absurd (Nat.zero_lt_one) h
      | cons b c =>
        refine ⟨_, _, rfl, ?_⟩
        intro v hv
        cases hv
        exact ⟨[b], rfl, .leaf trivial rfl rfl rfl⟩
  · exact str false
  · exact str true
  · exact obj c .obj (fun _ h => h) (fun _ => rfl) (fun _ => rfl) (fun _ => rfl)
  · exact ⟨_, _, rfl, fun v hv => by cases hv; exact ⟨[], rfl, .leaf trivial rfl rfl rfl⟩⟩
  · exact ⟨_, _, rfl, fun v hv => by cases hv; exact ⟨[], rfl, .leaf trivial rfl rfl rfl⟩⟩
  · exact ⟨_, _, rfl, fun v hv => by cases hv; exact ⟨[], rfl, .leaf trivial rfl rfl rfl⟩⟩
  · split
    · exact .fail _
    · obtain ⟨r, c', h1, h2⟩ := obj (c.drop 4) .ecma (fun _ h => h) (fun _ => rfl) (fun _ => rfl) (fun _ => rfl)
      rw [h1]
      refine ⟨r, c', rfl, fun v hv => ?_⟩
      obtain ⟨used, u1, u2⟩ := h2 v hv
      refine ⟨c.take 4 ++ used, by rw [List.append_assoc, ← u1, List.take_append_drop], u2.ok, u2.nest, u2.full, ?_⟩
      have := u2.nodes
      rw [List.length_append]
      omega
  · obtain ⟨r, c', h1, h2, h3⟩ := decodeArr_safe hd c
    rw [h1]
    cases r with
    | none => exact .fail _
    | some l =>
      refine ⟨_, _, rfl, ?_⟩
      intro v hv
      cases hv
      obtain ⟨a, used, u1, u2, u3⟩ := h3 l rfl
      refine ⟨used, u2, ⟨by rw [size_ofList]; exact a, u3.ok⟩, ?_, ?_, ?_⟩
      · show (Vals.ofList l).nest < _; have := u3.nest; omega
      · show Val.arr (Vals.ofList l).norm = _; rw [u3.full]
      · show 1 + (Vals.ofList l).nodes ≤ _; have := u3.nodes; omega
  · obtain ⟨r, c1, h1, h2, h3⟩ := decodeString_safe false c
    rw [h1, Option.bind_some]
    cases r with
    | none => exact .fail _
    | some name =>
      dsimp only
      obtain ⟨a, used, u1, u2⟩ := h3 name rfl
      rw [if_neg Bool.false_ne_true] at a
      obtain ⟨r, c', h1, h2⟩ := obj c1 (.typed name) (fun _ h => ⟨a, h⟩) (fun _ => rfl) (fun _ => rfl) (fun _ => rfl)
      rw [h1]
      refine ⟨r, c', rfl, fun v hv => ?_⟩
      obtain ⟨used', v1, v2⟩ := h2 v hv
      refine ⟨used ++ used', by rw [List.append_assoc, ← v1]; exact u2, v2.ok, v2.nest, v2.full, ?_⟩
      have := v2.nodes
      rw [List.length_append]
      omega
  · exact .fail _

theorem decodeD_safe : ∀ k, Safe k (decodeD k) := by
  intro k
  induction k with
  | zero => intro c; exact ⟨none, c, rfl, fun _ => rfl, fun _ h => (by cases h)⟩
  | succ k ih =>
    intro c
    cases c with
    | nil => exact ⟨none, [], rfl, fun _ => rfl, fun _ h => (by cases h)⟩
    | cons b c =>
      rw [decodeD_cons]
      obtain ⟨r, c', h1, h2⟩ := setFrom_safe ih b c
      rw [h1]
      cases r with
      | none => exact ⟨none, _, rfl, fun _ => rfl, fun _ h => (by cases h)⟩
      | some v =>
        refine ⟨some v, c', rfl, fun h => (by cases h), ?_⟩
        intro v' hv
        cases hv
        obtain ⟨used, u1, u2⟩ := h2 v rfl
        exact ⟨b :: used, List.cons_ne_nil _ _, by rw [u1]; rfl, u2⟩

/-- of several values: those before the first that can't be decoded -/
theorem decodeAll_safe : ∀ (fuel : Nat) (c : Bytes) (dst : List Val), c.length < fuel →
    ∃ ok l used rest, decodeAll fuel c dst = some (ok, dst ++ l) ∧ c = used ++ rest ∧ (ok = true ↔ rest = []) ∧ l.length ≤ used.length ∧
      (∀ v ∈ l, v.Ok ∧ v.nest ≤ MAX_DEPTH ∧ v.norm = v) ∧ (ok = false → ∃ c', decode rest = some (none, c')) := by
  intro fuel
  induction fuel with
  | zero => intro c _ h; omega
  | succ fuel ih =>
    intro c dst hf
    rw [decodeAll]
    by_cases hc : c.isEmpty = true
    · rw [if_pos hc]
      rw [List.isEmpty_iff] at hc
      subst hc
      exact ⟨true, [], [], [], by simp, rfl, by simp, Nat.le_refl _, fun _ h => (by cases h), fun h => (by cases h)⟩
    · rw [if_neg hc]
      obtain ⟨r, c', h1, h2, h3⟩ := decodeD_safe (MAX_DEPTH + 1) c
      have h1' : decode c = some (r, c') := h1
      rw [h1', Option.bind_some]
      cases r with
      | none =>
        refine ⟨false, [], [], c, by simp, rfl, ?_, Nat.le_refl _, fun _ h => (by cases h), fun _ => ⟨c', h1'⟩⟩
        rw [List.isEmpty_iff] at hc
        simp [hc]
      | some v =>
        obtain ⟨used, u1, u2, u3⟩ := h3 v rfl
        have hlen : 0 < used.length := List.length_pos_iff.mpr u1
        dsimp only
        obtain ⟨ok, l, used', rest, w1, w2, w3, w4, w5, w6⟩ := ih c' (dst ++ [v]) (by
          have := congrArg List.length u2
          rw [List.length_append] at this
          omega)
        refine ⟨ok, v :: l, used ++ used', rest, by rw [w1]; simp, by rw [List.append_assoc, ← w2]; exact u2, w3, ?_, ?_, w6⟩
        · rw [List.length_cons, List.length_append]; omega
        · intro x hx
          rcases List.mem_cons.mp hx with rfl | hx
          · exact ⟨u3.ok, Nat.le_of_lt_succ u3.nest, u3.full⟩
          · exact w5 x hx

theorem decodeAll_rt : ∀ (vs : List Val) (fuel : Nat) (dst : List Val), (∀ v ∈ vs, v.Ok ∧ v.nest ≤ MAX_DEPTH) → (encodeAll vs).length < fuel →
    decodeAll fuel (encodeAll vs) dst = some (true, dst ++ (vs.filter (fun v => match v with | .nullptr => false | _ => true)).map Val.norm) := by
  intro vs
  induction vs with
  | nil => intro fuel dst _ hf; cases fuel with
    | zero => exact absurd hf (Nat.not_lt_zero _)
    | succ fuel => simp [encodeAll, decodeAll]
  | cons v vs ih =>
    intro fuel dst h hf
    have ih' := fun fuel dst => ih fuel dst (fun v hv => h v (List.mem_cons_of_mem _ hv))
    have hv := h v List.mem_cons_self
    have step : ∀ (hne : encodeAll (v :: vs) = v.encode ++ encodeAll vs), decodeAll fuel (encodeAll (v :: vs)) dst = some (true, dst ++ v.norm ::
        (vs.filter (fun v => match v with | .nullptr => false | _ => true)).map Val.norm) := by
      intro hne
      obtain ⟨b, t, he, _⟩ := enc_head v
      have hl : 0 < v.encode.length := by rw [he]; exact Nat.zero_lt_succ _
      rw [hne] at hf ⊢
      cases fuel with
      | zero => exact absurd hf (Nat.not_lt_zero _)
      | succ fuel =>
        rw [decodeAll, if_neg (by rw [he]; simp), decode, rt_val v _ _ hv.1 (Nat.lt_succ_of_le hv.2), Option.bind_some]
        dsimp only
        rw [ih' fuel (dst ++ [v.norm]) (by rw [List.length_append] at hf; omega)]
        simp
    cases v with
    | nullptr => exact ih' fuel dst hf
    | num b => exact step rfl
    | bool b => exact step rfl
    | str s => exact step rfl
    | obj m => exact step rfl
    | null => exact step rfl
    | undef => exact step rfl
    | ecma m => exact step rfl
    | arr l => exact step rfl
    | typed n m => exact step rfl

end AMF
end Rtmfp
