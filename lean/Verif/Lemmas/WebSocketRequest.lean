import Verif.Lemmas.WebSocketActs
import Verif.Spec.HttpUpgrade

/-! # What the header parser makes of a request -/

namespace Rtmfp.WS

open Spec.Web

/-! ## base64 -/

theorem letter_digit : ∀ n : Fin 64, alphabet.getD n.val 0 = digit n.val := by decide +kernel

theorem letter_eq (b : UInt8) (n : Nat) (h : b.toNat = n) (hn : n < 64) : letter b = digit n := by
  have := letter_digit ⟨n, hn⟩
  rw [letter, h]; exact this

theorem base64_eq (s : Bytes) : WS.base64 s = Spec.Web.base64 s := by
  have sr : ∀ (a : UInt8) (k : UInt8), k.toNat < 8 → (a >>> k).toNat = a.toNat / 2 ^ k.toNat := by
    intro a k hk
    rw [UInt8.toNat_shiftRight, Nat.shiftRight_eq_div_pow, Nat.mod_eq_of_lt (by omega)]
  have h2 : ∀ a : UInt8, (a >>> 2).toNat = a.toNat / 4 := fun a => sr a 2 (by decide)
  have h4 : ∀ a : UInt8, (a >>> 4).toNat = a.toNat / 16 := fun a => sr a 4 (by decide)
  have h6 : ∀ a : UInt8, (a >>> 6).toNat = a.toNat / 64 := fun a => sr a 6 (by decide)
  have m3 : ∀ a : UInt8, ((a &&& 0x03) <<< 4).toNat = a.toNat % 4 * 16 := by
    intro a
    have e : (a &&& 0x03).toNat = a.toNat % 4 := by
      rw [UInt8.toNat_and]; exact Nat.and_two_pow_sub_one_eq_mod a.toNat 2
    rw [UInt8.toNat_shiftLeft, Nat.shiftLeft_eq, e]
    show a.toNat % 4 * 16 % 256 = _
    omega
  have m15 : ∀ a : UInt8, ((a &&& 0x0f) <<< 2).toNat = a.toNat % 16 * 4 := by
    intro a
    have e : (a &&& 0x0f).toNat = a.toNat % 16 := by
      rw [UInt8.toNat_and]; exact Nat.and_two_pow_sub_one_eq_mod a.toNat 4
    rw [UInt8.toNat_shiftLeft, Nat.shiftLeft_eq, e]
    show a.toNat % 16 * 4 % 256 = _
    omega
  have m63 : ∀ a : UInt8, (a &&& 0x3f).toNat = a.toNat % 64 := by
    intro a; rw [UInt8.toNat_and]; exact Nat.and_two_pow_sub_one_eq_mod a.toNat 6
  have lt : ∀ a : UInt8, a.toNat < 256 := fun a => a.toNat_lt
  have go : ∀ n (s : Bytes), s.length < n → WS.base64 s = Spec.Web.base64 s := by
    intro n
    induction n with
    | zero => intro s h; omega
    | succ n ih =>
      intro s h
      match s with
      | [] => rfl
      | [a] =>
        have := lt a
        simp only [WS.base64, Spec.Web.base64]
        rw [letter_eq (a >>> 2) (a.toNat * 16 / 64) (by rw [h2]; omega) (by omega), letter_eq ((a &&& 0x03) <<< 4) (a.toNat * 16 % 64) (by rw [m3]; omega) (by omega)]
      | [a, b] =>
        have := lt a
        have := lt b
        simp only [WS.base64, Spec.Web.base64]
        rw [letter_eq (a >>> 2) ((a.toNat * 256 + b.toNat) * 4 / 4096) (by rw [h2]; omega) (by omega),
          letter_eq (((a &&& 0x03) <<< 4) + (b >>> 4)) ((a.toNat * 256 + b.toNat) * 4 / 64 % 64) (by rw [UInt8.toNat_add, m3, h4]; omega) (by omega),
          letter_eq ((b &&& 0x0f) <<< 2) ((a.toNat * 256 + b.toNat) * 4 % 64) (by rw [m15]; omega) (by omega)]
      | a :: b :: c :: s =>
        have := lt a
        have := lt b
        have := lt c
        simp only [WS.base64, Spec.Web.base64]
        rw [ih s (by simp at h; omega),
          letter_eq (a >>> 2) (((a.toNat * 256 + b.toNat) * 256 + c.toNat) / 262144) (by rw [h2]; omega) (by omega),
          letter_eq (((a &&& 0x03) <<< 4) + (b >>> 4)) (((a.toNat * 256 + b.toNat) * 256 + c.toNat) / 4096 % 64) (by rw [UInt8.toNat_add, m3, h4]; omega) (by omega),
          letter_eq (((b &&& 0x0f) <<< 2) + (c >>> 6)) (((a.toNat * 256 + b.toNat) * 256 + c.toNat) / 64 % 64) (by rw [UInt8.toNat_add, m15, h6]; omega) (by omega),
          letter_eq (c &&& 0x3f) (((a.toNat * 256 + b.toNat) * 256 + c.toNat) % 64) (by rw [m63]; omega) (by omega)]
  exact go _ s (Nat.lt_succ_self _)

theorem digit_inj : ∀ a b : Fin 64, digit a.val = digit b.val → a = b := by decide +kernel

theorem digit_pad : ∀ a : Fin 64, digit a.val ≠ 61 := by decide +kernel

/-- base64 can be read in one way only -/
theorem base64_inj (s t : Bytes) (h : Spec.Web.base64 s = Spec.Web.base64 t) : s = t := by
  have lt : ∀ a : UInt8, a.toNat < 256 := fun a => a.toNat_lt
  have di : ∀ {a b : Nat}, a < 64 → b < 64 → digit a = digit b → a = b := fun ha hb he => congrArg Fin.val (digit_inj ⟨_, ha⟩ ⟨_, hb⟩ he)
  have dp : ∀ {a : Nat}, a < 64 → digit a ≠ 61 := fun ha => digit_pad ⟨_, ha⟩
  have eq : ∀ {a b : UInt8}, a.toNat = b.toNat → a = b := fun h => UInt8.toNat_inj.mp h
  have go : ∀ n (s t : Bytes), s.length < n → Spec.Web.base64 s = Spec.Web.base64 t → s = t := by
    intro n
    induction n with
    | zero => intro s t h; omega
    | succ n ih =>
      intro s t hn h
      match s, t with
      | [], [] => rfl
      | [], [_] => simp [Spec.Web.base64] at h
      | [], [_, _] => simp [Spec.Web.base64] at h
      | [], _ :: _ :: _ :: _ => simp [Spec.Web.base64] at h
      | [_], [] => simp [Spec.Web.base64] at h
      | [_, _], [] => simp [Spec.Web.base64] at h
      | _ :: _ :: _ :: _, [] => simp [Spec.Web.base64] at h
      | [a], [b] =>
        have := lt a; have := lt b
        simp only [Spec.Web.base64, List.cons.injEq] at h
        have h1 := di (by omega) (by omega) h.1
        have h2 := di (by omega) (by omega) h.2.1
        rw [eq (a := a) (b := b) (by omega)]
      | [a], [b, c] =>
        have := lt a; have := lt b; have := lt c
        simp only [Spec.Web.base64, List.cons.injEq] at h
        exact absurd h.2.2.1.symm (dp (by omega))
      | [b, c], [a] =>
        have := lt a; have := lt b; have := lt c
        simp only [Spec.Web.base64, List.cons.injEq] at h
        exact absurd h.2.2.1 (dp (by omega))
      | [a], b :: c :: d :: t =>
        have := lt a; have := lt b; have := lt c; have := lt d
        simp only [Spec.Web.base64, List.cons_append, List.nil_append, List.cons.injEq] at h
        exact absurd h.2.2.1.symm (dp (by omega))
      | b :: c :: d :: t, [a] =>
        have := lt a; have := lt b; have := lt c; have := lt d
        simp only [Spec.Web.base64, List.cons_append, List.nil_append, List.cons.injEq] at h
        exact absurd h.2.2.1 (dp (by omega))
      | [a, a'], b :: c :: d :: t =>
        have := lt a; have := lt b; have := lt c; have := lt d
        simp only [Spec.Web.base64, List.cons_append, List.nil_append, List.cons.injEq] at h
        exact absurd h.2.2.2.1.symm (dp (by omega))
      | b :: c :: d :: t, [a, a'] =>
        have := lt a; have := lt b; have := lt c; have := lt d
        simp only [Spec.Web.base64, List.cons_append, List.nil_append, List.cons.injEq] at h
        exact absurd h.2.2.2.1 (dp (by omega))
      | [a, a'], [b, b'] =>
        have := lt a; have := lt b; have := lt a'; have := lt b'
        simp only [Spec.Web.base64, List.cons.injEq] at h
        have h1 := di (by omega) (by omega) h.1
        have h2 := di (by omega) (by omega) h.2.1
        have h3 := di (by omega) (by omega) h.2.2.1
        rw [eq (a := a) (b := b) (by omega), eq (a := a') (b := b') (by omega)]
      | a :: a' :: a'' :: s, b :: b' :: b'' :: t =>
        have := lt a; have := lt b; have := lt a'; have := lt b'; have := lt a''; have := lt b''
        simp only [Spec.Web.base64, List.cons_append, List.nil_append, List.cons.injEq] at h
        have h1 := di (by omega) (by omega) h.1
        have h2 := di (by omega) (by omega) h.2.1
        have h3 := di (by omega) (by omega) h.2.2.1
        have h4 := di (by omega) (by omega) h.2.2.2.1
        rw [eq (a := a) (b := b) (by omega), eq (a := a') (b := b') (by omega), eq (a := a'') (b := b'') (by omega), ih s t (by simp at hn; omega) h.2.2.2.2]
  exact go _ s t (Nat.lt_succ_self _) h

/-! ## Splitting -/

theorem find_at (pre x : Bytes) (s : UInt8) (y : Bytes) (hx : s ∉ x) : Uri.findFirstOf (pre ++ (x ++ s :: y)) [s] pre.length = some (pre.length + x.length) := by
  unfold Uri.findFirstOf
  rw [List.drop_left]
  have : (x ++ s :: y).findIdx? (fun c => decide (c ∈ [s])) = some x.length := by
    rw [List.findIdx?_append]
    have h1 : x.findIdx? (fun c => decide (c ∈ [s])) = none := by
      rw [List.findIdx?_eq_none_iff]
      intro c hc
      simp; rintro rfl; exact hx hc
    rw [h1, List.findIdx?_cons, if_pos (by simp)]; simp
  rw [this]

theorem find_not (pre x : Bytes) (s : UInt8) (hx : s ∉ x) : Uri.findFirstOf (pre ++ x) [s] pre.length = none := by
  unfold Uri.findFirstOf
  rw [List.drop_left]
  have : x.findIdx? (fun c => decide (c ∈ [s])) = none := by
    rw [List.findIdx?_eq_none_iff]
    intro c hc
    simp; rintro rfl; exact hx hc
  rw [this]

/-- parts each followed by the separator, and a last one -/
theorem splitLoop_join (s : UInt8) (ps : List Bytes) (last : Bytes) (hl : s ∉ last) : ∀ (pre : Bytes) (fuel mp : Nat), (∀ p ∈ ps, s ∉ p) →
    ps.length < fuel → (mp = 0 ∨ ps.length + 1 < mp) → ps.length < U64MAX →
    Uri.splitLoop (pre ++ (ps.flatMap (· ++ [s]) ++ last)) [s] fuel mp pre.length = some (ps, pre.length + (ps.flatMap (· ++ [s])).length) := by
  induction ps with
  | nil =>
    intro pre fuel mp _ hf hm _
    obtain ⟨fuel, rfl⟩ : ∃ k, fuel = k + 1 := ⟨fuel - 1, by simp at hf; omega⟩
    simp only [List.flatMap_nil, List.nil_append, List.length_nil, Nat.add_zero]
    rw [Uri.splitLoop, find_not pre last s hl]
    generalize (if mp = 0 then U64MAX else mp - 1) = m
    split <;> rfl
  | cons p ps ih =>
    intro pre fuel mp hp hf hm hu
    obtain ⟨fuel, rfl⟩ : ∃ k, fuel = k + 1 := ⟨fuel - 1, by simp at hf; omega⟩
    simp only [List.length_cons] at hf hm hu
    have e : pre ++ ((p :: ps).flatMap (· ++ [s]) ++ last) = pre ++ (p ++ s :: (ps.flatMap (· ++ [s]) ++ last)) := by simp
    have e2 : pre ++ (p ++ s :: (ps.flatMap (· ++ [s]) ++ last)) = (pre ++ p ++ [s]) ++ (ps.flatMap (· ++ [s]) ++ last) := by simp
    rw [e, Uri.splitLoop]
    have hmp : (if mp = 0 then U64MAX else mp - 1) ≠ 0 ∧ ps.length + 1 < (if mp = 0 then U64MAX + 1 else mp) := by
      constructor
      · split
        · decide
        · omega
      · split <;> omega
    rw [if_pos ⟨hmp.1, by simp only [List.length_append, List.length_cons]; omega⟩, find_at pre p s _ (hp p (by simp))]
    simp only
    have hlen : pre.length + p.length + 1 = (pre ++ p ++ [s]).length := by simp; omega
    rw [hlen, e2, ih (pre ++ p ++ [s]) fuel _ (fun q h => hp q (by simp [h])) (by omega) (by right; split <;> omega) (by omega)]
    simp only [Option.map_some, Option.some.injEq, Prod.mk.injEq, List.cons.injEq]
    refine ⟨⟨?_, trivial⟩, by simp only [List.length_append, List.length_cons, List.length_nil, List.flatMap_cons]; omega⟩
    rw [show (pre ++ p ++ [s]) ++ (ps.flatMap (· ++ [s]) ++ last) = pre ++ (p ++ (s :: (ps.flatMap (· ++ [s]) ++ last))) by simp, List.drop_left,
      show pre.length + p.length - pre.length = p.length by omega, List.take_left]

theorem split_join (s : UInt8) (ps : List Bytes) (last : Bytes) (hp : ∀ p ∈ ps, s ∉ p) (hl : s ∉ last) (hu : ps.length < U64MAX) :
    Uri.split (ps.flatMap (· ++ [s]) ++ last) [s] 0 = some (ps ++ [last]) := by
  have hlen : ps.length ≤ (ps.flatMap (· ++ [s])).length := by
    clear hp hu
    induction ps with
    | nil => simp
    | cons p ps ih => simp only [List.length_cons, List.flatMap_cons, List.length_append, List.length_nil]; omega
  unfold Uri.split
  rw [if_neg (by simp)]
  have := splitLoop_join s ps last hl [] ((ps.flatMap (· ++ [s]) ++ last).length + 1) 0 hp (by rw [List.length_append]; omega) (.inl rfl) hu
  simp only [List.nil_append, List.length_nil, Nat.zero_add] at this
  rw [this]
  simp only
  rw [if_pos (by simp), List.drop_left]

/-- at most two parts -/
theorem split_two (s : UInt8) (a b : Bytes) (ha : s ∉ a) : Uri.split (a ++ s :: b) [s] 2 = some [a, b] := by
  unfold Uri.split
  rw [if_neg (by simp)]
  have e : Uri.splitLoop (a ++ s :: b) [s] ((a ++ s :: b).length + 1) 2 0 = some ([a], a.length + 1) := by
    rw [Uri.splitLoop]
    rw [if_pos ⟨by decide, by simp only [List.length_append, List.length_cons]; omega⟩]
    have := find_at [] a s b ha
    simp only [List.nil_append, List.length_nil, Nat.zero_add] at this
    rw [this]
    simp only
    have e2 : Uri.splitLoop (a ++ s :: b) [s] (a ++ s :: b).length (if 2 = 0 then U64MAX else 2 - 1) (a.length + 1) = some ([], a.length + 1) := by
      obtain ⟨k, hk⟩ : ∃ k, (a ++ s :: b).length = k + 1 := ⟨a.length + b.length, by simp; omega⟩
      rw [hk, Uri.splitLoop]
      simp
    rw [e2]
    simp
  rw [e]
  simp

/-! ## Lines -/

theorem crlf_app (x y : Bytes) (h : (13 : UInt8) ∉ x) : crlfToLf (x ++ [13, 10] ++ y) = x ++ [10] ++ crlfToLf y := by
  induction x with
  | nil => simp [crlfToLf]
  | cons c x ih =>
    have hc : c ≠ 13 := fun e => h (by simp [e])
    have ih' := ih (fun hm => h (by simp [hm]))
    cases x with
    | nil => simp only [List.cons_append, List.nil_append, crlfToLf] at ih' ⊢; simp [hc, crlfToLf]
    | cons d x =>
      simp only [List.cons_append, List.append_assoc] at ih' ⊢
      rw [crlfToLf, if_neg (by simp [hc]), ih']

theorem crlf_lines (ls : List Bytes) (h : ∀ l ∈ ls, (13 : UInt8) ∉ l) : crlfToLf (ls.flatMap (· ++ [13, 10])) = ls.flatMap (· ++ [10]) := by
  induction ls with
  | nil => rfl
  | cons l ls ih =>
    simp only [List.flatMap_cons]
    rw [crlf_app l _ (h l (by simp)), ih (fun l hl => h l (by simp [hl]))]

theorem crToSpace_id (x : Bytes) (h : (13 : UInt8) ∉ x) : crToSpace x = x := by
  unfold crToSpace
  induction x with
  | nil => rfl
  | cons c x ih =>
    have hc : c ≠ 13 := fun e => h (by simp [e])
    simp only [List.map_cons, ih (fun hm => h (by simp [hm]))]
    rw [if_neg (by simpa using hc)]

theorem unfold_app (x y : Bytes) (h : (10 : UInt8) ∉ x) : unfold (x ++ y) = x ++ unfold y := by
  induction x with
  | nil => rfl
  | cons c x ih =>
    have hc : c ≠ 10 := fun e => h (by simp [e])
    have ih' := ih (fun hm => h (by simp [hm]))
    rw [List.cons_append, List.cons_append, ← ih']
    cases hz : x ++ y with
    | nil => rfl
    | cons d z => rw [unfold, if_neg (by simp [hc])]

/-- lines none of which (but perhaps the first) begins with white space -/
theorem unfold_lines (ls : List Bytes) (h : ∀ l ∈ ls, (10 : UInt8) ∉ l) (hb : ∀ l ∈ ls.tail, ∀ c, l.head? = some c → c ≠ 32 ∧ c ≠ 9) :
    unfold (ls.flatMap (· ++ [10])) = ls.flatMap (· ++ [10]) := by
  induction ls with
  | nil => rfl
  | cons l ls ih =>
    simp only [List.flatMap_cons, List.append_assoc]
    rw [unfold_app l _ (h l (by simp))]
    congr 1
    have ih' := ih (fun l hl => h l (by simp [hl])) (fun l hl => hb l (by simp; exact List.mem_of_mem_tail hl))
    cases hz : ls.flatMap (· ++ [10]) with
    | nil => rfl
    | cons d z =>
      have hd : d ≠ 32 ∧ d ≠ 9 := by
        cases ls with
        | nil => simp at hz
        | cons m ls =>
          cases m with
          | nil => simp at hz; rw [← hz.1]; decide
          | cons e m =>
            simp at hz
            rw [← hz.1]
            exact hb (e :: m) (by simp) e rfl
      show unfold (10 :: d :: z) = 10 :: d :: z
      rw [unfold, if_neg (by simp [hd.1, hd.2]), ← hz, ih']

theorem tchar_not (c : UInt8) (h : tchar c) : c ≠ 10 ∧ c ≠ 13 ∧ c ≠ 32 ∧ c ≠ 9 ∧ c ≠ 58 := by
  unfold tchar at h
  refine ⟨?_, ?_, ?_, ?_, ?_⟩ <;> rintro rfl <;> revert h <;> decide +kernel

theorem tchar_is : ∀ n : Fin 256, tchar (UInt8.ofNat n.val) → isTchar (UInt8.ofNat n.val) = true := by
  unfold tchar; decide +kernel

theorem tchar_true (c : UInt8) (h : tchar c) : isTchar c = true := by
  have e : UInt8.ofNat c.toNat = c := by simp
  have := tchar_is ⟨c.toNat, c.toNat_lt⟩
  simp only [e] at this
  exact this h

theorem space_iff : ∀ n : Fin 256, isSpace (UInt8.ofNat n.val) = true ↔ blank (UInt8.ofNat n.val) := by
  unfold blank; decide +kernel

theorem isSpace_iff (c : UInt8) : isSpace c = true ↔ blank c := by
  have e : UInt8.ofNat c.toNat = c := by simp
  have := space_iff ⟨c.toNat, c.toNat_lt⟩
  simp only [e] at this
  exact this

theorem dropWhile_spaces (p x : Bytes) (hp : ∀ c ∈ p, isSpace c = true) (hx : ∀ c, x.head? = some c → isSpace c = false) : (p ++ x).dropWhile isSpace = x := by
  induction p with
  | nil =>
    cases x with
    | nil => rfl
    | cons c x => rw [List.nil_append, List.dropWhile_cons, if_neg (by rw [hx c rfl]; simp)]
  | cons c p ih => rw [List.cons_append, List.dropWhile_cons, if_pos (hp c (by simp))]; exact ih (fun c h => hp c (by simp [h]))

theorem trim_value (pre v post : Bytes) (h1 : ∀ c ∈ pre ++ post, c = 32 ∨ c = 9) (h2 : ∀ c, v.head? = some c → ¬ blank c) (h3 : ∀ c, v.getLast? = some c → ¬ blank c) :
    trim (pre ++ v ++ post) = v := by
  have hs : ∀ c, c = 32 ∨ c = 9 → isSpace c = true := by rintro c (rfl | rfl) <;> decide
  have nb : ∀ c, ¬ blank c → isSpace c = false := fun c h => by
    cases he : isSpace c with
    | false => rfl
    | true => exact absurd ((isSpace_iff c).mp he) h
  unfold trim
  cases v with
  | nil =>
    have : (pre ++ [] ++ post).dropWhile isSpace = [] := by
      have := dropWhile_spaces (pre ++ post) [] (fun c h => hs c (h1 c h)) (by simp)
      simpa using this
    rw [this]; rfl
  | cons a v =>
    rw [List.append_assoc, dropWhile_spaces pre ((a :: v) ++ post) (fun c h => hs c (h1 c (by simp [h]))) (by intro c h; simp at h; subst h; exact nb _ (h2 _ rfl))]
    rw [List.reverse_append, dropWhile_spaces post.reverse (a :: v).reverse (fun c h => hs c (h1 c (by simp at h; simp [h]))) (by
      intro c h
      rw [List.head?_reverse] at h
      exact nb c (h3 c h))]
    simp

theorem field_line (f : Field) (h : f.Valid) : (10 : UInt8) ∉ f.line ∧ (13 : UInt8) ∉ f.line ∧ f.line ≠ [] ∧ (∀ c, f.line.head? = some c → c ≠ 32 ∧ c ≠ 9) ∧
    Uri.split f.line [58] 2 = some [f.name, f.pre ++ f.value ++ f.post] := by
  have key : ∀ c ∈ f.line, c ≠ 10 ∧ c ≠ 13 := by
    intro c hc
    simp only [Field.line, List.mem_append, List.mem_singleton] at hc
    rcases hc with (((hc | hc) | hc) | hc) | hc
    · exact ⟨(tchar_not c (h.nameChars c hc)).1, (tchar_not c (h.nameChars c hc)).2.1⟩
    · subst hc; decide
    · rcases h.spaces c (by simp [hc]) with rfl | rfl <;> decide
    · exact h.oneLine c hc
    · rcases h.spaces c (by simp [hc]) with rfl | rfl <;> decide
  refine ⟨fun hm => (key _ hm).1 rfl, fun hm => (key _ hm).2 rfl, by simp [Field.line], ?_, ?_⟩
  · intro c hc
    cases hn : f.name with
    | nil => exact absurd hn h.nameEmpty
    | cons a n =>
      rw [Field.line, hn] at hc
      simp at hc
      subst hc
      have := tchar_not a (h.nameChars a (by rw [hn]; simp))
      exact ⟨this.2.2.1, this.2.2.2.1⟩
  · have e : f.line = f.name ++ 58 :: (f.pre ++ f.value ++ f.post) := by simp [Field.line]
    rw [e, split_two 58 _ _ (fun hm => (tchar_not _ (h.nameChars _ hm)).2.2.2.2 rfl)]

theorem lower_eq (s : Bytes) : lower s = lowered s := rfl

theorem parseFields_lines (fs : List Field) (h : ∀ f ∈ fs, f.Valid) : parseFields (fs.map Field.line ++ [[], []]) = some (fs.map (fun f => (lowered f.name, f.value))) := by
  induction fs with
  | nil => rfl
  | cons f fs ih =>
    have hf := h f (by simp)
    obtain ⟨_, _, k3, _, k5⟩ := field_line f hf
    simp only [List.map_cons, List.cons_append]
    rw [parseFields, if_neg k3, k5]
    simp only [Option.getD_some]
    have ht : isToken f.name = true := by
      simp only [isToken, Bool.and_eq_true, List.all_eq_true, decide_eq_true_eq]
      exact ⟨fun c hc => tchar_true c (hf.nameChars c hc), hf.nameEmpty⟩
    rw [if_pos ht, ih (fun f h' => h f (by simp [h'])), trim_value _ _ _ hf.spaces hf.first hf.last]
    rfl

/-- the lines of a request -/
def lines (r : Request) : List Bytes := r.line :: (r.fields.map Field.line ++ [[]])

theorem wire_lines (r : Request) : r.wire = (lines r).flatMap (· ++ [13, 10]) := by
  simp [Request.wire, lines, List.flatMap_map]

theorem line_free (r : Request) (h : r.Valid) : (10 : UInt8) ∉ r.line ∧ (13 : UInt8) ∉ r.line := by
  have key : ∀ c ∈ r.line, c ≠ 10 ∧ c ≠ 13 := by
    intro c hc
    simp only [Request.line, List.mem_append, List.mem_singleton] at hc
    have := h.start c
    simp only [List.mem_append] at this
    rcases hc with (((hc | hc) | hc) | hc) | hc
    · exact (this (.inl (.inl hc))).2
    · subst hc; decide
    · exact (this (.inl (.inr hc))).2
    · subst hc; decide
    · exact (this (.inr hc)).2
  exact ⟨fun hm => (key _ hm).1 rfl, fun hm => (key _ hm).2 rfl⟩

theorem parseBlock_wire (r : Request) (h : r.Valid) (hu : r.wire.length < 2 ^ 64) :
    parseBlock r.wire = (r.line, some (r.fields.map (fun f => (lowered f.name, f.value)))) := by
  have hfree : ∀ l ∈ lines r, (10 : UInt8) ∉ l ∧ (13 : UInt8) ∉ l := by
    intro l hl
    simp only [lines, List.mem_cons, List.mem_append, List.mem_map, List.not_mem_nil, or_false] at hl
    rcases hl with rfl | ⟨f, hf, rfl⟩ | rfl
    · exact line_free r h
    · exact ⟨(field_line f (h.valid f hf)).1, (field_line f (h.valid f hf)).2.1⟩
    · simp
  have hcount : (lines r).length < U64MAX := by
    have : 2 * (lines r).length ≤ r.wire.length := by
      rw [wire_lines]
      generalize lines r = ls
      induction ls with
      | nil => simp
      | cons l ls ih => simp only [List.length_cons, List.flatMap_cons, List.length_append, List.length_nil]; omega
    have e : U64MAX = 2 ^ 64 - 1 := by decide
    rw [e]; omega
  unfold parseBlock
  rw [wire_lines, crlf_lines _ (fun l hl => (hfree l hl).2), crToSpace_id _ (by
      intro hm
      obtain ⟨l, hl, hm⟩ := List.mem_flatMap.mp hm
      rcases List.mem_append.mp hm with hm | hm
      · exact (hfree l hl).2 hm
      · simp at hm), unfold_lines _ (fun l hl => (hfree l hl).1) (by
      intro l hl c hc
      simp only [lines, List.tail_cons, List.mem_append, List.mem_map, List.mem_singleton] at hl
      rcases hl with ⟨f, hf, rfl⟩ | rfl
      · exact (field_line f (h.valid f hf)).2.2.2.1 c hc
      · simp at hc)]
  have := split_join 10 (lines r) [] (fun l hl => (hfree l hl).1) (by simp) hcount
  rw [List.append_nil] at this
  rw [this]
  simp only [Option.getD_some, lines, List.cons_append, List.append_assoc, List.nil_append]
  rw [parseFields_lines r.fields h.valid]

theorem intersperse_intercalate (ls : List Bytes) (s : Bytes) : (ls.intersperse s).flatten = s.intercalate ls := by
  simp [List.intercalate]

theorem getHeader_value (r : Request) (name : String) (hn : lower (ascii name) = str name) :
    getHeader (r.fields.map (fun f => (lowered f.name, f.value))) (ascii name) = r.value name := by
  unfold getHeader Request.value
  rw [intersperse_intercalate, hn]
  congr 1
  generalize r.fields = fs
  induction fs with
  | nil => rfl
  | cons f fs ih =>
    simp only [List.map_cons, List.filter_cons]
    by_cases h : lowered f.name = str name
    · simp only [h, decide_true, if_true, List.map_cons]
      rw [show (fs.map (fun f => (lowered f.name, f.value))).filter (fun f => decide (f.1 = str name)) = _ from rfl, ih]
    · simp only [h, decide_false, Bool.false_eq_true, if_false]
      exact ih

theorem contains_iff (sub s : Bytes) : contains sub s = true ↔ sub <:+: s := by
  induction s with
  | nil => simp [contains]
  | cons c s ih =>
    rw [contains, Bool.or_eq_true, ih, List.isPrefixOf_iff_prefix, List.infix_cons_iff]

theorem split_line (r : Request) (h : r.Valid) : Uri.split r.line [32] 0 = some [r.method, r.target, r.version] := by
  have := split_join 32 [r.method, r.target] r.version (by
    intro p hp
    simp only [List.mem_cons, List.not_mem_nil, or_false] at hp
    have hs := h.start
    rcases hp with rfl | rfl
    · exact fun hm => (hs 32 (by simp [hm])).1 rfl
    · exact fun hm => (hs 32 (by simp [hm])).1 rfl) (fun hm => (h.start 32 (by simp [hm])).1 rfl) (by simp)
  rw [← show ([r.method, r.target].flatMap (· ++ [32]) ++ r.version) = r.line by simp [Request.line]]
  exact this

theorem wanted_iff (r : Request) (h : r.Valid) : wanted r.line (r.fields.map (fun f => (lowered f.name, f.value))) = true ↔ r.Upgrade := by
  unfold wanted
  rw [split_line r h]
  simp only [Option.getD_some, Bool.and_eq_true, decide_eq_true_eq]
  rw [getHeader_value r "upgrade" (by decide +kernel), getHeader_value r "connection" (by decide +kernel),
    getHeader_value r "sec-websocket-version" (by decide +kernel), getHeader_value r "sec-websocket-key" (by decide +kernel), contains_iff]
  constructor
  · rintro ⟨⟨⟨⟨h1, h2⟩, h3⟩, h4⟩, h5⟩
    exact ⟨h1, h2, h3, h4, h5⟩
  · intro u
    exact ⟨⟨⟨⟨u.get, u.upgrade⟩, u.connection⟩, u.version13⟩, u.key⟩

theorem response_eq (app : App) (r : Request) : response app (r.fields.map (fun f => (lowered f.name, f.value))) = accept app.sha1 (r.value "sec-websocket-key") := by
  unfold response accept
  rw [getHeader_value r "sec-websocket-key" (by decide +kernel), base64_eq]
  have e1 : ascii "HTTP/1.1 101 Switching Protocols\r\nUpgrade: websocket\r\nConnection: Upgrade\r\nSec-WebSocket-Accept: " =
    str "HTTP/1.1 101 Switching Protocols" ++ [13, 10] ++ str "Upgrade: websocket" ++ [13, 10] ++ str "Connection: Upgrade" ++ [13, 10] ++ str "Sec-WebSocket-Accept: " := by decide +kernel
  have e2 : ascii "\r\n\r\n" = [13, 10] ++ [13, 10] := by decide +kernel
  rw [e1, e2, ← List.append_assoc]
  rfl

/-! ## A request is a header -/

theorem no_double (ls : List Bytes) (h : ∀ l ∈ ls, (10 : UInt8) ∉ l ∧ l ≠ []) : ¬ [10, 10] <:+: ls.flatMap (· ++ [10]) := by
  induction ls with
  | nil => simp
  | cons l ls ih =>
    have ih' := ih (fun l hl => h l (by simp [hl]))
    obtain ⟨h1, h2⟩ := h l (by simp)
    have hnext : ∀ c, (ls.flatMap (· ++ [10])).head? = some c → c ≠ 10 := by
      intro c hc
      cases ls with
      | nil => simp at hc
      | cons m ls =>
        obtain ⟨m1, m2⟩ := h m (by simp)
        cases m with
        | nil => exact absurd rfl m2
        | cons d m =>
          simp at hc; subst hc
          intro e; exact m1 (by simp [e])
    have go : ∀ l : Bytes, (10 : UInt8) ∉ l → ¬ [10, 10] <:+: l ++ [10] ++ ls.flatMap (· ++ [10]) := by
      intro l hl
      induction l with
      | nil =>
        simp only [List.nil_append, List.cons_append]
        rw [List.infix_cons_iff]
        rintro (h | h)
        · cases hz : ls.flatMap (· ++ [10]) with
          | nil => rw [hz] at h; simp at h
          | cons d z =>
            rw [hz] at h
            simp at h
            exact hnext d (by rw [hz]; rfl) h.symm
        · exact ih' h
      | cons c l ih2 =>
        simp only [List.cons_append]
        rw [List.infix_cons_iff]
        rintro (h | h)
        · simp at h
          exact hl (by simp [h.1])
        · exact ih2 (fun hm => hl (by simp [hm])) (by simpa using h)
    simp only [List.flatMap_cons]
    exact go l h1

theorem request_header (r : Request) (h : r.Valid) : HeaderBlock r.wire := by
  refine ⟨r.line ++ ([13, 10] : Bytes) ++ r.fields.flatMap (fun f => Field.line f ++ [13, 10]) ++ [13], by simp [Request.wire], ?_, ?_⟩
  all_goals
    have hf : (r.line ++ [13, 10] ++ r.fields.flatMap (fun f => Field.line f ++ [13, 10]) ++ [13]).filter (· ≠ 13) = (r.line :: r.fields.map Field.line).flatMap (· ++ [10]) := by
      have hid : ∀ x : Bytes, (13 : UInt8) ∉ x → x.filter (· ≠ 13) = x := by
        intro x hx
        rw [List.filter_eq_self]
        intro c hc
        simp; rintro rfl; exact hx hc
      have hfs : (r.fields.flatMap (fun f => Field.line f ++ [13, 10])).filter (· ≠ 13) = (r.fields.map Field.line).flatMap (· ++ [10]) := by
        have hv := h.valid
        generalize r.fields = fs at hv
        induction fs with
        | nil => rfl
        | cons f fs ih =>
          simp only [List.flatMap_cons, List.map_cons, List.filter_append]
          rw [hid _ (field_line f (hv f (by simp))).2.1, ih (fun f hf => hv f (by simp [hf]))]
          rfl
      rw [List.filter_append, List.filter_append, List.filter_append, hfs, hid _ (line_free r h).2]
      simp
    rw [show (fun x : UInt8 => decide (x ≠ 13)) = (fun x => decide (x ≠ 13)) from rfl] at hf
  · rw [hf]
    generalize hls : (r.line :: r.fields.map Field.line) = ls
    have : ls ≠ [] := by rw [← hls]; simp
    rcases List.eq_nil_or_concat ls with h | ⟨init, last, h⟩
    · exact absurd h this
    · rw [h]; simp only [List.concat_eq_append, List.flatMap_append, List.flatMap_cons, List.flatMap_nil, List.append_nil]
      exact ⟨init.flatMap (· ++ [10]) ++ last, by simp⟩
  · intro q hq hs
    have h1 : q.filter (· ≠ 13) <+: (r.line :: r.fields.map Field.line).flatMap (· ++ [10]) := by
      rw [← hf]; exact hq.filter _
    refine no_double (r.line :: r.fields.map Field.line) ?_ (hs.isInfix.trans h1.isInfix)
    intro l hl
    simp only [List.mem_cons, List.mem_map] at hl
    rcases hl with rfl | ⟨f, hf, rfl⟩
    · exact ⟨(line_free r h).1, by simp [Request.line]⟩
    · exact ⟨(field_line f (h.valid f hf)).1, (field_line f (h.valid f hf)).2.2.1⟩

end Rtmfp.WS
