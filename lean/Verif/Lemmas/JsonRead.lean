import Verif.Lemmas.JsonText
/-! # The text of values is read back -/
namespace Rtmfp
namespace Json
open AMF JsonSpec

/-! ## strings -/

/-- one byte is printed as itself, or as a backslash with what stands for it -/
theorem escape_cases (b : UInt8) : (escape b = [b] ∧ b ≠ 0x22 ∧ b ≠ 0x5c ∧ ¬ b < 0x20) ∨ (∃ e, escape b = 0x5c :: e ∧ ∀ r, escaped (e ++ r) = some ([b], r)) := by
  have h : ∀ n < 256, (escape (UInt8.ofNat n) = [UInt8.ofNat n] ∧ UInt8.ofNat n ≠ 0x22 ∧ UInt8.ofNat n ≠ 0x5c ∧ ¬ UInt8.ofNat n < 0x20) ∨
      (escape (UInt8.ofNat n) = [0x5c, 0x75, 0x30, 0x30, hexDigit (n / 16 % 16), hexDigit (n % 16)] ∧ n < 128) ∨
      (escape (UInt8.ofNat n) = [0x5c, UInt8.ofNat n] ∧ (n = 0x22 ∨ n = 0x5c)) ∨
      (escape (UInt8.ofNat n) = [0x5c, 0x62] ∧ n = 8) ∨ (escape (UInt8.ofNat n) = [0x5c, 0x66] ∧ n = 0x0c) ∨ (escape (UInt8.ofNat n) = [0x5c, 0x6e] ∧ n = 0x0a) ∨
      (escape (UInt8.ofNat n) = [0x5c, 0x72] ∧ n = 0x0d) ∨ (escape (UInt8.ofNat n) = [0x5c, 0x74] ∧ n = 0x09) := by decide +kernel
  have hx : ∀ n < 16, hexVal (hexDigit n) = some n := by decide +kernel
  have hb : UInt8.ofNat b.toNat = b := by simp
  have hlt : b.toNat < 256 := b.toNat_lt
  rcases h b.toNat hlt with h | ⟨h, h'⟩ | ⟨h, h'⟩ | ⟨h, h'⟩ | ⟨h, h'⟩ | ⟨h, h'⟩ | ⟨h, h'⟩ | ⟨h, h'⟩ <;> rw [hb] at h
  · exact Or.inl h
  · refine Or.inr ⟨_, h, fun r => ?_⟩
    show unicode (0x30 :: 0x30 :: hexDigit (b.toNat / 16 % 16) :: hexDigit (b.toNat % 16) :: r) = _
    have e : hex4 (0x30 :: 0x30 :: hexDigit (b.toNat / 16 % 16) :: hexDigit (b.toNat % 16) :: r) = some (b.toNat, r) := by
      rw [hex4, hx _ (by omega), hx _ (by omega)]
      show some (((0 * 16 + 0) * 16 + b.toNat / 16 % 16) * 16 + b.toNat % 16, r) = _
      congr 2
      omega
    rw [unicode, e, Option.bind_some, if_neg (by dsimp only; omega), if_neg (by dsimp only; omega), utf8, if_pos h', hb]
  all_goals refine Or.inr ⟨_, h, fun r => ?_⟩
  · rcases h' with h' | h' <;> (rw [h'] at hb; subst hb; rfl)
  all_goals (rw [h'] at hb; subst hb; rfl)

theorem read_string (s rest : Bytes) : ∀ fuel, s.length < fuel → string fuel ((s.map escape).flatten ++ 0x22 :: rest) = some (s, rest) := by
  induction s with
  | nil =>
    intro fuel h
    obtain ⟨n, rfl⟩ := Nat.exists_eq_add_of_lt h
    rfl
  | cons b s ih =>
    intro fuel h
    rw [List.length_cons] at h
    obtain ⟨fuel, rfl⟩ : ∃ n, fuel = n + 1 := ⟨fuel - 1, by omega⟩
    have ih := ih fuel (by omega)
    rw [List.map_cons, List.flatten_cons, List.append_assoc]
    rcases escape_cases b with ⟨e, h1, h2, h3⟩ | ⟨t, e, ht⟩
    · rw [e, List.singleton_append, string, if_neg h1, if_neg h2, if_neg h3, ih]; rfl
    · rw [e, List.cons_append, string, if_neg (by decide), if_pos rfl, ht, Option.bind_some, ih]; rfl

theorem escape_length (b : UInt8) : 1 ≤ (escape b).length := by
  rcases escape_cases b with ⟨e, _⟩ | ⟨t, e, _⟩ <;> rw [e] <;> simp

theorem escapes_length (s : Bytes) : s.length ≤ (s.map escape).flatten.length := by
  induction s with
  | nil => simp
  | cons b s ih =>
    have := escape_length b
    rw [List.map_cons, List.flatten_cons, List.length_append, List.length_cons]
    omega

theorem read_quoted (s rest : Bytes) : ∃ t, jsonString s ++ rest = 0x22 :: t ∧ string (t.length + 1) t = some (s, rest) := by
  refine ⟨(s.map escape).flatten ++ 0x22 :: rest, by rw [jsonString, List.append_assoc, List.append_assoc]; rfl, read_string s rest _ ?_⟩
  have := escapes_length s
  rw [List.length_append]
  omega

/-! ## white space -/

theorem skip_append {w t : Bytes} (h : ∀ b ∈ w, isWs b = true) : skip (w ++ t) = skip t := by
  induction w with
  | nil => rfl
  | cons b w ih =>
    rw [List.cons_append, skip, List.dropWhile_cons_of_pos (h b List.mem_cons_self)]
    exact ih (fun x hx => h x (List.mem_cons_of_mem _ hx))

theorem skip_ink {b : UInt8} {t : Bytes} (h : isWs b = false) : skip (b :: t) = b :: t := by
  rw [skip, List.dropWhile_cons_of_neg (by rw [h]; simp)]

theorem indentation_ws (indent depth : Nat) : ∀ b ∈ indentation indent depth, isWs b = true := by
  intro b hb
  rw [indentation] at hb
  rcases List.mem_append.mp hb with hb | hb
  · split at hb
    · rw [show ascii "\n" = [0x0a] by decide] at hb
      rw [List.mem_singleton.mp hb]; decide
    · cases hb
  · rw [(List.mem_replicate.mp hb).2]; decide

theorem Ink.skip {t : Bytes} (h : Ink t) (x : Bytes) : JsonSpec.skip (t ++ x) = t ++ x := by
  obtain ⟨b, r, rfl, h, _⟩ := h
  exact skip_ink h

theorem Ink.append {t : Bytes} (h : Ink t) (x : Bytes) : Ink (t ++ x) := by
  obtain ⟨b, r, rfl, h⟩ := h
  exact ⟨b, r ++ x, rfl, h⟩

/-- what may follow a value -/
theorem ends_ws {w t : Bytes} (h : ∀ b ∈ w, isWs b = true) (ht : Ends t) : Ends (w ++ t) := by
  cases w with
  | nil => exact ht
  | cons b w =>
    have := h b List.mem_cons_self
    rw [List.cons_append]
    rcases (by simpa [isWs, or_assoc] using this : b = 0x20 ∨ b = 0x09 ∨ b = 0x0a ∨ b = 0x0d) with rfl | rfl | rfl | rfl <;> exact ⟨by decide, by decide, by decide, by decide⟩

/-! ## elements and members -/

/-- after an element -/
def elemTail (fuel : Nat) (t : Bytes) : Option (List JVal × Bytes) :=
  match skip t with
  | 0x5d :: r => some ([], r)
  | 0x2c :: r => elements fuel (skip r)
  | _ => none

theorem elements_step (fuel : Nat) (t : Bytes) : elements (fuel + 1) t = (value fuel t).bind fun v => (elemTail fuel v.2).map fun x => (v.1 :: x.1, x.2) := by
  rw [elements]
  congr 1
  funext v
  rw [elemTail]
  split <;> simp_all

/-- after a member -/
def memTail (fuel : Nat) (t : Bytes) : Option (List (Bytes × JVal) × Bytes) :=
  match skip t with
  | 0x7d :: r => some ([], r)
  | 0x2c :: r => members fuel (skip r)
  | _ => none

theorem members_step (fuel : Nat) (t : Bytes) : members (fuel + 1) t = (member fuel t).bind fun v => (memTail fuel v.2).map fun x => (v.1 :: x.1, x.2) := by
  rw [members]
  congr 1
  funext v
  rw [memTail]
  split <;> simp_all

/-- after an opening bracket -/
def elemHead (fuel : Nat) (t : Bytes) : Option (List JVal × Bytes) :=
  match skip t with
  | 0x5d :: r => some ([], r)
  | r => elements fuel r

theorem value_arr (fuel : Nat) (t : Bytes) : value (fuel + 1) (0x5b :: t) = (elemHead fuel t).map fun x => (.arr x.1, x.2) := by
  rw [value, elemHead]
  split <;> simp_all

/-- after an opening brace -/
def memHead (fuel : Nat) (t : Bytes) : Option (List (Bytes × JVal) × Bytes) :=
  match skip t with
  | 0x7d :: r => some ([], r)
  | r => members fuel r

theorem value_obj (fuel : Nat) (t : Bytes) : value (fuel + 1) (0x7b :: t) = (memHead fuel t).map fun x => (.obj x.1, x.2) := by
  rw [value, memHead]
  split <;> simp_all

theorem elemHead_ink (fuel : Nat) {w t : Bytes} (hw : ∀ b ∈ w, isWs b = true) (h : Ink t) : elemHead fuel (w ++ t) = elements fuel t := by
  obtain ⟨b, r, rfl, h1, h2, _⟩ := h
  rw [elemHead, skip_append hw, skip_ink h1]
  split
  · rename_i e; exact absurd (List.cons.inj e).1 h2
  · rfl

theorem memHead_ink (fuel : Nat) {w t : Bytes} (hw : ∀ b ∈ w, isWs b = true) (h : Ink t) : memHead fuel (w ++ t) = members fuel t := by
  obtain ⟨b, r, rfl, h1, _, h2⟩ := h
  rw [memHead, skip_append hw, skip_ink h1]
  split
  · rename_i e; exact absurd (List.cons.inj e).1 h2
  · rfl

theorem elemTail_comma (fuel : Nat) {w t : Bytes} (hw : ∀ b ∈ w, isWs b = true) (h : Ink t) : elemTail fuel (0x2c :: (w ++ t)) = elements fuel t := by
  obtain ⟨b, r, rfl, h1, h2, _⟩ := h
  have : skip (0x2c :: (w ++ b :: r)) = 0x2c :: (w ++ b :: r) := skip_ink (by decide)
  rw [elemTail, this]
  show elements fuel (skip (w ++ b :: r)) = _
  rw [skip_append hw, skip_ink h1]

theorem memTail_comma (fuel : Nat) {w t : Bytes} (hw : ∀ b ∈ w, isWs b = true) (h : Ink t) : memTail fuel (0x2c :: (w ++ t)) = members fuel t := by
  obtain ⟨b, r, rfl, h1, h2, _⟩ := h
  have : skip (0x2c :: (w ++ b :: r)) = 0x2c :: (w ++ b :: r) := skip_ink (by decide)
  rw [memTail, this]
  show members fuel (skip (w ++ b :: r)) = _
  rw [skip_append hw, skip_ink h1]

/-! ## values -/

/-- the text of a value is read -/
def Reads (shift : Shift) (v : Val) (t : Bytes) : Prop :=
  Ink t ∧ ∃ j, Denotes shift v j ∧ ∀ rest fuel, Ends rest → 2 * t.length ≤ fuel → value fuel (t ++ rest) = some (j, rest)

/-- the text of elements is read, after another element and in front -/
def ReadsElems (shift : Shift) (a : Vals) (first other : Bytes) : Prop :=
  (∀ rest, Ends (other ++ 0x5d :: rest)) ∧
  (∃ l, ElemDenotes shift a l ∧ ∀ rest fuel, 2 * other.length ≤ fuel → elemTail fuel (other ++ 0x5d :: rest) = some (l, rest)) ∧
  (∃ l, ElemDenotes shift a l ∧ ∀ rest fuel, 2 * first.length + 1 ≤ fuel → elemHead fuel (first ++ 0x5d :: rest) = some (l, rest))

/-- the text of members is read, after another member and in front -/
def ReadsMems (shift : Shift) (m : Mem) (first other : Bytes) : Prop :=
  (∀ rest, Ends (other ++ 0x7d :: rest)) ∧
  (∃ l, MemDenotes shift m l ∧ ∀ rest fuel, 2 * other.length ≤ fuel → memTail fuel (other ++ 0x7d :: rest) = some (l, rest)) ∧
  (∃ l, MemDenotes shift m l ∧ ∀ rest fuel, 2 * first.length + 1 ≤ fuel → memHead fuel (first ++ 0x7d :: rest) = some (l, rest))

theorem reads_arr {shift : Shift} {a : Vals} {first other : Bytes} (h : ReadsElems shift a first other) : ∃ j, (∃ l, j = .arr l ∧ ElemDenotes shift a l) ∧
    ∀ rest fuel, Ends rest → 2 * (ascii "[" ++ first ++ ascii "]").length ≤ fuel → value fuel (ascii "[" ++ first ++ ascii "]" ++ rest) = some (j, rest) := by
  obtain ⟨l, hl, h⟩ := h.2.2
  refine ⟨.arr l, ⟨l, rfl, hl⟩, fun rest fuel _ hf => ?_⟩
  rw [List.length_append, List.length_append, show (ascii "[").length = 1 by decide, show (ascii "]").length = 1 by decide] at hf
  obtain ⟨fuel, rfl⟩ : ∃ n, fuel = n + 1 := ⟨fuel - 1, by omega⟩
  rw [List.append_assoc, List.append_assoc]
  show value (fuel + 1) (0x5b :: (first ++ 0x5d :: rest)) = _
  rw [value_arr, h rest fuel (by omega)]
  rfl

theorem reads_obj {shift : Shift} {m : Mem} {first other : Bytes} (h : ReadsMems shift m first other) : ∃ j, (∃ l, j = .obj l ∧ MemDenotes shift m l) ∧
    ∀ rest fuel, Ends rest → 2 * (ascii "{" ++ first ++ ascii "}").length ≤ fuel → value fuel (ascii "{" ++ first ++ ascii "}" ++ rest) = some (j, rest) := by
  obtain ⟨l, hl, h⟩ := h.2.2
  refine ⟨.obj l, ⟨l, rfl, hl⟩, fun rest fuel _ hf => ?_⟩
  rw [List.length_append, List.length_append, show (ascii "{").length = 1 by decide, show (ascii "}").length = 1 by decide] at hf
  obtain ⟨fuel, rfl⟩ : ∃ n, fuel = n + 1 := ⟨fuel - 1, by omega⟩
  rw [List.append_assoc, List.append_assoc]
  show value (fuel + 1) (0x7b :: (first ++ 0x7d :: rest)) = _
  rw [value_obj, h rest fuel (by omega)]
  rfl

/-- texts without contents -/
theorem reads_word {shift : Shift} {v : Val} {t : Bytes} {j : JVal} (hi : Ink t) (hd : Denotes shift v j) (hv : ∀ rest fuel, value (fuel + 1) (t ++ rest) = some (j, rest)) : Reads shift v t := by
  refine ⟨hi, j, hd, fun rest fuel _ hf => ?_⟩
  obtain ⟨b, r, rfl, _⟩ := hi
  rw [List.length_cons] at hf
  obtain ⟨fuel, rfl⟩ : ∃ n, fuel = n + 1 := ⟨fuel - 1, by omega⟩
  exact hv rest fuel

theorem ink_null : Ink (ascii "null") := ⟨0x6e, ascii "ull", by decide, by decide, by decide, by decide⟩

theorem reads_null {shift : Shift} {v : Val} (hd : Denotes shift v .null) : Reads shift v (ascii "null") :=
  reads_word ink_null hd (fun rest fuel => by show value (fuel + 1) (0x6e :: 0x75 :: 0x6c :: 0x6c :: rest) = _; rw [value])

/-- an element with others -/
theorem reads_elems_cons {shift : Shift} {v : Val} {a : Vals} {t w first other : Bytes} (hw : ∀ b ∈ w, isWs b = true) (hv : Reads shift v t) (ha : ReadsElems shift a first other) :
    ReadsElems shift (.cons v a) (w ++ t ++ other) (ascii "," ++ w ++ t ++ other) := by
  obtain ⟨hi, j, hj, hv⟩ := hv
  obtain ⟨h1, ⟨l, hl, h2⟩, _⟩ := ha
  have key : ∀ rest fuel, 2 * t.length + 2 * other.length + 1 ≤ fuel → elements fuel (t ++ (other ++ 0x5d :: rest)) = some (j :: l, rest) := by
    intro rest fuel hf
    obtain ⟨fuel, rfl⟩ : ∃ n, fuel = n + 1 := ⟨fuel - 1, by omega⟩
    rw [elements_step, hv _ fuel (h1 rest) (by omega), Option.bind_some, h2 rest fuel (by omega)]
    rfl
  have hc : (ascii ",").length = 1 := by decide
  refine ⟨fun rest => ?_, ⟨j :: l, ⟨j, l, rfl, hj, hl⟩, fun rest fuel hf => ?_⟩, ⟨j :: l, ⟨j, l, rfl, hj, hl⟩, fun rest fuel hf => ?_⟩⟩
  · exact ⟨by decide, by decide, by decide, by decide⟩
  · rw [List.length_append, List.length_append, List.length_append, hc] at hf
    have e : ascii "," ++ w ++ t ++ other ++ 0x5d :: rest = 0x2c :: (w ++ (t ++ (other ++ 0x5d :: rest))) := by
      rw [List.append_assoc, List.append_assoc, List.append_assoc]; rfl
    rw [e, elemTail_comma fuel hw (hi.append _), key rest fuel (by omega)]
  · rw [List.length_append, List.length_append] at hf
    rw [List.append_assoc, List.append_assoc, elemHead_ink fuel hw (hi.append _), key rest fuel (by omega)]

/-- a member with others -/
theorem reads_mems_cons {shift : Shift} {k : Bytes} {v : Val} {m : Mem} {t w c first other : Bytes} (hw : ∀ b ∈ w, isWs b = true) (hc : ∀ b ∈ c, isWs b = true) (hvo : v ≠ .undef ∧ v ≠ .nullptr)
    (hv : Reads shift v t) (ha : ReadsMems shift m first other) :
    ReadsMems shift (.cons k v m) (w ++ jsonString k ++ ascii ":" ++ c ++ t ++ other) (ascii "," ++ w ++ jsonString k ++ ascii ":" ++ c ++ t ++ other) := by
  obtain ⟨hi, j, hj, hv⟩ := hv
  obtain ⟨h1, ⟨l, hl, h2⟩, _⟩ := ha
  have hik : Ink (jsonString k) := ⟨0x22, _, by rw [jsonString, List.append_assoc]; rfl, by decide, by decide, by decide⟩
  have key : ∀ rest fuel, 2 * t.length + 2 * other.length + 2 ≤ fuel → members fuel (jsonString k ++ (ascii ":" ++ (c ++ (t ++ (other ++ 0x7d :: rest))))) = some ((k, j) :: l, rest) := by
    intro rest fuel hf
    obtain ⟨fuel, rfl⟩ : ∃ n, fuel = n + 2 := ⟨fuel - 2, by omega⟩
    have e : member (fuel + 1) (jsonString k ++ (ascii ":" ++ (c ++ (t ++ (other ++ 0x7d :: rest))))) = some ((k, j), other ++ 0x7d :: rest) := by
      obtain ⟨x, ex, hx⟩ := read_quoted k (ascii ":" ++ (c ++ (t ++ (other ++ 0x7d :: rest))))
      rw [ex, member, hx, Option.bind_some]
      have e1 : skip (ascii ":" ++ (c ++ (t ++ (other ++ 0x7d :: rest)))) = 0x3a :: (c ++ (t ++ (other ++ 0x7d :: rest))) := skip_ink (b := 0x3a) (by decide)
      dsimp only
      rw [e1]
      show ((value fuel (skip (c ++ (t ++ (other ++ 0x7d :: rest))))).map _) = _
      rw [skip_append hc, hi.skip, hv _ fuel (h1 rest) (by omega)]
      rfl
    rw [members_step, e, Option.bind_some, h2 rest _ (by omega)]
    rfl
  have hcm : (ascii ",").length = 1 := by decide
  have hcl : (ascii ":").length = 1 := by decide
  have hden : MemDenotes shift (.cons k v m) ((k, j) :: l) := Or.inr ⟨hvo, j, l, rfl, hj, hl⟩
  refine ⟨fun rest => ?_, ⟨(k, j) :: l, hden, fun rest fuel hf => ?_⟩, ⟨(k, j) :: l, hden, fun rest fuel hf => ?_⟩⟩
  · exact ⟨by decide, by decide, by decide, by decide⟩
  · simp only [List.length_append, hcm, hcl] at hf
    have e : ascii "," ++ w ++ jsonString k ++ ascii ":" ++ c ++ t ++ other ++ 0x7d :: rest = 0x2c :: (w ++ (jsonString k ++ (ascii ":" ++ (c ++ (t ++ (other ++ 0x7d :: rest)))))) := by
      simp only [List.append_assoc]; rfl
    rw [e, memTail_comma fuel hw (hik.append _), key rest fuel (by omega)]
  · simp only [List.length_append, hcl] at hf
    simp only [List.append_assoc]
    rw [memHead_ink fuel hw (hik.append _), key rest fuel (by omega)]

theorem reads_elems_nil {shift : Shift} {w : Bytes} (hw : ∀ b ∈ w, isWs b = true) : ReadsElems shift .nil [] w := by
  refine ⟨fun rest => ends_ws hw ⟨by decide, by decide, by decide, by decide⟩, ⟨[], rfl, fun rest fuel _ => ?_⟩, ⟨[], rfl, fun rest fuel _ => ?_⟩⟩
  · rw [elemTail, skip_append hw, skip_ink (by decide)]; rfl
  · rw [List.nil_append, elemHead, skip_ink (by decide)]; rfl

theorem reads_mems_nil {shift : Shift} {w : Bytes} (hw : ∀ b ∈ w, isWs b = true) : ReadsMems shift .nil [] w := by
  refine ⟨fun rest => ends_ws hw ⟨by decide, by decide, by decide, by decide⟩, ⟨[], rfl, fun rest fuel _ => ?_⟩, ⟨[], rfl, fun rest fuel _ => ?_⟩⟩
  · rw [memTail, skip_append hw, skip_ink (by decide)]; rfl
  · rw [List.nil_append, memHead, skip_ink (by decide)]; rfl

theorem reads_num {shift : Shift} {b : UInt64} {t : Bytes} {j : JVal} (hi : Ink t) (hd : NumDenotes shift (ofBits b) j)
    (hv : ∀ rest fuel, Ends rest → value (fuel + 1) (t ++ rest) = some (j, rest)) : Reads shift (.num b) t := by
  refine ⟨hi, j, hd, fun rest fuel hr hf => ?_⟩
  obtain ⟨b, r, rfl, _⟩ := hi
  rw [List.length_cons] at hf
  obtain ⟨fuel, rfl⟩ : ∃ n, fuel = n + 1 := ⟨fuel - 1, by omega⟩
  exact hv rest fuel hr

mutual
theorem read_val {shift : Shift} (hs : ShiftOk shift) (indent : Nat) : ∀ (v : Val) (depth : Nat), Reads shift v (repr (number shift true) indent true depth v)
  | .nullptr, depth => reads_null rfl
  | .num b, depth => by
    obtain ⟨j, hj, hne, _, h⟩ := read_number hs b
    rw [repr]
    exact reads_num hne hj h
  | .bool b, depth => by
    cases b with
    | true => exact reads_word ⟨0x74, ascii "rue", by rfl, by decide, by decide, by decide⟩ (j := .bool true) rfl
                (fun rest fuel => by show value (fuel + 1) (0x74 :: 0x72 :: 0x75 :: 0x65 :: rest) = _; rw [value])
    | false => exact reads_word ⟨0x66, ascii "alse", by rfl, by decide, by decide, by decide⟩ (j := .bool false) rfl
                (fun rest fuel => by show value (fuel + 1) (0x66 :: 0x61 :: 0x6c :: 0x73 :: 0x65 :: rest) = _; rw [value])
  | .str s, depth => by
    refine reads_word (j := .str s) ⟨0x22, _, by rw [repr, jsonString, List.append_assoc]; rfl, by decide, by decide, by decide⟩ rfl (fun rest fuel => ?_)
    obtain ⟨x, ex, hx⟩ := read_quoted s rest
    rw [repr, ex, value, hx]
    rfl
  | .obj m, depth => by
    obtain ⟨j, hj, h⟩ := reads_obj (read_mem hs indent m depth)
    exact ⟨⟨0x7b, _, by rw [repr, List.append_assoc]; rfl, by decide, by decide, by decide⟩, j, hj, h⟩
  | .null, depth => reads_null rfl
  | .undef, depth => reads_null rfl
  | .ecma m, depth => by
    obtain ⟨j, hj, h⟩ := reads_obj (read_mem hs indent m depth)
    exact ⟨⟨0x7b, _, by rw [repr, List.append_assoc]; rfl, by decide, by decide, by decide⟩, j, hj, h⟩
  | .arr a, depth => by
    obtain ⟨j, hj, h⟩ := reads_arr (read_elems hs indent a depth)
    exact ⟨⟨0x5b, _, by rw [repr, List.append_assoc]; rfl, by decide, by decide, by decide⟩, j, hj, h⟩
  | .typed n m, depth => by
    obtain ⟨j, hj, h⟩ := reads_obj (read_mem hs indent m depth)
    rw [repr, if_pos rfl]
    exact ⟨⟨0x7b, _, by rw [List.append_assoc]; rfl, by decide, by decide, by decide⟩, j, hj, h⟩
theorem read_mem {shift : Shift} (hs : ShiftOk shift) (indent : Nat) : ∀ (m : Mem) (depth : Nat),
    ReadsMems shift m (reprMembers (number shift true) indent true depth true m) (reprMembers (number shift true) indent true depth false m)
  | .nil, depth => reads_mems_nil (indentation_ws indent depth)
  | .cons k v m, depth => by
    have hm := read_mem hs indent m depth
    have hv := read_val hs indent v (depth + 1)
    by_cases ho : v = .undef ∨ v = .nullptr
    · have e : ∀ f, reprMembers (number shift true) indent true depth f (.cons k v m) = reprMembers (number shift true) indent true depth f m := by
        intro f
        rw [reprMembers, if_neg]
        rcases ho with rfl | rfl <;> simp [omitted]
      rw [e, e]
      obtain ⟨h1, ⟨l, hl, h2⟩, ⟨l', hl', h3⟩⟩ := hm
      exact ⟨h1, ⟨l, Or.inl ⟨ho, hl⟩, h2⟩, ⟨l', Or.inl ⟨ho, hl'⟩, h3⟩⟩
    · rw [not_or] at ho
      have hom : omitted v = false := by
        cases v <;> first | rfl | exact absurd rfl ho.1 | exact absurd rfl ho.2
      have := reads_mems_cons (k := k) (c := if indent ≠ 0 then ascii " " else []) (indentation_ws indent (depth + 1)) (fun b hb => by
        split at hb
        · rw [show ascii " " = [0x20] by decide] at hb
          rw [List.mem_singleton.mp hb]; decide
        · cases hb) ho hv hm
      rw [reprMembers, if_pos (Or.inr hom), reprMembers, if_pos (Or.inr hom)]
      exact this
theorem read_elems {shift : Shift} (hs : ShiftOk shift) (indent : Nat) : ∀ (a : Vals) (depth : Nat),
    ReadsElems shift a (reprElements (number shift true) indent true depth true a) (reprElements (number shift true) indent true depth false a)
  | .nil, depth => reads_elems_nil (indentation_ws indent depth)
  | .cons v a, depth => by
    have := reads_elems_cons (indentation_ws indent (depth + 1)) (read_val hs indent v (depth + 1)) (read_elems hs indent a depth)
    rw [reprElements, reprElements]
    exact this
end

end Json
end Rtmfp
