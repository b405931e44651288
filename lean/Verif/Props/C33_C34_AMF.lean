import Verif.Lemmas.AMF
/-! # C33, C34: AMF0 values

`decode` answers `none` if it would read outside of the buffer; else the value, if there is one, and the bytes after the cursor. -/
namespace Rtmfp
open AMF

/-- for the examples: an object of an array of a number, a missing element and a typed object, with a key that is empty -/
def AMF.demo : Val :=
  .obj (.cons [] (.arr (.cons (.num 0x3ff0000000000000) (.cons .nullptr (.cons (.typed [0x41] (.cons [0x78] (.bool true) .nil)) .nil))))
    (.cons [0x61] (.str [1, 2, 3]) (.cons [0x61, 0x62] (.ecma .nil) .nil)))

/-- values within the documented depth are decoded to themselves (a missing member: undefined), from exactly the bytes of their encoding -/
theorem C33_round_trip (v : Val) (hv : v.Ok) (hn : v.nest ≤ 32) (rest : Bytes) : decode (v.encode ++ rest) = some (some v.norm, rest) :=
  rt_val v _ rest hv (Nat.lt_succ_of_le hn)

example : demo.Ok := by simp [demo, Val.Ok, Mem.Ok, Vals.Ok, Vals.size, Mem.toList, keyLt]
example : demo.nest = 3 ∧ demo.encode.length = 54 := by decide +kernel

/-- a value without missing members is the same after it -/
theorem C33_round_trip_same (v : Val) (hv : v.Ok) (hn : v.nest ≤ 32) (hf : v.norm = v) (rest : Bytes) : decode (v.encode ++ rest) = some (some v, rest) := by
  rw [C33_round_trip v hv hn rest, hf]

/-- values nested deeper are encoded but can't be decoded -/
theorem C33_too_deep (v : Val) (hv : v.Ok) (hn : 32 < v.nest) (rest : Bytes) : decode (v.encode ++ rest) = some (none, v.encode ++ rest) :=
  deep_val v _ rest hv hn

example : ∃ v : Val, v.Ok ∧ v.nest = 33 := by
  have : ∀ n, ∃ v : Val, v.Ok ∧ v.nest = n := by
    intro n
    induction n with
    | zero => exact ⟨.null, trivial, rfl⟩
    | succ n ih =>
      obtain ⟨v, h1, h2⟩ := ih
      refine ⟨.arr (.cons v .nil), ⟨by simp [Vals.size], h1, trivial⟩, ?_⟩
      show max (v.nest + 1) 0 = n + 1
      omega
  exact this 33

/-- a sequence of values is decoded to the same sequence (missing ones were not encoded) -/
theorem C33_sequence (vs : List Val) (h : ∀ v ∈ vs, v.Ok ∧ v.nest ≤ 32) : ∃ fuel, decodeAll fuel (encodeAll vs) [] =
    some (true, (vs.filter (fun v => match v with | .nullptr => false | _ => true)).map Val.norm) :=
  ⟨_, decodeAll_rt vs _ [] h (Nat.lt_succ_self _)⟩

example : (decodeAll 99 (encodeAll [.str [1], .nullptr, .null]) []).map (fun r => (r.1, r.2.length, r.2.map Val.nodes)) = some (true, 2, [1, 1]) := by decide +kernel

/-- a duplicate is equal, or missing if the value is nested too deep -/
theorem C33_duplicate (v : Val) (hv : v.Ok) : duplicate v = some (if v.nest ≤ 32 then some v.norm else none) := by
  rw [duplicate]
  by_cases hn : v.nest ≤ 32
  · have := C33_round_trip v hv hn []
    rw [List.append_nil] at this
    rw [this, if_pos hn]; rfl
  · have := C33_too_deep v hv (by omega) []
    rw [List.append_nil] at this
    rw [this, if_neg hn]; rfl

/-- objects that are made by putting and erasing members are within the limits -/
theorem C33_objects (ops : List (Bytes × Option Val)) (h : ∀ o ∈ ops, ∀ v, o.2 = some v → v.Ok) :
    (Mem.ofList (ops.foldl (fun m o => match o.2 with | some v => putValueAtKey m v o.1 | none => erase m o.1) [])).Ok := by
  have main : ∀ (ops : List (Bytes × Option Val)) (m : List (Bytes × Val)), (∀ o ∈ ops, ∀ v, o.2 = some v → v.Ok) → (Mem.ofList m).Ok →
      (Mem.ofList (ops.foldl (fun m o => match o.2 with | some v => putValueAtKey m v o.1 | none => erase m o.1) m)).Ok := by
    intro ops
    induction ops with
    | nil => intro m _ hm; exact hm
    | cons o ops ih =>
      intro m h hm
      refine ih _ (fun o ho => h o (List.mem_cons_of_mem _ ho)) ?_
      have ho := h o List.mem_cons_self
      obtain ⟨k, q⟩ := o
      cases q with
      | some v =>
        show (Mem.ofList (putValueAtKey m v k)).Ok
        rw [putValueAtKey]
        split
        · rename_i hk; exact mapPut_ok _ _ _ hm hk (ho v rfl)
        · exact hm
      | none =>
        show (Mem.ofList (erase m k)).Ok
        rw [erase]
        clear ih h ho
        induction m with
        | nil => exact trivial
        | cons e m ih =>
          obtain ⟨k', v⟩ := e
          obtain ⟨h1, h2, h3, h4⟩ := hm
          rw [List.filter_cons]
          split
          · refine ⟨h1, ?_, h3, ih h4⟩
            rw [toList_ofList] at h2 ⊢
            exact fun e he => h2 e (List.mem_filter.mp he).1
          · exact ih h4
  exact main ops [] h trivial

/-- what was put is there; other members stay -/
theorem C33_put_get (m : List (Bytes × Val)) (hm : (Mem.ofList m).Ok) (k : Bytes) (hk : k.length < 2 ^ 16) (v : Val) (k' : Bytes) :
    getValueAtKey (putValueAtKey m v k) k' = if k' = k then v else getValueAtKey m k' := by
  rw [putValueAtKey, if_pos hk]
  induction m with
  | nil =>
    by_cases e : k' = k
    · subst e; simp [mapPut, getValueAtKey]
    · have : ¬ k = k' := fun h => e h.symm
      simp [mapPut, getValueAtKey, e, this]
  | cons x m ih =>
    obtain ⟨kx, vx⟩ := x
    obtain ⟨h1, h2, h3, h4⟩ := hm
    rw [toList_ofList] at h2
    rw [mapPut]
    split
    · rename_i hlt
      by_cases e : k' = k
      · subst e; simp [getValueAtKey]
      · have : ¬ k = k' := fun h => e h.symm
        simp [getValueAtKey, List.find?_cons, e, this]
    · split
      · by_cases e : kx = k'
        · subst e
          have : ¬ kx = k := by
            rintro rfl
            rename_i h' _; rw [keyLt_irrefl] at *; contradiction
          simp [getValueAtKey, this]
        · have := ih h4
          simp only [getValueAtKey] at this ⊢
          rw [List.find?_cons_of_neg (by simpa using e), List.find?_cons_of_neg (by simpa using e)]
          exact this
      · rename_i n1 n2
        have ek : k = kx := by
          rcases keyLt_total k kx with a | a | a
          · exact absurd a n1
          · exact absurd a n2
          · exact a
        subst ek
        by_cases e : k' = k
        · subst e; simp [getValueAtKey]
        · have : ¬ k = k' := fun h => e h.symm
          simp [getValueAtKey, e, this]

/-- an erased member is gone; other members stay -/
theorem C33_erase_get (m : List (Bytes × Val)) (k k' : Bytes) : getValueAtKey (erase m k) k' = if k' = k then .undef else getValueAtKey m k' := by
  rw [erase]
  induction m with
  | nil => simp [getValueAtKey]
  | cons x m ih =>
    obtain ⟨kx, vx⟩ := x
    simp only [getValueAtKey] at ih ⊢
    by_cases e : kx = k
    · subst e
      rw [List.filter_cons_of_neg (by simp), ih]
      by_cases e' : k' = kx
      · rw [if_pos e', if_pos e']
      · rw [if_neg e', if_neg e', List.find?_cons_of_neg (by simpa using fun h => e' h.symm)]
    · rw [List.filter_cons_of_pos (by simpa using e)]
      by_cases e' : kx = k'
      · subst e'
        rw [List.find?_cons_of_pos (by simp), List.find?_cons_of_pos (by simp), if_neg e]
      · rw [List.find?_cons_of_neg (by simpa using e'), List.find?_cons_of_neg (by simpa using e')]
        exact ih

/-- decoding arbitrary bytes never reads outside of the buffer (and ends); the cursor stays on failure; on success it is after at least one byte, and the
value is within the limits, not nested deeper than documented, nothing in it is missing, and it has no more parts than there were bytes -/
theorem C34_safe (c : Bytes) : ∃ r c', decode c = some (r, c') ∧ (r = none → c' = c) ∧
    ∀ v, r = some v → ∃ used, used ≠ [] ∧ c = used ++ c' ∧ v.Ok ∧ v.nest ≤ 32 ∧ v.norm = v ∧ v.nodes ≤ used.length := by
  obtain ⟨r, c', h1, h2, h3⟩ := decodeD_safe (MAX_DEPTH + 1) c
  refine ⟨r, c', h1, h2, fun v hv => ?_⟩
  obtain ⟨used, u1, u2, u3⟩ := h3 v hv
  exact ⟨used, u1, u2, u3.ok, Nat.le_of_lt_succ u3.nest, u3.full, u3.nodes⟩

/-- the same for a sequence: it ends, the values are those of an initial part, which is everything exactly if the answer is yes; if not, there is no value
after that part -/
theorem C34_safe_sequence (c : Bytes) : ∃ fuel ok l used rest, decodeAll fuel c [] = some (ok, l) ∧ c = used ++ rest ∧ (ok = true ↔ rest = []) ∧
    l.length ≤ used.length ∧ (∀ v ∈ l, v.Ok ∧ v.nest ≤ 32 ∧ v.norm = v) ∧ (ok = false → ∃ c', decode rest = some (none, c')) := by
  obtain ⟨ok, l, used, rest, h1, h2⟩ := decodeAll_safe (c.length + 1) c [] (Nat.lt_succ_self _)
  exact ⟨_, ok, l, used, rest, h1, h2⟩

/-- decoding what was decoded once and encoded again gives the same value -/
theorem C34_stable (c : Bytes) (v : Val) (c' rest : Bytes) (h : decode c = some (some v, c')) : decode (v.encode ++ rest) = some (some v, rest) := by
  obtain ⟨r, c1, h1, _, h3⟩ := C34_safe c
  rw [h] at h1
  cases h1
  obtain ⟨_, _, _, a, b, d, _⟩ := h3 v rfl
  exact C33_round_trip_same v a b d rest

/-- truncated, an end marker, a reference, an array that claims 2^32 - 1 elements -/
example : (decode [3, 0, 1, 0x61]).map (fun r => (r.1.isSome, r.2)) = some (false, [3, 0, 1, 0x61]) ∧ (decode [9]).map (fun r => (r.1.isSome, r.2)) = some (false, [9]) ∧
    (decode [7, 0, 0]).map (fun r => (r.1.isSome, r.2)) = some (false, [7, 0, 0]) ∧
    (decode [5, 7]).map (fun r => (r.1.isSome, r.2)) = some (true, [7]) := by decide +kernel

end Rtmfp
