import Verif.Model.FlashCrypto
import Verif.Props.C01_C03_VLU

/-! # Searching lists of options -/

namespace Rtmfp
namespace Flash

/-- encoded options -/
def typed (os : List (Nat × Bytes)) : Bytes := (os.map (fun o => Opt.append o.1 o.2 [])).flatten

def OkOpt (o : Nat × Bytes) : Prop := o.1 < 2 ^ 64 ∧ o.2.length + 10 < 2 ^ 64

theorem append_dst (t : Nat) (v dst : Bytes) : Opt.append t v dst = dst ++ Opt.append t v [] := by simp [Opt.append]

theorem typed_nil : typed [] = [] := rfl

theorem typed_cons (o : Nat × Bytes) (os : List (Nat × Bytes)) : typed (o :: os) = Opt.append o.1 o.2 [] ++ typed os := by simp [typed]

theorem typed_append (os ps : List (Nat × Bytes)) : typed (os ++ ps) = typed os ++ typed ps := by simp [typed]

theorem append_typed (t : Nat) (v : Bytes) (os : List (Nat × Bytes)) : Opt.append t v (typed os) = typed (os ++ [(t, v)]) := by
  rw [append_dst, typed_append]; simp [typed]

theorem opt_pos (t : Nat) (v : Bytes) : 1 ≤ (Opt.append t v []).length := appendOpt_pos (.typed t v)

theorem typed_length (os : List (Nat × Bytes)) : os.length ≤ (typed os).length := by
  induction os with
  | nil => simp
  | cons o os ih =>
    have := opt_pos o.1 o.2
    rw [typed_cons, List.length_append, List.length_cons]; omega

theorem parse_typed (o : Nat × Bytes) (h : OkOpt o) (rest : Bytes) :
    Opt.parse (Opt.append o.1 o.2 [] ++ rest) = some (⟨o.1, some o.2⟩, (Opt.append o.1 o.2 []).length) := by
  have := C03_option_round_trip (.typed o.1 o.2) h rest
  simpa only [appendOpt, reportOpt] using this

theorem typed_ne (o : Nat × Bytes) (rest : Bytes) : Opt.append o.1 o.2 [] ++ rest ≠ [] := by
  intro h
  have := congrArg List.length h
  have hp := opt_pos o.1 o.2
  rw [List.length_append, List.length_nil] at this
  omega

/-- the first option of a type, and the options after it -/
def firstOf : List (Nat × Bytes) → Nat → Option (Bytes × List (Nat × Bytes))
  | [], _ => none
  | o :: os, t => if o.1 = t then some (o.2, os) else firstOf os t

theorem optSearch_typed (os : List (Nat × Bytes)) (hos : ∀ o ∈ os, OkOpt o) (t fuel : Nat) (hf : os.length < fuel) :
    optSearch fuel (typed os) t = (firstOf os t).map (fun r => (r.1, typed r.2)) := by
  induction os generalizing fuel with
  | nil =>
    cases fuel with
    | zero => cases hf
    | succ fuel => rw [optSearch, typed_nil, if_pos rfl]; rfl
  | cons o os ih =>
    cases fuel with
    | zero => cases hf
    | succ fuel =>
      rw [typed_cons, optSearch, if_neg (typed_ne o _), parse_typed o (hos o List.mem_cons_self), firstOf]
      simp only [List.drop_left]
      by_cases h : o.1 = t
      · rw [if_pos h, if_pos h]; rfl
      · rw [if_neg h, if_neg h]
        exact ih (fun o' ho => hos o' (List.mem_cons_of_mem _ ho)) fuel (by simpa using hf)

theorem optionSearch_typed (os : List (Nat × Bytes)) (hos : ∀ o ∈ os, OkOpt o) (t : Nat) :
    optionSearch (typed os) t = (firstOf os t).map (fun r => (r.1, typed r.2)) :=
  optSearch_typed os hos t _ (by have := typed_length os; omega)

/-- more fuel makes no difference -/
theorem optSearch_fuel (t : Nat) (f f' : Nat) (src : Bytes) (h : src.length < f) (h' : src.length < f') : optSearch f src t = optSearch f' src t := by
  induction f generalizing f' src with
  | zero => cases h
  | succ f ih =>
    cases f' with
    | zero => cases h'
    | succ f' =>
      rw [optSearch, optSearch]
      by_cases hs : src = []
      · rw [if_pos hs, if_pos hs]
      · rw [if_neg hs, if_neg hs]
        rcases hp : Opt.parse src with _ | ⟨o, n⟩
        · rfl
        · obtain ⟨h1, h2, _⟩ := C03_option_in_bounds _ _ _ hp
          dsimp only
          rcases o.value with _ | v
          · rfl
          · dsimp only
            rw [ih f' (src.drop n) (by rw [List.length_drop]; omega) (by rw [List.length_drop]; omega)]

theorem optSearch_shrinks (t : Nat) (f : Nat) (src v rest : Bytes) (h : optSearch f src t = some (v, rest)) : rest.length < src.length := by
  induction f generalizing src with
  | zero => cases h
  | succ f ih =>
    rw [optSearch] at h
    by_cases hs : src = []
    · rw [if_pos hs] at h; cases h
    · rw [if_neg hs] at h
      rcases hp : Opt.parse src with _ | ⟨o, n⟩
      · rw [hp] at h; cases h
      · obtain ⟨h1, h2, _⟩ := C03_option_in_bounds _ _ _ hp
        rw [hp] at h
        dsimp only at h
        rcases hv : o.value with _ | v'
        · rw [hv] at h; cases h
        · rw [hv] at h
          dsimp only at h
          split at h
          · cases h; rw [List.length_drop]; omega
          · have := ih _ h
            rw [List.length_drop] at this; omega

/-- more fuel makes no difference -/
theorem groupSearch_fuel (t g : Nat) (f f' : Nat) (src : Bytes) (h : src.length < f) (h' : src.length < f') : groupSearch f src t g = groupSearch f' src t g := by
  induction f generalizing f' src with
  | zero => cases h
  | succ f ih =>
    cases f' with
    | zero => cases h'
    | succ f' =>
      rw [groupSearch, groupSearch]
      by_cases hs : src = []
      · rw [if_pos hs, if_pos hs]
      · rw [if_neg hs, if_neg hs]
        rcases hp : searchGroupAndKey src t with _ | ⟨g', key, rest⟩
        · rfl
        · dsimp only
          have hr : rest.length < src.length := by
            rw [searchGroupAndKey] at hp
            rcases hq : optionSearch src t with _ | ⟨v, rest'⟩
            · rw [hq] at hp; cases hp
            · rw [hq] at hp
              have := optSearch_shrinks t _ src v rest' hq
              dsimp only at hp
              split at hp
              · cases hp
              · split at hp
                · cases hp
                · cases hp; exact this
          rw [ih f' rest (by omega) (by omega)]

/-- a group option and the key in it -/
theorem groupSearch_typed (t g : Nat) (keyOf : Nat → Bytes) (os : List (Nat × Bytes)) (hos : ∀ o ∈ os, OkOpt o)
    (hg : ∀ o ∈ os, o.1 = t → ∃ g', g' < 2 ^ 31 ∧ o.2 = VLU.encode g' ++ keyOf g') (hm : (t, VLU.encode g ++ keyOf g) ∈ os) (hg31 : g < 2 ^ 31)
    (fuel : Nat) (hf : os.length < fuel) : groupSearch fuel (typed os) t g = some (keyOf g) := by
  induction os generalizing fuel with
  | nil => cases hm
  | cons o os ih =>
    cases fuel with
    | zero => cases hf
    | succ fuel =>
      have ih' := ih (fun o' ho => hos o' (List.mem_cons_of_mem _ ho)) (fun o' ho => hg o' (List.mem_cons_of_mem _ ho))
      have hne : typed (o :: os) ≠ [] := by rw [typed_cons]; exact typed_ne o _
      rw [groupSearch, if_neg hne, searchGroupAndKey, optionSearch_typed _ hos, firstOf]
      by_cases h : o.1 = t
      · obtain ⟨g', hg', he⟩ := hg o List.mem_cons_self h
        rw [if_pos h]
        simp only [Option.map_some, he, C01_vlu_round_trip g' (by omega) (keyOf g') true, List.drop_left]
        rw [if_neg (by omega)]
        dsimp only
        by_cases hgg : g' = g
        · rw [if_pos hgg, hgg]
        · rw [if_neg hgg]
          refine ih' ?_ fuel (by simpa using hf)
          rcases List.mem_cons.mp hm with h1 | h1
          · exfalso
            have h2 : VLU.encode g ++ keyOf g = VLU.encode g' ++ keyOf g' := by rw [← he, ← h1]
            have h3 := C01_vlu_round_trip g (by omega) (keyOf g) true
            rw [h2, C01_vlu_round_trip g' (by omega) (keyOf g') true] at h3
            exact hgg (Prod.mk.inj (Option.some.inj h3)).1
          · exact h1
      · rw [if_neg h]
        have hm' : (t, VLU.encode g ++ keyOf g) ∈ os := by
          rcases List.mem_cons.mp hm with h1 | h1
          · exact absurd (by rw [← h1]) h
          · exact h1
        have hos' : os ≠ [] := fun h => by rw [h] at hm'; cases hm'
        have hne' : typed os ≠ [] := by
          cases os with
          | nil => exact absurd rfl hos'
          | cons o' os' => rw [typed_cons]; exact typed_ne o' _
        have hi := ih' hm' (fuel + 1) (by have := hf; simp only [List.length_cons] at this; omega)
        rw [groupSearch, if_neg hne', searchGroupAndKey, optionSearch_typed _ (fun o' ho => hos o' (List.mem_cons_of_mem _ ho))] at hi
        exact hi

theorem groupOptionSearch_typed (t g : Nat) (keyOf : Nat → Bytes) (os : List (Nat × Bytes)) (hos : ∀ o ∈ os, OkOpt o)
    (hg : ∀ o ∈ os, o.1 = t → ∃ g', g' < 2 ^ 31 ∧ o.2 = VLU.encode g' ++ keyOf g') (hm : (t, VLU.encode g ++ keyOf g) ∈ os) (hg31 : g < 2 ^ 31) :
    groupOptionSearch (typed os) t g = some (keyOf g) :=
  groupSearch_typed t g keyOf os hos hg hm hg31 _ (by have := typed_length os; omega)

end Flash
end Rtmfp
