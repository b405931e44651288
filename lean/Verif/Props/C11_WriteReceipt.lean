import Verif.Model.WriteReceipt

/-!
# C11: write receipts settle exactly once
-/

namespace Rtmfp
namespace RStore

/-- Fragments the receipt `i` was issued for, according to the calls made. -/
def fragsOf (ops : List Op) (i : Nat) : Nat :=
  (ops.map fun | .issue j _ _ _ n => if j = i then n else 0 | _ => 0).sum

/-- Fragments of receipt `i` that the issuer is done with, according to the calls made. -/
def doneOf (ops : List Op) (i : Nat) : Nat := ops.count (.fragmentDone i)

/-- Has been issued. -/
def Issued (ops : List Op) (i : Nat) : Prop := ∃ o a b n, Op.issue i o a b n ∈ ops

/-- What the issuer and the user may do after `ops`: the issuer issues each receipt once, for at least one
fragment, and is done with each fragment once, not while the receipt's own callback is executing (the issuer
only does so when a packet is received or a timer fires); the user installs a callback only on a receipt that
isn't finished. Everything else is allowed at any time, also during callbacks. -/
def Allowed (ops : List Op) (s : RStore) : Op → Prop
  | .issue i _ _ _ n => ¬ Issued ops i ∧ 0 < n ∧ n < 2 ^ 64
  | .fragmentDone i => doneOf ops i < fragsOf ops i ∧ i ∉ s.stack
  | .setCallback i => Issued ops i ∧ (s.r i).isFinished = false
  | _ => True

/-- The calls, the resulting state and the reports made to the callbacks, oldest first. -/
inductive Hist : List Op → RStore → List (Nat × Bool) → Prop
  | nil : Hist [] init []
  | snoc {ops s tr op} : Hist ops s tr → Allowed ops s op →
      Hist (ops ++ [op]) (s.step op).1 (tr ++ (s.step op).2)

/-- Invariant for one receipt. -/
structure Inv1 (ops : List Op) (s : RStore) (tr : List (Nat × Bool)) (i : Nat) : Prop where
  fresh : ¬ Issued ops i → fragsOf ops i = 0 ∧ doneOf ops i = 0 ∧ (s.r i).abandoned = false ∧ (s.r i).useCount = 0 ∧
    (∀ b, (i, b) ∉ tr) ∧ (s.r i).onFinished = false ∧ Op.setCallback i ∉ ops
  uses : (s.r i).useCount + doneOf ops i = fragsOf ops i
  bound : fragsOf ops i < 2 ^ 64
  once : (tr.filter (fun x => decide (x.1 = i))).length ≤ 1
  repTrue : (i, true) ∈ tr → (s.r i).abandoned = true
  repFalse : (i, false) ∈ tr → (s.r i).abandoned = false ∧ (s.r i).useCount = 0
  used : ∀ b, (i, b) ∈ tr → (s.r i).onFinished = false ∨ i ∈ s.stack
  stk : i ∈ s.stack → ∃ b, (i, b) ∈ tr
  fin : (s.r i).isFinished = true → (s.r i).onFinished = true → i ∈ s.stack
  cb : Op.setCallback i ∈ ops → (s.r i).onFinished = true ∨ ∃ b, (i, b) ∈ tr

theorem upd_same (s : RStore) (i : Nat) (x : Receipt) : (s.upd i x).r i = x := by simp [upd]
theorem upd_other (s : RStore) {i j : Nat} (x : Receipt) (h : j ≠ i) : (s.upd i x).r j = s.r j := by
  simp [upd, h]
theorem upd_stack (s : RStore) (i : Nat) (x : Receipt) : (s.upd i x).stack = s.stack := rfl

/-- what matters to the invariant -/
structure SameSettle (x y : Receipt) : Prop where
  u : y.useCount = x.useCount
  a : y.abandoned = x.abandoned
  f : y.onFinished = x.onFinished

/-- Operations that don't settle anything. -/
def Quiet : Op → Bool
  | .start _ | .setStartBy _ _ | .setFinishBy _ _ | .setStartWithin _ _ | .setFinishWithin _ _ | .setRetransmit _ _
  | .setParent _ _ | .chainAppend _ | .chainExpire _ _ => true
  | _ => false

theorem upd_settle (s : RStore) (k : Nat) (x : Receipt) (h : SameSettle (s.r k) x) (i : Nat) :
    SameSettle (s.r i) ((s.upd k x).r i) := by
  by_cases e : i = k
  · subst e; rw [upd_same]; exact h
  · rw [upd_other _ _ e]; exact ⟨rfl, rfl, rfl⟩

theorem quiet_step (s : RStore) (op : Op) (h : Quiet op = true) :
    (s.step op).2 = [] ∧ (s.step op).1.stack = s.stack ∧ ∀ i, SameSettle (s.r i) ((s.step op).1.r i) := by
  cases op <;> simp [Quiet] at h <;> refine ⟨rfl, ?_, fun i => ?_⟩
  all_goals first
    | rfl
    | (simp only [step]; apply upd_settle; exact ⟨rfl, rfl, rfl⟩)
    | skip
  · simp only [step, chainAppend, chainLink]; split <;> rfl
  · simp only [step, chainAppend, chainLink]
    split
    · exact ⟨rfl, rfl, rfl⟩
    · apply upd_settle; exact ⟨rfl, rfl, rfl⟩
  · simp only [step, chainExpire]
    split <;> exact ⟨rfl, rfl, rfl⟩

theorem abandonIfNeeded_eq (s : RStore) (i : Nat) (now : Int) :
    s.abandonIfNeeded i now = s.abandon i ∨ s.abandonIfNeeded i now = (s, []) := by
  simp only [abandonIfNeeded]
  split
  · exact Or.inr rfl
  · split
    · exact Or.inl rfl
    · exact Or.inr rfl

theorem fragsOf_snoc (ops : List Op) (op : Op) (i : Nat) :
    fragsOf (ops ++ [op]) i = fragsOf ops i + fragsOf [op] i := by simp [fragsOf]
theorem doneOf_snoc (ops : List Op) (op : Op) (i : Nat) :
    doneOf (ops ++ [op]) i = doneOf ops i + doneOf [op] i := by simp [doneOf]
theorem Issued_snoc (ops : List Op) (op : Op) (i : Nat) :
    Issued (ops ++ [op]) i ↔ Issued ops i ∨ Issued [op] i := by
  simp only [Issued, List.mem_append]
  constructor
  · rintro ⟨o, a, b, n, h | h⟩
    · exact Or.inl ⟨o, a, b, n, h⟩
    · exact Or.inr ⟨o, a, b, n, h⟩
  · rintro (⟨o, a, b, n, h⟩ | ⟨o, a, b, n, h⟩)
    · exact ⟨o, a, b, n, Or.inl h⟩
    · exact ⟨o, a, b, n, Or.inr h⟩

/-- an operation that neither issues, finishes a fragment nor installs a callback for `i` -/
theorem Inv1.keep {ops : List Op} {s t : RStore} {tr : List (Nat × Bool)} {i : Nat} {op : Op} {out : List (Nat × Bool)}
    (h : Inv1 ops s tr i)
    (hI : ¬ Issued [op] i) (hf : fragsOf [op] i = 0) (hd : doneOf [op] i = 0) (hc : op ≠ .setCallback i)
    (hs : SameSettle (s.r i) (t.r i)) (hst : i ∈ t.stack ↔ i ∈ s.stack) (ho : ∀ b, (i, b) ∉ out) :
    Inv1 (ops ++ [op]) t (tr ++ out) i := by
  have ho2 : out.filter (fun x => decide (x.1 = i)) = [] := by
    rw [List.filter_eq_nil_iff]; rintro ⟨a, b⟩ hm; simp; rintro rfl; exact ho b hm
  have hm : ∀ b, (i, b) ∈ tr ++ out ↔ (i, b) ∈ tr := by intro b; simp [ho b]
  have hcb : Op.setCallback i ∈ ops ++ [op] ↔ Op.setCallback i ∈ ops := by
    simp; intro e; exact absurd e.symm hc
  constructor
  · intro hn
    rw [Issued_snoc] at hn
    obtain ⟨a, b, c, d, e, f, g⟩ := h.fresh (fun k => hn (Or.inl k))
    refine ⟨by rw [fragsOf_snoc, a, hf], by rw [doneOf_snoc, b, hd], by rw [hs.a, c], by rw [hs.u, d], ?_, by rw [hs.f, f], by rw [hcb]; exact g⟩
    intro b; rw [hm]; exact e b
  · rw [hs.u, doneOf_snoc, hd, fragsOf_snoc, hf]; exact h.uses
  · rw [fragsOf_snoc, hf]; exact h.bound
  · rw [List.filter_append, ho2, List.append_nil]; exact h.once
  · rw [hm, hs.a]; exact h.repTrue
  · rw [hm, hs.a, hs.u]; exact h.repFalse
  · intro b; rw [hm, hs.f, hst]; exact h.used b
  · rw [hst]; intro k; obtain ⟨b, hb⟩ := h.stk k; exact ⟨b, (hm b).mpr hb⟩
  · have : (t.r i).isFinished = (s.r i).isFinished := by simp [Receipt.isFinished, Receipt.isAbandoned, hs.u, hs.a]
    rw [this, hs.f, hst]; exact h.fin
  · rw [hcb, hs.f]; intro k
    rcases h.cb k with k | ⟨b, k⟩
    · exact Or.inl k
    · exact Or.inr ⟨b, (hm b).mpr k⟩

theorem issue_eq (s : RStore) (i : Nat) (x : Receipt) (n : Nat) (hx : x.useCount = 0) (hn : n < W64) :
    (List.range n).foldl (fun (s : RStore) _ => s.useCountUp i) (s.upd i x) = s.upd i { x with useCount := n } := by
  induction n with
  | zero =>
    have : x = { x with useCount := 0 } := by rw [← hx]
    rw [← this]; rfl
  | succ n ih =>
    rw [List.range_succ, List.foldl_append, ih (by omega)]
    simp only [List.foldl_cons, List.foldl_nil, useCountUp, upd_same]
    have : (n + 1) % W64 = n + 1 := Nat.mod_eq_of_lt hn
    rw [this]
    simp only [upd]
    congr 1
    funext j
    split <;> rfl

theorem Inv1.abandon {ops : List Op} {s : RStore} {tr : List (Nat × Bool)} {i k : Nat} {op : Op}
    (h : Inv1 ops s tr i) (hI : ¬ Issued [op] i) (hf : fragsOf [op] i = 0) (hd : doneOf [op] i = 0)
    (hc : op ≠ .setCallback i) :
    Inv1 (ops ++ [op]) (s.abandon k).1 (tr ++ (s.abandon k).2) i := by
  simp only [RStore.abandon]
  by_cases e : i = k
  · subst e
    split
    · rename_i hg
      obtain ⟨hu, ha⟩ := hg
      have hno : ∀ b, (i, b) ∈ tr → (s.r i).onFinished = false ∨ i ∈ s.stack := h.used
      have hns : i ∉ s.stack := by
        intro hk
        obtain ⟨b, hb⟩ := h.stk hk
        cases b
        · exact hu (h.repFalse hb).2
        · have := h.repTrue hb; rw [this] at ha; cases ha
      have hnt : ∀ b, (i, b) ∉ tr := by
        intro b hb
        cases b
        · exact hu (h.repFalse hb).2
        · have := h.repTrue hb; rw [this] at ha; cases ha
      have hnt2 : tr.filter (fun x => decide (x.1 = i)) = [] := by
        rw [List.filter_eq_nil_iff]; rintro ⟨a, b⟩ hm; simp; rintro rfl; exact hnt b hm
      have hiss : Issued ops i := by
        apply Classical.byContradiction; intro hn; exact hu (h.fresh hn).2.2.2.1
      have hcb : Op.setCallback i ∈ ops ++ [op] ↔ Op.setCallback i ∈ ops := by
        simp; intro e; exact absurd e.symm hc
      split
      · rename_i hon
        constructor
        · intro hn; exact absurd ((Issued_snoc _ _ _).mpr (Or.inl hiss)) hn
        · show _ + _ = _
          rw [show ({ s.upd i _ with stack := _ } : RStore).r i = _ from upd_same s i _, doneOf_snoc, hd, fragsOf_snoc, hf]
          exact h.uses
        · rw [fragsOf_snoc, hf]; exact h.bound
        · rw [List.filter_append, hnt2]; simp
        · intro _; simp [upd]
        · intro hm; simp at hm; exact absurd hm (hnt false)
        · intro b _; right; simp
        · intro _; exact ⟨true, by simp⟩
        · intro _ _; simp
        · intro _; right; exact ⟨true, by simp⟩
      · rename_i hon
        simp at hon
        constructor
        · intro hn; exact absurd ((Issued_snoc _ _ _).mpr (Or.inl hiss)) hn
        · rw [upd_same, doneOf_snoc, hd, fragsOf_snoc, hf]
          exact h.uses
        · rw [fragsOf_snoc, hf]; exact h.bound
        · rw [List.filter_append, hnt2]; simp
        · intro _; rw [upd_same]
        · intro hm; simp at hm; exact absurd hm (hnt false)
        · intro b hm; simp at hm; exact absurd hm (hnt b)
        · intro hm; exact absurd hm hns
        · intro _ hm; rw [upd_same] at hm; simp [hon] at hm
        · rw [hcb]; intro k
          rcases h.cb k with k | ⟨b, k⟩
          · rw [hon] at k; cases k
          · exact absurd k (hnt b)
    · exact h.keep hI hf hd hc ⟨rfl, rfl, rfl⟩ Iff.rfl (by simp)
  · split
    · split
      · exact h.keep hI hf hd hc (by
          have := upd_other s { s.r k with abandoned := true, parent := none } e
          simp only [upd] at this ⊢
          rw [this]; exact ⟨rfl, rfl, rfl⟩) (by simp [e, upd]) (by simp [e])
      · exact h.keep hI hf hd hc (by rw [upd_other _ _ e]; exact ⟨rfl, rfl, rfl⟩) Iff.rfl (by simp)
    · exact h.keep hI hf hd hc ⟨rfl, rfl, rfl⟩ Iff.rfl (by simp)

theorem init_inv (i : Nat) : Inv1 [] init [] i := by
  constructor <;> simp [init, fragsOf, doneOf, Receipt.create, Issued]

theorem step_inv {ops : List Op} {s : RStore} {tr : List (Nat × Bool)} {op : Op} {i : Nat}
    (h : Inv1 ops s tr i) (ha : Allowed ops s op) :
    Inv1 (ops ++ [op]) (s.step op).1 (tr ++ (s.step op).2) i := by
  by_cases hq : Quiet op = true
  · obtain ⟨a, b, c⟩ := quiet_step s op hq
    rw [a]
    refine h.keep ?_ ?_ ?_ ?_ (c i) (by rw [b]) (by simp)
    · cases op <;> simp [Quiet] at hq <;> simp [Issued]
    · cases op <;> simp [Quiet] at hq <;> simp [fragsOf]
    · cases op <;> simp [Quiet] at hq <;> simp [doneOf]
    · cases op <;> simp [Quiet] at hq <;> simp
  · cases op <;> simp [Quiet] at hq
    case issue k o a b n =>
      obtain ⟨hn, hp, hlt⟩ := ha
      simp only [step]
      rw [issue_eq s k _ n rfl hlt, List.append_nil]
      by_cases e : i = k
      · subst e
        obtain ⟨f1, f2, f3, f4, f5, f6, f7⟩ := h.fresh hn
        have hnt2 : tr.filter (fun x => decide (x.1 = i)) = [] := by
          rw [List.filter_eq_nil_iff]; rintro ⟨a, b⟩ hm; simp; rintro rfl; exact f5 b hm
        constructor
        · intro k; exact absurd ((Issued_snoc _ _ _).mpr (Or.inr ⟨o, a, b, n, by simp⟩)) k
        · rw [upd_same, doneOf_snoc, fragsOf_snoc, f1, f2]; simp [doneOf, fragsOf]
        · rw [fragsOf_snoc, f1]; simpa [fragsOf] using hlt
        · rw [hnt2]; simp
        · intro k; exact absurd k (f5 true)
        · intro k; exact absurd k (f5 false)
        · intro b k; exact absurd k (f5 b)
        · intro k; obtain ⟨b, k⟩ := h.stk k; exact absurd k (f5 b)
        · intro _ k; rw [upd_same] at k; simp [Receipt.create] at k
        · intro k; simp at k; exact absurd k f7
      · have := h.keep (op := .issue k o a b n) (t := s.upd k { Receipt.create o a b with useCount := n }) (out := [])
          (by simp [Issued, e]) (by simp [fragsOf, Ne.symm e])
          (by simp [doneOf]) (by simp) (by rw [upd_other _ _ e]; exact ⟨rfl, rfl, rfl⟩) Iff.rfl (by simp)
        simpa using this
    case setCallback k =>
      obtain ⟨hi, hnf⟩ := ha
      simp only [step]
      by_cases e : i = k
      · subst e
        simp [Receipt.isFinished, Receipt.isAbandoned] at hnf
        obtain ⟨hu, hab⟩ := hnf
        have hnt : ∀ b, (i, b) ∉ tr := by
          intro b hb
          cases b
          · exact hu (h.repFalse hb).2
          · have := h.repTrue hb; rw [this] at hab; cases hab
        rw [List.append_nil]
        constructor
        · intro k; exact absurd ((Issued_snoc _ _ _).mpr (Or.inl hi)) k
        · rw [upd_same, doneOf_snoc, fragsOf_snoc]; simpa [doneOf, fragsOf] using h.uses
        · rw [fragsOf_snoc]; simpa [fragsOf] using h.bound
        · exact h.once
        · intro k; exact absurd k (hnt _)
        · intro k; exact absurd k (hnt _)
        · intro b k; exact absurd k (hnt _)
        · intro k; obtain ⟨b, k⟩ := h.stk k; exact absurd k (hnt _)
        · intro k; rw [upd_same] at k; simp [Receipt.isFinished, Receipt.isAbandoned, hu, hab] at k
        · intro _; left; rw [upd_same]
      · exact h.keep (by simp [Issued]) (by simp [fragsOf]) (by simp [doneOf]) (by simp [Ne.symm e])
          (by rw [upd_other _ _ e]; exact ⟨rfl, rfl, rfl⟩) Iff.rfl (by simp)
    case abandon k =>
      exact h.abandon (by simp [Issued]) (by simp [fragsOf]) (by simp [doneOf]) (by simp)
    case abandonIfNeeded k now =>
      simp only [step]
      rcases abandonIfNeeded_eq s k now with e | e <;> rw [e]
      · exact h.abandon (by simp [Issued]) (by simp [fragsOf]) (by simp [doneOf]) (by simp)
      · exact h.keep (by simp [Issued]) (by simp [fragsOf]) (by simp [doneOf]) (by simp)
          ⟨rfl, rfl, rfl⟩ Iff.rfl (by simp)
    case callbackReturned =>
      simp only [step, callbackReturned]
      split
      · exact h.keep (by simp [Issued]) (by simp [fragsOf]) (by simp [doneOf]) (by simp)
          ⟨rfl, rfl, rfl⟩ Iff.rfl (by simp)
      · rename_i k rest hst
        by_cases e : i = k
        · subst e
          obtain ⟨b, hb⟩ := h.stk (by simp [hst])
          have hiss : Issued ops i := by
            apply Classical.byContradiction; intro hn; exact (h.fresh hn).2.2.2.2.1 b hb
          rw [List.append_nil]
          have hr : ({ s.upd i { s.r i with onFinished := false } with stack := rest } : RStore).r i = { s.r i with onFinished := false } := upd_same s i _
          constructor
          · intro k; exact absurd ((Issued_snoc _ _ _).mpr (Or.inl hiss)) k
          · rw [hr, doneOf_snoc, fragsOf_snoc]; simpa [doneOf, fragsOf] using h.uses
          · rw [fragsOf_snoc]; simpa [fragsOf] using h.bound
          · exact h.once
          · rw [hr]; exact h.repTrue
          · rw [hr]; exact h.repFalse
          · intro _ _; left; rw [hr]
          · intro _; exact ⟨b, hb⟩
          · intro _ k; rw [hr] at k; cases k
          · intro _; right; exact ⟨b, hb⟩
        · exact h.keep (by simp [Issued]) (by simp [fragsOf]) (by simp [doneOf]) (by simp)
            (by show SameSettle _ ((s.upd k _).r i); rw [upd_other _ _ e]; exact ⟨rfl, rfl, rfl⟩)
            (by show i ∈ rest ↔ _; simp [hst, e]) (by simp)
    case fragmentDone k =>
      obtain ⟨hlt, hns⟩ := ha
      simp only [step, useCountDown]
      by_cases e : i = k
      · subst e
        have hu := h.uses
        have hb := h.bound
        have hu0 : (s.r i).useCount ≠ 0 := by omega
        have hiss : Issued ops i := by
          apply Classical.byContradiction; intro hn; exact hu0 (h.fresh hn).2.2.2.1
        rw [if_neg hu0]
        have hcb : Op.setCallback i ∈ ops ++ [Op.fragmentDone i] ↔ Op.setCallback i ∈ ops := by simp
        have hd1 : doneOf [Op.fragmentDone i] i = 1 := by simp [doneOf]
        have hf1 : fragsOf [Op.fragmentDone i] i = 0 := by simp [fragsOf]
        have nofalse : (i, false) ∉ tr := fun hm => hu0 (h.repFalse hm).2
        split
        · rename_i hz
          split
          · rename_i hon
            have hab : (s.r i).abandoned = false := by
              cases hab : (s.r i).abandoned
              · rfl
              · exact absurd (h.fin (by simp [Receipt.isFinished, Receipt.isAbandoned, hab]) hon) hns
            have hnt : ∀ b, (i, b) ∉ tr := by
              intro b hb
              cases b
              · exact nofalse hb
              · have := h.repTrue hb; rw [this] at hab; cases hab
            have hnt2 : tr.filter (fun x => decide (x.1 = i)) = [] := by
              rw [List.filter_eq_nil_iff]; rintro ⟨a, b⟩ hm; simp; rintro rfl; exact hnt b hm
            have hr : ({ s.upd i { s.r i with useCount := (s.r i).useCount - 1, parent := none } with stack := i :: (s.upd i { s.r i with useCount := (s.r i).useCount - 1, parent := none }).stack } : RStore).r i = { s.r i with useCount := (s.r i).useCount - 1, parent := none } := upd_same s i _
            constructor
            · intro k; exact absurd ((Issued_snoc _ _ _).mpr (Or.inl hiss)) k
            · rw [hr, doneOf_snoc, fragsOf_snoc, hd1, hf1]; show (s.r i).useCount - 1 + _ = _; omega
            · rw [fragsOf_snoc, hf1]; exact hb
            · rw [List.filter_append, hnt2]; simp
            · intro hm; simp at hm; exact absurd hm (hnt true)
            · intro _; rw [hr]; exact ⟨hab, hz⟩
            · intro _ _; right; simp
            · intro _; exact ⟨false, by simp⟩
            · intro _ _; simp
            · intro _; right; exact ⟨false, by simp⟩
          · rename_i hon
            simp at hon
            rw [List.append_nil]
            constructor
            · intro k; exact absurd ((Issued_snoc _ _ _).mpr (Or.inl hiss)) k
            · rw [upd_same, doneOf_snoc, fragsOf_snoc, hd1, hf1]; show (s.r i).useCount - 1 + _ = _; omega
            · rw [fragsOf_snoc, hf1]; exact hb
            · exact h.once
            · rw [upd_same]; exact h.repTrue
            · intro hm; exact absurd hm nofalse
            · intro _ _; left; rw [upd_same]; exact hon
            · exact h.stk
            · rw [upd_same]; intro _ k; simp [hon] at k
            · rw [hcb, upd_same]; exact h.cb
        · rename_i hz
          rw [List.append_nil]
          constructor
          · intro k; exact absurd ((Issued_snoc _ _ _).mpr (Or.inl hiss)) k
          · rw [upd_same, doneOf_snoc, fragsOf_snoc, hd1, hf1]; show (s.r i).useCount - 1 + _ = _; omega
          · rw [fragsOf_snoc, hf1]; exact hb
          · exact h.once
          · rw [upd_same]; exact h.repTrue
          · intro hm; exact absurd hm nofalse
          · rw [upd_same]; exact h.used
          · exact h.stk
          · rw [upd_same]; intro k; simp [Receipt.isFinished, Receipt.isAbandoned, hz] at k
            exact h.fin (by simp [Receipt.isFinished, Receipt.isAbandoned, k])
          · rw [hcb, upd_same]; exact h.cb
      · have hk : ∀ (t : RStore) (out : List (Nat × Bool)), SameSettle (s.r i) (t.r i) → (i ∈ t.stack ↔ i ∈ s.stack) → (∀ b, (i, b) ∉ out) →
            Inv1 (ops ++ [Op.fragmentDone k]) t (tr ++ out) i := fun t out a b c =>
          h.keep (by simp [Issued]) (by simp [fragsOf]) (by simp [doneOf, Ne.symm e]) (by simp) a b c
        generalize (if (s.r k).useCount = 0 then U64MAX else (s.r k).useCount - 1) = n
        split
        · split
          · exact hk _ _ (by
              have := fun x => upd_other s x e
              show SameSettle _ ((s.upd k _).r i); rw [this]; exact ⟨rfl, rfl, rfl⟩) (by simp [e, upd]) (by simp [e])
          · exact hk _ _ (by rw [upd_other _ _ e]; exact ⟨rfl, rfl, rfl⟩) Iff.rfl (by simp)
        · exact hk _ _ (by rw [upd_other _ _ e]; exact ⟨rfl, rfl, rfl⟩) Iff.rfl (by simp)

theorem hist_inv {ops : List Op} {s : RStore} {tr : List (Nat × Bool)} (h : Hist ops s tr) (i : Nat) :
    Inv1 ops s tr i := by
  induction h with
  | nil => exact init_inv i
  | snoc _ ha ih => exact step_inv ih ha

end RStore

open RStore

/-- In any history (user calls from anywhere, including from inside callbacks) a receipt's completion callback
is invoked at most once. -/
theorem C11_callback_at_most_once {ops : List Op} {s : RStore} {tr : List (Nat × Bool)} (h : Hist ops s tr) (i : Nat) :
    (tr.filter (fun x => decide (x.1 = i))).length ≤ 1 := (hist_inv h i).once

/-- The report says abandoned if and only if the receipt is abandoned; a report of delivery is only made when
the issuer is done with all the fragments. -/
theorem C11_report_is_true {ops : List Op} {s : RStore} {tr : List (Nat × Bool)} (h : Hist ops s tr) (i : Nat) :
    ((i, true) ∈ tr → (s.r i).isAbandoned = true) ∧
    ((i, false) ∈ tr → (s.r i).isDelivered = true ∧ doneOf ops i = fragsOf ops i) := by
  have hi := hist_inv h i
  refine ⟨hi.repTrue, fun hm => ?_⟩
  obtain ⟨a, b⟩ := hi.repFalse hm
  have := hi.uses
  exact ⟨by simp [Receipt.isDelivered, Receipt.isFinished, Receipt.isAbandoned, a, b], by omega⟩

/-- A finished receipt on which a callback was ever installed has had its callback invoked, once, with the
true outcome. -/
theorem C11_finished_is_reported {ops : List Op} {s : RStore} {tr : List (Nat × Bool)} (h : Hist ops s tr) (i : Nat)
    (hc : Op.setCallback i ∈ ops) (hf : (s.r i).isFinished = true) :
    tr.filter (fun x => decide (x.1 = i)) = [(i, (s.r i).isAbandoned)] := by
  have hi := hist_inv h i
  have : ∃ b, (i, b) ∈ tr := by
    rcases hi.cb hc with k | k
    · exact hi.stk (hi.fin hf k)
    · exact k
  obtain ⟨b, hb⟩ := this
  have hb2 : b = (s.r i).isAbandoned := by
    cases b
    · exact (hi.repFalse hb).1.symm
    · exact (hi.repTrue hb).symm
  have hm : (i, b) ∈ tr.filter (fun x => decide (x.1 = i)) := by simp [hb]
  have h1 := hi.once
  rw [← hb2]
  match hl : tr.filter (fun x => decide (x.1 = i)) with
  | [] => rw [hl] at hm; simp at hm
  | [x] => rw [hl] at hm; simp at hm; rw [hm, hl]
  | x :: y :: l => rw [hl] at h1; simp at h1

/-- The receipt is finished exactly when the issuer is done with all fragments or it is abandoned; delivered and
abandoned exclude each other. -/
theorem C11_finished_iff {ops : List Op} {s : RStore} {tr : List (Nat × Bool)} (h : Hist ops s tr) (i : Nat) :
    ((s.r i).isFinished = true ↔ doneOf ops i = fragsOf ops i ∨ (s.r i).isAbandoned = true) ∧
    ((s.r i).isFinished = true ↔ (s.r i).isDelivered = true ∨ (s.r i).isAbandoned = true) ∧
    ¬ ((s.r i).isDelivered = true ∧ (s.r i).isAbandoned = true) := by
  have := (hist_inv h i).uses
  refine ⟨?_, ?_, ?_⟩
  · simp only [Receipt.isFinished, Bool.or_eq_true, decide_eq_true_eq]
    constructor <;> rintro (h | h) <;> first | exact Or.inr h | (left; omega)
  · simp only [Receipt.isDelivered]
    simp only [Receipt.isFinished]
    cases (s.r i).isAbandoned <;> simp
  · simp only [Receipt.isDelivered]
    cases (s.r i).isAbandoned <;> simp

/-- how one allowed call can change what is settled -/
theorem settle_cases {ops : List Op} {s : RStore} {tr : List (Nat × Bool)} (h : Hist ops s tr) (i : Nat)
    (hi : Issued ops i) (op : Op) (ha : Allowed ops s op) :
    (((s.step op).1.r i).abandoned = (s.r i).abandoned ∨
      ((s.r i).useCount ≠ 0 ∧ ((s.step op).1.r i).abandoned = true ∧ (op = .abandon i ∨ ∃ now, op = .abandonIfNeeded i now))) ∧
    (((s.step op).1.r i).useCount = (s.r i).useCount ∨
      (op = .fragmentDone i ∧ (s.r i).useCount ≠ 0 ∧ ((s.step op).1.r i).useCount + 1 = (s.r i).useCount)) := by
  have hinv := hist_inv h i
  by_cases hq : Quiet op = true
  · obtain ⟨_, _, c⟩ := quiet_step s op hq
    exact ⟨Or.inl (c i).a, Or.inl (c i).u⟩
  · have hab : ∀ k, ((s.abandon k).1.r i).useCount = (s.r i).useCount ∧
        (((s.abandon k).1.r i).abandoned = (s.r i).abandoned ∨
          (k = i ∧ (s.r i).useCount ≠ 0 ∧ ((s.abandon k).1.r i).abandoned = true)) := by
      intro k
      simp only [RStore.abandon]
      split
      · by_cases e : i = k
        · subst e
          rename_i hg
          split <;> refine ⟨by simp [upd], Or.inr ⟨rfl, hg.1, by simp [upd]⟩⟩
        · split <;> refine ⟨by simp [upd, e], Or.inl (by simp [upd, e])⟩
      · exact ⟨rfl, Or.inl rfl⟩
    cases op <;> simp [Quiet] at hq
    case issue k o a b n =>
      have e : i ≠ k := by rintro rfl; exact ha.1 hi
      simp only [step]
      rw [issue_eq s k _ n rfl ha.2.2, upd_other _ _ e]
      exact ⟨Or.inl rfl, Or.inl rfl⟩
    case setCallback k =>
      simp only [step]
      by_cases e : i = k
      · subst e; rw [upd_same]; exact ⟨Or.inl rfl, Or.inl rfl⟩
      · rw [upd_other _ _ e]; exact ⟨Or.inl rfl, Or.inl rfl⟩
    case callbackReturned =>
      simp only [step, callbackReturned]
      split
      · exact ⟨Or.inl rfl, Or.inl rfl⟩
      · rename_i k _ _
        show (((s.upd k _).r i).abandoned = _ ∨ _) ∧ (((s.upd k _).r i).useCount = _ ∨ _)
        by_cases e : i = k
        · subst e; rw [upd_same]; exact ⟨Or.inl rfl, Or.inl rfl⟩
        · rw [upd_other _ _ e]; exact ⟨Or.inl rfl, Or.inl rfl⟩
    case abandon k =>
      simp only [step]
      obtain ⟨a, b⟩ := hab k
      refine ⟨?_, Or.inl a⟩
      rcases b with b | ⟨rfl, b, c⟩
      · exact Or.inl b
      · exact Or.inr ⟨b, c, Or.inl rfl⟩
    case abandonIfNeeded k now =>
      simp only [step]
      rcases abandonIfNeeded_eq s k now with e | e <;> rw [e]
      · obtain ⟨a, b⟩ := hab k
        refine ⟨?_, Or.inl a⟩
        rcases b with b | ⟨rfl, b, c⟩
        · exact Or.inl b
        · exact Or.inr ⟨b, c, Or.inr ⟨now, rfl⟩⟩
      · exact ⟨Or.inl rfl, Or.inl rfl⟩
    case fragmentDone k =>
      obtain ⟨hlt, hns⟩ := ha
      simp only [step, useCountDown]
      by_cases e : i = k
      · subst e
        have hu0 : (s.r i).useCount ≠ 0 := by have := hinv.uses; omega
        rw [if_neg hu0]
        split
        · split <;> refine ⟨Or.inl (by simp [upd]), Or.inr ⟨rfl, hu0, by simp [upd]; omega⟩⟩
        · refine ⟨Or.inl (by simp [upd]), Or.inr ⟨rfl, hu0, by simp [upd]; omega⟩⟩
      · generalize (if (s.r k).useCount = 0 then U64MAX else (s.r k).useCount - 1) = n
        split
        · split <;> refine ⟨Or.inl (by simp [upd, e]), Or.inl (by simp [upd, e])⟩
        · refine ⟨Or.inl (by simp [upd, e]), Or.inl (by simp [upd, e])⟩

/-- The outcome is settled once: abandoned, delivered and finished never change back, in one further call and
hence in any number of further calls. -/
theorem C11_settled_forever {ops : List Op} {s : RStore} {tr : List (Nat × Bool)} (h : Hist ops s tr) (i : Nat)
    (hi : Issued ops i) (op : Op) (ha : Allowed ops s op) :
    ((s.r i).isAbandoned = true → ((s.step op).1.r i).isAbandoned = true) ∧
    ((s.r i).isDelivered = true → ((s.step op).1.r i).isDelivered = true) ∧
    ((s.r i).isFinished = true → ((s.step op).1.r i).isFinished = true) := by
  obtain ⟨a, b⟩ := settle_cases h i hi op ha
  have A : (s.r i).isAbandoned = true → ((s.step op).1.r i).isAbandoned = true := by
    simp only [Receipt.isAbandoned]
    rcases a with a | ⟨_, a, _⟩ <;> rw [a]
    · exact id
    · intro _; rfl
  have D : (s.r i).isDelivered = true → ((s.step op).1.r i).isDelivered = true := by
    simp only [Receipt.isDelivered, Receipt.isFinished, Receipt.isAbandoned]
    intro hd
    simp at hd
    obtain ⟨h1, h2⟩ := hd
    have h0 : (s.r i).useCount = 0 := by rcases h1 with h1 | h1; exact h1; rw [h2] at h1; cases h1
    have ha' : ((s.step op).1.r i).abandoned = false := by
      rcases a with a | ⟨a, _⟩
      · rw [a]; exact h2
      · exact absurd h0 a
    have hu' : ((s.step op).1.r i).useCount = 0 := by
      rcases b with b | ⟨_, b, _⟩
      · rw [b]; exact h0
      · exact absurd h0 b
    simp [ha', hu']
  refine ⟨A, D, fun hf => ?_⟩
  by_cases h2 : (s.r i).isAbandoned = true
  · have := A h2; simp [Receipt.isFinished, this]
  · have hd : (s.r i).isDelivered = true := by simp [Receipt.isDelivered, hf, h2]
    have := D hd
    simp [Receipt.isDelivered] at this
    exact this.1

/-- A receipt only becomes abandoned by a call to abandon it (or a deadline check that decides so) while the
issuer isn't done with all of its fragments. -/
theorem C11_abandoned_only_before_done {ops : List Op} {s : RStore} {tr : List (Nat × Bool)} (h : Hist ops s tr) (i : Nat)
    (hi : Issued ops i) (op : Op) (ha : Allowed ops s op) (h0 : (s.r i).isAbandoned = false)
    (h1 : ((s.step op).1.r i).isAbandoned = true) :
    doneOf ops i < fragsOf ops i ∧ (op = .abandon i ∨ ∃ now, op = .abandonIfNeeded i now) := by
  simp only [Receipt.isAbandoned] at h0 h1
  obtain ⟨a, _⟩ := settle_cases h i hi op ha
  rcases a with a | ⟨a, _, c⟩
  · rw [h0, h1] at a; cases a
  · have := (hist_inv h i).uses
    exact ⟨by omega, c⟩

/-- Abandoning works: a receipt with fragments outstanding is abandoned by `abandon`, and one whose fragments
are all done is not touched by it. -/
theorem C11_abandon_effect {ops : List Op} {s : RStore} {tr : List (Nat × Bool)} (h : Hist ops s tr) (i : Nat) :
    ((s.step (.abandon i)).1.r i).isAbandoned =
      ((s.r i).isAbandoned || decide (doneOf ops i < fragsOf ops i)) := by
  have hu := (hist_inv h i).uses
  have e : decide (doneOf ops i < fragsOf ops i) = decide ((s.r i).useCount ≠ 0) := by
    apply decide_eq_decide.mpr; omega
  rw [e]
  simp only [step, RStore.abandon, Receipt.isAbandoned]
  by_cases h0 : (s.r i).useCount = 0
  · simp [h0]
  · cases ha : (s.r i).abandoned
    · simp only [h0, ne_eq, not_false_eq_true, true_and, if_true]
      split <;> simp [upd]
    · simp [ha]

/-- The deadline check abandons exactly the receipts with fragments outstanding that are past the finish
deadline, not started and past the start deadline, or whose parent is abandoned. -/
theorem C11_deadline_decision {ops : List Op} {s : RStore} {tr : List (Nat × Bool)} (h : Hist ops s tr) (i : Nat)
    (now : Int) (h0 : (s.r i).isAbandoned = false) :
    ((s.step (.abandonIfNeeded i now)).1.r i).isAbandoned = true ↔
      doneOf ops i < fragsOf ops i ∧
      (now > (s.r i).finishBy ∨ ((s.r i).started = false ∧ now > (s.r i).startBy) ∨
        ∃ p, (s.r i).parent = some p ∧ (s.r p).isAbandoned = true) := by
  have hA := C11_abandon_effect h i
  simp only [step] at hA ⊢
  have h0' : (s.r i).abandoned = false := h0
  rw [abandonIfNeeded]
  simp only [h0', Bool.false_eq_true, if_false]
  split
  · rename_i hc
    rw [hA, h0]; simp [hc]
  · rename_i hc
    rw [h0]; simp only [Bool.false_eq_true, false_iff]
    exact fun k => hc k.2

/-- Appending to a chain makes the new receipt depend on the receipt appended before it, and keeps the new
receipt last; only finished receipts leave the chain, from the front. -/
theorem C11_chain_append (s : RStore) (i : Nat) :
    ((s.step (.chainAppend i)).1.r i).parent = (match s.chain.getLast? with | none => (s.r i).parent | some l => some l) ∧
    (s.step (.chainAppend i)).1.chain.getLast? = some i ∧
    ∃ gone, s.chain ++ [i] = gone ++ (s.step (.chainAppend i)).1.chain ∧
      ∀ g ∈ gone, ((s.step (.chainAppend i)).1.r g).isFinished = true := by
  simp only [step, chainAppend]
  have hl : (s.chainLink i).chain = s.chain ++ [i] := by simp only [chainLink]; split <;> rfl
  have key : ∀ (r : Nat → Receipt) (l : List Nat), ∃ gone, l = gone ++ chainTrim r l ∧
      (∀ g ∈ gone, (r g).isFinished = true) ∧ (chainTrim r l).getLast? = l.getLast? := by
    intro r l
    induction l using chainTrim.induct r with
    | case1 a b l hf ih =>
      obtain ⟨gone, e, hg, hlast⟩ := ih
      rw [chainTrim, if_pos hf]
      refine ⟨a :: gone, by rw [List.cons_append, ← e], ?_, ?_⟩
      · intro g hm; simp at hm; rcases hm with rfl | hm; exact hf; exact hg g hm
      · rw [hlast]; simp
    | case2 a b l hf => rw [chainTrim, if_neg hf]; exact ⟨[], rfl, by simp, rfl⟩
    | case3 l hl =>
      have : chainTrim r l = l := by
        match l, hl with
        | [], _ => rfl
        | [a], _ => rfl
        | a :: b :: l, hl => exact absurd rfl (hl a b l)
      rw [this]; exact ⟨[], rfl, by simp, rfl⟩
  obtain ⟨gone, e, hg, hlast⟩ := key (s.chainLink i).r (s.chainLink i).chain
  refine ⟨?_, ?_, gone, ?_, hg⟩
  · simp only [chainLink]; split <;> rename_i hh <;> simp [hh, upd]
  · rw [hlast, hl]; simp
  · rw [← e, hl]

/-- Expiring a chain moves the deadlines of every receipt in it to no later than the given ones (never later than
they were), leaves the other receipts alone and empties the chain. -/
theorem C11_chain_expire (s : RStore) (a b : Int) :
    (s.step (.chainExpire a b)).1.chain = [] ∧
    (∀ i ∈ s.chain, ((s.step (.chainExpire a b)).1.r i).startBy = min (s.r i).startBy a ∧
      ((s.step (.chainExpire a b)).1.r i).finishBy = min (s.r i).finishBy b) ∧
    (∀ i, i ∉ s.chain → (s.step (.chainExpire a b)).1.r i = s.r i) := by
  simp only [step, chainExpire]
  refine ⟨trivial, ?_, ?_⟩
  · intro i hi; simp [hi]
  · intro i hi; simp [hi]

/-- A callback installed on an already abandoned receipt (not allowed above) is told "delivered" when the issuer
drops the last fragment of the abandoned message: the report is then wrong, and the second one. -/
theorem C11_late_callback_wrong_report :
    let ops : List Op := [.issue 7 0 100 100 1, .setCallback 7, .abandon 7, .callbackReturned, .setCallback 7, .fragmentDone 7]
    (ops.foldl (fun (st : RStore × List (Nat × Bool)) op => ((st.1.step op).1, st.2 ++ (st.1.step op).2)) (init, [])).2 =
      [(7, true), (7, false)] := by decide

/-- A non-trivial history: two messages, one delivered and reported, one expired through its parent chain. -/
theorem receipt_example_hist : ∃ s tr, Hist
    [.issue 0 0 10 50 2, .setCallback 0, .issue 1 5 10 50 1, .chainAppend 0, .setCallback 1, .chainAppend 1, .start 0,
     .fragmentDone 0, .abandonIfNeeded 0 60, .abandonIfNeeded 1 60, .callbackReturned, .callbackReturned, .fragmentDone 1]
    s tr ∧ tr = [(0, true), (1, true)] := by
  refine ⟨_, _, ((((((((((((Hist.nil.snoc ?_).snoc ?_).snoc ?_).snoc ?_).snoc ?_).snoc ?_).snoc ?_).snoc ?_).snoc ?_).snoc ?_).snoc ?_).snoc ?_).snoc ?_, ?_⟩
  all_goals first
    | trivial
    | decide
    | (refine ⟨?_, by decide, by decide⟩; rintro ⟨o, a, b, n, h⟩; simp at h)
    | (refine ⟨?_, by decide⟩; first | exact ⟨_, _, _, _, List.mem_cons_self⟩ | exact ⟨5, 10, 50, 1, by decide⟩ | exact ⟨0, 10, 50, 2, by decide⟩)

example : ∃ ops s tr, Hist ops s tr ∧ (0, true) ∈ tr ∧ (s.r 0).isFinished = true ∧ Op.setCallback 0 ∈ ops := by
  obtain ⟨s, tr, h, e⟩ := receipt_example_hist
  refine ⟨_, s, tr, h, by rw [e]; decide, ?_, by decide⟩
  have := (C11_report_is_true h 0).1 (by rw [e]; decide)
  exact ((C11_finished_iff h 0).1).mpr (Or.inr this)

/-- delivered: (0,false) is reported -/
example : ∃ s, Hist [.issue 0 0 10 50 1, .setCallback 0, .fragmentDone 0] s [(0, false)] := by
  refine ⟨_, ((Hist.nil.snoc ?_).snoc ?_).snoc (op := .fragmentDone 0) ?_⟩
  · exact ⟨by rintro ⟨o, a, b, n, h⟩; simp at h, by decide, by decide⟩
  · exact ⟨⟨0, 10, 50, 1, by decide⟩, by decide⟩
  · exact ⟨by decide, by decide⟩

/-- hypotheses of `C11_settled_forever` and `C11_abandoned_only_before_done` -/
example : ∃ ops s tr, Hist ops s tr ∧ Issued ops 0 ∧ Allowed ops s (.abandon 0) ∧ (s.r 0).isAbandoned = false ∧
    ((s.step (.abandon 0)).1.r 0).isAbandoned = true := by
  refine ⟨[.issue 0 0 10 50 1], _, _, Hist.nil.snoc ?_, ⟨0, 10, 50, 1, by decide⟩, trivial, by decide, by decide⟩
  exact ⟨by rintro ⟨o, a, b, n, h⟩; simp at h, by decide, by decide⟩

example : (chainAppend (chainAppend init 3) 4).chain = [4] := by decide

end Rtmfp
