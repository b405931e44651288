import Verif.Props.C46_C47_Keying
import Verif.Model.PlainCrypto

/-! # C48 and C49: which endpoint a discriminator selects, and who wins when both open at once -/

namespace Rtmfp
open Flash

namespace Flash

/-- the value that counts for a type: the last one -/
def lastOf (items : List OptItem) (t : Nat) : Option Bytes := items.reverse.findSome? (fun o => if o.type = t then o.value else none)

/-- the value of the first option of a type before a marker -/
def firstValue (items : List OptItem) (t : Nat) : Option Bytes := (items.takeWhile (·.value.isSome)).findSome? (fun o => if o.type = t then o.value else none)

theorem lastOf_cons (o : OptItem) (items : List OptItem) (t : Nat) : lastOf (o :: items) t = (lastOf items t).or (if o.type = t then o.value else none) := by
  rw [lastOf, List.reverse_cons, List.findSome?_append, lastOf]
  simp only [List.findSome?_cons, List.findSome?_nil]
  congr 1
  split <;> simp_all

/-- what one option does -/
def epdStep (e : EPD) (o : OptItem) : EPD :=
  match o.value with
  | none => e
  | some v =>
    if o.type = 0x00 then { e with hostname := some v }
    else if o.type = 0x0a then { e with ancillary := some v }
    else if o.type = 0x0f then { e with fingerprint := some v }
    else e

theorem epdLoop_items (fuel : Nat) (src : Bytes) (e : EPD) : epdLoop fuel src e = (Opt.parseAll fuel src).map (fun items => items.foldl epdStep e) := by
  induction fuel generalizing src e with
  | zero =>
    cases src with
    | nil => simp [epdLoop, Opt.parseAll]
    | cons x src => simp [epdLoop, Opt.parseAll]
  | succ fuel ih =>
    cases src with
    | nil => simp [epdLoop, Opt.parseAll]
    | cons x src =>
      rw [epdLoop, if_neg (by simp), Opt.parseAll]
      · rcases hp : Opt.parse (x :: src) with _ | ⟨o, n⟩
        · rfl
        · dsimp only
          rw [Option.map_map]
          rcases hv : o.value with _ | v
          · dsimp only
            rw [ih]
            congr 1; funext items; simp only [Function.comp, List.foldl_cons, epdStep, hv]
          · dsimp only
            rw [ih]
            congr 1; funext items; simp only [Function.comp, List.foldl_cons, epdStep, hv]
      · simp

theorem foldl_epd (items : List OptItem) (e : EPD) : items.foldl epdStep e = ⟨(lastOf items 0x00).or e.hostname, (lastOf items 0x0a).or e.ancillary, (lastOf items 0x0f).or e.fingerprint⟩ := by
  induction items generalizing e with
  | nil => simp [lastOf]
  | cons o items ih =>
    rw [List.foldl_cons, ih, lastOf_cons, lastOf_cons, lastOf_cons, Option.or_assoc, Option.or_assoc, Option.or_assoc]
    have : epdStep e o = ⟨(if o.type = 0x00 then o.value else none).or e.hostname, (if o.type = 0x0a then o.value else none).or e.ancillary, (if o.type = 0x0f then o.value else none).or e.fingerprint⟩ := by
      rw [epdStep]
      rcases hv : o.value with _ | v
      · simp
      · dsimp only
        by_cases h0 : o.type = 0
        · rw [if_pos h0]; simp [h0]
        · rw [if_neg h0]
          by_cases h1 : o.type = 0x0a
          · rw [if_pos h1]; simp [h1]
          · rw [if_neg h1]
            by_cases h2 : o.type = 0x0f
            · rw [if_pos h2]; simp [h2]
            · rw [if_neg h2]; simp [h0, h1, h2]
    rw [this]

theorem epdParse_items (epd : Bytes) (e : EPD) : epdParse epd = some e ↔
    ∃ items, Opt.parseAll epd.length epd = some items ∧ e = ⟨lastOf items 0x00, lastOf items 0x0a, lastOf items 0x0f⟩ ∧
      ((lastOf items 0x0f).isSome ∨ (lastOf items 0x0a).isSome ∨ (lastOf items 0x00).isSome) := by
  rw [epdParse, epdLoop_items]
  rcases Opt.parseAll epd.length epd with _ | items
  · simp
  · simp only [Option.map_some, foldl_epd, Option.or_none, Option.some.injEq, exists_eq_left']
    by_cases h : ((lastOf items 0x0f).isSome || (lastOf items 0x0a).isSome || (lastOf items 0x00).isSome) = true
    · rw [if_pos h]
      rw [Bool.or_eq_true, Bool.or_eq_true, or_assoc] at h
      simp only [Option.some.injEq, h, and_true]
      exact ⟨fun h => h.symm, fun h => h.symm⟩
    · rw [if_neg h]
      rw [Bool.or_eq_true, Bool.or_eq_true, or_assoc] at h
      simp only [h, and_false, reduceCtorEq]

/-- the first option of a type, in terms of the options -/
theorem optSearch_items (t fuel : Nat) (src : Bytes) (items : List OptItem) (h : Opt.parseAll fuel src = some items) :
    (optSearch (fuel + 1) src t).map Prod.fst = firstValue items t := by
  induction fuel generalizing src items with
  | zero =>
    cases src with
    | nil => simp only [Opt.parseAll, Option.some.injEq] at h; subst h; simp [optSearch, firstValue]
    | cons x src => simp [Opt.parseAll] at h
  | succ fuel ih =>
    cases src with
    | nil => simp only [Opt.parseAll, Option.some.injEq] at h; subst h; simp [optSearch, firstValue]
    | cons x src =>
      rw [Opt.parseAll] at h
      · rw [optSearch, if_neg (by simp)]
        rcases hp : Opt.parse (x :: src) with _ | ⟨o, n⟩
        · rw [hp] at h; cases h
        · rw [hp] at h
          dsimp only at h ⊢
          rcases hq : Opt.parseAll fuel ((x :: src).drop n) with _ | rest
          · rw [hq] at h; cases h
          · rw [hq] at h
            simp only [Option.map_some, Option.some.injEq] at h
            subst h
            rcases hv : o.value with _ | v
            · simp [firstValue, hv]
            · dsimp only
              rw [firstValue, List.takeWhile_cons, hv]
              simp only [Option.isSome_some, if_true, List.findSome?_cons]
              by_cases ht : o.type = t
              · rw [if_pos ht, if_pos ht, hv]; rfl
              · rw [if_neg ht, if_neg ht, ih _ _ hq, firstValue]
      · simp

/-- what `FlashCryptoCert::init` finds, in terms of the options -/
theorem certLoop_items (fuel : Nat) (src : Bytes) (c c' : CertScan) (h : certLoop fuel src c = some c') :
    ∃ items, Opt.parseAll fuel src = some items ∧
      (c.markerFound = true → c'.hasHostname = c.hasHostname ∧ c'.acceptsAncillary = c.acceptsAncillary) ∧
      (c.markerFound = false → (c'.hasHostname = true ↔ c.hasHostname = true ∨ firstValue items 0x00 ≠ none) ∧
        (c'.acceptsAncillary = true ↔ c.acceptsAncillary = true ∨ firstValue items 0x0a ≠ none)) := by
  induction fuel generalizing src c with
  | zero =>
    cases src with
    | nil =>
      simp only [certLoop, if_true, Option.some.injEq] at h
      subst h
      exact ⟨[], rfl, fun _ => ⟨rfl, rfl⟩, fun _ => by simp [firstValue]⟩
    | cons x src => simp [certLoop] at h
  | succ fuel ih =>
    cases src with
    | nil =>
      simp only [certLoop, if_true, Option.some.injEq] at h
      subst h
      exact ⟨[], by simp [Opt.parseAll], fun _ => ⟨rfl, rfl⟩, fun _ => by simp [firstValue]⟩
    | cons x src =>
      rw [certLoop, if_neg (by simp)] at h
      rw [Opt.parseAll]
      · rcases hp : Opt.parse (x :: src) with _ | ⟨o, n⟩
        · rw [hp] at h; cases h
        · rw [hp] at h
          obtain ⟨c1, c2, c3, c4, c5, c6⟩ := c
          dsimp only at h ⊢
          rcases hv : o.value with _ | v
          · rw [hv] at h
            dsimp only at h
            obtain ⟨items, h1, h2, -⟩ := ih _ _ h
            refine ⟨o :: items, by rw [h1]; rfl, fun hm => ?_, fun hm => ?_⟩
            · have := h2 rfl
              cases c5 <;> exact this
            · have := h2 rfl
              subst hm
              simp only [Bool.false_eq_true, if_false] at this
              rw [this.1, this.2]
              simp [firstValue, hv]
          · rw [hv] at h
            dsimp only at h
            cases c5 with
            | true =>
              simp only [if_true] at h
              obtain ⟨items, h1, h2, -⟩ := ih _ _ h
              exact ⟨o :: items, by rw [h1]; rfl, fun _ => h2 rfl, fun hm => Bool.noConfusion hm⟩
            | false =>
              simp only [Bool.false_eq_true, if_false] at h
              obtain ⟨items, h1, -, h3⟩ := ih _ _ h
              refine ⟨o :: items, by rw [h1]; rfl, fun hm => Bool.noConfusion hm, fun _ => ?_⟩
              have hfv : ∀ t, firstValue (o :: items) t = if o.type = t then some v else firstValue items t := by
                intro t
                rw [firstValue, List.takeWhile_cons, hv]
                simp only [Option.isSome_some, if_true, List.findSome?_cons, hv]
                by_cases ht : o.type = t
                · simp [ht]
                · simp [ht, firstValue]
              rw [hfv, hfv]
              by_cases h0 : o.type = 0
              · simp only [h0, if_true] at h3
                have := h3 trivial
                simp only [h0, if_true, true_or, iff_true] at this
                simp [this, h0]
              · by_cases ha : o.type = 0x0a
                · simp only [ha, show ¬ ((10 : Nat) = 0) by decide, if_true, if_false] at h3
                  have := h3 trivial
                  simp only [true_or, iff_true] at this
                  simp [this, ha]
                · have h4 : o.type = 0x15 ∨ o.type = 0x1d ∨ (o.type ≠ 0x15 ∧ o.type ≠ 0x1d) := by omega
                  rw [if_neg h0, if_neg ha]
                  rcases h4 with h4 | h4 | ⟨h4, h5⟩
                  · simp only [h4, show ¬ ((21 : Nat) = 0) by decide, show ¬ ((21 : Nat) = 10) by decide, if_true, if_false] at h3
                    exact h3 trivial
                  · simp only [h4, show ¬ ((29 : Nat) = 0) by decide, show ¬ ((29 : Nat) = 10) by decide, show ¬ ((29 : Nat) = 21) by decide, if_true, if_false] at h3
                    exact h3 trivial
                  · simp only [h0, ha, h4, h5, if_false] at h3
                    exact h3 trivial
      · simp

theorem cert_items (P : Prims) (hP : P.Ok) (raw : Bytes) (c : Cert) (h : Cert.init P raw = some c) :
    ∃ certItems, Opt.parseAll raw.length raw = some certItems ∧ (c.hasHostname = true ↔ firstValue certItems 0x00 ≠ none) ∧
      (c.acceptsAncillary = true ↔ firstValue certItems 0x0a ≠ none) ∧ c.raw = raw ∧ c.fingerprint.length = 32 := by
  rw [Cert.init] at h
  rcases hl : certLoop raw.length raw ⟨false, false, false, false, false, 0⟩ with _ | s
  · rw [hl] at h; cases h
  · rw [hl] at h
    dsimp only at h
    split at h
    · cases h
      obtain ⟨items, h1, -, h2⟩ := certLoop_items _ _ _ _ hl
      have := h2 rfl
      simp only [Bool.false_eq_true, false_or] at this
      exact ⟨items, h1, this.1, this.2, rfl, hP.shaLen _⟩
    · cases h

end Flash

/-- **C48** An adapter is selected by a discriminator exactly if it parses into options and: there is a fingerprint, and (the last one) is the
adapter's; or there is none, a hostname if there is one is the adapter's, ancillary data if there is any is taken (only servers do), and at least one
of the two is there. -/
theorem C48_adapter_selected_iff (A : Adapter) (hA : A.fingerprint.length = 32) (accept : Option (Bytes → Bool)) (epd : Bytes) :
    A.isSelected accept epd = true ↔ ∃ items, Opt.parseAll epd.length epd = some items ∧
      (lastOf items 0x0f = some A.fingerprint ∨
        (lastOf items 0x0f = none ∧ (∀ h, lastOf items 0x00 = some h → A.hostname = some h) ∧
          (∀ a, lastOf items 0x0a = some a → A.isServer = true ∧ ∀ f, accept = some f → f a = true) ∧
          (lastOf items 0x00 ≠ none ∨ lastOf items 0x0a ≠ none))) := by
  rw [Adapter.isSelected]
  rcases he : epdParse epd with _ | e
  · simp only [Bool.false_eq_true, false_iff]
    rintro ⟨items, hi, h⟩
    have := (epdParse_items epd ⟨lastOf items 0x00, lastOf items 0x0a, lastOf items 0x0f⟩).mpr ⟨items, hi, rfl, by
      rcases h with h | ⟨-, -, -, h | h⟩
      · left; rw [h]; rfl
      · right; right; exact Option.isSome_iff_ne_none.mpr h
      · right; left; exact Option.isSome_iff_ne_none.mpr h⟩
    rw [he] at this; cases this
  · obtain ⟨items, hi, rfl, hsome⟩ := (epdParse_items epd e).mp he
    have huniq : ∀ Q : List OptItem → Prop, (∃ items, Opt.parseAll epd.length epd = some items ∧ Q items) ↔ Q items := by
      intro Q
      rw [hi]
      constructor
      · rintro ⟨_, h, h'⟩; cases h; exact h'
      · exact fun h => ⟨_, rfl, h⟩
    rw [huniq]
    dsimp only
    rcases hf : lastOf items 0x0f with _ | f
    · rw [hf] at hsome
      dsimp only
      simp only [reduceCtorEq, false_or, true_and]
      have hn : lastOf items 0x00 ≠ none ∨ lastOf items 0x0a ≠ none := by
        rcases hsome with h | h | h
        · cases h
        · exact .inr (Option.isSome_iff_ne_none.mp h)
        · exact .inl (Option.isSome_iff_ne_none.mp h)
      rcases hh : lastOf items 0x00 with _ | h
      · rw [hh] at hn
        rcases ha : lastOf items 0x0a with _ | a
        · rw [ha] at hn; simp at hn
        · cases hs : A.isServer <;> cases accept <;> simp
      · rcases hn' : A.hostname with _ | mine
        · simp
        · by_cases hm : mine = h
          · subst hm
            rcases ha : lastOf items 0x0a with _ | a
            · simp
            · cases hs : A.isServer <;> cases accept <;> simp
          · simp [hm]
    · dsimp only
      simp only [Bool.and_eq_true, decide_eq_true_eq, Option.some.injEq, reduceCtorEq, false_and, or_false]
      exact ⟨fun h => h.2, fun h => ⟨by rw [h, hA], h⟩⟩

/-- **C48** A certificate is selected by a discriminator exactly if the same holds for what the certificate says: its fingerprint, the first hostname in
it, and whether it takes ancillary data. -/
theorem C48_cert_selected_iff (P : Prims) (hP : P.Ok) (raw : Bytes) (c : Cert) (hinit : Cert.init P raw = some c) (epd : Bytes) :
    ∃ certItems, Opt.parseAll raw.length raw = some certItems ∧
    (c.isSelected epd = true ↔ ∃ items, Opt.parseAll epd.length epd = some items ∧
      (lastOf items 0x0f = some c.fingerprint ∨
        (lastOf items 0x0f = none ∧ (∀ h, lastOf items 0x00 = some h → firstValue certItems 0x00 = some h) ∧
          (∀ a, lastOf items 0x0a = some a → firstValue certItems 0x0a ≠ none) ∧ (lastOf items 0x00 ≠ none ∨ lastOf items 0x0a ≠ none)))) := by
  obtain ⟨certItems, hraw, hhost, hanc, hraw', hc⟩ := cert_items P hP raw c hinit
  refine ⟨certItems, hraw, ?_⟩
  rw [← hraw'] at hraw
  have hanc' : (firstValue certItems 0x0a ≠ none) = (c.acceptsAncillary = true) := propext hanc.symm
  simp only [hanc']
  have hsearch := optSearch_items 0x00 _ _ _ hraw
  rw [Cert.isSelected]
  rcases he : epdParse epd with _ | e
  · simp only [Bool.false_eq_true, false_iff]
    rintro ⟨items, hi, h⟩
    have := (epdParse_items epd ⟨lastOf items 0x00, lastOf items 0x0a, lastOf items 0x0f⟩).mpr ⟨items, hi, rfl, by
      rcases h with h | ⟨-, -, -, h | h⟩
      · left; rw [h]; rfl
      · right; right; exact Option.isSome_iff_ne_none.mpr h
      · right; left; exact Option.isSome_iff_ne_none.mpr h⟩
    rw [he] at this; cases this
  · obtain ⟨items, hi, rfl, hsome⟩ := (epdParse_items epd e).mp he
    have huniq : ∀ Q : List OptItem → Prop, (∃ items, Opt.parseAll epd.length epd = some items ∧ Q items) ↔ Q items := by
      intro Q
      rw [hi]
      constructor
      · rintro ⟨_, h, h'⟩; cases h; exact h'
      · exact fun h => ⟨_, rfl, h⟩
    rw [huniq]
    dsimp only
    rcases hf : lastOf items 0x0f with _ | f
    · rw [hf] at hsome
      dsimp only
      simp only [reduceCtorEq, false_or, true_and]
      have hn : lastOf items 0x00 ≠ none ∨ lastOf items 0x0a ≠ none := by
        rcases hsome with h | h | h
        · cases h
        · exact .inr (Option.isSome_iff_ne_none.mp h)
        · exact .inl (Option.isSome_iff_ne_none.mp h)
      rw [optionSearch]
      rcases hh : lastOf items 0x00 with _ | h
      · rw [hh] at hn
        rcases ha : lastOf items 0x0a with _ | a
        · rw [ha] at hn; simp at hn
        · cases hs : c.acceptsAncillary <;> simp
      · rcases hq : optSearch (c.raw.length + 1) c.raw 0x00 with _ | ⟨mine, rest⟩
        · rw [hq] at hsearch
          have hz : firstValue certItems 0x00 = none := hsearch.symm
          rw [hz]
          simp
        · rw [hq] at hsearch
          have hz : firstValue certItems 0x00 = some mine := hsearch.symm
          have hhh : c.hasHostname = true := hhost.mpr (by rw [hz]; simp)
          rw [hz, hhh]
          by_cases hm : mine = h
          · subst hm
            rcases ha : lastOf items 0x0a with _ | a
            · simp
            · cases hs : c.acceptsAncillary <;> simp
          · simp [hm]
    · dsimp only
      simp only [Bool.and_eq_true, decide_eq_true_eq, Option.some.injEq, reduceCtorEq, false_and, or_false]
      exact ⟨fun h => h.2, fun h => ⟨by rw [h, hc], h⟩⟩

/-- **C48** An adapter and the certificate others have of it are selected by the same discriminators (as long as the user refuses no ancillary data). -/
theorem C48_adapter_and_cert_agree (P : Prims) (hP : P.Ok) (c : Config) (hc : c.Ok) (cert : Cert) (h : Cert.init P (c.adapter P).encodedCert = some cert) (epd : Bytes) :
    cert.isSelected epd = (c.adapter P).isSelected none epd := by
  obtain ⟨cert', h1, h2, h3, h4, h5, -⟩ := cert_of P hP c hc
  rw [h] at h1; cases h1
  have hs : optionSearch cert.raw 0x00 = (firstOf (c.certOpts P) 0x00).map (fun r => (r.1, typed r.2)) := by
    rw [h2, optionSearch_typed _ (certOpts_ok P hP c hc)]
  have hf : (firstOf (c.certOpts P) 0x00).map Prod.fst = c.hostname := by
    rw [Config.certOpts]
    cases hh : c.hostname with
    | none => cases c.isServer <;> cases c.isEphemeral <;> simp [firstOf]
    | some n => simp [firstOf]
  have hhost : (c.adapter P).hostname = c.hostname := rfl
  have hserv : (c.adapter P).isServer = c.isServer := rfl
  rw [Cert.isSelected, Adapter.isSelected, hs, h3, h4, h5, hhost, hserv]
  rcases epdParse epd with _ | ⟨h, a, f⟩
  · rfl
  · rcases f with _ | f
    · rcases h with _ | h
      · rcases a with _ | a <;> cases c.isServer <;> simp
      · rcases hn : c.hostname with _ | mine
        · simp
        · rw [hn] at hf
          rcases ho : firstOf (c.certOpts P) 0x00 with _ | ⟨v, rest⟩
          · rw [ho] at hf; cases hf
          · rw [ho] at hf
            simp only [Option.map_some, Option.some.injEq] at hf
            subst hf
            by_cases hm : v = h
            · subst hm
              rcases a with _ | a <;> cases c.isServer <;> simp
            · simp [hm]
    · rfl

/-- **C48** A discriminator made of a fingerprint selects exactly the adapters with that fingerprint, in particular the adapter it comes from. -/
theorem C48_canonical_exact (P : Prims) (hP : P.Ok) (a b : Config) (accept : Option (Bytes → Bool)) :
    (b.adapter P).isSelected accept (a.adapter P).canonicalEPD = true ↔ P.sha (a.adapter P).encodedCert = P.sha (b.adapter P).encodedCert := by
  have hfa : (a.adapter P).fingerprint = P.sha (a.adapter P).encodedCert := rfl
  have hfb : (b.adapter P).fingerprint = P.sha (b.adapter P).encodedCert := rfl
  have hl : ∀ f : Bytes, f.length = 32 → Opt.parseAll (Opt.append 0x0f f []).length (Opt.append 0x0f f []) = some [⟨0x0f, some f⟩] := by
    intro f hf
    have := C03_option_list_round_trip [.typed 0x0f f] (by intro o ho; simp only [List.mem_singleton] at ho; subst ho; exact ⟨by decide, by rw [hf]; decide⟩)
      (Opt.append 0x0f f []).length (by simp [appendOpt])
    simpa [appendOpt, reportOpt] using this
  rw [C48_adapter_selected_iff _ (by rw [hfb]; exact hP.shaLen _)]
  rw [Adapter.canonicalEPD, hl _ (by rw [hfa]; exact hP.shaLen _)]
  simp only [Option.some.injEq, exists_eq_left', hfa, hfb]
  simp [lastOf]

/-- **C48** What `makeEPD` makes has the fields it was given. -/
theorem C48_made_fields (fingerprint ancillary hostname : Option Bytes) (hf : ∀ x, fingerprint = some x → x.length + 10 < 2 ^ 64)
    (ha : ∀ x, ancillary = some x → x.length + 10 < 2 ^ 64) (hh : ∀ x, hostname = some x → x.length + 10 < 2 ^ 64) (epd : Bytes)
    (h : makeEPD fingerprint ancillary hostname = some epd) :
    ∃ items, Opt.parseAll epd.length epd = some items ∧ lastOf items 0x0f = fingerprint ∧ lastOf items 0x0a = ancillary ∧ lastOf items 0x00 = hostname := by
  have key : ∀ os : List Spec.Opt, (∀ o ∈ os, o.ok) → os.foldl appendOpt [] = epd → Opt.parseAll epd.length epd = some (os.map reportOpt) := by
    intro os hos he
    have := C03_option_list_round_trip os hos epd.length (by rw [he]; omega)
    rw [he] at this
    exact this
  rw [makeEPD] at h
  split at h
  · cases h
  · cases fingerprint <;> cases ancillary <;> cases hostname <;> simp only [Option.some.injEq] at h hf ha hh
    · rename_i hn; simp at hn
    · exact ⟨_, key [.typed 0x00 _] (by intro o ho; simp only [List.mem_singleton] at ho; subst ho; exact ⟨by decide, hh _ rfl⟩) h, by simp [lastOf, reportOpt]⟩
    · exact ⟨_, key [.typed 0x0a _] (by intro o ho; simp only [List.mem_singleton] at ho; subst ho; exact ⟨by decide, ha _ rfl⟩) h, by simp [lastOf, reportOpt]⟩
    · refine ⟨_, key [.typed 0x0a _, .typed 0x00 _] ?_ h, by simp [lastOf, reportOpt]⟩
      intro o ho
      simp only [List.mem_cons, List.not_mem_nil, or_false] at ho
      rcases ho with rfl | rfl
      · exact ⟨by decide, ha _ rfl⟩
      · exact ⟨by decide, hh _ rfl⟩
    · exact ⟨_, key [.typed 0x0f _] (by intro o ho; simp only [List.mem_singleton] at ho; subst ho; exact ⟨by decide, hf _ rfl⟩) h, by simp [lastOf, reportOpt]⟩
    · refine ⟨_, key [.typed 0x0f _, .typed 0x00 _] ?_ h, by simp [lastOf, reportOpt]⟩
      intro o ho
      simp only [List.mem_cons, List.not_mem_nil, or_false] at ho
      rcases ho with rfl | rfl
      · exact ⟨by decide, hf _ rfl⟩
      · exact ⟨by decide, hh _ rfl⟩
    · refine ⟨_, key [.typed 0x0f _, .typed 0x0a _] ?_ h, by simp [lastOf, reportOpt]⟩
      intro o ho
      simp only [List.mem_cons, List.not_mem_nil, or_false] at ho
      rcases ho with rfl | rfl
      · exact ⟨by decide, hf _ rfl⟩
      · exact ⟨by decide, ha _ rfl⟩
    · refine ⟨_, key [.typed 0x0f _, .typed 0x0a _, .typed 0x00 _] ?_ h, by simp [lastOf, reportOpt]⟩
      intro o ho
      simp only [List.mem_cons, List.not_mem_nil, or_false] at ho
      rcases ho with rfl | rfl | rfl
      · exact ⟨by decide, hf _ rfl⟩
      · exact ⟨by decide, ha _ rfl⟩
      · exact ⟨by decide, hh _ rfl⟩

/-- **C48** With the plain adapter, a discriminator selects exactly the endpoint whose identity it is. -/
theorem C48_plain_exact (identity epd : Bytes) : Plain.isSelected identity epd = true ↔ epd = identity := by
  rw [Plain.isSelected, Bool.and_eq_true, decide_eq_true_eq, decide_eq_true_eq]
  exact ⟨fun h => h.2, fun h => ⟨by rw [h], h⟩⟩

/-! ## Glare -/

namespace Flash

theorem bytesLt_irrefl (a : Bytes) : bytesLt a a = false := by
  induction a with
  | nil => rfl
  | cons x a ih => simp [bytesLt, UInt8.lt_irrefl, ih]

theorem bytesLt_total (a b : Bytes) (h : a ≠ b) : bytesLt a b = !bytesLt b a := by
  induction a generalizing b with
  | nil =>
    cases b with
    | nil => exact absurd rfl h
    | cons y b => rfl
  | cons x a ih =>
    cases b with
    | nil => rfl
    | cons y b =>
      rw [bytesLt, bytesLt]
      by_cases h1 : x < y
      · rw [if_pos h1, if_neg (UInt8.not_lt.mpr (UInt8.le_of_lt h1)), if_pos h1]; rfl
      · rw [if_neg h1]
        by_cases h2 : y < x
        · rw [if_pos h2, if_pos h2]; rfl
        · have : x = y := UInt8.le_antisymm (UInt8.not_lt.mp h2) (UInt8.not_lt.mp h1)
          subst this
          rw [if_neg h1, if_neg h1, if_neg h1]
          exact ih b (fun h' => h (by rw [h']))

end Flash

/-- **C49** Of two endpoints with different certificates exactly one wins. -/
theorem C49_one_winner (A B : Adapter) (h : A.encodedCert ≠ B.encodedCert) : A.nearWinsGlare B.encodedCert = !B.nearWinsGlare A.encodedCert := by
  rw [Adapter.nearWinsGlare, Adapter.nearWinsGlare, bytesLt_total _ _ h, Bool.not_not]

/-- **C49** The same with plain adapters. -/
theorem C49_plain_one_winner (a b : Bytes) (h : a ≠ b) : Plain.nearWinsGlare a b = !Plain.nearWinsGlare b a := bytesLt_total a b h

/-- with equal certificates the two adapters differ: both sides win, or none -/
example : ∀ a : Bytes, Plain.nearWinsGlare a a = false := bytesLt_irrefl
example (A : Adapter) : A.nearWinsGlare A.encodedCert = true := by rw [Adapter.nearWinsGlare, bytesLt_irrefl]; rfl

/-! ## Plain keys -/

namespace Plain

theorem u16_sum (n : Nat) (h : n < 65536) : (UInt8.ofNat (n >>> 8)).toNat * 256 + (UInt8.ofNat (n &&& 0xff)).toNat = n := by
  rw [UInt8.toNat_ofNat', UInt8.toNat_ofNat', Nat.shiftRight_eq_div_pow, show (0xff : Nat) = 2 ^ 8 - 1 from rfl, Nat.and_two_pow_sub_one_eq_mod]
  omega

end Plain

/-- **C47** With plain adapters both sides' nonces agree, and what one encrypts (**C45**) the other decrypts, before and after the exchange. -/
theorem C47_plain_nonces (r1 r2 : Nat) :
    ∃ kI kR, (Plain.Key.init r1).combine (Plain.Key.init r2).component = some kI ∧ (Plain.Key.init r2).combine (Plain.Key.init r1).component = some kR ∧
      kI.nearNonce = kR.farNonce ∧ kI.farNonce = kR.nearNonce ∧ kI.txSalt = kR.rxSalt ∧ kR.txSalt = kI.rxSalt ∧ kI.complete = true ∧ kR.complete = true := by
  have e : ∀ r, ((UInt8.ofNat ((r % 65536) >>> 8)).toNat * 256 + (UInt8.ofNat ((r % 65536) &&& 0xff)).toNat) % 65536 = r % 65536 := by
    intro r; rw [Plain.u16_sum _ (by omega)]; omega
  refine ⟨_, _, rfl, rfl, ?_⟩
  simp only [Plain.Key.nearNonce, Plain.Key.farNonce, Plain.Key.init, e, and_self]

theorem C45_plain_round_trip (tx rx : Plain.Key) (hc : rx.complete = tx.complete) (hs : tx.complete = true → rx.rxSalt = tx.txSalt ∧ tx.txSalt < 65536)
    (room room' : Nat) (margin payload : Bytes) (hm : margin.length = Plain.frontMargin) (hr : payload.length + 18 ≤ room) (hr' : payload.length + 32 ≤ room') :
    ∃ datagram buf, tx.encrypt room (margin ++ payload) Plain.frontMargin = some datagram ∧ rx.decrypt room' datagram = some (buf, Plain.frontMargin) ∧
      buf.drop Plain.frontMargin = payload ++ List.replicate 16 0xff := by
  have hd : (margin ++ payload).drop Plain.frontMargin = payload := List.drop_left' hm
  rw [Plain.Key.encrypt, if_neg (by rw [List.length_append]; omega), hd]
  dsimp only
  have hck : Checksums.in_cksum (payload ++ List.replicate 16 0xff) < 65536 := by
    rw [Checksums.in_cksum, Checksums.fold]; omega
  generalize hb : payload ++ List.replicate 16 (0xff : UInt8) = body at *
  have hbl : body.length = payload.length + 16 := by rw [← hb, List.length_append, List.length_replicate]
  generalize hck' : (Checksums.in_cksum body + (if tx.complete = true then tx.txSalt else 0)) % 65536 = ck at *
  have hckl : ck < 65536 := by omega
  rw [if_neg (by simp only [List.length_append, Plain.u16, List.length_cons, List.length_nil]; omega)]
  refine ⟨_, List.replicate 16 0 ++ body, rfl, ?_, rfl⟩
  have hl : (body ++ Plain.u16 ck).length = body.length + 2 := by simp [Plain.u16]
  have h1 : (body ++ Plain.u16 ck).getD (body.length + 2 - 2) 0 = UInt8.ofNat (ck >>> 8) := by simp [Plain.u16, List.getD_eq_getElem?_getD]
  have h2 : (body ++ Plain.u16 ck).getD (body.length + 2 - 1) 0 = UInt8.ofNat (ck &&& 0xff) := by
    rw [List.getD_eq_getElem?_getD, List.getElem?_append_right (by omega), show body.length + 2 - 1 - body.length = 1 by omega]; rfl
  have h3 : (body ++ Plain.u16 ck).take (body.length + 2 - 2) = body := by simp
  rw [Plain.Key.decrypt, hl, if_neg (by omega), if_neg (by omega)]
  dsimp only
  rw [h1, h2, h3, Plain.u16_sum ck hckl]
  have hsalt : (if rx.complete = true then rx.rxSalt else 0) = (if tx.complete = true then tx.txSalt else 0) ∧ (if tx.complete = true then tx.txSalt else 0) < 65536 := by
    rw [hc]
    by_cases h : tx.complete = true
    · rw [if_pos h, if_pos h]; exact hs h
    · rw [if_neg h, if_neg h]; exact ⟨rfl, by decide⟩
  rw [hsalt.1, if_neg]
  · rfl
  · have := hsalt.2
    generalize (if tx.complete = true then tx.txSalt else 0) = salt at *
    omega

/-! ## Examples -/

/-- a hostname, ancillary data and a fingerprint in one discriminator: the fingerprint decides -/
example : ((makeEPD (some (toy.sha ((server true).adapter toy).encodedCert)) (some [1]) (some [120])).map (((server true).adapter toy).isSelected none)) = some true ∧
    ((makeEPD none (some [1]) (some [120])).map (((server true).adapter toy).isSelected none)) = some false ∧
    ((makeEPD none (some [1]) (some [104, 105])).map (((server true).adapter toy).isSelected none)) = some true ∧
    ((makeEPD none (some [1]) none).map ((client.adapter toy).isSelected none)) = some false := by decide +kernel

example : ((client.adapter toy).encodedCert ≠ ((server true).adapter toy).encodedCert) := by decide +kernel

example : (({ txSalt := 5, rxSalt := 9, complete := true } : Plain.Key).encrypt 100 (List.replicate 16 0 ++ [1, 2, 3]) 16).bind
    (fun d => (({ txSalt := 9, rxSalt := 5, complete := true } : Plain.Key).decrypt 100 d).map (fun r => (r.1.drop r.2).take 3)) = some [1, 2, 3] := by decide +kernel

end Rtmfp
