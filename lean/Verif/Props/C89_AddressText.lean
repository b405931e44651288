import Verif.Model.AddressText
import Verif.Props.C35_Address

/-! # C89: addresses as text -/

namespace Rtmfp
open Address AddressText

namespace AddressText

/-- What is assumed of the C library: the text of an IPv4 address is of digits and dots, at most 15; that of an IPv6 address is of hexadecimal digits, colons (two at
least) and dots, at most 45; each is read back as the address that it is of; what is read has the length of the family. -/
structure Net.Ok (n : Net) : Prop where
  text4 : ∀ ip : Bytes, ip.length = 4 → n.ntop 2 ip ≠ [] ∧ (∀ b ∈ n.ntop 2 ip, (0x30 ≤ b ∧ b ≤ 0x39) ∨ b = 0x2e) ∧ (n.ntop 2 ip).length ≤ 15 ∧ n.pton 2 (n.ntop 2 ip) = some ip
  text6 : ∀ ip : Bytes, ip.length = 16 → n.ntop 10 ip ≠ [] ∧
    (∀ b ∈ n.ntop 10 ip, (0x30 ≤ b ∧ b ≤ 0x39) ∨ (0x61 ≤ b ∧ b ≤ 0x66) ∨ (0x41 ≤ b ∧ b ≤ 0x46) ∨ b = 0x3a ∨ b = 0x2e) ∧ 2 ≤ (n.ntop 10 ip).count 0x3a ∧
    (n.ntop 10 ip).length ≤ 45 ∧ n.pton 10 (n.ntop 10 ip) = some ip
  read4 : ∀ t ip, n.pton 2 t = some ip → ip.length = 4
  read6 : ∀ t ip, n.pton 10 t = some ip → ip.length = 16

/-! ## Digits -/

theorem isDigit_iff (b : UInt8) : isDigit b = true ↔ 0x30 ≤ b ∧ b ≤ 0x39 := by simp [isDigit]

theorem isText4_iff (b : UInt8) : isText4 b = true ↔ (0x30 ≤ b ∧ b ≤ 0x39) ∨ b = 0x2e := by simp [isText4, isDigit]

theorem isText6_iff (b : UInt8) : isText6 b = true ↔ (0x30 ≤ b ∧ b ≤ 0x39) ∨ (0x61 ≤ b ∧ b ≤ 0x66) ∨ (0x41 ≤ b ∧ b ≤ 0x46) ∨ b = 0x3a ∨ b = 0x2e := by
  simp [isText6, isDigit, or_assoc]

theorem digit_ok : ∀ d : Fin 10, isDigit (UInt8.ofNat (48 + d.val)) = true ∧ (UInt8.ofNat (48 + d.val)).toNat - 48 = d.val := by decide

theorem digits_spec : ∀ (fuel n : Nat), n < 10 ^ fuel → 0 < fuel →
    digits fuel n ≠ [] ∧ (∀ b ∈ digits fuel n, isDigit b = true) ∧ value (digits fuel n) = n ∧ (∀ k, n < 10 ^ k → 0 < k → (digits fuel n).length ≤ k)
  | 0, n, h, h0 => by omega
  | fuel + 1, n, h, _ => by
    rw [digits]
    split
    · rename_i hn
      obtain ⟨h1, h2⟩ := digit_ok ⟨n, hn⟩
      refine ⟨by simp, by simpa using h1, ?_, fun k _ hk => by simp; omega⟩
      simpa [value] using h2
    · rename_i hn
      have hf : 0 < fuel := by
        cases fuel with
        | zero => simp at h; omega
        | succ f => omega
      obtain ⟨i1, i2, i3, i4⟩ := digits_spec fuel (n / 10) (by rw [Nat.pow_succ] at h; omega) hf
      obtain ⟨h1, h2⟩ := digit_ok ⟨n % 10, Nat.mod_lt _ (by omega)⟩
      refine ⟨by simp, ?_, ?_, ?_⟩
      · intro b hb
        rw [List.mem_append] at hb
        rcases hb with hb | hb
        · exact i2 b hb
        · rw [List.mem_singleton.mp hb]; exact h1
      · rw [value, List.foldl_append]
        show 10 * value (digits fuel (n / 10)) + ((UInt8.ofNat (48 + n % 10)).toNat - 48) = n
        rw [i3]
        have h2 : (UInt8.ofNat (48 + n % 10)).toNat - 48 = n % 10 := h2
        rw [h2]; omega
      · intro k hk hk0
        match k, hk, hk0 with
        | 1, hk, _ => simp at hk; omega
        | k + 2, hk, _ =>
          have := i4 (k + 1) (by rw [Nat.pow_succ] at hk; omega) (by omega)
          simp; omega

theorem takeWhile_all {p : UInt8 → Bool} {t : Bytes} (h : ∀ b ∈ t, p b = true) (rest : Bytes) (hr : ∀ b r, rest = b :: r → p b = false) : (t ++ rest).takeWhile p = t := by
  induction t with
  | nil =>
    match rest, hr with
    | [], _ => rfl
    | b :: r, hr => simp [hr b r rfl]
  | cons a t ih =>
    rw [List.cons_append, List.takeWhile_cons, h a (by simp), ih (fun b hb => h b (by simp [hb]))]
    rfl

theorem digit_head : ∀ a : UInt8, isDigit a = true → isSpace a = false ∧ a ≠ 0x2d ∧ a ≠ 0x2b := by
  intro a; cases a with | _ a => cases a with | _ a => revert a; decide +kernel

theorem dropWhile_all {p : UInt8 → Bool} {t : Bytes} (h : ∀ b ∈ t, p b = true) (rest : Bytes) (hr : ∀ b r, rest = b :: r → p b = false) : (t ++ rest).dropWhile p = rest := by
  induction t with
  | nil =>
    match rest, hr with
    | [], _ => rfl
    | b :: r, hr => simp [hr b r rfl]
  | cons a t ih =>
    rw [List.cons_append, List.dropWhile_cons, h a (by simp), if_pos rfl, ih (fun b hb => h b (by simp [hb]))]

theorem takeWhile_mem {p : UInt8 → Bool} : ∀ (t : Bytes) (b : UInt8), b ∈ t.takeWhile p → p b = true
  | [], b, h => by simp at h
  | a :: t, b, h => by
    rw [List.takeWhile_cons] at h
    split at h
    · rename_i ha
      rw [List.mem_cons] at h
      rcases h with rfl | h
      · exact ha
      · exact takeWhile_mem t b h
    · simp at h

theorem dropWhile_head {p : UInt8 → Bool} : ∀ (t : Bytes) (b : UInt8) (r : Bytes), t.dropWhile p = b :: r → p b = false
  | [], b, r, h => by simp at h
  | a :: t, b, r, h => by
    rw [List.dropWhile_cons] at h
    split at h
    · exact dropWhile_head t b r h
    · rename_i ha
      injection h with h _
      subst h
      simpa using ha

/-- a number in text: white space, a sign, digits; then anything but a digit -/
def IsNumber (src : Bytes) (v : Int) : Prop :=
  ∃ ws sign ds rest : Bytes, src = ws ++ (sign ++ (ds ++ rest)) ∧ (∀ b ∈ ws, b = 0x20 ∨ (0x09 ≤ b ∧ b ≤ 0x0d)) ∧ ds ≠ [] ∧ (∀ b ∈ ds, 0x30 ≤ b ∧ b ≤ 0x39) ∧
    (∀ b r, rest = b :: r → ¬ (0x30 ≤ b ∧ b ≤ 0x39)) ∧
    ((sign = [0x2d] ∧ v = -(value ds : Int)) ∨ ((sign = [0x2b] ∨ sign = []) ∧ v = value ds))

theorem isSpace_iff (b : UInt8) : isSpace b = true ↔ b = 0x20 ∨ (0x09 ≤ b ∧ b ≤ 0x0d) := by simp [isSpace]

theorem scanInt_iff (src : Bytes) (v : Int) : scanInt src = some v ↔ IsNumber src v := by
  constructor
  · intro h
    have hsplit : src = src.takeWhile isSpace ++ src.dropWhile isSpace := List.takeWhile_append_dropWhile.symm
    have hws : ∀ b ∈ src.takeWhile isSpace, b = 0x20 ∨ (0x09 ≤ b ∧ b ≤ 0x0d) := fun b hb => (isSpace_iff b).mp (takeWhile_mem _ b hb)
    have hds : ∀ (t : Bytes), (∀ b ∈ t.takeWhile isDigit, 0x30 ≤ b ∧ b ≤ 0x39) ∧ (∀ b r, t.dropWhile isDigit = b :: r → ¬ (0x30 ≤ b ∧ b ≤ 0x39)) ∧
        t = t.takeWhile isDigit ++ t.dropWhile isDigit := by
      intro t
      refine ⟨fun b hb => (isDigit_iff b).mp (takeWhile_mem _ b hb), ?_, List.takeWhile_append_dropWhile.symm⟩
      intro b r hb hn
      have := dropWhile_head t b r hb
      rw [(isDigit_iff b).mpr hn] at this
      cases this
    rw [scanInt] at h
    generalize src.takeWhile isSpace = ws at *
    generalize src.dropWhile isSpace = s at *
    split at h
    · rename_i r
      split at h
      · cases h
      · rename_i hne
        obtain ⟨d1, d2, d3⟩ := hds r
        simp only [if_true, Option.some.injEq] at h
        exact ⟨ws, [0x2d], _, _, by rw [hsplit, ← d3]; rfl, hws, hne, d1, d2, .inl ⟨rfl, h.symm⟩⟩
    · rename_i r
      split at h
      · cases h
      · rename_i hne
        obtain ⟨d1, d2, d3⟩ := hds r
        simp only [Bool.false_eq_true, if_false, Option.some.injEq] at h
        exact ⟨ws, [0x2b], _, _, by rw [hsplit, ← d3]; rfl, hws, hne, d1, d2, .inr ⟨.inl rfl, h.symm⟩⟩
    · split at h
      · cases h
      · rename_i hne
        obtain ⟨d1, d2, d3⟩ := hds s
        simp only [Bool.false_eq_true, if_false, Option.some.injEq] at h
        exact ⟨ws, [], _, _, by rw [hsplit, List.nil_append, ← d3], hws, hne, d1, d2, .inr ⟨.inr rfl, h.symm⟩⟩
  · rintro ⟨ws, sg, ds, rest, rfl, hws, hne, hds, hrest, hv⟩
    have hds' : ∀ b ∈ ds, isDigit b = true := fun b hb => (isDigit_iff b).mpr (hds b hb)
    have ht : (ds ++ rest).takeWhile isDigit = ds := takeWhile_all hds' rest (fun b r hb => by
      have := hrest b r hb
      rw [← isDigit_iff] at this
      simpa using this)
    obtain ⟨a, t, rfl⟩ : ∃ a t, ds = a :: t := by
      cases ds with
      | nil => exact absurd rfl hne
      | cons a t => exact ⟨a, t, rfl⟩
    obtain ⟨k1, k2, k3⟩ := digit_head a (hds' a (by simp))
    have hd : ∀ s : Bytes, (∀ b r, s = b :: r → isSpace b = false) → (ws ++ s).dropWhile isSpace = s :=
      fun s hs => dropWhile_all (fun b hb => (isSpace_iff b).mpr (hws b hb)) s hs
    rw [scanInt]
    rcases hv with ⟨rfl, rfl⟩ | ⟨rfl | rfl, rfl⟩
    · rw [hd _ (by rintro b r hb; injection hb with hb _; subst hb; decide)]
      simp only [List.cons_append, List.nil_append] at ht ⊢
      simp [ht]
    · rw [hd _ (by rintro b r hb; injection hb with hb _; subst hb; decide)]
      simp only [List.cons_append, List.nil_append] at ht ⊢
      simp [ht]
    · rw [hd _ (by rintro b r hb; injection hb with hb _; subst hb; exact k1)]
      simp only [List.cons_append, List.nil_append] at ht ⊢
      split
      · rename_i hh; injection hh with hh _; exact absurd hh k2
      · rename_i hh; injection hh with hh _; exact absurd hh k3
      · simp [ht]

theorem scanSet_stop {p : UInt8 → Bool} {t rest : Bytes} (h : ∀ b ∈ t, p b = true) (hne : t ≠ []) (hl : t.length ≤ 45) (hr : ∀ b r, rest = b :: r → p b = false) :
    scanSet p (t ++ rest) = some (t, rest) := by
  have ht : ((t ++ rest).take 45).takeWhile p = t := by
    rw [List.take_append, List.take_of_length_le hl]
    apply takeWhile_all h
    intro b r hb
    match rest, hb, hr with
    | [], hb, _ => simp at hb
    | c :: rest, hb, hr =>
      have := hr c rest rfl
      cases hk : 45 - t.length with
      | zero => rw [hk] at hb; simp at hb
      | succ k =>
        rw [hk, List.take_succ_cons] at hb
        injection hb with hb _
        rw [← hb]; exact this
  rw [scanSet, ht]
  simp [hne]

theorem scanSet_some {p : UInt8 → Bool} {src t rest : Bytes} (h : scanSet p src = some (t, rest)) : src = t ++ rest ∧ t ≠ [] ∧ t.length ≤ 45 ∧ ∀ b ∈ t, p b = true := by
  rw [scanSet] at h
  split at h
  · cases h
  · rename_i hne
    injection h with h
    injection h with h1 h2
    rw [h1] at h2 hne
    have hp : t <+: src := by
      rw [← h1]
      exact List.IsPrefix.trans (List.takeWhile_prefix p) (List.take_prefix 45 src)
    obtain ⟨r, hr⟩ := hp
    refine ⟨?_, hne, ?_, ?_⟩
    · rw [← h2, ← hr, List.drop_left]
    · rw [← h1]
      exact Nat.le_trans (List.IsPrefix.length_le (List.takeWhile_prefix p)) (by rw [List.length_take]; omega)
    · intro b hb
      rw [← h1] at hb
      exact takeWhile_mem _ b hb

/-- the text that an address has: the IP address, and the port after a colon (an IPv6 address in brackets then) -/
def Text (n : Net) (a : Address) (withPort : Bool) (t : Bytes) : Prop :=
  if withPort then
    ∃ ds : Bytes, ds ≠ [] ∧ (∀ b ∈ ds, 0x30 ≤ b ∧ b ≤ 0x39) ∧ value ds = a.port ∧ ds.length ≤ 5 ∧
      ((a.family = 2 ∧ t = n.ntop 2 a.ip ++ (0x3a :: ds)) ∨ (a.family = 10 ∧ t = 0x5b :: (n.ntop 10 a.ip ++ (0x5d :: 0x3a :: ds))))
  else t = n.ntop a.family a.ip

theorem toText_text {n : Net} (hn : n.Ok) {a : Address} (hs : Sound a) (hi : IsIP a) (withPort : Bool) : Text n a withPort (toText n a withPort) ∧ (toText n a withPort).length ≤ 53 := by
  have hp : a.port < 65536 := hs.port
  obtain ⟨d1, d2, d3, d4⟩ := digits_spec 20 a.port (by omega) (by omega)
  have d5 := d4 5 (by omega) (by omega)
  have hnf : ¬ (a.family ≠ AF_INET ∧ a.family ≠ AF_INET6) := by
    rcases hi with h | h <;> rw [h] <;> decide
  rw [toText, if_neg hnf, getIP_eq hs, getPort_eq hs]
  rcases hs.kind with ⟨k1, k2⟩ | ⟨k1, k2⟩ | ⟨k1, _⟩
  · obtain ⟨t1, t2, t3, t4⟩ := hn.text4 a.ip k2
    rw [k1]
    cases withPort
    · simp only [Bool.false_eq_true, not_false_eq_true, if_true, Text, if_false]
      rw [List.take_of_length_le (by omega), k1]
      exact ⟨rfl, by omega⟩
    · simp only [not_true_eq_false, if_false, if_true, Text]
      rw [List.take_of_length_le (by simp; omega)]
      refine ⟨⟨digits 20 a.port, d1, fun b hb => (isDigit_iff b).mp (d2 b hb), d3, d5, .inl ⟨k1, by simp⟩⟩, by simp; omega⟩
  · obtain ⟨t1, t2, t3, t4, t5⟩ := hn.text6 a.ip k2
    rw [k1]
    cases withPort
    · simp only [Bool.false_eq_true, not_false_eq_true, if_true, Text, if_false]
      rw [List.take_of_length_le (by omega), k1]
      exact ⟨rfl, by omega⟩
    · simp only [not_true_eq_false, if_false, if_true, Text]
      rw [if_neg (by decide), List.take_of_length_le (by simp; omega)]
      refine ⟨⟨digits 20 a.port, d1, fun b hb => (isDigit_iff b).mp (d2 b hb), d3, d5, .inr ⟨k1, by simp⟩⟩, by simp; omega⟩
  · rcases hi with h | h <;> rw [h] at k1 <;> simp at k1

/-- what is read, of which family, with what port: in brackets, or (if there is a colon only) of digits and dots -/
def Read (n : Net) (src : Bytes) (family : Nat) (ipaddr : Bytes) (port : Int) : Prop :=
  family = (if 1 < src.count 0x3a then 10 else 2) ∧ ∃ ip : Bytes, ip ≠ [] ∧ ip.length ≤ 45 ∧ n.pton family ip = some ipaddr ∧
    ((∃ num, src = 0x5b :: (ip ++ (0x5d :: 0x3a :: num)) ∧ (∀ b ∈ ip, (0x30 ≤ b ∧ b ≤ 0x39) ∨ (0x61 ≤ b ∧ b ≤ 0x66) ∨ (0x41 ≤ b ∧ b ≤ 0x46) ∨ b = 0x3a ∨ b = 0x2e) ∧ IsNumber num port) ∨
     (family = 2 ∧ ∃ num, src = ip ++ (0x3a :: num) ∧ (∀ b ∈ ip, (0x30 ≤ b ∧ b ≤ 0x39) ∨ b = 0x2e) ∧ IsNumber num port))

theorem scan6_iff (src ip : Bytes) (v : Int) : scan6 src = some (ip, v) ↔
    ip ≠ [] ∧ ip.length ≤ 45 ∧ ∃ num, src = 0x5b :: (ip ++ (0x5d :: 0x3a :: num)) ∧
      (∀ b ∈ ip, (0x30 ≤ b ∧ b ≤ 0x39) ∨ (0x61 ≤ b ∧ b ≤ 0x66) ∨ (0x41 ≤ b ∧ b ≤ 0x46) ∨ b = 0x3a ∨ b = 0x2e) ∧ IsNumber num v := by
  constructor
  · intro h
    unfold scan6 at h
    split at h
    · rename_i r
      split at h
      · rename_i ip' rest hs
        rw [Option.map_eq_some_iff] at h
        obtain ⟨v', h1, h2⟩ := h
        injection h2 with h2 h3
        subst h2 h3
        obtain ⟨a, b, c, d⟩ := scanSet_some hs
        exact ⟨b, c, rest, by rw [a], fun x hx => (isText6_iff x).mp (d x hx), (scanInt_iff _ _).mp h1⟩
      · cases h
    · cases h
  · rintro ⟨h1, h2, num, rfl, h3, h4⟩
    have : scanSet isText6 (ip ++ (0x5d :: 0x3a :: num)) = some (ip, 0x5d :: 0x3a :: num) :=
      scanSet_stop (fun b hb => (isText6_iff b).mpr (h3 b hb)) h1 h2 (by rintro b r hb; injection hb with hb _; subst hb; decide)
    simp only [scan6, this]
    rw [(scanInt_iff _ _).mpr h4]; rfl

theorem scan4_iff (src ip : Bytes) (v : Int) : scan4 src = some (ip, v) ↔
    ip ≠ [] ∧ ip.length ≤ 45 ∧ ∃ num, src = ip ++ (0x3a :: num) ∧ (∀ b ∈ ip, (0x30 ≤ b ∧ b ≤ 0x39) ∨ b = 0x2e) ∧ IsNumber num v := by
  constructor
  · intro h
    unfold scan4 at h
    split at h
    · rename_i ip' rest hs
      rw [Option.map_eq_some_iff] at h
      obtain ⟨v', h1, h2⟩ := h
      injection h2 with h2 h3
      subst h2 h3
      obtain ⟨a, b, c, d⟩ := scanSet_some hs
      exact ⟨b, c, rest, a, fun x hx => (isText4_iff x).mp (d x hx), (scanInt_iff _ _).mp h1⟩
    · cases h
  · rintro ⟨h1, h2, num, rfl, h3, h4⟩
    have : scanSet isText4 (ip ++ (0x3a :: num)) = some (ip, 0x3a :: num) :=
      scanSet_stop (fun b hb => (isText4_iff b).mpr (h3 b hb)) h1 h2 (by rintro b r hb; injection hb with hb _; subst hb; decide)
    simp only [scan4, this]
    rw [(scanInt_iff _ _).mpr h4]; rfl

/-- the address afterwards -/
def placed (b : Address) (family : Nat) (ipaddr : Bytes) (port : Nat) : Address := { family := family, ip := ipaddr, port := port, origin := b.origin }

theorem setFamily_keeps {b : Address} (hb : Sound b) (f : Nat) (hf : f = 2 ∨ f = 10) : (setFamily b f).1.port = getPort b ∧ (setFamily b f).1.origin = b.origin := by
  rw [setFamily, if_neg (by rcases hf with h | h <;> rw [h] <;> decide)]
  split
  · rename_i h
    exact ⟨(getPort_eq hb).symm, rfl⟩
  · have hp : getPort b < 65536 := by
      rw [getPort_eq hb]; exact hb.port
    have e : ∀ (x : Address), x.family = f → (setPort x (getPort b)).port = getPort b ∧ (setPort x (getPort b)).origin = x.origin := by
      intro x hx
      rw [setPort, if_pos (by rw [hx]; exact hf)]
      exact ⟨Nat.mod_eq_of_lt hp, rfl⟩
    dsimp only
    split
    · exact e _ rfl
    · exact e _ rfl

theorem setIP_placed {b : Address} (hb : Sound b) {n : Net} (hn : n.Ok) {family : Nat} (hf : family = 2 ∨ family = 10) {t ipaddr : Bytes} (h : n.pton family t = some ipaddr) :
    (setIP b ipaddr).1 = placed b family ipaddr (getPort b) := by
  rcases hf with rfl | rfl
  · have hl := hn.read4 t ipaddr h
    obtain ⟨k1, k2⟩ := setFamily_keeps hb 2 (.inl rfl)
    have k3 := setFamily_family b 2 (.inl rfl)
    rw [setIP, if_pos hl]
    simp only [placed, k1, k2, k3, AF_INET]
  · have hl := hn.read6 t ipaddr h
    obtain ⟨k1, k2⟩ := setFamily_keeps hb 10 (.inr rfl)
    have k3 := setFamily_family b 10 (.inr rfl)
    rw [setIP, if_neg (by omega), if_pos hl]
    simp only [placed, k1, k2, k3, AF_INET6]

theorem toPort_lt (v : Int) : toPort v < 65536 := by rw [toPort]; omega

/-- reading with a port, in full -/
theorem fromText_iff {n : Net} (hn : n.Ok) {b : Address} (hb : Sound b) (src : Bytes) (a : Address) (ok : Bool) :
    fromText n b src true = (a, ok) ↔
      (ok = true ∧ ∃ family ipaddr port, Read n src family ipaddr port ∧ a = placed b family ipaddr (toPort port)) ∨
      (ok = false ∧ a = b ∧ ¬ ∃ family ipaddr port, Read n src family ipaddr port) := by
  have hfam : ∀ c : Prop, [Decidable c] → ((if c then 10 else 2 : Nat) = 2 ∨ (if c then 10 else 2 : Nat) = 10) := by
    intro c _; split <;> simp
  -- what the scan yields, against the description
  have hscan : ∀ ip v, scanPort (if colons src > 1 then AF_INET6 else AF_INET) src = some (ip, v) →
      ip ≠ [] ∧ ip.length ≤ 45 ∧
      ((∃ num, src = 0x5b :: (ip ++ (0x5d :: 0x3a :: num)) ∧ (∀ b ∈ ip, (0x30 ≤ b ∧ b ≤ 0x39) ∨ (0x61 ≤ b ∧ b ≤ 0x66) ∨ (0x41 ≤ b ∧ b ≤ 0x46) ∨ b = 0x3a ∨ b = 0x2e) ∧ IsNumber num v) ∨
       ((if 1 < src.count 0x3a then 10 else 2) = 2 ∧ ∃ num, src = ip ++ (0x3a :: num) ∧ (∀ b ∈ ip, (0x30 ≤ b ∧ b ≤ 0x39) ∨ b = 0x2e) ∧ IsNumber num v)) := by
    intro ip v h
    rw [scanPort] at h
    split at h
    · rename_i r h6
      injection h with h
      subst h
      obtain ⟨a, b, c⟩ := (scan6_iff _ _ _).mp h6
      exact ⟨a, b, .inl c⟩
    · by_cases hc : (if colons src > 1 then AF_INET6 else AF_INET) = AF_INET6
      · rw [if_pos hc] at h; cases h
      · rw [if_neg hc] at h
        obtain ⟨a, b, c⟩ := (scan4_iff _ _ _).mp h
        refine ⟨a, b, .inr ⟨?_, c⟩⟩
        by_cases hx : 1 < src.count 0x3a
        · exact absurd (by rw [if_pos (show colons src > 1 from hx)]) hc
        · rw [if_neg hx]
  have hback : ∀ family ipaddr port, Read n src family ipaddr port → fromText n b src true = (placed b family ipaddr (toPort port), true) := by
    rintro family ipaddr port ⟨hf, ip, h1, h2, h3, h4⟩
    have hf' : family = 2 ∨ family = 10 := by rw [hf]; exact hfam _
    have hs : scanPort (if colons src > 1 then AF_INET6 else AF_INET) src = some (ip, port) := by
      rw [scanPort]
      rcases h4 with h4 | ⟨h5, h4⟩
      · rw [(scan6_iff _ _ _).mpr ⟨h1, h2, h4⟩]
      · have h6 : scan6 src = none := by
          obtain ⟨num, h6, h7, _⟩ := h4
          match ip, h1 with
          | x :: ip, _ =>
            have hx : x ≠ 0x5b := by
              rcases h7 x (by simp) with h | h
              · rintro rfl; revert h; decide
              · rw [h]; decide
            rw [h6, List.cons_append]
            unfold scan6
            split
            · rename_i r hr
              injection hr with hr _
              exact absurd hr hx
            · rfl
        rw [h6]
        dsimp only
        rw [if_neg, (scan4_iff _ _ _).mpr ⟨h1, h2, h4⟩]
        intro hc
        rw [hf] at h5
        by_cases hx : 1 < src.count 0x3a
        · rw [if_pos hx] at h5; cases h5
        · rw [if_neg (show ¬ colons src > 1 from hx)] at hc; cases hc
    have hfa : (if colons src > 1 then AF_INET6 else AF_INET) = family := by rw [hf]; rfl
    simp only [fromText, if_true]
    rw [hs]
    dsimp only
    rw [hfa, h3]
    dsimp only
    rw [setIP_placed hb hn hf' h3]
    rw [setPort, if_pos (show (placed b family ipaddr (getPort b)).family = AF_INET ∨ (placed b family ipaddr (getPort b)).family = AF_INET6 from hf')]
    simp only [placed, Nat.mod_eq_of_lt (toPort_lt port)]
  have hnone : (¬ ∃ family ipaddr port, Read n src family ipaddr port) → fromText n b src true = (b, false) := by
    intro hno
    simp only [fromText, if_true]
    split
    · rfl
    · rename_i ip port hs
      obtain ⟨h1, h2, h3⟩ := hscan ip port hs
      split
      · rfl
      · rename_i ipaddr hp
        refine absurd ⟨_, ipaddr, port, rfl, ip, h1, h2, hp, ?_⟩ hno
        rcases h3 with h3 | ⟨h3, h4⟩
        · exact .inl h3
        · exact .inr ⟨h3, h4⟩
  constructor
  · intro h
    by_cases hr : ∃ family ipaddr port, Read n src family ipaddr port
    · obtain ⟨f, i, p, hr⟩ := hr
      rw [hback f i p hr] at h
      injection h with h1 h2
      exact .inl ⟨h2.symm, f, i, p, hr, h1.symm⟩
    · rw [hnone hr] at h
      injection h with h1 h2
      exact .inr ⟨h2.symm, h1.symm, hr⟩
  · rintro (⟨rfl, f, i, p, hr, rfl⟩ | ⟨rfl, rfl, hr⟩)
    · exact hback f i p hr
    · exact hnone hr

theorem number_of (ds : Bytes) (h : ds ≠ []) (hd : ∀ b ∈ ds, 0x30 ≤ b ∧ b ≤ 0x39) : IsNumber ds (value ds) :=
  ⟨[], [], ds, [], by simp, by simp, h, hd, by simp, .inr ⟨.inr rfl, rfl⟩⟩

theorem toPort_nat (p : Nat) (h : p < 2 ^ 63) : toPort (p : Int) = p % 65536 := by
  rw [toPort]; omega

theorem count_none {t : Bytes} {c : UInt8} (h : ∀ b ∈ t, b ≠ c) : t.count c = 0 := List.count_eq_zero.mpr (fun hm => h c hm rfl)

theorem notColon4 {t : Bytes} (h : ∀ b ∈ t, (0x30 ≤ b ∧ b ≤ 0x39) ∨ b = 0x2e) : t.count 0x3a = 0 :=
  count_none (fun b hb hc => by
    subst hc
    rcases h _ hb with h | h
    · revert h; decide
    · revert h; decide)

/-- reading what was written -/
theorem read_text {n : Net} (hn : n.Ok) {a : Address} (hs : Sound a) (hi : IsIP a) {t : Bytes} (h : Text n a true t) : Read n t a.family a.ip a.port := by
  obtain ⟨ds, d1, d2, d3, d4, h⟩ := h
  have hnum := number_of ds d1 d2
  rw [d3] at hnum
  have hdc : ds.count 0x3a = 0 := notColon4 (fun b hb => .inl (d2 b hb))
  rcases hs.kind with ⟨k1, k2⟩ | ⟨k1, k2⟩ | ⟨k1, _⟩
  · obtain ⟨t1, t2, t3, t4⟩ := hn.text4 a.ip k2
    rcases h with ⟨_, rfl⟩ | ⟨h, _⟩
    · have hc : (n.ntop 2 a.ip ++ (0x3a :: ds)).count 0x3a = 1 := by
        rw [List.count_append, notColon4 t2, List.count_cons_self, hdc]
      refine ⟨by rw [hc, k1]; rfl, n.ntop 2 a.ip, t1, by omega, by rw [k1]; exact t4, .inr ⟨k1, ds, rfl, t2, hnum⟩⟩
    · rw [k1] at h; cases h
  · obtain ⟨t1, t2, t3, t4, t5⟩ := hn.text6 a.ip k2
    rcases h with ⟨h, _⟩ | ⟨_, rfl⟩
    · rw [k1] at h; cases h
    · have hc : 1 < (0x5b :: (n.ntop 10 a.ip ++ (0x5d :: 0x3a :: ds))).count 0x3a := by
        rw [List.count_cons_of_ne (by decide), List.count_append]; omega
      refine ⟨by rw [if_pos hc, k1], n.ntop 10 a.ip, t1, t4, by rw [k1]; exact t5, .inl ⟨ds, rfl, t2, hnum⟩⟩
  · rcases hi with h | h <;> rw [h] at k1 <;> simp at k1

end AddressText

/-- **C89** An address that is printed with its port is read back as itself, into any address object (whose origin stays); the text fits the buffer. -/
theorem C89_round_trip (n : Net) (hn : n.Ok) (xs ys : List Address.Op) (hx : ∀ o ∈ xs, OkOp o) (hy : ∀ o ∈ ys, OkOp o) (hi : IsIP (made xs)) :
    fromText n (made ys) (toText n (made xs) true) true = ({ made xs with origin := (made ys).origin }, true) ∧ (toText n (made xs) true).length < 54 := by
  have hs := made_sound xs hx
  obtain ⟨h1, h2⟩ := toText_text hn hs hi true
  have hr := read_text hn hs hi h1
  refine ⟨(fromText_iff hn (made_sound ys hy) _ _ _).mpr (.inl ⟨rfl, _, _, _, hr, ?_⟩), by omega⟩
  have hp : (made xs).port < 65536 := hs.port
  rw [toPort_nat _ (by omega), Nat.mod_eq_of_lt hp]
  rfl

/-- **C89** So is one that is printed without its port; the port of the object that it is read into stays. -/
theorem C89_round_trip_bare (n : Net) (hn : n.Ok) (xs ys : List Address.Op) (hx : ∀ o ∈ xs, OkOp o) (hy : ∀ o ∈ ys, OkOp o) (hi : IsIP (made xs)) :
    fromText n (made ys) (toText n (made xs) false) false =
      ({ family := (made xs).family, ip := (made xs).ip, port := getPort (made ys), origin := (made ys).origin }, true) ∧ (toText n (made xs) false).length < 46 := by
  have hs := made_sound xs hx
  have hb := made_sound ys hy
  obtain ⟨h1, _⟩ := toText_text hn hs hi false
  rw [Text] at h1
  simp only [Bool.false_eq_true, if_false] at h1
  rw [h1]
  -- the text has no brackets and no white space
  have key : ∀ t : Bytes, t ≠ [] → t.length ≤ 45 → (∀ b ∈ t, (0x30 ≤ b ∧ b ≤ 0x39) ∨ (0x61 ≤ b ∧ b ≤ 0x66) ∨ (0x41 ≤ b ∧ b ≤ 0x46) ∨ b = 0x3a ∨ b = 0x2e) → scanBare t = some t := by
    intro t h1 h2 h3
    have hch : ∀ b : UInt8, (0x30 ≤ b ∧ b ≤ 0x39) ∨ (0x61 ≤ b ∧ b ≤ 0x66) ∨ (0x41 ≤ b ∧ b ≤ 0x46) ∨ b = 0x3a ∨ b = 0x2e → isSpace b = false ∧ b ≠ 0x5b := by
      intro b; cases b with | _ b => cases b with | _ b => revert b; decide +kernel
    have hd : t.dropWhile isSpace = t := by
      have := dropWhile_all (p := isSpace) (t := []) (by simp) t (fun b r hb => (hch b (h3 b (by rw [hb]; simp))).1)
      simpa using this
    have hsc : scanSet (fun b => !isSpace b) t = some (t, []) := by
      have := scanSet_stop (p := fun b => !isSpace b) (t := t) (rest := []) (fun b hb => by simp [(hch b (h3 b hb)).1]) h1 h2 (by simp)
      simpa using this
    have hf : bracketed t = none := by
      unfold bracketed
      split
      · exact absurd rfl (hch 0x5b (h3 0x5b (by simp))).2
      · rfl
    rw [scanBare, hf]
    dsimp only
    rw [hd, hsc]; rfl
  have hfin : ∀ f ip, (f = 2 ∨ f = 10) → (if 1 < (n.ntop f ip).count 0x3a then 10 else 2) = f → scanBare (n.ntop f ip) = some (n.ntop f ip) → n.pton f (n.ntop f ip) = some ip →
      fromText n (made ys) (n.ntop f ip) false = (placed (made ys) f ip (getPort (made ys)), true) := by
    intro f ip hf hc h3 h4
    have hfa : (if colons (n.ntop f ip) > 1 then AF_INET6 else AF_INET) = f := hc
    simp only [fromText, Bool.false_eq_true, if_false]
    rw [h3, Option.map_some]
    dsimp only
    rw [hfa, h4]
    dsimp only
    rw [setIP_placed hb hn hf h4]
  rcases hs.kind with ⟨k1, k2⟩ | ⟨k1, k2⟩ | ⟨k1, _⟩
  · obtain ⟨t1, t2, t3, t4⟩ := hn.text4 _ k2
    rw [k1]
    refine ⟨?_, by omega⟩
    refine hfin 2 _ (.inl rfl) ?_ (key _ t1 (by omega) ?_) t4
    · rw [notColon4 t2]; rfl
    · intro b hb
      rcases t2 b hb with h | h
      · exact .inl h
      · exact .inr (.inr (.inr (.inr h)))
  · obtain ⟨t1, t2, t3, t4, t5⟩ := hn.text6 _ k2
    rw [k1]
    refine ⟨?_, by omega⟩
    refine hfin 10 _ (.inr rfl) ?_ (key _ t1 t4 t2) t5
    rw [if_pos (by omega)]
  · rcases hi with h | h <;> rw [h] at k1 <;> simp at k1

/-- what is read without a port: what is between brackets (the second can be missing), or else the first word; 45 bytes of it at most -/
def BareRead (src t : Bytes) : Prop :=
  t ≠ [] ∧ t.length ≤ 45 ∧
    ((∃ rest, src = 0x5b :: (t ++ rest) ∧ 0x5d ∉ t ∧ (t.length = 45 ∨ rest = [] ∨ ∃ r, rest = 0x5d :: r)) ∨
     ((∀ r, src = 0x5b :: r → r = [] ∨ ∃ r', r = 0x5d :: r') ∧
      ∃ ws rest, src = ws ++ (t ++ rest) ∧ (∀ b ∈ ws, b = 0x20 ∨ (0x09 ≤ b ∧ b ≤ 0x0d)) ∧ (∀ b ∈ t, ¬ (b = 0x20 ∨ (0x09 ≤ b ∧ b ≤ 0x0d))) ∧
        (t.length = 45 ∨ ∀ b r, rest = b :: r → b = 0x20 ∨ (0x09 ≤ b ∧ b ≤ 0x0d))))

namespace AddressText

theorem scanSet_none {p : UInt8 → Bool} {src : Bytes} : scanSet p src = none ↔ ∀ b r, src = b :: r → p b = false := by
  rw [scanSet]
  cases src with
  | nil => simp
  | cons b r =>
    simp only [List.take_succ_cons, List.takeWhile_cons]
    by_cases hb : p b = true
    · simp [hb]
    · simp [hb]

theorem scanSet_end {p : UInt8 → Bool} {src t rest : Bytes} (h : scanSet p src = some (t, rest)) : t.length = 45 ∨ ∀ b r, rest = b :: r → p b = false := by
  rw [scanSet] at h
  split at h
  · cases h
  · injection h with h
    injection h with h1 h2
    by_cases hl : t.length = 45
    · exact .inl hl
    · refine .inr ?_
      intro b r hb
      have e1 : src.take 45 = t ++ (src.take 45).dropWhile p := by rw [← h1]; exact List.takeWhile_append_dropWhile.symm
      rw [← h2] at hb
      rw [h1] at hb
      have hle : t.length ≤ (src.take 45).length := by
        have := congrArg List.length e1
        simp only [List.length_append] at this
        omega
      have hd : (src.take 45).dropWhile p = (src.drop t.length).take (45 - t.length) := by
        have : (src.take 45).drop t.length = (src.take 45).dropWhile p := by
          conv => lhs; rw [e1]
          rw [List.drop_left]
        rw [← this, List.drop_take]
      rw [hb] at hd
      have hlt : t.length < 45 := by simp at hle; omega
      obtain ⟨k, hk⟩ : ∃ k, 45 - t.length = k + 1 := ⟨45 - t.length - 1, by omega⟩
      rw [hk, List.take_succ_cons] at hd
      exact dropWhile_head (src.take 45) b _ hd

theorem scanSet_full {p : UInt8 → Bool} {t rest : Bytes} (h : ∀ b ∈ t, p b = true) (hne : t ≠ []) (hl : t.length ≤ 45)
    (hr : t.length = 45 ∨ ∀ b r, rest = b :: r → p b = false) : ∃ q, scanSet p (t ++ rest) = some (t, q) := by
  rcases hr with hr | hr
  · have ht : ((t ++ rest).take 45).takeWhile p = t := by
      rw [← hr, List.take_left]
      have := takeWhile_all h [] (by simp)
      simpa using this
    rw [scanSet]
    simp only [ht, if_neg hne]
    exact ⟨_, rfl⟩
  · exact ⟨rest, scanSet_stop h hne hl hr⟩

theorem bare_iff (src t : Bytes) : scanBare src = some t ↔ BareRead src t := by
  have hsp : ∀ b, (!isSpace b) = true ↔ ¬ (b = 0x20 ∨ (0x09 ≤ b ∧ b ≤ 0x0d)) := by
    intro b; rw [← isSpace_iff]; simp
  constructor
  · intro h
    rw [scanBare] at h
    split at h
    · rename_i ip hb
      injection h with h
      subst h
      unfold bracketed at hb
      split at hb
      · rename_i r
        rw [Option.map_eq_some_iff] at hb
        obtain ⟨⟨ip', rest⟩, h1, rfl⟩ := hb
        obtain ⟨a, b, c, d⟩ := scanSet_some h1
        refine ⟨b, c, .inl ⟨rest, by rw [a], fun hm => by simpa using d _ hm, ?_⟩⟩
        rcases scanSet_end h1 with h2 | h2
        · exact .inl h2
        · match rest with
          | [] => exact .inr (.inl rfl)
          | x :: r' =>
            have := h2 x r' rfl
            simp at this
            exact .inr (.inr ⟨r', by rw [this]⟩)
      · cases hb
    · rename_i hb
      rw [Option.map_eq_some_iff] at h
      obtain ⟨⟨ip', rest⟩, h1, rfl⟩ := h
      obtain ⟨a, b, c, d⟩ := scanSet_some h1
      refine ⟨b, c, .inr ⟨?_, src.takeWhile isSpace, rest, ?_, fun x hx => (isSpace_iff x).mp (takeWhile_mem _ x hx), fun x hx => (hsp x).mp (d x hx), ?_⟩⟩
      · rintro r rfl
        simp only [bracketed, Option.map_eq_none_iff] at hb
        match r with
        | [] => exact .inl rfl
        | x :: r' =>
          have := scanSet_none.mp hb x r' rfl
          simp at this
          exact .inr ⟨r', by rw [this]⟩
      · have := (List.takeWhile_append_dropWhile (p := isSpace) (l := src)).symm
        rw [a] at this
        exact this
      · rcases scanSet_end h1 with h2 | h2
        · exact .inl h2
        · exact .inr (fun x r hx => (isSpace_iff x).mp (by simpa using h2 x r hx))
  · rintro ⟨h1, h2, ⟨rest, rfl, h3, h4⟩ | ⟨h3, ws, rest, rfl, h4, h5, h6⟩⟩
    · have hs : ∃ q, scanSet (fun b => b != 0x5d) (t ++ rest) = some (t, q) := by
        refine scanSet_full (fun b hb => ?_) h1 h2 ?_
        · simp only [bne_iff_ne, ne_eq]; rintro rfl; exact h3 hb
        · rcases h4 with h4 | h4 | ⟨r, h4⟩
          · exact .inl h4
          · exact .inr (by rw [h4]; simp)
          · refine .inr ?_
            rw [h4]; rintro b r' hb; injection hb with hb _; subst hb; rfl
      obtain ⟨q, hq⟩ := hs
      simp only [scanBare, bracketed, hq, Option.map_some]
    · have hb : bracketed (ws ++ (t ++ rest)) = none := by
        unfold bracketed
        split
        · rename_i r heq
          rw [Option.map_eq_none_iff]
          refine scanSet_none.mpr ?_
          intro b r' hr
          rcases h3 r heq with h | ⟨r'', h⟩
          · rw [h] at hr; cases hr
          · rw [h] at hr; injection hr with hr _; subst hr; rfl
        · rfl
      have hd : (ws ++ (t ++ rest)).dropWhile isSpace = t ++ rest := by
        refine dropWhile_all (fun b hb => (isSpace_iff b).mpr (h4 b hb)) _ ?_
        intro b r hbr
        match t, h1 with
        | x :: t, _ =>
          injection hbr with hbr _
          subst hbr
          have := (hsp x).mpr (h5 x (by simp))
          simpa using this
      obtain ⟨q, hq⟩ := scanSet_full (p := fun b => !isSpace b) (t := t) (rest := rest) (fun b hb => (hsp b).mpr (h5 b hb)) h1 h2 (by
        rcases h6 with h6 | h6
        · exact .inl h6
        · exact .inr (fun b r hr => by simpa using (isSpace_iff b).mpr (h6 b r hr)))
      rw [scanBare, hb]
      dsimp only
      rw [hd, hq]; rfl

end AddressText

/-- **C89** What is accepted without a port, exactly; anything else changes nothing. -/
theorem C89_accepted_bare (n : Net) (hn : n.Ok) (ys : List Address.Op) (hy : ∀ o ∈ ys, OkOp o) (src : Bytes) (a : Address) (ok : Bool) :
    fromText n (made ys) src false = (a, ok) ↔
      (ok = true ∧ ∃ t ip, BareRead src t ∧ n.pton (if 1 < src.count 0x3a then 10 else 2) t = some ip ∧
        a = { family := if 1 < src.count 0x3a then 10 else 2, ip := ip, port := getPort (made ys), origin := (made ys).origin }) ∨
      (ok = false ∧ a = made ys ∧ ¬ ∃ t ip, BareRead src t ∧ n.pton (if 1 < src.count 0x3a then 10 else 2) t = some ip) := by
  have hf : ((if 1 < src.count 0x3a then 10 else 2 : Nat) = 2 ∨ (if 1 < src.count 0x3a then 10 else 2 : Nat) = 10) := by split <;> simp
  have e : fromText n (made ys) src false = match scanBare src with
      | none => (made ys, false)
      | some t => match n.pton (if 1 < src.count 0x3a then 10 else 2) t with
        | none => (made ys, false)
        | some ip => ((setIP (made ys) ip).1, true) := by
    simp only [fromText, Bool.false_eq_true, if_false]
    cases scanBare src <;> rfl
  rw [e]
  cases hs : scanBare src with
  | none =>
    have hno : ∀ t, ¬ BareRead src t := fun t ht => by rw [← bare_iff, hs] at ht; cases ht
    constructor
    · intro h
      injection h with h1 h2
      exact .inr ⟨h2.symm, h1.symm, fun ⟨t, _, ht, _⟩ => hno t ht⟩
    · rintro (⟨_, t, _, ht, _⟩ | ⟨rfl, rfl, _⟩)
      · exact absurd ht (hno t)
      · rfl
  | some t =>
    have ht := (bare_iff src t).mp hs
    have huniq : ∀ t', BareRead src t' → t' = t := fun t' h => by
      have := (bare_iff src t').mpr h
      rw [hs] at this
      injection this with this
      exact this.symm
    dsimp only
    cases hp : n.pton (if 1 < src.count 0x3a then 10 else 2) t with
    | none =>
      have hno : ¬ ∃ t ip, BareRead src t ∧ n.pton (if 1 < src.count 0x3a then 10 else 2) t = some ip := by
        rintro ⟨t', ip, h1, h2⟩
        rw [huniq t' h1, hp] at h2; cases h2
      constructor
      · intro h
        injection h with h1 h2
        exact .inr ⟨h2.symm, h1.symm, hno⟩
      · rintro (⟨_, t, ip, h1, h2, _⟩ | ⟨rfl, rfl, _⟩)
        · exact absurd ⟨t, ip, h1, h2⟩ hno
        · rfl
    | some ip =>
      dsimp only
      rw [setIP_placed (made_sound ys hy) hn hf hp]
      constructor
      · intro h
        injection h with h1 h2
        exact .inl ⟨h2.symm, t, ip, ht, hp, h1.symm⟩
      · rintro (⟨rfl, t', ip', h1, h2, rfl⟩ | ⟨_, _, h1⟩)
        · rw [huniq t' h1, hp] at h2
          injection h2 with h2
          rw [h2]; rfl
        · exact absurd ⟨t, ip, ht, hp⟩ h1

/-- **C89** Two addresses print as the same text exactly if they are equal. -/
theorem C89_injective (n : Net) (hn : n.Ok) (xs ys : List Address.Op) (hx : ∀ o ∈ xs, OkOp o) (hy : ∀ o ∈ ys, OkOp o) (ix : IsIP (made xs)) (iy : IsIP (made ys)) :
    toText n (made xs) true = toText n (made ys) true ↔ Address.eq (made xs) (made ys) = true := by
  have sx := made_sound xs hx
  have sy := made_sound ys hy
  rw [eq_iff sx sy]
  constructor
  · intro h
    have h1 := (C89_round_trip n hn xs [] hx (by simp) ix).1
    have h2 := (C89_round_trip n hn ys [] hy (by simp) iy).1
    rw [h] at h1
    have h3 := congrArg Prod.fst (h1.symm.trans h2)
    simp only at h3
    injection h3 with a b c _
    exact ⟨a, b, c⟩
  · rintro ⟨a, b, c⟩
    simp only [toText, getIP_eq sx, getIP_eq sy, getPort_eq sx, getPort_eq sy, a, b, c]

/-- **C89** What is accepted, exactly: an IP address that the library can read (IPv6 if the text has more than one colon), of the bytes that addresses are made of, in brackets
or, if it is IPv4, without; a colon; and a number. The address becomes that, with the number cut to 16 bits as its port. Anything else is refused and changes nothing.
Missing: numbers above 65535 or below 0 are not refused, nor is anything after the number (`C89_port_wraps`, `C89_rest_ignored`). -/
theorem C89_accepted_partial (n : Net) (hn : n.Ok) (ys : List Address.Op) (hy : ∀ o ∈ ys, OkOp o) (src : Bytes) (a : Address) (ok : Bool) :
    fromText n (made ys) src true = (a, ok) ↔
      (ok = true ∧ ∃ family ipaddr port, Read n src family ipaddr port ∧ a = { family := family, ip := ipaddr, port := toPort port, origin := (made ys).origin }) ∨
      (ok = false ∧ a = made ys ∧ ¬ ∃ family ipaddr port, Read n src family ipaddr port) :=
  fromText_iff hn (made_sound ys hy) src a ok

/-- **C89** (the code is not as claimed) A port that is none is accepted: 65536 and more count from 0 again, whatever the address. -/
theorem C89_port_wraps (n : Net) (hn : n.Ok) (ip : Bytes) (hip : ip.length = 4) (port : Nat) (hp : port < 2 ^ 63) (ys : List Address.Op) (hy : ∀ o ∈ ys, OkOp o) :
    fromText n (made ys) (n.ntop 2 ip ++ (0x3a :: digits 20 port)) true = ({ family := 2, ip := ip, port := port % 65536, origin := (made ys).origin }, true) := by
  obtain ⟨d1, d2, d3, _⟩ := digits_spec 20 port (by omega) (by omega)
  obtain ⟨t1, t2, t3, t4⟩ := hn.text4 ip hip
  have hnum := number_of (digits 20 port) d1 (fun b hb => (isDigit_iff b).mp (d2 b hb))
  rw [d3] at hnum
  have hdc : (digits 20 port).count 0x3a = 0 := notColon4 (fun b hb => .inl ((isDigit_iff b).mp (d2 b hb)))
  refine (fromText_iff hn (made_sound ys hy) _ _ _).mpr (.inl ⟨rfl, 2, ip, port, ⟨?_, n.ntop 2 ip, t1, by omega, t4, .inr ⟨rfl, _, rfl, t2, hnum⟩⟩, ?_⟩)
  · rw [List.count_append, notColon4 t2, List.count_cons_self, hdc]; rfl
  · rw [toPort_nat port hp]; rfl

/-- **C89** (the code is not as claimed) What follows the port is not looked at, if it begins with something else than a digit and has no colon. -/
theorem C89_rest_ignored (n : Net) (hn : n.Ok) (ip : Bytes) (hip : ip.length = 4) (port : Nat) (hp : port < 65536) (rest : Bytes) (hr : ∀ b r, rest = b :: r → ¬ (0x30 ≤ b ∧ b ≤ 0x39))
    (hc : rest.count 0x3a = 0) (ys : List Address.Op) (hy : ∀ o ∈ ys, OkOp o) :
    fromText n (made ys) (n.ntop 2 ip ++ (0x3a :: (digits 20 port ++ rest))) true = ({ family := 2, ip := ip, port := port, origin := (made ys).origin }, true) := by
  obtain ⟨d1, d2, d3, _⟩ := digits_spec 20 port (by omega) (by omega)
  obtain ⟨t1, t2, t3, t4⟩ := hn.text4 ip hip
  have hdc : (digits 20 port).count 0x3a = 0 := notColon4 (fun b hb => .inl ((isDigit_iff b).mp (d2 b hb)))
  have hnum : IsNumber (digits 20 port ++ rest) (port : Int) :=
    ⟨[], [], digits 20 port, rest, by simp, by simp, d1, fun b hb => (isDigit_iff b).mp (d2 b hb), hr, .inr ⟨.inr rfl, by rw [d3]⟩⟩
  refine (fromText_iff hn (made_sound ys hy) _ _ _).mpr (.inl ⟨rfl, 2, ip, port, ⟨?_, n.ntop 2 ip, t1, by omega, t4, .inr ⟨rfl, _, rfl, t2, hnum⟩⟩, ?_⟩)
  · rw [List.count_append, notColon4 t2, List.count_cons_self, List.count_append, hdc, hc]; rfl
  · rw [toPort_nat port (by omega), Nat.mod_eq_of_lt hp]; rfl

/-! ## A C library that meets the assumptions -/

namespace AddressText

/-- the decimal digits of each byte, with dots between -/
def dotted : Bytes → Bytes
  | [] => []
  | [b] => digits 3 b.toNat
  | b :: r => digits 3 b.toNat ++ (0x2e :: dotted r)

/-- the reverse, for `k + 1` numbers -/
def undotted : Nat → Bytes → Option Bytes
  | 0, t => if t = [] ∨ t.any (fun b => !isDigit b) ∨ 256 ≤ value t then none else some [UInt8.ofNat (value t)]
  | k + 1, t =>
    let d := t.takeWhile isDigit
    match t.dropWhile isDigit with
    | 0x2e :: r => if d = [] ∨ 256 ≤ value d then none else (undotted k r).map (UInt8.ofNat (value d) :: ·)
    | _ => none

/-- a hexadecimal digit -/
def hexDigit (n : Nat) : UInt8 := UInt8.ofNat (if n < 10 then 48 + n else 87 + n)

/-- the number of a hexadecimal digit -/
def unhexDigit (b : UInt8) : Option Nat :=
  if 0x30 ≤ b ∧ b ≤ 0x39 then some (b.toNat - 48) else if 0x61 ≤ b ∧ b ≤ 0x66 then some (b.toNat - 87) else none

/-- two digits of a byte, two bytes to a group, colons between the groups -/
def groups : Bytes → Bytes
  | [] => []
  | [_] => []
  | [a, b] => [hexDigit (a.toNat / 16), hexDigit (a.toNat % 16), hexDigit (b.toNat / 16), hexDigit (b.toNat % 16)]
  | a :: b :: r => hexDigit (a.toNat / 16) :: hexDigit (a.toNat % 16) :: hexDigit (b.toNat / 16) :: hexDigit (b.toNat % 16) :: 0x3a :: groups r

/-- a byte of two digits -/
def unhex (a b : UInt8) : Option UInt8 :=
  match unhexDigit a, unhexDigit b with
  | some x, some y => some (UInt8.ofNat (16 * x + y))
  | _, _ => none

/-- the reverse, for `k + 1` groups -/
def ungroups : Nat → Bytes → Option Bytes
  | 0, [a, b, c, d] => match unhex a b, unhex c d with
    | some x, some y => some [x, y]
    | _, _ => none
  | k + 1, a :: b :: c :: d :: 0x3a :: r => match unhex a b, unhex c d with
    | some x, some y => (ungroups k r).map (fun s => x :: y :: s)
    | _, _ => none
  | _, _ => none

/-- such a C library (that does not shorten IPv6 addresses) -/
def plain : Net where
  ntop f ip := if f = 2 then dotted ip else groups ip
  pton f t := if f = 2 then undotted 3 t else ungroups 7 t

theorem undotted_dotted : ∀ (k : Nat) (ip : Bytes), ip.length = k + 1 →
    dotted ip ≠ [] ∧ (∀ b ∈ dotted ip, isText4 b = true) ∧ (dotted ip).length ≤ 4 * k + 3 ∧ undotted k (dotted ip) = some ip
  | 0, [b], _ => by
    obtain ⟨h1, h2, h3, h4⟩ := digits_spec 3 b.toNat (by have := b.toNat_lt; omega) (by omega)
    refine ⟨h1, fun x hx => by simp [isText4, h2 x hx], h4 3 (by have := b.toNat_lt; omega) (by omega), ?_⟩
    rw [dotted, undotted, if_neg, h3]
    · simp
    · rintro (h | h | h)
      · exact h1 h
      · rw [List.any_eq_true] at h
        obtain ⟨x, hx, h⟩ := h
        rw [h2 x hx] at h; cases h
      · rw [h3] at h
        have := b.toNat_lt
        omega
  | k + 1, b :: c :: r, h => by
    obtain ⟨i1, i2, i3, i4⟩ := undotted_dotted k (c :: r) (by simpa using h)
    obtain ⟨h1, h2, h3, h4⟩ := digits_spec 3 b.toNat (by have := b.toNat_lt; omega) (by omega)
    have h5 := h4 3 (by have := b.toNat_lt; omega) (by omega)
    have ht := takeWhile_all h2 (0x2e :: dotted (c :: r)) (by rintro x y hx; injection hx with hx; subst hx; decide)
    have hd := dropWhile_all h2 (0x2e :: dotted (c :: r)) (by rintro x y hx; injection hx with hx; subst hx; decide)
    rw [dotted]
    · refine ⟨by simp [h1], ?_, by simp only [List.length_append, List.length_cons]; omega, ?_⟩
      · intro x hx
        rw [List.mem_append] at hx
        rcases hx with hx | hx
        · simp [isText4, h2 x hx]
        · rcases List.mem_cons.mp hx with rfl | hx
          · decide
          · exact i2 x hx
      · rw [undotted, ht, hd]
        show (if digits 3 b.toNat = [] ∨ 256 ≤ value (digits 3 b.toNat) then none
          else Option.map (fun x => UInt8.ofNat (value (digits 3 b.toNat)) :: x) (undotted k (dotted (c :: r)))) = _
        rw [if_neg, i4, h3]
        · simp
        · rintro (h | h)
          · exact h1 h
          · rw [h3] at h
            have := b.toNat_lt
            omega
    · simp

theorem unhex_hex (a : UInt8) : unhex (hexDigit (a.toNat / 16)) (hexDigit (a.toNat % 16)) = some a := by
  cases a with | _ a => cases a with | _ a => revert a; decide +kernel

theorem hexDigit_text : ∀ n : Fin 16, isText6 (hexDigit n.val) = true := by decide

theorem ungroups_groups : ∀ (k : Nat) (ip : Bytes), ip.length = 2 * k + 2 →
    groups ip ≠ [] ∧ (∀ b ∈ groups ip, isText6 b = true) ∧ k ≤ (groups ip).count 0x3a ∧ (groups ip).length = 5 * k + 4 ∧ ungroups k (groups ip) = some ip
  | 0, [a, b], _ => by
    have ha := a.toNat_lt
    have hb := b.toNat_lt
    refine ⟨by simp [groups], ?_, by simp, by simp [groups], by simp [groups, ungroups, unhex_hex]⟩
    simp only [groups, List.mem_cons, List.not_mem_nil, or_false]
    rintro x (rfl | rfl | rfl | rfl)
    · exact hexDigit_text ⟨a.toNat / 16, by omega⟩
    · exact hexDigit_text ⟨a.toNat % 16, by omega⟩
    · exact hexDigit_text ⟨b.toNat / 16, by omega⟩
    · exact hexDigit_text ⟨b.toNat % 16, by omega⟩
  | k + 1, a :: b :: c :: r, h => by
    have ha := a.toNat_lt
    have hb := b.toNat_lt
    obtain ⟨i1, i2, i3, i4, i5⟩ := ungroups_groups k (c :: r) (by simp at h ⊢; omega)
    have e : groups (a :: b :: c :: r) = hexDigit (a.toNat / 16) :: hexDigit (a.toNat % 16) :: hexDigit (b.toNat / 16) :: hexDigit (b.toNat % 16) :: 0x3a :: groups (c :: r) := by
      rw [groups]; simp
    rw [e]
    refine ⟨by simp, ?_, ?_, by simp only [List.length_cons]; omega, by simp [ungroups, unhex_hex, i5]⟩
    · simp only [List.mem_cons]
      rintro x (rfl | rfl | rfl | rfl | rfl | hx)
      · exact hexDigit_text ⟨a.toNat / 16, by omega⟩
      · exact hexDigit_text ⟨a.toNat % 16, by omega⟩
      · exact hexDigit_text ⟨b.toNat / 16, by omega⟩
      · exact hexDigit_text ⟨b.toNat % 16, by omega⟩
      · decide
      · exact i2 x hx
    · simp only [List.count_cons]
      simp
      omega

theorem undotted_length : ∀ (k : Nat) (t ip : Bytes), undotted k t = some ip → ip.length = k + 1
  | 0, t, ip, h => by
    rw [undotted] at h
    split at h
    · cases h
    · injection h with h; subst h; rfl
  | k + 1, t, ip, h => by
    rw [undotted] at h
    split at h
    · split at h
      · cases h
      · rw [Option.map_eq_some_iff] at h
        obtain ⟨s, h1, rfl⟩ := h
        simp [undotted_length k _ _ h1]
    · cases h

theorem ungroups_length : ∀ (k : Nat) (t ip : Bytes), ungroups k t = some ip → ip.length = 2 * k + 2
  | 0, t, ip, h => by
    unfold ungroups at h
    split at h
    · split at h
      · injection h with h; subst h; rfl
      · cases h
    · rename_i hk; exact absurd hk (by simp)
    · cases h
  | k + 1, t, ip, h => by
    unfold ungroups at h
    split at h
    · rename_i hk; cases hk
    · rename_i hk
      injection hk with hk
      subst hk
      split at h
      · rw [Option.map_eq_some_iff] at h
        obtain ⟨s, h1, rfl⟩ := h
        simp [ungroups_length _ _ _ h1]; omega
      · cases h
    · cases h

theorem plain_ok : plain.Ok where
  text4 ip h := by
    obtain ⟨a, b, c, d⟩ := undotted_dotted 3 ip h
    exact ⟨a, fun x hx => (isText4_iff x).mp (b x hx), c, d⟩
  text6 ip h := by
    obtain ⟨a, b, c, d, e⟩ := ungroups_groups 7 ip h
    refine ⟨a, fun x hx => (isText6_iff x).mp (b x hx), ?_, ?_, e⟩
    · show 2 ≤ (groups ip).count 0x3a
      omega
    · show (groups ip).length ≤ 45
      omega
  read4 t ip h := undotted_length 3 t ip h
  read6 t ip h := ungroups_length 7 t ip h

/-- 192.0.2.7:50000, far -/
def ops4 : List Address.Op := [.setIP [192, 0, 2, 7], .setPort 50000, .setOrigin 1]

/-- [2001:db8::1]:443 -/
def ops6 : List Address.Op := [.setIP [0x20, 1, 0xd, 0xb8, 0, 0, 0, 0, 0, 0, 0, 0, 0, 0, 0, 1], .setPort 443]

theorem ops4_ok : ∀ o ∈ ops4, OkOp o := by
  simp only [ops4, List.mem_cons, List.not_mem_nil, or_false]
  rintro o (rfl | rfl | rfl) <;> trivial

theorem ops6_ok : ∀ o ∈ ops6, OkOp o := by
  simp only [ops6, List.mem_cons, List.not_mem_nil, or_false]
  rintro o (rfl | rfl) <;> trivial

end AddressText

/-- **C89** What is read is an address like those that the other functions make: reading is setting the IP address and then, if asked, the port; or nothing. -/
theorem C89_made (n : Net) (ys : List Address.Op) (src : Bytes) (withPort : Bool) :
    (∃ t ip v, n.pton (if 1 < src.count 0x3a then 10 else 2) t = some ip ∧
      fromText n (made ys) src withPort = (made (ys ++ (.setIP ip :: if withPort then [.setPort (toPort v)] else [])), true)) ∨
    fromText n (made ys) src withPort = (made ys, false) := by
  simp only [fromText]
  generalize (if withPort = true then scanPort (if colons src > 1 then AF_INET6 else AF_INET) src else Option.map (fun ip => (ip, 0)) (scanBare src)) = sc
  match sc with
  | none => exact .inr rfl
  | some (t, v) =>
    dsimp only
    cases hp : n.pton (if colons src > 1 then AF_INET6 else AF_INET) t with
    | none => exact .inr rfl
    | some ipaddr =>
      refine .inl ⟨t, ipaddr, v, hp, ?_⟩
      cases withPort <;> simp [made, List.foldl_append, step]

/-- "192.0.2.7:50000" and "192.0.2.7"; read into the object of another, whose port or origin stays -/
example : toText plain (made ops4) true = [0x31, 0x39, 0x32, 0x2e, 0x30, 0x2e, 0x32, 0x2e, 0x37, 0x3a, 0x35, 0x30, 0x30, 0x30, 0x30] ∧ IsIP (made ops4) ∧
    fromText plain (made ops6) (toText plain (made ops4) true) true = ({ family := 2, ip := [192, 0, 2, 7], port := 50000, origin := 0 }, true) ∧
    fromText plain (made ops6) (toText plain (made ops4) false) false = ({ family := 2, ip := [192, 0, 2, 7], port := 443, origin := 0 }, true) :=
  ⟨by decide +kernel, .inl (by decide), (C89_round_trip plain plain_ok ops4 ops6 ops4_ok ops6_ok (.inl (by decide))).1.trans (by decide +kernel),
    (C89_round_trip_bare plain plain_ok ops4 ops6 ops4_ok ops6_ok (.inl (by decide))).1.trans (by decide +kernel)⟩

/-- "[2001:0db8:0000:0000:0000:0000:0000:0001]:443" -/
example : (toText plain (made ops6) true).take 7 = [0x5b, 0x32, 0x30, 0x30, 0x31, 0x3a, 0x30] ∧ (toText plain (made ops6) true).length = 45 ∧ IsIP (made ops6) ∧
    fromText plain (made ops4) (toText plain (made ops6) true) true = ({ made ops6 with origin := 1 }, true) :=
  ⟨by decide +kernel, by decide +kernel, .inr (by decide), (C89_round_trip plain plain_ok ops6 ops4 ops6_ok ops4_ok (.inr (by decide))).1.trans (by decide +kernel)⟩

/-- "[10.0.0.1]" is read without port; "[]" is not -/
example : fromText plain (made ops4) ([0x5b] ++ plain.ntop 2 [10, 0, 0, 1] ++ [0x5d]) false = ({ family := 2, ip := [10, 0, 0, 1], port := 50000, origin := 1 }, true) ∧
    fromText plain (made ops4) [0x5b, 0x5d] false = (made ops4, false) :=
  ⟨by decide +kernel, by decide +kernel⟩

example : toText plain (made ops4) true ≠ toText plain (made ops6) true := fun h => by
  have := (C89_injective plain plain_ok ops4 ops6 ops4_ok ops6_ok (.inl (by decide)) (.inr (by decide))).mp h
  revert this
  decide +kernel

/-- "10.0.0.1:80" is accepted with white space and a sign before the number (" +80"); "10.0.0.1" and "10.0.0.1:x" are not -/
example : fromText plain (made ops4) [0x31, 0x30, 0x2e, 0x30, 0x2e, 0x30, 0x2e, 0x31, 0x3a, 0x20, 0x2b, 0x38, 0x30] true = ({ family := 2, ip := [10, 0, 0, 1], port := 80, origin := 1 }, true) ∧
    fromText plain (made ops4) [0x31, 0x30, 0x2e, 0x30, 0x2e, 0x30, 0x2e, 0x31] true = (made ops4, false) ∧
    fromText plain (made ops4) [0x31, 0x30, 0x2e, 0x30, 0x2e, 0x30, 0x2e, 0x31, 0x3a, 0x78] true = (made ops4, false) := by
  refine ⟨?_, ?_, ?_⟩
  · decide +kernel
  · decide +kernel
  · decide +kernel

/-- port 65537 is read as 1, -1 as 65535 -/
example : (fromText plain (made ops4) (plain.ntop 2 [10, 0, 0, 1] ++ (0x3a :: digits 20 65537)) true).1.port = 1 ∧
    (fromText plain (made ops4) (plain.ntop 2 [10, 0, 0, 1] ++ [0x3a, 0x2d, 0x31]) true).1.port = 65535 :=
  ⟨by rw [C89_port_wraps plain plain_ok [10, 0, 0, 1] rfl 65537 (by decide) ops4 ops4_ok], by decide +kernel⟩

/-- "10.0.0.1:80junk" -/
example : fromText plain (made ops4) (plain.ntop 2 [10, 0, 0, 1] ++ (0x3a :: (digits 20 80 ++ [0x6a, 0x75, 0x6e, 0x6b]))) true = ({ family := 2, ip := [10, 0, 0, 1], port := 80, origin := 1 }, true) :=
  (C89_rest_ignored plain plain_ok [10, 0, 0, 1] rfl 80 (by decide) [0x6a, 0x75, 0x6e, 0x6b] (by rintro b r h; injection h with h; subst h; decide) (by decide) ops4 ops4_ok).trans (by decide +kernel)

end Rtmfp
