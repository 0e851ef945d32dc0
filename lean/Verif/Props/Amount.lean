import Verif.Lemmas.Amount
/-! Properties C01–C04: amounts, precision, coin amounts. -/
namespace Rgb.Props
open Rgb

/-! ### C01 -/

/-- C01: every `u64` amount is parsed back from its text. -/
theorem C01_amount_text_roundtrip (sp : Bool) (v : Nat) (h : v ≤ u64Max) :
    Amount.fromStr sp (Amount.display v) = some v := by
  unfold Amount.fromStr Amount.display
  simp only
  rw [Base32.decode_encode sp _ (fun b hb => leBytes_lt v b (List.mem_of_mem_take hb))]
  have hl : ¬ ((leBytes v).take (trimPos (leBytes v))).length > 8 := by
    simp only [List.length_take, leBytes, List.length_cons, List.length_nil]; omega
  simp only [hl, if_false]
  rw [ofLeBytes_trim, ofLeBytes_leBytes h]

/-- C01: different amounts have different texts. -/
theorem C01_amount_text_injective (v w : Nat) (hv : v ≤ u64Max) (hw : w ≤ u64Max)
    (h : Amount.display v = Amount.display w) : v = w := by
  have := congrArg (Amount.fromStr false) h
  rw [C01_amount_text_roundtrip _ v hv, C01_amount_text_roundtrip _ w hw] at this
  exact Option.some.inj this

/-- C01: texts are non-empty, at most 13 characters, of the digit-free alphabet of the code. -/
theorem C01_amount_text_shape (v : Nat) :
    Amount.display v ≠ [] ∧ (Amount.display v).length ≤ 13 ∧
      ∀ c ∈ Amount.display v, c ∈ "abcdefghkmnABCDEFGHKMNPQRSTVWXYZ".toList := by
  have hl : (Amount.display v).length = (8 * (min (trimPos (leBytes v)) 8) + 4) / 5 := by
    simp [Amount.display, Base32.encode_length, leBytes]
  have := trimPos_pos (leBytes v)
  refine ⟨?_, by omega, Base32.encode_mem_alphabet _⟩
  intro h; rw [h] at hl; simp at hl; omega

/-- C01: the parser (without the padding check) accepts exactly texts over the alphabet of a possible base32 length not above 13 characters;
everything else is rejected, nothing is truncated. -/
theorem C01_amount_parse_domain (s : Text) :
    (Amount.fromStr false s).isSome ↔
      (∀ c ∈ s, c ∈ "abcdefghkmnABCDEFGHKMNPQRSTVWXYZ".toList) ∧ s.length ≤ 13 ∧
        s.length % 8 ≠ 1 ∧ s.length % 8 ≠ 3 ∧ s.length % 8 ≠ 6 := by
  unfold Amount.fromStr Base32.decode
  by_cases hl : s.length % 8 = 1 ∨ s.length % 8 = 3 ∨ s.length % 8 = 6
  · simp only [hl, if_true]; constructor
    · intro h; cases h
    · rintro ⟨_, _, h1, h2, h3⟩; omega
  · simp only [hl, if_false]
    by_cases ha : ∀ c ∈ s, c ∈ Base32.alphabet
    · obtain ⟨vs, hm, hlen, _⟩ := Base32.mapM_decChar_some ha
      simp only [hm, Bool.false_and]
      have hp := Base32.pack8_length (vs.flatMap Base32.bits5)
      rw [Base32.flatMap_bits5_length, hlen] at hp
      have ha' : ∀ c ∈ s, c ∈ "abcdefghkmnABCDEFGHKMNPQRSTVWXYZ".toList := ha
      simp only [Bool.false_eq_true, if_false]
      by_cases h8 : (Base32.pack8 (vs.flatMap Base32.bits5)).1.length > 8
      · simp only [h8, if_true]; constructor
        · intro h; cases h
        · rintro ⟨_, h, _⟩; omega
      · simp only [h8, if_false, Option.isSome_some, true_iff]
        have h14 : s.length ≤ 14 := by omega
        have h15 : s.length ≠ 14 := by intro h; rw [h] at hl; simp at hl
        exact ⟨ha', by omega, by omega, by omega, by omega⟩
    · have ha' : ∃ c ∈ s, c ∉ Base32.alphabet := by simpa using ha
      obtain ⟨c, hc, hn⟩ := ha'
      rw [Base32.mapM_decChar_none hc hn]
      simp only [Option.isSome_none, Bool.false_eq_true, false_iff]
      intro h; exact ha h.1

/-- C01: with or without the padding check a text with a foreign character or longer than 13 characters is rejected, and
an accepted one is always a valid `u64`. -/
theorem C01_amount_parse_rejects (sp : Bool) (s : Text) :
    ((∃ c ∈ s, c ∉ "abcdefghkmnABCDEFGHKMNPQRSTVWXYZ".toList) ∨ s.length > 13 → Amount.fromStr sp s = none) ∧
      (∀ v, Amount.fromStr sp s = some v → v ≤ u64Max) := by
  have key : ∀ v, Amount.fromStr sp s = some v → Amount.fromStr false s = some v := by
    intro v
    unfold Amount.fromStr Base32.decode
    by_cases hl : s.length % 8 = 1 ∨ s.length % 8 = 3 ∨ s.length % 8 = 6
    · simp [hl]
    · simp only [hl, if_false]
      cases s.mapM Base32.decChar with
      | none => simp
      | some vs =>
        simp only [Bool.false_and, Bool.false_eq_true, if_false]
        by_cases h : (sp && (Base32.pack8 (vs.flatMap Base32.bits5)).2.any id) = true <;> simp [h]
  refine ⟨?_, ?_⟩
  · intro h
    cases hf : Amount.fromStr sp s with
    | none => rfl
    | some v =>
      have := (C01_amount_parse_domain s).mp (by rw [key v hf]; rfl)
      rcases h with ⟨c, hc, hn⟩ | h
      · exact absurd (this.1 c hc) hn
      · omega
  · intro v hf
    have hf := key v hf
    unfold Amount.fromStr Base32.decode at hf
    split at hf
    · cases hf
    · rename_i bytes heq
      split at heq
      · cases heq
      · split at heq
        · cases heq
        · rename_i vs hm
          simp only [Bool.false_and, Bool.false_eq_true, if_false, Option.some.injEq] at heq
          subst heq
          split at hf
          · cases hf
          · rename_i h8
            cases hf
            have h1 := ofLeBytes_lt _ (Base32.pack8_lt (vs.flatMap Base32.bits5))
            have h2 : 256 ^ (Base32.pack8 (vs.flatMap Base32.bits5)).1.length ≤ 256 ^ 8 :=
              Nat.pow_le_pow_right (by omega) (by omega)
            simp only [u64Max]
            omega

/-- Non-vacuity: 100 is printed as in the crate documentation and a 64-bit value goes through. -/
example : Amount.display 100 = "BF".toList ∧ Amount.fromStr false "BF".toList = some 100 ∧
    (12345678901234567890 ≤ u64Max) ∧ Amount.fromStr true (Amount.display 12345678901234567890) = some 12345678901234567890 := by
  decide +kernel

/-! ### C02 -/

/-- C02: exact results of saturating and checked operations. -/
theorem C02_amount_ops (a b : Nat) (ha : a ≤ u64Max) (hb : b ≤ u64Max) :
    Amount.saturatingAdd a b = (if a + b ≤ 2 ^ 64 - 1 then a + b else 2 ^ 64 - 1) ∧
    Amount.saturatingSub a b = (if b ≤ a then a - b else 0) ∧
    (∀ r, Amount.checkedAdd a b = some r ↔ (r = a + b ∧ a + b < 2 ^ 64)) ∧
    (∀ r, Amount.checkedSub a b = some r ↔ r + b = a) ∧
    Amount.checkedAddAssign a b = (if a + b < 2 ^ 64 then (a + b, some ()) else (a, none)) ∧
    Amount.checkedSubAssign a b = (if b ≤ a then (a - b, some ()) else (a, none)) := by
  simp only [u64Max] at *
  refine ⟨?_, ?_, ?_, ?_, ?_, ?_⟩
  · simp only [Amount.saturatingAdd, u64Max]; split <;> omega
  · simp only [Amount.saturatingSub]; split <;> omega
  · intro r; simp only [Amount.checkedAdd, u64Max]; split <;> simp <;> omega
  · intro r; simp only [Amount.checkedSub]; split <;> simp <;> omega
  · simp only [Amount.checkedAddAssign, Amount.checkedAdd, u64Max]
    by_cases h : a + b ≤ 2 ^ 64 - 1
    · rw [if_pos h, if_pos (by omega)]
    · rw [if_neg h, if_neg (by omega)]
  · simp only [Amount.checkedSubAssign, Amount.checkedSub]
    by_cases h : b ≤ a <;> simp [h]

theorem foldl_saturating (vs : List Nat) (a : Nat) (ha : a ≤ u64Max) :
    vs.foldl Amount.saturatingAdd a = min (a + vs.sum) u64Max := by
  induction vs generalizing a with
  | nil => simp only [u64Max] at *; simp; omega
  | cons v vs ih =>
    simp only [List.foldl_cons, List.sum_cons]
    rw [ih _ (by simp only [Amount.saturatingAdd, u64Max]; omega)]
    simp only [Amount.saturatingAdd, u64Max]; omega

/-- C02: the sum is the true sum clamped at `u64::MAX`. -/
theorem C02_amount_sum (vs : List Nat) : Amount.sum vs = min vs.sum (2 ^ 64 - 1) := by
  rw [Amount.sum, foldl_saturating _ _ (by simp only [u64Max]; omega)]; simp [u64Max]

/-- C02: the order of summands is irrelevant. -/
theorem C02_amount_sum_perm (vs ws : List Nat) (h : vs.Perm ws) : Amount.sum vs = Amount.sum ws := by
  rw [C02_amount_sum, C02_amount_sum, h.sum_nat]

/-- Non-vacuity: saturation is reached in the middle of a list. -/
example : Amount.sum [u64Max, 5, 7] = u64Max ∧ Amount.sum [3, 5, 7] = 15 ∧ Amount.checkedAdd u64Max 1 = none := by decide

/-! ### C03 -/

/-- C03: split. -/
theorem C03_split (v : Nat) (p : Precision) :
    (Amount.split v p).1 * 10 ^ p.val + (Amount.split v p).2 = v ∧ (Amount.split v p).2 < 10 ^ p.val := by
  have hp : 0 < 10 ^ p.val := Nat.pow_pos (by omega)
  simp only [Amount.split, Amount.floor, Amount.rem, Precision.multiplier_eq]
  refine ⟨?_, Nat.mod_lt _ hp⟩
  split
  · subst_vars; simp
  · rw [Nat.mul_comm]; exact Nat.div_add_mod v _

/-- C03: `floor` is the largest whole number of coins not above, `ceil` the smallest one not below, `rem` is the rest. -/
theorem C03_floor_ceil_rem (v : Nat) (p : Precision) (k : Nat) :
    (k ≤ Amount.floor v p ↔ k * 10 ^ p.val ≤ v) ∧ (Amount.ceil v p ≤ k ↔ v ≤ k * 10 ^ p.val) ∧
      Amount.floor v p * 10 ^ p.val + Amount.rem v p = v := by
  have hp : 0 < 10 ^ p.val := Nat.pow_pos (by omega)
  have hf : Amount.floor v p = v / 10 ^ p.val := by
    simp only [Amount.floor, Precision.multiplier_eq]; split
    · subst_vars; simp
    · rfl
  refine ⟨?_, ?_, ?_⟩
  · rw [hf]; exact Nat.le_div_iff_mul_le hp
  · have hc : Amount.ceil v p = v / 10 ^ p.val + if v % 10 ^ p.val > 0 then 1 else 0 := by
      simp only [Amount.ceil, Amount.rem, Precision.multiplier_eq]; split
      · subst_vars; simp
      · rfl
    rw [hc]
    have hdm := Nat.div_add_mod v (10 ^ p.val)
    have hm := Nat.mod_lt v hp
    generalize 10 ^ p.val = m at *
    generalize v / m = q at *
    generalize v % m = r at *
    have hmul : m * q = q * m := Nat.mul_comm _ _
    constructor
    · intro h
      split at h
      · have : (q + 1) * m ≤ k * m := Nat.mul_le_mul_right m h
        rw [Nat.add_mul] at this; omega
      · have : q * m ≤ k * m := Nat.mul_le_mul_right m (by omega)
        omega
    · intro h
      by_cases hr : r > 0
      · simp only [hr, if_true]
        have hlt : q * m < k * m := by omega
        have := Nat.lt_of_mul_lt_mul_right hlt
        omega
      · simp only [hr, if_false]
        have hle : q * m ≤ k * m := by omega
        have := Nat.le_of_mul_le_mul_right hle hp
        omega
  · have := (C03_split v p).1
    simpa [Amount.split] using this

/-- C03: `round` is the nearest whole number of coins, halves go up. -/
theorem C03_round (v : Nat) (p : Precision) (r : Nat) :
    Amount.round v p = r ↔ 2 * v < (2 * r + 1) * 10 ^ p.val ∧ (2 * r) * 10 ^ p.val ≤ 2 * v + 10 ^ p.val := by
  have hp : 0 < 10 ^ p.val := Nat.pow_pos (by omega)
  have hr : Amount.round v p = v / 10 ^ p.val + 2 * (v % 10 ^ p.val) / 10 ^ p.val := by
    simp only [Amount.round, Amount.rem, Precision.multiplier_eq]; split
    · subst_vars; simp
    · rfl
  rw [hr]
  have hdm := Nat.div_add_mod v (10 ^ p.val)
  have hm := Nat.mod_lt v hp
  generalize 10 ^ p.val = m at *
  generalize v / m = q at *
  generalize v % m = s at *
  have hinc : 2 * s / m = if m ≤ 2 * s then 1 else 0 := by
    split
    · rename_i h
      exact Nat.div_eq_of_lt_le (by omega) (by omega)
    · exact Nat.div_eq_of_lt (by omega)
  rw [hinc]
  have e1 : (2 * r + 1) * m = 2 * (r * m) + m := by rw [Nat.add_mul, Nat.mul_assoc]; omega
  have e2 : 2 * r * m = 2 * (r * m) := by rw [Nat.mul_assoc]
  have e3 : m * q = q * m := Nat.mul_comm _ _
  rw [e1, e2]
  constructor
  · intro h
    subst h
    split <;> simp only [Nat.add_mul] <;> omega
  · rintro ⟨h1, h2⟩
    rcases Nat.lt_trichotomy r q with h | h | h
    · have : (r + 1) * m ≤ q * m := Nat.mul_le_mul_right m h
      rw [Nat.add_mul] at this; omega
    · subst h; split <;> omega
    · have hq : (q + 1) * m ≤ r * m := Nat.mul_le_mul_right m h
      rw [Nat.add_mul] at hq
      have : r = q + 1 := by
        rcases Nat.lt_or_ge (q + 1) r with h' | h'
        · have := Nat.mul_le_mul_right m h'
          simp only [Nat.succ_eq_add_one, Nat.add_mul] at this; omega
        · omega
      subst this
      split
      · rfl
      · omega

/-- C03: no intermediate value of `round`/`ceil` leaves `u64`, so the code doesn't panic or wrap. -/
theorem C03_round_no_overflow (v : Nat) (h : v ≤ u64Max) (p : Precision) :
    2 * Amount.rem v p ≤ u64Max ∧ Amount.round v p ≤ u64Max ∧ Amount.ceil v p ≤ u64Max := by
  have hm : Amount.rem v p < 10 ^ p.val := (C03_split v p).2
  have hle : 10 ^ p.val ≤ 10 ^ 18 := Nat.pow_le_pow_right (by omega) (by omega)
  refine ⟨by simp only [u64Max]; omega, ?_, ?_⟩
  · by_cases h0 : p.val = 0
    · have : Amount.round v p = v := by
        rw [C03_round]; rw [h0]; omega
      omega
    · have h1 := ((C03_round v p _).mp rfl).2
      have h10 : 10 ^ 1 ≤ 10 ^ p.val := Nat.pow_le_pow_right (by omega) (by omega)
      generalize 10 ^ p.val = m at *
      generalize Amount.round v p = r at *
      rcases Nat.lt_or_ge u64Max r with hlt | hge
      · have : 2 * r * 10 ≤ 2 * r * m := Nat.mul_le_mul_left _ h10
        have : (2 * r - 1) * m + m = 2 * r * m := by
          rw [← Nat.add_one_mul]; congr 1; omega
        have h2 : (2 * r - 1) * 10 ≤ (2 * r - 1) * m := Nat.mul_le_mul_left _ h10
        simp only [u64Max] at *; omega
      · exact hge
  · rw [(C03_floor_ceil_rem v p u64Max).2.1]
    calc v ≤ u64Max := h
      _ = u64Max * 1 := by omega
      _ ≤ u64Max * 10 ^ p.val := Nat.mul_le_mul_left _ (Nat.pow_pos (by omega))

/-- C03: precision conversions. -/
theorem C03_convert (p : Precision) (a : Nat) :
    (∀ r, p.checkedConvert a = some r ↔ r = a * 10 ^ p.val ∧ a * 10 ^ p.val < 2 ^ 64) ∧
    p.saturatingConvert a = min (a * 10 ^ p.val) (2 ^ 64 - 1) ∧
    (∀ r, p.uncheckedConvert a = some r ↔ r = a * 10 ^ p.val ∧ a * 10 ^ p.val < 2 ^ 64) := by
  simp only [Precision.checkedConvert, Precision.saturatingConvert, Precision.uncheckedConvert, Precision.multiplier_eq,
    u64Max]
  generalize a * 10 ^ p.val = x
  refine ⟨?_, trivial, ?_⟩ <;> intro r <;> split <;> simp <;> omega

/-- C03: `CoinAmount::new` followed by conversion back to an amount is the identity, and never panics. -/
theorem C03_coin_amount_value (v : Nat) (h : v ≤ u64Max) (p : Precision) :
    (CoinAmount.new v p).toAmountUnchecked = some v ∧ (CoinAmount.new v p).precision = p ∧
      (CoinAmount.new v p).fract < 10 ^ p.val := by
  have hs := C03_split v p
  refine ⟨?_, rfl, hs.2⟩
  unfold CoinAmount.toAmountUnchecked
  have h1 : (CoinAmount.new v p).int * 10 ^ (CoinAmount.new v p).precision.val + (CoinAmount.new v p).fract = v := hs.1
  simp only
  rw [if_pos (by omega), if_pos (by omega), h1]

/-- C03: `CoinAmount::with` succeeds exactly if the fraction fits the precision. -/
theorem C03_coin_amount_with (int fract : Nat) (p : Precision) (c : CoinAmount) :
    CoinAmount.with_ int fract p = some c ↔ fract < 10 ^ p.val ∧ c = ⟨int, fract, p⟩ := by
  simp only [CoinAmount.with_]
  split
  · simp; omega
  · simp only [Option.some.injEq]
    constructor
    · intro h; exact ⟨by omega, h.symm⟩
    · intro h; exact h.2.symm

example : Amount.split 1000043608195 8 = (10000, 43608195) ∧ Amount.round 150 2 = 2 ∧ Amount.ceil 101 2 = 2 ∧
    Amount.floor 199 2 = 1 ∧ Precision.checkedConvert 18 19 = none ∧ Precision.checkedConvert 8 10 = some 1000000000 := by
  decide

/-! ### C04 -/

theorem fromStr_parts {int fract prec : Text} (hi : ∀ c ∈ int, ∃ d, d < 10 ∧ c = digitChar d)
    (hf : ∀ c ∈ fract, ∃ d, d < 10 ∧ c = digitChar d) (hp : ∀ c ∈ prec, ∃ d, d < 10 ∧ c = digitChar d)
    (hpn : prec ≠ []) (s : Text)
    (hs : s.filter (fun c => c != ' ' && c != '_') = int ++ '.' :: fract ++ '~' :: prec) :
    CoinAmount.fromStr s =
      (parseUint u64Max prec).bind fun p => (parseUint u64Max int).bind fun i =>
        (parseUint u64Max fract).bind fun f => if p ≤ 255 then (Precision.tryFrom p).map (fun p => ⟨i, f, p⟩) else none := by
  have hne : '.' ∉ int := fun h => (CoinAmount.digit_facts (hi _ h)).2.2.1 rfl
  have hne2 : '~' ∉ fract := fun h => (CoinAmount.digit_facts (hf _ h)).2.2.2.1 rfl
  unfold CoinAmount.fromStr
  simp only [hs, List.append_assoc, List.cons_append]
  rw [splitOnce_append _ _ _ hne]
  simp only
  rw [splitOnce_append _ _ _ hne2]
  simp only [List.isEmpty_iff, hpn, if_false]
  cases parseUint u64Max prec with
  | none => rfl
  | some p =>
    cases parseUint u64Max int with
    | none => rfl
    | some i =>
      cases parseUint u64Max fract with
      | none => rfl
      | some f =>
        simp only [Option.bind_some]
        split
        · cases Precision.tryFrom p <;> rfl
        · rfl

theorem fromStr_parts_noprec {int fract : Text} (hi : ∀ c ∈ int, ∃ d, d < 10 ∧ c = digitChar d)
    (hf : ∀ c ∈ fract, ∃ d, d < 10 ∧ c = digitChar d) (s : Text)
    (hs : s.filter (fun c => c != ' ' && c != '_') = int ++ '.' :: fract) :
    CoinAmount.fromStr s =
      (parseUint u64Max int).bind fun i => (parseUint u64Max fract).bind fun f =>
        if fract.length ≤ 255 then (Precision.tryFrom fract.length).map (fun p => ⟨i, f, p⟩) else none := by
  have hne : '.' ∉ int := fun h => (CoinAmount.digit_facts (hi _ h)).2.2.1 rfl
  have hne2 : '~' ∉ fract := fun h => (CoinAmount.digit_facts (hf _ h)).2.2.2.1 rfl
  unfold CoinAmount.fromStr
  simp only [hs]
  rw [splitOnce_append _ _ _ hne]
  simp only
  rw [(splitOnce_none '~' fract).mpr hne2]
  simp only [List.isEmpty_nil, if_true]
  cases parseUint u64Max int with
  | none => rfl
  | some i =>
    cases parseUint u64Max fract with
    | none => rfl
    | some f =>
      simp only [Option.bind_some]
      split
      · cases Precision.tryFrom fract.length <;> rfl
      · rfl

/-- C04 (holding part, alternate `{:#}` form with fill ' ' or '_'): every coin amount with a non-zero precision is
parsed back. What is missing: zero precision, for which the alternate form panics (see `C04_alternate_indivisible_fails`). -/
theorem C04_coin_alternate_roundtrip_partial (c : CoinAmount) (fill : Char) (hfill : fill = ' ' ∨ fill = '_')
    (hi : c.int ≤ u64Max) (hp : 0 < c.precision.val) (hf : c.fract < 10 ^ c.precision.val) :
    ∃ s, CoinAmount.display { fill, alternate := true } c = some s ∧ CoinAmount.fromStr s = some c := by
  obtain ⟨float, hpad, hlen, hval, hdig, _⟩ := CoinAmount.padFract_spec hp hf
  have hfill' : ¬ (fill ≠ ' ' ∧ fill ≠ '_') := by rcases hfill with rfl | rfl <;> simp
  refine ⟨CoinAmount.toChunks fill (showNat c.int) ++ '.' :: CoinAmount.toChunks fill float, ?_, ?_⟩
  · simp [CoinAmount.display, hfill', hpad]
  · have hd1 : ∀ x ∈ showNat c.int, x ≠ ' ' ∧ x ≠ '_' := fun x hx =>
      let h := CoinAmount.digit_facts (showNat_digits _ x hx); ⟨h.1, h.2.1⟩
    have hd2 : ∀ x ∈ float, x ≠ ' ' ∧ x ≠ '_' := fun x hx =>
      let h := CoinAmount.digit_facts (hdig x hx); ⟨h.1, h.2.1⟩
    rw [fromStr_parts_noprec (int := showNat c.int) (fract := float) (showNat_digits _) hdig]
    · rw [parseUint_showNat hi]
      have hple : c.precision.val < 19 := c.precision.isLt
      have hfm : c.fract ≤ u64Max := by
        have : 10 ^ c.precision.val ≤ 10 ^ 18 := Nat.pow_le_pow_right (by omega) (by omega)
        simp only [u64Max]; omega
      rw [parseUint_of_digits (v := c.fract) (by intro h; rw [h] at hlen; simp at hlen; omega)
        (fun h => (CoinAmount.digit_facts (hdig _ h)).2.2.2.2 rfl) hval hfm]
      simp only [Option.bind_some, hlen]
      rw [if_pos (by omega)]
      simp [Precision.tryFrom, hple]
    · rw [List.filter_append, List.filter_cons, CoinAmount.filter_toChunks hfill _ hd1, CoinAmount.filter_toChunks hfill _ hd2]
      simp

theorem trimEndZeros_of_last {s : Text} {c : Char} (h : c ≠ '0') :
    CoinAmount.trimEndZeros (s ++ [c]) = s ++ [c] := by
  simp [CoinAmount.trimEndZeros, h]

theorem trimEndZeros_zero (s : Text) : CoinAmount.trimEndZeros (s ++ ['0']) = CoinAmount.trimEndZeros s := by
  simp [CoinAmount.trimEndZeros]

/-- The trimmed text denotes a number that isn't larger. -/
theorem trimEndZeros_le (s : Text) (v : Nat) (hs : parseDigits 0 s = some v) :
    ∃ w, parseDigits 0 (CoinAmount.trimEndZeros s) = some w ∧ w ≤ v ∧
      (∀ c ∈ CoinAmount.trimEndZeros s, c ∈ s) := by
  obtain ⟨n, hn⟩ : ∃ n, s.length = n := ⟨_, rfl⟩
  induction n generalizing s v with
  | zero =>
    have : s = [] := List.length_eq_zero_iff.mp hn
    subst this; exact ⟨v, by simpa [CoinAmount.trimEndZeros] using hs, Nat.le_refl _, by simp [CoinAmount.trimEndZeros]⟩
  | succ n ih =>
    obtain ⟨t, c, rfl⟩ : ∃ t c, s = t ++ [c] := by
      have hne : s ≠ [] := by intro h; simp [h] at hn
      exact ⟨s.dropLast, s.getLast hne, (List.dropLast_concat_getLast hne).symm⟩
    by_cases hc : c = '0'
    · subst hc
      rw [parseDigits_append] at hs
      cases ht : parseDigits 0 t with
      | none => simp [ht] at hs
      | some u =>
        have h0 : charDigit '0' = some 0 := by decide
        simp [ht, parseDigits, h0] at hs
        obtain ⟨w, h1, h2, h3⟩ := ih t u ht (by simpa using hn)
        refine ⟨w, by rw [trimEndZeros_zero]; exact h1, by omega, ?_⟩
        rw [trimEndZeros_zero]; intro x hx; simp [h3 x hx]
    · rw [trimEndZeros_of_last hc]; exact ⟨v, hs, Nat.le_refl _, fun _ h => h⟩

theorem showNat_last (n : Nat) : ∃ t, showNat n = t ++ [digitChar (n % 10)] ∧ parseDigits 0 t = some (n / 10) := by
  unfold showNat showFuel
  split
  · rename_i h
    refine ⟨[], ?_, ?_⟩
    · rw [Nat.mod_eq_of_lt h]; rfl
    · simp [parseDigits]; omega
  · rename_i h
    exact ⟨_, rfl, showFuel_spec _ _ (by omega)⟩

/-- C04 (holding part, plain `{}` form, exact): the text of a well-formed coin amount is parsed back to the same coin amount
if and only if the last digit of the fraction isn't zero.  What is missing from the property: the other amounts, for which it is false
(`C04_coin_display_roundtrip_fails`). -/
theorem C04_coin_display_roundtrip_partial (c : CoinAmount) (hi : c.int ≤ u64Max)
    (hf : c.fract < 10 ^ c.precision.val) :
    ∃ s, CoinAmount.display {} c = some s ∧ (CoinAmount.fromStr s = some c ↔ c.fract % 10 ≠ 0) := by
  have hple : c.precision.val < 19 := c.precision.isLt
  by_cases h0 : c.fract = 0
  · refine ⟨showNat c.int ++ '~' :: showNat c.precision.val, by simp [CoinAmount.display, h0], ?_⟩
    rw [h0]
    constructor
    · intro h
      exfalso
      have hfil : (showNat c.int ++ '~' :: showNat c.precision.val).filter (fun c => c != ' ' && c != '_') =
          showNat c.int ++ '~' :: showNat c.precision.val := by
        apply CoinAmount.filter_digits
        intro x hx
        rcases List.mem_append.mp hx with hx | hx
        · have := CoinAmount.digit_facts (showNat_digits _ x hx); exact ⟨this.1, this.2.1⟩
        · rcases List.mem_cons.mp hx with rfl | hx
          · decide
          · have := CoinAmount.digit_facts (showNat_digits _ x hx); exact ⟨this.1, this.2.1⟩
      unfold CoinAmount.fromStr at h
      simp only [hfil] at h
      have hnd : splitOnce '.' (showNat c.int ++ '~' :: showNat c.precision.val) = none := by
        rw [splitOnce_none]
        intro hx
        rcases List.mem_append.mp hx with hx | hx
        · exact (CoinAmount.digit_facts (showNat_digits _ _ hx)).2.2.1 rfl
        · rcases List.mem_cons.mp hx with hx | hx
          · cases hx
          · exact (CoinAmount.digit_facts (showNat_digits _ _ hx)).2.2.1 rfl
      rw [hnd] at h
      have hpn : parseUint u64Max (showNat c.int ++ '~' :: showNat c.precision.val) = none := by
        have hd : parseDigits 0 (showNat c.int ++ '~' :: showNat c.precision.val) = none := by
          rw [parseDigits_append, parseDigits_showNat]
          have : charDigit '~' = none := by decide
          simp [parseDigits, this]
        rw [parseUint_eq (by simp) _, hd]; rfl
        intro hx
        rcases List.mem_append.mp hx with hx | hx
        · exact (CoinAmount.digit_facts (showNat_digits _ _ hx)).2.2.2.2 rfl
        · rcases List.mem_cons.mp hx with hx | hx
          · cases hx
          · exact (CoinAmount.digit_facts (showNat_digits _ _ hx)).2.2.2.2 rfl
      simp [splitOnce, hpn] at h
    · intro h; simp at h
  · have hpos : 0 < c.fract := by omega
    have hp : 0 < c.precision.val := by
      rcases Nat.eq_zero_or_pos c.precision.val with h | h
      · rw [h] at hf; simp at hf; omega
      · exact h
    obtain ⟨float, hpad, hlen, hval, hdig, hshape⟩ := CoinAmount.padFract_spec hp hf
    obtain ⟨t, ht, htv⟩ := showNat_last c.fract
    have hfloat : float = (List.replicate (c.precision.val - (showNat c.fract).length) '0' ++ t) ++ [digitChar (c.fract % 10)] := by
      rw [hshape]; conv => lhs; rw [ht]
      simp [ht]
    obtain ⟨w, hw, hwle, hwmem⟩ := trimEndZeros_le float c.fract hval
    refine ⟨showNat c.int ++ '.' :: CoinAmount.trimEndZeros float ++ '~' :: showNat c.precision.val, by simp [CoinAmount.display, hpos, hpad], ?_⟩
    have hdig' : ∀ x ∈ CoinAmount.trimEndZeros float, ∃ d, d < 10 ∧ x = digitChar d := fun x hx => hdig x (hwmem x hx)
    rw [fromStr_parts (int := showNat c.int) (fract := CoinAmount.trimEndZeros float) (prec := showNat c.precision.val)
      (showNat_digits _) hdig' (showNat_digits _) (showNat_ne_nil _)]
    · rw [parseUint_showNat hi, parseUint_showNat (show c.precision.val ≤ u64Max by simp only [u64Max]; omega)]
      have hfm : c.fract ≤ u64Max := by
        have : 10 ^ c.precision.val ≤ 10 ^ 18 := Nat.pow_le_pow_right (by omega) (by omega)
        simp only [u64Max]; omega
      have h255 : c.precision.val ≤ 255 := by omega
      simp only [Option.bind_some, h255, if_true]
      have htf : Precision.tryFrom c.precision.val = some c.precision := by simp [Precision.tryFrom, hple]
      rw [htf]
      by_cases hl : c.fract % 10 = 0
      · -- the trimmed value is at most a tenth
        simp only [hl, ne_eq, not_true_eq_false, iff_false]
        intro h
        have h0c : digitChar 0 = '0' := by decide
        rw [hl, h0c] at hfloat
        have hw2 := hw
        rw [hfloat, trimEndZeros_zero] at hw2
        have hrep : parseDigits 0 (List.replicate (c.precision.val - (showNat c.fract).length) '0' ++ t) = some (c.fract / 10) := by
          have := hval
          rw [hfloat, parseDigits_append] at this
          cases hq : parseDigits 0 (List.replicate (c.precision.val - (showNat c.fract).length) '0' ++ t) with
          | none => simp [hq] at this
          | some u =>
            have h0 : charDigit '0' = some 0 := by decide
            simp [hq, parseDigits, h0] at this
            congr 1; omega
        obtain ⟨w', hw', hle', _⟩ := trimEndZeros_le _ _ hrep
        rw [hw2] at hw'
        cases hw'
        -- parseUint of the trimmed text can only be w
        have : parseUint u64Max (CoinAmount.trimEndZeros float) = none ∨ parseUint u64Max (CoinAmount.trimEndZeros float) = some w := by
          by_cases htr : CoinAmount.trimEndZeros float = []
          · left; rw [htr]; rfl
          · rw [parseUint_eq htr (fun h => (CoinAmount.digit_facts (hdig' _ h)).2.2.2.2 rfl), hw]
            simp only [Option.bind_some]; split <;> simp
        rcases this with h' | h'
        · rw [h'] at h; simp at h
        · rw [h'] at h
          simp only [Option.bind_some, Option.map_some, Option.some.injEq] at h
          have := congrArg CoinAmount.fract h
          simp at this
          omega
      · simp only [hl, ne_eq, not_false_eq_true, iff_true]
        have hne0 : digitChar (c.fract % 10) ≠ '0' := by
          have : ∀ d : Fin 10, d.val ≠ 0 → digitChar d.val ≠ '0' := by decide
          exact this ⟨c.fract % 10, Nat.mod_lt _ (by omega)⟩ hl
        have htrim : CoinAmount.trimEndZeros float = float := by
          rw [hfloat]; exact trimEndZeros_of_last hne0
        rw [htrim, parseUint_of_digits (v := c.fract) (by intro h; rw [h] at hlen; simp at hlen; omega)
          (fun h => (CoinAmount.digit_facts (hdig _ h)).2.2.2.2 rfl) hval hfm]
        simp
    · apply CoinAmount.filter_digits
      intro x hx
      simp only [List.mem_append, List.mem_cons] at hx
      rcases hx with (hx | rfl | hx) | rfl | hx
      · have := CoinAmount.digit_facts (showNat_digits _ x hx); exact ⟨this.1, this.2.1⟩
      · decide
      · have := CoinAmount.digit_facts (hdig' x hx); exact ⟨this.1, this.2.1⟩
      · decide
      · have := CoinAmount.digit_facts (showNat_digits _ x hx); exact ⟨this.1, this.2.1⟩

/-- C04 is false of the code: 10.00000500 coins are printed as "10.000005~8", which is parsed as 10.00000005 coins (a hundred times smaller
fraction); 10 coins are printed as "10~8", which isn't parsed at all. -/
theorem C04_coin_display_roundtrip_fails :
    (CoinAmount.display {} (CoinAmount.new 1000000500 8) = some "10.000005~8".toList ∧
      CoinAmount.fromStr "10.000005~8".toList = some (CoinAmount.new 1000000005 8)) ∧
    (CoinAmount.display {} (CoinAmount.new 1000000000 8) = some "10~8".toList ∧
      CoinAmount.fromStr "10~8".toList = none) := by
  decide +kernel

/-- C04: the alternate form panics for indivisible amounts, and parsing accepts fractions exceeding the precision, for which
display panics. -/
theorem C04_alternate_indivisible_fails :
    CoinAmount.display { alternate := true } (CoinAmount.new 7 0) = none ∧
    CoinAmount.fromStr "1.55~1".toList = some ⟨1, 55, 1⟩ ∧ CoinAmount.display {} ⟨1, 55, 1⟩ = none := by
  decide +kernel

example : CoinAmount.display { fill := '_', alternate := true } (CoinAmount.new 1000000500 8) = some "10.00_000_500".toList ∧
    CoinAmount.fromStr "10.00_000_500".toList = some (CoinAmount.new 1000000500 8) ∧
    CoinAmount.display {} (CoinAmount.new 1000043608195 8) = some "10000.43608195~8".toList := by
  decide +kernel

end Rgb.Props
