import Verif.Model.Text
/-! Lemmas about decimal printing/parsing and splitting. -/
namespace Rgb

theorem charDigit_digitChar {d : Nat} (h : d < 10) : charDigit (digitChar d) = some d := by
  have : ∀ d : Fin 10, charDigit (digitChar d) = some d.val := by decide
  exact this ⟨d, h⟩

theorem digitChar_ne {d : Nat} (h : d < 10) (c : Char) (hc : charDigit c = none) : digitChar d ≠ c := by
  intro he; subst he; rw [charDigit_digitChar h] at hc; cases hc

theorem parseDigits_append (a : Nat) (xs ys : Text) :
    parseDigits a (xs ++ ys) = (parseDigits a xs).bind (fun v => parseDigits v ys) := by
  induction xs generalizing a with
  | nil => simp [parseDigits]
  | cons c cs ih =>
    simp only [List.cons_append, parseDigits]
    cases charDigit c <;> simp [ih]

theorem parseDigits_acc (a : Nat) (xs : Text) :
    parseDigits a xs = (parseDigits 0 xs).map (fun v => a * 10 ^ xs.length + v) := by
  induction xs generalizing a with
  | nil => simp [parseDigits]
  | cons c cs ih =>
    simp only [parseDigits]
    cases charDigit c with
    | none => simp
    | some d =>
      simp only
      rw [ih (a * 10 + d), ih (0 * 10 + d)]
      cases parseDigits 0 cs with
      | none => simp
      | some v =>
        simp only [Option.map_some, List.length_cons, Nat.pow_succ, Option.some.injEq, Nat.add_mul]
        generalize 10 ^ cs.length = p
        have : a * 10 * p = a * (p * 10) := by rw [Nat.mul_assoc, Nat.mul_comm 10 p]
        omega

theorem showFuel_spec (f n : Nat) (h : n < f) : parseDigits 0 (showFuel f n) = some n := by
  induction f generalizing n with
  | zero => omega
  | succ f ih =>
    simp only [showFuel]
    split
    · rename_i h10
      simp [parseDigits, charDigit_digitChar h10]
    · rw [parseDigits_append, ih (n / 10) (by omega)]
      simp only [Option.bind_some, parseDigits, charDigit_digitChar (Nat.mod_lt n (by omega))]
      simp only [Option.some.injEq]; omega

theorem parseDigits_showNat (n : Nat) : parseDigits 0 (showNat n) = some n :=
  showFuel_spec _ _ (by omega)

theorem showFuel_digits (f n : Nat) : ∀ c ∈ showFuel f n, ∃ d, d < 10 ∧ c = digitChar d := by
  induction f generalizing n with
  | zero => simp [showFuel]
  | succ f ih =>
    simp only [showFuel]
    split
    · rename_i h; intro c hc; simp at hc; exact ⟨n, h, hc⟩
    · intro c hc
      simp only [List.mem_append, List.mem_singleton] at hc
      rcases hc with hc | hc
      · exact ih _ c hc
      · exact ⟨n % 10, Nat.mod_lt _ (by omega), hc⟩

theorem showNat_digits (n : Nat) : ∀ c ∈ showNat n, ∃ d, d < 10 ∧ c = digitChar d := showFuel_digits _ _

theorem showNat_not_mem (n : Nat) (c : Char) (hc : charDigit c = none) : c ∉ showNat n := by
  intro h
  obtain ⟨d, hd, rfl⟩ := showNat_digits n c h
  rw [charDigit_digitChar hd] at hc; cases hc

theorem showNat_ne_nil (n : Nat) : showNat n ≠ [] := by
  unfold showNat showFuel; split <;> simp

theorem parseUint_eq {max : Nat} {s : Text} (hne : s ≠ []) (hp : '+' ∉ s) :
    parseUint max s = (parseDigits 0 s).bind (fun v => if v ≤ max then some v else none) := by
  unfold parseUint
  cases s with
  | nil => exact absurd rfl hne
  | cons c cs =>
    have : c ≠ '+' := by intro hc; subst hc; simp at hp
    have hs : stripPlus (c :: cs) = c :: cs := by
      unfold stripPlus; split
      · rename_i heq; cases heq; exact absurd rfl this
      · rfl
    rw [hs, parseBounded, if_neg (by simp)]
    cases parseDigits 0 (c :: cs) <;> rfl

theorem parseUint_of_digits {max : Nat} {s : Text} {v : Nat} (hne : s ≠ []) (hp : '+' ∉ s)
    (h : parseDigits 0 s = some v) (hv : v ≤ max) : parseUint max s = some v := by
  rw [parseUint_eq hne hp, h]; simp [hv]

theorem parseUint_showNat {max n : Nat} (h : n ≤ max) : parseUint max (showNat n) = some n :=
  parseUint_of_digits (showNat_ne_nil n) (showNat_not_mem n '+' (by decide)) (parseDigits_showNat n) h

theorem parseUint_le {max v : Nat} {s : Text} (h : parseUint max s = some v) : v ≤ max := by
  simp only [parseUint, parseBounded] at h
  repeat' split at h
  all_goals first | (cases h; done) | (cases h; assumption)

theorem showNat_injective {a b : Nat} (h : showNat a = showNat b) : a = b := by
  have := congrArg (parseDigits 0) h
  simpa [parseDigits_showNat] using this

theorem showFuel_length (f n : Nat) (h : n < f) (k : Nat) (hk : 0 < k) : (showFuel f n).length ≤ k ↔ n < 10 ^ k := by
  induction f generalizing n k with
  | zero => omega
  | succ f ih =>
    simp only [showFuel]
    split
    · rename_i h10
      have : 10 ^ 1 ≤ 10 ^ k := Nat.pow_le_pow_right (by omega) hk
      simp; omega
    · rename_i h10
      rw [List.length_append, List.length_singleton]
      match k, hk with
      | 1, _ =>
        have hf : f ≠ 0 := by omega
        have := ih (n / 10) (by omega) 1 (by omega)
        have h1 : 0 < (showFuel f (n / 10)).length := by
          cases f with
          | zero => omega
          | succ f => unfold showFuel; split <;> simp
        omega
      | k + 2, _ =>
        have := ih (n / 10) (by omega) (k + 1) (by omega)
        have h2 : (10:Nat) ^ (k + 2) = 10 ^ (k + 1) * 10 := Nat.pow_succ _ _
        omega

theorem showNat_length_le {n k : Nat} (hk : 0 < k) : (showNat n).length ≤ k ↔ n < 10 ^ k :=
  showFuel_length _ _ (by omega) k hk

theorem parseI64_showInt (i : Int) (h1 : -(2 ^ 63) ≤ i) (h2 : i < 2 ^ 63) : parseI64 (showInt i) = some i := by
  cases i with
  | ofNat n =>
    have hn : n ≤ 2 ^ 63 - 1 := by have : (Int.ofNat n) = (n : Int) := rfl; omega
    have hm := showNat_not_mem n '-' (by decide)
    have hne := showNat_ne_nil n
    simp only [showInt, parseI64]
    split
    · rename_i rest heq; rw [heq] at hm; simp at hm
    · rw [parseUint_showNat hn]; simp
  | negSucc n =>
    have hn : n + 1 ≤ 2 ^ 63 := by omega
    simp only [showInt, parseI64]
    split
    · rename_i heq; exact absurd heq (showNat_ne_nil _)
    · rw [parseDigits_showNat]; simp [hn]; omega

theorem splitOnce_append (sep : Char) (a b : Text) (h : sep ∉ a) :
    splitOnce sep (a ++ sep :: b) = some (a, b) := by
  induction a with
  | nil => simp [splitOnce]
  | cons c cs ih =>
    simp only [List.mem_cons, not_or] at h
    simp only [List.cons_append, splitOnce, ih h.2]
    simp [Ne.symm h.1]

theorem splitOnce_none (sep : Char) (a : Text) : splitOnce sep a = none ↔ sep ∉ a := by
  induction a with
  | nil => simp [splitOnce]
  | cons c cs ih =>
    simp only [splitOnce, List.mem_cons, not_or]
    by_cases hc : c = sep
    · simp [hc]
    · simp only [hc, if_false, Ne.symm hc, not_false_eq_true, true_and]
      rw [← ih]; cases splitOnce sep cs <;> simp

theorem splitOnce_some {sep : Char} {s a b : Text} (h : splitOnce sep s = some (a, b)) :
    s = a ++ sep :: b ∧ sep ∉ a := by
  induction s generalizing a b with
  | nil => simp [splitOnce] at h
  | cons c cs ih =>
    simp only [splitOnce] at h
    by_cases hc : c = sep
    · simp [hc] at h; obtain ⟨rfl, rfl⟩ := h; simp [hc]
    · simp only [hc, if_false] at h
      cases hs : splitOnce sep cs with
      | none => simp [hs] at h
      | some p =>
        obtain ⟨x, y⟩ := p
        simp [hs] at h
        obtain ⟨rfl, rfl⟩ := h
        obtain ⟨h1, h2⟩ := ih hs
        simp [← h1, h2, Ne.symm hc]

theorem splitAll_ne_nil (sep : Char) (s : Text) : splitAll sep s ≠ [] := by
  cases s with
  | nil => simp [splitAll]
  | cons c cs => simp only [splitAll]; repeat' split
                 all_goals simp

theorem splitAll_append (sep : Char) (a b : Text) (h : sep ∉ a) :
    splitAll sep (a ++ sep :: b) = a :: splitAll sep b := by
  induction a with
  | nil => simp [splitAll]
  | cons c cs ih =>
    simp only [List.mem_cons, not_or] at h
    simp only [List.cons_append, splitAll, ih h.2]
    simp [Ne.symm h.1]

theorem splitAll_single (sep : Char) (a : Text) (h : sep ∉ a) : splitAll sep a = [a] := by
  induction a with
  | nil => simp [splitAll]
  | cons c cs ih =>
    simp only [List.mem_cons, not_or] at h
    simp only [splitAll, ih h.2]
    simp [Ne.symm h.1]

theorem splitAll_joinWith (sep : Char) (ps : List Text) (hne : ps ≠ []) (h : ∀ p ∈ ps, sep ∉ p) :
    splitAll sep (joinWith sep ps) = ps := by
  induction ps with
  | nil => exact absurd rfl hne
  | cons p ps ih =>
    cases ps with
    | nil => simpa [joinWith] using splitAll_single sep p (h p (by simp))
    | cons q qs =>
      simp only [joinWith]
      rw [splitAll_append sep p _ (h p (by simp))]
      rw [ih (by simp) (fun x hx => h x (by simp [hx]))]

end Rgb
