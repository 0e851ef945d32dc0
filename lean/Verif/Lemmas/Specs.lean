import Verif.Model.Specs
import Verif.Spec.Specs

/-! # Lemmas about texts of the standard types -/

namespace Rgb.Stl

theorem forallChar {p q : Char → Prop} (h : ∀ n, n < 128 → p (Char.ofNat n) → q (Char.ofNat n)) (c : Char) (hc : c.toNat < 128) : p c → q c := by
  have := h c.toNat hc
  rwa [Char.ofNat_toNat] at this

theorem isAlphaSmall_iff (c : Char) : isAlphaSmall c = true ↔ c ∈ smalls := by
  constructor
  · intro h
    have hc : c.toNat < 128 := by simp [isAlphaSmall] at h; omega
    exact forallChar (p := fun c => isAlphaSmall c = true) (q := fun c => c ∈ smalls) (by decide) c hc h
  · exact fun h => (show ∀ c ∈ smalls, isAlphaSmall c = true by decide) c h

theorem isAlpha_iff (c : Char) : isAlpha c = true ↔ c ∈ capitals ++ smalls := by
  constructor
  · intro h
    have hc : c.toNat < 128 := by simp [isAlpha, isAlphaSmall] at h; omega
    exact forallChar (p := fun c => isAlpha c = true) (q := fun c => c ∈ capitals ++ smalls) (by decide) c hc h
  · exact fun h => (show ∀ c ∈ capitals ++ smalls, isAlpha c = true by decide) c h

theorem isAlphaNum_iff (c : Char) : isAlphaNum c = true ↔ c ∈ capitals ++ smalls ++ digits := by
  constructor
  · intro h
    have hc : c.toNat < 128 := by simp [isAlphaNum, isAlpha, isDigit, isAlphaSmall] at h; omega
    exact forallChar (p := fun c => isAlphaNum c = true) (q := fun c => c ∈ capitals ++ smalls ++ digits) (by decide) c hc h
  · exact fun h => (show ∀ c ∈ capitals ++ smalls ++ digits, isAlphaNum c = true by decide) c h

theorem isMimeChar_iff (c : Char) : isMimeChar c = true ↔ c ∈ mimeSigns ++ digits ++ smalls := by
  constructor
  · intro h
    have hc : c.toNat < 128 := by
      simp [isMimeChar, isDigit, isAlphaSmall] at h
      rcases h with (h | h) | h
      · rcases h with rfl | rfl | rfl | rfl | rfl | rfl | rfl | rfl | rfl <;> decide
      · omega
      · omega
    exact forallChar (p := fun c => isMimeChar c = true) (q := fun c => c ∈ mimeSigns ++ digits ++ smalls) (by decide) c hc h
  · exact fun h => (show ∀ c ∈ mimeSigns ++ digits ++ smalls, isMimeChar c = true by decide) c h

theorem rstring_iff {f r : Char → Bool} {F R : List Char} {max : Nat} (hf : ∀ c, f c = true ↔ c ∈ F) (hr : ∀ c, r c = true ↔ c ∈ R) (t u : Text) :
    rstring f r max t = some u ↔ u = t ∧ Ident F R max t := by
  cases t with
  | nil => simp [rstring, Ident]
  | cons c cs =>
    simp only [rstring, Bool.and_eq_true, List.all_eq_true, decide_eq_true_eq, Option.ite_none_right_eq_some, Option.some.injEq, Ident, hf, hr]
    constructor
    · rintro ⟨⟨⟨h1, h2⟩, h3⟩, rfl⟩
      exact ⟨rfl, c, cs, rfl, h1, h2, h3⟩
    · rintro ⟨rfl, c', cs', e, h1, h2, h3⟩
      cases e
      exact ⟨⟨⟨h1, h2⟩, h3⟩, rfl⟩

theorem ticker_iff (t u : Text) : ticker t = some u ↔ u = t ∧ IsTicker t := rstring_iff isAlpha_iff isAlphaNum_iff t u
theorem article_iff (t u : Text) : article t = some u ↔ u = t ∧ IsArticle t := rstring_iff isAlpha_iff isAlphaNum_iff t u
theorem regName_iff (t u : Text) : regName t = some u ↔ u = t ∧ IsRegName t := rstring_iff isAlphaSmall_iff isMimeChar_iff t u

theorem name_iff (t u : Text) : name t = some u ↔ u = t ∧ IsName t := by
  cases t with
  | nil => simp [name, rstring, IsName]
  | cons c cs =>
    simp only [name, rstring, isPrintable, Bool.and_eq_true, List.all_eq_true, decide_eq_true_eq, Option.ite_none_right_eq_some, Option.some.injEq,
      IsName, ne_eq, reduceCtorEq, not_false_eq_true, true_and, List.mem_cons, forall_eq_or_imp]
    constructor
    · rintro ⟨⟨⟨h1, h2⟩, h3⟩, rfl⟩
      exact ⟨rfl, h3, h1, h2⟩
    · rintro ⟨rfl, h3, h1, h2⟩
      exact ⟨⟨⟨h1, h2⟩, h3⟩, rfl⟩

theorem upper_eq_iff (c d : Char) (hc : c ∈ capitals ++ smalls ++ digits) (hd : d ∈ capitals ++ smalls ++ digits) :
    upper c = upper d ↔ SameLetter c d := by
  have h : ∀ c ∈ capitals ++ smalls ++ digits, ∀ d ∈ capitals ++ smalls ++ digits, (upper c = upper d ↔ SameLetter c d) := by
    unfold SameLetter
    decide +kernel
  exact h c hc d hd

theorem IsTicker.chars {t : Text} (h : IsTicker t) : ∀ c ∈ t, c ∈ capitals ++ smalls ++ digits := by
  obtain ⟨c, cs, rfl, h1, h2, -⟩ := h
  intro d hd
  rcases List.mem_cons.mp hd with rfl | hd
  · exact List.mem_append_left _ h1
  · exact h2 d hd

theorem map_upper_iff {a b : Text} (ha : ∀ c ∈ a, c ∈ capitals ++ smalls ++ digits) (hb : ∀ c ∈ b, c ∈ capitals ++ smalls ++ digits) :
    a.map upper = b.map upper ↔ SameIgnoringCase a b := by
  induction a generalizing b with
  | nil =>
    cases b with
    | nil => exact ⟨fun _ => .nil, fun _ => rfl⟩
    | cons d b => exact ⟨fun h => by simp at h, fun h => by cases h⟩
  | cons c a ih =>
    cases b with
    | nil => exact ⟨fun h => by simp at h, fun h => by cases h⟩
    | cons d b =>
      simp only [List.map_cons, List.cons.injEq]
      rw [upper_eq_iff c d (ha c List.mem_cons_self) (hb d List.mem_cons_self),
        ih (fun x hx => ha x (List.mem_cons_of_mem _ hx)) (fun x hx => hb x (List.mem_cons_of_mem _ hx))]
      exact ⟨fun h => .cons h.1 h.2, fun h => by cases h with | cons h h' => exact ⟨h, h'⟩⟩

theorem cmp_eq_iff (a b : Text) : Ticker.cmp a b = .eq ↔ a = b := by
  induction a generalizing b with
  | nil => cases b <;> simp [Ticker.cmp]
  | cons c a ih =>
    cases b with
    | nil => simp [Ticker.cmp]
    | cons d b =>
      simp only [Ticker.cmp]
      split
      · simp only [reduceCtorEq, List.cons.injEq, false_iff]; rintro ⟨rfl, -⟩; omega
      · split
        · simp only [reduceCtorEq, List.cons.injEq, false_iff]; rintro ⟨rfl, -⟩; omega
        · rw [ih, List.cons.injEq]
          have : c = d := Char.toNat_inj.mp (by omega)
          simp [this]

theorem cmp_swap (a b : Text) : Ticker.cmp b a = (Ticker.cmp a b).swap := by
  induction a generalizing b with
  | nil => cases b <;> rfl
  | cons c a ih =>
    cases b with
    | nil => rfl
    | cons d b =>
      simp only [Ticker.cmp]
      by_cases h1 : c.toNat < d.toNat
      · have : ¬ d.toNat < c.toNat := by omega
        simp [h1, this]
      · by_cases h2 : d.toNat < c.toNat
        · simp [h1, h2]
        · simp [h1, h2, ih]

theorem cmp_trans (a b c : Text) : Ticker.cmp a b = .lt → Ticker.cmp b c = .lt → Ticker.cmp a c = .lt := by
  induction a generalizing b c with
  | nil => cases b <;> cases c <;> simp [Ticker.cmp]
  | cons x a ih =>
    cases b with
    | nil => simp [Ticker.cmp]
    | cons y b =>
      cases c with
      | nil => simp [Ticker.cmp]
      | cons z c =>
        simp only [Ticker.cmp]
        by_cases h1 : x.toNat < y.toNat
        · by_cases h2 : y.toNat < z.toNat
          · have : x.toNat < z.toNat := by omega
            simp [h1, h2, this]
          · by_cases h3 : z.toNat < y.toNat
            · simp [h1, h2, h3]
            · have : x.toNat < z.toNat := by omega
              simp [this]
        · by_cases h1' : y.toNat < x.toNat
          · simp [h1, h1']
          · have e : x.toNat = y.toNat := by omega
            rw [e]
            by_cases h2 : y.toNat < z.toNat
            · simp [h2]
            · by_cases h3 : z.toNat < y.toNat
              · simp [h2, h3]
              · simp [h2, h3]; exact ih b c

theorem splitOnce_append {sep : Char} {a : Text} (h : sep ∉ a) (b : Text) : splitOnce sep (a ++ sep :: b) = some (a, b) := by
  induction a with
  | nil => simp [splitOnce]
  | cons c a ih =>
    simp only [List.mem_cons, not_or] at h
    simp [splitOnce, Ne.symm h.1, ih h.2]

theorem splitOnce_some {sep : Char} {s a b : Text} (h : splitOnce sep s = some (a, b)) : s = a ++ sep :: b := by
  induction s generalizing a b with
  | nil => simp [splitOnce] at h
  | cons c s ih =>
    simp only [splitOnce] at h
    split at h
    · rename_i hc; cases h; simp [hc]
    · split at h
      · rename_i a' b' h'
        cases h
        rw [ih h']; rfl
      · exact absurd h (by simp)

theorem IsRegName.no_slash {t : Text} (h : IsRegName t) : '/' ∉ t := by
  obtain ⟨c, cs, rfl, h1, h2, -⟩ := h
  simp only [List.mem_cons, not_or]
  refine ⟨?_, fun hd => absurd (h2 _ hd) (by decide)⟩
  rintro rfl
  exact absurd h1 (by decide)

theorem IsRegName.no_star {t : Text} (h : IsRegName t) : t ≠ ['*'] := by
  rintro rfl
  obtain ⟨c, cs, e, h1, -⟩ := h
  cases e
  exact absurd h1 (by decide)

end Rgb.Stl
