import Verif.Spec.Contractum
import Verif.Lemmas.Text

/-! Lemmas about the text of an interface: texts and lists of lines are taken apart from the front. -/

namespace Rgb.Contractum

/-! ## Lists -/

theorem pointwise_nil {α β : Type} {R : α → β → Prop} : Pointwise R [] [] := ⟨rfl, fun n a b h => by simp at h⟩

theorem pointwise_cons {α β : Type} {R : α → β → Prop} {a : α} {b : β} {l : List α} {m : List β} (hr : R a b) (h : Pointwise R l m) : Pointwise R (a :: l) (b :: m) := by
  refine ⟨by simp [h.1], fun n => ?_⟩
  cases n with
  | zero => intro x y hx hy; simp at hx hy; subst hx; subst hy; exact hr
  | succ n => intro x y hx hy; simp at hx hy; exact h.2 n x y hx hy

theorem pointwise_eq {α : Type} : ∀ {l m : List α}, Pointwise (fun a b => a = b) l m → l = m
  | [], [], _ => rfl
  | [], _ :: _, h => by simp [Pointwise] at h
  | _ :: _, [], h => by simp [Pointwise] at h
  | a :: l, b :: m, h => by
    have h0 := h.2 0 a b rfl rfl
    have ht : Pointwise (fun a b => a = b) l m := ⟨by simpa using h.1, fun n x y hx hy => h.2 (n + 1) x y (by simpa using hx) (by simpa using hy)⟩
    rw [h0, pointwise_eq ht]

theorem pointwise_mono {α β : Type} {R S : α → β → Prop} {l : List α} {m : List β} (h : Pointwise R l m) (hi : ∀ a b, R a b → S a b) : Pointwise S l m :=
  ⟨h.1, fun n a b ha hb => hi a b (h.2 n a b ha hb)⟩

theorem span_unique {α : Type} {p : α → Prop} : ∀ {a b x y : List α}, a ++ x = b ++ y → (∀ c ∈ a, p c) → (∀ c ∈ b, p c) →
    (∀ c, x.head? = some c → ¬ p c) → (∀ c, y.head? = some c → ¬ p c) → a = b ∧ x = y
  | [], [], _, _, h, _, _, _, _ => ⟨rfl, by simpa using h⟩
  | [], c :: b, x, y, h, _, hb, hx, _ => by
    simp at h; subst h
    exact absurd (hb c (by simp)) (hx c rfl)
  | c :: a, [], x, y, h, ha, _, _, hy => by
    simp at h; subst h
    exact absurd (ha c (by simp)) (hy c rfl)
  | c :: a, d :: b, x, y, h, ha, hb, hx, hy => by
    simp only [List.cons_append, List.cons.injEq] at h
    obtain ⟨h1, h2⟩ := span_unique h.2 (fun e he => ha e (by simp [he])) (fun e he => hb e (by simp [he])) hx hy
    exact ⟨by rw [h.1, h1], h2⟩

theorem line_unique {a b x y : Text} (h : a ++ '\n' :: x = b ++ '\n' :: y) (ha : '\n' ∉ a) (hb : '\n' ∉ b) : a = b ∧ x = y := by
  obtain ⟨h1, h2⟩ := span_unique (p := fun c => c ≠ '\n') h (fun c hc he => ha (he ▸ hc)) (fun c hc he => hb (he ▸ hc)) (by simp) (by simp)
  exact ⟨h1, by simpa using h2⟩

theorem unlines_inj : ∀ {l m : List Text}, unlines l = unlines m → (∀ a ∈ l, '\n' ∉ a) → (∀ a ∈ m, '\n' ∉ a) → l = m
  | [], [], _, _, _ => rfl
  | [], b :: m, h, _, _ => by simp [unlines] at h
  | a :: l, [], h, _, _ => by simp [unlines] at h
  | a :: l, b :: m, h, ha, hb => by
    obtain ⟨h1, h2⟩ := line_unique h (ha a (by simp)) (hb b (by simp))
    rw [h1, unlines_inj h2 (fun e he => ha e (by simp [he])) (fun e he => hb e (by simp [he]))]

/-! ## Lists with commas -/

/-- The end of the text, a comma or the end of the line. -/
def Stops (x : Text) : Prop := ∀ c, x.head? = some c → c = ',' ∨ c = '\n'

theorem stops_nil : Stops [] := by simp [Stops]

theorem stops_comma (x : Text) : Stops (", ".toList ++ x) := by simp [Stops]

theorem stops_line (x : Text) : Stops ('\n' :: x) := by simp [Stops]

theorem key_unique {a b x y : Text} (h : a ++ x = b ++ y) (ha : ',' ∉ a ∧ '\n' ∉ a) (hb : ',' ∉ b ∧ '\n' ∉ b) (hx : Stops x) (hy : Stops y) : a = b ∧ x = y := by
  refine span_unique (p := fun c => c ≠ ',' ∧ c ≠ '\n') h ?_ ?_ ?_ ?_
  · exact fun c hc => ⟨fun he => ha.1 (he ▸ hc), fun he => ha.2 (he ▸ hc)⟩
  · exact fun c hc => ⟨fun he => hb.1 (he ▸ hc), fun he => hb.2 (he ▸ hc)⟩
  · intro c hc hp
    rcases hx c hc with h | h
    · exact hp.1 h
    · exact hp.2 h
  · intro c hc hp
    rcases hy c hc with h | h
    · exact hp.1 h
    · exact hp.2 h

theorem commaSep_cons (p : Text) (ps : List Text) : commaSep (p :: ps) = p ++ (match ps with | [] => [] | q :: qs => ", ".toList ++ commaSep (q :: qs)) := by
  cases ps <;> simp [commaSep]

theorem commaSep_unique {α β : Type} {f : α → Text} {g : β → Text} {R : α → β → Prop} {u v : Text} (hu : ∀ w, u ≠ ", ".toList ++ w) (hv : ∀ w, v ≠ ", ".toList ++ w)
    (hsu : Stops u) (hsv : Stops v) :
    ∀ {l : List α} {m : List β}, (∀ a ∈ l, ∀ b ∈ m, ∀ x y, Stops x → Stops y → f a ++ x = g b ++ y → R a b ∧ x = y) → l ≠ [] → m ≠ [] →
      commaSep (l.map f) ++ u = commaSep (m.map g) ++ v → Pointwise R l m ∧ u = v
  | [], _, _, h, _, _ => absurd rfl h
  | _ :: _, [], _, _, h, _ => absurd rfl h
  | [a], [b], hr, _, _, h => by
    obtain ⟨h1, h2⟩ := hr a (by simp) b (by simp) u v hsu hsv (by simpa [commaSep] using h)
    exact ⟨pointwise_cons h1 pointwise_nil, h2⟩
  | [a], b :: b' :: m, hr, _, _, h => by
    obtain ⟨h1, h2⟩ := hr a (by simp) b (by simp) u (", ".toList ++ (commaSep ((b' :: m).map g) ++ v)) hsu (stops_comma _) (by
      simpa [commaSep, List.append_assoc] using h)
    exact absurd h2 (hu _)
  | a :: a' :: l, [b], hr, _, _, h => by
    obtain ⟨h1, h2⟩ := hr a (by simp) b (by simp) (", ".toList ++ (commaSep ((a' :: l).map f) ++ u)) v (stops_comma _) hsv (by
      simpa [commaSep, List.append_assoc] using h)
    exact absurd h2.symm (hv _)
  | a :: a' :: l, b :: b' :: m, hr, _, _, h => by
    obtain ⟨h1, h2⟩ := hr a (by simp) b (by simp) (", ".toList ++ (commaSep ((a' :: l).map f) ++ u)) (", ".toList ++ (commaSep ((b' :: m).map g) ++ v)) (stops_comma _) (stops_comma _) (by
      simpa [commaSep, List.append_assoc] using h)
    obtain ⟨h3, h4⟩ := commaSep_unique (l := a' :: l) (m := b' :: m) hu hv hsu hsv
      (fun c hc d hd => hr c (List.mem_cons_of_mem _ hc) d (List.mem_cons_of_mem _ hd)) (by simp) (by simp) (List.append_cancel_left h2)
    exact ⟨pointwise_cons h1 h3, h4⟩

/-- A whole text which is a list. -/
theorem commaSep_whole {α β : Type} {f : α → Text} {g : β → Text} {R : α → β → Prop} {l : List α} {m : List β} (hf : ∀ a, f a ≠ []) (hg : ∀ a, g a ≠ [])
    (hr : ∀ a ∈ l, ∀ b ∈ m, ∀ x y, Stops x → Stops y → f a ++ x = g b ++ y → R a b ∧ x = y)
    (h : commaSep (l.map f) = commaSep (m.map g)) : Pointwise R l m := by
  cases l with
  | nil =>
    cases m with
    | nil => exact pointwise_nil
    | cons b m => rw [List.map_cons, commaSep_cons] at h; simp [commaSep, hg] at h
  | cons a l =>
    cases m with
    | nil => rw [List.map_cons, commaSep_cons] at h; simp [commaSep, hf] at h
    | cons b m => exact (commaSep_unique (u := []) (v := []) (by simp) (by simp) stops_nil stops_nil hr (by simp) (by simp) (by rw [h])).1

/-! ## Members -/

variable {N : Env}

theorem idChar_ne {c d : Char} (h : IdChar c) (hd : d.isAlphanum = false) (hu : d ≠ '_') : c ≠ d := by
  rintro rfl
  rcases h with h | h
  · rw [hd] at h; cases h
  · exact hu h

theorem Env.Lawful.name_not (hN : N.Lawful) (a : Nat) (d : Char) (hd : d.isAlphanum = false) (hu : d ≠ '_') : d ∉ N.name a :=
  fun h => idChar_ne (hN.name_char a d h) hd hu rfl

/-- A name is followed by something which can't belong to it. -/
theorem name_unique (hN : N.Lawful) {a b : Nat} {x y : Text} (h : N.name a ++ x = N.name b ++ y) (hx : ∀ c, x.head? = some c → ¬ IdChar c)
    (hy : ∀ c, y.head? = some c → ¬ IdChar c) : a = b ∧ x = y := by
  obtain ⟨h1, h2⟩ := span_unique h (hN.name_char a) (hN.name_char b) hx hy
  exact ⟨hN.name_inj _ _ h1, h2⟩

theorem names_unique (hN : N.Lawful) {l m : List Nat} (h : namesText N l = namesText N m) : l = m := by
  refine pointwise_eq (commaSep_whole hN.name_ne hN.name_ne ?_ h)
  intro a _ b _ x y hx hy he
  obtain ⟨h1, h2⟩ := key_unique he ⟨hN.name_not a ',' (by decide) (by decide), hN.name_not a '\n' (by decide) (by decide)⟩
    ⟨hN.name_not b ',' (by decide) (by decide), hN.name_not b '\n' (by decide) (by decide)⟩ hx hy
  exact ⟨hN.name_inj _ _ h1, h2⟩

theorem occText_not (o : Occurrences) (d : Char) (hd : d = ',' ∨ d = '\n') : d ∉ occText o := by
  have hn : ∀ n, d ∉ showNat n := fun n => showNat_not_mem n d (by rcases hd with rfl | rfl <;> decide)
  rcases hd with rfl | rfl <;> cases o <;> simp [occText, hn]

theorem occText_head (o : Occurrences) : ∀ c, (occText o).head? = some c → ¬ IdChar c := by
  intro c hc
  have : c = '(' := by cases o <;> simp [occText] at hc <;> exact hc.symm
  subst this
  simp [IdChar]

theorem showNat_stop {a b : Nat} {x y : Text} (h : showNat a ++ x = showNat b ++ y) (hx : ∀ c, x.head? = some c → charDigit c = none)
    (hy : ∀ c, y.head? = some c → charDigit c = none) : a = b ∧ x = y := by
  have hd : ∀ n, ∀ c ∈ showNat n, charDigit c ≠ none := by
    intro n c hc
    obtain ⟨d, hd, rfl⟩ := showNat_digits n c hc
    rw [charDigit_digitChar hd]; simp
  obtain ⟨h1, h2⟩ := span_unique (p := fun c => charDigit c ≠ none) h (hd a) (hd b) (fun c hc hp => hp (hx c hc)) (fun c hc hp => hp (hy c hc))
  exact ⟨showNat_injective h1, h2⟩

theorem showNat_head (n : Nat) : ∃ c r, showNat n = c :: r ∧ charDigit c ≠ none := by
  cases h : showNat n with
  | nil => exact absurd h (showNat_ne_nil n)
  | cons c r =>
    refine ⟨c, r, rfl, ?_⟩
    obtain ⟨d, hd, rfl⟩ := showNat_digits n c (by simp [h])
    rw [charDigit_digitChar hd]; simp

theorem showInt_injective : ∀ {a b : Int}, showInt a = showInt b → a = b
  | .ofNat a, .ofNat b, h => by rw [showNat_injective h]
  | .negSucc a, .negSucc b, h => by
    simp only [showInt, List.cons.injEq, true_and] at h
    have := showNat_injective h
    congr 1; omega
  | .ofNat a, .negSucc b, h => by
    have : '-' ∈ showNat a := by
      have h' : showNat a = '-' :: showNat (b + 1) := h
      simp [h']
    exact absurd this (showNat_not_mem a '-' (by decide))
  | .negSucc a, .ofNat b, h => by
    have : '-' ∈ showNat b := by
      have h' : '-' :: showNat (a + 1) = showNat b := h
      simp [← h']
    exact absurd this (showNat_not_mem b '-' (by decide))

theorem showInt_not (i : Int) (d : Char) (hd : charDigit d = none) (hm : d ≠ '-') : d ∉ showInt i := by
  cases i with
  | ofNat n => exact showNat_not_mem n d hd
  | negSucc n => simp [showInt, hm, showNat_not_mem _ d hd]

theorem digits_ne {n : Nat} {c : Char} {x y : Text} (hc : charDigit c = none) : (showNat n ++ x = c :: y) ↔ False := by
  refine ⟨fun h => ?_, False.elim⟩
  obtain ⟨d, r, h1, h2⟩ := showNat_head n
  rw [h1] at h
  simp only [List.cons_append, List.cons.injEq] at h
  exact h2 (h.1 ▸ hc)

theorem digits_ne' {n : Nat} {c : Char} {x y : Text} (hc : charDigit c = none) : (c :: y = showNat n ++ x) ↔ False :=
  ⟨fun h => (digits_ne hc).1 h.symm, False.elim⟩

theorem range_text {a b a' b' : Nat} (h : showNat a ++ ("..".toList ++ (showNat b ++ ")".toList)) = showNat a' ++ ("..".toList ++ (showNat b' ++ ")".toList))) : a = a' ∧ b = b' := by
  obtain ⟨h1, h2⟩ := showNat_stop h (by simp; decide) (by simp; decide)
  refine ⟨h1, ?_⟩
  have := List.append_cancel_left h2
  exact (showNat_stop this (by simp; decide) (by simp; decide)).1

theorem once_text (n : Nat) : occText (.onceOrUpTo n) = occText (.range 1 n) := by
  have : showNat 1 = ['1'] := by decide
  simp [occText, this]

theorem occText_unique' : ∀ {o p : Occurrences}, (∀ n, o ≠ .onceOrUpTo n) → (∀ n, p ≠ .onceOrUpTo n) → occText o = occText p → o = p := by
  intro o p ho hp h
  have q : charDigit '?' = none := by decide
  have s : charDigit '*' = none := by decide
  have u : charDigit '+' = none := by decide
  have d : charDigit '.' = none := by decide
  have e : charDigit ')' = none := by decide
  cases o <;> cases p <;> first
    | rfl
    | exact absurd rfl (ho _)
    | exact absurd rfl (hp _)
    | (simp [occText, digits_ne q, digits_ne' q, digits_ne s, digits_ne' s, digits_ne u, digits_ne' u, digits_ne d, digits_ne' d] at h; done)
    | skip
  · rename_i n m
    have : showNat n ++ ")".toList = showNat m ++ ")".toList := List.append_cancel_left (as := "(..".toList) (by simpa [occText, List.append_assoc] using h)
    rw [(showNat_stop this (by simp; decide) (by simp; decide)).1]
  · rename_i n m
    have : showNat n ++ ")".toList = showNat m ++ ")".toList := List.append_cancel_left (as := "(".toList) (by simpa [occText, List.append_assoc] using h)
    rw [(showNat_stop this (by simp; decide) (by simp; decide)).1]
  · rename_i n a b
    have : showNat n ++ ")".toList = showNat a ++ ("..".toList ++ (showNat b ++ ")".toList)) := List.append_cancel_left (as := "(".toList) (by simpa [occText, List.append_assoc] using h)
    have := (showNat_stop this (by simp; decide) (by simp; decide)).2
    simp at this
  · rename_i a b n
    have : showNat a ++ ("..".toList ++ (showNat b ++ ")".toList)) = showNat n ++ ")".toList := List.append_cancel_left (as := "(".toList) (by simpa [occText, List.append_assoc] using h)
    have := (showNat_stop this (by simp; decide) (by simp; decide)).2
    simp at this
  · rename_i a b a' b'
    have := range_text (a := a) (b := b) (a' := a') (b' := b') (List.append_cancel_left (as := "(".toList) (by simpa [occText, List.append_assoc] using h))
    rw [this.1, this.2]

/-- `1..n` is the only text which is printed for two declarations. -/
def Occurrences.norm : Occurrences → Occurrences
  | .onceOrUpTo n => .range 1 n
  | o => o

theorem norm_text (o : Occurrences) : occText o.norm = occText o := by
  cases o <;> first | rfl | exact (once_text _).symm

theorem norm_admits (o : Occurrences) (k : Nat) : o.norm.Admits k ↔ o.Admits k := by cases o <;> rfl

theorem occText_unique {o p : Occurrences} (h : occText o = occText p) (k : Nat) : o.Admits k ↔ p.Admits k := by
  rw [← norm_text o, ← norm_text p] at h
  have := occText_unique' (by intro n; cases o <;> simp [Occurrences.norm]) (by intro n; cases p <;> simp [Occurrences.norm]) h
  rw [← norm_admits, this, norm_admits]

theorem args_unique (hN : N.Lawful) {l m : OMap Nat Occ} (h : argMap N l = argMap N m) : SameArgs N l m := by
  refine commaSep_whole (fun a => by simp [hN.name_ne]) (fun a => by simp [hN.name_ne]) ?_ h
  intro a _ b _ x y hx hy he
  have hm : ∀ (e : Nat × Occ), ',' ∉ N.name e.1 ++ occText (N.occ e.2) ∧ '\n' ∉ N.name e.1 ++ occText (N.occ e.2) := fun e => by
    refine ⟨?_, ?_⟩ <;> rw [List.mem_append] <;> rintro (h | h)
    · exact hN.name_not _ ',' (by decide) (by decide) h
    · exact occText_not _ _ (.inl rfl) h
    · exact hN.name_not _ '\n' (by decide) (by decide) h
    · exact occText_not _ _ (.inr rfl) h
  obtain ⟨h1, h2⟩ := key_unique he (hm a) (hm b) hx hy
  obtain ⟨h3, h4⟩ := name_unique hN h1 (occText_head _) (occText_head _)
  exact ⟨⟨h3, occText_unique h4⟩, h2⟩

/-! ## Types -/

theorem resolve_char (hN : N.Lawful) (i : Nat) : '.' ∈ resolve N i ∨ ' ' ∈ resolve N i := by
  unfold resolve
  cases h : N.lookup i with
  | some t => exact .inl (hN.lookup_char i t h).1
  | none => exact .inr (by simp)

theorem resolve_unique (hN : N.Lawful) {i j : Nat} (h : resolve N i = resolve N j) : i = j := by
  unfold resolve at h
  cases hi : N.lookup i with
  | some t =>
    cases hj : N.lookup j with
    | some t' => simp only [hi, hj] at h; subst h; exact hN.lookup_inj _ _ _ hi hj
    | none =>
      simp only [hi, hj] at h
      exact absurd (by rw [h]; simp) (hN.lookup_char i t hi).2.1
  | none =>
    cases hj : N.lookup j with
    | some t' =>
      simp only [hi, hj] at h
      exact absurd (by rw [← h]; simp) (hN.lookup_char j t' hj).2.1
    | none =>
      simp only [hi, hj] at h
      exact hN.semShort_inj _ _ (List.append_cancel_right h)

theorem metaType_unique (hN : N.Lawful) {i j : Nat} (h : (match N.lookup i with | some fqn => fqn | none => N.semFull i ++ " -- type name is unknown".toList) =
    (match N.lookup j with | some fqn => fqn | none => N.semFull j ++ " -- type name is unknown".toList)) : i = j := by
  cases hi : N.lookup i with
  | some t =>
    cases hj : N.lookup j with
    | some t' => simp only [hi, hj] at h; subst h; exact hN.lookup_inj _ _ _ hi hj
    | none =>
      simp only [hi, hj] at h
      exact absurd (by rw [h]; simp) (hN.lookup_char i t hi).2.1
  | none =>
    cases hj : N.lookup j with
    | some t' =>
      simp only [hi, hj] at h
      exact absurd (by rw [← h]; simp) (hN.lookup_char j t' hj).2.1
    | none =>
      simp only [hi, hj] at h
      exact hN.semFull_inj _ _ (List.append_cancel_right h)

theorem resolve_ne (hN : N.Lawful) (i : Nat) (t : Text) (h1 : '.' ∉ t) (h2 : ' ' ∉ t) : resolve N i ≠ t := by
  rintro rfl
  rcases resolve_char hN i with h | h
  · exact h1 h
  · exact h2 h

theorem globalType_unique (hN : N.Lawful) {i j : Option Nat} (h : (match i with | some i => resolve N i | none => "Any".toList) =
    (match j with | some i => resolve N i | none => "Any".toList)) : i = j := by
  cases i <;> cases j
  · rfl
  · exact absurd h.symm (resolve_ne hN _ "Any".toList (by decide) (by decide))
  · exact absurd h (resolve_ne hN _ "Any".toList (by decide) (by decide))
  · rw [resolve_unique hN h]

theorem ownedText_plain (k : OwnedIface) (h : ∀ n, k ≠ .data n) : '.' ∉ ownedText N k ∧ ' ' ∉ ownedText N k := by
  cases k with
  | data n => exact absurd rfl (h n)
  | any => exact (⟨by decide, by decide⟩ : '.' ∉ "AnyType".toList ∧ ' ' ∉ "AnyType".toList)
  | amount => exact (⟨by decide, by decide⟩ : '.' ∉ "Zk64".toList ∧ ' ' ∉ "Zk64".toList)
  | anyData => exact (⟨by decide, by decide⟩ : '.' ∉ "Any".toList ∧ ' ' ∉ "Any".toList)
  | anyAttach => exact (⟨by decide, by decide⟩ : '.' ∉ "AnyAttachment".toList ∧ ' ' ∉ "AnyAttachment".toList)
  | rights => exact (⟨by decide, by decide⟩ : '.' ∉ "Rights".toList ∧ ' ' ∉ "Rights".toList)

theorem ownedText_unique (hN : N.Lawful) {i j : OwnedIface} (h : ownedText N i = ownedText N j) : i = j := by
  by_cases hi : ∃ n, i = .data n
  · obtain ⟨n, rfl⟩ := hi
    by_cases hj : ∃ m, j = .data m
    · obtain ⟨m, rfl⟩ := hj
      have h : resolve N n = resolve N m := h
      rw [resolve_unique hN h]
    · have := ownedText_plain (N := N) j (fun n hn => hj ⟨n, hn⟩)
      exact absurd h (resolve_ne hN n _ this.1 this.2)
  · have hp := ownedText_plain (N := N) i (fun n hn => hi ⟨n, hn⟩)
    cases j with
    | data m => exact absurd h.symm (resolve_ne hN m _ hp.1 hp.2)
    | any => cases i with
      | data n => exact absurd ⟨n, rfl⟩ hi
      | any => rfl
      | amount => exact absurd h (by decide : "Zk64".toList ≠ "AnyType".toList)
      | anyData => exact absurd h (by decide : "Any".toList ≠ "AnyType".toList)
      | anyAttach => exact absurd h (by decide : "AnyAttachment".toList ≠ "AnyType".toList)
      | rights => exact absurd h (by decide : "Rights".toList ≠ "AnyType".toList)
    | amount => cases i with
      | data n => exact absurd ⟨n, rfl⟩ hi
      | any => exact absurd h (by decide : "AnyType".toList ≠ "Zk64".toList)
      | amount => rfl
      | anyData => exact absurd h (by decide : "Any".toList ≠ "Zk64".toList)
      | anyAttach => exact absurd h (by decide : "AnyAttachment".toList ≠ "Zk64".toList)
      | rights => exact absurd h (by decide : "Rights".toList ≠ "Zk64".toList)
    | anyData => cases i with
      | data n => exact absurd ⟨n, rfl⟩ hi
      | any => exact absurd h (by decide : "AnyType".toList ≠ "Any".toList)
      | amount => exact absurd h (by decide : "Zk64".toList ≠ "Any".toList)
      | anyData => rfl
      | anyAttach => exact absurd h (by decide : "AnyAttachment".toList ≠ "Any".toList)
      | rights => exact absurd h (by decide : "Rights".toList ≠ "Any".toList)
    | anyAttach => cases i with
      | data n => exact absurd ⟨n, rfl⟩ hi
      | any => exact absurd h (by decide : "AnyType".toList ≠ "AnyAttachment".toList)
      | amount => exact absurd h (by decide : "Zk64".toList ≠ "AnyAttachment".toList)
      | anyData => exact absurd h (by decide : "Any".toList ≠ "AnyAttachment".toList)
      | anyAttach => rfl
      | rights => exact absurd h (by decide : "Rights".toList ≠ "AnyAttachment".toList)
    | rights => cases i with
      | data n => exact absurd ⟨n, rfl⟩ hi
      | any => exact absurd h (by decide : "AnyType".toList ≠ "Rights".toList)
      | amount => exact absurd h (by decide : "Zk64".toList ≠ "Rights".toList)
      | anyData => exact absurd h (by decide : "Any".toList ≠ "Rights".toList)
      | anyAttach => exact absurd h (by decide : "AnyAttachment".toList ≠ "Rights".toList)
      | rights => rfl

theorem sugar_unique {a b a' b' : Bool} {t t' : Text} (h : sugar a b ++ (": ".toList ++ t) = sugar a' b' ++ (": ".toList ++ t')) : a = a' ∧ b = b' ∧ t = t' := by
  cases a <;> cases b <;> cases a' <;> cases b' <;> simp [sugar] at h ⊢ <;> exact h

theorem sugar_head (a b : Bool) (t : Text) : ∀ c, (sugar a b ++ (": ".toList ++ t)).head? = some c → ¬ IdChar c := by
  intro c hc
  have : c = '(' ∨ c = ':' := by cases a <;> cases b <;> simp [sugar] at hc <;> subst hc <;> simp
  rcases this with rfl | rfl <;> simp [IdChar]

/-! ## Lines -/

/-- The first line begins with one of the given texts of three characters. -/
def Heads (ts : List Text) (ls : List Text) : Prop := ∀ l, ls.head? = some l → l.take 3 ∈ ts

theorem heads_append {ts : List Text} {a b : List Text} (ha : Heads ts a) (hb : Heads ts b) : Heads ts (a ++ b) := by
  intro l hl
  cases a with
  | nil => exact hb l (by simpa using hl)
  | cons c a => exact ha l (by simpa using hl)

theorem heads_lineIf {ts : List Text} {b : Bool} {l : Text} (h : l.take 3 ∈ ts) : Heads ts (lineIf b l) := by
  intro m hm
  cases b <;> simp [lineIf] at hm
  exact hm ▸ h

theorem heads_flatMap {α : Type} {ts : List Text} {f : α → List Text} {l : List α} (h : ∀ a, Heads ts (f a)) : Heads ts (l.flatMap f) := by
  induction l with
  | nil => intro m hm; simp at hm
  | cons a l ih => rw [List.flatMap_cons]; exact heads_append (h a) ih

theorem heads_map {α : Type} {ts : List Text} {f : α → Text} {l : List α} (h : ∀ a, (f a).take 3 ∈ ts) : Heads ts (l.map f) := by
  intro m hm
  cases l with
  | nil => simp at hm
  | cons a l => simp at hm; exact hm ▸ h a

theorem flatMap_unique {α β : Type} {f : α → List Text} {g : β → List Text} {R : α → β → Prop} {tag : Text → Prop} {ts : List Text} {u v : List Text}
    (hf : ∀ a, ∃ h r, f a = h :: r ∧ tag (h.take 3)) (hg : ∀ a, ∃ h r, g a = h :: r ∧ tag (h.take 3)) (ht : ∀ t ∈ ts, ¬ tag t) (hu : Heads ts u) (hv : Heads ts v) :
    ∀ {l : List α} {m : List β}, (∀ a ∈ l, ∀ b ∈ m, ∀ x y, f a ++ x = g b ++ y → R a b ∧ x = y) → l.flatMap f ++ u = m.flatMap g ++ v → Pointwise R l m ∧ u = v
  | [], [], _, h => ⟨pointwise_nil, by simpa using h⟩
  | [], b :: m, _, h => by
    obtain ⟨c, r, h1, h2⟩ := hg b
    have := hu c (by
      have : u = c :: (r ++ (m.flatMap g ++ v)) := by simpa [h1] using h
      rw [this]; rfl)
    exact absurd h2 (ht _ this)
  | a :: l, [], _, h => by
    obtain ⟨c, r, h1, h2⟩ := hf a
    have := hv c (by
      have : c :: (r ++ (l.flatMap f ++ u)) = v := by simpa [h1] using h
      rw [← this]; rfl)
    exact absurd h2 (ht _ this)
  | a :: l, b :: m, hr, h => by
    rw [List.flatMap_cons, List.flatMap_cons, List.append_assoc, List.append_assoc] at h
    obtain ⟨h1, h2⟩ := hr a (by simp) b (by simp) _ _ h
    obtain ⟨h3, h4⟩ := flatMap_unique hf hg ht hu hv (fun c hc d hd => hr c (List.mem_cons_of_mem _ hc) d (List.mem_cons_of_mem _ hd)) h2
    exact ⟨pointwise_cons h1 h3, h4⟩

theorem map_unique {α β : Type} {f : α → Text} {g : β → Text} {R : α → β → Prop} {tag : Text → Prop} {ts : List Text} {u v : List Text} {l : List α} {m : List β}
    (hf : ∀ a, tag ((f a).take 3)) (hg : ∀ a, tag ((g a).take 3)) (ht : ∀ t ∈ ts, ¬ tag t) (hu : Heads ts u) (hv : Heads ts v)
    (hr : ∀ a ∈ l, ∀ b ∈ m, f a = g b → R a b) (h : l.map f ++ u = m.map g ++ v) : Pointwise R l m ∧ u = v := by
  have e : ∀ {γ : Type} (k : γ → Text) (n : List γ), n.map k = n.flatMap (fun a => [k a]) := fun k n => by induction n <;> simp_all
  rw [e, e] at h
  refine flatMap_unique (fun a => ⟨_, _, rfl, hf a⟩) (fun a => ⟨_, _, rfl, hg a⟩) ht hu hv ?_ h
  intro a ha b hb x y he
  simp only [List.cons_append, List.nil_append, List.cons.injEq] at he
  exact ⟨hr a ha b hb he.1, he.2⟩

theorem blank_unique {α β : Type} {R : α → β → Prop} {l : List α} {m : List β} {u v : List Text} (hp : Pointwise R l m)
    (h : lineIf (!l.isEmpty) [] ++ u = lineIf (!m.isEmpty) [] ++ v) : u = v := by
  have : l.isEmpty = m.isEmpty := by
    have := hp.1
    cases l <;> cases m <;> simp_all
  rw [this] at h
  exact List.append_cancel_left h

theorem lineIf_unique {b b' : Bool} {pre s s' tag : Text} {ts : List Text} {u v : List Text} (hp : ∀ t, (pre ++ t).take 3 = tag) (ht : tag ∉ ts) (hu : Heads ts u)
    (hv : Heads ts v) (h : lineIf b (pre ++ s) ++ u = lineIf b' (pre ++ s') ++ v) : b = b' ∧ (b = true → s = s') ∧ u = v := by
  cases b <;> cases b' <;> simp [lineIf] at h ⊢
  · exact h
  · exact ht (hp s' ▸ hu (pre ++ s') (by rw [h]; rfl))
  · exact ht (hp s ▸ hv (pre ++ s) (by rw [← h]; rfl))
  · exact h

end Rgb.Contractum
