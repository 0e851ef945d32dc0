import Verif.Lemmas.Base
import Verif.Spec.Compare

/-! Lemmas on comparisons. -/

namespace Rgb

theorem Key.cmp_eq {α : Type} [Key α] (a b : α) : Key.cmp a b = .eq ↔ a = b := by
  unfold Key.cmp
  constructor
  · intro h
    rcases Key.lt_total a b with h1 | h1 | h1
    · simp [h1] at h
    · exact h1
    · simp [Key.lt_asymm h1, h1] at h
  · rintro rfl; simp [Key.lt_irrefl]

theorem Key.cmp_lt {α : Type} [Key α] (a b : α) : Key.cmp a b = .lt ↔ Key.lt a b = true := by
  unfold Key.cmp
  by_cases h : Key.lt a b = true
  · simp [h]
  · by_cases h' : Key.lt b a = true <;> simp [h, h']

theorem Key.cmp_swap {α : Type} [Key α] (a b : α) : Key.cmp b a = (Key.cmp a b).swap := by
  unfold Key.cmp
  rcases Key.lt_total a b with h1 | h1 | h1
  · simp [h1, Key.lt_asymm h1]
  · subst h1; simp [Key.lt_irrefl]
  · simp [h1, Key.lt_asymm h1]

theorem EqLaws.comap {α κ : Type} [DecidableEq κ] (f : α → κ) : EqLaws (fun a b => decide (f a = f b)) :=
  ⟨fun _ => by simp, fun a b h => by simp at h ⊢; exact h.symm, fun a b c h h' => by simp at h h' ⊢; exact h.trans h'⟩

theorem OrdLaws.comap {α κ : Type} [Key κ] [DecidableEq κ] (f : α → κ) :
    OrdLaws (fun a b => decide (f a = f b)) (fun a b => Key.cmp (f a) (f b)) where
  same a b := by simp [Key.cmp_eq]
  swap a b := Key.cmp_swap _ _
  trans a b c h h' := by
    simp only [Key.cmp_lt] at h h' ⊢
    exact Key.lt_trans h h'

theorem Layer1.num_eq_iff (a b : Layer1) : a.num = b.num ↔ a = b := ⟨fun h => Layer1.num_inj h, fun h => by rw [h]⟩

theorem XPubWitness.eq_id (a b : XPubWitness) : a.eq b = decide (a.id = b.id) := by
  obtain ⟨c, p⟩ := a
  obtain ⟨d, q⟩ := b
  simp [XPubWitness.eq, XPubWitness.id, PubWitness.eq, WitnessId.mk.injEq, Bool.decide_and]

theorem XPubWitness.cmp_id (a b : XPubWitness) : a.cmp b = Key.cmp a.id b.id := by
  obtain ⟨c, p⟩ := a
  obtain ⟨d, q⟩ := b
  simp only [XPubWitness.cmp, XPubWitness.id, PubWitness.cmp, Key.cmp, Key.lt, Key.enc, lexLt]
  generalize p.id = x
  generalize q.id = y
  cases c <;> cases d <;> simp [Layer1.num] <;> (repeat' split) <;> simp_all <;> omega

theorem lexLt_append {a b : List Nat} (c d : List Nat) (h : a.length = b.length) :
    lexLt (a ++ c) (b ++ d) = (lexLt a b || (decide (a = b) && lexLt c d)) := by
  induction a generalizing b with
  | nil => cases b <;> simp_all [lexLt]
  | cons x xs ih =>
    cases b with
    | nil => simp at h
    | cons y ys =>
      simp only [List.length_cons, Nat.add_right_cancel_iff] at h
      simp only [List.cons_append, lexLt, ih h, List.cons.injEq]
      rcases Nat.lt_trichotomy x y with hxy | hxy | hxy
      · simp [hxy]
      · subst hxy; simp
      · have h1 : ¬ x < y := by omega
        have h2 : ¬ x = y := by omega
        simp [hxy, h1, h2]

/-- What the comparison of allocations looks at. -/
def OutAssign.cmpKey (a : OutAssign) : OutKey := ⟨a.opout, a.sl⟩

theorem OutAssign.eq_key (a b : OutAssign) : a.eq b = decide (a.cmpKey = b.cmpKey) := by
  simp [OutAssign.eq, OutAssign.cmpKey, OutKey.mk.injEq, Bool.decide_and]

theorem OutAssign.cmp_key (a b : OutAssign) : a.cmp b = Key.cmp a.cmpKey b.cmpKey := by
  unfold OutAssign.cmp
  by_cases he : a.cmpKey = b.cmpKey
  · rw [if_pos (by rw [OutAssign.eq_key]; simpa using he), (Key.cmp_eq _ _).2 he]
  · rw [if_neg (by rw [OutAssign.eq_key]; simpa using he)]
    have hl : ∀ x y : Opout, (Key.enc x).length = (Key.enc y).length := fun _ _ => rfl
    have hlt : ∀ x y : OutAssign, Key.lt x.cmpKey y.cmpKey = (Key.lt x.opout y.opout || (decide (x.opout = y.opout) && Key.lt x.sl y.sl)) := by
      intro x y
      have he : (Key.enc x.opout = Key.enc y.opout) ↔ x.opout = y.opout := ⟨Key.enc_inj _ _, fun h => by rw [h]⟩
      show lexLt (Key.enc x.opout ++ Key.enc x.sl) (Key.enc y.opout ++ Key.enc y.sl) = _
      rw [lexLt_append _ _ (hl _ _)]
      simp only [Key.lt, he]
    rcases Key.lt_total a.opout b.opout with h | h | h
    · have : Key.cmp a.opout b.opout = .lt := (Key.cmp_lt _ _).2 h
      simp [this, Key.cmp, hlt, h]
    · have : Key.cmp a.opout b.opout = .eq := (Key.cmp_eq _ _).2 h
      simp [this, Key.cmp, hlt, h, Key.lt_irrefl]
    · have h' : Key.cmp a.opout b.opout = .gt := by simp [Key.cmp, h, Key.lt_asymm h]
      simp [h', Key.cmp, hlt, h, Key.lt_asymm h, (Key.lt_ne h).symm]

/-! ### Sequences -/

section
variable {α β : Type}

theorem seqEq_refl {eq : α → α → Bool} (h : ∀ a, eq a a = true) (l : List α) : seqEq eq l l = true := by
  induction l with
  | nil => rfl
  | cons a l ih => simp [seqEq, h, ih]

theorem EqLaws.seq {eq : α → α → Bool} (h : EqLaws eq) : EqLaws (seqEq eq) where
  refl := seqEq_refl h.refl
  symm l := by
    induction l with
    | nil => intro b hb; cases b <;> simp_all [seqEq]
    | cons a l ih =>
      intro b hb
      cases b with
      | nil => simp [seqEq] at hb
      | cons b bs =>
        simp only [seqEq, Bool.and_eq_true] at hb ⊢
        exact ⟨h.symm _ _ hb.1, ih _ hb.2⟩
  trans l := by
    induction l with
    | nil => intro b c hb hc; cases b <;> cases c <;> simp_all [seqEq]
    | cons a l ih =>
      intro b c hb hc
      cases b with
      | nil => simp [seqEq] at hb
      | cons b bs =>
        cases c with
        | nil => simp [seqEq] at hc
        | cons c cs =>
          simp only [seqEq, Bool.and_eq_true] at hb hc ⊢
          exact ⟨h.trans _ _ _ hb.1 hc.1, ih _ _ hb.2 hc.2⟩

theorem EqLaws.pair {f : α → α → Bool} {g : β → β → Bool} (hf : EqLaws f) (hg : EqLaws g) : EqLaws (pairEq f g) where
  refl a := by simp [pairEq, hf.refl, hg.refl]
  symm a b h := by
    simp only [pairEq, Bool.and_eq_true] at h ⊢
    exact ⟨hf.symm _ _ h.1, hg.symm _ _ h.2⟩
  trans a b c h h' := by
    simp only [pairEq, Bool.and_eq_true] at h h' ⊢
    exact ⟨hf.trans _ _ _ h.1 h'.1, hg.trans _ _ _ h.2 h'.2⟩

theorem EqLaws.opt {f : α → α → Bool} (hf : EqLaws f) : EqLaws (optEq f) where
  refl a := by cases a <;> simp [optEq, hf.refl]
  symm a b h := by
    cases a <;> cases b <;> simp_all [optEq]
    exact hf.symm _ _ h
  trans a b c h h' := by
    cases a <;> cases b <;> cases c <;> simp_all [optEq]
    exact hf.trans _ _ _ h h'

theorem EqLaws.dichotomy {f : α → α → Bool} (hf : EqLaws f) : EqLaws (Dichotomy.eq f) where
  refl a := by simp [Dichotomy.eq, hf.refl, hf.opt.refl]
  symm a b h := by
    simp only [Dichotomy.eq, Bool.and_eq_true] at h ⊢
    exact ⟨hf.symm _ _ h.1, hf.opt.symm _ _ h.2⟩
  trans a b c h h' := by
    simp only [Dichotomy.eq, Bool.and_eq_true] at h h' ⊢
    exact ⟨hf.trans _ _ _ h.1 h'.1, hf.opt.trans _ _ _ h.2 h'.2⟩

/-- Comparing a sequence by a value of its elements. -/
theorem seqEq_comap {κ : Type} [DecidableEq κ] (f : α → κ) (l m : List α) :
    seqEq (fun a b => decide (f a = f b)) l m = true ↔ l.map f = m.map f := by
  induction l generalizing m with
  | nil => cases m <;> simp [seqEq]
  | cons a l ih => cases m <;> simp [seqEq, ih]

theorem seqEq_exact {eq : α → α → Bool} (h : Exact eq) : Exact (seqEq eq) := by
  intro l
  induction l with
  | nil => intro m; cases m <;> simp [seqEq]
  | cons a l ih =>
    intro m
    cases m with
    | nil => simp [seqEq]
    | cons b m => simp [seqEq, h a b, ih m]

theorem pairEq_exact {f : α → α → Bool} {g : β → β → Bool} (hf : Exact f) (hg : Exact g) : Exact (pairEq f g) := by
  intro a b
  obtain ⟨a1, a2⟩ := a
  obtain ⟨b1, b2⟩ := b
  simp [pairEq, hf a1 b1, hg a2 b2]

end

theorem WitnessBundle.seqEq_ids (l m : List WitnessBundle) : seqEq WitnessBundle.eq l m = true ↔ l.map WitnessBundle.id = m.map WitnessBundle.id := by
  rw [← seqEq_comap]
  have : WitnessBundle.eq = (fun a b => decide (WitnessBundle.id a = WitnessBundle.id b)) := by
    funext a b
    exact XPubWitness.eq_id _ _
  rw [this]

end Rgb
