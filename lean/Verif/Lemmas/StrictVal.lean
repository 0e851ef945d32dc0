import Verif.Spec.StrictVal
import Verif.Lemmas.Specs

/-! Lemmas about values of contract state. -/

namespace Rgb.Stl

open StrictVal

theorem self_within (v : StrictVal) : Within v.skip v := by
  fun_induction StrictVal.skip v with
  | case1 w ih => exact .wrap ih
  | case2 v => exact .refl _

theorem skip_within {v s : StrictVal} (h : v.skip = s) : Within s v := h ▸ self_within v

theorem within_skip {s v : StrictVal} (h : Within s v) (hs : s.skip = s) : v.skip = s := by
  induction h with
  | refl => exact hs
  | wrap _ ih =>
    rw [StrictVal.skip]
    exact ih

theorem fieldIn_iff {n : Text} {w : StrictVal} : ∀ {fs : List (Text × StrictVal)}, fieldIn n fs = some w ↔
    ∃ before after, fs = before ++ (n, w) :: after ∧ ∀ e ∈ before, e.1 ≠ n
  | [] => by simp [fieldIn]
  | (m, u) :: fs => by
    unfold fieldIn
    by_cases h : m = n
    · subst h
      simp only [if_true, Option.some.injEq]
      constructor
      · rintro rfl
        exact ⟨[], fs, rfl, by simp⟩
      · rintro ⟨before, after, h1, h2⟩
        cases before with
        | nil => simp at h1; exact h1.1
        | cons e before =>
          simp only [List.cons_append, List.cons.injEq] at h1
          exact absurd (by rw [← h1.1]) (h2 e (by simp))
    · simp only [h, if_false]
      rw [fieldIn_iff]
      constructor
      · rintro ⟨before, after, h1, h2⟩
        refine ⟨(m, u) :: before, after, by rw [h1]; rfl, ?_⟩
        intro e he
        rcases List.mem_cons.1 he with rfl | he
        · exact h
        · exact h2 e he
      · rintro ⟨before, after, h1, h2⟩
        cases before with
        | nil => simp at h1; exact absurd h1.1.1 h
        | cons e before =>
          simp only [List.cons_append, List.cons.injEq] at h1
          exact ⟨before, after, h1.2, fun e he => h2 e (by simp [he])⟩

theorem struct_iff {v w : StrictVal} {n : String} : v.unwrapStruct n.toList = some w ↔ HasField v n w := by
  unfold unwrapStruct HasField
  constructor
  · intro h
    split at h
    · rename_i fs hs
      obtain ⟨before, after, rfl, h2⟩ := fieldIn_iff.1 h
      exact ⟨before, after, skip_within hs, h2⟩
    · cases h
  · rintro ⟨before, after, h1, h2⟩
    rw [within_skip h1 rfl]
    exact fieldIn_iff.2 ⟨before, after, rfl, h2⟩

theorem string_iff {v : StrictVal} {t : Text} : v.unwrapString = some t ↔ TextIn t v := by
  unfold unwrapString TextIn
  constructor
  · intro h
    split at h
    · rename_i u hs; cases h; exact skip_within hs
    · cases h
  · intro h; rw [within_skip h rfl]

theorem bytes_iff {v : StrictVal} {t : List Nat} : v.unwrapBytes = some t ↔ Within (.bytes t) v := by
  unfold unwrapBytes
  constructor
  · intro h
    split at h
    · rename_i u hs; cases h; exact skip_within hs
    · cases h
  · intro h; rw [within_skip h rfl]

theorem uint_iff {v : StrictVal} {m n : Nat} : v.unwrapUint m = some n ↔ Within (.num n) v ∧ n ≤ m := by
  unfold unwrapUint
  constructor
  · intro h
    split at h
    · rename_i u hs
      split at h
      · cases h; exact ⟨skip_within hs, by assumption⟩
      · cases h
    · cases h
  · rintro ⟨h, hn⟩; rw [within_skip h rfl]; simp [hn]

theorem enum_iff {v : StrictVal} {m n : Nat} : v.unwrapEnum m = some n ↔ Within (.enum n) v ∧ n ≤ m := by
  unfold unwrapEnum
  constructor
  · intro h
    split at h
    · rename_i u hs
      split at h
      · cases h; exact ⟨skip_within hs, by assumption⟩
      · cases h
    · cases h
  · rintro ⟨h, hn⟩; rw [within_skip h rfl]; simp [hn]

theorem option_iff {α : Type} {f : StrictVal → Option α} {v : StrictVal} {o : Option α} : v.unwrapOption.bind (mapOpt f) = some o ↔
    OptIn (fun a w => f w = some a) o v := by
  unfold unwrapOption
  constructor
  · intro h
    cases hs : v.skip with
    | absent =>
      rw [hs] at h
      have : o = none := by simpa [mapOpt, eq_comm] using h
      subst this
      exact skip_within hs
    | given w =>
      rw [hs] at h
      have h : (f w).map some = some o := h
      obtain ⟨a, ha, rfl⟩ := Option.map_eq_some_iff.1 h
      exact ⟨w, skip_within hs, ha⟩
    | _ => rw [hs] at h; cases h
  · intro h
    cases o with
    | none => rw [within_skip h rfl]; rfl
    | some a =>
      obtain ⟨w, h1, h2⟩ := h
      rw [within_skip h1 rfl]
      simp [mapOpt, h2]

theorem field_iff {α : Type} {f : StrictVal → Option α} {v : StrictVal} {n : String} {a : α} :
    (v.unwrapStruct n.toList).bind f = some a ↔ FieldIn (fun a w => f w = some a) a n v := by
  rw [Option.bind_eq_some_iff]
  exact ⟨fun ⟨w, h1, h2⟩ => ⟨w, struct_iff.1 h1, h2⟩, fun ⟨w, h1, h2⟩ => ⟨w, struct_iff.2 h1, h2⟩⟩

theorem FieldIn.mono {α : Type} {P Q : α → StrictVal → Prop} {a : α} {n : String} {v : StrictVal} (h : FieldIn P a n v) (hi : ∀ w, P a w → Q a w) : FieldIn Q a n v := by
  obtain ⟨w, h1, h2⟩ := h
  exact ⟨w, h1, hi w h2⟩

theorem OptIn.mono {α : Type} {P Q : α → StrictVal → Prop} {o : Option α} {v : StrictVal} (h : OptIn P o v) (hi : ∀ a, o = some a → ∀ w, P a w → Q a w) : OptIn Q o v := by
  cases o with
  | none => exact h
  | some a =>
    obtain ⟨w, h1, h2⟩ := h
    exact ⟨w, h1, hi a rfl w h2⟩

theorem OptIn.given {α : Type} {P : α → StrictVal → Prop} {a : α} {v : StrictVal} (h : OptIn P (some a) v) : ∃ w, P a w := by
  obtain ⟨w, _, h2⟩ := h
  exact ⟨w, h2⟩

end Rgb.Stl
