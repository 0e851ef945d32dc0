import Verif.Model.Base
import Mathlib.Tactic.Tauto

set_option linter.unusedSectionVars false

namespace Rgb

theorem lexLt_irrefl (a : List Nat) : lexLt a a = false := by
  induction a with
  | nil => rfl
  | cons x xs ih => simp [lexLt, ih]

theorem lexLt_trans {a b c : List Nat} : lexLt a b = true → lexLt b c = true → lexLt a c = true := by
  induction a generalizing b c with
  | nil => cases b <;> cases c <;> simp [lexLt]
  | cons x xs ih =>
    cases b with
    | nil => simp [lexLt]
    | cons y ys =>
      cases c with
      | nil => simp [lexLt]
      | cons z zs =>
        simp only [lexLt]
        intro h1 h2
        split at h1
        · split at h2
          · rw [if_pos (by omega)]
          · split at h2
            · cases h2
            · rw [if_pos (by omega)]
        · split at h1
          · cases h1
          · split at h2
            · rw [if_pos (by omega)]
            · split at h2
              · cases h2
              · rw [if_neg (by omega), if_neg (by omega)]; exact ih h1 h2

theorem lexLt_total (a b : List Nat) : lexLt a b = true ∨ a = b ∨ lexLt b a = true := by
  induction a generalizing b with
  | nil => cases b <;> simp [lexLt]
  | cons x xs ih =>
    cases b with
    | nil => simp [lexLt]
    | cons y ys =>
      simp only [lexLt]
      rcases Nat.lt_trichotomy x y with h | h | h
      · simp [h]
      · subst h
        simp only [Nat.lt_irrefl, if_false, List.cons.injEq, true_and]
        exact ih ys
      · simp [h]

namespace Key
variable {α : Type} [Key α]

theorem lt_irrefl (a : α) : Key.lt a a = false := lexLt_irrefl _
theorem lt_trans {a b c : α} : Key.lt a b = true → Key.lt b c = true → Key.lt a c = true := lexLt_trans
theorem lt_total (a b : α) : Key.lt a b = true ∨ a = b ∨ Key.lt b a = true := by
  rcases lexLt_total (enc a) (enc b) with h | h | h
  · exact .inl h
  · exact .inr (.inl (enc_inj _ _ h))
  · exact .inr (.inr h)
theorem lt_ne {a b : α} (h : Key.lt a b = true) : a ≠ b := by
  rintro rfl; rw [lt_irrefl] at h; cases h
theorem lt_asymm {a b : α} (h : Key.lt a b = true) : Key.lt b a = false := by
  cases h' : Key.lt b a with
  | false => rfl
  | true => have := lt_trans h h'; rw [lt_irrefl] at this; cases this

end Key

namespace OMap
variable {κ ν : Type} [Key κ] [DecidableEq κ]

@[simp] theorem get?_nil (k : κ) : get? ([] : OMap κ ν) k = none := rfl

theorem get?_cons (k' : κ) (v' : ν) (m : OMap κ ν) (k : κ) :
    get? ((k', v') :: m) k = if k = k' then some v' else get? m k := rfl

theorem get?_insert (m : OMap κ ν) (k k' : κ) (v : ν) :
    get? (insert m k v) k' = if k' = k then some v else get? m k' := by
  induction m with
  | nil => simp [insert, get?]
  | cons e m ih =>
    obtain ⟨k₁, v₁⟩ := e
    simp only [insert]
    split
    · rename_i h; subst h
      simp only [get?_cons]; split <;> rfl
    · split
      · simp only [get?_cons]
      · simp only [get?_cons, ih]
        split
        · rename_i h1 h2 h3; subst h3; simp [Ne.symm h1]
        · rfl

@[simp] theorem get?_insert_self (m : OMap κ ν) (k : κ) (v : ν) : get? (insert m k v) k = some v := by
  simp [get?_insert]

theorem get?_insert_ne (m : OMap κ ν) {k k' : κ} (v : ν) (h : k' ≠ k) :
    get? (insert m k v) k' = get? m k' := by simp [get?_insert, h]

theorem get?_erase (m : OMap κ ν) (k k' : κ) :
    get? (erase m k) k' = if k' = k then none else get? m k' := by
  induction m with
  | nil => simp [erase]
  | cons e m ih =>
    obtain ⟨k₁, v₁⟩ := e
    simp only [erase] at ih ⊢
    by_cases h : k₁ = k
    · subst h
      simp only [List.filter, ne_eq, not_true_eq_false, decide_false]
      rw [ih, get?_cons]
      split <;> simp_all
    · simp only [List.filter, ne_eq, h, not_false_eq_true, decide_true, get?_cons, ih]
      split
      · rename_i h'; subst h'; simp [h]
      · rfl

theorem mem_of_get? {m : OMap κ ν} {k : κ} {v : ν} (h : get? m k = some v) : (k, v) ∈ m := by
  induction m with
  | nil => cases h
  | cons e m ih =>
    obtain ⟨k₁, v₁⟩ := e
    rw [get?_cons] at h
    split at h
    · rename_i h'; subst h'; cases h; exact List.mem_cons_self
    · exact List.mem_cons_of_mem _ (ih h)

theorem get?_isSome_iff {m : OMap κ ν} {k : κ} : (get? m k).isSome ↔ k ∈ keys m := by
  induction m with
  | nil => simp [keys]
  | cons e m ih =>
    obtain ⟨k₁, v₁⟩ := e
    rw [get?_cons]
    simp only [keys, List.map_cons, List.mem_cons] at ih ⊢
    split
    · simp_all
    · simp_all

theorem get?_eq_none_iff {m : OMap κ ν} {k : κ} : get? m k = none ↔ k ∉ keys m := by
  rw [← get?_isSome_iff]; cases get? m k <;> simp

theorem contains_iff {m : OMap κ ν} {k : κ} : contains m k = true ↔ ∃ v, get? m k = some v := by
  simp [contains, Option.isSome_iff_exists]

theorem Sorted.tail {e : κ × ν} {m : OMap κ ν} (h : Sorted (e :: m)) : Sorted m :=
  (List.pairwise_cons.mp h).2

theorem Sorted.head {e : κ × ν} {m : OMap κ ν} (h : Sorted (e :: m)) {k : κ} (hk : k ∈ keys m) :
    Key.lt e.1 k = true := (List.pairwise_cons.mp h).1 k hk

theorem Sorted.nil : Sorted ([] : OMap κ ν) := List.Pairwise.nil

theorem Sorted.nodup {m : OMap κ ν} (h : Sorted m) : (keys m).Nodup :=
  List.Pairwise.imp (fun h => Key.lt_ne h) h

theorem Sorted.get?_of_mem {m : OMap κ ν} (h : Sorted m) {k : κ} {v : ν} (hm : (k, v) ∈ m) :
    get? m k = some v := by
  induction m with
  | nil => cases hm
  | cons e m ih =>
    obtain ⟨k₁, v₁⟩ := e
    rw [get?_cons]
    rcases List.mem_cons.mp hm with h' | h'
    · cases h'; simp
    · have := h.head (k := k) (List.mem_map_of_mem (f := Prod.fst) h')
      rw [if_neg (Ne.symm (Key.lt_ne this))]
      exact ih h.tail h'

theorem Sorted.mem_iff {m : OMap κ ν} (h : Sorted m) {k : κ} {v : ν} :
    (k, v) ∈ m ↔ get? m k = some v := ⟨h.get?_of_mem, mem_of_get?⟩

theorem mem_keys_insert {m : OMap κ ν} {k k' : κ} {v : ν} :
    k' ∈ keys (insert m k v) ↔ k' = k ∨ k' ∈ keys m := by
  rw [← get?_isSome_iff, ← get?_isSome_iff, get?_insert]
  by_cases h : k' = k <;> simp [h]

theorem Sorted.insert {m : OMap κ ν} (h : Sorted m) (k : κ) (v : ν) : Sorted (insert m k v) := by
  induction m with
  | nil => simp [OMap.insert, Sorted, keys]
  | cons e m ih =>
    obtain ⟨k₁, v₁⟩ := e
    simp only [OMap.insert]
    split
    · rename_i hk; subst hk
      refine List.pairwise_cons.mpr ⟨fun k' hk' => h.head hk', h.tail⟩
    · split
      · rename_i hk hlt
        refine List.pairwise_cons.mpr ⟨fun k' hk' => ?_, h⟩
        rcases List.mem_cons.mp hk' with rfl | hk'
        · exact hlt
        · exact Key.lt_trans hlt (h.head hk')
      · rename_i hk hlt
        refine List.pairwise_cons.mpr ⟨fun k' hk' => ?_, ih h.tail⟩
        rcases mem_keys_insert.mp hk' with rfl | hk'
        · rcases Key.lt_total k' k₁ with h' | h' | h'
          · exact absurd h' hlt
          · exact absurd h' hk
          · exact h'
        · exact h.head hk'

theorem Sorted.erase {m : OMap κ ν} (h : Sorted m) (k : κ) : Sorted (erase m k) :=
  List.Pairwise.sublist (List.Sublist.map _ List.filter_sublist) h

/-- Two sorted maps with the same lookups are equal. -/
theorem Sorted.ext {m n : OMap κ ν} (hm : Sorted m) (hn : Sorted n)
    (h : ∀ k, get? m k = get? n k) : m = n := by
  induction m generalizing n with
  | nil =>
    cases n with
    | nil => rfl
    | cons e n => obtain ⟨k, v⟩ := e; have := h k; simp [get?_cons] at this
  | cons e m ih =>
    obtain ⟨k, v⟩ := e
    cases n with
    | nil => have := h k; simp [get?_cons] at this
    | cons e' n =>
      obtain ⟨k', v'⟩ := e'
      have hkk : k = k' := by
        rcases Key.lt_total k k' with hlt | heq | hlt
        · have := h k
          rw [get?_cons, if_pos rfl, get?_cons, if_neg (Key.lt_ne hlt)] at this
          have hmem : k ∈ keys n := get?_isSome_iff.mp (by rw [← this]; rfl)
          have := hn.head hmem
          rw [Key.lt_asymm hlt] at this; cases this
        · exact heq
        · have := h k'
          rw [get?_cons, get?_cons, if_pos rfl, if_neg (Key.lt_ne hlt)] at this
          have hmem : k' ∈ keys m := get?_isSome_iff.mp (by rw [this]; rfl)
          have := hm.head hmem
          rw [Key.lt_asymm hlt] at this; cases this
      subst hkk
      have hv : v = v' := by have := h k; simpa [get?_cons] using this
      subst hv
      congr 1
      refine ih hm.tail hn.tail fun k₂ => ?_
      by_cases hk : k₂ = k
      · subst hk
        rw [get?_eq_none_iff.mpr, get?_eq_none_iff.mpr]
        · intro hmem; exact Key.lt_ne (hn.head hmem) rfl
        · intro hmem; exact Key.lt_ne (hm.head hmem) rfl
      · have := h k₂
        rwa [get?_cons, get?_cons, if_neg hk, if_neg hk] at this

theorem get?_mapVals {μ : Type} (f : ν → μ) (m : OMap κ ν) (k : κ) :
    get? (mapVals f m) k = (get? m k).map f := by
  induction m with
  | nil => rfl
  | cons e m ih =>
    obtain ⟨k₁, v₁⟩ := e
    simp only [mapVals, List.map_cons, get?_cons] at ih ⊢
    split
    · rfl
    · exact ih

theorem keys_mapVals {μ : Type} (f : ν → μ) (m : OMap κ ν) : keys (mapVals f m) = keys m := by
  simp [keys, mapVals]

theorem Sorted.mapVals {μ : Type} {m : OMap κ ν} (h : Sorted m) (f : ν → μ) : Sorted (mapVals f m) := by
  rw [Sorted, keys_mapVals]; exact h

theorem extend_cons (m : OMap κ ν) (e : κ × ν) (es : List (κ × ν)) :
    extend m (e :: es) = extend (insert m e.1 e.2) es := rfl

theorem extend_append (m : OMap κ ν) (a b : List (κ × ν)) :
    extend m (a ++ b) = extend (extend m a) b := by simp [extend]

theorem Sorted.extend {m : OMap κ ν} (h : Sorted m) (es : List (κ × ν)) : Sorted (extend m es) := by
  induction es generalizing m with
  | nil => exact h
  | cons e es ih => exact ih (h.insert _ _)

theorem mem_keys_extend {m : OMap κ ν} {es : List (κ × ν)} {k : κ} :
    k ∈ keys (extend m es) ↔ k ∈ keys m ∨ k ∈ es.map Prod.fst := by
  induction es generalizing m with
  | nil => simp [extend]
  | cons e es ih =>
    rw [extend_cons, ih, mem_keys_insert]
    simp only [List.map_cons, List.mem_cons]
    tauto

end OMap

namespace OSet
variable {α : Type} [Key α] [DecidableEq α]

@[simp] theorem mem_insert {s : OSet α} {a x : α} : x ∈ insert s a ↔ x = a ∨ x ∈ s := by
  induction s with
  | nil => simp [insert]
  | cons b s ih =>
    simp only [insert]
    split
    · rename_i h; subst h; simp
    · split
      · simp
      · simp only [List.mem_cons, ih]
        tauto

theorem mem_extend {s : OSet α} {as : List α} {x : α} : x ∈ extend s as ↔ x ∈ s ∨ x ∈ as := by
  induction as generalizing s with
  | nil => simp [extend]
  | cons a as ih =>
    have : extend s (a :: as) = extend (insert s a) as := rfl
    rw [this, ih, mem_insert]
    simp only [List.mem_cons]
    tauto

theorem mem_ofList {as : List α} {x : α} : x ∈ ofList as ↔ x ∈ as := by
  rw [ofList, mem_extend]; simp

theorem Sorted.insert {s : OSet α} (h : Sorted s) (a : α) : Sorted (insert s a) := by
  induction s with
  | nil => simp [OSet.insert, Sorted]
  | cons b s ih =>
    have hb := List.pairwise_cons.mp h
    simp only [OSet.insert]
    split
    · exact h
    · split
      · rename_i hlt
        refine List.pairwise_cons.mpr ⟨fun c hc => ?_, h⟩
        rcases List.mem_cons.mp hc with rfl | hc
        · exact hlt
        · exact Key.lt_trans hlt (hb.1 c hc)
      · rename_i hne hlt
        refine List.pairwise_cons.mpr ⟨fun c hc => ?_, ih hb.2⟩
        rcases mem_insert.mp hc with rfl | hc
        · rcases Key.lt_total c b with h' | h' | h'
          · exact absurd h' hlt
          · exact absurd h' hne
          · exact h'
        · exact hb.1 c hc

theorem Sorted.extend {s : OSet α} (h : Sorted s) (as : List α) : Sorted (extend s as) := by
  induction as generalizing s with
  | nil => exact h
  | cons a as ih => exact ih (h.insert a)

/-- Two sorted sets with the same members are equal. -/
theorem Sorted.ext {s t : OSet α} (hs : Sorted s) (ht : Sorted t) (h : ∀ x, x ∈ s ↔ x ∈ t) : s = t := by
  induction s generalizing t with
  | nil =>
    cases t with
    | nil => rfl
    | cons b t => exact absurd ((h b).mpr List.mem_cons_self) (by simp)
  | cons a s ih =>
    cases t with
    | nil => exact absurd ((h a).mp List.mem_cons_self) (by simp)
    | cons b t =>
      have ha := List.pairwise_cons.mp hs
      have hb := List.pairwise_cons.mp ht
      have hab : a = b := by
        rcases Key.lt_total a b with hlt | heq | hlt
        · rcases List.mem_cons.mp ((h a).mp List.mem_cons_self) with h' | h'
          · exact h'
          · have := hb.1 a h'; rw [Key.lt_asymm hlt] at this; cases this
        · exact heq
        · rcases List.mem_cons.mp ((h b).mpr List.mem_cons_self) with h' | h'
          · exact h'.symm
          · have := ha.1 b h'; rw [Key.lt_asymm hlt] at this; cases this
      subst hab
      congr 1
      refine ih ha.2 hb.2 fun x => ?_
      constructor
      · intro hx
        rcases List.mem_cons.mp ((h x).mp (List.mem_cons_of_mem _ hx)) with rfl | h'
        · exact absurd (ha.1 x hx) (by rw [Key.lt_irrefl]; simp)
        · exact h'
      · intro hx
        rcases List.mem_cons.mp ((h x).mpr (List.mem_cons_of_mem _ hx)) with rfl | h'
        · exact absurd (hb.1 x hx) (by rw [Key.lt_irrefl]; simp)
        · exact h'

end OSet

end Rgb
