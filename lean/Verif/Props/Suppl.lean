import Verif.Model.Suppl
import Verif.Lemmas.Base
import Mathlib.Data.List.Perm.Subperm

/-!
# C60: annotations of supplements
-/

namespace Rgb.Suppl

/-- The blob at an item, which is what `get` deserializes. -/
def Supplement.at? (s : Supplement) (sub : Sub) (item : Item) (name : Nat) : Option Nat :=
  (OMap.get? s.annotations sub).bind fun a => (OMap.get? a item).bind fun b => OMap.get? b name

theorem get_eq {T E : Type} (de : Nat → Except E T) (s : Supplement) (sub : Sub) (item : Item) (name : Nat) :
    get de s sub item name = (s.at? sub item name).map de := by
  unfold get Supplement.at?
  cases OMap.get? s.annotations sub with
  | none => rfl
  | some a => cases h : OMap.get? a item <;> simp [h]

/-- What the types of the maps ensure: keys are distinct and ordered, and there are at most 255 of them. -/
structure Supplement.WF (s : Supplement) : Prop where
  sorted : OMap.Sorted s.annotations
  items : ∀ (sub : Sub) (a : SMap), OMap.get? s.annotations sub = some a → OMap.Sorted a ∧ a.length ≤ 255
  names : ∀ (sub : Sub) (a : SMap) (item : Item) (b : Annotations), OMap.get? s.annotations sub = some a → OMap.get? a item = some b →
    OMap.Sorted b ∧ b.length ≤ 255

/-- How many items the annotations of a part of the document are about, and how many annotations an item has. -/
def Supplement.itemCount (s : Supplement) (sub : Sub) : Nat := ((OMap.get? s.annotations sub).getD []).length
def Supplement.nameCount (s : Supplement) (sub : Sub) (item : Item) : Nat :=
  ((OMap.get? ((OMap.get? s.annotations sub).getD []) item).getD []).length

/-- The part of the document has an entry for the item. -/
def Supplement.hasItem (s : Supplement) (sub : Sub) (item : Item) : Bool := (OMap.get? ((OMap.get? s.annotations sub).getD []) item).isSome

theorem subs_le {m : OMap Sub SMap} (h : OMap.Sorted m) : m.length ≤ 10 := by
  have hn := h.nodup
  have hs : OMap.keys m ⊆ [Sub.itself, .meta, .global, .owned, .valency, .assignment, .genesis, .transition, .extension, .exception] := by
    intro x _; cases x <;> simp
  have := (List.Nodup.subperm hn hs).length_le
  simpa [OMap.keys] using this

theorem erase_length_of_none {κ ν : Type} [Key κ] [DecidableEq κ] {m : OMap κ ν} {k : κ} (h : OMap.get? m k = none) : OMap.erase m k = m := by
  rw [OMap.get?_eq_none_iff] at h
  unfold OMap.erase
  rw [List.filter_eq_self]
  intro e he
  simp only [decide_eq_true_eq, ne_eq]
  rintro rfl
  exact h (List.mem_map.2 ⟨e, he, rfl⟩)

theorem erase_length_lt {κ ν : Type} [Key κ] [DecidableEq κ] {m : OMap κ ν} {k : κ} {v : ν} (h : OMap.get? m k = some v) :
    (OMap.erase m k).length < m.length := by
  have hm := OMap.mem_of_get? h
  unfold OMap.erase
  refine Nat.lt_of_le_of_ne (List.length_filter_le _ _) (fun he => ?_)
  have := List.length_filter_eq_length_iff.1 he (k, v) hm
  simp at this

theorem tinyInsert_ok {κ ν : Type} [Key κ] [DecidableEq κ] {m : OMap κ ν} {k : κ} {v : ν} {m' : OMap κ ν} :
    tinyInsert m k v = .ok m' ↔ m.length < 255 ∧ m' = OMap.insert m k v := by
  unfold tinyInsert
  split
  · simp; omega
  · simp only [Except.ok.injEq]
    exact ⟨fun h => ⟨by omega, h.symm⟩, fun h => h.2.symm⟩

theorem tinyInsert_error {κ ν : Type} [Key κ] [DecidableEq κ] {m : OMap κ ν} {k : κ} {v : ν} (h : ¬ m.length < 255) :
    tinyInsert m k v = .error .confinement := by
  unfold tinyInsert; rw [if_pos (by omega)]

/-- The outcome of annotating. -/
theorem annotate_cases (s : Supplement) (hs : s.WF) (sub : Sub) (item : Item) (name : Nat) (data : Option Nat) :
    (∃ blob : Nat, data = some blob ∧ s.nameCount sub item < 255 ∧ (s.itemCount sub < 255 ∨ (OMap.get? ((OMap.get? s.annotations sub).getD []) item).isSome) ∧
      annotate s sub item name data =
        (⟨OMap.insert (OMap.erase s.annotations sub) sub (OMap.insert (OMap.erase ((OMap.get? s.annotations sub).getD []) item) item
          (OMap.insert ((OMap.get? ((OMap.get? s.annotations sub).getD []) item).getD []) name blob))⟩, .ok (s.at? sub item name).isSome)) ∨
    ((data = none ∨ ¬ s.nameCount sub item < 255 ∨ ¬ (s.itemCount sub < 255 ∨ (OMap.get? ((OMap.get? s.annotations sub).getD []) item).isSome)) ∧
      ∃ e : Err, annotate s sub item name data = (⟨OMap.erase s.annotations sub⟩, .error e) ∧ (e = .serialize ↔ data = none)) := by
  cases data with
  | none => exact .inr ⟨.inl rfl, .serialize, rfl, by simp⟩
  | some blob =>
    by_cases hn : s.nameCount sub item < 255
    · by_cases hi : s.itemCount sub < 255 ∨ (OMap.get? ((OMap.get? s.annotations sub).getD []) item).isSome
      · refine .inl ⟨blob, rfl, hn, hi, ?_⟩
        have hi' : (OMap.erase ((OMap.get? s.annotations sub).getD []) item).length < 255 := by
          unfold Supplement.itemCount at hi
          cases hg : OMap.get? ((OMap.get? s.annotations sub).getD []) item with
          | none =>
            rw [erase_length_of_none hg]
            rcases hi with h | h
            · exact h
            · rw [hg] at h; cases h
          | some b =>
            have h1 := erase_length_lt hg
            have h2 : ((OMap.get? s.annotations sub).getD []).length ≤ 255 := by
              cases ha : OMap.get? s.annotations sub with
              | none => simp
              | some a => exact (hs.items sub a ha).2
            omega
        have hs' : (OMap.erase s.annotations sub).length < 255 := by
          have := subs_le (hs.sorted.erase sub); omega
        unfold Supplement.nameCount at hn
        have hat : (s.at? sub item name).isSome = (OMap.get? ((OMap.get? ((OMap.get? s.annotations sub).getD []) item).getD []) name).isSome := by
          unfold Supplement.at?
          cases OMap.get? s.annotations sub with
          | none => rfl
          | some a =>
            simp only [Option.bind_some, Option.getD_some]
            cases OMap.get? a item <;> rfl
        simp only [annotate, tinyInsert_ok.2 ⟨hn, rfl⟩, tinyInsert_ok.2 ⟨hi', rfl⟩, tinyInsert_ok.2 ⟨hs', rfl⟩, hat]
      · refine .inr ⟨.inr (.inr hi), .confinement, ?_, by simp⟩
        have hi' : ¬ (OMap.erase ((OMap.get? s.annotations sub).getD []) item).length < 255 := by
          unfold Supplement.itemCount at hi
          have hg : OMap.get? ((OMap.get? s.annotations sub).getD []) item = none := by
            cases hg : OMap.get? ((OMap.get? s.annotations sub).getD []) item with
            | none => rfl
            | some b => exact absurd (.inr (by rw [hg]; rfl)) hi
          rw [erase_length_of_none hg]
          exact fun h => hi (.inl h)
        unfold Supplement.nameCount at hn
        simp only [annotate, tinyInsert_ok.2 ⟨hn, rfl⟩, tinyInsert_error hi']
    · refine .inr ⟨.inr (.inl hn), .confinement, ?_, by simp⟩
      unfold Supplement.nameCount at hn
      simp only [annotate, tinyInsert_error hn]

theorem at?_annotated (s : Supplement) (sub : Sub) (item : Item) (name blob : Nat) (sub' : Sub) (item' : Item) (name' : Nat) :
    Supplement.at? ⟨OMap.insert (OMap.erase s.annotations sub) sub (OMap.insert (OMap.erase ((OMap.get? s.annotations sub).getD []) item) item
          (OMap.insert ((OMap.get? ((OMap.get? s.annotations sub).getD []) item).getD []) name blob))⟩ sub' item' name' =
      if (sub', item', name') = (sub, item, name) then some blob else s.at? sub' item' name' := by
  unfold Supplement.at?
  simp only [OMap.get?_insert, OMap.get?_erase, Prod.mk.injEq]
  by_cases h1 : sub' = sub
  · subst h1
    simp only [if_true, Option.bind_some, true_and]
    by_cases h2 : item' = item
    · subst h2
      simp only [OMap.get?_insert, if_true, Option.bind_some, true_and]
      by_cases h3 : name' = name
      · simp [h3]
      · simp only [h3, if_false]
        cases OMap.get? s.annotations sub' with
        | none => rfl
        | some a =>
          simp only [Option.bind_some, Option.getD_some]
          cases OMap.get? a item' <;> rfl
    · simp only [OMap.get?_insert, OMap.get?_erase, h2, if_false, false_and]
      cases OMap.get? s.annotations sub' with
      | none => rfl
      | some a => rfl
  · simp [h1]

theorem at?_erased (s : Supplement) (sub sub' : Sub) (item' : Item) (name' : Nat) :
    Supplement.at? ⟨OMap.erase s.annotations sub⟩ sub' item' name' = if sub' = sub then none else s.at? sub' item' name' := by
  unfold Supplement.at?
  simp only [OMap.get?_erase]
  by_cases h1 : sub' = sub <;> simp [h1]

theorem insert_erase_length {κ ν : Type} [Key κ] [DecidableEq κ] (m : OMap κ ν) (k : κ) (v : ν) :
    (OMap.insert m k v).length ≤ m.length + 1 := by
  induction m with
  | nil => simp [OMap.insert]
  | cons e m ih =>
    simp only [OMap.insert]
    split
    · simp
    · split
      · simp
      · simp only [List.length_cons]; omega

/-- Annotating keeps what the types ensure. -/
theorem annotate_wf (s : Supplement) (hs : s.WF) (sub : Sub) (item : Item) (name : Nat) (data : Option Nat) : (annotate s sub item name data).1.WF := by
  rcases annotate_cases s hs sub item name data with ⟨blob, _, hn, hi, he⟩ | ⟨_, e, he, _⟩
  · rw [he]
    have hA : OMap.Sorted ((OMap.get? s.annotations sub).getD []) ∧ ((OMap.get? s.annotations sub).getD []).length ≤ 255 := by
      cases ha : OMap.get? s.annotations sub with
      | none => exact ⟨.nil, by simp⟩
      | some a => exact hs.items sub a ha
    have hB : ∀ (item : Item) (b : Annotations), OMap.get? ((OMap.get? s.annotations sub).getD []) item = some b → OMap.Sorted b ∧ b.length ≤ 255 := by
      intro item b hb
      cases ha : OMap.get? s.annotations sub with
      | none => rw [ha] at hb; cases hb
      | some a => rw [ha] at hb; exact hs.names sub a item b ha hb
    have hB' : OMap.Sorted ((OMap.get? ((OMap.get? s.annotations sub).getD []) item).getD []) := by
      cases hb : OMap.get? ((OMap.get? s.annotations sub).getD []) item with
      | none => exact .nil
      | some b => exact (hB item b hb).1
    refine ⟨(hs.sorted.erase sub).insert _ _, ?_, ?_⟩
    · intro sub' a' h'
      rw [OMap.get?_insert] at h'
      split at h'
      · cases h'
        refine ⟨(hA.1.erase item).insert _ _, Nat.le_trans (insert_erase_length _ _ _) ?_⟩
        unfold Supplement.itemCount at hi
        cases hg : OMap.get? ((OMap.get? s.annotations sub).getD []) item with
        | none =>
          rw [erase_length_of_none hg]
          rcases hi with h | h
          · exact h
          · rw [hg] at h; cases h
        | some b => have := erase_length_lt hg; omega
      · rename_i hne
        rw [OMap.get?_erase, if_neg hne] at h'
        exact hs.items sub' a' h'
    · intro sub' a' item' b' h' hb'
      rw [OMap.get?_insert] at h'
      split at h'
      · cases h'
        rw [OMap.get?_insert] at hb'
        split at hb'
        · cases hb'
          exact ⟨hB'.insert _ _, Nat.le_trans (insert_erase_length _ _ _) hn⟩
        · rename_i hne
          rw [OMap.get?_erase, if_neg hne] at hb'
          exact hB item' b' hb'
      · rename_i hne
        rw [OMap.get?_erase, if_neg hne] at h'
        exact hs.names sub' a' item' b' h' hb'
  · rw [he]
    refine ⟨hs.sorted.erase sub, ?_, ?_⟩
    · intro sub' a' h'
      simp only [OMap.get?_erase] at h'
      split at h'
      · cases h'
      · exact hs.items sub' a' h'
    · intro sub' a' item' b' h' hb'
      simp only [OMap.get?_erase] at h'
      split at h'
      · cases h'
      · exact hs.names sub' a' item' b' h' hb'

/-- One call of `annotate`. -/
structure Call where
  sub : Sub
  item : Item
  name : Nat
  data : Option Nat
  deriving DecidableEq, Repr

/-- A sequence of calls, with their results. -/
def run : Supplement → List Call → Supplement × List (Except Err Bool)
  | s, [] => (s, [])
  | s, c :: rest =>
    let r := annotate s c.sub c.item c.name c.data
    let q := run r.1 rest
    (q.1, r.2 :: q.2)

/-- The value expected at a place after calls with known results: the last one set there, unless a call for the same part of the document has failed
since. -/
def expected (sub : Sub) (item : Item) (name : Nat) : Option Nat → List (Call × Except Err Bool) → Option Nat
  | old, [] => old
  | old, (c, .ok _) :: rest => expected sub item name (if (c.sub, c.item, c.name) = (sub, item, name) then c.data else old) rest
  | old, (c, .error _) :: rest => expected sub item name (if c.sub = sub then none else old) rest

end Rgb.Suppl

namespace Rgb.Props
open Rgb Rgb.Suppl

/-- Annotating without an error makes exactly this value returned for the item and the name, keeps all other annotations, and tells whether there was
one before. -/
theorem C60_annotate {T E : Type} (de : Nat → Except E T) (s s' : Supplement) (hs : s.WF) (sub : Sub) (item : Item) (name blob : Nat) (was : Bool)
    (h : annotate s sub item name (some blob) = (s', .ok was)) :
    get de s' sub item name = some (de blob) ∧
    (∀ (sub' : Sub) (item' : Item) (name' : Nat), (sub', item', name') ≠ (sub, item, name) → get de s' sub' item' name' = get de s sub' item' name') ∧
    (was = true ↔ ∃ v, get de s sub item name = some v) := by
  rcases annotate_cases s hs sub item name (some blob) with ⟨b, hb, _, _, he⟩ | ⟨_, e, he, _⟩
  · cases hb
    rw [he] at h
    cases h
    refine ⟨?_, fun sub' item' name' hne => ?_, ?_⟩
    · rw [get_eq, at?_annotated, if_pos rfl]; rfl
    · rw [get_eq, get_eq, at?_annotated, if_neg hne]
    · rw [get_eq]
      cases s.at? sub item name <;> simp
  · rw [he] at h; cases h

/-- A value of any type is read back. -/
theorem C60_roundtrip {T E : Type} (se : T → Option Nat) (de : Nat → Except E T) (hd : ∀ (v : T) (b : Nat), se v = some b → de b = .ok v)
    (s s' : Supplement) (hs : s.WF) (sub : Sub) (item : Item) (name : Nat) (v : T) (was : Bool)
    (h : annotate s sub item name (se v) = (s', .ok was)) : get de s' sub item name = some (.ok v) := by
  cases hv : se v with
  | none => rw [hv] at h; simp [annotate] at h
  | some b => rw [hv] at h; rw [(C60_annotate de s s' hs sub item name b was h).1, hd v b hv]

/-- Annotating fails exactly if the value can't be serialized, or the item has 255 annotations, or the item is new and there are 255 others. -/
theorem C60_refused (s : Supplement) (hs : s.WF) (sub : Sub) (item : Item) (name : Nat) (data : Option Nat) :
    (∃ e : Err, (annotate s sub item name data).2 = .error e) ↔
      data = none ∨ 255 ≤ s.nameCount sub item ∨ (255 ≤ s.itemCount sub ∧ s.hasItem sub item = false) := by
  rcases annotate_cases s hs sub item name data with ⟨b, hb, hn, hi, he⟩ | ⟨hc, e, he, _⟩
  · rw [he]
    constructor
    · rintro ⟨e, h⟩; cases h
    · rintro (h | h | ⟨h1, h2⟩)
      · rw [h] at hb; cases hb
      · omega
      · rcases hi with h | h
        · omega
        · rw [Supplement.hasItem, h] at h2; cases h2
  · rw [he]
    refine ⟨fun _ => ?_, fun _ => ⟨e, rfl⟩⟩
    rcases hc with h | h | h
    · exact .inl h
    · exact .inr (.inl (by omega))
    · refine .inr (.inr ⟨Decidable.byContradiction fun hh => h (.inl (by omega)), ?_⟩)
      cases hg : s.hasItem sub item with
      | false => rfl
      | true => exact absurd (.inr hg) h

/-- A failed call keeps annotations of other parts of the document; all those of the same part are lost.

The full property says that a failed annotation keeps everything: see `C60_failed_fails`. -/
theorem C60_failed_partial {T E : Type} (de : Nat → Except E T) (s s' : Supplement) (hs : s.WF) (sub : Sub) (item : Item) (name : Nat) (data : Option Nat)
    (e : Err) (h : annotate s sub item name data = (s', .error e)) (sub' : Sub) (item' : Item) (name' : Nat) :
    get de s' sub' item' name' = if sub' = sub then none else get de s sub' item' name' := by
  rcases annotate_cases s hs sub item name data with ⟨b, hb, _, _, he⟩ | ⟨_, e', he, _⟩
  · rw [he] at h; cases h
  · rw [he] at h; cases h
    rw [get_eq, get_eq, at?_erased]
    by_cases h1 : sub' = sub <;> simp [h1]

/-- After any sequence of calls, what is returned is the last value set for the item and the name, unless a call for the same part of the document
has failed since: then nothing is. -/
theorem C60_history {T E : Type} (de : Nat → Except E T) (s : Supplement) (hs : s.WF) (calls : List Call) (sub : Sub) (item : Item) (name : Nat) :
    (run s calls).1.WF ∧ (run s calls).2.length = calls.length ∧
    get de (run s calls).1 sub item name = (expected sub item name (s.at? sub item name) (calls.zip (run s calls).2)).map de := by
  induction calls generalizing s with
  | nil => exact ⟨hs, rfl, by rw [get_eq]; rfl⟩
  | cons c calls ih =>
    have hwf := annotate_wf s hs c.sub c.item c.name c.data
    obtain ⟨h1, h2, h3⟩ := ih (annotate s c.sub c.item c.name c.data).1 hwf
    refine ⟨h1, by simp [run, h2], ?_⟩
    rw [run, h3]
    simp only [List.zip_cons_cons]
    rcases annotate_cases s hs c.sub c.item c.name c.data with ⟨b, hb, _, _, he⟩ | ⟨_, e, he, _⟩
    · rw [he]
      simp only [expected]
      rw [at?_annotated, hb]
      congr 2
      by_cases hh : (c.sub, c.item, c.name) = (sub, item, name)
      · rw [if_pos hh, if_pos hh.symm]
      · rw [if_neg hh, if_neg (fun h => hh h.symm)]
    · rw [he]
      simp only [expected]
      rw [at?_erased]
      congr 2
      by_cases hh : c.sub = sub
      · rw [if_pos hh, if_pos hh.symm]
      · rw [if_neg hh, if_neg (fun h => hh h.symm)]

/-- The shortcuts: annotations of the document itself and of default items. `get_default_opt` returns the value exactly if it can be read. -/
theorem C60_default {T E : Type} (de : Nat → Except E T) (s : Supplement) (sub : Sub) (name : Nat) (data : Option Nat) (v : T) :
    annotateItself s name data = annotate s .itself .default name data ∧ annotateDefault s sub name data = annotate s sub .default name data ∧
    getDefault de s sub name = get de s sub .default name ∧
    (getDefaultOpt de s sub name = some v ↔ get de s sub .default name = some (.ok v)) := by
  refine ⟨rfl, rfl, rfl, ?_⟩
  have : getDefault de s sub name = get de s sub .default name := rfl
  unfold getDefaultOpt
  rw [this]
  cases get de s sub .default name with
  | none => simp
  | some r => cases r <;> simp

/-- The velocity hint for a byte is the lowest one not below it; all of them are given by their own values. -/
theorem C60_velocity (v : Nat) (hv : v ≤ 255) :
    v ≤ (Velocity.withValue v).num ∧ (∀ h : Velocity, v ≤ h.num → (Velocity.withValue v).num ≤ h.num) ∧
    (∀ h : Velocity, Velocity.withValue h.num = h) := by
  refine ⟨?_, fun h hh => ?_, fun h => by cases h <;> decide⟩
  · unfold Velocity.withValue
    repeat' split
    all_goals simp only [Velocity.num]; omega
  · unfold Velocity.withValue
    cases h <;> simp only [Velocity.num] at hh <;> (repeat' split) <;> simp only [Velocity.num] <;> omega

/-! ## Counterexamples and examples -/

/-- Two items of transitions annotated, and one of the document. -/
def supplCalls : List Call :=
  [⟨.transition, .typeNo 1, 5, some 70⟩, ⟨.transition, .typeNo 2, 5, some 71⟩, ⟨.itself, .default, 6, some 72⟩, ⟨.transition, .typeNo 1, 5, some 73⟩]

theorem empty_wf : Supplement.WF {} := ⟨.nil, (by intro _ _ h; cases h), (by intro _ _ _ _ h; cases h)⟩

/-- A failed annotation loses annotations, also those of other items. -/
theorem C60_failed_fails : ¬ ∀ (s s' : Supplement) (sub : Sub) (item : Item) (name : Nat) (data : Option Nat) (e : Err), s.WF →
    annotate s sub item name data = (s', .error e) → ∀ (sub' : Sub) (item' : Item) (name' : Nat), s'.at? sub' item' name' = s.at? sub' item' name' := by
  intro h
  have := h (run {} supplCalls).1 _ .transition (.typeNo 3) 5 none .serialize (C60_history (E := Unit) (fun b => .ok b) {} empty_wf supplCalls .itself .default 6).1
    (by rfl) .transition (.typeNo 1) 5
  exact absurd this (by decide +kernel)

example : (run {} supplCalls).2 = [.ok false, .ok false, .ok false, .ok true] ∧
    get (E := Unit) (fun b => .ok b) (run {} supplCalls).1 .transition (.typeNo 1) 5 = some (.ok 73) ∧
    get (E := Unit) (fun b => .ok b) (run {} supplCalls).1 .transition (.typeNo 2) 5 = some (.ok 71) ∧
    getDefaultOpt (E := Unit) (fun b => .ok b) (run {} supplCalls).1 .itself 6 = some 72 := by decide +kernel

/-- The 256th annotation of an item is refused. -/
example : (run {} ((List.range 256).map (fun n => ⟨.itself, .default, n, some n⟩))).2.getLast? = some (.error .confinement) := by decide +kernel

end Rgb.Props
