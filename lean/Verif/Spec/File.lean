import Verif.Model.File
import Verif.Spec.TableCommit

/-!
# Laws of the external codecs, and codecs for examples
-/

namespace Rgb.File

/-- The strict encoding round-trips, is followed by whatever is in the stream, and decoding depends only on the bytes it takes. -/
structure StreamCodec.Lawful {α : Type} (C : StreamCodec α) : Prop where
  dec_enc : ∀ (a : α) (rest : List Nat), C.dec (C.enc a ++ rest) = some (a, rest)
  stream : ∀ (a : α) (d rest more : List Nat), C.dec d = some (a, rest) → C.dec (d ++ more) = some (a, rest ++ more)

/-- Armored text round-trips, but for the contents of headers; headers with values are read as headers with values. -/
structure Armor.Lawful (A : Armor) : Prop where
  parse_print : ∀ (title : String) (id : Nat) (headers : List ArmorHeader) (data : List Nat), ∃ read : List ArmorHeader,
    A.parse (A.print title id headers data) = some (title, id, read, data) ∧ ((∀ h ∈ headers, h.values ≠ []) → ∀ h ∈ read, h.values ≠ [])

/-- The armor keeps headers, too. -/
def Armor.KeepsHeaders (A : Armor) : Prop :=
  ∀ (title : String) (id : Nat) (headers : List ArmorHeader) (data : List Nat), A.parse (A.print title id headers data) = some (title, id, headers, data)

/-- What headers with a title say. -/
def headersNamed (headers : List ArmorHeader) (title : String) : List (List String) :=
  (headers.filter (fun h => decide (h.title = title))).map ArmorHeader.values

/-- Whatever headers with values a text has, reading doesn't panic; printed headers have values. -/
structure Plate.Calm {α : Type} (P : Plate α) : Prop where
  reads : ∀ (a : α) (headers : List ArmorHeader), (∀ h ∈ headers, h.values ≠ []) → P.checkHeaders a headers = some ()
  prints : ∀ a : α, ∀ h ∈ P.headers a, h.values ≠ []

deriving instance Countable for Bundle
deriving instance Countable for DbcProof
deriving instance Countable for ClientBundle
deriving instance Countable for AnchoredBundles
deriving instance Countable for Tx
deriving instance Countable for PubWitness
deriving instance Countable for XPubWitness
deriving instance Countable for WitnessBundle
deriving instance Countable for ConsignmentData
deriving instance Countable for SchemaDoc
deriving instance Countable for IfaceDoc
deriving instance Countable for IimplDoc
deriving instance Countable for SupplDoc
deriving instance Countable for Kit
deriving instance Countable for Consignment
deriving instance Countable for ConsignmentFile

/-- A codec which evaluates on the values of a table. The other values are encoded by odd numbers. -/
noncomputable def tableCodec {α : Type} [DecidableEq α] [Countable α] (l : List α) : StreamCodec α where
  enc a := [tableId l (Classical.choose (exists_injective_nat α)) a]
  dec d :=
    match d with
    | [] => none
    | n :: rest =>
      if n % 2 = 0 then (l[n / 2]?).map (fun a => (a, rest))
      else
        open Classical in
        if h : ∃ a : α, tableId l (choose (exists_injective_nat α)) a = n then some (choose h, rest) else none

theorem tableCodec_lawful {α : Type} [DecidableEq α] [Countable α] (l : List α) : (tableCodec l).Lawful where
  dec_enc a rest := by
    have hf : ∀ a b : α, Classical.choose (exists_injective_nat α) a = Classical.choose (exists_injective_nat α) b → a = b :=
      fun a b h => Classical.choose_spec (exists_injective_nat α) h
    simp only [tableCodec, List.singleton_append]
    by_cases ha : a ∈ l
    · have e : tableId l (Classical.choose (exists_injective_nat α)) a = 2 * l.idxOf a := by simp [tableId, ha]
      rw [e, if_pos (by omega), show 2 * l.idxOf a / 2 = l.idxOf a by omega,
        List.getElem?_eq_getElem (List.idxOf_lt_length_of_mem ha), List.getElem_idxOf]
      rfl
    · have e : tableId l (Classical.choose (exists_injective_nat α)) a % 2 ≠ 0 := by simp [tableId, ha]
      rw [if_neg e]
      have h : ∃ a' : α, tableId l (Classical.choose (exists_injective_nat α)) a' = tableId l (Classical.choose (exists_injective_nat α)) a := ⟨a, rfl⟩
      rw [dif_pos h]
      have := tableId_inj hf (Classical.choose_spec h)
      rw [this]
  stream a d rest more h := by
    cases d with
    | nil => simp [tableCodec] at h
    | cons n d =>
      simp only [tableCodec, List.cons_append] at h ⊢
      split at h
      · rename_i hn
        rw [if_pos hn]
        cases hl : l[n / 2]? with
        | none => simp [hl] at h
        | some x => simp only [hl, Option.map_some, Option.some.injEq, Prod.mk.injEq] at h ⊢; exact ⟨h.1, by rw [h.2]⟩
      · rename_i hn
        rw [if_neg hn]
        split at h
        · rename_i hh
          rw [dif_pos hh]
          simp only [Option.some.injEq, Prod.mk.injEq] at h ⊢; exact ⟨h.1, by rw [h.2]⟩
        · cases h

instance : Countable String := by
  have : Countable Char := Function.Injective.countable (f := Char.toNat) (fun a b h => Char.toNat_inj.1 h)
  exact Function.Injective.countable (f := String.toList) (fun _ _ h => String.toList_injective h)

deriving instance Countable for ArmorHeader

theorem exists_armor : ∃ A : Armor, A.KeepsHeaders := by
  obtain ⟨f, hf⟩ := exists_injective_nat (String × Nat × List ArmorHeader × List Nat)
  have hinj : ∀ x y : String × Nat × List ArmorHeader × List Nat,
      String.ofList (List.replicate (f x) 'a') = String.ofList (List.replicate (f y) 'a') → x = y := by
    intro x y h
    have h := congrArg List.length (String.ofList_injective h)
    simp only [List.length_replicate] at h
    exact hf h
  classical
  refine ⟨⟨fun t i l d => String.ofList (List.replicate (f (t, i, l, d)) 'a'), fun s =>
    if h : ∃ x : String × Nat × List ArmorHeader × List Nat, String.ofList (List.replicate (f x) 'a') = s then some (Classical.choose h) else none⟩, ?_⟩
  intro t i l d
  have h : ∃ x : String × Nat × List ArmorHeader × List Nat, String.ofList (List.replicate (f x) 'a') =
    String.ofList (List.replicate (f (t, i, l, d)) 'a') := ⟨(t, i, l, d), rfl⟩
  show (if h : _ then _ else _) = _
  rw [dif_pos h]
  exact congrArg some (hinj _ _ (Classical.choose_spec h))

/-- Some armor, for examples. -/
noncomputable def toyArmor : Armor := Classical.choose exists_armor
theorem toyArmor_keeps : toyArmor.KeepsHeaders := Classical.choose_spec exists_armor
theorem toyArmor_lawful : toyArmor.Lawful := ⟨fun t i l d => ⟨l, toyArmor_keeps t i l d, fun h => h⟩⟩

end Rgb.File
