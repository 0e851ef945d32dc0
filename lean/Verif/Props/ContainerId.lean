import Verif.Spec.Container
import Verif.Spec.StockWorld
import Verif.Props.File

/-!
# C67: what ids of containers commit to
-/

namespace Rgb

theorem SameSet.map_iff {α β : Type} {f : α → β} (hf : ∀ a b : α, f a = f b → a = b) {a b : List α} :
    (∀ y : β, y ∈ a.map f ↔ y ∈ b.map f) ↔ SameSet a b := by
  constructor
  · intro h x
    have key : ∀ l : List α, f x ∈ l.map f ↔ x ∈ l := by
      intro l
      rw [List.mem_map]
      exact ⟨fun ⟨y, hy, e⟩ => hf _ _ e ▸ hy, fun hx => ⟨x, hx, rfl⟩⟩
    rw [← key a, ← key b]; exact h (f x)
  · intro h y
    simp only [List.mem_map]
    exact ⟨fun ⟨x, hx, e⟩ => ⟨x, (h x).1 hx, e⟩, fun ⟨x, hx, e⟩ => ⟨x, (h x).2 hx, e⟩⟩

theorem ofList_eq_iff {a b : List Nat} : OSet.ofList a = OSet.ofList b ↔ ∀ y : Nat, y ∈ a ↔ y ∈ b := by
  have hs : ∀ l : List Nat, OSet.Sorted (OSet.ofList l) := fun l => OSet.Sorted.extend (by simp [OSet.Sorted]) l
  constructor
  · intro h y; rw [← OSet.mem_ofList (as := a), ← OSet.mem_ofList (as := b), h]
  · intro h; exact OSet.Sorted.ext (hs a) (hs b) fun x => by rw [OSet.mem_ofList, OSet.mem_ofList]; exact h x

theorem ofList_map_eq_iff {α : Type} {f : α → Nat} (hf : ∀ a b : α, f a = f b → a = b) {a b : List α} :
    OSet.ofList (a.map f) = OSet.ofList (b.map f) ↔ SameSet a b := by rw [ofList_eq_iff, SameSet.map_iff hf]

end Rgb

namespace Rgb.Props
open Rgb Rgb.File

/-- Two consignments have the same id exactly if they agree in everything but the schema, the interfaces and the contents of attachments.

The full property is that they are the same then.
Missing: the schema, the interfaces and the attachments, see `C67_schema_fails`, `C67_iface_fails` and `C67_attachment_fails`. -/
theorem C67_consignment_partial (H : Commit) {I : Ids} {D : CIds} (hD : D.Binding I) {hash : ConCommitted → Nat}
    (hh : ∀ a b : ConCommitted, hash a = hash b → a = b) (c d : ConsignmentFile) :
    c.id H I D hash = d.id H I D hash ↔ c.SameButDocs d := by
  have himpl : ∀ l : List (IfaceDoc × IimplDoc), l.map (fun e => D.impl e.2) = (l.map Prod.snd).map D.impl := fun l => by rw [List.map_map]; rfl
  constructor
  · intro h
    have h := hh _ _ h
    simp only [ConsignmentFile.committed, ConCommitted.mk.injEq, himpl, ofList_map_eq_iff hD.impl, ofList_map_eq_iff hD.witnessBundle,
      ofList_map_eq_iff hD.disclose, ofList_map_eq_iff hD.suppl, ofList_map_eq_iff hD.lib, ofList_eq_iff] at h
    obtain ⟨h1, h2, _, h4, h5, h6, h7, h8, h9, h10, h11, h12, h13⟩ := h
    exact ⟨h1, h2, hD.disclose _ _ h4, h5, h6, h7, h8, h9, h10, hD.types _ _ h11, h12, h13⟩
  · rintro ⟨h1, h2, h4, h5, h6, h7, h8, h9, h10, h11, h12, h13⟩
    refine congrArg hash ?_
    simp only [ConsignmentFile.committed, ConCommitted.mk.injEq, himpl, ofList_map_eq_iff hD.impl, ofList_map_eq_iff hD.witnessBundle,
      ofList_map_eq_iff hD.disclose, ofList_map_eq_iff hD.suppl, ofList_map_eq_iff hD.lib, ofList_eq_iff]
    exact ⟨h1, h2, by rw [h4], by rw [h4], h5, h6, h7, h8, h9, h10, by rw [h11], h12, h13⟩

/-- Two kits have the same id exactly if they have the same contents. -/
theorem C67_kit {I : Ids} {D : CIds} (hD : D.Binding I) {hash : KitCommitted → Nat} (hh : ∀ a b : KitCommitted, hash a = hash b → a = b)
    (k l : KitFile) : k.id I D hash = l.id I D hash ↔ k.Same l := by
  constructor
  · intro h
    have h := hh _ _ h
    simp only [KitFile.committed, KitCommitted.mk.injEq, ofList_map_eq_iff hD.impl, ofList_map_eq_iff hD.iface,
      ofList_map_eq_iff hD.schema, ofList_map_eq_iff hD.suppl, ofList_map_eq_iff hD.lib] at h
    obtain ⟨h1, h2, h3, h4, h5, h6, h7, h8⟩ := h
    exact ⟨h1, h2, h3, h4, h5, hD.types _ _ h6, h7, h8⟩
  · rintro ⟨h1, h2, h3, h4, h5, h6, h7, h8⟩
    refine congrArg hash ?_
    simp only [KitFile.committed, KitCommitted.mk.injEq, ofList_map_eq_iff hD.impl, ofList_map_eq_iff hD.iface,
      ofList_map_eq_iff hD.schema, ofList_map_eq_iff hD.suppl, ofList_map_eq_iff hD.lib]
    exact ⟨h1, h2, h3, h4, h5, by rw [h6], h7, h8⟩

/-- Armored text made under the id of a consignment reads, whatever data are put there, only as a consignment agreeing with it in everything but the
schema, the interfaces and the contents of attachments. The text of a kit reads only as a kit with the same contents.
Missing: the same as in `C67_consignment_partial`, see `C67_armored_fails`. -/
theorem C67_armored_partial (H : Commit) {I : Ids} {D : CIds} (hD : D.Binding I) {A : Armor} (hA : A.Lawful) :
    (∀ (hash : ConCommitted → Nat) (C : StreamCodec ConsignmentFile) (L : Labels) (c d : ConsignmentFile) (title : String)
      (headers : List ArmorHeader) (data : List Nat), (∀ a b : ConCommitted, hash a = hash b → a = b) →
      fromArmored A C (consignmentPlate L (ConsignmentFile.id H I D hash)) (A.print title (c.id H I D hash) headers data) = .ok d → c.SameButDocs d) ∧
    (∀ (hash : KitCommitted → Nat) (K : StreamCodec KitFile) (P : Plate KitFile) (k l : KitFile) (title : String)
      (headers : List ArmorHeader) (data : List Nat),
      P.id = KitFile.id I D hash → (∀ a b : KitCommitted, hash a = hash b → a = b) →
      fromArmored A K P (A.print title (k.id I D hash) headers data) = .ok l → k.Same l) := by
  have key : ∀ {α : Type} (C : StreamCodec α) (P : Plate α) (title : String) (id : Nat) (headers : List ArmorHeader) (data : List Nat) (a : α),
      fromArmored A C P (A.print title id headers data) = .ok a → id = P.id a := by
    intro α C P title id headers data a h
    obtain ⟨hs, data', h1, _⟩ := fromArmored_ok h
    obtain ⟨hs', hp, _⟩ := hA.parse_print title id headers data
    rw [hp] at h1
    cases h1
    rfl
  constructor
  · intro hash C L c d title headers data hh h
    exact (C67_consignment_partial H hD hh c d).1 (key _ _ _ _ _ _ _ h)
  · intro hash K P k l title headers data hP hh h
    have := key _ _ _ _ _ _ _ h
    rw [hP] at this
    exact (C67_kit hD hh k l).1 this

/-! ## Counterexamples and examples -/

deriving instance Countable for ConCommitted
deriving instance Countable for KitCommitted

theorem exists_ids : ∃ (I : Ids) (D : CIds), D.Binding I := by
  obtain ⟨f1, h1⟩ := exists_injective_nat IimplDoc
  obtain ⟨f2, h2⟩ := exists_injective_nat SupplDoc
  obtain ⟨f3, h3⟩ := exists_injective_nat (List Nat)
  obtain ⟨f4, h4⟩ := exists_injective_nat Op
  obtain ⟨f5, h5⟩ := exists_injective_nat WitnessBundle
  obtain ⟨f6, h6⟩ := exists_injective_nat IfaceDoc
  obtain ⟨f7, h7⟩ := exists_injective_nat SchemaDoc
  exact ⟨⟨f7, f6, id, fun _ => 0⟩, ⟨f1, f2, f3, f4, f5⟩, ⟨fun _ _ h => h1 h, fun _ _ h => h2 h, fun _ _ h => h3 h, fun _ _ h => h4 h,
    fun _ _ h => h5 h, fun _ _ h => h, fun _ _ h => h6 h, fun _ _ h => h7 h⟩⟩

theorem exists_hash : ∃ hash : ConCommitted → Nat, ∀ a b : ConCommitted, hash a = hash b → a = b := by
  obtain ⟨f, h⟩ := exists_injective_nat ConCommitted
  exact ⟨f, fun _ _ e => h e⟩

/-- A consignment with an interface and an attachment. -/
def docsCon : ConsignmentFile := ⟨2, true, { World.con with ifaces := [(⟨7, [], 0⟩, ⟨0, 3, 0⟩)], attachments := [(1, 5)] }⟩
def otherSchema : ConsignmentFile := { docsCon with body := { docsCon.body with schema := ⟨docsCon.body.schema.body + 1⟩ } }
def otherIface : ConsignmentFile := { docsCon with body := { docsCon.body with ifaces := [(⟨8, [], 0⟩, ⟨0, 3, 0⟩)] } }
def otherAttachment : ConsignmentFile := { docsCon with body := { docsCon.body with attachments := [(1, 6)] } }

/-- The id of a consignment doesn't tell its schema. -/
theorem C67_schema_fails : ¬ ∀ (H : Commit) (I : Ids) (D : CIds) (hash : ConCommitted → Nat) (c d : ConsignmentFile), D.Binding I →
    (∀ a b : ConCommitted, hash a = hash b → a = b) → c.id H I D hash = d.id H I D hash → c.body.schema = d.body.schema := by
  intro h
  obtain ⟨I, D, hD⟩ := exists_ids
  obtain ⟨hash, hh⟩ := exists_hash
  exact absurd (h toyCommit I D hash docsCon otherSchema hD hh rfl) (by decide)

/-- The id of a consignment doesn't tell its interfaces. -/
theorem C67_iface_fails : ¬ ∀ (H : Commit) (I : Ids) (D : CIds) (hash : ConCommitted → Nat) (c d : ConsignmentFile), D.Binding I →
    (∀ a b : ConCommitted, hash a = hash b → a = b) → c.id H I D hash = d.id H I D hash → c.body.ifaces = d.body.ifaces := by
  intro h
  obtain ⟨I, D, hD⟩ := exists_ids
  obtain ⟨hash, hh⟩ := exists_hash
  exact absurd (h toyCommit I D hash docsCon otherIface hD hh rfl) (by decide)

/-- The id of a consignment doesn't tell contents of its attachments. -/
theorem C67_attachment_fails : ¬ ∀ (H : Commit) (I : Ids) (D : CIds) (hash : ConCommitted → Nat) (c d : ConsignmentFile), D.Binding I →
    (∀ a b : ConCommitted, hash a = hash b → a = b) → c.id H I D hash = d.id H I D hash → c.body.attachments = d.body.attachments := by
  intro h
  obtain ⟨I, D, hD⟩ := exists_ids
  obtain ⟨hash, hh⟩ := exists_hash
  exact absurd (h toyCommit I D hash docsCon otherAttachment hD hh rfl) (by decide)

/-- The id written in armored text doesn't protect it: the data may be replaced by those of another consignment. -/
theorem C67_armored_fails : ¬ ∀ (H : Commit) (I : Ids) (D : CIds) (hash : ConCommitted → Nat) (A : Armor) (C : StreamCodec ConsignmentFile)
    (L : Labels) (c d : ConsignmentFile) (headers : List ArmorHeader) (data : List Nat), D.Binding I → (∀ a b : ConCommitted, hash a = hash b → a = b) → A.Lawful → C.Lawful →
    fromArmored A C (consignmentPlate L (ConsignmentFile.id H I D hash)) (A.print "RGB CONSIGNMENT" (c.id H I D hash) headers data) = .ok d → c = d := by
  intro h
  obtain ⟨I, D, hD⟩ := exists_ids
  obtain ⟨hash, hh⟩ := exists_hash
  exact absurd (h toyCommit I D hash toyArmor (tableCodec []) exLabels docsCon otherSchema _ _ hD hh toyArmor_lawful (tableCodec_lawful [])
    ((C59_armored toyArmor_lawful (tableCodec_lawful []) _).1 (consignmentPlate_calm _ _) otherSchema)) (by decide)

/-- Consignments which differ in more do have different ids, as do kits. -/
example {I : Ids} {D : CIds} (hD : D.Binding I) {hash : ConCommitted → Nat} (hh : ∀ a b : ConCommitted, hash a = hash b → a = b) :
    docsCon.id toyCommit I D hash ≠ ConsignmentFile.id toyCommit I D hash { docsCon with transfer := false } ∧
    docsCon.id toyCommit I D hash = otherSchema.id toyCommit I D hash := by
  refine ⟨fun h => ?_, (C67_consignment_partial _ hD hh _ _).2 ?_⟩
  · exact absurd ((C67_consignment_partial _ hD hh _ _).1 h).transfer (by decide)
  · exact ⟨rfl, rfl, rfl, fun _ => .rfl, fun _ => .rfl, fun _ => .rfl, rfl, fun _ => .rfl, fun _ => .rfl, rfl, fun _ => .rfl, rfl⟩

example {I : Ids} {D : CIds} (hD : D.Binding I) {hash : KitCommitted → Nat} (hh : ∀ a b : KitCommitted, hash a = hash b → a = b) :
    (KitFile.mk 2 fileKit).id I D hash ≠ (KitFile.mk 2 { fileKit with schemata := [⟨1⟩] }).id I D hash := by
  intro h
  exact absurd ((((C67_kit hD hh _ _).1 h).schemata ⟨1⟩).2 (by decide)) (by decide)

example : ∃ (I : Ids) (D : CIds) (hash : ConCommitted → Nat), D.Binding I ∧ ∀ a b : ConCommitted, hash a = hash b → a = b := by
  obtain ⟨I, D, hD⟩ := exists_ids
  obtain ⟨hash, hh⟩ := exists_hash
  exact ⟨I, D, hash, hD, hh⟩

end Rgb.Props
