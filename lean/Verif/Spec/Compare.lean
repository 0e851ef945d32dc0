import Verif.Model.Compare

/-!
# What comparisons must satisfy
-/

namespace Rgb

/-- `Eq` of Rust: an equivalence relation. -/
structure EqLaws {α : Type} (eq : α → α → Bool) : Prop where
  refl : ∀ a, eq a a = true
  symm : ∀ a b, eq a b = true → eq b a = true
  trans : ∀ a b c, eq a b = true → eq b c = true → eq a c = true

/-- `Ord` of Rust: a total order whose `Equal` is the given equality. -/
structure OrdLaws {α : Type} (eq : α → α → Bool) (cmp : α → α → Ordering) : Prop where
  same : ∀ a b, cmp a b = .eq ↔ eq a b = true
  swap : ∀ a b, cmp b a = (cmp a b).swap
  trans : ∀ a b c, cmp a b = .lt → cmp b c = .lt → cmp a c = .lt

/-- `Hash` of Rust: what is equal feeds the same to the hasher. -/
def HashLaw {α β : Type} (eq : α → α → Bool) (fed : α → β) : Prop := ∀ a b, eq a b = true → fed a = fed b

/-- A comparison which finds equal just what is the same. -/
def Exact {α : Type} (eq : α → α → Bool) : Prop := ∀ a b, eq a b = true ↔ a = b

/-- All comparisons are equivalence relations. -/
structure Eqs.Lawful (E : Eqs) : Prop where
  op : EqLaws E.op
  schema : EqLaws E.schema
  iface : EqLaws E.iface
  impl : EqLaws E.impl
  suppl : EqLaws E.suppl
  types : EqLaws E.types
  lib : EqLaws E.lib
  bundle : EqLaws E.bundle
  anchor : EqLaws E.anchor

/-- All comparisons are exact. -/
structure Eqs.Exact (E : Eqs) : Prop where
  op : Rgb.Exact E.op
  schema : Rgb.Exact E.schema
  iface : Rgb.Exact E.iface
  impl : Rgb.Exact E.impl
  suppl : Rgb.Exact E.suppl
  types : Rgb.Exact E.types
  lib : Rgb.Exact E.lib
  bundle : Rgb.Exact E.bundle
  anchor : Rgb.Exact E.anchor

/-- The same consignment, except for the operations and anchors under its witnesses. -/
structure ConsignmentFile.SameBut (a b : ConsignmentFile) : Prop where
  version : a.version = b.version
  transfer : a.transfer = b.transfer
  terminals : a.body.terminals = b.body.terminals
  genesis : a.body.data.genesis = b.body.data.genesis
  extensions : a.body.data.extensions = b.body.data.extensions
  witnesses : a.body.data.bundles.map WitnessBundle.id = b.body.data.bundles.map WitnessBundle.id
  schema : a.body.schema = b.body.schema
  ifaces : a.body.ifaces = b.body.ifaces
  supplements : a.body.supplements = b.body.supplements
  types : a.body.types = b.body.types
  scripts : a.body.scripts = b.body.scripts
  attachments : a.body.attachments = b.body.attachments
  signatures : a.body.signatures = b.body.signatures

end Rgb
