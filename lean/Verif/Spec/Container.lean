import Verif.Model.Container
import Verif.Spec.Indexed
import Verif.Spec.File

/-!
# What ids of containers stand for, and what validation has to report
-/

namespace Rgb

/-- The same members. -/
def SameSet {α : Type} (a b : List α) : Prop := ∀ x : α, x ∈ a ↔ x ∈ b

/-- Ids and hashes don't collide. -/
structure CIds.Binding (I : Ids) (D : CIds) : Prop where
  impl : ∀ a b : IimplDoc, D.impl a = D.impl b → a = b
  suppl : ∀ a b : SupplDoc, D.suppl a = D.suppl b → a = b
  types : ∀ a b : List Nat, D.types a = D.types b → a = b
  disclose : ∀ a b : Op, D.disclose a = D.disclose b → a = b
  witnessBundle : ∀ a b : WitnessBundle, D.witnessBundle a = D.witnessBundle b → a = b
  lib : ∀ a b : Nat, I.lib a = I.lib b → a = b
  iface : ∀ a b : IfaceDoc, I.iface a = I.iface b → a = b
  schema : ∀ a b : SchemaDoc, I.schema a = I.schema b → a = b

/-- Two consignments agree in everything but the schema, the interfaces (not implementations) and contents of attachments. -/
structure ConsignmentFile.SameButDocs (c d : ConsignmentFile) : Prop where
  version : c.version = d.version
  transfer : c.transfer = d.transfer
  genesis : c.body.data.genesis = d.body.data.genesis
  impls : SameSet (c.body.ifaces.map Prod.snd) (d.body.ifaces.map Prod.snd)
  bundles : SameSet c.body.data.bundles d.body.data.bundles
  extensions : SameSet c.body.data.extensions d.body.data.extensions
  terminals : c.body.terminals = d.body.terminals
  attachments : SameSet (c.body.attachments.map Prod.fst) (d.body.attachments.map Prod.fst)
  supplements : SameSet c.body.supplements d.body.supplements
  types : c.body.types = d.body.types
  scripts : SameSet c.body.scripts d.body.scripts
  signatures : c.body.signatures = d.body.signatures

/-- Two kits have the same contents. -/
structure KitFile.Same (k l : KitFile) : Prop where
  version : k.version = l.version
  ifaces : SameSet k.body.ifaces l.body.ifaces
  schemata : SameSet k.body.schemata l.body.schemata
  impls : SameSet k.body.iimpls l.body.iimpls
  supplements : SameSet k.body.supplements l.body.supplements
  types : k.body.types = l.body.types
  scripts : SameSet k.body.scripts l.body.scripts
  signatures : k.body.signatures = l.body.signatures

/-- A consignment has a bundle with this id. -/
def Consignment.HasBundle (H : Commit) (c : Consignment) (bid : Nat) : Prop :=
  ∃ (w : WitnessBundle) (a : ClientBundle), c.Holds w a ∧ a.bundle.id H = bid

/-- What validation of a consignment of the given kind has to warn of. -/
inductive ConsignmentFile.Suspect (H : Commit) (I : Ids) (D : CIds) (kind : Bool) (c : ConsignmentFile) : VWarning → Prop
  | kind (h : c.transfer ≠ kind) : Suspect H I D kind c .kind
  | target (i : IfaceDoc) (impl : IimplDoc) (hm : (i, impl) ∈ c.body.ifaces) (h : impl.ifaceId ≠ I.iface i) :
    Suspect H I D kind c (.target (D.impl impl) impl.ifaceId (I.iface i))
  | terminal (bid secret : Nat) (hm : (bid, secret) ∈ c.body.terminals) (h : ¬ c.body.HasBundle H bid) : Suspect H I D kind c (.terminal bid)

/-- What the core validator reports on a consignment. -/
def coreStatus (H : Commit) (I : Ids) (V : Validator) (testnet : Bool) (c : ConsignmentFile) : VStatus :=
  V.run (Indexed.new H I c.body) testnet c.body.schema (c.body.data.genesis.contractId H)

deriving instance Countable for KitFile

end Rgb
