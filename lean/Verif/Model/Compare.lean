import Verif.Model.Batch
import Verif.Model.Container
import Verif.Model.Iface
import Verif.Model.Stock

/-!
# Comparing values

Models the hand-written `PartialEq`, `Ord` and `Hash`, and the derived `PartialEq` of the containers which use them
(/repo/src/containers/anchors.rs:123-133, 185-195; /repo/src/containers/partials.rs:142-157, 201, 364; /repo/src/containers/consignment.rs:171;
/repo/src/containers/kit.rs:113; /repo/src/interface/iface.rs:401-415; /repo/src/interface/iimpl.rs:119-123, 156-160, 191-195;
/repo/src/contract/assignments.rs:89, 101-131).

External: how values of other crates (operations, schemata, type systems, libraries) and supplements are compared – see `Eqs`.
-/

namespace Rgb

/-- Derived `Ord` of a type which is a key. -/
def Key.cmp {α : Type} [Key α] (a b : α) : Ordering := if Key.lt a b then .lt else if Key.lt b a then .gt else .eq

/-- `PartialEq` of `BTreeSet`, `BTreeMap` and `Vec` of the standard library: as many elements, and equal ones at each place. -/
def seqEq {α : Type} (eq : α → α → Bool) : List α → List α → Bool
  | [], [] => true
  | a :: as, b :: bs => eq a b && seqEq eq as bs
  | _, _ => false

/-- Derived `PartialEq` of a pair, with the given comparisons of the parts. -/
def pairEq {α β : Type} (f : α → α → Bool) (g : β → β → Bool) (a b : α × β) : Bool := f a.1 b.1 && g a.2 b.2

/-- Derived `PartialEq` of `Option`. -/
def optEq {α : Type} (f : α → α → Bool) : Option α → Option α → Bool
  | none, none => true
  | some a, some b => f a b
  | _, _ => false

/-! ### Witnesses -/

/-- `PartialEq for PubWitness`, /repo/src/containers/anchors.rs:123-125. -/
def PubWitness.eq (a b : PubWitness) : Bool := decide (a.id = b.id)

/-- `Ord for PubWitness`, /repo/src/containers/anchors.rs:127-129. -/
def PubWitness.cmp (a b : PubWitness) : Ordering := Key.cmp a.id b.id

/-- `PartialEq` of `XChain<PubWitness>`, derived in rgb-core: the same chain, and equal witnesses. -/
def XPubWitness.eq (a b : XPubWitness) : Bool := decide (a.chain = b.chain) && a.pub.eq b.pub

/-- `Ord` of `XChain<PubWitness>`, derived in rgb-core: first by chain. -/
def XPubWitness.cmp (a b : XPubWitness) : Ordering := (Key.cmp a.chain.num b.chain.num).then (a.pub.cmp b.pub)

/-- `PartialEq for WitnessBundle`, /repo/src/containers/anchors.rs:185-187. -/
def WitnessBundle.eq (a b : WitnessBundle) : Bool := a.pub.eq b.pub

/-- `Ord for WitnessBundle`, /repo/src/containers/anchors.rs:189-191. -/
def WitnessBundle.cmp (a b : WitnessBundle) : Ordering := a.pub.cmp b.pub

/-! ### Transitions and batches -/

/-- `PartialEq for TransitionInfo`, /repo/src/containers/partials.rs:142-144. -/
def TransitionInfo.eq (a b : TransitionInfo) : Bool := decide (a.id = b.id)

/-- `Ord for TransitionInfo`, /repo/src/containers/partials.rs:146-148. -/
def TransitionInfo.cmp (a b : TransitionInfo) : Ordering := Key.cmp a.id b.id

/-- `Hash for TransitionInfo`, /repo/src/containers/partials.rs:154-156: what is fed to the hasher. -/
def TransitionInfo.fed (a : TransitionInfo) : Nat := a.id

/-- `PartialEq for Dichotomy`, derived, /repo/src/containers/partials.rs:263. -/
def Dichotomy.eq {α : Type} (f : α → α → Bool) (a b : Dichotomy α) : Bool := f a.first b.first && optEq f a.second b.second

/-- `PartialEq for Batch`, derived, /repo/src/containers/partials.rs:201. -/
def Batch.eq (a b : Batch) : Bool := a.main.eq TransitionInfo.eq b.main && seqEq (Dichotomy.eq TransitionInfo.eq) a.blanks b.blanks

/-! ### Interfaces and implementations -/

/-- `PartialEq for Iface`, /repo/src/interface/iface.rs:401-403; `id` is `iface_id`. -/
def Iface.eq (id : Iface → Nat) (a b : Iface) : Bool := decide (id a = id b)

/-- `Ord for Iface`, /repo/src/interface/iface.rs:405-407. -/
def Iface.cmp (id : Iface → Nat) (a b : Iface) : Ordering := Key.cmp (id a) (id b)

/-- `Hash for Iface`, /repo/src/interface/iface.rs:413-415: what is fed to the hasher. -/
def Iface.fed (id : Iface → Nat) (a : Iface) : Nat := id a

/-- `PartialEq for NamedField`, `NamedVariant`, `NamedType`, /repo/src/interface/iimpl.rs:119-123, 156-160, 191-195. -/
def NamedField.eq (a b : NamedField) : Bool := decide (a.id = b.id) || decide (a.name = b.name)

/-- `Ord for NamedField`, derived, /repo/src/interface/iimpl.rs:103: by number, name and reserved bytes. -/
def NamedField.cmp (a b : NamedField) : Ordering := Key.cmp a b

/-- `PartialEq for IfaceImpl`, derived, /repo/src/interface/iimpl.rs:208. -/
def IfaceImpl.eq (a b : IfaceImpl) : Bool :=
  decide (a.version = b.version) && decide (a.schemaId = b.schemaId) && decide (a.ifaceId = b.ifaceId) && decide (a.timestamp = b.timestamp) &&
  seqEq NamedField.eq a.metadata b.metadata && seqEq NamedField.eq a.globalState b.globalState &&
  seqEq NamedField.eq a.assignments b.assignments && seqEq NamedField.eq a.valencies b.valencies &&
  seqEq NamedField.eq a.transitions b.transitions && seqEq NamedField.eq a.extensions b.extensions &&
  seqEq NamedField.eq a.errors b.errors && decide (a.developer = b.developer)

/-! ### Allocations -/

/-- `PartialEq for OutputAssignment`, /repo/src/contract/assignments.rs:101-114, in builds without debug assertions. -/
def OutAssign.eq (a b : OutAssign) : Bool := decide (a.opout = b.opout) && decide (a.sl = b.sl)

/-- `Ord for OutputAssignment`, /repo/src/contract/assignments.rs:120-130. -/
def OutAssign.cmp (a b : OutAssign) : Ordering :=
  if a.eq b then .eq
  else match Key.cmp a.opout b.opout with
    | .eq => Key.cmp a.sl b.sl
    | o => o

/-- `Hash for OutputAssignment`, derived, /repo/src/contract/assignments.rs:89: what is fed to the hasher. -/
def OutAssign.fed (a : OutAssign) : Opout × OutSeal × RState × Option WitnessId := (a.opout, a.sl, a.state, a.witness)

/-! ### Containers -/

/-- How the parts of containers which aren't modelled in detail are compared. -/
structure Eqs where
  op : Op → Op → Bool
  schema : SchemaDoc → SchemaDoc → Bool
  iface : IfaceDoc → IfaceDoc → Bool
  impl : IimplDoc → IimplDoc → Bool
  suppl : SupplDoc → SupplDoc → Bool
  types : List Nat → List Nat → Bool
  lib : Nat → Nat → Bool
  bundle : Bundle → Bundle → Bool
  anchor : AnchorSet → AnchorSet → Bool

/-- `PartialEq for Consignment`, derived, /repo/src/containers/consignment.rs:171, 178-227. -/
def ConsignmentFile.eq (E : Eqs) (a b : ConsignmentFile) : Bool :=
  decide (a.version = b.version) && decide (a.transfer = b.transfer) && decide (a.body.terminals = b.body.terminals) &&
  E.op a.body.data.genesis b.body.data.genesis && seqEq E.op a.body.data.extensions b.body.data.extensions &&
  seqEq WitnessBundle.eq a.body.data.bundles b.body.data.bundles && E.schema a.body.schema b.body.schema &&
  seqEq (pairEq E.iface E.impl) a.body.ifaces b.body.ifaces && seqEq E.suppl a.body.supplements b.body.supplements &&
  E.types a.body.types b.body.types && seqEq E.lib a.body.scripts b.body.scripts &&
  decide (a.body.attachments = b.body.attachments) && decide (a.body.signatures = b.body.signatures)

/-- `PartialEq for Kit`, derived, /repo/src/containers/kit.rs:113, 122-143. -/
def KitFile.eq (E : Eqs) (a b : KitFile) : Bool :=
  decide (a.version = b.version) && seqEq E.iface a.body.ifaces b.body.ifaces && seqEq E.schema a.body.schemata b.body.schemata &&
  seqEq E.impl a.body.iimpls b.body.iimpls && seqEq E.suppl a.body.supplements b.body.supplements && E.types a.body.types b.body.types &&
  seqEq E.lib a.body.scripts b.body.scripts && decide (a.body.signatures = b.body.signatures)

/-- `PartialEq for Fascia`, derived, /repo/src/containers/partials.rs:364, 372-376. The bundles of a contract are listed one after the other. -/
def Stock.Fascia.eq (E : Eqs) (a b : Stock.Fascia) : Bool :=
  a.witness.eq b.witness && E.anchor a.anchor b.anchor && seqEq (pairEq (fun x y => decide (x = y)) E.bundle) a.bundles b.bundles

end Rgb
