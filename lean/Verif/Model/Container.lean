import Verif.Model.File
import Verif.Model.Indexed

/-!
# Ids and validation of containers

Models `CommitEncode` of consignments and kits, `Consignment::validate` and `Kit::validate`
(/repo/src/containers/consignment.rs:229-260, 325-378; /repo/src/containers/kit.rs:148-194).

External: ids of documents, `disclose_hash`, the hash over the committed data, and the validator of rgb-core.
-/

namespace Rgb

/-- Ids and hashes used in container ids. -/
structure CIds where
  impl : IimplDoc → Nat
  suppl : SupplDoc → Nat
  /-- `TypeSystem::id` -/
  types : List Nat → Nat
  /-- `disclose_hash` of a genesis or an extension: commits to what is disclosed, too -/
  disclose : Op → Nat
  /-- `WitnessBundle::commit_id`, strategy `strict`, /repo/src/containers/anchors.rs:178-179: the whole serialization -/
  witnessBundle : WitnessBundle → Nat

/-- What `commit_encode` of a consignment feeds to the hash, in order, /repo/src/containers/consignment.rs:232-259. -/
structure ConCommitted where
  version : Nat
  transfer : Bool
  contract : Nat
  genesis : Nat
  impls : OSet Nat
  bundles : OSet Nat
  extensions : OSet Nat
  terminals : List (Nat × Nat)
  attachments : OSet Nat
  supplements : OSet Nat
  types : Nat
  scripts : OSet Nat
  signatures : List (Nat × List (Nat × Nat))
  deriving DecidableEq, Repr

/-- `commit_encode`, /repo/src/containers/consignment.rs:232-259. `from_iter_checked` panics only if there are more items than there may be in the
set which they are taken from. -/
def ConsignmentFile.committed (H : Commit) (I : Ids) (D : CIds) (c : ConsignmentFile) : ConCommitted where
  version := c.version
  transfer := c.transfer
  contract := c.body.data.genesis.contractId H
  genesis := D.disclose c.body.data.genesis
  impls := OSet.ofList (c.body.ifaces.map (fun e => D.impl e.2))
  bundles := OSet.ofList (c.body.data.bundles.map D.witnessBundle)
  extensions := OSet.ofList (c.body.data.extensions.map D.disclose)
  terminals := c.body.terminals
  attachments := OSet.ofList (c.body.attachments.map Prod.fst)
  supplements := OSet.ofList (c.body.supplements.map D.suppl)
  types := D.types c.body.types
  scripts := OSet.ofList (c.body.scripts.map I.lib)
  signatures := c.body.signatures

/-- `consignment_id`, /repo/src/containers/consignment.rs:284. -/
def ConsignmentFile.id (H : Commit) (I : Ids) (D : CIds) (hash : ConCommitted → Nat) (c : ConsignmentFile) : Nat := hash (c.committed H I D)

/-- `Kit` with the version, /repo/src/containers/kit.rs:122-143. -/
structure KitFile where
  version : Nat
  body : Kit
  deriving DecidableEq, Repr

/-- What `commit_encode` of a kit feeds to the hash, /repo/src/containers/kit.rs:151-171. -/
structure KitCommitted where
  version : Nat
  ifaces : OSet Nat
  schemata : OSet Nat
  impls : OSet Nat
  supplements : OSet Nat
  types : Nat
  scripts : OSet Nat
  signatures : List (Nat × List (Nat × Nat))
  deriving DecidableEq, Repr

/-- `commit_encode`, /repo/src/containers/kit.rs:151-171. -/
def KitFile.committed (I : Ids) (D : CIds) (k : KitFile) : KitCommitted where
  version := k.version
  ifaces := OSet.ofList (k.body.ifaces.map I.iface)
  schemata := OSet.ofList (k.body.schemata.map I.schema)
  impls := OSet.ofList (k.body.iimpls.map D.impl)
  supplements := OSet.ofList (k.body.supplements.map D.suppl)
  types := D.types k.body.types
  scripts := OSet.ofList (k.body.scripts.map I.lib)
  signatures := k.body.signatures

/-- `kit_id`, /repo/src/containers/kit.rs:176. -/
def KitFile.id (I : Ids) (D : CIds) (hash : KitCommitted → Nat) (k : KitFile) : Nat := hash (k.committed I D)

/-! ## Validation -/

/-- `Warning` of rgb-core: those of the validator, and the three of `Warning::Custom` made in /repo/src/containers/consignment.rs:342-366. -/
inductive VWarning where
  | core (n : Nat)
  /-- "invalid consignment type" -/
  | kind
  /-- "implementation … targets different interface … than expected …" -/
  | target (impl found expected : Nat)
  /-- "terminal bundle id … is not present in the consignment" -/
  | terminal (bid : Nat)
  deriving DecidableEq, Repr

/-- `validation::Status` of rgb-core. -/
structure VStatus where
  failures : List Nat := []
  warnings : List VWarning := []
  info : List Nat := []
  deriving DecidableEq, Repr

/-- The validator of rgb-core with the resolver, and `Status::validity() == Validity::Valid`. -/
structure Validator where
  run : Indexed → Bool → SchemaDoc → Nat → VStatus
  valid : VStatus → Bool

/-- `Status::add_warning`. -/
def VStatus.warn (s : VStatus) (w : VWarning) : VStatus := { s with warnings := s.warnings ++ [w] }

/-- The loop over interfaces, /repo/src/containers/consignment.rs:346-356. -/
def warnTargets (I : Ids) (D : CIds) : List (IfaceDoc × IimplDoc) → VStatus → VStatus
  | [], s => s
  | (i, impl) :: rest, s => warnTargets I D rest (if I.iface i ≠ impl.ifaceId then s.warn (.target (D.impl impl) impl.ifaceId (I.iface i)) else s)

/-- The loop over terminals, /repo/src/containers/consignment.rs:358-365. -/
def warnTerminals (x : Indexed) : List Nat → VStatus → VStatus
  | [], s => s
  | b :: rest, s => warnTerminals x rest (if x.bundleIds.any (fun id => decide (id = b)) then s else s.warn (.terminal b))

/-- `Consignment::validate`, /repo/src/containers/consignment.rs:325-378. The returned consignment is
the given one in both cases. -/
def ConsignmentFile.validate (H : Commit) (I : Ids) (D : CIds) (V : Validator) (TRANSFER testnet : Bool) (c : ConsignmentFile) :
    Except (VStatus × ConsignmentFile) (VStatus × ConsignmentFile) :=
  let index := Indexed.new H I c.body
  let status := V.run index testnet c.body.schema (c.body.data.genesis.contractId H)
  let validity := V.valid status
  let status := if c.transfer ≠ TRANSFER then status.warn .kind else status
  let status := warnTargets I D c.body.ifaces status
  let status := warnTerminals index (c.body.terminals.map Prod.fst) status
  if validity then .ok (status, c) else .error (status, c)

/-- `Kit::validate`, /repo/src/containers/kit.rs:178-194. -/
def KitFile.validate (k : KitFile) : Except (VStatus × KitFile) (VStatus × KitFile) := .ok ({}, k)

end Rgb
