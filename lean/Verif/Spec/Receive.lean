import Verif.Spec.Usable

/-!
Vocabulary for C72: when a stock can take a consignment.
-/

namespace Rgb

/-- The operations of a consignment which have no witness. -/
def ConsignmentData.plainOps (d : ConsignmentData) : List Op := d.genesis :: d.extensions

/-- All the operations. -/
def ConsignmentData.ops (d : ConsignmentData) : List Op := d.plainOps ++ d.transitions.map Prod.fst

/-- The assignments of an operation. -/
def Op.assigned (t : Op) : List Assign := t.assigns.flatMap (fun e => e.2.items)

/-- How many assignments of the operation are to the secret seal `s` without showing it. -/
def Op.hiddenTo (H : Commit) (s : Nat) (t : Op) : Nat :=
  t.assigned.countP (fun a => a.seal?.isNone && decide (a.secret H = s))

/-- How many assignments of the consignment are to the secret seal `s` without showing it. -/
def ConsignmentData.hiddenTo (H : Commit) (d : ConsignmentData) (s : Nat) : Nat := (d.ops.map (Op.hiddenTo H s)).sum

/-- How many times the bundle with the id is in the consignment. -/
def ConsignmentData.timesBundle (H : Commit) (d : ConsignmentData) (b : Nat) : Nat :=
  ((d.bundles.flatMap (fun wb => wb.anchored.bundles)).filter (fun x => decide (x.id H = b))).length

/-- The consignment alone is such that it can be taken. -/
structure Consignment.Coherent (H : Commit) (I : Ids) (M : Mpc) (G : SchemaDoc → SchemaGlobals) (r : Resolver) (con : Consignment) : Prop where
  /-- the resolver answers for each witness -/
  resolved : ∀ wb ∈ con.data.bundles, (r wb.id).isSome = true
  /-- the visible seals of the genesis and of extensions have transactions, -/
  plainSeals : ∀ op ∈ con.data.plainOps, ∀ a ∈ op.assigned, ∀ x, a.seal? = some x → x.txid.isSome = true
  /-- and those of transitions which haven't are on the chain of the witness -/
  seals : ∀ p ∈ con.data.transitions, ∀ a ∈ p.1.assigned, ∀ x, a.seal? = some x → (x.toOutputWith p.2).isSome = true
  /-- the schema has the global state -/
  globals : ∀ op ∈ con.data.ops, ∀ e ∈ op.globals, OMap.contains (G con.schema).maxItems e.1 = true
  /-- witnesses are different, -/
  witnesses : con.data.bundles.Pairwise (fun wb wb' => wb.id ≠ wb'.id)
  /-- no transition is in two bundles, -/
  ops : ∀ wb ∈ con.data.bundles, ∀ wb' ∈ con.data.bundles, ∀ b ∈ wb.anchored.bundles, ∀ b' ∈ wb'.anchored.bundles, ∀ o,
    OMap.contains b.known o = true → OMap.contains b'.known o = true → b.id H = b'.id H
  /-- a bundle is proved, with its closing method -/
  proved : ∀ wb ∈ con.data.bundles, ∀ x ∈ wb.anchored.list, x.dbc.method = x.bundle.closeMethod ∧
    (M.block x.mpc (con.data.genesis.contractId H) (x.bundle.id H)).isSome = true
  /-- each implementation is of the schema and of an interface which is also there -/
  iimpls : ∀ e ∈ con.ifaces, e.2.schemaId = I.schema con.schema ∧ ∃ e' ∈ con.ifaces, I.iface e'.1 = e.2.ifaceId

/-- The stock has nothing contradicting the consignment. -/
structure Stock.Agrees (H : Commit) (M : Mpc) (k : Stock) (con : Consignment) : Prop where
  /-- the secret seals of the stock can be on the chains of the witnesses -/
  seals : ∀ x ∈ k.stash.secretSeals, ∀ wb ∈ con.data.bundles, (x.toOutputWith wb.id).isSome = true
  /-- if the contract is known, it is known to have the global state -/
  globals : ∀ cs, OMap.get? k.state.contracts (con.data.genesis.contractId H) = some cs →
    ∀ op ∈ con.data.ops, ∀ e ∈ op.globals, OMap.contains cs.global e.1 = true
  /-- bundles aren't known to be of other contracts, nor transitions to be in other bundles -/
  bundles : ∀ wb ∈ con.data.bundles, ∀ b ∈ wb.anchored.bundles,
    (∀ c, OMap.get? k.index.bundleContract (b.id H) = some c → c = con.data.genesis.contractId H) ∧
    (∀ o i, OMap.contains b.known o = true → OMap.get? k.index.opBundle o = some i → i = b.id H)
  /-- the witnesses can be merged with those known: the transaction isn't known yet or comes again, and known anchors with the
  closing methods of the bundles are the same -/
  witnesses : ∀ wb ∈ con.data.bundles, ∀ sw, k.stash.witness wb.id = some sw → (sw.pub.pub.tx? = none ∨ wb.pub.pub.tx?.isSome = true) ∧
    ∀ x ∈ wb.anchored.list, ∀ p, M.block x.mpc (con.data.genesis.contractId H) (x.bundle.id H) = some p →
      ∀ a, Stock.anchorOf sw.anchors x.dbc.method = some a → a.proof = x.dbc.data ∧ a.root = p.1

/-- The stock has room for the contents of the consignment (the limits are those of the collections of the stores). -/
structure Stock.Room (H : Commit) (I : Ids) (k : Stock) (con : Consignment) : Prop where
  state : OMap.contains k.state.contracts (con.data.genesis.contractId H) = true ∨ k.state.contracts.length < 255
  index : OMap.contains k.index.contracts (con.data.genesis.contractId H) = true ∨ k.index.contracts.length < 255
  geneses : k.stash.geneses.length < 255
  witnesses : ∀ b, ((OMap.get? k.index.bundleWitness b).getD []).length + con.data.timesBundle H b ≤ 255
  terminals : ∀ s, ((OMap.get? k.index.terminals s).getD []).length + con.data.hiddenTo H s ≤ 255
  schemata : OMap.contains k.stash.schemata (I.schema con.schema) = true ∨ k.stash.schemata.length < 255
  ifaces : k.stash.ifaces.length + con.ifaces.length ≤ 255
  iimpls : ∀ si, k.stash.schema (I.schema con.schema) = some si → si.iimpls.length + con.ifaces.length ≤ 255
  kinds : k.stash.suppl.length + con.supplements.length ≤ 255
  supplements : ∀ i, (k.stash.supplements i).length + con.supplements.length ≤ 255

/-- A new stock, which has only secret seals. -/
def Stock.fresh (seals : List Seal) : Stock := ⟨{ secretSeals := seals }, {}, {}⟩

end Rgb
