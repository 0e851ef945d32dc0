import Verif.Spec.Receive

/-!
Vocabulary for C73, C74: a transfer made by one stock and taken by another.
-/

namespace Rgb

/-- What validation has checked about the contents of a consignment: the resolver knows the witnesses, the seals which are shown can be turned
into outputs, the schema has the global state. -/
structure Consignment.Checked (G : SchemaDoc → SchemaGlobals) (r : Resolver) (con : Consignment) : Prop where
  resolved : ∀ wb ∈ con.data.bundles, (r wb.id).isSome = true
  plainSeals : ∀ op ∈ con.data.plainOps, ∀ a ∈ op.assigned, ∀ x, a.seal? = some x → x.txid.isSome = true
  seals : ∀ p ∈ con.data.transitions, ∀ a ∈ p.1.assigned, ∀ x, a.seal? = some x → (x.toOutputWith p.2).isSome = true
  globals : ∀ op ∈ con.data.ops, ∀ e ∈ op.globals, OMap.contains (G con.schema).maxItems e.1 = true

/-- A proof made for a contract is a proof for this contract, of each bundle (it's checked against the transaction, not here). -/
def Stock.Env.ProvesFor (E : Stock.Env) (M : Mpc) : Prop :=
  ∀ root known c p, E.toProof root known c = some p → ∀ b, (M.block p c b).isSome = true

/-- No two interfaces in the stash have the same name. -/
def MemStash.NamesDiffer (s : MemStash) : Prop :=
  ∀ i j d d', s.ifaceById i = some d → s.ifaceById j = some d' → d.name = d'.name → i = j

/-- The operations which the requested outputs depend on are of the contract. -/
def Stock.OfContract (k : Stock) (c : Nat) (outputs : List Outpoint) (secret : Option Nat) : Prop :=
  ∀ o b t, Stock.Needed k c outputs secret o → Stock.Knows k o b t → OMap.get? k.index.bundleContract b = some c

/-- The histories of the stock are complete: each known transition is of a contract whose genesis is known, and spends outputs of this genesis or of known
transitions of the same contract, at least one. -/
def Stock.Linked (k : Stock) : Prop :=
  ∀ o b t c, Stock.Knows k o b t → OMap.get? k.index.bundleContract b = some c → (k.stash.genesis c).isSome = true ∧ t.inputs ≠ [] ∧
    ∀ i ∈ t.inputs, i.op = c ∨ ∃ b' t', Stock.Knows k i.op b' t' ∧ OMap.get? k.index.bundleContract b' = some c

/-- The assignment number `no` of type `ty` of the operation gives the visible state `v` of a kind to the seal with the hash `s`, shown or not. -/
def Op.Pays (H : Commit) (t : Op) (kind : StateKind) (ty no s : Nat) (v : RState) : Prop :=
  ∃ ta a, OMap.get? t.assigns ty = some ta ∧ ta.kind = kind ∧ ta.items[no]? = some a ∧ a.secret H = s ∧ a.state? = some v

/-- Nothing is known in the state of the stock, with any witness, of this output of the contract. -/
def Stock.Unseen (k : Stock) (c : Nat) (kind : StateKind) (o : Opout) : Prop :=
  ∀ v, k.state.contractState c = .ok v → ∀ a ∈ OMap.vals (v.unfiltered.kindSet kind), a.opout ≠ o

end Rgb
