import Verif.Model.Stock
import Verif.Spec.Stash
import Verif.Spec.State

/-!
Vocabulary for C36, C37: the history of an output, and a bundle with what proves it.
-/

namespace Rgb

/-- One of the assignments of the operation is to the secret seal `s`, shown or not. -/
def Op.AssignsTo (H : Commit) (t : Op) (s : Nat) : Prop :=
  ∃ ty ta a, (ty, ta) ∈ t.assigns ∧ a ∈ ta.items ∧ a.secret H = s

end Rgb

namespace Rgb.Stock

/-- The stock knows the transition `t` with id `o`: it's in the bundle `b`. -/
def Knows (k : Stock) (o b : Nat) (t : Op) : Prop :=
  OMap.get? k.index.opBundle o = some b ∧ ∃ bundle, k.stash.bundle b = some bundle ∧ OMap.get? bundle.known o = some t

/-- The outputs requested from a transfer: those at the given outpoints and those assigned to the secret seal. -/
def Requested (k : Stock) (c : Nat) (outputs : List Outpoint) (secret : Option Nat) (o : Opout) : Prop :=
  (∃ l, k.index.opoutsByOutputs c outputs = .ok l ∧ o ∈ l) ∨
  (∃ s, secret = some s ∧ o ∈ k.index.opoutsByTerminals [s])

/-- The operations which the requested outputs depend on, excluding the genesis: the ones defining these outputs, and those
defining inputs of a needed one. -/
inductive Needed (k : Stock) (c : Nat) (outputs : List Outpoint) (secret : Option Nat) : Nat → Prop
  | output {o : Opout} : Requested k c outputs secret o → o.op ≠ c → Needed k c outputs secret o.op
  | input {o b : Nat} {t : Op} {i : Opout} : Needed k c outputs secret o → Knows k o b t → i ∈ t.inputs → i.op ≠ c →
      Needed k c outputs secret i.op

/-- The number `r` is of a content of the consignment `con` of the contract `c`: the contract, its schema, an interface or an implementation. -/
def ContentOf (I : Ids) (E : Env) (c : Nat) (con : Consignment) (r : Nat) : Prop :=
  r = E.genesisRef c ∨ r = E.schemaRef (I.genesisSchema con.data.genesis) ∨
  ∃ d x, (d, x) ∈ con.ifaces ∧ (r = E.ifaceRef (I.iface d) ∨ r = E.iimplRef x)

/-- At most 126 interfaces are implemented for the schema of the contract (with more, the supplements or signatures for a consignment may be too many). -/
def FewIfaces (I : Ids) (k : Stock) (c : Nat) : Prop :=
  ∀ g si, k.stash.genesis c = some g → k.stash.schema (I.genesisSchema g) = some si → si.iimpls.length ≤ 126

/-- The bundle `cb` under the witness of `wb` is the stored bundle `b`, the witness is one of this bundle's witnesses, it is valid,
the transaction is the stored one and the proofs are made of its stored anchor of the closing method of the bundle. -/
structure Proves (E : Env) (k : Stock) (b : Nat) (cb : ClientBundle) (wb : WitnessBundle) : Prop where
  bundle : k.stash.bundle b = some cb.bundle
  listed : cb ∈ wb.anchored.list
  witness : ∃ ws, OMap.get? k.index.bundleWitness b = some ws ∧ wb.id ∈ ws
  valid : ∃ ord, OMap.get? k.state.witnesses wb.id = some ord ∧ ord.isValid = true
  proofs : ∃ c sw a, OMap.get? k.index.bundleContract b = some c ∧ k.stash.witness wb.id = some sw ∧ wb.pub = sw.pub ∧
    anchorOf sw.anchors cb.bundle.closeMethod = some a ∧ cb.dbc = ⟨cb.bundle.closeMethod, a.proof⟩ ∧
    E.toProof a.root a.known c = some cb.mpc

end Rgb.Stock

/-! ## Histories of the stock -/

namespace Rgb

/-- What may be done with a stock. -/
inductive StockEvent where
  /-- `import_contract`, `accept_transfer` -/
  | consignment (con : Consignment) (r : Resolver)
  | fascia (f : Stock.Fascia) (r : Resolver)
  /-- `import_kit` -/
  | kit (k : Kit)
  | secretSeal (x : Seal)
  | trust (i : Nat) (t : TrustLevel)
  /-- `update_witnesses` -/
  | update (r : Resolver) (after : Nat)

/-- The stock after the event, whether it succeeds or fails; `none` if it panics. -/
def StockEvent.exec (H : Commit) (I : Ids) (M : Mpc) (G : SchemaDoc → SchemaGlobals) (k : Stock) : StockEvent → Option Stock
  | .consignment con r => (k.consumeConsignment H I M G r con).map Prod.fst
  | .fascia f r => (k.consumeFascia H r f).map Prod.fst
  | .kit x => (k.stash.consumeKit I x).map (fun p => { k with stash := p.1 })
  | .secretSeal x => (k.stash.addSecretSeal x).map (fun p => { k with stash := p.1 })
  | .trust i t => (k.stash.setTrust i t).map (fun p => { k with stash := p.1 })
  | .update r after => some { k with state := (k.state.updateWitnesses r after).1 }

/-- The contents of the event are valid values of their types: maps are ordered, operations are of the right kinds, known
transitions of a bundle are stored under their ids and spend an input of the bundle, closing methods of proofs and bundles agree. -/
def StockEvent.Proper (H : Commit) : StockEvent → Prop
  | .consignment con _ => con.Proper H ∧ (∀ w ∈ con.data.bundles, w.WF) ∧ con.data.genesis.Proper ∧
      (∀ e ∈ con.data.extensions, e.Proper ∧ e.kind = .extension) ∧
      (∀ w ∈ con.data.bundles, ∀ b ∈ w.anchored.bundles, ∀ t ∈ OMap.vals b.known, t.Proper ∧ t.kind = .transition)
  | .fascia f _ => ∀ e ∈ f.bundles, e.2.WF H ∧ ∀ t ∈ OMap.vals e.2.known, t.Proper ∧ t.kind = .transition
  | _ => True

/-- Any history. -/
def runStock (H : Commit) (I : Ids) (M : Mpc) (G : SchemaDoc → SchemaGlobals) : List StockEvent → Stock → Option Stock
  | [], k => some k
  | e :: rest, k => (e.exec H I M G k).bind (runStock H I M G rest)

/-- The stock with nothing in it. -/
def Stock.empty : Stock := ⟨{}, {}, {}⟩

/-- A stock which some history leads to. -/
def Stock.Reachable (H : Commit) (k : Stock) : Prop :=
  ∃ I M G es, (∀ d, OMap.Sorted (G d).maxItems) ∧ (∀ e ∈ es, StockEvent.Proper H e) ∧ runStock H I M G es .empty = some k

end Rgb
