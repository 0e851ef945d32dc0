import Verif.Spec.Stock

/-!
Vocabulary for C64: what a consignment or a fascia brings into a stock, histories in which everything succeeded, and contents
of such histories which are complete.
-/

namespace Rgb

/-- The event has the bundle `b` of the contract `c` with the witness `w`. -/
inductive StockEvent.Brings (H : Commit) : StockEvent → Nat → Bundle → WitnessId → Prop
  | consignment (con : Consignment) (r : Resolver) (wb : WitnessBundle) (b : Bundle) (hw : wb ∈ con.data.bundles)
      (hb : b ∈ wb.anchored.bundles) : Brings H (.consignment con r) (con.data.genesis.contractId H) b wb.id
  | fascia (f : Stock.Fascia) (r : Resolver) (c : Nat) (b : Bundle) (hb : (c, b) ∈ f.bundles) :
      Brings H (.fascia f r) c b f.witness.id

/-- The resolver given with the event. -/
def StockEvent.resolver? : StockEvent → Option Resolver
  | .consignment _ r => some r
  | .fascia _ r => some r
  | _ => none

/-- The event is finished without an error. -/
def StockEvent.Done (H : Commit) (I : Ids) (M : Mpc) (G : SchemaDoc → SchemaGlobals) (k k' : Stock) : StockEvent → Prop
  | .consignment con r => k.consumeConsignment H I M G r con = some (k', none)
  | .fascia f r => k.consumeFascia H r f = some (k', none)
  | .kit x => ∃ s, k.stash.consumeKit I x = some (s, .ok ()) ∧ k' = { k with stash := s }
  | .secretSeal x => StockEvent.exec H I M G k (.secretSeal x) = some k'
  | .trust i t => StockEvent.exec H I M G k (.trust i t) = some k'
  | .update r after => StockEvent.exec H I M G k (.update r after) = some k'

/-- All the events are finished without an error. -/
def AllDone (H : Commit) (I : Ids) (M : Mpc) (G : SchemaDoc → SchemaGlobals) : List StockEvent → Stock → Stock → Prop
  | [], k, k' => k' = k
  | e :: es, k, k' => ∃ k₁, e.Done H I M G k k₁ ∧ AllDone H I M G es k₁ k'

/-- What holds for the events which went through validation: ids of the bundles are of the transitions, no bundle is without known
transitions, the proof under a bundle of a consignment is of its closing method and the anchor of a fascia is of its bundles. -/
structure StockEvent.Sound (H : Commit) (e : StockEvent) : Prop where
  proper : e.Proper H
  nonempty : ∀ c b w, e.Brings H c b w → b.known ≠ []
  methods : ∀ con r, e = .consignment con r → ∀ wb ∈ con.data.bundles, ∀ x ∈ wb.anchored.list, x.dbc.method = x.bundle.closeMethod
  anchored : ∀ f r, e = .fascia f r → ∀ c b, (c, b) ∈ f.bundles → f.anchor.knows b.closeMethod c

/-- Contents of a history of which nothing is missing, except maybe of histories of operations. -/
structure Furnished (H : Commit) (I : Ids) (E : Stock.Env) (es : List StockEvent) : Prop where
  sound : ∀ e ∈ es, e.Sound H
  /-- whenever a bundle comes, it comes with the same transitions -/
  same : ∀ e ∈ es, ∀ e' ∈ es, ∀ c b w c' b' w', e.Brings H c b w → e'.Brings H c' b' w' → b.id H = b'.id H →
    ∀ o, OMap.contains b.known o = true → OMap.contains b'.known o = true
  /-- no state extensions, which can't be consigned (`C36_extension_fails`) -/
  noExtensions : ∀ con r, StockEvent.consignment con r ∈ es → con.data.extensions = []
  /-- a consignment has the schema of its genesis, and the types and libraries of the schema and the interfaces -/
  schema : ∀ con r, StockEvent.consignment con r ∈ es → I.schema con.schema = I.genesisSchema con.data.genesis
  types : ∀ con r, StockEvent.consignment con r ∈ es → ∀ ty, ty ∈ E.schemaTypes con.schema ∨
    (∃ d ∈ con.ifaces, ty ∈ E.ifaceTypes d.1) → ty ∈ con.types
  libs : ∀ con r, StockEvent.consignment con r ∈ es → ∀ l ∈ E.schemaLibs con.schema, l ∈ con.scripts.map I.lib
  /-- a kit has the types of its interfaces -/
  kitTypes : ∀ x, StockEvent.kit x ∈ es → ∀ d ∈ x.ifaces, ∀ ty ∈ E.ifaceTypes d, ty ∈ x.types

/-- Contents of a history of which nothing is missing. -/
structure Complete (H : Commit) (I : Ids) (E : Stock.Env) (es : List StockEvent) : Prop extends Furnished H I E es where
  /-- a transition comes (before, together or after) with the operations whose outputs it spends -/
  closed : ∀ e ∈ es, ∀ c b w o t, e.Brings H c b w → OMap.get? b.known o = some t → ∀ i ∈ t.inputs, i.op = c ∨
    ∃ e' ∈ es, ∃ b' w', e'.Brings H c b' w' ∧ OMap.contains b'.known i.op = true

/-- The ids of schemata are different, and the schema id of a genesis is a part of what its id commits to. -/
structure Ids.Lawful (H : Commit) (I : Ids) : Prop where
  schema_inj : ∀ d d', I.schema d = I.schema d' → d = d'
  genesis : ∀ g g' : Op, g.id H = g'.id H → I.genesisSchema g = I.genesisSchema g'

/-- A proof can be made for each contract which the Merkle block knows. -/
def Stock.Env.Lawful (E : Stock.Env) : Prop :=
  ∀ root known c, c ∈ OMap.keys known → (E.toProof root known c).isSome = true

/-- The contract came with its genesis. -/
def Imported (H : Commit) (es : List StockEvent) (c : Nat) : Prop :=
  ∃ con r, StockEvent.consignment con r ∈ es ∧ con.data.genesis.contractId H = c

end Rgb

namespace Rgb

/-- The operation came in a bundle of the contract. -/
def Came (H : Commit) (es : List StockEvent) (c o : Nat) : Prop :=
  ∃ e ∈ es, ∃ b w, StockEvent.Brings H e c b w ∧ OMap.contains b.known o = true

/-- Each bundle of the contract has a valid witness. -/
def AllValid (H : Commit) (es : List StockEvent) (k : Stock) (c : Nat) : Prop :=
  ∀ e ∈ es, ∀ b w, StockEvent.Brings H e c b w → ∃ e' ∈ es, ∃ b' w', StockEvent.Brings H e' c b' w' ∧ b'.id H = b.id H ∧
    k.state.isValidWitness w' = .ok true

/-- A witness commits to at most one bundle of the contract with each closing method (as multi-protocol commitments do). -/
def OneCommitted (H : Commit) (es : List StockEvent) (c : Nat) : Prop :=
  ∀ e ∈ es, ∀ e' ∈ es, ∀ b b' w, StockEvent.Brings H e c b w → StockEvent.Brings H e' c b' w → b.closeMethod = b'.closeMethod → b.id H = b'.id H

/-- The number of assignments of the operation to the secret seal. -/
def Op.timesTo (H : Commit) (t : Op) (s : Nat) : Nat :=
  ((t.assigns.flatMap (fun e => e.2.items)).filter (fun a => decide (a.secret H = s))).length

/-- No two requested outputs are of transitions (of one bundle, or the same) with assignments to the secret seal, and no transition
with a requested output has two such assignments. -/
structure Stock.OncePerBundle (H : Commit) (k : Stock) (c : Nat) (outputs : List Outpoint) (s : Nat) : Prop where
  once : ∀ o b t, Stock.Requested k c outputs (some s) o → o.op ≠ c → Stock.Knows k o.op b t → t.timesTo H s ≤ 1
  apart : ∀ o o' b t t', Stock.Requested k c outputs (some s) o → Stock.Requested k c outputs (some s) o' → o ≠ o' → o.op ≠ c → o'.op ≠ c →
    Stock.Knows k o.op b t → Stock.Knows k o'.op b t' → ¬ (t.AssignsTo H s ∧ t'.AssignsTo H s)

end Rgb
