import Verif.Model.Open
import Verif.Spec.Pass

/-!
Vocabulary for C76, C77: reading contracts through interfaces, exported schemata.
-/

namespace Rgb

/-- The part of the schema which the state uses has the id of the schema. -/
def GlobalsLawful (I : Ids) (G : SchemaDoc → SchemaGlobals) : Prop := ∀ d, (G d).id = I.schema d

/-- The implementation is of the interface itself or, if there is none, of the inherited interface which is the last in the list of those implemented. -/
def SchemaIfaces.Best (I : Ids) (si : SchemaIfaces) (d : IfaceDoc) (x : IimplDoc) : Prop :=
  x ∈ OMap.vals si.iimpls ∧ (x.ifaceId = I.iface d ∨
    ((∀ y ∈ OMap.vals si.iimpls, y.ifaceId ≠ I.iface d) ∧
      ∃ before after, d.inherits = before ++ x.ifaceId :: after ∧ ∀ p ∈ after, ∀ y ∈ OMap.vals si.iimpls, y.ifaceId ≠ p))

/-- The schema implements the interface or one it inherits. -/
def SchemaIfaces.Implements (I : Ids) (si : SchemaIfaces) (d : IfaceDoc) : Prop :=
  ∃ x ∈ OMap.vals si.iimpls, x.ifaceId = I.iface d ∨ x.ifaceId ∈ d.inherits

/-- The implementation is the first one, by names of interfaces, which is of an interface of the class or, if there is none, the best one for the first interface of the class which the stash knows
and which inherits an implemented one. -/
def SchemaIfaces.BestFor (I : Ids) (s : MemStash) (ids : List Nat) (si : SchemaIfaces) (x : IimplDoc) : Prop :=
  x ∈ OMap.vals si.iimpls ∧
  ((x.ifaceId ∈ ids ∧ ∃ before after, OMap.vals si.iimpls = before ++ x :: after ∧ ∀ y ∈ before, y.ifaceId ∉ ids) ∨
    ((∀ y ∈ OMap.vals si.iimpls, y.ifaceId ∉ ids) ∧
      ∃ before i d after, ids = before ++ i :: after ∧ s.ifaceById i = some d ∧ si.Best I d x ∧
        ∀ p ∈ before, ∀ e, s.ifaceById p = some e → ¬ si.Implements I e))

/-- What is opened is the contract as the stock has it: its genesis, schema and state. -/
structure Opened.Of (H : Commit) (I : Ids) (E : Stock.Env) (k : Stock) (c : Nat) (d : IfaceDoc) (o : Opened) : Prop where
  genesis : k.stash.genesis c = some o.genesis
  id : o.genesis.contractId H = c
  schema : ∃ si, k.stash.schema (I.genesisSchema o.genesis) = some si ∧ si.doc = o.schema ∧ o.impl ∈ OMap.vals si.iimpls
  state : k.state.contractState c = .ok o.state
  types : ∀ t, t ∈ o.types ↔ t ∈ E.schemaTypes o.schema ∨ t ∈ E.ifaceTypes d

end Rgb

namespace Rgb

/-- The kit is the schema with its implementations, the interfaces they implement, and types and libraries of these; nothing else. -/
structure Kit.Of (E : Stock.Env) (k : Stock) (si : SchemaIfaces) (kit : Kit) : Prop where
  schemata : kit.schemata = [si.doc]
  iimpls : ∀ x, x ∈ kit.iimpls ↔ x ∈ OMap.vals si.iimpls
  ifaces : ∀ d, d ∈ kit.ifaces ↔ ∃ x ∈ OMap.vals si.iimpls, k.stash.ifaceById x.ifaceId = some d
  types : ∀ t, t ∈ kit.types ↔ t ∈ E.schemaTypes si.doc ∨ ∃ d ∈ kit.ifaces, t ∈ E.ifaceTypes d
  scripts : ∀ l, l ∈ kit.scripts ↔ ∃ i ∈ E.schemaLibs si.doc, k.stash.lib i = some l
  rest : kit.supplements = [] ∧ kit.signatures = []

/-- A type or a library is missing in the stock. -/
def Stock.Lacks (k : Stock) : StockErr → Prop
  | .typeAbsent t => t ∉ k.stash.types
  | .libAbsent i => k.stash.lib i = none
  | _ => False

end Rgb
