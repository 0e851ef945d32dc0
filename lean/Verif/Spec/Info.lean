import Verif.Model.Info
import Verif.Spec.Stock

/-! What descriptions should show (C86). -/

namespace Rgb

/-- The lists have equal lengths and members in equal places are related. -/
def Pointwise {α β : Type} (R : α → β → Prop) (l : List α) (m : List β) : Prop :=
  l.length = m.length ∧ ∀ (n : Nat) a b, l[n]? = some a → m[n]? = some b → R a b

/-- A time is shown as it is, or as the time of listing if the calendar doesn't have it. -/
def InfoEnv.ShownTime (D : InfoEnv) (now t x : Int) : Prop := (D.timeOk t = true → x = t) ∧ (D.timeOk t = false → x = now)

/-- An inherited interface is shown by its name if the stock knows it, and by its id if it doesn't. -/
def Stock.ShownRef (k : Stock) (i : Nat) (r : IfaceRef) : Prop :=
  (∀ d, k.stash.ifaceById i = some d → r = .name d.name) ∧ (k.stash.ifaceById i = none → r = .id i)

/-- What the annotation of the whole content in a supplement says. -/
def InfoEnv.says (D : InfoEnv) (x : SupplDoc) (name : Nat) : Option Nat :=
  (OMap.get? (D.annotations x).annotations .itself).bind fun a => (OMap.get? a .default).bind fun b => OMap.get? b name

/-- The class and the features as the given supplement names them. -/
structure IfaceInfo.Annotated (D : InfoEnv) (x : SupplDoc) (info : IfaceInfo) : Prop where
  standard : ∀ c, info.standard = some c ↔ ∃ blob, D.says x D.classAnnot = some blob ∧ D.deClass blob = .ok c
  features : ∀ f, f ∈ info.features ↔ ∃ blob l, D.says x D.featuresAnnot = some blob ∧ D.deFeatures blob = .ok l ∧ f ∈ l

/-- The description is of the interface `d` with the id `i`. -/
structure IfaceInfo.Of (D : InfoEnv) (now : Int) (k : Stock) (i : Nat) (d : IfaceDoc) (info : IfaceInfo) : Prop where
  id : info.id = i
  name : info.name = d.name
  version : info.version = D.ifaceVersion d
  developer : info.developer = D.ifaceDeveloper d
  created : D.ShownTime now (D.ifaceTime d) info.createdAt
  defaultOp : info.defaultOp = D.ifaceDefaultOp d
  inherits : Pointwise k.ShownRef d.inherits info.inherits
  /-- the first supplement, if there is one, says the class and the features -/
  annotated : ∀ x rest, k.stash.supplements (D.ifaceRef i) = x :: rest → info.Annotated D x
  plain : k.stash.supplements (D.ifaceRef i) = [] → info.standard = none ∧ info.features = []

/-- The description is of an implementation. -/
structure ImplInfo.Of (D : InfoEnv) (now : Int) (x : IimplDoc) (info : ImplInfo) : Prop where
  id : info.id = D.implId x
  iface : info.ifaceId = x.ifaceId
  developer : info.developer = D.implDeveloper x
  created : D.ShownTime now (D.implTime x) info.createdAt

/-- The description is of the schema with the id `i`. -/
structure SchemaInfo.Of (D : InfoEnv) (now : Int) (i : Nat) (si : SchemaIfaces) (info : SchemaInfo) : Prop where
  id : info.id = i
  name : info.name = D.schemaName si.doc
  developer : info.developer = D.schemaDeveloper si.doc
  created : D.ShownTime now (D.schemaTime si.doc) info.createdAt
  implements : Pointwise (fun x y => ImplInfo.Of D now x y) (OMap.vals si.iimpls) info.implements

/-- The description is of the contract with the given genesis. -/
structure ContractInfo.Of (I : Ids) (D : InfoEnv) (now : Int) (c : Nat) (g : Op) (info : ContractInfo) : Prop where
  id : info.id = c
  schema : info.schemaId = I.genesisSchema g
  issuer : info.issuer = D.genesisIssuer g
  issued : D.ShownTime now (D.genesisTime g) info.issuedAt
  testnet : info.testnet = D.genesisTestnet g
  layers : info.altLayers1 = D.genesisLayers g

/-- The id of a contract commits to what is shown of its genesis, also when something of it is concealed. -/
structure InfoEnv.Lawful (H : Commit) (D : InfoEnv) : Prop where
  issuer : ∀ g g' : Op, g.id H = g'.id H → D.genesisIssuer g = D.genesisIssuer g'
  time : ∀ g g' : Op, g.id H = g'.id H → D.genesisTime g = D.genesisTime g'
  testnet : ∀ g g' : Op, g.id H = g'.id H → D.genesisTestnet g = D.genesisTestnet g'
  layers : ∀ g g' : Op, g.id H = g'.id H → D.genesisLayers g = D.genesisLayers g'

end Rgb
