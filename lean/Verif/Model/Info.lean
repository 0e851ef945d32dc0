import Verif.Model.Open
import Verif.Model.Suppl

/-!
# Descriptions of interfaces, schemata and contracts

Models `IfaceInfo`, `SchemaInfo`, `ImplInfo`, `ContractInfo` (/repo/src/info.rs:66-302) and the listings of a stock made of them
(/repo/src/persistence/stock.rs:477-506, 549-554). Printing of them (`Display`) isn't modelled.
-/

namespace Rgb

/-- The fields of documents which descriptions show and which the stash doesn't read, and what is used of dependencies:
* `ifaceRef` – `ContentRef::Iface`, /repo/src/containers/suppl.rs:121;
* `annotations`, `classAnnot`, `featuresAnnot` – the annotations of a supplement, and the names `SUPPL_ANNOT_IFACE_CLASS`, `SUPPL_ANNOT_IFACE_FEATURES`
  (/repo/src/containers/suppl.rs:43-44); `deClass`, `deFeatures` – strict decoding of `IfaceClassName` and `FeatureList`;
* `timeOk` – whether `Utc.timestamp_opt(t, 0)` of chrono gives a time. -/
structure InfoEnv where
  ifaceVersion : IfaceDoc → Nat
  ifaceDeveloper : IfaceDoc → Nat
  ifaceTime : IfaceDoc → Int
  ifaceDefaultOp : IfaceDoc → Option Nat
  schemaName : SchemaDoc → Nat
  schemaDeveloper : SchemaDoc → Nat
  schemaTime : SchemaDoc → Int
  implId : IimplDoc → Nat
  implDeveloper : IimplDoc → Nat
  implTime : IimplDoc → Int
  genesisIssuer : Op → Nat
  genesisTime : Op → Int
  genesisTestnet : Op → Bool
  genesisLayers : Op → List Nat
  ifaceRef : Nat → Nat
  annotations : SupplDoc → Suppl.Supplement
  classAnnot : Nat
  featuresAnnot : Nat
  deClass : Nat → Except Unit Nat
  deFeatures : Nat → Except Unit (OSet Nat)
  timeOk : Int → Bool

/-- `Utc.timestamp_opt(..).single().unwrap_or_else(Utc::now)`, /repo/src/info.rs:117-120, 209-212, 256-259, 294-297. A time is the number of
seconds; `now` is the time at which the description is made. -/
def InfoEnv.time (D : InfoEnv) (now t : Int) : Int := if D.timeOk t then t else now

/-- `IfaceInfo`, /repo/src/info.rs:72-82. -/
structure IfaceInfo where
  id : Nat
  version : Nat
  name : Nat
  standard : Option Nat
  features : OSet Nat
  developer : Nat
  createdAt : Int
  inherits : List IfaceRef
  defaultOp : Option Nat
  deriving DecidableEq, Repr

/-- `ImplInfo`, /repo/src/info.rs:241-247. -/
structure ImplInfo where
  id : Nat
  ifaceId : Nat
  ifaceName : Nat
  developer : Nat
  createdAt : Int
  deriving DecidableEq, Repr

/-- `SchemaInfo`, /repo/src/info.rs:194-200. -/
structure SchemaInfo where
  id : Nat
  name : Nat
  developer : Nat
  createdAt : Int
  implements : List ImplInfo
  deriving DecidableEq, Repr

/-- `ContractInfo`, /repo/src/info.rs:279-286. -/
structure ContractInfo where
  id : Nat
  schemaId : Nat
  issuer : Nat
  issuedAt : Int
  testnet : Bool
  altLayers1 : List Nat
  deriving DecidableEq, Repr

/-- `IfaceInfo::with`, /repo/src/info.rs:104-135. -/
def IfaceInfo.with (I : Ids) (D : InfoEnv) (now : Int) (d : IfaceDoc) (standard : Option Nat) (features : OSet Nat) (names : OMap Nat Nat) :
    IfaceInfo where
  id := I.iface d
  version := D.ifaceVersion d
  name := d.name
  standard := standard
  features := features
  developer := D.ifaceDeveloper d
  createdAt := D.time now (D.ifaceTime d)
  inherits := d.inherits.map (fun i => match OMap.get? names i with | some n => .name n | none => .id i)
  defaultOp := D.ifaceDefaultOp d

/-- `IfaceInfo::new`, /repo/src/info.rs:85-102. -/
def IfaceInfo.new (I : Ids) (D : InfoEnv) (now : Int) (d : IfaceDoc) (names : OMap Nat Nat) (suppl : Option SupplDoc) : IfaceInfo :=
  match suppl with
  | none => IfaceInfo.with I D now d none [] names
  | some x =>
    IfaceInfo.with I D now d (Suppl.getDefaultOpt D.deClass (D.annotations x) .itself D.classAnnot)
      ((Suppl.getDefaultOpt D.deFeatures (D.annotations x) .itself D.featuresAnnot).getD []) names

/-- `ImplInfo::with`, /repo/src/info.rs:250-261. -/
def ImplInfo.with (D : InfoEnv) (now : Int) (name : Nat) (x : IimplDoc) : ImplInfo where
  id := D.implId x
  ifaceId := x.ifaceId
  ifaceName := name
  developer := D.implDeveloper x
  createdAt := D.time now (D.implTime x)

/-- `SchemaInfo::with`, /repo/src/info.rs:203-219. -/
def SchemaInfo.with (I : Ids) (D : InfoEnv) (now : Int) (si : SchemaIfaces) : SchemaInfo where
  id := I.schema si.doc
  name := D.schemaName si.doc
  developer := D.schemaDeveloper si.doc
  createdAt := D.time now (D.schemaTime si.doc)
  implements := si.iimpls.map (fun e => ImplInfo.with D now e.1 e.2)

/-- `ContractInfo::with`, /repo/src/info.rs:289-301. -/
def ContractInfo.with (H : Commit) (I : Ids) (D : InfoEnv) (now : Int) (g : Op) : ContractInfo where
  id := g.contractId H
  schemaId := I.genesisSchema g
  issuer := D.genesisIssuer g
  issuedAt := D.time now (D.genesisTime g)
  testnet := D.genesisTestnet g
  altLayers1 := D.genesisLayers g

namespace Stock

/-- The names of the known interfaces, /repo/src/persistence/stock.rs:478-482: of two with one id the last. -/
def ifaceNames (I : Ids) (k : Stock) : OMap Nat Nat :=
  OMap.extend [] ((OMap.vals k.stash.ifaces).map (fun d => (I.iface d, d.name)))

/-- `ifaces`, /repo/src/persistence/stock.rs:477-491. -/
def ifaceInfos (I : Ids) (D : InfoEnv) (now : Int) (k : Stock) : List IfaceInfo :=
  (OMap.vals k.stash.ifaces).map (fun d => IfaceInfo.new I D now d (k.ifaceNames I) (k.stash.supplement (D.ifaceRef (I.iface d))))

/-- `schemata`, /repo/src/persistence/stock.rs:495-497. -/
def schemaInfos (I : Ids) (D : InfoEnv) (now : Int) (k : Stock) : List SchemaInfo :=
  (OMap.vals k.stash.schemata).map (SchemaInfo.with I D now)

/-- `contracts`, /repo/src/persistence/stock.rs:502-506. -/
def contractInfos (H : Commit) (I : Ids) (D : InfoEnv) (now : Int) (k : Stock) : List ContractInfo :=
  k.contracts.map (ContractInfo.with H I D now)

/-- `contract_info`, /repo/src/persistence/stock.rs:549-554. -/
def contractInfo (H : Commit) (I : Ids) (D : InfoEnv) (now : Int) (k : Stock) (c : Nat) : Except StockErr ContractInfo :=
  match k.stash.genesis c with
  | none => .error (.contractAbsent c)
  | some g => .ok (ContractInfo.with H I D now g)

end Stock

end Rgb
