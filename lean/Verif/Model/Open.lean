import Verif.Model.Stock
import Verif.Model.History

/-!
# Opening contracts, exporting schemata

Models listing and opening of contracts through interfaces, and `export_schema` (/repo/src/persistence/stock.rs:472-609, 702-717), and reading of
global state by name (/repo/src/interface/contract.rs:245-275).
-/

namespace Rgb

/-- `IfaceRef`, /repo/src/interface/iface.rs:94-100. -/
inductive IfaceRef where
  | name (n : Nat)
  | id (i : Nat)
  deriving DecidableEq, Repr

/-- `iface`, /repo/src/persistence/memory.rs:192-199. -/
def MemStash.iface (s : MemStash) : IfaceRef → Option IfaceDoc
  | .name n => s.ifaceByName n
  | .id i => s.ifaceById i

/-- Errors of opening a contract: of the state (`UnknownContract`), `StashInconsistency` and the like, and `ContractIfaceError::NoAbstractImpl`
(/repo/src/persistence/stock.rs:282-286). -/
inductive OpenErr where
  | state (e : StErr)
  | stock (e : StockErr)
  | ifaceAbsent (r : IfaceRef)
  | noAbstractImpl (iface schema : Nat)
  deriving DecidableEq, Repr

/-- `ContractIface`, /repo/src/interface/contract.rs:233-239, as the stock makes it: documents aren't read. `genesis` stands for `info`, which is made
of it. -/
structure Opened where
  state : ContractView
  schema : SchemaDoc
  impl : IimplDoc
  types : OSet Nat
  genesis : Op
  deriving DecidableEq, Repr

namespace Stock

/-- `contract_raw`, /repo/src/persistence/stock.rs:527-536, with `contract_info` (538-543). -/
def contractRaw (k : Stock) (c : Nat) : Except OpenErr (SchemaIfaces × ContractView × Op) :=
  match k.state.contractState c with
  | .error e => .error (.state e)
  | .ok v =>
    match k.stash.schema v.unfiltered.schema with
    | none => .error (.stock (.schemaAbsent v.unfiltered.schema))
    | some si =>
      match k.stash.genesis c with
      | none => .error (.stock (.contractAbsent c))
      | some g => .ok (si, v, g)

/-- `contract_iface`, /repo/src/persistence/stock.rs:582-605. -/
def contractIface (I : Ids) (E : Env) (k : Stock) (c : Nat) (r : IfaceRef) : Except OpenErr Opened :=
  match k.contractRaw c with
  | .error e => .error e
  | .ok (si, v, g) =>
    match k.stash.iface r with
    | none => .error (.ifaceAbsent r)
    | some d =>
      match MemStash.findAbstractable I d si with
      | none => .error (.noAbstractImpl (I.iface d) (I.schema si.doc))
      | some x =>
        match extract E k.stash si.doc [d] with
        | .error e => .error (.stock e)
        | .ok (types, _) => .ok ⟨v, si.doc, x, types, g⟩

/-- `contract_iface_class`, /repo/src/persistence/stock.rs:554-573; `ids` is `C::IFACE_IDS`, which isn't empty, and the error has
its first member. -/
def contractIfaceClass (I : Ids) (E : Env) (k : Stock) (c : Nat) (ids : List Nat) : Except OpenErr Opened :=
  match k.contractRaw c with
  | .error e => .error e
  | .ok (si, v, g) =>
    match MemStash.implFor I k.stash ids si with
    | none => .error (.noAbstractImpl (ids.headD 0) (I.schema si.doc))
    | some x =>
      match k.stash.iface (.id x.ifaceId) with
      | none => .error (.ifaceAbsent (.id x.ifaceId))
      | some d =>
        match extract E k.stash si.doc [d] with
        | .error e => .error (.stock e)
        | .ok (types, _) => .ok ⟨v, si.doc, x, types, g⟩

/-- `contracts`, /repo/src/persistence/stock.rs:494-498. -/
def contracts (k : Stock) : List Op := OMap.vals k.stash.geneses

/-- One item of `contracts_by`, /repo/src/persistence/stock.rs:508-513: contracts which can't be opened are left out. -/
def openedBy (H : Commit) (I : Ids) (E : Env) (k : Stock) (ids : List Nat) (g : Op) : Option Opened :=
  match contractIfaceClass I E k (g.contractId H) ids with
  | .error _ => none
  | .ok x => some x

/-- `contracts_by`, /repo/src/persistence/stock.rs:500-514. -/
def contractsBy (H : Commit) (I : Ids) (E : Env) (k : Stock) (ids : List Nat) : List Opened :=
  (MemStash.genesesBy I k.stash ids).filterMap (openedBy H I E k ids)

/-- The loop over names of `export_schema`, /repo/src/persistence/stock.rs:705-708. -/
def exportIfaces (s : MemStash) : OMap Nat IimplDoc → OSet IfaceDoc → Except StockErr (OSet IfaceDoc)
  | [], m => .ok m
  | (name, _) :: rest, m =>
    match s.ifaceByName name with
    | none => .error (.ifaceNameAbsent name)
    | some d =>
      match tinyPush m d with
      | none => .error .panic
      | some m' => exportIfaces s rest m'

/-- `kit.iimpls.extend(..).expect(..)`, /repo/src/persistence/stock.rs:709-711. -/
def exportImpls : List IimplDoc → OSet IimplDoc → Except StockErr (OSet IimplDoc)
  | [], m => .ok m
  | x :: rest, m =>
    match tinyPush m x with
    | none => .error .panic
    | some m' => exportImpls rest m'

/-- `export_schema`, /repo/src/persistence/stock.rs:699-718. Supplements and signatures aren't exported. `Kit::validate` checks nothing
(/repo/src/containers/kit.rs:183-197). -/
def exportSchema (E : Env) (k : Stock) (i : Nat) : Except StockErr Kit :=
  match k.stash.schema i with
  | none => .error (.schemaAbsent i)
  | some si =>
    match exportIfaces k.stash si.iimpls [] with
    | .error e => .error e
    | .ok ifaces =>
      match exportImpls (OMap.vals si.iimpls) [] with
      | .error e => .error e
      | .ok iimpls =>
        match extract E k.stash si.doc ifaces with
        | .error e => .error e
        | .ok (types, scripts) => .ok { ifaces := ifaces, schemata := [si.doc], iimpls := iimpls, types := types, scripts := OSet.ofList scripts }

end Stock

/-- What reading global state by name can end with: `FieldNameUnknown`, or a panic of /repo/src/interface/contract.rs:262, 266, 270. -/
inductive GlobalErr where
  | unknown (name : Nat)
  | panic
  deriving DecidableEq, Repr

/-- Deserializing of each item, /repo/src/interface/contract.rs:267-272. -/
def decodeAll (decode : Nat → Nat → Option Nat) (sem : Nat) : List (GlobalOrd × Nat) → Except GlobalErr (List Nat)
  | [] => .ok []
  | e :: rest =>
    match decode sem e.2 with
    | none => .error .panic
    | some v =>
      match decodeAll decode sem rest with
      | .error x => .error x
      | .ok vs => .ok (v :: vs)

/-- `global`, /repo/src/interface/contract.rs:248-274. `sems`: the types of values (`sem_id`) of the global state of the schema; `decode`: `strict_deserialize_type`
with the types of the contract. The iterator is lazy: a panic at an item comes when it's reached. -/
def ContractIface.global (sems : OMap Nat Nat) (decode : Nat → Nat → Option Nat) (x : ContractIface) (name : Nat) : Except GlobalErr (List Nat) :=
  match typeByName x.impl.globalState name with
  | none => .error (.unknown name)
  | some ty =>
    match OMap.get? sems ty with
    | none => .error .panic
    | some sem =>
      match x.state.globalItems ty with
      | none => .error .panic
      | some items => decodeAll decode sem items

end Rgb
