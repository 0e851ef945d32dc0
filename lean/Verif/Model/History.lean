import Verif.Model.State
import Verif.Model.Iface
import Verif.Model.Amount

/-!
# Reading a contract: filters, allocations, history

Models /repo/src/interface/filter.rs and `ContractIface` with `ContractOp`, `AllocatedState` (/repo/src/interface/contract.rs).

The iteration order of a `HashSet` is a parameter `ord`, which is any rearrangement of the list of the members.
-/

namespace Rgb

/-- Implementations of `AssignmentsFilter`, /repo/src/interface/filter.rs:28-134: `all` is `FilterIncludeAll`, `exclude` is `FilterExclude`,
`absent` and `present` are `None` and `Some` of `Option<T>`, `outpoint` is `XOutpoint`, `outpoints` are arrays, slices, `Vec`, `HashSet` and
`BTreeSet` of outpoints, `keys` are `HashMap` and `BTreeMap` with outpoints for keys, `custom` is an implementation by a wallet. References
`&T` and `&mut T` (60-78) answer as `T` and have no constructor. -/
inductive AFilter where
  | all
  | exclude (f : AFilter)
  | absent
  | present (f : AFilter)
  | outpoint (o : Outpoint)
  | outpoints (os : List Outpoint)
  | keys (m : List (Outpoint × Nat))
  | custom (f : Outpoint → Option WitnessId → Bool)

/-- `should_include`, /repo/src/interface/filter.rs:40-134. -/
def AFilter.includes : AFilter → Outpoint → Option WitnessId → Bool
  | .all, _, _ => true
  | .exclude f, o, w => !f.includes o w
  | .absent, _, _ => true
  | .present f, o, w => f.includes o w
  | .outpoint p, o, _ => decide (p = o)
  | .outpoints ps, o, _ => ps.contains o
  | .keys m, o, _ => m.any (fun e => decide (e.1 = o))
  | .custom f, o, w => f o w

/-- `filter.should_include(outp.seal, outp.witness)`, /repo/src/interface/contract.rs:290, 360, 404, 413: the outpoint of the seal is taken. -/
def AFilter.takes (f : AFilter) (a : OutAssign) : Bool := f.includes a.sl.outpoint a.witness

/-- `AllocatedState`, /repo/src/interface/contract.rs:55-76. -/
inductive AllocState where
  | void
  | amount (v : Nat)
  | data (v : Nat)
  | attach (file media : Nat)
  deriving DecidableEq, Repr

/-- The conversions derived by `#[from]` in /repo/src/interface/contract.rs:55-76: blinding factors, asset tags and salts are dropped. -/
def AllocState.of : RState → AllocState
  | .void => .void
  | .fungible v _ _ => .amount v
  | .data v _ => .data v
  | .attach f m _ => .attach f m

/-- `OwnedAllocation = OutputAssignment<AllocatedState>`, /repo/src/interface/contract.rs:91. -/
structure Alloc where
  opout : Opout
  sl : OutSeal
  state : AllocState
  witness : Option WitnessId
  deriving DecidableEq, Repr

/-- `transmute`, /repo/src/contract/assignments.rs:175-182. -/
def Alloc.of (a : OutAssign) : Alloc := ⟨a.opout, a.sl, .of a.state, a.witness⟩

/-- `OpDirection`, /repo/src/interface/contract.rs:104-108. -/
inductive OpDirection where
  | issued
  | received
  | sent
  deriving DecidableEq, Repr

/-- `WitnessInfo`, /repo/src/contract/assignments.rs:80-83. -/
structure WitnessInfo where
  id : WitnessId
  ord : WitnessOrd
  deriving DecidableEq, Repr

/-- `ContractOp`, /repo/src/interface/contract.rs:116-123. -/
structure ContractOp where
  direction : OpDirection
  ty : Nat
  opids : OSet Nat
  state : AllocState
  to : OSet OutSeal
  witness : Option WitnessInfo
  deriving DecidableEq, Repr

/-- Panics of composing a history. -/
inductive HistPanic where
  /-- `expect` of /repo/src/interface/contract.rs:415-417 -/
  | noWitness
  /-- `expect` of /repo/src/interface/contract.rs:445-447 -/
  | noWitnessInfo (w : WitnessId)
  /-- `assert_eq!` of /repo/src/interface/contract.rs:131 -/
  | mixedTypes
  /-- `expect` of /repo/src/interface/contract.rs:134 -/
  | emptyAllocations
  /-- `panic!` of /repo/src/interface/contract.rs:86 -/
  | notFungible
  /-- `unreachable!` of /repo/src/interface/contract.rs:482 -/
  | brokenFilters
  deriving DecidableEq, Repr

/-- `reduce_to_ty`, /repo/src/interface/contract.rs:125-135. -/
def reduceToTy : List Alloc → Except HistPanic Nat
  | [] => .error .emptyAllocations
  | a :: rest => if rest.all (fun b => decide (a.opout.ty = b.opout.ty)) then .ok a.opout.ty else .error .mixedTypes

/-- `unwrap_fungible`, /repo/src/interface/contract.rs:83-88, of each of the allocations. -/
def unwrapAmounts : List Alloc → Except HistPanic (List Nat)
  | [] => .ok []
  | a :: rest =>
    match a.state with
    | .amount v =>
      match unwrapAmounts rest with
      | .error e => .error e
      | .ok vs => .ok (v :: vs)
    | _ => .error .notFungible

/-- `non_fungible_genesis`, `non_fungible_sent`, `non_fungible_received`, /repo/src/interface/contract.rs:138-179: one operation for each
allocation. -/
def ContractOp.single (dir : OpDirection) (w : Option WitnessInfo) (a : Alloc) : ContractOp :=
  ⟨dir, a.opout.ty, [a.opout.op], a.state, [a.sl], w⟩

/-- `fungible_genesis`, `fungible_sent`, `fungible_received`, /repo/src/interface/contract.rs:181-228: one operation for all the
allocations; amounts are added with saturation (/repo/invoice/src/amount.rs:172-176). -/
def ContractOp.total (dir : OpDirection) (w : Option WitnessInfo) (as : List Alloc) : Except HistPanic ContractOp :=
  match unwrapAmounts as with
  | .error e => .error e
  | .ok vs =>
    match reduceToTy as with
    | .error e => .error e
    | .ok ty => .ok ⟨dir, ty, OSet.ofList (as.map (fun a => a.opout.op)), .amount (Amount.sum vs), OSet.ofList (as.map (fun a => a.sl)), w⟩

/-- The `if T::IS_FUNGIBLE` of /repo/src/interface/contract.rs:434-438, 459-463, 467-471, 476-480. `as`: members of the hash set. -/
def ContractOp.records (ord : List Alloc → List Alloc) (fungible : Bool) (dir : OpDirection) (w : Option WitnessInfo) (as : List Alloc) :
    Except HistPanic (List ContractOp) :=
  if fungible then (ContractOp.total dir w (ord as)).map (fun o => [o]) else .ok ((ord as).map (ContractOp.single dir w))

/-- `HashSet::insert` for allocations. `Eq` looks at the output and the seal only and `Hash` at everything
(/repo/src/contract/assignments.rs:87, 103-117); all the sets are made from one ordered set, which doesn't have two members with the same
output and seal, so that comparing everything amounts to the same. -/
def hashInsert (s : List Alloc) (a : Alloc) : List Alloc := if s.contains a then s else s ++ [a]

/-- `HashMap<κ, HashSet<OwnedAllocation>>` as the list of its entries; it is only looked into by key, and its keys are only collected into an
ordered set. -/
abbrev AllocGroups (κ : Type) := List (κ × List Alloc)

/-- `map.entry(k).or_default().insert(a)`, /repo/src/interface/contract.rs:406-408, 418-420. -/
def AllocGroups.add {κ : Type} [DecidableEq κ] : AllocGroups κ → κ → Alloc → AllocGroups κ
  | [], k, a => [(k, hashInsert [] a)]
  | (k', s) :: m, k, a => if k' = k then (k', hashInsert s a) :: m else (k', s) :: AllocGroups.add m k a

/-- `HashMap::remove`: what is returned. (Nothing is removed here: no key is asked for twice.) -/
def AllocGroups.get {κ : Type} [DecidableEq κ] : AllocGroups κ → κ → Option (List Alloc)
  | [], _ => none
  | (k', s) :: m, k => if k' = k then some s else AllocGroups.get m k

/-- The fold of /repo/src/interface/contract.rs:403-410. -/
def groupOurs : List OutAssign → AllocGroups (Option WitnessId) → AllocGroups (Option WitnessId)
  | [], m => m
  | a :: rest, m => groupOurs rest (m.add a.witness (.of a))

/-- The fold of /repo/src/interface/contract.rs:412-422. -/
def groupWitnesses : List OutAssign → AllocGroups WitnessId → Except HistPanic (AllocGroups WitnessId)
  | [], m => .ok m
  | a :: rest, m =>
    match a.witness with
    | none => .error .noWitness
    | some w => groupWitnesses rest (m.add w (.of a))

/-- `witness_info`, /repo/src/interface/contract.rs:520-526. -/
def ContractView.witnessInfo (v : ContractView) (w : WitnessId) : Option WitnessInfo := (v.witnessOrd w).map (fun o => ⟨w, o⟩)

/-- The `match` of /repo/src/interface/contract.rs:449-483. -/
def witnessRecords (ord : List Alloc → List Alloc) (fungible : Bool) (info : WitnessInfo) :
    Option (List Alloc) → Option (List Alloc) → Except HistPanic (List ContractOp)
  | some ours, some all =>
    let ext := all.filter (fun a => !ours.contains a)
    if ext.isEmpty then .ok [] else ContractOp.records ord fungible .sent (some info) ext
  | none, some ext => ContractOp.records ord fungible .sent (some info) ext
  | some ours, none => ContractOp.records ord fungible .received (some info) ours
  | none, none => .error .brokenFilters

/-- The loop of /repo/src/interface/contract.rs:442-484. -/
def witnessLoop (ord : List Alloc → List Alloc) (fungible : Bool) (v : ContractView) (ours : AllocGroups (Option WitnessId))
    (wits : AllocGroups WitnessId) : List WitnessId → Except HistPanic (List ContractOp)
  | [] => .ok []
  | w :: rest =>
    match v.witnessInfo w with
    | none => .error (.noWitnessInfo w)
    | some info =>
      match witnessRecords ord fungible info (ours.get (some w)) (wits.get w) with
      | .error e => .error e
      | .ok ops =>
        match witnessLoop ord fungible v ours wits rest with
        | .error e => .error e
        | .ok ops' => .ok (ops ++ ops')

/-- `IS_FUNGIBLE` of the state type of a kind, /repo/src/contract/assignments.rs:42-69. -/
def StateKind.isFungible : StateKind → Bool
  | .fungible => true
  | _ => false

/-- Genesis part of the history, /repo/src/interface/contract.rs:433-441. -/
def genesisRecords (ord : List Alloc → List Alloc) (fungible : Bool) : Option (List Alloc) → Except HistPanic (List ContractOp)
  | none => .ok []
  | some as => ContractOp.records ord fungible .issued none as

/-- `operations`, /repo/src/interface/contract.rs:389-487, for the state of a kind: `history_fungible`, `history_rights`, `history_data`,
`history_attach` (489-519). -/
def ContractView.operations (ord : List Alloc → List Alloc) (v : ContractView) (k : StateKind) (fo fw : AFilter) :
    Except HistPanic (List ContractOp) :=
  let ours := groupOurs ((v.all k).filter fo.takes) []
  match groupWitnesses ((v.all k).filter fw.takes) [] with
  | .error e => .error e
  | .ok wits =>
    let ids := OSet.extend (OSet.ofList (wits.map Prod.fst)) ((ours.map Prod.fst).filterMap id)
    match genesisRecords ord k.isFungible (ours.get none) with
    | .error e => .error e
    | .ok gen =>
      match witnessLoop ord k.isFungible v ours wits ids with
      | .error e => .error e
      | .ok ops => .ok (gen ++ ops)

/-- `history`, /repo/src/interface/contract.rs:376-387. -/
def ContractView.history (ord : List Alloc → List Alloc) (v : ContractView) (fo fw : AFilter) : Except HistPanic (List ContractOp) :=
  match v.operations ord .fungible fo fw with
  | .error e => .error e
  | .ok f =>
    match v.operations ord .declarative fo fw with
    | .error e => .error e
    | .ok r =>
      match v.operations ord .structured fo fw with
      | .error e => .error e
      | .ok d =>
        match v.operations ord .attachment fo fw with
        | .error e => .error e
        | .ok a => .ok (f ++ r ++ d ++ a)

/-- `ContractIface`, /repo/src/interface/contract.rs:233-239: only the parts which are used for reading owned state. -/
structure ContractIface where
  state : ContractView
  impl : IfaceImpl
  deriving DecidableEq, Repr

/-- `extract_state` with `extract_state_unfiltered`, /repo/src/interface/contract.rs:277-311, for `rights`, `fungible`, `data` and
`attachments` (313-343); the error is `FieldNameUnknown`. -/
def ContractIface.byName (c : ContractIface) (k : StateKind) (name : Nat) (f : AFilter) : Except Nat (List Alloc) :=
  match typeByName c.impl.assignments name with
  | none => .error name
  | some ty => .ok ((((c.state.all k).filter (fun a => decide (a.opout.ty = ty))).filter f.takes).map Alloc.of)

/-- `allocations`, /repo/src/interface/contract.rs:345-367. -/
def ContractIface.allocations (c : ContractIface) (f : AFilter) : List Alloc :=
  ((c.state.all .declarative).filter f.takes).map Alloc.of ++ ((c.state.all .fungible).filter f.takes).map Alloc.of ++
    ((c.state.all .structured).filter f.takes).map Alloc.of ++ ((c.state.all .attachment).filter f.takes).map Alloc.of

/-- `outpoint_allocations`, /repo/src/interface/contract.rs:369-374. -/
def ContractIface.outpointAllocations (c : ContractIface) (o : Outpoint) : List Alloc := c.allocations (.outpoint o)

end Rgb
