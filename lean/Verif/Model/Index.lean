import Verif.Model.Merge

/-!
# The index

Models `MemIndex` (/repo/src/persistence/memory.rs:1189-1538) and `Index`
(/repo/src/persistence/index.rs:91-343).

Size limits: the 255 limit of `TinyOrdMap`/`TinyOrdSet` is modelled (contracts, witnesses per bundle, opouts per secret
seal); the 2^24 limit of the `Medium…` collections isn't.
Write methods return the new state also in case of an error, since `&mut self` keeps what was done before the error.
-/

namespace Rgb

/-- `IndexInconsistency` (/repo/src/persistence/index.rs:92-125), confinement errors and panics. -/
inductive IdxErr where
  | contractAbsent (c : Nat)
  | bundleAbsent (op : Nat)
  | outpointUnknown (o : Outpoint) (c : Nat)
  | distinctBundleContract (bundle present expected : Nat)
  | distinctBundleOp (op present expected : Nat)
  | bundleContractUnknown (b : Nat)
  | bundleWitnessUnknown (b : Nat)
  | confinement
  | panic
  deriving DecidableEq, Repr

/-- `ContractIndex`, /repo/src/persistence/memory.rs:1197-1200. -/
structure ContractIndex where
  publicOpouts : OSet Opout := []
  outs : OMap OutSeal (OSet Opout) := []
  deriving DecidableEq, Repr

/-- `MemIndex`, /repo/src/persistence/memory.rs:1206-1216. A secret seal is the `Nat` hash of chain and seal. -/
structure Index where
  opBundle : OMap Nat Nat := []
  bundleContract : OMap Nat Nat := []
  bundleWitness : OMap Nat (OSet WitnessId) := []
  contracts : OMap Nat ContractIndex := []
  terminals : OMap Nat (OSet Opout) := []
  deriving DecidableEq, Repr

/-- Size limit of `TinyOrdMap`, `TinyOrdSet`. -/
def tinyMax : Nat := 255

/-- `Confined::push` of the amplify crate: an error when the collection is full, also if the element is there. -/
def tinyPush {α : Type} [Key α] [DecidableEq α] (s : OSet α) (a : α) : Option (OSet α) :=
  if s.length ≥ tinyMax then none else some (OSet.insert s a)

namespace Index

/-- `register_contract`, /repo/src/persistence/memory.rs:1369-1376. -/
def registerContract (x : Index) (c : Nat) : Index × Option IdxErr :=
  if OMap.contains x.contracts c then (x, none)
  else if x.contracts.length ≥ tinyMax then (x, some .confinement)
  else ({ x with contracts := OMap.insert x.contracts c {} }, none)

/-- `register_bundle`, /repo/src/persistence/memory.rs:1378-1405. -/
def registerBundle (x : Index) (b : Nat) (w : WitnessId) (c : Nat) : Index × Option IdxErr :=
  match (OMap.get? x.bundleContract b).filter (fun alt => alt ≠ c) with
  | some alt => (x, some (.distinctBundleContract b alt c))
  | none =>
    let ws := (OMap.get? x.bundleWitness b).getD []
    match tinyPush ws w with
    | none => ({ x with bundleWitness := OMap.insert x.bundleWitness b ws }, some .confinement)
    | some ws' =>
      ({ x with bundleWitness := OMap.insert x.bundleWitness b ws',
                bundleContract := OMap.insert x.bundleContract b c }, none)

/-- `register_operation`, /repo/src/persistence/memory.rs:1407-1426. -/
def registerOperation (x : Index) (op b : Nat) : Index × Option IdxErr :=
  match (OMap.get? x.opBundle op).filter (fun alt => alt ≠ b) with
  | some alt => (x, some (.distinctBundleOp op alt b))
  | none => ({ x with opBundle := OMap.insert x.opBundle op b }, none)

/-- The output seal of an assignment seal: `to_output_seal` for genesis and extensions (`w = none`,
/repo/src/persistence/memory.rs:1443-1445), `try_to_output_seal` for transitions (1476-1482). -/
def outputSeal (w : Option WitnessId) (s : Seal) : Option OutSeal :=
  match w with
  | none => s.toOutput
  | some w => s.toOutputWith w

/-- First loop of `index_genesis_assignments` / `index_transition_assignments`,
/repo/src/persistence/memory.rs:1440-1455, 1473-1494. -/
def indexOuts (w : Option WitnessId) (opid ty : Nat) :
    List Assign → Nat → OMap OutSeal (OSet Opout) → OMap OutSeal (OSet Opout) × Option IdxErr
  | [], _, m => (m, none)
  | a :: rest, no, m =>
    match a.seal? with
    | none => indexOuts w opid ty rest (no + 1) m
    | some s =>
      match outputSeal w s with
      | none => (m, some .panic)
      | some out =>
        indexOuts w opid ty rest (no + 1)
          (OMap.insert m out (OSet.insert ((OMap.get? m out).getD []) ⟨opid, ty, no⟩))

/-- `add_terminal`, /repo/src/persistence/memory.rs:1518-1537: the entry is removed before the fallible `push`. -/
def addTerminal (m : OMap Nat (OSet Opout)) (secret : Nat) (o : Opout) :
    OMap Nat (OSet Opout) × Option IdxErr :=
  match OMap.get? m secret with
  | some existing =>
    match tinyPush existing o with
    | none => (OMap.erase m secret, some .confinement)
    | some set => (OMap.insert (OMap.erase m secret) secret set, none)
  | none => (OMap.insert (OMap.erase m secret) secret [o], none)

/-- The secret seal of an assignment with a hidden seal (patterns of /repo/src/persistence/memory.rs:1509-1511). -/
def hidden? : Assign → Option Nat
  | .confidential s _ => some s
  | .confidentialSeal s _ => some s
  | _ => none

/-- `extend_terminals`, /repo/src/persistence/memory.rs:1501-1516. -/
def extendTerminals (opid ty : Nat) :
    List Assign → Nat → OMap Nat (OSet Opout) → OMap Nat (OSet Opout) × Option IdxErr
  | [], _, m => (m, none)
  | a :: rest, no, m =>
    match hidden? a with
    | none => extendTerminals opid ty rest (no + 1) m
    | some secret =>
      match addTerminal m secret ⟨opid, ty, no⟩ with
      | (m', some e) => (m', some e)
      | (m', none) => extendTerminals opid ty rest (no + 1) m'

/-- `index_genesis_assignments` (`w = none`, /repo/src/persistence/memory.rs:1428-1459) and
`index_transition_assignments` (`w = some _`, 1461-1497). -/
def indexAssignments (x : Index) (c : Nat) (w : Option WitnessId) (items : List Assign) (opid ty : Nat) :
    Index × Option IdxErr :=
  match OMap.get? x.contracts c with
  | none => (x, some (.contractAbsent c))
  | some ci =>
    let r := indexOuts w opid ty items 0 ci.outs
    let x' := { x with contracts := OMap.insert x.contracts c { ci with outs := r.1 } }
    match r.2 with
    | some e => (x', some e)
    | none =>
      let t := extendTerminals opid ty items 0 x'.terminals
      ({ x' with terminals := t.1 }, t.2)

end Index

/-- A call of an `IndexWriteProvider` method, /repo/src/persistence/index.rs:398-440. -/
inductive IdxCall where
  | registerContract (c : Nat)
  | registerBundle (b : Nat) (w : WitnessId) (c : Nat)
  | registerOperation (op b : Nat)
  | assignments (c : Nat) (w : Option WitnessId) (items : List Assign) (opid ty : Nat)
  deriving DecidableEq, Repr

def IdxCall.exec (x : Index) : IdxCall → Index × Option IdxErr
  | .registerContract c => x.registerContract c
  | .registerBundle b w c => x.registerBundle b w c
  | .registerOperation op b => x.registerOperation op b
  | .assignments c w items opid ty => x.indexAssignments c w items opid ty

/-- A sequence of provider calls, each followed with `?`. -/
def IdxCall.execAll : Index → List IdxCall → Index × Option IdxErr
  | x, [] => (x, none)
  | x, call :: rest =>
    match call.exec x with
    | (x', some e) => (x', some e)
    | (x', none) => execAll x' rest

/-- `index_genesis`, /repo/src/persistence/index.rs:186-209, and `index_extension`, 211-238 (the same code). -/
def Index.opCalls (H : Commit) (c : Nat) (op : Op) : List IdxCall :=
  op.assigns.map (fun e => .assignments c none e.2.items (op.id H) e.1)

/-- `index_bundle`, /repo/src/persistence/index.rs:240-296. -/
def Index.bundleCalls (H : Commit) (c : Nat) (b : Bundle) (w : WitnessId) : List IdxCall :=
  .registerBundle (b.id H) w c ::
    b.known.flatMap (fun k => .registerOperation k.1 (b.id H) ::
      k.2.assigns.map (fun e => .assignments c (some w) e.2.items k.1 e.1))

/-- The parts of a consignment which the index and the state use
(`ConsignmentExt`, /repo/src/containers/consignment.rs:57-64). -/
structure ConsignmentData where
  genesis : Op
  extensions : List Op
  bundles : List WitnessBundle
  deriving DecidableEq, Repr

/-- `index_consignment`, /repo/src/persistence/index.rs:159-184. -/
def Index.consignmentCalls (H : Commit) (d : ConsignmentData) : List IdxCall :=
  let c := d.genesis.contractId H
  .registerContract c :: (Index.opCalls H c d.genesis ++ (d.extensions.flatMap (Index.opCalls H c) ++
    d.bundles.flatMap (fun wb => wb.anchored.bundles.flatMap (fun b => Index.bundleCalls H c b wb.id))))

def Index.indexBundle (H : Commit) (x : Index) (c : Nat) (b : Bundle) (w : WitnessId) : Index × Option IdxErr :=
  IdxCall.execAll x (Index.bundleCalls H c b w)

def Index.indexConsignment (H : Commit) (x : Index) (d : ConsignmentData) : Index × Option IdxErr :=
  IdxCall.execAll x (Index.consignmentCalls H d)

namespace Index

/-- `contracts_assigning`, /repo/src/persistence/memory.rs:1274-1294. -/
def contractsAssigning (x : Index) (outpoints : List Outpoint) : List Nat :=
  x.contracts.flatMap (fun e => outpoints.filterMap (fun o =>
    if (OMap.keys e.2.outs).any (fun s => decide (s.outpoint = o)) then some e.1 else none))

/-- `public_opouts`, /repo/src/persistence/memory.rs:1296-1305. -/
def publicOpouts (x : Index) (c : Nat) : Except IdxErr (OSet Opout) :=
  match OMap.get? x.contracts c with
  | none => .error (.contractAbsent c)
  | some ci => .ok ci.publicOpouts

/-- Loop of `opouts_by_outputs`, /repo/src/persistence/memory.rs:1317-1325: only the first seal with the outpoint is
found. -/
def byOutputsLoop (outs : OMap OutSeal (OSet Opout)) (c : Nat) : List Outpoint → OSet Opout → Except IdxErr (OSet Opout)
  | [], acc => .ok acc
  | o :: rest, acc =>
    match outs.find? (fun e => decide (e.1.outpoint = o)) with
    | none => .error (.outpointUnknown o c)
    | some e => byOutputsLoop outs c rest (OSet.extend acc e.2)

/-- `opouts_by_outputs`, /repo/src/persistence/memory.rs:1307-1327. -/
def opoutsByOutputs (x : Index) (c : Nat) (outpoints : List Outpoint) : Except IdxErr (OSet Opout) :=
  match OMap.get? x.contracts c with
  | none => .error (.contractAbsent c)
  | some ci => byOutputsLoop ci.outs c outpoints []

/-- `opouts_by_terminals`, /repo/src/persistence/memory.rs:1329-1341. -/
def opoutsByTerminals (x : Index) (terminals : List Nat) : OSet Opout :=
  OSet.ofList ((x.terminals.filter (fun e => decide (e.1 ∈ terminals))).flatMap Prod.snd)

/-- `bundle_id_for_op`, /repo/src/persistence/memory.rs:1343-1348. -/
def bundleIdForOp (x : Index) (op : Nat) : Except IdxErr Nat :=
  match OMap.get? x.opBundle op with
  | none => .error (.bundleAbsent op)
  | some b => .ok b

/-- `bundle_info`, /repo/src/persistence/memory.rs:1350-1363. -/
def bundleInfo (x : Index) (b : Nat) : Except IdxErr (OSet WitnessId × Nat) :=
  match OMap.get? x.bundleWitness b with
  | none => .error (.bundleWitnessUnknown b)
  | some ws =>
    match OMap.get? x.bundleContract b with
    | none => .error (.bundleContractUnknown b)
    | some c => .ok (ws, c)

end Index

end Rgb
