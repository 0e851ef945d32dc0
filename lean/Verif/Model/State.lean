import Verif.Model.Index

/-!
# The contract state

Models `MemState`, `MemContractState`, `MemContract` (/repo/src/persistence/memory.rs:484-1182), `State`
(/repo/src/persistence/state.rs:100-246) and `OutputAssignment` (/repo/src/contract/assignments.rs:87-197).

Simplifications: limits of 2^24 and 2^32 items are dropped; the 255 contracts limit is kept. A panic ends the program, so
there is no state after it (`none`). Casts of output numbers to `u16` can't truncate (operations have at most 2^16 outputs of
a type). Two entries with equal output and seal but different state trigger a `debug_assert_eq!` in debug builds
(/repo/src/contract/assignments.rs:108-111), which isn't modelled.
-/

namespace Rgb

/-- `WitnessOrd` of rgb-core (`rgb::vm::WitnessOrd`, used in /repo/src/persistence/memory.rs:499). A mined position is its height and
everything else as one number. `ignored` stands for any other value which isn't archived. -/
inductive WitnessOrd where
  | mined (height rest : Nat)
  | tentative
  | ignored
  | archived
  deriving DecidableEq, Repr

/-- `WitnessOrd::is_valid()` of rgb-core, used in /repo/src/persistence/memory.rs:584. -/
def WitnessOrd.isValid : WitnessOrd → Bool
  | .archived => false
  | _ => true

/-- `OpWitness`, /repo/src/contract/mod.rs:40-45. -/
inductive OpWitness where
  | genesis
  | transition (w : WitnessId) (ty : Nat)
  | extension (w : WitnessId) (ty : Nat)
  deriving DecidableEq, Repr

/-- `OpWitness::witness_id`, /repo/src/contract/mod.rs:61-71. -/
def OpWitness.witness? : OpWitness → Option WitnessId
  | .genesis => none
  | .transition w _ => some w
  | .extension w _ => some w

def OpWitness.enc : OpWitness → List Nat
  | .genesis => [0]
  | .transition w ty => [1, w.chain.num, w.txid, ty]
  | .extension w ty => [2, w.chain.num, w.txid, ty]

/-- `GlobalOut`, /repo/src/contract/mod.rs:81-86: ordered by operation id, nonce, index, witness. -/
structure GlobalOut where
  opid : Nat
  nonce : Nat
  index : Nat
  opWitness : OpWitness
  deriving DecidableEq, Repr

instance : Key GlobalOut where
  enc g := [g.opid, g.nonce, g.index] ++ g.opWitness.enc
  enc_inj := by
    rintro ⟨a, b, c, w⟩ ⟨a', b', c', w'⟩ h
    have hw : ∀ x y : WitnessId, x.chain.num = y.chain.num → x.txid = y.txid → x = y := by
      rintro ⟨p, q⟩ ⟨p', q'⟩ h1 h2; cases Layer1.num_inj h1; cases h2; rfl
    cases w <;> cases w' <;> simp [OpWitness.enc] at h ⊢
    · exact h
    · obtain ⟨h1, h2, h3, h4, h5, h6⟩ := h; exact ⟨h1, h2, h3, hw _ _ h4 h5, h6⟩
    · obtain ⟨h1, h2, h3, h4, h5, h6⟩ := h; exact ⟨h1, h2, h3, hw _ _ h4 h5, h6⟩

/-- `OutputAssignment<State>`, /repo/src/contract/assignments.rs:96-101. -/
structure OutAssign where
  opout : Opout
  sl : OutSeal
  state : RState
  witness : Option WitnessId
  deriving DecidableEq, Repr

/-- The part of an `OutputAssignment` which its `Eq` and `Ord` look at, /repo/src/contract/assignments.rs:103-131. -/
structure OutKey where
  opout : Opout
  sl : OutSeal
  deriving DecidableEq, Repr

instance : Key OutKey where
  enc k := Key.enc k.opout ++ Key.enc k.sl
  enc_inj := by
    rintro ⟨o, s⟩ ⟨o', s'⟩ h
    have hl : (Key.enc o).length = (Key.enc o').length := rfl
    obtain ⟨h1, h2⟩ := List.append_inj h hl
    cases Key.enc_inj _ _ h1; cases Key.enc_inj _ _ h2; rfl

/-- `LargeOrdSet<OutputAssignment<State>>`, as a map from what is compared. -/
abbrev OutSet := OMap OutKey OutAssign

/-- `Confined::push` into the ordered set (`BTreeSet::insert`): an equal element which is already there stays. -/
def OutSet.push (s : OutSet) (a : OutAssign) : OutSet :=
  if OMap.contains s ⟨a.opout, a.sl⟩ then s else OMap.insert s ⟨a.opout, a.sl⟩ a

/-- `MemGlobalState`, /repo/src/persistence/memory.rs:687-690. -/
structure GlobalState where
  known : OMap GlobalOut Nat := []
  limit : Nat
  deriving DecidableEq, Repr

/-- `MemContractState`, /repo/src/persistence/memory.rs:717-728. -/
structure ContractState where
  schema : Nat
  contract : Nat
  global : OMap Nat GlobalState
  rights : OutSet := []
  fungibles : OutSet := []
  data : OutSet := []
  attach : OutSet := []
  deriving DecidableEq, Repr

/-- `MemState`, /repo/src/persistence/memory.rs:491-500. -/
structure MemState where
  witnesses : OMap WitnessId WitnessOrd := []
  contracts : OMap Nat ContractState := []
  deriving DecidableEq, Repr

/-- The part of `Schema` the state uses: its id and `global_types` with their `max_items`. -/
structure SchemaGlobals where
  id : Nat
  maxItems : OMap Nat Nat
  deriving DecidableEq, Repr

inductive StErr where
  | unknownContract (c : Nat)
  | absentWitness (w : WitnessId)
  | absentValidWitness
  | resolver (w : WitnessId)
  | confinement
  deriving DecidableEq, Repr

namespace ContractState

/-- `MemContractState::new`, /repo/src/persistence/memory.rs:731-747. -/
def new (sch : SchemaGlobals) (c : Nat) : ContractState :=
  { schema := sch.id, contract := c, global := OMap.mapVals (fun l => { limit := l }) sch.maxItems }

/-- The set for a kind of state: the `match` of /repo/src/persistence/memory.rs:844-857. -/
def kindSet (s : ContractState) : StateKind → OutSet
  | .declarative => s.rights
  | .fungible => s.fungibles
  | .structured => s.data
  | .attachment => s.attach

def setKind (s : ContractState) (k : StateKind) (v : OutSet) : ContractState :=
  match k with
  | .declarative => { s with rights := v }
  | .fungible => { s with fungibles := v }
  | .structured => { s with data := v }
  | .attachment => { s with attach := v }

/-- `a.to_revealed()`: seal and state of an assignment with both visible. -/
def revealed? : Assign → Option (Seal × RState)
  | .revealed s st => some (s, st)
  | _ => none

/-- `process` of `add_assignments`, /repo/src/persistence/memory.rs:820-842, with `OutputAssignment::with_witness` /
`with_no_witness` (/repo/src/contract/assignments.rs:137-172). `none`: panic. -/
def process (w : Option WitnessId) (opid ty : Nat) : List Assign → Nat → OutSet → Option OutSet
  | [], _, s => some s
  | a :: rest, no, s =>
    match revealed? a with
    | none => process w opid ty rest (no + 1) s
    | some (sl, st) =>
      match Index.outputSeal w sl with
      | none => none
      | some out => process w opid ty rest (no + 1) (OutSet.push s ⟨⟨opid, ty, no⟩, out, st, w⟩)

/-- `add_assignments`, /repo/src/persistence/memory.rs:814-860. -/
def addAssignments (w : Option WitnessId) (opid : Nat) : Assignments → ContractState → Option ContractState
  | [], s => some s
  | (ty, t) :: rest, s =>
    match process w opid ty t.items 0 (s.kindSet t.kind) with
    | none => none
    | some set => addAssignments w opid rest (s.setKind t.kind set)

/-- Inner loop of the global state part of `add_operation`, /repo/src/persistence/memory.rs:757-767. -/
def addGlobalItems (opid nonce : Nat) (ow : OpWitness) : List Nat → Nat → OMap GlobalOut Nat → OMap GlobalOut Nat
  | [], _, m => m
  | v :: rest, idx, m => addGlobalItems opid nonce ow rest (idx + 1) (OMap.insert m ⟨opid, nonce, idx, ow⟩ v)

/-- Outer loop, /repo/src/persistence/memory.rs:752-768. `none`: the type isn't in the schema (panic). -/
def addGlobals (opid nonce : Nat) (ow : OpWitness) : OMap Nat (List Nat) → OMap Nat GlobalState → Option (OMap Nat GlobalState)
  | [], g => some g
  | (ty, vals) :: rest, g =>
    match OMap.get? g ty with
    | none => none
    | some gs => addGlobals opid nonce ow rest (OMap.insert g ty { gs with known := addGlobalItems opid nonce ow vals 0 gs.known })

/-- `add_operation`, /repo/src/persistence/memory.rs:749-812. `nonce()` of a genesis is the constant `u64::MAX` in rgb-core: whatever it
is, here it is the `nonce` field. -/
def addOperation (H : Commit) (s : ContractState) (op : Op) (ow : OpWitness) : Option ContractState :=
  match addGlobals (op.id H) op.nonce ow op.globals s.global with
  | none => none
  | some g => addAssignments ow.witness? (op.id H) op.assigns { s with global := g }

end ContractState

/-- Write calls of the state provider: `register_contract`; `add_transition`/`add_extension` of a contract writer obtained for the
contract (`update_contract`, or continuing after `register_contract`). -/
inductive StCall where
  | register (sch : SchemaGlobals) (genesis : Op)
  | transition (c : Nat) (op : Op) (w : WitnessId) (ord : WitnessOrd)
  | extension (c : Nat) (op : Op) (w : WitnessId) (ord : WitnessOrd)
  deriving DecidableEq, Repr

namespace MemState

/-- `register_contract`, /repo/src/persistence/memory.rs:592-624. -/
def registerContract (H : Commit) (s : MemState) (sch : SchemaGlobals) (g : Op) : Option (MemState × Option StErr) :=
  let c := g.contractId H
  match OMap.get? s.contracts c with
  | some cs => (cs.addOperation H g .genesis).map (fun cs' => ({ s with contracts := OMap.insert s.contracts c cs' }, none))
  | none =>
    if s.contracts.length ≥ tinyMax then some (s, some .confinement)
    else ((ContractState.new sch c).addOperation H g .genesis).map
      (fun cs' => ({ s with contracts := OMap.insert s.contracts c cs' }, none))

/-- `add_transition` and `add_extension` of the contract writer (/repo/src/persistence/memory.rs:1149-1181), with the writer given by
`update_contract` (626-648). -/
def addOp (H : Commit) (s : MemState) (c : Nat) (op : Op) (w : WitnessId) (ord : WitnessOrd) (ow : OpWitness) :
    Option (MemState × Option StErr) :=
  match OMap.get? s.contracts c with
  | none => some (s, some (.unknownContract c))
  | some cs => (cs.addOperation H op ow).map
      (fun cs' => ({ witnesses := OMap.insert s.witnesses w ord, contracts := OMap.insert s.contracts c cs' }, none))

end MemState

def StCall.exec (H : Commit) (s : MemState) : StCall → Option (MemState × Option StErr)
  | .register sch g => s.registerContract H sch g
  | .transition c op w ord => s.addOp H c op w ord (.transition w op.ty)
  | .extension c op w ord => s.addOp H c op w ord (.extension w op.ty)

/-- A sequence of calls, each followed with `?`. -/
def StCall.execAll (H : Commit) (s : MemState) : List StCall → Option (MemState × Option StErr)
  | [] => some (s, none)
  | call :: rest =>
    match call.exec H s with
    | none => none
    | some (s', some e) => some (s', some e)
    | some (s', none) => execAll H s' rest

/-- A resolver during one API call: `resolve_pub_witness_ord`. Simplification: within one call it answers in the same way to the same
question. -/
abbrev Resolver := WitnessId → Option WitnessOrd

/-- One entry of `UpdateRes`, /repo/src/persistence/stock.rs: count and failed witnesses. -/
structure UpdateRes where
  succeeded : Nat
  failed : OSet WitnessId
  deriving DecidableEq, Repr

namespace MemState

/-- The condition of /repo/src/persistence/memory.rs:663 for skipping a witness. -/
def skipped (after : Nat) : WitnessOrd → Bool
  | .mined h _ => decide (h < after)
  | _ => false

/-- Loop of `update_witnesses`, /repo/src/persistence/memory.rs:662-673. -/
def updateLoop (r : Resolver) (after : Nat) : OMap WitnessId WitnessOrd → OMap WitnessId WitnessOrd × UpdateRes
  | [] => ([], ⟨0, []⟩)
  | (id, ord) :: rest =>
    let (rest', res) := updateLoop r after rest
    if skipped after ord then ((id, ord) :: rest', res)
    else
      match r id with
      | some new => ((id, new) :: rest', { res with succeeded := res.succeeded + 1 })
      | none => ((id, ord) :: rest', ⟨res.succeeded + 1, OSet.insert res.failed id⟩)

/-- `update_witnesses`, /repo/src/persistence/memory.rs:650-680; persisting is modelled separately. A zero height counts as 1. -/
def updateWitnesses (s : MemState) (r : Resolver) (after : Nat) : MemState × UpdateRes :=
  let (ws, res) := updateLoop r (if after = 0 then 1 else after) s.witnesses
  ({ s with witnesses := ws }, res)

/-- `is_valid_witness`, /repo/src/persistence/memory.rs:579-585. -/
def isValidWitness (s : MemState) (w : WitnessId) : Except StErr Bool :=
  match OMap.get? s.witnesses w with
  | none => .error (.absentWitness w)
  | some ord => .ok ord.isValid

/-- `select_valid_witness`, /repo/src/persistence/state.rs:140-155. -/
def selectValidWitness (s : MemState) : List WitnessId → Except StErr WitnessId
  | [] => .error .absentValidWitness
  | w :: rest =>
    match s.isValidWitness w with
    | .error e => .error e
    | .ok true => .ok w
    | .ok false => selectValidWitness s rest

/-- `update_from_bundle`, /repo/src/persistence/state.rs:157-178. -/
def updateFromBundle (H : Commit) (s : MemState) (c : Nat) (b : Bundle) (w : WitnessId) (r : Resolver) :
    Option (MemState × Option StErr) :=
  if OMap.contains s.contracts c then
    if b.known.isEmpty then some (s, none)
    else
      match r w with
      | none => some (s, some (.resolver w))
      | some ord => StCall.execAll H s (b.known.map (fun k => .transition c k.2 w ord))
  else some (s, some (.unknownContract c))

end MemState

/-! ### Consignments -/

/-- `known_transitions()` of a witness bundle: of all its bundles, in order. Used in /repo/src/persistence/state.rs:196. -/
def WitnessBundle.knownTransitions (wb : WitnessBundle) : List Op := wb.anchored.bundles.flatMap (fun b => OMap.vals b.known)

/-- Transitions of a consignment with their witnesses, in the order of the loops of /repo/src/persistence/state.rs:195-197. -/
def ConsignmentData.transitions (d : ConsignmentData) : List (Op × WitnessId) :=
  d.bundles.flatMap (fun wb => wb.knownTransitions.map (fun t => (t, wb.id)))

/-- Loop of /repo/src/persistence/state.rs:195-223: calls made, the witness for each extension used, and whether the resolver
failed. The `used` flag of `extension_idx` together with `ordered_extensions` amount to inserting the witness of the first transition
using the extension: the branch at 212-215 is reached only within one transition with several inputs from the same extension, and then
compares the `witness_ord` with itself. -/
def transitionLoop (H : Commit) (c : Nat) (exts : List Nat) (r : Resolver) :
    List (Op × WitnessId) → OMap Nat (WitnessId × WitnessOrd) →
    List StCall × OMap Nat (WitnessId × WitnessOrd) × Option StErr
  | [], used => ([], used, none)
  | (t, w) :: rest, used =>
    match r w with
    | none => ([], used, some (.resolver w))
    | some ord =>
      let used' := exts.foldl (fun u e =>
        if OMap.contains u e then u
        else if t.inputs.any (fun i => decide (i.op = e)) then OMap.insert u e (w, ord) else u) used
      let (calls, used'', err) := transitionLoop H c exts r rest used'
      (.transition c t w ord :: calls, used'', err)

/-- Loop of /repo/src/persistence/state.rs:224-233. -/
def extensionCalls (H : Commit) (c : Nat) (used : OMap Nat (WitnessId × WitnessOrd)) (exts : List Op) : List StCall :=
  exts.filterMap (fun e => (OMap.get? used (e.id H)).map (fun v => .extension c e v.1 v.2))

/-- `update_from_consignment`, /repo/src/persistence/state.rs:180-236: the provider calls it makes (as long as none fails), and the error of the
resolver, if it fails. -/
def consignmentStCalls (H : Commit) (sch : SchemaGlobals) (d : ConsignmentData) (r : Resolver) : List StCall × Option StErr :=
  let c := d.genesis.contractId H
  let exts := OSet.ofList (d.extensions.map (Op.id H))
  let (calls, used, err) := transitionLoop H c exts r d.transitions []
  match err with
  | some e => (.register sch d.genesis :: calls, some e)
  | none => (.register sch d.genesis :: (calls ++ extensionCalls H c used d.extensions), none)

def MemState.updateFromConsignment (H : Commit) (s : MemState) (sch : SchemaGlobals) (d : ConsignmentData) (r : Resolver) :
    Option (MemState × Option StErr) :=
  let (calls, err) := consignmentStCalls H sch d r
  (StCall.execAll H s calls).map (fun p => (p.1, p.2.or err))

/-! ### Queries -/

/-- `MemContract<&MemContractState>`, /repo/src/persistence/memory.rs:863-866. -/
structure ContractView where
  filter : OMap WitnessId WitnessOrd
  unfiltered : ContractState
  deriving DecidableEq, Repr

namespace ContractState

/-- The filter condition of /repo/src/persistence/memory.rs:561-573. -/
def mentions (cs : ContractState) (w : WitnessId) : Bool :=
  (OMap.vals cs.global).any (fun gs => (OMap.keys gs.known).any (fun o => decide (o.opWitness.witness? = some w))) ||
  (OMap.vals cs.rights).any (fun a => decide (a.witness = some w)) ||
  (OMap.vals cs.fungibles).any (fun a => decide (a.witness = some w)) ||
  (OMap.vals cs.data).any (fun a => decide (a.witness = some w)) ||
  (OMap.vals cs.attach).any (fun a => decide (a.witness = some w))

end ContractState

/-- `contract_state`, /repo/src/persistence/memory.rs:551-577. -/
def MemState.contractState (s : MemState) (c : Nat) : Except StErr ContractView :=
  match OMap.get? s.contracts c with
  | none => .error (.unknownContract c)
  | some cs => .ok ⟨s.witnesses.filter (fun e => cs.mentions e.1), cs⟩

namespace ContractView

/-- `check_witness`, /repo/src/contract/assignments.rs:184-191. -/
def checkWitness (v : ContractView) (a : OutAssign) : Bool :=
  match a.witness with
  | none => true
  | some w =>
    match OMap.get? v.filter w with
    | none => false
    | some .archived => false
    | some _ => true

/-- `rights_all`, `fungible_all`, `data_all`, `attach_all`, /repo/src/persistence/memory.rs:1089-1124. -/
def all (v : ContractView) (k : StateKind) : List OutAssign := (OMap.vals (v.unfiltered.kindSet k)).filter v.checkWitness

/-- `rights`, `fungible`, `data`, `attach`, /repo/src/persistence/memory.rs:967-1025: state at an outpoint of a type. `rights` returns the
number of items, the others the value without blinding or salt. -/
def byOutpoint (v : ContractView) (k : StateKind) (o : Outpoint) (ty : Nat) : List RState :=
  (((OMap.vals (v.unfiltered.kindSet k)).filter (fun a => decide (a.sl.outpoint = o) && decide (a.opout.ty = ty))).filter
    v.checkWitness).map (fun a => a.state)

/-- `witness_ord`, /repo/src/persistence/memory.rs:1085-1087. -/
def witnessOrd (v : ContractView) (w : WitnessId) : Option WitnessOrd := OMap.get? v.filter w

end ContractView

/-! ### State during validation -/

/-- `OrdOpRef` of rgb-core, as matched in /repo/src/persistence/memory.rs:1053-1066. -/
inductive OrdOp where
  | genesis (g : Op)
  | transition (op : Op) (w : WitnessId) (ord : WitnessOrd)
  | extension (op : Op) (w : WitnessId) (ord : WitnessOrd)
  deriving DecidableEq, Repr

namespace ContractView

/-- `init` of `ContractStateEvolve`, /repo/src/persistence/memory.rs:1031-1036. -/
def init (sch : SchemaGlobals) (c : Nat) : ContractView := ⟨[], ContractState.new sch c⟩

/-- `evolve_state`, /repo/src/persistence/memory.rs:1038-1075, with the writer of 1132-1175. `none`: panic. The confinement errors of the
`filter` can't happen: it isn't confined. -/
def evolve (H : Commit) (v : ContractView) : OrdOp → Option ContractView
  | .genesis g => (v.unfiltered.addOperation H g .genesis).map (fun u => { v with unfiltered := u })
  | .transition op w ord =>
    (v.unfiltered.addOperation H op (.transition w op.ty)).map (fun u => ⟨OMap.insert v.filter w ord, u⟩)
  | .extension op w ord =>
    (v.unfiltered.addOperation H op (.extension w op.ty)).map (fun u => ⟨OMap.insert v.filter w ord, u⟩)

/-- The operations of a consignment, one after another: calls of `evolve_state` by the validator of rgb-core. -/
def evolveAll (H : Commit) (v : ContractView) : List OrdOp → Option ContractView
  | [] => some v
  | op :: rest =>
    match v.evolve H op with
    | none => none
    | some v' => evolveAll H v' rest

end ContractView

/-- `GlobalOrd` of rgb-core as constructed in /repo/src/persistence/memory.rs:940-950. -/
inductive GlobalOrd where
  | genesis (index : Nat)
  | transition (opid index ty nonce : Nat) (ord : WitnessOrd)
  | extension (opid index ty nonce : Nat) (ord : WitnessOrd)
  deriving DecidableEq, Repr

namespace ContractView

/-- The closure of /repo/src/persistence/memory.rs:938-952. -/
def globalItem (v : ContractView) (e : GlobalOut × Nat) : Option (GlobalOrd × Nat) :=
  match e.1.opWitness with
  | .genesis => some (.genesis e.1.index, e.2)
  | .transition w ty => (OMap.get? v.filter w).map (fun ord => (.transition e.1.opid e.1.index ty e.1.nonce ord, e.2))
  | .extension w ty => (OMap.get? v.filter w).map (fun ord => (.extension e.1.opid e.1.index ty e.1.nonce ord, e.2))

/-- Items of a fresh iterator of `global`, /repo/src/persistence/memory.rs:934-956. `none`: `UnknownGlobalStateType`. -/
def globalItems (v : ContractView) (ty : Nat) : Option (List (GlobalOrd × Nat)) :=
  (OMap.get? v.unfiltered.global ty).map (fun gs => ((gs.known.reverse).filterMap v.globalItem).take gs.limit)

end ContractView

/-- `Iter` of `global`, /repo/src/persistence/memory.rs:882-888: the rest of the items of the current underlying iterator; `fresh` is what
the constructor gives. -/
structure GIter where
  fresh : List (GlobalOrd × Nat)
  rest : List (GlobalOrd × Nat)
  last : Option (GlobalOrd × Nat) := none
  depth : Nat := 0
  deriving DecidableEq, Repr

namespace GIter

/-- `global`, /repo/src/persistence/memory.rs:957-964. -/
def start (items : List (GlobalOrd × Nat)) : GIter := { fresh := items, rest := items }

/-- `size`, /repo/src/persistence/memory.rs:898-904 with `swap` (890-894): counts what `swap` returns, which is the old iterator. -/
def size (g : GIter) : GIter × Nat := ({ g with rest := g.fresh }, g.rest.length)

/-- `prev`, /repo/src/persistence/memory.rs:905-909. The overflow of `depth`, of 24 bits, isn't modelled. -/
def prev (g : GIter) : GIter × Option (GlobalOrd × Nat) :=
  ({ g with rest := g.rest.tail, last := g.rest.head?, depth := g.depth + 1 }, g.rest.head?)

/-- `reset`, /repo/src/persistence/memory.rs:911-924: `depth` of the iterator isn't changed. -/
def reset (g : GIter) (d : Nat) : GIter :=
  if g.depth < d then { g with rest := g.rest.drop (d - d) }
  else if g.depth = d then g
  else { g with rest := g.rest.drop d }

end GIter

end Rgb
