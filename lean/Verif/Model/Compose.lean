import Verif.Model.Batch
import Verif.Model.Open
import Verif.Model.Invoice

/-!
# Composing payments

Models the builders made by the stash (/repo/src/persistence/stash.rs:320-430), `contract_assignments_for` and
`compose_deterministic` of /repo/src/persistence/stock.rs.

`compose` reads the stock and doesn't change it: it is a function to a batch or an error. A panic is the error `panic`.

The closures given by the caller may answer differently each time they are called. Each of them is called once for each `Site` below,
so they are functions of the site.
-/

namespace Rgb

/-- `ComposeError`, /repo/src/persistence/stock.rs:214-253, and the other errors of `StockError`. -/
inductive CErr where
  | stock (e : StockErr)
  | state (e : StErr)
  | noIfaceImpl
  | ifaceIdAbsent (i : Nat)
  | builder (e : BErr)
  | invoiceExpired
  | noContract
  | noIface
  | noBeneficiaryOutput
  | beneficiaryVout
  | noBlankOrChange
  | insufficientState
  | tooManyInputs
  | tooManyBlanks
  | panic
  deriving DecidableEq, Repr

/-- The `?` operator on the error of a builder. -/
def liftB {α : Type} : Except BErr α → Except CErr α
  | .ok a => .ok a
  | .error .panic => .error .panic
  | .error e => .error (.builder e)

/-- `expect` on the result of a builder. -/
def expectB {α : Type} : Except BErr α → Except CErr α
  | .ok a => .ok a
  | .error _ => .error .panic

/-- The places in `compose_deterministic` where the closures of the caller are called, /repo/src/persistence/stock.rs:969-972, 1012,
1049-1050, 1080, 1099-1100, 1127, 1182. `moved`: for a state which is moved to a new output of the wallet. -/
inductive Site where
  | beneficiary
  | change
  | token
  | moved (contract : Nat) (sl : OutSeal) (o : Opout)
  deriving DecidableEq, Repr

/-- The map of states by output and operation output, /repo/src/persistence/stock.rs:65: `HashMap`s, here ordered by key. The order
in which they are visited is `CEnv.ordOuts` and `CEnv.ordOpouts`. -/
abbrev Spent := OMap OutSeal (OMap Opout RState)

/-- What composing depends on and doesn't define.
* `B`, `S`, `H`, `I` – of the models of builders, stock and stash;
* `now` – the clock;
* `name` – names (`TypeName`, `FieldName`) as numbers;
* `schemaOf`, `ifaceOf`, `implOf` – the contents of the documents which the stash keeps;
* `tagsOf` – `Genesis::asset_tags`;
* `genesisRef` – `ContentRef::Genesis(id)`;
* `velocity` – the velocity hint in a supplement, with the default one if there is none, /repo/src/persistence/stock.rs:954-968;
* `dataOf` – `DataState::from(allocation)`, /repo/src/persistence/stock.rs:1029, 1122;
* `ordOuts`, `ordOpouts`, `ordContracts` – orders of iteration over hash maps. -/
structure CEnv where
  B : BEnv
  S : Stock.Env
  H : Commit
  I : Ids
  now : Int
  name : Text → Nat
  schemaOf : SchemaDoc → Schema
  ifaceOf : IfaceDoc → Iface
  implOf : IimplDoc → IfaceImpl
  tagsOf : Op → OMap Nat Nat
  genesisRef : Nat → Nat
  velocity : Option SupplDoc → Nat → Nat
  dataOf : Inv.Allocation → Nat
  ordOuts : Nat → Spent → List (OutSeal × OMap Opout RState)
  ordOpouts : Nat → OutSeal → OMap Opout RState → List (Opout × RState)
  ordContracts : OMap Nat Spent → List (Nat × Spent)

/-- The other arguments of `compose_deterministic`, /repo/src/persistence/stock.rs:934-941: the closing method of the wallet, the output
for the beneficiary, the priority, and the closures (of which blinders are `factors` and `seals`). -/
structure Wallet where
  method : CloseMethod
  vout : Option Nat
  priority : Nat
  alloc : Site → Nat → Nat → Nat → Option Nat
  factors : Site → Nat
  seals : Site → Nat

/-- The layer 1 of an invoice, `invoice.layer1()`. -/
def Layer1.ofInv : Inv.Layer1 → Layer1
  | .bitcoin => .bitcoin
  | .liquid => .liquid

/-- `payload.method`, /repo/src/persistence/stock.rs:1013. -/
def CloseMethod.ofInv : Inv.CloseMethod → CloseMethod
  | .opretFirst => .opretFirst
  | .tapretFirst => .tapretFirst

namespace Stock

/-! ## Builders made by the stash -/

/-- `contract_schema`, /repo/src/persistence/stash.rs:735-741, with the genesis. -/
def contractSchema (E : CEnv) (s : MemStash) (c : Nat) : Except CErr (Op × SchemaIfaces) := do
  let g ← orErr (.stock (.contractAbsent c)) (s.genesis c)
  let si ← orErr (.stock (.schemaAbsent (E.I.genesisSchema g))) (s.schema (E.I.genesisSchema g))
  .ok (g, si)

/-- `iface` by name, /repo/src/persistence/stash.rs:230-232. -/
def ifaceNamed (s : MemStash) (name : Nat) : Except CErr IfaceDoc := orErr (.stock (.ifaceNameAbsent name)) (s.ifaceByName name)

/-- `iface` by name or id, /repo/src/persistence/stash.rs:230-232. -/
def ifaceRef (s : MemStash) : IfaceRef → Except CErr IfaceDoc
  | .name n => ifaceNamed s n
  | .id i => orErr (.ifaceIdAbsent i) (s.ifaceById i)

/-- `extract` for one interface, /repo/src/persistence/stash.rs:360, 403; only errors matter. -/
def extracts (E : CEnv) (s : MemStash) (si : SchemaIfaces) (d : IfaceDoc) : Except CErr Unit :=
  match extract E.S s si.doc [d] with
  | .error e => .error (.stock e)
  | .ok _ => .ok ()

/-- The loop adding asset tags of the genesis, /repo/src/persistence/stash.rs:382-386, 427-431. -/
def addTags : List (Nat × Nat) → TransitionBuilder → Except CErr TransitionBuilder
  | [], b => .ok b
  | (ty, tag) :: rest, b => do
    let b' ← expectB (b.set (b.builder.addAssetTagRaw ty tag))
    addTags rest b'

/-- Named or default transition, /repo/src/persistence/stash.rs:362-380. -/
def namedOrDefault (contract : Nat) (iface : Iface) (schema : Schema) (iimpl : IfaceImpl) : Option Nat → Except BErr TransitionBuilder
  | some name => TransitionBuilder.named false contract iface schema iimpl name
  | none => TransitionBuilder.default false contract iface schema iimpl

/-- `transition_builder`, /repo/src/persistence/stash.rs:346-389, and of the stock, /repo/src/persistence/stock.rs:680-690. -/
def transitionBuilder (E : CEnv) (s : MemStash) (c : Nat) (iface : IfaceRef) (op : Option Nat) : Except CErr TransitionBuilder := do
  let (g, si) ← contractSchema E s c
  let d ← ifaceRef s iface
  let impl ← orErr .noIfaceImpl (si.get (E.I.iface d))
  extracts E s si d
  let b ← expectB (namedOrDefault c (E.ifaceOf d) (E.schemaOf si.doc) (E.implOf impl) op)
  addTags (E.tagsOf g) b

/-- Implementation and interface for a blank transition, /repo/src/persistence/stash.rs:405-426: the ones for the interface if there are,
otherwise the first ones of the schema. -/
def blankImpl (E : CEnv) (s : MemStash) (si : SchemaIfaces) (d : IfaceDoc) : Except CErr (IfaceDoc × IimplDoc) :=
  match si.get (E.I.iface d) with
  | some impl => .ok (d, impl)
  | none =>
    match si.iimpls with
    | [] => .error .panic
    | (name, impl) :: _ => do
      let d ← ifaceNamed s name
      .ok (d, impl)

/-- `blank_builder`, /repo/src/persistence/stash.rs:391-434, and of the stock, /repo/src/persistence/stock.rs:692-698. -/
def blankBuilder (E : CEnv) (s : MemStash) (c : Nat) (iface : IfaceRef) : Except CErr TransitionBuilder := do
  let (g, si) ← contractSchema E s c
  let d ← ifaceRef s iface
  failIf .noIfaceImpl si.iimpls.isEmpty
  extracts E s si d
  let (d, impl) ← blankImpl E s si d
  addTags (E.tagsOf g) (.blank false c (E.ifaceOf d) (E.schemaOf si.doc) (E.implOf impl))

/-! ## State at outputs -/

/-- One insertion, for instance /repo/src/persistence/stock.rs:625-632. -/
def addSpent (m : Spent) (a : OutAssign) : Spent :=
  OMap.insert m a.sl (OMap.insert ((OMap.get? m a.sl).getD []) a.opout a.state)

/-- One loop of `contract_assignments_for`, for instance /repo/src/persistence/stock.rs:622-634. -/
def spentOf (outputs : List Outpoint) (m : Spent) (l : List OutAssign) : Spent :=
  (l.filter (fun a => decide (a.sl.outpoint ∈ outputs))).foldl addSpent m

/-- `contract_assignments_for`, /repo/src/persistence/stock.rs:610-666. -/
def contractAssignmentsFor (k : Stock) (c : Nat) (outputs : List Outpoint) : Except CErr Spent :=
  match k.state.contractState c with
  | .error e => .error (.state e)
  | .ok v =>
    let m := spentOf outputs [] (v.all .fungible)
    let m := spentOf outputs m (v.all .structured)
    let m := spentOf outputs m (v.all .declarative)
    .ok (spentOf outputs m (v.all .attachment))

/-! ## Composing -/

/-- `output_for_assignment`, /repo/src/persistence/stock.rs:950-974. -/
def outputFor (E : CEnv) (W : Wallet) (k : Stock) (layer : Layer1) (site : Site) (c ty : Nat) : Except CErr BSeal := do
  let vout ← orErr .noBlankOrChange (W.alloc site c ty (E.velocity (k.stash.supplements (E.genesisRef c)).head? ty))
  .ok (.revealed ⟨layer, W.method, none, vout, W.seals site⟩)

/-- The seal of the beneficiary, /repo/src/persistence/stock.rs:1003-1019. -/
def beneficiarySeal (W : Wallet) (layer : Layer1) : Inv.Beneficiary → Except CErr BSeal
  | .blindedSeal h =>
    match W.vout with
    | none => .ok (.concealed layer h)
    | some _ => .error .beneficiaryVout
  | .witnessVout p =>
    match W.vout with
    | none => .error .noBeneficiaryOutput
    | some v => .ok (.revealed ⟨layer, .ofInv p.method, none, v, W.seals .beneficiary⟩)

/-- The name of the assignment, /repo/src/persistence/stock.rs:986-991. -/
def assignmentName (E : CEnv) (inv : Inv.Invoice) (b : TransitionBuilder) : Except CErr Nat :=
  match inv.assignment with
  | some n => .ok (E.name n)
  | none =>
    match b.defaultAssignment with
    | .ok n => .ok n
    | .error .panic => .error .panic
    | .error _ => .error (.builder .noDefaultAssignment)

/-- `u64` addition, /repo/src/persistence/stock.rs:1057-1060: panics with overflow checks (debug builds), otherwise wraps around. -/
def addU (E : CEnv) (a b : Nat) : Except CErr Nat :=
  if a + b < 18446744073709551616 then .ok (a + b)
  else if E.B.debug then .error .panic else .ok ((a + b) % 18446744073709551616)

/-- `u64` subtraction, /repo/src/persistence/stock.rs:1077. -/
def subU (E : CEnv) (a b : Nat) : Except CErr Nat :=
  if b ≤ a then .ok (a - b)
  else if E.B.debug then .error .panic else .ok (a + 18446744073709551616 - b)

/-- What is set up before the state is looked at, /repo/src/persistence/stock.rs:976-1019. -/
structure Prep where
  contract : Nat
  iface : Nat
  ty : Nat
  layer : Layer1
  main : TransitionBuilder
  alt : TransitionBuilder
  beneficiary : BSeal

/-- Step 1 of `compose_deterministic`, /repo/src/persistence/stock.rs:976-1019. -/
def prepare (E : CEnv) (W : Wallet) (k : Stock) (inv : Inv.Invoice) : Except CErr Prep := do
  failIf .invoiceExpired ((inv.expiry.map (fun e => decide (e < E.now))).getD false)
  let c ← orErr .noContract inv.contract
  let iface ← orErr .noIface inv.iface
  let main ← transitionBuilder E k.stash c (.name (E.name iface)) (inv.operation.map E.name)
  let name ← assignmentName E inv main
  let ty ← orErr (.builder (.invalidStateField name)) (main.builder.assignmentsType name)
  let alt ← transitionBuilder E k.stash c (.name (E.name iface)) (inv.operation.map E.name)
  let layer := Layer1.ofInv inv.beneficiary.layer1
  let ben ← beneficiarySeal W layer inv.beneficiary.intoInner
  .ok ⟨c, E.name iface, ty, layer, main, alt, ben⟩

/-- The local variables of step 2, /repo/src/persistence/stock.rs:984, 999-1001, 1021-1032. -/
structure Acc where
  main : TransitionBuilder
  alt : TransitionBuilder
  mainIn : List OutSeal := []
  altIn : List OutSeal := []
  sum : Nat := 0
  sumAlt : Nat := 0
  data : List Nat := []
  dataMain : Bool := true

/-- A call on one of the two builders, /repo/src/persistence/stock.rs:1043-1055. -/
def Acc.on (a : Acc) (main : Bool) (f : TransitionBuilder → Except BErr TransitionBuilder) : Except CErr Acc := do
  if main then
    let b ← liftB (f a.main)
    .ok { a with main := b }
  else
    let b ← liftB (f a.alt)
    .ok { a with alt := b }

/-- The branches for state of the type of the invoice, /repo/src/persistence/stock.rs:1056-1066. -/
def Acc.count (E : CEnv) (want : Option Nat) (main : Bool) (a : Acc) : RState → Except CErr Acc
  | .fungible v _ _ => do
    let sum ← addU E a.sum v
    let sumAlt ← if main then .ok a.sumAlt else addU E a.sumAlt v
    .ok { a with sum := sum, sumAlt := sumAlt }
  | .data v _ => .ok { a with dataMain := a.dataMain && !(decide (want = some v) && !main), data := a.data ++ [v] }
  | _ => .ok a

/-- The body of the inner loop of step 2, /repo/src/persistence/stock.rs:1043-1066. -/
def spendOne (E : CEnv) (W : Wallet) (k : Stock) (p : Prep) (want : Option Nat) (s : OutSeal) (a : Acc) (o : Opout) (st : RState) :
    Except CErr Acc := do
  let main := decide (s.method = W.method)
  let a ← a.on main (fun b => b.addInput o st)
  if o.ty ≠ p.ty then
    let sl ← outputFor E W k p.layer (.moved p.contract s o) p.contract o.ty
    a.on main (fun b => b.addOwnedRaw o.ty sl (OpBuilder.setBlinding (W.factors (.moved p.contract s o)) st))
  else a.count E want main st

/-- The inner loop, /repo/src/persistence/stock.rs:1042-1067. -/
def spendList (E : CEnv) (W : Wallet) (k : Stock) (p : Prep) (want : Option Nat) (s : OutSeal) :
    List (Opout × RState) → Acc → Except CErr Acc
  | [], a => .ok a
  | (o, st) :: rest, a => do
    let a ← spendOne E W k p want s a o st
    spendList E W k p want s rest a

/-- `main_inputs.push(output)` or `alt_inputs.push(output)`, /repo/src/persistence/stock.rs:1037-1041. -/
def Acc.pushOutput (W : Wallet) (s : OutSeal) (a : Acc) : Acc :=
  if s.method = W.method then { a with mainIn := a.mainIn ++ [s] } else { a with altIn := a.altIn ++ [s] }

/-- The outer loop, /repo/src/persistence/stock.rs:1034-1068. -/
def spendAll (E : CEnv) (W : Wallet) (k : Stock) (p : Prep) (want : Option Nat) : List (OutSeal × OMap Opout RState) → Acc → Except CErr Acc
  | [], a => .ok a
  | (s, l) :: rest, a => do
    let a ← spendList E W k p want s (E.ordOpouts p.contract s l) (a.pushOutput W s)
    spendAll E W k p want rest a

/-- `if value > 0 { builder.add_fungible_state_raw(…)? }`, /repo/src/persistence/stock.rs:1082-1097, 1103-1118. -/
def pay (b : TransitionBuilder) (ty : Nat) (sl : BSeal) (value blinding : Nat) : Except CErr TransitionBuilder :=
  if value > 0 then liftB (b.addFungibleRaw ty sl value blinding) else .ok b

/-- `(paid_main, paid_alt)`, /repo/src/persistence/stock.rs:1078-1079. -/
def split (sumMain amt : Nat) : Nat × Nat := if sumMain < amt then (sumMain, amt - sumMain) else (amt, 0)

/-- Payment of an amount and the change, /repo/src/persistence/stock.rs:1071-1119. -/
def payAmount (E : CEnv) (W : Wallet) (k : Stock) (p : Prep) (amt : Nat) (a : Acc) : Except CErr Acc := do
  failIf .insufficientState (decide (a.sum < amt))
  let sumMain ← subU E a.sum a.sumAlt
  let m1 ← pay a.main p.ty p.beneficiary (split sumMain amt).1 (W.factors .beneficiary)
  let a1 ← pay a.alt p.ty p.beneficiary (split sumMain amt).2 (W.factors .beneficiary)
  let ch ← outputFor E W k p.layer .change p.contract p.ty
  let m2 ← pay m1 p.ty ch (sumMain - (split sumMain amt).1) (W.factors .change)
  let a2 ← pay a1 p.ty ch (a.sumAlt - (split sumMain amt).2) (W.factors .change)
  .ok { a with main := m2, alt := a2 }

/-- Payment of a token, /repo/src/persistence/stock.rs:1120-1144. -/
def payToken (W : Wallet) (p : Prep) (token : Nat) (a : Acc) : Except CErr Acc := do
  failIf .insufficientState (decide (token ∉ a.data))
  a.on a.dataMain (fun b => b.set (b.builder.addDataRaw p.ty p.beneficiary token (W.seals .token)))

/-- The `match` on the invoiced state, /repo/src/persistence/stock.rs:1070-1151; other states are a `todo!`. -/
def payInvoice (E : CEnv) (W : Wallet) (k : Stock) (p : Prep) (a : Acc) : Inv.InvoiceState → Except CErr Acc
  | .amount amt => payAmount E W k p amt a
  | .data t => payToken W p (E.dataOf t) a
  | _ => .error .panic

/-- The token looked for, /repo/src/persistence/stock.rs:1027-1032. -/
def wanted (E : CEnv) : Inv.InvoiceState → Option Nat
  | .data t => some (E.dataOf t)
  | _ => none

/-- `entry.entry(seal).or_default().extend(assigns)`, /repo/src/persistence/stock.rs:1164-1166. -/
def mergeSpent (entry : Spent) (m : Spent) : Spent :=
  m.foldl (fun e x => OMap.insert e x.1 (OMap.extend ((OMap.get? e x.1).getD []) x.2)) entry

/-- State of other contracts, /repo/src/persistence/stock.rs:1155-1167. -/
def spentState (k : Stock) (own : Nat) (outputs : List Outpoint) : List Nat → OMap Nat Spent → Except CErr (OMap Nat Spent)
  | [], m => .ok m
  | id :: rest, m =>
    if id = own then spentState k own outputs rest m
    else do
      let st ← contractAssignmentsFor k id outputs
      spentState k own outputs rest (OMap.insert m id (mergeSpent ((OMap.get? m id).getD []) st))

/-- The builders of blank transitions of a contract with their outputs, /repo/src/persistence/stock.rs:1172-1175. -/
structure BlankAcc where
  tapret : TransitionBuilder
  opret : TransitionBuilder
  outTapret : List OutSeal := []
  outOpret : List OutSeal := []

/-- `builder.add_input(…)?.add_owned_state_raw(…)?`, /repo/src/persistence/stock.rs:1184-1193. -/
def moveState (b : TransitionBuilder) (o : Opout) (sl : BSeal) (st : RState) : Except CErr TransitionBuilder := do
  let b ← liftB (b.addInput o st)
  liftB (b.addOwnedRaw o.ty sl st)

/-- The inner loop of blank transitions, /repo/src/persistence/stock.rs:1181-1195. -/
def blankList (E : CEnv) (W : Wallet) (k : Stock) (layer : Layer1) (id : Nat) (s : OutSeal) :
    List (Opout × RState) → BlankAcc → Except CErr BlankAcc
  | [], a => .ok a
  | (o, st) :: rest, a => do
    let sl ← outputFor E W k layer (.moved id s o) id o.ty
    match s.method with
    | .tapretFirst => do
      let b ← moveState a.tapret o sl st
      blankList E W k layer id s rest { a with tapret := b }
    | .opretFirst => do
      let b ← moveState a.opret o sl st
      blankList E W k layer id s rest { a with opret := b }

/-- `outputs_tapret.push(output)` or `outputs_opret.push(output)`, /repo/src/persistence/stock.rs:1177-1180. -/
def BlankAcc.pushOutput (s : OutSeal) (a : BlankAcc) : BlankAcc :=
  match s.method with
  | .tapretFirst => { a with outTapret := a.outTapret ++ [s] }
  | .opretFirst => { a with outOpret := a.outOpret ++ [s] }

/-- The loop over outputs of blank transitions, /repo/src/persistence/stock.rs:1176-1196. -/
def blankAll (E : CEnv) (W : Wallet) (k : Stock) (layer : Layer1) (id : Nat) :
    List (OutSeal × OMap Opout RState) → BlankAcc → Except CErr BlankAcc
  | [], a => .ok a
  | (s, l) :: rest, a => do
    let a ← blankList E W k layer id s (E.ordOpouts id s l) (a.pushOutput s)
    blankAll E W k layer id rest a

/-- `TransitionInfo::new(…)` with its errors, for instance /repo/src/persistence/stock.rs:1206-1209; the debug assertion panics. -/
def newInfo (E : CEnv) (t : BuiltTransition) (outs : List OutSeal) : Except CErr TransitionInfo :=
  match TransitionInfo.new E.H t outs with
  | .ok i => .ok i
  | .error .panic => .error .panic
  | .error .tooMany => .error .tooManyInputs
  | .error .divergence => if E.B.debug then .error .panic else .error .tooManyInputs

/-- Completing one of the blank transitions, /repo/src/persistence/stock.rs:1202-1211. -/
def blankInfo (E : CEnv) (b : TransitionBuilder) (outs : List OutSeal) : Except CErr (List TransitionInfo) :=
  if b.hasInputs then do
    let t ← liftB (b.complete E.B)
    let i ← newInfo E t outs
    .ok [i]
  else .ok []

/-- Blank transitions of one contract, /repo/src/persistence/stock.rs:1172-1214. -/
def blankFor (E : CEnv) (W : Wallet) (k : Stock) (layer : Layer1) (iface id : Nat) (l : Spent) : Except CErr (Dichotomy TransitionInfo) := do
  let bt ← blankBuilder E k.stash id (.name iface)
  let bo ← blankBuilder E k.stash id (.name iface)
  let a ← blankAll E W k layer id (E.ordOuts id l) ⟨bt, bo, [], []⟩
  let x ← blankInfo E a.tapret a.outTapret
  let y ← blankInfo E a.opret a.outOpret
  orErr .panic (Dichotomy.ofList (x ++ y))

/-- The loop over contracts, /repo/src/persistence/stock.rs:1170-1215. -/
def blankLoop (E : CEnv) (W : Wallet) (k : Stock) (layer : Layer1) (iface : Nat) :
    List (Nat × Spent) → List (Dichotomy TransitionInfo) → Except CErr (List (Dichotomy TransitionInfo))
  | [], bs => .ok bs
  | (id, l) :: rest, bs => do
    let d ← blankFor E W k layer iface id l
    failIf .tooManyBlanks (decide (bs.length ≥ u24Max - 1))
    blankLoop E W k layer iface rest (bs ++ [d])

/-- A completed transition of the invoice, /repo/src/persistence/stock.rs:1224-1228, 1231-1237. -/
def mainInfo (E : CEnv) (b : TransitionBuilder) (outs : List OutSeal) : Except CErr TransitionInfo := do
  let t ← liftB (b.complete E.B)
  newInfo E t outs

/-- The transitions of the invoice, /repo/src/persistence/stock.rs:1217-1240. -/
def mainDichotomy (E : CEnv) (a : Acc) : Except CErr (Dichotomy TransitionInfo) :=
  match a.main.hasInputs, a.alt.hasInputs with
  | true, true => do
    let x ← mainInfo E a.main a.mainIn
    let y ← mainInfo E a.alt a.altIn
    .ok ⟨x, some y⟩
  | true, false => do
    let x ← mainInfo E a.main a.mainIn
    .ok ⟨x, none⟩
  | false, true => do
    let x ← mainInfo E a.alt a.altIn
    .ok ⟨x, none⟩
  | false, false => .error .insufficientState

/-- `compose_deterministic`, /repo/src/persistence/stock.rs:932-1247; `compose` (904-926) is this with the greatest priority.
`prevs`: the set of previous outputs in the order in which it is visited. -/
def compose (E : CEnv) (W : Wallet) (k : Stock) (inv : Inv.Invoice) (prevs : List OutSeal) : Except CErr Batch := do
  let p ← prepare E W k inv
  let spent ← contractAssignmentsFor k p.contract (prevs.map OutSeal.outpoint)
  let a ← spendAll E W k p (wanted E inv.ownedState) (E.ordOuts p.contract spent) { main := p.main, alt := p.alt }
  let a ← payInvoice E W k p a inv.ownedState
  let others ← spentState k p.contract (prevs.map OutSeal.outpoint)
    (k.index.contractsAssigning (prevs.map OutSeal.outpoint)) []
  let blanks ← blankLoop E W k p.layer p.iface (E.ordContracts others) []
  let main ← mainDichotomy E a
  .ok (Batch.setPriority W.priority ⟨main, blanks⟩)

end Stock

end Rgb
