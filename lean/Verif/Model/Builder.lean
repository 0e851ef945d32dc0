import Verif.Model.Iface

/-!
# Builders of contracts and transitions

Models /repo/src/interface/builder.rs and `BuilderSeal` of /repo/src/containers/seal.rs.

All methods of the builders take the builder by value: nothing of it is left when a call returns an error or panics. A panic is the
error `panic`. Values drawn at random (asset tags, blinding factors, salts) are arguments, hence arbitrary. Serialization of a value to
bytes is done before the modelled part: a value is its strict encoding, or `none` if it is too large. `types` says whether a value is
an encoding of some value of the type with a given semantic id (`strict_deserialize_type` of strict-types).
-/

namespace Rgb

/-- `BuilderSeal`, /repo/src/containers/seal.rs:112-117. -/
inductive BSeal where
  | revealed (s : Seal)
  | concealed (chain : Layer1) (secret : Nat)
  deriving DecidableEq, Repr

/-- `BuilderSeal::layer1`, /repo/src/containers/seal.rs:123-128. -/
def BSeal.layer1 : BSeal → Layer1
  | .revealed s => s.chain
  | .concealed c _ => c

/-- `None < Some(_)`, as in `TxPtr::WitnessTx < TxPtr::Txid(_)` of bp-core. -/
def optNum : Option Nat → Nat
  | none => 0
  | some t => t + 1

theorem optNum_inj {a b : Option Nat} (h : optNum a = optNum b) : a = b := by
  cases a <;> cases b <;> simp [optNum] at h <;> simp [h]

/-- Derived `Ord` of `BuilderSeal`: revealed ones first, then the chain and the fields of a seal. -/
instance : Key BSeal where
  enc
    | .revealed s => [0, s.chain.num, s.method.num, optNum s.txid, s.vout, s.blinding]
    | .concealed c h => [1, c.num, h]
  enc_inj := by
    intro a b h
    cases a with
    | revealed s =>
      cases b with
      | revealed t =>
        cases s; cases t
        simp only [List.cons.injEq, and_true, true_and] at h
        obtain ⟨h1, h2, h3, h4, h5⟩ := h
        cases Layer1.num_inj h1; cases CloseMethod.num_inj h2; cases optNum_inj h3; cases h4; cases h5; rfl
      | concealed c h => simp at h
    | concealed c x =>
      cases b with
      | revealed t => simp at h
      | concealed d y =>
        simp only [List.cons.injEq, and_true, true_and] at h
        obtain ⟨h1, h2⟩ := h
        cases Layer1.num_inj h1; cases h2; rfl

/-- `XChain<SecretSeal>` as one number, which is what an `Assign` with a concealed seal contains. -/
def xsecret (chain : Layer1) (secret : Nat) : Nat := 2 * secret + chain.num

/-- `BuilderError`, /repo/src/interface/builder.rs:50-111, and a panic. -/
inductive BErr where
  | metadataNotFound (name : Nat)
  | metadataExists (ty : Nat)
  | metadataTooMany
  | globalNotFound (name : Nat)
  | assignmentNotFound (name : Nat)
  | transitionNotFound (name : Nat)
  | invalidStateField (name : Nat)
  | invalidStateType (ty : Nat)
  | assetTagMissed (ty : Nat)
  | assetTagAutomatic (ty : Nat)
  | assetTagInvalid (ty : Nat)
  | noOperationSubtype
  | noDefaultAssignment
  | invalidLayer1 (l : Layer1)
  | strictEncode
  | reify
  | confinement
  | inconsistency
  | panic
  deriving DecidableEq, Repr

/-- `ok_or(err)?`. -/
def orErr {ε α : Type} (e : ε) : Option α → Except ε α
  | some a => .ok a
  | none => .error e

/-- `if cond { return Err(e) }`. -/
def failIf {ε : Type} (e : ε) (cond : Bool) : Except ε Unit := if cond then .error e else .ok ()

/-- `u16::MAX`: the limit of confined collections called `Small…` and of the bounds `U16`. -/
def smallMax : Nat := 65535

/-- `Confined::<BTreeMap>::insert` of the amplify crate with an upper limit. -/
def insertMax {κ ν : Type} [Key κ] [DecidableEq κ] (max : Nat) (m : OMap κ ν) (k : κ) (v : ν) : Except BErr (OMap κ ν) :=
  if m.length ≥ max then .error .confinement else .ok (OMap.insert m k v)

/-- What the builder depends on and doesn't define.
* `debug` – whether debug assertions are compiled in;
* `types` – `TypeSystem::strict_deserialize_type`, /repo/src/interface/builder.rs:1016, 1034;
* `emptyBlinding` – `BlindingFactor::EMPTY`, /repo/src/interface/builder.rs:1368;
* `balance` – `BlindingFactor::zero_balanced(inputs, outputs)` of rgb-core, /repo/src/interface/builder.rs:1370;
* `order` – the order of iteration over a `HashSet`, /repo/src/interface/builder.rs:1395. -/
structure BEnv where
  debug : Bool
  types : Nat → Nat → Bool
  emptyBlinding : Nat
  balance : List Nat → List Nat → Option Nat
  order : List BSeal → List BSeal

/-- States added for the types of assignments, per seal; /repo/src/interface/builder.rs:836-841. -/
abbrev Slots := OMap Nat (OMap BSeal RState)

/-- `OperationBuilder`, /repo/src/interface/builder.rs:826-844. `rights` is a set of seals per type: here the state is always `void`. -/
structure OpBuilder where
  schema : Schema
  iface : Iface
  iimpl : IfaceImpl
  tags : OMap Nat Nat := []
  det : Bool
  globals : OMap Nat (List Nat) := []
  metadata : OMap Nat Nat := []
  rights : Slots := []
  fungible : Slots := []
  data : Slots := []
  attachments : Slots := []
  deriving Repr

/-- The `match self.*.get_mut(&type_id)` with which a state is put under its type and seal,
/repo/src/interface/builder.rs:1113-1121, 1179-1188, 1243-1250, 1311-1319. -/
def Slots.put (m : Slots) (ty : Nat) (sl : BSeal) (st : RState) : Except BErr Slots :=
  match OMap.get? m ty with
  | some inner => do
    let inner' ← insertMax smallMax inner sl st
    .ok (OMap.insert m ty inner')
  | none => insertMax tinyMax m ty [(sl, st)]

namespace OpBuilder

/-- `transition_iface`, /repo/src/interface/builder.rs:887-893: panics if the type or the name isn't known. -/
def transitionIface (b : OpBuilder) (ty : Nat) : Except BErr OpIface := do
  let name ← orErr .panic (nameByType b.iimpl.transitions ty)
  orErr .panic (OMap.get? b.iface.transitions name)

/-- `assignments_type`, /repo/src/interface/builder.rs:895-897. -/
def assignmentsType (b : OpBuilder) (name : Nat) : Option Nat := typeByName b.iimpl.assignments name

/-- `assignments_type(..).ok_or(AssignmentNotFound)`, for instance /repo/src/interface/builder.rs:943-945. -/
def typeOf (b : OpBuilder) (name : Nat) : Except BErr Nat := orErr (.assignmentNotFound name) (b.assignmentsType name)

/-- `state_schema`, /repo/src/interface/builder.rs:918-923. -/
def stateSchema (b : OpBuilder) (ty : Nat) : Except BErr OwnedSchema := orErr .panic (OMap.get? b.schema.ownedTypes ty)

/-- `asset_tag_raw`, /repo/src/interface/builder.rs:950-955. -/
def assetTagRaw (b : OpBuilder) (ty : Nat) : Except BErr Nat := orErr (.assetTagMissed ty) (OMap.get? b.tags ty)

/-- `asset_tag`, /repo/src/interface/builder.rs:941-947. -/
def assetTag (b : OpBuilder) (name : Nat) : Except BErr Nat := do
  let ty ← b.typeOf name
  b.assetTagRaw ty

/-- `add_asset_tag_raw`, /repo/src/interface/builder.rs:972-983. -/
def addAssetTagRaw (b : OpBuilder) (ty tag : Nat) : Except BErr OpBuilder := do
  failIf (.assetTagAutomatic ty) (OMap.contains b.fungible ty)
  let tags ← insertMax tinyMax b.tags ty tag
  .ok { b with tags := tags }

/-- `add_asset_tag`, /repo/src/interface/builder.rs:958-969. -/
def addAssetTag (b : OpBuilder) (name tag : Nat) : Except BErr OpBuilder := do
  let ty ← b.typeOf name
  b.addAssetTagRaw ty tag

/-- `init_asset_tag`, /repo/src/interface/builder.rs:985-1001: the builder and the tag. `rand`: the tag drawn at random. -/
def initAssetTag (b : OpBuilder) (name rand : Nat) : Except BErr (OpBuilder × Nat) := do
  let ty ← b.typeOf name
  match OMap.get? b.tags ty with
  | some tag => .ok (b, tag)
  | none => do
    let tags ← insertMax tinyMax b.tags ty rand
    .ok ({ b with tags := tags }, rand)

/-- `add_metadata`, /repo/src/interface/builder.rs:1003-1019, with `Metadata::add_value` of rgb-core. -/
def addMetadata (E : BEnv) (b : OpBuilder) (name : Nat) (value : Option Nat) : Except BErr OpBuilder := do
  let v ← orErr .strictEncode value
  let ty ← orErr (.metadataNotFound name) (typeByName b.iimpl.metadata name)
  let sem ← orErr .panic (OMap.get? b.schema.metaTypes ty)
  failIf .reify (!E.types sem v)
  failIf (.metadataExists ty) (OMap.contains b.metadata ty)
  failIf .metadataTooMany (b.metadata.length ≥ tinyMax)
  .ok { b with metadata := OMap.insert b.metadata ty v }

/-- `GlobalState::add_state` of rgb-core, /repo/src/interface/builder.rs:1036. -/
def pushGlobal (m : OMap Nat (List Nat)) (ty v : Nat) : Except BErr (OMap Nat (List Nat)) :=
  match OMap.get? m ty with
  | some l => if l.length ≥ smallMax then .error .confinement else .ok (OMap.insert m ty (l ++ [v]))
  | none => insertMax tinyMax m ty [v]

/-- `add_global_state`, /repo/src/interface/builder.rs:1021-1039. -/
def addGlobal (E : BEnv) (b : OpBuilder) (name : Nat) (value : Option Nat) : Except BErr OpBuilder := do
  let v ← orErr .strictEncode value
  let ty ← orErr (.globalNotFound name) (typeByName b.iimpl.globalState name)
  let sch ← orErr .panic (OMap.get? b.schema.globalTypes ty)
  failIf .reify (!E.types sch.1 v)
  let globals ← pushGlobal b.globals ty v
  .ok { b with globals := globals }

/-- `add_rights_raw`, /repo/src/interface/builder.rs:1103-1124. -/
def addRightsRaw (b : OpBuilder) (ty : Nat) (sl : BSeal) : Except BErr OpBuilder := do
  let sch ← b.stateSchema ty
  failIf (.invalidStateType ty) (decide (sch ≠ .declarative))
  let m ← Slots.put b.rights ty sl .void
  .ok { b with rights := m }

/-- `FungibleType::Unsigned64Bit`, /repo/src/interface/builder.rs:1175: the only fungible type of rgb-core. -/
def u64Type : Nat := 8

/-- `add_fungible_state_raw`, /repo/src/interface/builder.rs:1168-1191. -/
def addFungibleRaw (b : OpBuilder) (ty : Nat) (sl : BSeal) (value blinding tag : Nat) : Except BErr OpBuilder := do
  let sch ← b.stateSchema ty
  failIf (.invalidStateType ty) (decide (sch ≠ .fungible u64Type))
  let m ← Slots.put b.fungible ty sl (.fungible value blinding tag)
  .ok { b with fungible := m }

/-- `add_data_raw`, /repo/src/interface/builder.rs:1235-1256. -/
def addDataRaw (b : OpBuilder) (ty : Nat) (sl : BSeal) (value salt : Nat) : Except BErr OpBuilder := do
  let sch ← b.stateSchema ty
  match sch with
  | .structured _ => do
    let m ← Slots.put b.data ty sl (.data value salt)
    .ok { b with data := m }
  | _ => .error (.invalidStateType ty)

/-- `add_attachment_raw`, /repo/src/interface/builder.rs:1303-1325. -/
def addAttachmentRaw (b : OpBuilder) (ty : Nat) (sl : BSeal) (file media salt : Nat) : Except BErr OpBuilder := do
  let sch ← b.stateSchema ty
  match sch with
  | .attachment _ => do
    let m ← Slots.put b.attachments ty sl (.attach file media salt)
    .ok { b with attachments := m }
  | _ => .error (.invalidStateType ty)

/-- `add_owned_state_raw`, /repo/src/interface/builder.rs:1059-1087. -/
def addOwnedRaw (b : OpBuilder) (ty : Nat) (sl : BSeal) : RState → Except BErr OpBuilder
  | .void => b.addRightsRaw ty sl
  | .fungible value blinding tag => do
    let known ← b.assetTagRaw ty
    failIf (.assetTagInvalid ty) (decide (known ≠ tag))
    b.addFungibleRaw ty sl value blinding tag
  | .data value salt => b.addDataRaw ty sl value salt
  | .attach file media salt => b.addAttachmentRaw ty sl file media salt

/-- `debug_assert!(self.deterministic)` and `debug_assert!(!self.deterministic)`, /repo/src/interface/builder.rs:1047-1051, 1132-1135. -/
def assertDet (E : BEnv) (b : OpBuilder) (want : Bool) : Except BErr Unit := failIf .panic (E.debug && decide (b.det ≠ want))

/-- `add_owned_state_det`, /repo/src/interface/builder.rs:1041-1057. -/
def addOwnedDet (E : BEnv) (b : OpBuilder) (name : Nat) (sl : BSeal) (st : RState) : Except BErr OpBuilder := do
  b.assertDet E true
  let ty ← b.typeOf name
  b.addOwnedRaw ty sl st

/-- `add_rights`, /repo/src/interface/builder.rs:1089-1101. -/
def addRights (b : OpBuilder) (name : Nat) (sl : BSeal) : Except BErr OpBuilder := do
  let ty ← b.typeOf name
  b.addRightsRaw ty sl

/-- `add_fungible_state`, /repo/src/interface/builder.rs:1126-1146. `blinding` is drawn at random. -/
def addFungible (E : BEnv) (b : OpBuilder) (name : Nat) (sl : BSeal) (value blinding : Nat) : Except BErr OpBuilder := do
  b.assertDet E false
  let ty ← b.typeOf name
  let tag ← b.assetTagRaw ty
  b.addFungibleRaw ty sl value blinding tag

/-- `add_fungible_state_det`, /repo/src/interface/builder.rs:1148-1166. -/
def addFungibleDet (E : BEnv) (b : OpBuilder) (name : Nat) (sl : BSeal) (value blinding tag : Nat) : Except BErr OpBuilder := do
  b.assertDet E true
  let ty ← b.typeOf name
  b.addFungibleRaw ty sl value blinding tag

/-- `add_data`, /repo/src/interface/builder.rs:1193-1213. `salt` is drawn at random. -/
def addData (E : BEnv) (b : OpBuilder) (name : Nat) (sl : BSeal) (value : Option Nat) (salt : Nat) : Except BErr OpBuilder := do
  b.assertDet E false
  let v ← orErr .strictEncode value
  let ty ← b.typeOf name
  b.addDataRaw ty sl v salt

/-- `add_data_det`, /repo/src/interface/builder.rs:1215-1233. -/
def addDataDet (E : BEnv) (b : OpBuilder) (name : Nat) (sl : BSeal) (value salt : Nat) : Except BErr OpBuilder := do
  b.assertDet E true
  let ty ← b.typeOf name
  b.addDataRaw ty sl value salt

/-- `add_attachment` and `add_attachment_det`, /repo/src/interface/builder.rs:1258-1301. -/
def addAttachment (E : BEnv) (b : OpBuilder) (det : Bool) (name : Nat) (sl : BSeal) (file media salt : Nat) : Except BErr OpBuilder := do
  b.assertDet E det
  let ty ← b.typeOf name
  b.addAttachmentRaw ty sl file media salt

/-- The assignment made of a seal and a state, for instance /repo/src/interface/builder.rs:1337-1348. -/
def toAssign : BSeal × RState → Assign
  | (.revealed s, st) => .revealed s st
  | (.concealed c h, st) => .confidentialSeal (xsecret c h) st

/-- The blinding factor of a fungible state. -/
def blindingOf : RState → Nat
  | .fungible _ b _ => b
  | _ => 0

/-- `state.blinding = b`, /repo/src/interface/builder.rs:1370. -/
def setBlinding (b : Nat) : RState → RState
  | .fungible v _ t => .fungible v b t
  | st => st

/-- The blinding factors of inputs of a type, /repo/src/interface/builder.rs:1356-1366: panics at an input which isn't an amount. -/
def inputBlindings (ty : Nat) : List (Opout × RState) → Except BErr (List Nat)
  | [] => .ok []
  | (o, st) :: rest => do
    let more ← inputBlindings ty rest
    if o.ty = ty then
      match st with
      | .fungible _ b _ => .ok (b :: more)
      | _ => .error .panic
    else .ok more

/-- `if inputs.is_empty() { inputs = vec![BlindingFactor::EMPTY] }`, /repo/src/interface/builder.rs:1367-1369. -/
def orEmpty (E : BEnv) : List Nat → List Nat
  | [] => [E.emptyBlinding]
  | l => l

/-- Fungible assignments of a type: the last one gets the balancing blinding factor, /repo/src/interface/builder.rs:1331-1377. -/
def completeFungible (E : BEnv) (inputs : List (Opout × RState)) (ty : Nat) (items : List (BSeal × RState)) :
    Except BErr TypedAssigns :=
  match items.getLast? with
  | none => .error .panic
  | some last => do
    let ins ← inputBlindings ty inputs
    let b ← orErr .panic (E.balance (orEmpty E ins) (items.dropLast.map (fun e => blindingOf e.2)))
    .ok ⟨.fungible, (items.dropLast ++ [(last.1, setBlinding b last.2)]).map toAssign⟩

/-- The loop over types with fungible state, /repo/src/interface/builder.rs:1331. -/
def completeAllFungible (E : BEnv) (inputs : List (Opout × RState)) : Slots → Except BErr Assignments
  | [] => .ok []
  | (ty, items) :: rest => do
    let t ← completeFungible E inputs ty items
    let more ← completeAllFungible E inputs rest
    .ok ((ty, t) :: more)

/-- Other kinds of assignments, /repo/src/interface/builder.rs:1378-1395, 1412-1428. -/
def completeOther (k : StateKind) (m : Slots) : Assignments := OMap.mapVals (fun items => ⟨k, items.map toAssign⟩) m

/-- Rights, kept in a `HashSet` per type, /repo/src/interface/builder.rs:1395-1411. -/
def completeRights (E : BEnv) (m : Slots) : Assignments :=
  OMap.mapVals (fun items => ⟨.declarative, ((E.order (OMap.keys items)).map (fun s => (s, RState.void))).map toAssign⟩) m

/-- `Confined::extend` with a limit: /repo/src/interface/builder.rs:1435-1444, `expect`. -/
def extendMax (max : Nat) : Assignments → List (Nat × TypedAssigns) → Except BErr Assignments
  | m, [] => .ok m
  | m, e :: rest => if m.length ≥ max then .error .panic else extendMax max (OMap.insert m e.1 e.2) rest

/-- `complete`, /repo/src/interface/builder.rs:1327-1447: the assignments; global state and tags are taken as they are. -/
def complete (E : BEnv) (b : OpBuilder) (inputs : List (Opout × RState)) : Except BErr Assignments := do
  let owned ← completeAllFungible E inputs b.fungible
  let a ← extendMax tinyMax owned (completeOther .structured b.data)
  let a ← extendMax tinyMax a (completeRights E b.rights)
  extendMax tinyMax a (completeOther .attachment b.attachments)

end OpBuilder

/-! ### Contracts -/

/-- `ContractBuilder`, /repo/src/interface/builder.rs:141-147. The only alternative layer 1 is Liquid: `liquid` says whether the set
of them contains it. -/
structure ContractBuilder where
  builder : OpBuilder
  testnet : Bool := true
  liquid : Bool := false
  issuer : Nat
  deriving Repr

/-- `Genesis` made by the builder, /repo/src/interface/builder.rs:388-402. -/
structure BuiltGenesis where
  timestamp : Int
  testnet : Bool
  liquid : Bool
  tags : OMap Nat Nat
  metadata : OMap Nat Nat
  globals : OMap Nat (List Nat)
  assigns : Assignments
  issuer : Nat
  deriving DecidableEq, Repr

namespace ContractBuilder

/-- `with` and `deterministic`, /repo/src/interface/builder.rs:150-182. -/
def new (det : Bool) (issuer : Nat) (iface : Iface) (schema : Schema) (iimpl : IfaceImpl) : ContractBuilder where
  builder := { schema := schema, iface := iface, iimpl := iimpl, det := det }
  issuer := issuer

/-- `has_layer1`, /repo/src/interface/builder.rs:191-196. -/
def hasLayer1 (b : ContractBuilder) : Layer1 → Bool
  | .bitcoin => true
  | .liquid => b.liquid

/-- `check_layer1`, /repo/src/interface/builder.rs:197-202. -/
def checkLayer1 (b : ContractBuilder) (l : Layer1) : Except BErr Unit := failIf (.invalidLayer1 l) (!b.hasLayer1 l)

/-- `self.builder = self.builder.…?; Ok(self)`. -/
def set (b : ContractBuilder) (x : Except BErr OpBuilder) : Except BErr ContractBuilder := do
  let o ← x
  .ok { b with builder := o }

/-- `add_fungible_state`, /repo/src/interface/builder.rs:287-299. -/
def addFungible (E : BEnv) (b : ContractBuilder) (name : Nat) (sl : BSeal) (value blinding randTag : Nat) :
    Except BErr ContractBuilder := do
  b.checkLayer1 sl.layer1
  let (o, _) ← b.builder.initAssetTag name randTag
  b.set (o.addFungible E name sl value blinding)

/-- `add_fungible_state_det`, /repo/src/interface/builder.rs:301-315. -/
def addFungibleDet (E : BEnv) (b : ContractBuilder) (name : Nat) (sl : BSeal) (value blinding randTag : Nat) :
    Except BErr ContractBuilder := do
  b.checkLayer1 sl.layer1
  let (o, tag) ← b.builder.initAssetTag name randTag
  b.set (o.addFungibleDet E name sl value blinding tag)

/-- The other calls with a seal: first the layer is checked, for instance /repo/src/interface/builder.rs:270-273. -/
def sealed (b : ContractBuilder) (sl : BSeal) (x : Except BErr OpBuilder) : Except BErr ContractBuilder := do
  b.checkLayer1 sl.layer1
  b.set x

end ContractBuilder

/-- Calls to a `ContractBuilder`, /repo/src/interface/builder.rs:186-363. `randTag`, and for the calls which aren't deterministic also
`blinding` and `salt`, are drawn at random. -/
inductive CCall where
  | setMainnet
  | addLiquid
  | addAssetTag (name tag : Nat)
  | addMetadata (name : Nat) (value : Option Nat)
  | addGlobal (name : Nat) (value : Option Nat)
  | addOwnedDet (name : Nat) (sl : BSeal) (st : RState)
  | addRights (name : Nat) (sl : BSeal)
  | addFungible (name : Nat) (sl : BSeal) (value blinding randTag : Nat)
  | addFungibleDet (name : Nat) (sl : BSeal) (value blinding randTag : Nat)
  | addData (name : Nat) (sl : BSeal) (value : Option Nat) (salt : Nat)
  | addDataDet (name : Nat) (sl : BSeal) (value salt : Nat)
  | addAttachment (det : Bool) (name : Nat) (sl : BSeal) (file media salt : Nat)
  deriving DecidableEq, Repr

namespace ContractBuilder

/-- One call. `add_layer1` (/repo/src/interface/builder.rs:204-209) can't fail, as there is one alternative layer. -/
def call (E : BEnv) (b : ContractBuilder) : CCall → Except BErr ContractBuilder
  | .setMainnet => .ok { b with testnet := false }
  | .addLiquid => .ok { b with liquid := true }
  | .addAssetTag name tag => b.set (b.builder.addAssetTag name tag)
  | .addMetadata name v => b.set (b.builder.addMetadata E name v)
  | .addGlobal name v => b.set (b.builder.addGlobal E name v)
  | .addOwnedDet name sl st => b.sealed sl (b.builder.addOwnedDet E name sl st)
  | .addRights name sl => b.sealed sl (b.builder.addRights name sl)
  | .addFungible name sl v bl t => b.addFungible E name sl v bl t
  | .addFungibleDet name sl v bl t => b.addFungibleDet E name sl v bl t
  | .addData name sl v salt => b.sealed sl (b.builder.addData E name sl v salt)
  | .addDataDet name sl v salt => b.sealed sl (b.builder.addDataDet E name sl v salt)
  | .addAttachment det name sl f m salt => b.sealed sl (b.builder.addAttachment E det name sl f m salt)

/-- A sequence of calls, each on the builder returned by the previous one. -/
def calls (E : BEnv) : List CCall → ContractBuilder → Except BErr ContractBuilder
  | [], b => .ok b
  | c :: rest, b => do
    let b' ← b.call E c
    calls E rest b'

/-- `issue_contract` and `issue_contract_det`, /repo/src/interface/builder.rs:365-430. `valid`: the verdict of validation by rgb-core
(/repo/src/interface/builder.rs:425-427). The containers around the genesis (schema, interface, scripts) are the ones given. -/
def issue (E : BEnv) (valid : BuiltGenesis → Bool) (det : Bool) (timestamp : Int) (b : ContractBuilder) : Except BErr BuiltGenesis := do
  b.builder.assertDet E det
  let assigns ← b.builder.complete E []
  let g : BuiltGenesis :=
    { timestamp := timestamp, testnet := b.testnet, liquid := b.liquid, tags := b.builder.tags, metadata := [],
      globals := b.builder.globals, assigns := assigns, issuer := b.issuer }
  failIf .inconsistency (!valid g)
  .ok g

end ContractBuilder

/-! ### Transitions -/

/-- `TransitionBuilder`, /repo/src/interface/builder.rs:434-440. -/
structure TransitionBuilder where
  contract : Nat
  builder : OpBuilder
  nonce : Nat := 18446744073709551615
  ty : Nat
  inputs : OMap Opout RState := []
  deriving Repr

/-- `Transition` made by the builder, /repo/src/interface/builder.rs:805-817: the operation, and its metadata. -/
structure BuiltTransition where
  op : Op
  metadata : OMap Nat Nat
  deriving DecidableEq, Repr

/-- `TransitionType::BLANK` of rgb-core. -/
def blankType : Nat := 65535

namespace TransitionBuilder

/-- `with` and `deterministic`, /repo/src/interface/builder.rs:523-555. -/
def new (det : Bool) (contract : Nat) (iface : Iface) (schema : Schema) (iimpl : IfaceImpl) (ty : Nat) : TransitionBuilder where
  contract := contract
  builder := { schema := schema, iface := iface, iimpl := iimpl, det := det }
  ty := ty

/-- `blank_transition` and `blank_transition_det`, /repo/src/interface/builder.rs:443-461. -/
def blank (det : Bool) (contract : Nat) (iface : Iface) (schema : Schema) (iimpl : IfaceImpl) : TransitionBuilder :=
  new det contract iface schema iimpl blankType

/-- `default_transition` and `default_transition_det`, /repo/src/interface/builder.rs:463-491. -/
def default (det : Bool) (contract : Nat) (iface : Iface) (schema : Schema) (iimpl : IfaceImpl) : Except BErr TransitionBuilder := do
  let ty ← orErr .noOperationSubtype (iface.defaultOperation.bind (typeByName iimpl.transitions))
  .ok (new det contract iface schema iimpl ty)

/-- `named_transition` and `named_transition_det`, /repo/src/interface/builder.rs:493-521. -/
def named (det : Bool) (contract : Nat) (iface : Iface) (schema : Schema) (iimpl : IfaceImpl) (name : Nat) :
    Except BErr TransitionBuilder := do
  let ty ← orErr (.transitionNotFound name) (typeByName iimpl.transitions name)
  .ok (new det contract iface schema iimpl ty)

/-- `self.builder = self.builder.…?; Ok(self)`. -/
def set (b : TransitionBuilder) (x : Except BErr OpBuilder) : Except BErr TransitionBuilder := do
  let o ← x
  .ok { b with builder := o }

/-- `add_input`, /repo/src/interface/builder.rs:611-614. -/
def addInput (b : TransitionBuilder) (o : Opout) (st : RState) : Except BErr TransitionBuilder := do
  let m ← insertMax tinyMax b.inputs o st
  .ok { b with inputs := m }

/-- `default_assignment`, /repo/src/interface/builder.rs:616-622. -/
def defaultAssignment (b : TransitionBuilder) : Except BErr Nat := do
  let t ← b.builder.transitionIface b.ty
  orErr .noDefaultAssignment t.defaultAssignment

/-- The check of the tag in `add_owned_state_raw`, /repo/src/interface/builder.rs:661-664. -/
def checkTag (b : TransitionBuilder) (ty : Nat) : RState → Except BErr Unit
  | .fungible _ _ tag => do
    let known ← b.builder.assetTagRaw ty
    failIf (.assetTagInvalid ty) (decide (known ≠ tag))
  | _ => .ok ()

/-- `add_owned_state_raw`, /repo/src/interface/builder.rs:655-667. -/
def addOwnedRaw (b : TransitionBuilder) (ty : Nat) (sl : BSeal) (st : RState) : Except BErr TransitionBuilder := do
  b.checkTag ty st
  b.set (b.builder.addOwnedRaw ty sl st)

/-- `add_fungible_state`, /repo/src/interface/builder.rs:697-705. -/
def addFungible (E : BEnv) (b : TransitionBuilder) (name : Nat) (sl : BSeal) (value blinding : Nat) : Except BErr TransitionBuilder :=
  b.set (b.builder.addFungible E name sl value blinding)

/-- `add_fungible_state_det`, /repo/src/interface/builder.rs:707-724. -/
def addFungibleDet (E : BEnv) (b : TransitionBuilder) (name : Nat) (sl : BSeal) (value blinding : Nat) :
    Except BErr TransitionBuilder := do
  let ty ← b.builder.typeOf name
  let tag ← b.builder.assetTagRaw ty
  b.set (b.builder.addFungibleDet E name sl value blinding tag)

/-- `add_fungible_state_raw`, /repo/src/interface/builder.rs:726-737. -/
def addFungibleRaw (b : TransitionBuilder) (ty : Nat) (sl : BSeal) (value blinding : Nat) : Except BErr TransitionBuilder := do
  let tag ← b.builder.assetTagRaw ty
  b.set (b.builder.addFungibleRaw ty sl value blinding tag)

/-- `add_fungible_default_state` and `add_fungible_default_state_det`, /repo/src/interface/builder.rs:678-695. -/
def addFungibleDefault (E : BEnv) (det : Bool) (b : TransitionBuilder) (sl : BSeal) (value blinding : Nat) :
    Except BErr TransitionBuilder := do
  let name ← b.defaultAssignment
  if det then b.addFungibleDet E name sl value blinding else b.addFungible E name sl value blinding

/-- `add_data_default`, /repo/src/interface/builder.rs:771-778. -/
def addDataDefault (E : BEnv) (b : TransitionBuilder) (sl : BSeal) (value : Option Nat) (salt : Nat) : Except BErr TransitionBuilder := do
  let name ← b.defaultAssignment
  b.set (b.builder.addData E name sl value salt)

end TransitionBuilder

/-- Calls to a `TransitionBuilder`, /repo/src/interface/builder.rs:561-798. For the calls which aren't deterministic `blinding` and
`salt` are drawn at random. -/
inductive TCall where
  | setNonce (n : Nat)
  | addAssetTag (name tag : Nat)
  | addAssetTagRaw (ty tag : Nat)
  | addMetadata (name : Nat) (value : Option Nat)
  | addGlobal (name : Nat) (value : Option Nat)
  | addInput (o : Opout) (st : RState)
  | addOwnedDet (name : Nat) (sl : BSeal) (st : RState)
  | addOwnedRaw (ty : Nat) (sl : BSeal) (st : RState)
  | addRights (name : Nat) (sl : BSeal)
  | addFungibleDefault (det : Bool) (sl : BSeal) (value blinding : Nat)
  | addFungible (name : Nat) (sl : BSeal) (value blinding : Nat)
  | addFungibleDet (name : Nat) (sl : BSeal) (value blinding : Nat)
  | addFungibleRaw (ty : Nat) (sl : BSeal) (value blinding : Nat)
  | addData (name : Nat) (sl : BSeal) (value : Option Nat) (salt : Nat)
  | addDataDet (name : Nat) (sl : BSeal) (value salt : Nat)
  | addDataRaw (ty : Nat) (sl : BSeal) (value salt : Nat)
  | addDataDefault (sl : BSeal) (value : Option Nat) (salt : Nat)
  | addAttachment (det : Bool) (name : Nat) (sl : BSeal) (file media salt : Nat)
  deriving DecidableEq, Repr

namespace TransitionBuilder

/-- One call. -/
def call (E : BEnv) (b : TransitionBuilder) : TCall → Except BErr TransitionBuilder
  | .setNonce n => .ok { b with nonce := n }
  | .addAssetTag name tag => b.set (b.builder.addAssetTag name tag)
  | .addAssetTagRaw ty tag => b.set (b.builder.addAssetTagRaw ty tag)
  | .addMetadata name v => b.set (b.builder.addMetadata E name v)
  | .addGlobal name v => b.set (b.builder.addGlobal E name v)
  | .addInput o st => b.addInput o st
  | .addOwnedDet name sl st => b.set (b.builder.addOwnedDet E name sl st)
  | .addOwnedRaw ty sl st => b.addOwnedRaw ty sl st
  | .addRights name sl => b.set (b.builder.addRights name sl)
  | .addFungibleDefault det sl v bl => b.addFungibleDefault E det sl v bl
  | .addFungible name sl v bl => b.addFungible E name sl v bl
  | .addFungibleDet name sl v bl => b.addFungibleDet E name sl v bl
  | .addFungibleRaw ty sl v bl => b.addFungibleRaw ty sl v bl
  | .addData name sl v salt => b.set (b.builder.addData E name sl v salt)
  | .addDataDet name sl v salt => b.set (b.builder.addDataDet E name sl v salt)
  | .addDataRaw ty sl v salt => b.set (b.builder.addDataRaw ty sl v salt)
  | .addDataDefault sl v salt => b.addDataDefault E sl v salt
  | .addAttachment det name sl f m salt => b.set (b.builder.addAttachment E det name sl f m salt)

/-- A sequence of calls, each on the builder returned by the previous one. -/
def calls (E : BEnv) : List TCall → TransitionBuilder → Except BErr TransitionBuilder
  | [], b => .ok b
  | c :: rest, b => do
    let b' ← b.call E c
    calls E rest b'

/-- `has_inputs`, /repo/src/interface/builder.rs:800. -/
def hasInputs (b : TransitionBuilder) : Bool := !b.inputs.isEmpty

/-- `complete_transition`, /repo/src/interface/builder.rs:802-822. -/
def complete (E : BEnv) (b : TransitionBuilder) : Except BErr BuiltTransition := do
  let assigns ← b.builder.complete E b.inputs
  .ok
    { op :=
        { kind := .transition, contract := b.contract, ty := b.ty, nonce := b.nonce, globals := b.builder.globals,
          inputs := OMap.keys b.inputs, assigns := assigns }
      metadata := [] }

end TransitionBuilder

end Rgb
