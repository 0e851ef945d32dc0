import Verif.Model.Builder

/-!
# What is asked from the builders

Vocabulary of the theorems on builders: what a call adds, and what can be read from an assignment.
-/

namespace Rgb

/-- What is assumed of the dependencies: `zero_balanced(inputs, outputs)`, if it succeeds, returns the factor which makes the sums equal
(blinding factors are numbers modulo the order `n` of the group), and iteration over a `HashSet` visits each member once. -/
structure BEnv.Lawful (E : BEnv) (n : Nat) : Prop where
  balance : ∀ (ins outs : List Nat) (b : Nat), E.balance ins outs = some b → (outs.sum + b) % n = ins.sum % n
  order : ∀ l : List BSeal, (E.order l).Perm l

/-- A state without the blinding factor and the asset tag of an amount, which a caller may leave to the builder. -/
def RState.content : RState → RState
  | .fungible v _ _ => .fungible v 0 0
  | st => st

/-- The blinding factor of an amount, zero for other states. -/
def RState.blindingFactor : RState → Nat
  | .fungible _ b _ => b
  | _ => 0

/-- Whether a state is an amount. -/
def RState.isAmount : RState → Bool
  | .fungible _ _ _ => true
  | _ => false

/-- Whether an assignment is made to the given seal. -/
def Assign.On (a : Assign) : BSeal → Prop
  | .revealed s => a.seal? = some s
  | .concealed c h => ∃ st, a = .confidentialSeal (2 * h + c.num) st

/-- The blockchain on which the seal of an assignment is defined. -/
def Assign.layer1 : Assign → Layer1
  | .confidential h _ => if h % 2 = 0 then .bitcoin else .liquid
  | .confidentialSeal h _ => if h % 2 = 0 then .bitcoin else .liquid
  | .confidentialState s _ => s.chain
  | .revealed s _ => s.chain

/-- The blinding factor of the state of an assignment. -/
def Assign.blindingFactor (a : Assign) : Nat := (a.state?.map RState.blindingFactor).getD 0

/-- The sum of blinding factors of the assignments. -/
def TypedAssigns.blindingSum (t : TypedAssigns) : Nat := (t.items.map Assign.blindingFactor).sum

/-- The name of the default assignment of a transition. -/
def defaultName (iface : Iface) (I : IfaceImpl) (ty : Nat) : Option Nat :=
  ((nameByType I.transitions ty).bind (OMap.get? iface.transitions)).bind OpIface.defaultAssignment

/-- What a call adds to a contract: assignment type, seal and state. The tag of an amount isn't an argument of the call. -/
def CCall.assigned (I : IfaceImpl) : CCall → Option (Nat × BSeal × RState)
  | .addOwnedDet n sl st => (typeByName I.assignments n).map (fun ty => (ty, sl, st))
  | .addRights n sl => (typeByName I.assignments n).map (fun ty => (ty, sl, .void))
  | .addFungible n sl v b _ => (typeByName I.assignments n).map (fun ty => (ty, sl, .fungible v b 0))
  | .addFungibleDet n sl v b _ => (typeByName I.assignments n).map (fun ty => (ty, sl, .fungible v b 0))
  | .addData n sl v salt => v.bind (fun v => (typeByName I.assignments n).map (fun ty => (ty, sl, .data v salt)))
  | .addDataDet n sl v salt => (typeByName I.assignments n).map (fun ty => (ty, sl, .data v salt))
  | .addAttachment _ n sl f m salt => (typeByName I.assignments n).map (fun ty => (ty, sl, .attach f m salt))
  | _ => none

/-- Which global state a call adds. -/
def CCall.global (I : IfaceImpl) : CCall → Option (Nat × Nat)
  | .addGlobal n v => v.bind (fun v => (typeByName I.globalState n).map (fun ty => (ty, v)))
  | _ => none

/-- What a call adds to a transition: assignment type, seal and state. -/
def TCall.assigned (I : IfaceImpl) (dflt : Option Nat) : TCall → Option (Nat × BSeal × RState)
  | .addOwnedDet n sl st => (typeByName I.assignments n).map (fun ty => (ty, sl, st))
  | .addOwnedRaw ty sl st => some (ty, sl, st)
  | .addRights n sl => (typeByName I.assignments n).map (fun ty => (ty, sl, .void))
  | .addFungibleDefault _ sl v b => (dflt.bind (typeByName I.assignments)).map (fun ty => (ty, sl, .fungible v b 0))
  | .addFungible n sl v b => (typeByName I.assignments n).map (fun ty => (ty, sl, .fungible v b 0))
  | .addFungibleDet n sl v b => (typeByName I.assignments n).map (fun ty => (ty, sl, .fungible v b 0))
  | .addFungibleRaw ty sl v b => some (ty, sl, .fungible v b 0)
  | .addData n sl v salt => v.bind (fun v => (typeByName I.assignments n).map (fun ty => (ty, sl, .data v salt)))
  | .addDataDet n sl v salt => (typeByName I.assignments n).map (fun ty => (ty, sl, .data v salt))
  | .addDataRaw ty sl v salt => some (ty, sl, .data v salt)
  | .addDataDefault sl v salt => v.bind (fun v => (dflt.bind (typeByName I.assignments)).map (fun ty => (ty, sl, .data v salt)))
  | .addAttachment _ n sl f m salt => (typeByName I.assignments n).map (fun ty => (ty, sl, .attach f m salt))
  | _ => none

/-- Which global state a call adds. -/
def TCall.global (I : IfaceImpl) : TCall → Option (Nat × Nat)
  | .addGlobal n v => v.bind (fun v => (typeByName I.globalState n).map (fun ty => (ty, v)))
  | _ => none

/-- Which input a call adds. -/
def TCall.input : TCall → Option (Opout × RState)
  | .addInput o st => some (o, st)
  | _ => none

/-- The nonce a call sets. -/
def TCall.nonce : TCall → Option (Unit × Nat)
  | .setNonce n => some ((), n)
  | _ => none

/-- Which asset tag a call sets. -/
def TCall.tagged (I : IfaceImpl) : TCall → Option (Nat × Nat)
  | .addAssetTag n tag => (typeByName I.assignments n).map (fun ty => (ty, tag))
  | .addAssetTagRaw ty tag => some (ty, tag)
  | _ => none

/-- The last value given for a key. -/
def lastFor {κ ν : Type} [DecidableEq κ] (k : κ) (l : List (κ × ν)) : Option ν :=
  l.foldl (fun acc e => if e.1 = k then some e.2 else acc) none

/-- The states given for the same type and seal: the key is a type and a seal. -/
def TCall.slot (I : IfaceImpl) (dflt : Option Nat) (c : TCall) : Option ((Nat × BSeal) × RState) :=
  (c.assigned I dflt).map (fun e => ((e.1, e.2.1), e.2.2))

/-- The states given for the same type and seal: the key is a type and a seal. -/
def CCall.slot (I : IfaceImpl) (c : CCall) : Option ((Nat × BSeal) × RState) :=
  (c.assigned I).map (fun e => ((e.1, e.2.1), e.2.2))

/-- Which metadata a call adds. -/
def CCall.metadatum (I : IfaceImpl) : CCall → Option (Nat × Nat)
  | .addMetadata n v => v.bind (fun v => (typeByName I.metadata n).map (fun ty => (ty, v)))
  | _ => none

/-- Which metadata a call adds. -/
def TCall.metadatum (I : IfaceImpl) : TCall → Option (Nat × Nat)
  | .addMetadata n v => v.bind (fun v => (typeByName I.metadata n).map (fun ty => (ty, v)))
  | _ => none

/-- Whether the schema defines owned state of the type and kind. Amounts are 64-bit numbers. -/
def Schema.Owns (s : Schema) (ty : Nat) : RState → Prop
  | .void => OMap.get? s.ownedTypes ty = some .declarative
  | .fungible _ _ _ => OMap.get? s.ownedTypes ty = some (.fungible 8)
  | .data _ _ => ∃ sem, OMap.get? s.ownedTypes ty = some (.structured sem)
  | .attach _ _ _ => ∃ media, OMap.get? s.ownedTypes ty = some (.attachment media)

/-- The kind of a state. -/
def RState.kind : RState → StateKind
  | .void => .declarative
  | .fungible _ _ _ => .fungible
  | .data _ _ => .structured
  | .attach _ _ _ => .attachment

/-- Which kind of builder a call is for, checked in debug builds: deterministic or random. -/
def CCall.mode : CCall → Option Bool
  | .addOwnedDet _ _ _ => some true
  | .addFungible _ _ _ _ _ => some false
  | .addFungibleDet _ _ _ _ _ => some true
  | .addData _ _ _ _ => some false
  | .addDataDet _ _ _ _ => some true
  | .addAttachment det _ _ _ _ _ => some det
  | _ => none

def TCall.mode : TCall → Option Bool
  | .addOwnedDet _ _ _ => some true
  | .addFungibleDefault det _ _ _ => some det
  | .addFungible _ _ _ _ => some false
  | .addFungibleDet _ _ _ _ => some true
  | .addData _ _ _ _ => some false
  | .addDataDet _ _ _ _ => some true
  | .addDataDefault _ _ _ => some false
  | .addAttachment det _ _ _ _ _ => some det
  | _ => none

/-- What a contract builder, on which `cs` were called, has to accept. `tagOf`: the asset tags of the types. -/
def CCall.Fits (types : Nat → Nat → Bool) (schema : Schema) (I : IfaceImpl) (tagOf : Nat → Option Nat) (cs : List CCall) : CCall → Prop
  | .setMainnet => True
  | .addLiquid => True
  | .addAssetTag n _ => ∃ ty, typeByName I.assignments n = some ty ∧
      ¬ ∃ c ∈ cs, ∃ sl st, c.assigned I = some (ty, sl, st) ∧ st.isAmount = true
  | .addMetadata n v => ∃ x ty sem, v = some x ∧ typeByName I.metadata n = some ty ∧ OMap.get? schema.metaTypes ty = some sem ∧
      types sem x = true ∧ ¬ ∃ c ∈ cs, ∃ y, c.metadatum I = some (ty, y)
  | .addGlobal n v => ∃ x ty sem max, v = some x ∧ typeByName I.globalState n = some ty ∧
      OMap.get? schema.globalTypes ty = some (sem, max) ∧ types sem x = true
  | .addOwnedDet n sl (.fungible v b tag) => ∃ ty, typeByName I.assignments n = some ty ∧ schema.Owns ty (.fungible v b tag) ∧
      tagOf ty = some tag ∧ (sl.layer1 = .liquid → CCall.addLiquid ∈ cs)
  | c => ∃ ty sl st, c.assigned I = some (ty, sl, st) ∧ schema.Owns ty st ∧ (sl.layer1 = .liquid → CCall.addLiquid ∈ cs)

/-- What a transition builder, on which `cs` were called, has to accept. -/
def TCall.Fits (types : Nat → Nat → Bool) (schema : Schema) (I : IfaceImpl) (dflt : Option Nat) (cs : List TCall) : TCall → Prop
  | .setNonce _ => True
  | .addInput _ _ => True
  | .addAssetTag n _ => ∃ ty, typeByName I.assignments n = some ty ∧
      ¬ ∃ c ∈ cs, ∃ sl st, c.assigned I dflt = some (ty, sl, st) ∧ st.isAmount = true
  | .addAssetTagRaw ty _ => ¬ ∃ c ∈ cs, ∃ sl st, c.assigned I dflt = some (ty, sl, st) ∧ st.isAmount = true
  | .addMetadata n v => ∃ x ty sem, v = some x ∧ typeByName I.metadata n = some ty ∧ OMap.get? schema.metaTypes ty = some sem ∧
      types sem x = true ∧ ¬ ∃ c ∈ cs, ∃ y, c.metadatum I = some (ty, y)
  | .addGlobal n v => ∃ x ty sem max, v = some x ∧ typeByName I.globalState n = some ty ∧
      OMap.get? schema.globalTypes ty = some (sem, max) ∧ types sem x = true
  | .addOwnedDet n _ (.fungible v b tag) => ∃ ty, typeByName I.assignments n = some ty ∧ schema.Owns ty (.fungible v b tag) ∧
      lastFor ty (cs.filterMap (TCall.tagged I)) = some tag
  | .addOwnedRaw ty _ (.fungible v b tag) => schema.Owns ty (.fungible v b tag) ∧ lastFor ty (cs.filterMap (TCall.tagged I)) = some tag
  | c => ∃ ty sl st, c.assigned I dflt = some (ty, sl, st) ∧ schema.Owns ty st ∧
      (st.isAmount = true → lastFor ty (cs.filterMap (TCall.tagged I)) ≠ none)

/-- The seal given to a call. -/
def CCall.seal? : CCall → Option BSeal
  | .addOwnedDet _ sl _ => some sl
  | .addRights _ sl => some sl
  | .addFungible _ sl _ _ _ => some sl
  | .addFungibleDet _ sl _ _ _ => some sl
  | .addData _ sl _ _ => some sl
  | .addDataDet _ sl _ _ => some sl
  | .addAttachment _ _ sl _ _ _ => some sl
  | _ => none

/-- Values of the entries with a key, in order. -/
def allFor {κ ν : Type} [DecidableEq κ] (k : κ) (l : List (κ × ν)) : List ν :=
  l.filterMap (fun e => if e.1 = k then some e.2 else none)

/-- The number of different members of a list. -/
def different {α : Type} [DecidableEq α] : List α → Nat
  | [] => 0
  | a :: l => if a ∈ l then different l else different l + 1

/-- The types and seals of states of one kind. -/
def ofKind (k : StateKind) (l : List ((Nat × BSeal) × RState)) : List (Nat × BSeal) :=
  l.filterMap (fun e => if e.2.kind = k then some e.1 else none)

/-- Whether one more state of a type has place beside those given for types and seals: there may be 255 types of a kind and 65535
seals of a type. -/
def RoomForState (l : List (Nat × BSeal)) (ty : Nat) : Prop :=
  if ty ∈ l.map Prod.fst then different (allFor ty l) < 65535 else different (l.map Prod.fst) < 255

/-- Whether one more item of global state has place: there may be 255 types and 65535 items of a type. -/
def RoomForGlobal (l : List (Nat × Nat)) (ty : Nat) : Prop :=
  if ty ∈ l.map Prod.fst then (allFor ty l).length < 65535 else different (l.map Prod.fst) < 255

/-- The type which gets an asset tag by a call, and whether only if it has none. -/
def CCall.tagFor (I : IfaceImpl) : CCall → Option (Nat × Bool)
  | .addAssetTag n _ => (typeByName I.assignments n).map (fun ty => (ty, false))
  | .addFungible n _ _ _ _ => (typeByName I.assignments n).map (fun ty => (ty, true))
  | .addFungibleDet n _ _ _ _ => (typeByName I.assignments n).map (fun ty => (ty, true))
  | _ => none

/-- Whether what a call adds has place in a contract on which `cs` were called. -/
structure CCall.HasRoom (I : IfaceImpl) (cs : List CCall) (c : CCall) : Prop where
  state : ∀ e, c.slot I = some e → RoomForState (ofKind e.2.kind (cs.filterMap (CCall.slot I))) e.1.1
  global : ∀ e, c.global I = some e → RoomForGlobal (cs.filterMap (CCall.global I)) e.1
  metadata : ∀ e, c.metadatum I = some e → different ((cs.filterMap (CCall.metadatum I)).map Prod.fst) < 255
  tags : ∀ ty auto, c.tagFor I = some (ty, auto) →
    (auto = true ∧ ty ∈ (cs.filterMap (CCall.tagFor I)).map Prod.fst) ∨ different ((cs.filterMap (CCall.tagFor I)).map Prod.fst) < 255

/-- Whether what a call adds has place in a transition on which `cs` were called. -/
structure TCall.HasRoom (I : IfaceImpl) (dflt : Option Nat) (cs : List TCall) (c : TCall) : Prop where
  state : ∀ e, c.slot I dflt = some e → RoomForState (ofKind e.2.kind (cs.filterMap (TCall.slot I dflt))) e.1.1
  global : ∀ e, c.global I = some e → RoomForGlobal (cs.filterMap (TCall.global I)) e.1
  metadata : ∀ e, c.metadatum I = some e → different ((cs.filterMap (TCall.metadatum I)).map Prod.fst) < 255
  tags : ∀ e, c.tagged I = some e → different ((cs.filterMap (TCall.tagged I)).map Prod.fst) < 255
  inputs : ∀ e, c.input = some e → different ((cs.filterMap TCall.input).map Prod.fst) < 255

/-- What the assignments of a type must be, given the states last added for each seal: one assignment to each of the seals, with the
state last given to that seal up to its blinding factor and tag. -/
def TypedAssigns.Hold (t : TypedAssigns) (last : BSeal → Option RState) : Prop :=
  ∃ (sls : List BSeal) (f : BSeal → Assign),
    sls.Nodup ∧ t.items = sls.map f ∧ (∀ sl, sl ∈ sls ↔ last sl ≠ none) ∧
      ∀ sl ∈ sls, (f sl).On sl ∧ (f sl).state?.map RState.content = (last sl).map RState.content

end Rgb
