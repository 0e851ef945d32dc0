import Verif.Model.Issue
import Verif.Model.Open
import Verif.Spec.Compose
import Verif.Spec.Receive

/-!
# What is expected of builders made by a stock, and of issued contracts
-/

namespace Rgb

/-- The stash has the types of the schema and of the interface, and the libraries of the schema. -/
structure MemStash.HasDocs (E : CEnv) (s : MemStash) (sd : SchemaDoc) (d : IfaceDoc) : Prop where
  types : ∀ t, t ∈ E.S.schemaTypes sd ∨ t ∈ E.S.ifaceTypes d → t ∈ s.types
  libs : ∀ i ∈ E.S.schemaLibs sd, (s.lib i).isSome = true

/-- `x` is an implementation of the interface `d` for the schema. -/
def SchemaIfaces.ImplementedBy (I : Ids) (si : SchemaIfaces) (d : IfaceDoc) (x : IimplDoc) : Prop :=
  x ∈ OMap.vals si.iimpls ∧ x.ifaceId = I.iface d

/-- Asset tags of a genesis are a map with at most 255 entries. -/
def CEnv.TagMaps (E : CEnv) : Prop := ∀ g, OMap.Sorted (E.tagsOf g) ∧ (E.tagsOf g).length ≤ 255

/-- The type of the operation asked for, by its name or the default one. -/
def CEnv.opType (E : CEnv) (d : IfaceDoc) (x : IimplDoc) (op : Option Nat) : Option Nat :=
  (op.or (E.ifaceOf d).defaultOperation).bind (typeByName (E.implOf x).transitions)

/-- A new builder of a transition with the asset tags of the contract. -/
def CEnv.newTransition (E : CEnv) (c : Nat) (d : IfaceDoc) (sd : SchemaDoc) (x : IimplDoc) (tags : OMap Nat Nat) (ty : Nat) : TransitionBuilder :=
  let b := TransitionBuilder.new false c (E.ifaceOf d) (E.schemaOf sd) (E.implOf x) ty
  { b with builder := { b.builder with tags := tags } }

/-- Reading of the schema and the tags from any disclosure of the genesis gives what was put into it. -/
structure CEnv.Reads (E : CEnv) (genesis : Op) (schema : Nat) (tags : OMap Nat Nat) : Prop where
  schema : ∀ g : Op, g.id E.H = genesis.id E.H → E.I.genesisSchema g = schema
  tags : ∀ g : Op, g.id E.H = genesis.id E.H → E.tagsOf g = tags

/-- The seals given with calls of the builder of a contract: those which aren't concealed have transactions (`GenesisSeal`). -/
def GenesisSeals (iimpl : IfaceImpl) (calls : List CCall) : Prop :=
  ∀ c ∈ calls, ∀ ty s st, c.assigned iimpl = some (ty, .revealed s, st) → s.txid.isSome = true

/-- The limits on global state which the stock reads from the schema are for the types of the schema. -/
def CEnv.SameGlobals (E : CEnv) (G : SchemaDoc → SchemaGlobals) : Prop :=
  ∀ d ty, OMap.contains (E.schemaOf d).globalTypes ty = true → OMap.contains (G d).maxItems ty = true

/-- The stock doesn't have the contract. -/
structure Stock.New (k : Stock) (c : Nat) : Prop where
  state : OMap.contains k.state.contracts c = false
  genesis : k.stash.genesis c = none

end Rgb
