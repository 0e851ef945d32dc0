import Verif.Model.Compose

/-!
# Issuing contracts

Models `contract_builder` of the stash and the stock (/repo/src/persistence/stash.rs:320-344, /repo/src/persistence/stock.rs:668-678)
and the contract which `issue_contract` makes of the genesis (/repo/src/interface/builder.rs:383-430).
-/

namespace Rgb

/-- `ContractBuilder` with the documents it was made of, /repo/src/interface/builder.rs:140-167: the model of the builder itself keeps what
it reads of them. `issuer` and the other parameters are in `builder`. -/
structure Issuing where
  builder : ContractBuilder
  schema : SchemaDoc
  iface : IfaceDoc
  iimpl : IimplDoc
  types : OSet Nat
  scripts : List Nat

namespace Stock

/-- `contract_builder`, /repo/src/persistence/stash.rs:320-344, and of the stock, /repo/src/persistence/stock.rs:668-678. -/
def contractBuilder (E : CEnv) (s : MemStash) (issuer schemaId : Nat) (iface : IfaceRef) : Except CErr Issuing := do
  let si ← orErr (.stock (.schemaAbsent schemaId)) (s.schema schemaId)
  let d ← ifaceRef s iface
  let impl ← orErr .noIfaceImpl (si.get (E.I.iface d))
  match extract E.S s si.doc [d] with
  | .error e => .error (.stock e)
  | .ok (types, scripts) =>
    .ok ⟨.new false issuer (E.ifaceOf d) (E.schemaOf si.doc) (E.implOf impl), si.doc, d, impl, types, scripts⟩

end Stock

/-- The genesis as an operation, /repo/src/interface/builder.rs:388-402. `rest`: the number for all the fields which operations of the model
don't have (`Op.extra`), among them the id of the schema, the asset tags and the issuer. -/
def BuiltGenesis.op (rest : Nat → BuiltGenesis → Nat) (schemaId : Nat) (g : BuiltGenesis) : Op :=
  { kind := .genesis, globals := g.globals, assigns := g.assigns, extra := rest schemaId g }

/-- `Contract` of `issue_contract_raw`, /repo/src/interface/builder.rs:404-423. The id of the schema is of the schema put into the
contract, /repo/src/interface/builder.rs:390. -/
def Issuing.contract (E : CEnv) (rest : Nat → BuiltGenesis → Nat) (b : Issuing) (g : BuiltGenesis) : Consignment :=
  { data := ⟨g.op rest (E.I.schema b.schema), [], []⟩, schema := b.schema, ifaces := [(b.iface, b.iimpl)], types := b.types, scripts := b.scripts }

/-- Calls of the builder, then `issue_contract`, /repo/src/interface/builder.rs:364-430. `valid`: the verdict of rgb-core. -/
def Issuing.issue (E : CEnv) (rest : Nat → BuiltGenesis → Nat) (valid : Consignment → Bool) (timestamp : Int) (calls : List CCall) (b : Issuing) :
    Except BErr (BuiltGenesis × Consignment) := do
  let cb ← ContractBuilder.calls E.B calls b.builder
  let g ← cb.issue E.B (fun g => valid (b.contract E rest g)) false timestamp
  .ok (g, b.contract E rest g)

end Rgb
