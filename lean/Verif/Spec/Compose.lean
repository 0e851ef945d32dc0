import Verif.Model.Compose
import Verif.Spec.Builder

/-!
# What is expected of composed payments

Vocabulary of the theorems on composing: state at outputs, who is assigned what by a transition, seals made for the wallet.
-/

namespace Rgb

/-- All valid state of a contract (of any kind) which is at one of the outputs. -/
def ContractView.at_ (v : ContractView) (outs : List Outpoint) : List OutAssign :=
  (v.all .fungible ++ v.all .structured ++ v.all .declarative ++ v.all .attachment).filter (fun a => decide (a.sl.outpoint ∈ outs))

/-- State of a contract at the previous outputs; none if the contract isn't known. -/
def Stock.stateAt (k : Stock) (c : Nat) (prevs : List OutSeal) : List OutAssign :=
  match k.state.contractState c with
  | .ok v => v.at_ (prevs.map OutSeal.outpoint)
  | .error _ => []

/-- The amount of a state, zero for other states. -/
def RState.amount : RState → Nat
  | .fungible v _ _ => v
  | _ => 0

/-- The data (token) of a state, if it is structured data. -/
def RState.data? : RState → Option Nat
  | .data v _ => some v
  | _ => none

/-- The states of a type. -/
def ofType (ty : Nat) (l : List OutAssign) : List OutAssign := l.filter (fun a => decide (a.opout.ty = ty))

/-- The sum of amounts of a type. -/
def sumOf (ty : Nat) (l : List OutAssign) : Nat := ((ofType ty l).map (fun a => a.state.amount)).sum

/-- To which seal an assignment is made, as far as it can be seen. -/
def Assign.target : Assign → Option BSeal
  | .revealed s _ => some (.revealed s)
  | .confidentialState s _ => some (.revealed s)
  | .confidentialSeal h _ => some (.concealed (if h % 2 = 0 then .bitcoin else .liquid) (h / 2))
  | .confidential h _ => some (.concealed (if h % 2 = 0 then .bitcoin else .liquid) (h / 2))

namespace BuiltTransition

/-- The assignments of a type: seal and state. -/
def outs (t : BuiltTransition) (ty : Nat) : List (Option BSeal × Option RState) :=
  (((OMap.get? t.op.assigns ty).map TypedAssigns.items).getD []).map (fun a => (a.target, a.state?))

/-- The states assigned of a type, without blinding factors and tags. -/
def contents (t : BuiltTransition) (ty : Nat) : List RState := (t.outs ty).filterMap (fun e => e.2.map RState.content)

/-- How much is assigned to a seal. -/
def paidTo (t : BuiltTransition) (ty : Nat) (sl : BSeal) : Nat :=
  ((t.outs ty).map (fun e => if e.1 = some sl then (e.2.map RState.amount).getD 0 else 0)).sum

/-- How much is assigned to all seals. -/
def total (t : BuiltTransition) (ty : Nat) : Nat := ((t.outs ty).map (fun e => (e.2.map RState.amount).getD 0)).sum

end BuiltTransition

/-- The transitions of the contract of the invoice. -/
def Batch.payments (b : Batch) : List BuiltTransition := b.main.toList.map (fun i => i.transition)

/-- The transitions of other contracts. -/
def Batch.blankTransitions (b : Batch) : List BuiltTransition := b.blanks.flatMap (fun d => d.toList.map (fun i => i.transition))

/-- Iteration over hash maps visits each entry once; and what is assumed of builders. -/
structure CEnv.Lawful (E : CEnv) (n : Nat) : Prop where
  B : E.B.Lawful n
  outs : ∀ c m, (E.ordOuts c m).Perm m
  opouts : ∀ c s m, (E.ordOpouts c s m).Perm m
  contracts : ∀ m, (E.ordContracts m).Perm m

/-- The seal on an output of the new transaction which the wallet gets for a state: at the output chosen by the allocator, closed by the
method of the wallet, with the blinding which the caller gave. -/
def Wallet.outSeal (E : CEnv) (W : Wallet) (k : Stock) (layer : Layer1) (site : Site) (c ty : Nat) : BSeal :=
  .revealed ⟨layer, W.method, none, (W.alloc site c ty (E.velocity (k.stash.supplements (E.genesisRef c)).head? ty)).getD 0, W.seals site⟩

/-- The blockchain named in the invoice. -/
def Inv.Invoice.layer (inv : Inv.Invoice) : Rgb.Layer1 := Rgb.Layer1.ofInv inv.beneficiary.layer1

/-- The seal of the beneficiary: the secret one which is in the invoice, or the one on the output paying to the address. -/
def Wallet.benSeal (W : Wallet) (inv : Inv.Invoice) : BSeal :=
  match inv.beneficiary.intoInner with
  | .blindedSeal h => .concealed inv.layer h
  | .witnessVout p => .revealed ⟨inv.layer, .ofInv p.method, none, W.vout.getD 0, W.seals .beneficiary⟩

/-- The seal for the change. -/
def Wallet.changeSeal (E : CEnv) (W : Wallet) (k : Stock) (inv : Inv.Invoice) (c ty : Nat) : BSeal :=
  W.outSeal E k inv.layer .change c ty

/-- The seal for a state which isn't paid but is spent. -/
def Wallet.movedSeal (E : CEnv) (W : Wallet) (k : Stock) (inv : Inv.Invoice) (c : Nat) (a : OutAssign) : BSeal :=
  W.outSeal E k inv.layer (.moved c a.sl a.opout) c a.opout.ty

/-- The states which an operation spends, among the given ones. -/
def BuiltTransition.spends (t : BuiltTransition) (l : List OutAssign) : List OutAssign :=
  l.filter (fun a => decide (a.opout ∈ t.op.inputs))

/-- The type of the invoiced state, if the contract, its schema, the interface and its implementation for the schema are known: of the
assignment named in the invoice, otherwise of the default one of the operation named in the invoice or of the default operation. -/
def Stock.invoiced (E : CEnv) (k : Stock) (inv : Inv.Invoice) : Option Nat := do
  let g ← inv.contract.bind k.stash.genesis
  let si ← k.stash.schema (E.I.genesisSchema g)
  let d ← inv.iface.bind (fun n => k.stash.ifaceByName (E.name n))
  let impl := E.implOf (← si.get (E.I.iface d))
  let op ← ((inv.operation.map E.name).or (E.ifaceOf d).defaultOperation).bind (typeByName impl.transitions)
  let name ← (inv.assignment.map E.name).or (defaultName (E.ifaceOf d) impl op)
  typeByName impl.assignments name

end Rgb
