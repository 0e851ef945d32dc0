import Verif.Spec.Payable
import Verif.Spec.Issue

/-!
# What composing can answer

What the invoice, the stash and the state at the outputs have to be like, so that composing doesn't abort.
-/

namespace Rgb

/-- An invoice and outputs which composing can deal with, be it by an error.
* operation: if the contract, the interface and its implementation are known, then the implementation has the operation which the invoice names (or the
  default one if it names none); and if the invoice names no assignment, the interface has the operation too;
* state: the invoice asks for an amount or for a token;
* defined: the state at the outputs is defined by its contract;
* others: each other contract which assigns state to the outputs has state there;
* sum: in debug builds, the amounts of the invoiced type add up to a 64-bit number;
* balance: `zero_balanced` doesn't fail. -/
structure Stock.Answerable (E : CEnv) (k : Stock) (inv : Inv.Invoice) (prevs : List OutSeal) : Prop where
  operation : ∀ c g si n d x, inv.contract = some c → k.stash.genesis c = some g → k.stash.schema (E.I.genesisSchema g) = some si → inv.iface = some n →
    k.stash.ifaceByName (E.name n) = some d → si.ImplementedBy E.I d x → ∃ ty, E.opType d x (inv.operation.map E.name) = some ty ∧
      (inv.assignment = none → ∀ name, nameByType (E.implOf x).transitions ty = some name → name ∈ OMap.keys (E.ifaceOf d).transitions)
  state : (∃ v, inv.ownedState = .amount v) ∨ ∃ t, inv.ownedState = .data t
  defined : ∀ c, inv.contract = some c ∨ c ∈ k.index.contractsAssigning (prevs.map OutSeal.outpoint) → ∀ a ∈ k.stateAt c prevs, k.Defines E c a
  others : ∀ id ∈ k.index.contractsAssigning (prevs.map OutSeal.outpoint), inv.contract ≠ some id → k.stateAt id prevs ≠ []
  sum : E.B.debug = true → ∀ c ty, inv.contract = some c → k.invoiced E inv = some ty → sumOf ty (k.stateAt c prevs) < 18446744073709551616
  balance : ∀ ins outs, E.B.balance ins outs ≠ none

end Rgb
