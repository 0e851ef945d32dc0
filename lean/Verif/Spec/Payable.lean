import Verif.Spec.Compose

/-!
# When a payment is within the means of the wallet

What has to be known and available for a payment of an invoice with the given outputs.
-/

namespace Rgb

/-- A state is one which the contract defines: its schema has the type, with this kind of state, and an amount has the asset tag which the genesis of
the contract gives to the type. -/
def Stock.Defines (E : CEnv) (k : Stock) (c : Nat) (a : OutAssign) : Prop :=
  ∃ g si, k.stash.genesis c = some g ∧ k.stash.schema (E.I.genesisSchema g) = some si ∧ (E.schemaOf si.doc).Owns a.opout.ty a.state ∧
    ∀ v bl t, a.state = .fungible v bl t → OMap.get? (E.tagsOf g) a.opout.ty = some t

/-- The state of a contract at the outputs can be spent by a transition for each closing method: there is some, there are at most 255 of them, all are
defined by the contract, and none is there twice. -/
structure Stock.Spendable (E : CEnv) (k : Stock) (c : Nat) (prevs : List OutSeal) : Prop where
  nonempty : k.stateAt c prevs ≠ []
  few : (k.stateAt c prevs).length ≤ 255
  defined : ∀ a ∈ k.stateAt c prevs, k.Defines E c a
  once : ((k.stateAt c prevs).map (fun a => a.opout)).Nodup

/-- The means suffice: the amounts of the type add up to the invoiced one or more (and to a 64-bit number), or the invoiced token is there. -/
def Stock.Suffices (E : CEnv) (k : Stock) (prevs : List OutSeal) (c ty : Nat) : Inv.InvoiceState → Prop
  | .amount amt => amt ≤ sumOf ty (k.stateAt c prevs) ∧ sumOf ty (k.stateAt c prevs) < 18446744073709551616
  | .data t => (∃ a ∈ k.stateAt c prevs, a.opout.ty = ty ∧ a.state.data? = some (E.dataOf t)) ∧
      sumOf ty (k.stateAt c prevs) < 18446744073709551616
  | _ => False

/-- All that a payment of an invoice needs.
* the invoice names the contract and the interface, and isn't expired;
* the stock gives a builder for the transition named in it, and the type of the invoiced state is known;
* the wallet names an output for the beneficiary exactly if the invoice has an address and not a secret seal, and it gives outputs for change and
  for state which is moved;
* the state at the outputs can be spent, and it suffices;
* for each other contract which assigns state to these outputs: the stock gives a builder for its blank transition, and the state can be spent;
* there are less than 2²⁴ - 1 of them;
* and `zero_balanced` doesn't fail. -/
structure Stock.Payable (E : CEnv) (W : Wallet) (k : Stock) (inv : Inv.Invoice) (prevs : List OutSeal) (c iface ty : Nat) : Prop where
  contract : inv.contract = some c
  named : ∃ n, inv.iface = some n ∧ iface = E.name n
  fresh : ∀ e, inv.expiry = some e → E.now ≤ e
  builder : ∃ b, Stock.transitionBuilder E k.stash c (.name iface) (inv.operation.map E.name) = .ok b
  typed : k.invoiced E inv = some ty
  vout : W.vout.isSome = true ↔ ∃ p, inv.beneficiary.intoInner = .witnessVout p
  alloc : ∀ site c ty v, (W.alloc site c ty v).isSome = true
  own : k.Spendable E c prevs
  enough : k.Suffices E prevs c ty inv.ownedState
  blank : ∀ id ∈ k.index.contractsAssigning (prevs.map OutSeal.outpoint), id ≠ c → ∃ b, Stock.blankBuilder E k.stash id (.name iface) = .ok b
  others : ∀ id ∈ k.index.contractsAssigning (prevs.map OutSeal.outpoint), id ≠ c → k.Spendable E id prevs
  count : (k.index.contractsAssigning (prevs.map OutSeal.outpoint)).length < 16777215
  balance : ∀ ins outs, E.B.balance ins outs ≠ none

end Rgb
