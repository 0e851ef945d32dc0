import Verif.Spec.Compose
import Verif.Spec.Pass
import Verif.Spec.Usable

/-!
Vocabulary for C89: from composing a payment to its arrival.
-/

namespace Rgb

/-- The transition is in one bundle of the fascia, for the contract, and the stock has no such bundle yet. -/
def Stock.Fascia.Carries (H : Commit) (f : Stock.Fascia) (k : Stock) (c : Nat) (t : Op) : Prop :=
  ∃ b, (c, b) ∈ f.bundles ∧ OMap.get? b.known (t.id H) = some t ∧ k.stash.bundle (b.id H) = none ∧ ∀ e ∈ f.bundles, e.2.id H = b.id H → e.2 = b

/-- The state of an assignment which isn't seen with its seal: the assignment number `no` of type `ty` of the operation gives the visible state `v` of a kind to the
hidden seal with the hash `s`. -/
def Op.SendsTo (t : Op) (kind : StateKind) (ty no s : Nat) (v : RState) : Prop :=
  ∃ ta, OMap.get? t.assigns ty = some ta ∧ ta.kind = kind ∧ ta.items[no]? = some (.confidentialSeal s v)

/-- The secret seal in the invoice, as a hash of the chain and the seal. -/
def Inv.Invoice.secret (inv : Inv.Invoice) : Option Nat :=
  match inv.beneficiary.intoInner with
  | .blindedSeal h => some (2 * h + inv.layer.num)
  | .witnessVout _ => none

/-- In the bundles of the fascia nothing but the given transitions, of the contract, assigns to the secret seal; each of them does it once, no two of them are in one bundle. -/
def Stock.Fascia.PaysOnly (H : Commit) (f : Stock.Fascia) (c : Nat) (ts : List Op) (s : Nat) : Prop :=
  ∀ e ∈ f.bundles, ∀ u ∈ OMap.vals e.2.known, u.AssignsTo H s →
    e.1 = c ∧ u ∈ ts ∧ u.timesTo H s = 1 ∧ ∀ u' ∈ OMap.vals e.2.known, u'.AssignsTo H s → u' = u

end Rgb
