import Verif.Spec.Usable

/-!
Vocabulary for C85: operations the history of which is complete, back to the genesis.
-/

namespace Rgb

/-- The operation came in a bundle of the contract with a witness of `V`, and so did, in turn, each transition whose output it spends. -/
inductive Traced (H : Commit) (es : List StockEvent) (V : WitnessId → Prop) (c : Nat) : Nat → Prop
  | intro {o : Nat} (came : ∃ e ∈ es, ∃ b w, StockEvent.Brings H e c b w ∧ OMap.contains b.known o = true ∧ V w)
      (inputs : ∀ e ∈ es, ∀ b w t, StockEvent.Brings H e c b w → OMap.get? b.known o = some t → ∀ i ∈ t.inputs, i.op ≠ c → Traced H es V c i.op) :
      Traced H es V c o

/-- The witness is valid for the state of the stock. -/
def Stock.Valid (k : Stock) (w : WitnessId) : Prop := k.state.isValidWitness w = .ok true

/-- The consignment has no other transitions of a bundle than there were in the history. -/
def SameBundles (H : Commit) (es : List StockEvent) (con : Consignment) : Prop :=
  ∀ e ∈ es, ∀ c b w, StockEvent.Brings H e c b w → ∀ wb ∈ con.data.bundles, ∀ b' ∈ wb.anchored.bundles, b'.id H = b.id H →
    ∀ o, OMap.contains b.known o = OMap.contains b'.known o

/-- If the consignment has a bundle under a witness which came with another bundle of the contract, these are of different closing methods. -/
def SameWitnesses (H : Commit) (es : List StockEvent) (con : Consignment) : Prop :=
  ∀ e ∈ es, ∀ b w, StockEvent.Brings H e (con.data.genesis.contractId H) b w → ∀ wb ∈ con.data.bundles, wb.id = w → ∀ b' ∈ wb.anchored.bundles,
    b'.closeMethod = b.closeMethod → b'.id H = b.id H

end Rgb
