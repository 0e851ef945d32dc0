import Verif.Spec.Change

/-!
Vocabulary for C92: what a payment leaves to the wallet.
-/

namespace Rgb

/-- The output which a seal defines in the transaction `w`, if the seal is visible. -/
def BSeal.output (w : WitnessId) : BSeal → Option OutSeal
  | .revealed s => s.toOutputWith w
  | .concealed _ _ => none

/-- All transitions of a batch which belong to a contract. -/
def Batch.transitionsOf (b : Batch) (id : Nat) : List BuiltTransition := (b.payments ++ b.blankTransitions).filter (fun t => decide (t.op.contract = id))

end Rgb
