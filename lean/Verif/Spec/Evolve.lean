import Verif.Spec.State

/-!
Vocabulary for C80: operations given to the validator's state and operations stored.
-/

namespace Rgb

/-- The call stores the operation, as one of the contract `c`, with the same witness; the position of the witness may differ. -/
def OrdOp.StoredBy (H : Commit) (c : Nat) : OrdOp → StCall → Prop
  | .genesis g, .register _ g' => g' = g ∧ g.contractId H = c
  | .transition op w _, .transition c' op' w' _ => c' = c ∧ op' = op ∧ w' = w
  | .extension op w _, .extension c' op' w' _ => c' = c ∧ op' = op ∧ w' = w
  | _, _ => False

/-- Witness of the operation and its position. -/
def OrdOp.witnessOrd? : OrdOp → Option (WitnessId × WitnessOrd)
  | .genesis _ => none
  | .transition _ w o => some (w, o)
  | .extension _ w o => some (w, o)

/-- The two views of a contract give the same answers: ids of contract and schema; all state of each kind, with outputs and witnesses;
state at an output; global state with its positions, in order, cut at the same limit. -/
structure ContractView.SameReads (v v' : ContractView) : Prop where
  contract : v.unfiltered.contract = v'.unfiltered.contract
  schema : v.unfiltered.schema = v'.unfiltered.schema
  all : ∀ k, v.all k = v'.all k
  at_ : ∀ k o ty, v.byOutpoint k o ty = v'.byOutpoint k o ty
  globals : ∀ ty, v.globalItems ty = v'.globalItems ty

end Rgb
