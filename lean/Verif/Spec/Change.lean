import Verif.Spec.Payment

/-!
Vocabulary for C91: payments to outputs of the new transaction.
-/

namespace Rgb

/-- The operation, in a bundle with the witness `w`, makes this assignment, visible, to an output of the witness transaction itself. -/
def Op.MakesHere (H : Commit) (op : Op) (w : WitnessId) (kind : StateKind) (a : OutAssign) : Prop :=
  op.Makes H (some w) kind a ∧ ∃ sl, op.sealAt? a.opout.ty a.opout.no = some sl ∧ sl.txid = none

/-- All assignments of the contract to the outpoint which are in the index are of one closing method. -/
def Stock.OneMethodAt (k : Stock) (c : Nat) (p : Outpoint) : Prop :=
  ∀ ci s s', OMap.get? k.index.contracts c = some ci → s ∈ OMap.keys ci.outs → s' ∈ OMap.keys ci.outs → s.outpoint = p → s'.outpoint = p → s = s'

end Rgb
