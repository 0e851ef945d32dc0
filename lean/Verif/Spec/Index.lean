import Verif.Model.Index

/-!
Vocabulary for C19–C22: histories of indexing operations, and which outputs an indexing operation mentions.
-/

namespace Rgb

/-- An indexing operation: of a whole consignment, or of a single bundle (as by `consume_fascia`,
/repo/src/persistence/stock.rs:1328-1355). -/
inductive IdxOp where
  | consignment (d : ConsignmentData)
  | bundle (c : Nat) (b : Bundle) (w : WitnessId)

def IdxOp.exec (H : Commit) (x : Index) : IdxOp → Index × Option IdxErr
  | .consignment d => x.indexConsignment H d
  | .bundle c b w => x.indexBundle H c b w

/-- State of the index after a history of operations, each of which may fail (a failed one leaves the changes made before
the error). -/
def runIdx (H : Commit) (x : Index) : List IdxOp → Index
  | [] => x
  | op :: rest => runIdx H (op.exec H x).1 rest

/-- Results of the operations of the history, in order. -/
def resultsIdx (H : Commit) (x : Index) : List IdxOp → List (IdxOp × Option IdxErr)
  | [] => []
  | op :: rest => (op, (op.exec H x).2) :: resultsIdx H (op.exec H x).1 rest

/-- Operation `op`, known under `opid` and seen with the witness `w` (none for genesis and extensions), assigns its output
`o` to a visible seal which resolves to the output seal `s`. -/
def Op.AssignsOut (op : Op) (opid : Nat) (w : Option WitnessId) (s : OutSeal) (o : Opout) : Prop :=
  ∃ ty t i a sl, (ty, t) ∈ op.assigns ∧ t.items[i]? = some a ∧ a.seal? = some sl ∧
    (match w with | none => sl.toOutput | some w => sl.toOutputWith w) = some s ∧ o = ⟨opid, ty, i⟩

/-- Operation `op`, known under `opid`, assigns its output `o` to a hidden seal with the given secret. -/
def Op.AssignsSecret (op : Op) (opid : Nat) (secret : Nat) (o : Opout) : Prop :=
  ∃ ty t i a, (ty, t) ∈ op.assigns ∧ t.items[i]? = some a ∧
    ((∃ st, a = .confidential secret st) ∨ (∃ st, a = .confidentialSeal secret st)) ∧ o = ⟨opid, ty, i⟩

/-- Operations in an indexing operation: contract, operation id, operation, witness. -/
inductive IdxOp.Contains (H : Commit) : IdxOp → Nat → Nat → Op → Option WitnessId → Prop where
  | genesis (d : ConsignmentData) :
      Contains H (.consignment d) (d.genesis.contractId H) (d.genesis.id H) d.genesis none
  | extension (d : ConsignmentData) (e : Op) (h : e ∈ d.extensions) :
      Contains H (.consignment d) (d.genesis.contractId H) (e.id H) e none
  | transition (d : ConsignmentData) (wb : WitnessBundle) (b : Bundle) (k : Nat) (t : Op) (hwb : wb ∈ d.bundles)
      (hb : b ∈ wb.anchored.bundles) (hk : (k, t) ∈ b.known) :
      Contains H (.consignment d) (d.genesis.contractId H) k t (some wb.id)
  | single (c : Nat) (b : Bundle) (w : WitnessId) (k : Nat) (t : Op) (hk : (k, t) ∈ b.known) :
      Contains H (.bundle c b w) c k t (some w)

/-- Bundles in an indexing operation: contract, bundle, witness. -/
inductive IdxOp.HasBundle (H : Commit) : IdxOp → Nat → Bundle → WitnessId → Prop where
  | inConsignment (d : ConsignmentData) (wb : WitnessBundle) (b : Bundle) (hwb : wb ∈ d.bundles)
      (hb : b ∈ wb.anchored.bundles) : HasBundle H (.consignment d) (d.genesis.contractId H) b wb.id
  | single (c : Nat) (b : Bundle) (w : WitnessId) : HasBundle H (.bundle c b w) c b w

/-- The indexing operation mentions output `o` of contract `c` on the visible output seal `s`. -/
def IdxOp.Out (H : Commit) (op : IdxOp) (c : Nat) (s : OutSeal) (o : Opout) : Prop :=
  ∃ k t w, op.Contains H c k t w ∧ t.AssignsOut k w s o

/-- The indexing operation mentions output `o` on a hidden seal with the secret. -/
def IdxOp.Secret (H : Commit) (op : IdxOp) (secret : Nat) (o : Opout) : Prop :=
  ∃ c k t w, op.Contains H c k t w ∧ t.AssignsSecret k secret o

end Rgb
