import Verif.Spec.Conform
import Verif.Spec.Source
import Verif.Spec.Merge

/-!
Vocabulary for C100: how much there is of something.
-/

namespace Rgb

/-- What can be counted of owned states: the amounts, the allocations of a token (structured data), of rights, of an attached file. -/
inductive Quantity where
  | amount
  | token (data : Nat)
  | right
  | file (file media : Nat)

/-- How much of it a state is. -/
def Quantity.of : Quantity → RState → Nat
  | .amount, .fungible v _ _ => v
  | .token d, .data v _ => if v = d then 1 else 0
  | .right, .void => 1
  | .file f m, .attach f' m' _ => if f' = f ∧ m' = m then 1 else 0
  | _, _ => 0

/-- How much the operation shows to assign, under the type. -/
def Op.issues (t : Op) (q : Quantity) (ty : Nat) : Nat :=
  ((((OMap.get? t.assigns ty).map (fun ta => ta.items)).getD []).map (fun a => (a.state?.map q.of).getD 0)).sum

/-- The history had the operation with the output for the contract, and the state there was shown. -/
def ShownAt (H : Commit) (es : List StockEvent) (c : Nat) (o : Opout) (st : RState) : Prop :=
  ∃ t w, Had H es c t w ∧ t.id H = o.op ∧ t.stateAt? o.ty o.no = some st

/-- The history had a transition of the contract (an operation with a witness) which spends the output. -/
def SpentBy (H : Commit) (es : List StockEvent) (c : Nat) (o : Opout) (t : Op) : Prop :=
  (∃ w, Had H es c t (some w)) ∧ o ∈ t.inputs

/-- No bundle of a contract is committed to by two transactions. -/
def Ledger.Once (L : Ledger) : Prop := ∀ w w' c m m', L.bundle w c m = L.bundle w' c m' → w = w'

/-- No wallet of the network ever composes a payment out of state which one operation has with two witnesses (so, out of outputs of two transactions only one of which can be mined). -/
def OneWitness (E : CEnv) (M : Mpc) (G : SchemaDoc → SchemaGlobals) (L : Ledger) : Prop :=
  ∀ es k W inv prevs b, Honest E M G L es k → Stock.compose E W k inv prevs = .ok b →
    ∀ c, ∀ a ∈ k.stateAt c prevs, ∀ a' ∈ k.stateAt c prevs, a.opout.op = a'.opout.op → a.witness = a'.witness

/-- In the histories no output of the contract is spent by two transitions. -/
def NoDoubleSpend (H : Commit) (ess : List (List StockEvent)) (c : Nat) : Prop :=
  ∀ es ∈ ess, ∀ es' ∈ ess, ∀ o t t', SpentBy H es c o t → SpentBy H es' c o t' → t.id H = t'.id H

/-- The outputs are distinct, each was shown to one of the wallets with the given state, and to the knowledge of all these wallets none is spent. -/
structure Unspent (H : Commit) (ess : List (List StockEvent)) (c ty : Nat) (l : List (Opout × RState)) : Prop where
  distinct : (l.map Prod.fst).Nodup
  typed : ∀ e ∈ l, e.1.ty = ty
  shown : ∀ e ∈ l, ∃ es ∈ ess, ShownAt H es c e.1 e.2
  unspent : ∀ e ∈ l, ∀ es ∈ ess, ∀ t, ¬ SpentBy H es c e.1 t

end Rgb
