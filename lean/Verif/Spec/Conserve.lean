import Verif.Spec.Supply
import Verif.Spec.Kept
import Verif.Spec.Compose

/-!
Vocabulary for C101: payments which lose nothing.
-/

namespace Rgb

/-- The caller of `compose` chose outputs and seals so that nothing of the type has to be dropped. -/
structure KeepsAll (E : CEnv) (W : Wallet) (k : Stock) (inv : Inv.Invoice) (prevs : List OutSeal) (c ty : Nat) (q : Quantity) : Prop where
  /-- If an amount of the type is invoiced: amounts are what is counted, the sum at the spent outputs is a 64-bit number (or this is checked), and the change is not put where the beneficiary gets paid. -/
  amount : ∀ amt, inv.contract = some c → k.invoiced E inv = some ty → inv.ownedState = .amount amt →
    q = .amount ∧ (E.B.debug = true ∨ sumOf ty (k.stateAt c prevs) < 18446744073709551616) ∧ W.benSeal inv ≠ W.changeSeal E k inv c ty
  /-- If a token is invoiced: the outputs have no other state of the type. -/
  token : ∀ al, inv.contract = some c → k.invoiced E inv = some ty → inv.ownedState = .data al → (ofType ty (k.stateAt c prevs)).length ≤ 1
  /-- Otherwise: each state of the type gets a place of its own. -/
  moved : ¬ (inv.contract = some c ∧ k.invoiced E inv = some ty) → ((ofType ty (k.stateAt c prevs)).map (W.movedSeal E k inv c)).Nodup

/-- The transition was composed in this way, by some wallet of the network. -/
def CarefullyPaid (E : CEnv) (M : Mpc) (G : SchemaDoc → SchemaGlobals) (L : Ledger) (c ty : Nat) (q : Quantity) (t : Op) : Prop :=
  ∃ es k W inv prevs b u, Honest E M G L es k ∧ Stock.compose E W k inv prevs = .ok b ∧ u ∈ b.transitionsOf c ∧ u.op.id E.H = t.id E.H ∧
    KeepsAll E W k inv prevs c ty q

/-- These are all outputs of the type which, to the knowledge of all these wallets, are not spent. -/
structure AllUnspent (H : Commit) (ess : List (List StockEvent)) (c ty : Nat) (l : List (Opout × RState)) : Prop extends Unspent H ess c ty l where
  complete : ∀ es ∈ ess, ∀ t w no, Had H es c t w → (t.at? ty no).isSome → (∀ es' ∈ ess, ∀ t', ¬ SpentBy H es' c ⟨t.id H, ty, no⟩ t') →
    (⟨t.id H, ty, no⟩ : Opout) ∈ l.map Prod.fst

end Rgb
