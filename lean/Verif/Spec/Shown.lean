import Verif.Spec.Usable
import Verif.Spec.Compose

/-!
Vocabulary for C78: histories in which no consignment was refused, and the outpoints at which a contract has state.
-/

namespace Rgb

/-- A history in which all consignments are consumed without errors; other operations may fail (but don't panic). -/
def Accepting (H : Commit) (I : Ids) (M : Mpc) (G : SchemaDoc → SchemaGlobals) : List StockEvent → Stock → Stock → Prop
  | [], k, k' => k' = k
  | e :: es, k, k' => ∃ k₁, e.exec H I M G k = some k₁ ∧ (∀ con r, e = .consignment con r → e.Done H I M G k k₁) ∧
      Accepting H I M G es k₁ k'

/-- Some state of the contract, of a valid witness or not, is assigned to the outpoint. -/
def Stock.HasStateAt (k : Stock) (c : Nat) (p : Outpoint) : Prop :=
  ∃ v, k.state.contractState c = .ok v ∧ ∃ (kind : StateKind) (a : OutAssign), a ∈ OMap.vals (v.unfiltered.kindSet kind) ∧ a.sl.outpoint = p

end Rgb
