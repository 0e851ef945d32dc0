import Verif.Model.Core
import Mathlib.Tactic.DeriveCountable
import Mathlib.Data.Countable.Basic
import Mathlib.Logic.Encodable.Basic
import Mathlib.Logic.Equiv.List
import Mathlib.Data.Nat.Pairing

/-!
A collision-free `Commit` exists (the types are countable): `Commit.Binding` isn't a contradictory hypothesis.
Not a part of the model of the code.
-/

namespace Rgb

deriving instance Countable for Layer1
deriving instance Countable for CloseMethod
deriving instance Countable for Opout
deriving instance Countable for Seal
deriving instance Countable for StateKind
deriving instance Countable for RState
deriving instance Countable for Assign
deriving instance Countable for TypedAssigns
deriving instance Countable for OpKind
deriving instance Countable for Op

theorem exists_binding : ∃ H : Commit, H.Binding := by
  obtain ⟨f1, h1⟩ := exists_injective_nat Seal
  obtain ⟨f2, h2⟩ := exists_injective_nat RState
  obtain ⟨f3, h3⟩ := exists_injective_nat Op
  obtain ⟨f4, h4⟩ := exists_injective_nat (CloseMethod × OMap Nat Nat)
  exact ⟨⟨f1, f2, f3, fun m a => f4 (m, a)⟩, fun _ _ h => h1 h, fun _ _ h => h2 h, fun _ _ h => h3 h,
    fun _ _ _ _ h => by have := h4 h; simpa using this⟩

/-- Some collision-free commitment scheme, for examples. -/
noncomputable def toyCommit : Commit := Classical.choose exists_binding

theorem toyCommit_binding : toyCommit.Binding := Classical.choose_spec exists_binding

end Rgb
