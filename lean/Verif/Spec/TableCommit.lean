import Verif.Spec.ToyCommit

/-!
A collision-free `Commit` which computes on the values listed in tables: the id of the `n`-th value of a table is `2n`, all
other ids are odd. Used for examples which have to meet `Commit.Binding` and be evaluated. Not a part of the model of the code.
-/

namespace Rgb

/-- The number of `x` in the table or an odd number. -/
def tableId {α : Type} [DecidableEq α] (l : List α) (f : α → Nat) (x : α) : Nat :=
  if x ∈ l then 2 * l.idxOf x else 2 * f x + 1

theorem tableId_inj {α : Type} [DecidableEq α] {l : List α} {f : α → Nat} (hf : ∀ a b, f a = f b → a = b) {a b : α}
    (h : tableId l f a = tableId l f b) : a = b := by
  simp only [tableId] at h
  split at h <;> split at h
  · rename_i ha hb
    have : l.idxOf a = l.idxOf b := by omega
    have ea : l[l.idxOf a]'(List.idxOf_lt_length_of_mem ha) = a := List.getElem_idxOf _
    have eb : l[l.idxOf b]'(List.idxOf_lt_length_of_mem hb) = b := List.getElem_idxOf _
    rw [← ea, ← eb]; simp only [this]
  · omega
  · omega
  · exact hf _ _ (by omega)

/-- The tables list seals, states, operations in the concealed form, and bundles. -/
noncomputable def tableCommit (seals : List Seal) (states : List RState) (ops : List Op)
    (bundles : List (CloseMethod × OMap Nat Nat)) : Commit where
  sealHash := tableId seals toyCommit.sealHash
  stateHash := tableId states toyCommit.stateHash
  opHash := tableId ops toyCommit.opHash
  bundleHash m i := tableId bundles (fun p => toyCommit.bundleHash p.1 p.2) (m, i)

theorem tableCommit_binding (seals : List Seal) (states : List RState) (ops : List Op) (bundles : List (CloseMethod × OMap Nat Nat)) :
    (tableCommit seals states ops bundles).Binding where
  seal_inj _ _ h := tableId_inj toyCommit_binding.seal_inj h
  state_inj _ _ h := tableId_inj toyCommit_binding.state_inj h
  op_inj _ _ h := tableId_inj toyCommit_binding.op_inj h
  bundle_inj m n a b h := by
    have hf : ∀ p q : CloseMethod × OMap Nat Nat, toyCommit.bundleHash p.1 p.2 = toyCommit.bundleHash q.1 q.2 → p = q :=
      fun p q h => Prod.ext (toyCommit_binding.bundle_inj _ _ _ _ h).1 (toyCommit_binding.bundle_inj _ _ _ _ h).2
    have := tableId_inj (a := (m, a)) (b := (n, b)) hf h
    simpa using this

end Rgb
