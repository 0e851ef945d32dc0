import Verif.Model.Stash
import Verif.Model.State
import Verif.Spec.StoreTx
import Mathlib.Tactic.DeriveCountable
import Mathlib.Logic.Equiv.List
import Mathlib.Data.Countable.Basic

/-!
There are lawful encodings of the three stores: shows that the assumption on encodings in C35 and C83 can be met. Not a part of the model of the code.
-/

namespace Rgb

instance {κ ν : Type} [Countable κ] [Countable ν] : Countable (OMap κ ν) := inferInstanceAs (Countable (List (κ × ν)))
instance {κ : Type} [Countable κ] : Countable (OSet κ) := inferInstanceAs (Countable (List κ))

deriving instance Countable for Layer1, CloseMethod, Opout, WitnessId
deriving instance Countable for Outpoint, OutSeal, Seal, StateKind, RState
deriving instance Countable for Assign, TypedAssigns, OpKind
deriving instance Countable for Op, Bundle, ContractIndex, Index
deriving instance Countable for WitnessOrd, OpWitness, GlobalOut, OutAssign, OutKey, GlobalState, ContractState, MemState
deriving instance Countable for TrustLevel, SchemaDoc, IfaceDoc, IimplDoc, SupplDoc, SchemaIfaces, Tx, PubWitness, XPubWitness, Anchor, AnchorSet, SealWitness,
  MemStash

/-- Numbers are encoded as so many bytes 1 and a terminating 0. -/
def unary (n : Nat) : List Nat := List.replicate n 1 ++ [0]

theorem unary_prefix {m n : Nat} (h : unary m <+: unary n) : m = n := by
  induction m generalizing n with
  | zero =>
    cases n with
    | zero => rfl
    | succ n => obtain ⟨t, ht⟩ := h; simp [unary, List.replicate_succ] at ht
  | succ m ih =>
    cases n with
    | zero => obtain ⟨t, ht⟩ := h; simp [unary, List.replicate_succ] at ht
    | succ n =>
      obtain ⟨t, ht⟩ := h
      simp only [unary, List.replicate_succ, List.cons_append, List.cons.injEq, true_and] at ht
      rw [ih ⟨t, by simpa [unary] using ht⟩]

open Classical in
/-- Any countable type can be encoded. -/
noncomputable def countCodec (α : Type) [Countable α] : Codec α where
  enc a := unary (Classical.choose (Countable.exists_injective_nat α) a)
  dec l := if h : ∃ a : α, unary (Classical.choose (Countable.exists_injective_nat α) a) = l then some (Classical.choose h) else none

theorem countCodec_lawful (α : Type) [Countable α] : (countCodec α).Lawful where
  dec_enc a := by
    have hi := Classical.choose_spec (Countable.exists_injective_nat α)
    have h : ∃ b : α, unary (Classical.choose (Countable.exists_injective_nat α) b) = unary (Classical.choose (Countable.exists_injective_nat α) a) := ⟨a, rfl⟩
    simp only [countCodec]
    rw [dif_pos h]
    congr 1
    refine hi (unary_prefix ?_)
    rw [Classical.choose_spec h]
  no_prefix a l hl hne := by
    simp only [countCodec] at hl hne ⊢
    rw [dif_neg]
    rintro ⟨b, rfl⟩
    exact hne (by rw [unary_prefix hl])

/-- Encodings of the stash, the state and the index. -/
noncomputable def storeCodecs : Codecs3 MemStash MemState Index := ⟨countCodec _, countCodec _, countCodec _⟩

theorem storeCodecs_lawful : storeCodecs.Lawful := ⟨countCodec_lawful _, countCodec_lawful _, countCodec_lawful _⟩

end Rgb
