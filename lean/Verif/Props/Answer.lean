import Verif.Lemmas.Answer
import Verif.Props.Abort
import Verif.Props.Payable

/-! # C66: when composing doesn't abort -/

namespace Rgb.Props

open Rgb Rgb.Stock

/-- **C66**, in part. In every stock made by a history, for every wallet and every set of outputs: composing gives a batch or an error, without a panic, if the operation
is known (when the contract, the interface and its implementation are), the invoice asks for an amount or a token, the state at the outputs is defined by its
contract, each other contract listed for the outputs has state there, and in debug builds the sum fits 64 bits (`Stock.Answerable`). In particular the amount, the token, the beneficiary, the
contract and the interface may be anything, the invoice may be expired, the wallet may have too little or too much state and may give no output for change. Missing: invoices and outputs which aren't so,
see `C66_operation_fails`, `C66_state_fails`, `C40_archived_fails` and `C66_sum_fails`. -/
theorem C66_answered_partial {E : CEnv} {n : Nat} {M : Mpc} {G : SchemaDoc → SchemaGlobals} {es : List StockEvent} {k : Stock} (hE : E.Lawful n) (hT : E.TagMaps)
    (hH : E.H.Binding) (hG : ∀ d, OMap.Sorted (G d).maxItems) (he : ∀ e ∈ es, StockEvent.Proper E.H e)
    (hes : runStock E.H E.I M G es .empty = some k) (W : Wallet) {inv : Inv.Invoice} {prevs : List OutSeal} (h : k.Answerable E inv prevs) :
    Stock.compose E W k inv prevs ≠ .error .panic := by
  have hk := runStock_kept hH hG es he kept_empty hes
  exact (safe_compose hE hT hk.addressed hk.impls hk.docsSorted h).not_panic

/-- **C66 is false** of large amounts: in a debug build, an invoice of 10 with outputs which have 2⁶³ twice makes composing panic. -/
theorem C66_sum_fails : Stock.compose PayWorld.E PayWorld.W PayWorld.k (PayWorld.inv none (.amount 10))
    [PayWorld.out .opretFirst 52, PayWorld.out .opretFirst 53] = .error .panic := by
  decide +kernel

/-- Invoices of any amount can be answered in the small world. -/
theorem exAnswerable (amt : Nat) : PayWorld.k.Answerable PayWorld.E (PayWorld.inv none (.amount amt)) PayWorld.prevs where
  operation := by
    intro c g si n d x _ _ _ _ _ _
    exact ⟨10000, rfl, fun _ name h => by
      have : (1 : Nat) = name := Option.some.inj h
      subst this
      exact List.mem_singleton.2 rfl⟩
  state := .inl ⟨amt, rfl⟩
  defined := by
    have h : ∀ id ∈ PayWorld.k.index.contractsAssigning (PayWorld.prevs.map OutSeal.outpoint), id ≠ 0 → id = 2 := by decide +kernel
    intro c hc
    by_cases h0 : c = 0
    · subst h0; exact exPayable.own.defined
    · rcases hc with hc | hc
      · exact absurd (Option.some.inj hc).symm h0
      · exact (exPayable.others c hc h0).defined
  others := fun id hid hne => (exPayable.others id hid (fun h => hne (by rw [h]; rfl))).nonempty
  sum := by
    intro _ c ty hc hty
    cases hc
    have h : PayWorld.k.invoiced PayWorld.E (PayWorld.inv none (.amount amt)) = some 4000 := exPayable.typed
    rw [h] at hty
    cases hty
    exact exPayable.enough.2
  balance := exPayable.balance

/-- With any wallet, whatever is invoiced. -/
example (W : Wallet) (amt : Nat) : Stock.compose PayWorld.E W PayWorld.k (PayWorld.inv none (.amount amt)) PayWorld.prevs ≠ .error .panic :=
  C66_answered_partial PayWorld.E_lawful exTagMaps PayWorld.H_binding World.G_sorted PayWorld.events_proper (M := World.M) (by simp [PayWorld.k, PayWorld.E]) W (exAnswerable amt)

/-- Among them are payments, and errors of the wallet and of the invoice. -/
example : (Stock.compose PayWorld.E PayWorld.W PayWorld.k (PayWorld.inv none (.amount 17)) PayWorld.prevs).toBool = true ∧
    Stock.compose PayWorld.E PayWorld.W PayWorld.k (PayWorld.inv none (.amount 18)) PayWorld.prevs = .error .insufficientState ∧
    Stock.compose PayWorld.E { PayWorld.W with alloc := fun _ _ _ _ => none } PayWorld.k (PayWorld.inv none (.amount 17)) PayWorld.prevs = .error .noBlankOrChange ∧
    Stock.compose PayWorld.E { PayWorld.W with vout := some 0 } PayWorld.k (PayWorld.inv none (.amount 17)) PayWorld.prevs = .error .beneficiaryVout := by
  decide +kernel

end Rgb.Props
