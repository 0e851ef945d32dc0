import Verif.Props.Batch

/-!
# C66: composing never aborts

Composing reads an invoice which comes from someone else, so whatever is in it should be answered with an error. It isn't so.
-/

namespace Rgb.Props

open Rgb Rgb.Stock
open Rgb.PayWorld (ok_any)

/-- **C66 is false**: whenever the contract, its schema, the interface and its implementation are known and the wallet has the types of the
schema, an invoice naming an operation which the implementation doesn't have makes composing panic. -/
theorem C66_operation_fails {E : CEnv} {W : Wallet} {k : Stock} {inv : Inv.Invoice} {prevs : List OutSeal} {c : Nat} {name op : Text} {g : Op}
    {si : SchemaIfaces} {d : IfaceDoc} {impl : IimplDoc} (hx : ∀ e, inv.expiry = some e → E.now ≤ e) (hc : inv.contract = some c)
    (hi : inv.iface = some name) (ho : inv.operation = some op) (hg : k.stash.genesis c = some g)
    (hs : k.stash.schema (E.I.genesisSchema g) = some si) (hd : k.stash.ifaceByName (E.name name) = some d)
    (hm : si.get (E.I.iface d) = some impl) (ht : extracts E k.stash si d = .ok ())
    (hun : typeByName (E.implOf impl).transitions (E.name op) = none) : compose E W k inv prevs = .error .panic := by
  have he : expired E inv = false := by
    cases h : expired E inv with
    | false => rfl
    | true =>
      obtain ⟨e, h1, h2⟩ := expired_iff.1 h
      have := hx e h1
      omega
  have hb : transitionBuilder E k.stash c (.name (E.name name)) (inv.operation.map E.name) = .error .panic := by
    unfold transitionBuilder contractSchema ifaceRef ifaceNamed
    rw [hg, ho]
    simp only [orErr, bind, Except.bind, hs, hd, hm, ht, Option.map_some, namedOrDefault, TransitionBuilder.named, hun, expectB]
  unfold compose
  have : prepare E W k inv = .error .panic := by
    rw [prepare_eq, he, hc, hi]
    simp only [failIf, orErr, bind, Except.bind, prepareRest, hb]
    rfl
  rw [this]
  rfl

/-- **C66 is false**: whenever paying a zero amount would work, an invoice which asks for no particular state or for an attachment makes
composing panic. -/
theorem C66_state_fails {E : CEnv} {W : Wallet} {k : Stock} {inv : Inv.Invoice} {prevs : List OutSeal} {b : Batch}
    (h : compose E W k { inv with ownedState := .amount 0 } prevs = .ok b) :
    compose E W k { inv with ownedState := .void } prevs = .error .panic ∧
    ∀ x, compose E W k { inv with ownedState := .attach x } prevs = .error .panic := by
  unfold compose at h
  obtain ⟨p, h1, h⟩ := except_bind_ok.1 h
  obtain ⟨spent, h2, h⟩ := except_bind_ok.1 h
  obtain ⟨a, h3, h⟩ := except_bind_ok.1 h
  have key : ∀ st, wanted E st = none → (∀ a, payInvoice E W k p a st = .error .panic) → compose E W k { inv with ownedState := st } prevs = .error .panic := by
    intro st hst hp
    have e1 : prepare E W k { inv with ownedState := st } = .ok p := h1
    unfold compose
    rw [e1]
    simp only [bind, Except.bind]
    rw [h2]
    simp only
    have h3' : spendAll E W k p (wanted E st) (E.ordOuts p.contract spent) { main := p.main, alt := p.alt } = .ok a := by
      rw [hst]; exact h3
    rw [h3']
    simp only [hp]
  exact ⟨key .void rfl (fun _ => rfl), fun x => key (.attach x) rfl (fun _ => rfl)⟩

example : (compose PayWorld.E PayWorld.W PayWorld.k (PayWorld.inv none (.amount 0)) PayWorld.prevs).toBool = true ∧
    compose PayWorld.E PayWorld.W PayWorld.k (PayWorld.inv none .void) PayWorld.prevs = .error .panic ∧
    compose PayWorld.E PayWorld.W PayWorld.k { PayWorld.inv none (.amount 12) with operation := some "burn".toList } PayWorld.prevs = .error .panic := by
  decide +kernel

/-- **C66**, what holds: an invoice which has expired, which lacks the contract or the interface, or names ones which aren't known or which
don't fit, is refused with an error. Missing: unknown operations, other state, and state of other contracts (`C66_operation_fails`,
`C66_state_fails`, `C40_archived_fails`). -/
theorem C66_refused_partial {E : CEnv} {W : Wallet} {k : Stock} {inv : Inv.Invoice} {prevs : List OutSeal}
    (h : (∃ e, inv.expiry = some e ∧ e < E.now) ∨ inv.contract = none ∨ inv.iface = none ∨ inv.contract.bind k.stash.genesis = none ∨
      (∃ n, inv.iface = some n ∧ k.stash.ifaceByName (E.name n) = none) ∨
      (∃ g, inv.contract.bind k.stash.genesis = some g ∧ k.stash.schema (E.I.genesisSchema g) = none) ∨
      ∃ g si n d, inv.contract.bind k.stash.genesis = some g ∧ k.stash.schema (E.I.genesisSchema g) = some si ∧ inv.iface = some n ∧
        k.stash.ifaceByName (E.name n) = some d ∧ si.get (E.I.iface d) = none) :
    ∃ e, compose E W k inv prevs = .error e ∧ e ≠ .panic := by
  have lift : ∀ {e : CErr}, prepare E W k inv = .error e → compose E W k inv prevs = .error e := by
    intro e he; unfold compose; rw [he]; rfl
  suffices hp : ∃ e, prepare E W k inv = .error e ∧ e ≠ .panic by
    obtain ⟨e, he, hne⟩ := hp
    exact ⟨e, lift he, hne⟩
  rw [prepare_eq]
  cases hx : expired E inv with
  | true => exact ⟨.invoiceExpired, rfl, by simp⟩
  | false =>
    have hno : ¬ ∃ e, inv.expiry = some e ∧ e < E.now := by rw [← expired_iff, hx]; simp
    cases hc : inv.contract with
    | none => exact ⟨.noContract, rfl, by simp⟩
    | some c =>
      cases hi : inv.iface with
      | none => exact ⟨.noIface, rfl, by simp⟩
      | some name =>
        rw [hc, hi] at h
        simp only [hno, reduceCtorEq, false_or, Option.bind_some, Option.some.injEq, exists_eq_left'] at h
        simp only [failIf, orErr, bind, Except.bind, prepareRest, transitionBuilder, contractSchema, ifaceRef, ifaceNamed]
        cases hg : k.stash.genesis c with
        | none => exact ⟨_, rfl, by simp⟩
        | some g =>
          cases hs : k.stash.schema (E.I.genesisSchema g) with
          | none => simp only [hs]; exact ⟨_, rfl, by simp⟩
          | some si =>
            cases hd : k.stash.ifaceByName (E.name name) with
            | none => simp only [hs]; exact ⟨_, rfl, by simp⟩
            | some d =>
              cases hm : si.get (E.I.iface d) with
              | none => simp only [hs, hm]; exact ⟨_, rfl, by simp⟩
              | some impl =>
                exfalso
                rw [hg, hd] at h
                simp [hs] at h
                obtain ⟨x, hx1, hx2⟩ := h
                rw [hd] at hx1
                cases hx1
                rw [hm] at hx2
                cases hx2

example : (compose PayWorld.E PayWorld.W PayWorld.k { PayWorld.inv none (.amount 12) with contract := some 99 } PayWorld.prevs) =
    .error (.stock (.contractAbsent 99)) := by
  decide +kernel

end Rgb.Props
