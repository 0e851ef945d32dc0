import Verif.Lemmas.Payable
import Verif.Props.Blank

/-! # C93: a payment within the means of the wallet is composed -/

namespace Rgb.Props
open Rgb Stock

section
variable {E : CEnv} {n : Nat} {W : Wallet} {k : Stock} {inv : Inv.Invoice} {prevs : List OutSeal} {c iface ty : Nat}

/-- **C93**. If everything that the payment of an invoice needs is there (`Stock.Payable`), then the payment is composed. -/
theorem C93_composed (hE : E.Lawful n) (hT : E.TagMaps) (h : k.Payable E W inv prevs c iface ty) : ∃ b, compose E W k inv prevs = .ok b :=
  okay_compose hE hT h

/-- **C93** (amounts). If an invoice can be paid with the amount of zero, then the same invoice can be paid with exactly those amounts which the state at the outputs covers. -/
theorem C93_amounts (hE : E.Lawful n) (hT : E.TagMaps) (h : k.Payable E W { inv with ownedState := .amount 0 } prevs c iface ty) (amt : Nat) :
    (∃ b, compose E W k { inv with ownedState := .amount amt } prevs = .ok b) ↔ amt ≤ sumOf ty (k.stateAt c prevs) := by
  constructor
  · rintro ⟨b, hb⟩
    exact C39_covered hE hb h.contract h.typed rfl h.own.once
  · intro hle
    exact C93_composed hE hT ⟨h.contract, h.named, h.fresh, h.builder, h.typed, h.vout, h.alloc, h.own, ⟨hle, h.enough.2⟩, h.blank, h.others, h.count, h.balance⟩

/-- **C93** (tokens). With the same conditions, the invoice can be paid with exactly those tokens which are at the outputs. -/
theorem C93_tokens (hE : E.Lawful n) (hT : E.TagMaps) (h : k.Payable E W { inv with ownedState := .amount 0 } prevs c iface ty) (al : Inv.Allocation) :
    (∃ b, compose E W k { inv with ownedState := .data al } prevs = .ok b) ↔
      ∃ a ∈ k.stateAt c prevs, a.opout.ty = ty ∧ a.state.data? = some (E.dataOf al) := by
  constructor
  · rintro ⟨b, hb⟩
    obtain ⟨t, -, ⟨a, ha, hd⟩, -⟩ := C41_token_partial hE hb h.contract h.typed rfl h.own.once
    unfold ofType at ha
    obtain ⟨h1, h2⟩ := List.mem_filter.1 ha
    unfold BuiltTransition.spends at h1
    exact ⟨a, (List.mem_filter.1 h1).1, by simpa using h2, hd⟩
  · intro hx
    exact C93_composed hE hT ⟨h.contract, h.named, h.fresh, h.builder, h.typed, h.vout, h.alloc, h.own, ⟨hx, h.enough.2⟩, h.blank, h.others, h.count, h.balance⟩

/-- **C93** (payment). So an invoice for an amount within the means is paid: the beneficiary gets the amount and the wallet gets the rest. (The seal of the beneficiary isn't the one for
the change, see `C38_collision_fails`.) -/
theorem C93_paid (hE : E.Lawful n) (hT : E.TagMaps) (h : k.Payable E W inv prevs c iface ty) {amt : Nat} (ha : inv.ownedState = .amount amt)
    (hne : W.benSeal inv ≠ W.changeSeal E k inv c ty) : ∃ b, compose E W k inv prevs = .ok b ∧
      (b.payments.map (fun t => t.paidTo ty (W.benSeal inv))).sum = amt ∧
      (b.payments.map (fun t => t.paidTo ty (W.changeSeal E k inv c ty))).sum = sumOf ty (k.stateAt c prevs) - amt := by
  obtain ⟨b, hb⟩ := C93_composed hE hT h
  have hen := h.enough
  rw [ha] at hen
  obtain ⟨-, h1, h2, -⟩ := C38_conserved_partial hE hb h.contract h.typed ha h.own.once (.inr hen.2) hne
  exact ⟨b, hb, h1, h2⟩

/-- **C93** (what is needed). These conditions are needed: whenever a payment is composed, the invoice names the contract and the interface and isn't expired, the stock has the builder and
the type, the wallet names an output exactly for an address, there is state of the contract at the outputs, and for each other contract listed for these outputs the stock has
the builder, and there is state of it. -/
theorem C93_needs (hE : E.Lawful n) {b : Batch} (h : compose E W k inv prevs = .ok b) :
    ∃ c iface ty, inv.contract = some c ∧ (∃ n, inv.iface = some n ∧ iface = E.name n) ∧ (∀ e, inv.expiry = some e → E.now ≤ e) ∧
      (∃ b, transitionBuilder E k.stash c (.name iface) (inv.operation.map E.name) = .ok b) ∧ k.invoiced E inv = some ty ∧
      (W.vout.isSome = true ↔ ∃ p, inv.beneficiary.intoInner = .witnessVout p) ∧ k.stateAt c prevs ≠ [] ∧
      ∀ id ∈ k.index.contractsAssigning (prevs.map OutSeal.outpoint), id ≠ c →
        (∃ b, blankBuilder E k.stash id (.name iface) = .ok b) ∧ k.stateAt id prevs ≠ [] := by
  have h0 := h
  unfold compose at h
  obtain ⟨p, h1, h⟩ := except_bind_ok.1 h
  obtain ⟨spent, h2, h⟩ := except_bind_ok.1 h
  obtain ⟨a, h3, h⟩ := except_bind_ok.1 h
  obtain ⟨a', h4, h⟩ := except_bind_ok.1 h
  obtain ⟨others, h5, h⟩ := except_bind_ok.1 h
  obtain ⟨blanks, h6, h⟩ := except_bind_ok.1 h
  have hP := prepare_ok h1
  refine ⟨p.contract, p.iface, p.ty, hP.contract, hP.iface, hP.fresh, ?_, hP.ty, ?_, ?_, ?_⟩
  · unfold prepare at h1
    obtain ⟨_, -, h1⟩ := except_bind_ok.1 h1
    obtain ⟨c, -, h1⟩ := except_bind_ok.1 h1
    obtain ⟨i, -, h1⟩ := except_bind_ok.1 h1
    obtain ⟨m, hm, h1⟩ := except_bind_ok.1 h1
    obtain ⟨_, -, h1⟩ := except_bind_ok.1 h1
    obtain ⟨_, -, h1⟩ := except_bind_ok.1 h1
    obtain ⟨_, -, h1⟩ := except_bind_ok.1 h1
    obtain ⟨_, -, h1⟩ := except_bind_ok.1 h1
    cases h1
    exact ⟨m, hm⟩
  · unfold prepare at h1
    obtain ⟨_, -, h1⟩ := except_bind_ok.1 h1
    obtain ⟨c, -, h1⟩ := except_bind_ok.1 h1
    obtain ⟨i, -, h1⟩ := except_bind_ok.1 h1
    obtain ⟨m, -, h1⟩ := except_bind_ok.1 h1
    obtain ⟨_, -, h1⟩ := except_bind_ok.1 h1
    obtain ⟨_, -, h1⟩ := except_bind_ok.1 h1
    obtain ⟨_, -, h1⟩ := except_bind_ok.1 h1
    obtain ⟨sl, hb, -⟩ := except_bind_ok.1 h1
    cases hi : inv.beneficiary.intoInner with
    | blindedSeal x =>
      rw [hi] at hb
      cases hw : W.vout with
      | none => simp
      | some v => simp only [beneficiarySeal, hw] at hb; cases hb
    | witnessVout q =>
      rw [hi] at hb
      cases hw : W.vout with
      | some v => simp
      | none => simp only [beneficiarySeal, hw] at hb; cases hb
  · obtain ⟨g1, g2⟩ := C38_inputs hE h0 hP.contract
    obtain ⟨t, ht⟩ : ∃ t, t ∈ b.payments := ⟨b.main.first.transition, List.mem_map.2 ⟨b.main.first, by unfold Dichotomy.toList; cases b.main.second <;> simp, rfl⟩⟩
    obtain ⟨o, ho⟩ := List.exists_mem_of_ne_nil _ (g1 t ht).2.2.1
    obtain ⟨x, hx, -⟩ := (g2 o).1 ⟨t, ht, ho⟩
    exact List.ne_nil_of_mem hx
  · intro id hid hne
    obtain ⟨g1, g2⟩ := C40_contracts hE h0 hP.contract
    obtain ⟨t, ht, hc⟩ := (g2 id).2 ⟨hid, hne⟩
    obtain ⟨o, ho⟩ := List.exists_mem_of_ne_nil _ (g1 t ht).2.2.1
    obtain ⟨-, x, hx, -⟩ := (C40_inputs hE h0 hP.contract id o).1 ⟨t, ht, hc, ho⟩
    refine ⟨?_, List.ne_nil_of_mem hx⟩
    obtain ⟨-, -, hk⟩ := spentState_ok h5 OMap.Sorted.nil (fun id sp h => by cases h)
    have hmem := (hk id).2 (.inr ⟨hid, hne⟩)
    obtain ⟨e, he, rfl⟩ := List.mem_map.1 hmem
    obtain ⟨ds, hl, -, hd⟩ := blankLoop_ok h6
    have he' : e ∈ ds.map Prod.fst := by rw [hl]; exact (hE.contracts others).mem_iff.2 he
    obtain ⟨y, hy, rfl⟩ := List.mem_map.1 he'
    obtain ⟨bt, hbt, -⟩ := except_bind_ok.1 (hd y hy)
    exact ⟨bt, hbt⟩

end

/-! ### Examples -/

theorem exTagMaps : PayWorld.E.TagMaps := by
  intro g
  show OMap.Sorted [(4000, 1000), (4004, 1000)] ∧ [(4000, 1000), (4004, 1000)].length ≤ 255
  unfold OMap.Sorted
  decide

/-- Whether the schema of the small world has the type with this kind of state, and the asset tag is the one of the type. -/
def exOwns (ty : Nat) : RState → Bool
  | .void => OMap.get? mixedSchema.ownedTypes ty == some .declarative
  | .fungible _ _ t => OMap.get? mixedSchema.ownedTypes ty == some (.fungible 8) && OMap.get? [(4000, 1000), (4004, 1000)] ty == some t
  | .data _ _ => match OMap.get? mixedSchema.ownedTypes ty with
    | some (.structured _) => true
    | _ => false
  | .attach _ _ _ => false

/-- State which can be spent. -/
theorem exSpendable {k : Stock} {c : Nat} {prevs : List OutSeal} (hg : ((k.stash.genesis c).bind (fun g => k.stash.schema (PayWorld.E.I.genesisSchema g))).isSome = true)
    (h0 : k.stateAt c prevs ≠ []) (h1 : (k.stateAt c prevs).length ≤ 255) (h2 : (k.stateAt c prevs).all (fun a => exOwns a.opout.ty a.state) = true)
    (h3 : ((k.stateAt c prevs).map (fun a => a.opout)).Nodup) : k.Spendable PayWorld.E c prevs := by
  refine ⟨h0, h1, fun a ha => ?_, h3⟩
  obtain ⟨si, hsi⟩ := Option.isSome_iff_exists.1 hg
  obtain ⟨g, hg, hs⟩ := Option.bind_eq_some_iff.1 hsi
  have ho := List.all_eq_true.1 h2 a ha
  refine ⟨g, si, hg, hs, ?_, ?_⟩
  · show mixedSchema.Owns _ _
    unfold Schema.Owns
    cases hst : a.state <;> rw [hst] at ho <;> simp only [exOwns] at ho ⊢
    · simpa using ho
    · simp only [Bool.and_eq_true] at ho; simpa using ho.1
    · split at ho
      · rename_i sem e; exact ⟨sem, e⟩
      · cases ho
    · cases ho
  · intro v bl t e
    rw [e] at ho
    simp only [exOwns, Bool.and_eq_true] at ho
    have h4 := ho.2
    simp only [beq_iff_eq] at h4
    exact h4

theorem exGood {α : Type} {y : Except CErr α} (h : y.toBool = true) : ∃ a, y = .ok a := by
  cases y with
  | error e => cases h
  | ok a => exact ⟨a, rfl⟩

/-- An invoice in the small world which can be paid: the amounts of 10 and 7 at the outputs are just enough, and there are also rights and tokens, and state of another contract. -/
theorem exPayable : PayWorld.k.Payable PayWorld.E PayWorld.W (PayWorld.inv none (.amount 17)) PayWorld.prevs 0 7 4000 where
  contract := rfl
  named := ⟨_, rfl, by decide⟩
  fresh := by intro e he; cases he; decide
  builder := exGood (by decide +kernel)
  typed := by decide +kernel
  vout := ⟨fun h => (by cases h), fun ⟨p, hp⟩ => (by cases hp)⟩
  alloc := fun _ _ _ _ => rfl
  own := exSpendable (by decide +kernel) (by decide +kernel) (by decide +kernel) (by decide +kernel) (by decide +kernel)
  enough := by show 17 ≤ sumOf 4000 (PayWorld.k.stateAt 0 PayWorld.prevs) ∧ sumOf 4000 (PayWorld.k.stateAt 0 PayWorld.prevs) < 18446744073709551616; decide +kernel
  blank := by
    have h : ∀ id ∈ PayWorld.k.index.contractsAssigning (PayWorld.prevs.map OutSeal.outpoint), id ≠ 0 →
        (blankBuilder PayWorld.E PayWorld.k.stash id (.name 7)).toBool = true := by decide +kernel
    exact fun id hid hne => exGood (h id hid hne)
  others := by
    have h : ∀ id ∈ PayWorld.k.index.contractsAssigning (PayWorld.prevs.map OutSeal.outpoint), id ≠ 0 → id = 2 := by decide +kernel
    intro id hid hne
    rw [h id hid hne]
    exact exSpendable (by decide +kernel) (by decide +kernel) (by decide +kernel) (by decide +kernel) (by decide +kernel)
  count := by decide +kernel
  balance := by intro ins outs h; cases h

example : 2 ∈ PayWorld.k.index.contractsAssigning (PayWorld.prevs.map OutSeal.outpoint) ∧
    sumOf 4000 (PayWorld.k.stateAt 0 PayWorld.prevs) = 17 ∧ (PayWorld.k.stateAt 0 PayWorld.prevs).length = 5 ∧ (PayWorld.k.stateAt 2 PayWorld.prevs).length = 3 := by
  decide +kernel

example : PayWorld.k.Reachable PayWorld.H ∧ ∃ b, compose PayWorld.E PayWorld.W PayWorld.k (PayWorld.inv none (.amount 17)) PayWorld.prevs = .ok b :=
  ⟨PayWorld.k_reachable, C93_composed PayWorld.E_lawful exTagMaps exPayable⟩

/-- The same invoice without an amount. -/
theorem exPayable0 : PayWorld.k.Payable PayWorld.E PayWorld.W { PayWorld.inv none (.amount 17) with ownedState := .amount 0 } PayWorld.prevs 0 7 4000 :=
  ⟨exPayable.contract, exPayable.named, exPayable.fresh, exPayable.builder, exPayable.typed, exPayable.vout, exPayable.alloc, exPayable.own,
    ⟨Nat.zero_le _, exPayable.enough.2⟩, exPayable.blank, exPayable.others, exPayable.count, exPayable.balance⟩

example : ¬ ∃ b, compose PayWorld.E PayWorld.W PayWorld.k { PayWorld.inv none (.amount 17) with ownedState := .amount 18 } PayWorld.prevs = .ok b := by
  rw [C93_amounts PayWorld.E_lawful exTagMaps exPayable0]
  decide +kernel

example : ∃ b, compose PayWorld.E PayWorld.W PayWorld.k (PayWorld.inv none (.amount 17)) PayWorld.prevs = .ok b ∧
    (b.payments.map (fun t => t.paidTo 4000 (PayWorld.W.benSeal (PayWorld.inv none (.amount 17))))).sum = 17 := by
  obtain ⟨b, h1, h2, -⟩ := C93_paid PayWorld.E_lawful exTagMaps exPayable rfl (by decide +kernel)
  exact ⟨b, h1, h2⟩

/-- An invoice for a token in it. -/
theorem exPayableToken : PayWorld.k.Payable PayWorld.E PayWorld.W (PayWorld.inv (some "abc".toList) (.data ⟨8, 0⟩)) PayWorld.prevs 0 7 4002 where
  contract := rfl
  named := ⟨_, rfl, by decide⟩
  fresh := by intro e he; cases he; decide
  builder := exGood (by decide +kernel)
  typed := by decide +kernel
  vout := ⟨fun h => (by cases h), fun ⟨p, hp⟩ => (by cases hp)⟩
  alloc := fun _ _ _ _ => rfl
  own := exPayable.own
  enough := by show (∃ a ∈ PayWorld.k.stateAt 0 PayWorld.prevs, a.opout.ty = 4002 ∧ a.state.data? = some 8) ∧ sumOf 4002 (PayWorld.k.stateAt 0 PayWorld.prevs) < 18446744073709551616; decide +kernel
  blank := exPayable.blank
  others := exPayable.others
  count := exPayable.count
  balance := exPayable.balance

example : ∃ b, compose PayWorld.E PayWorld.W PayWorld.k (PayWorld.inv (some "abc".toList) (.data ⟨8, 0⟩)) PayWorld.prevs = .ok b :=
  C93_composed PayWorld.E_lawful exTagMaps exPayableToken

theorem exPayableToken0 : PayWorld.k.Payable PayWorld.E PayWorld.W { PayWorld.inv (some "abc".toList) (.data ⟨8, 0⟩) with ownedState := .amount 0 } PayWorld.prevs 0 7 4002 :=
  ⟨exPayableToken.contract, exPayableToken.named, exPayableToken.fresh, exPayableToken.builder, exPayableToken.typed, exPayableToken.vout, exPayableToken.alloc,
    exPayableToken.own, ⟨Nat.zero_le _, exPayableToken.enough.2⟩, exPayableToken.blank, exPayableToken.others, exPayableToken.count, exPayableToken.balance⟩

/-- Of the tokens 5, 6 and 8, the tokens 5 and 8 are at the outputs. -/
example (i : Nat) (hi : i ≤ 9) : (∃ b, compose PayWorld.E PayWorld.W PayWorld.k { PayWorld.inv (some "abc".toList) (.data ⟨8, 0⟩) with ownedState := .data ⟨i, 0⟩ } PayWorld.prevs = .ok b) ↔
    i = 5 ∨ i = 8 := by
  rw [C93_tokens PayWorld.E_lawful exTagMaps exPayableToken0]
  have : ∀ i, i ≤ 9 → ((∃ a ∈ PayWorld.k.stateAt 0 PayWorld.prevs, a.opout.ty = 4002 ∧ a.state.data? = some i) ↔ i = 5 ∨ i = 8) := by decide +kernel
  exact this i hi

/-- The amount of 12 to an output of the transaction. -/
theorem exPayableVout : PayWorld.k.Payable PayWorld.E { PayWorld.W with vout := some 0 } (PayWorld.invA none (.amount 12)) PayWorld.prevs 0 7 4000 where
  contract := rfl
  named := exPayable.named
  fresh := exPayable.fresh
  builder := exPayable.builder
  typed := exPayable.typed
  vout := ⟨fun _ => ⟨_, rfl⟩, fun _ => rfl⟩
  alloc := fun _ _ _ _ => rfl
  own := exPayable.own
  enough := by show 12 ≤ sumOf 4000 (PayWorld.k.stateAt 0 PayWorld.prevs) ∧ sumOf 4000 (PayWorld.k.stateAt 0 PayWorld.prevs) < 18446744073709551616; decide +kernel
  blank := exPayable.blank
  others := exPayable.others
  count := exPayable.count
  balance := exPayable.balance

example : ∃ b, compose PayWorld.E { PayWorld.W with vout := some 0 } PayWorld.k (PayWorld.invA none (.amount 12)) PayWorld.prevs = .ok b :=
  C93_composed PayWorld.E_lawful exTagMaps exPayableVout

end Rgb.Props
