import Verif.Lemmas.Conserve
import Verif.Props.Supply

/-! # C101: nothing is lost -/

namespace Rgb.Props
open Rgb Stock

section
variable {E : CEnv} {n : Nat} {M : Mpc} {G : SchemaDoc → SchemaGlobals} {L : Ledger} {es : List StockEvent} {k : Stock}

/-- **C101** (a payment). Each transition which `compose` makes, for the invoice or for other contracts at the spent outputs, assigns of each type exactly as much as it spends, if the caller
saw to it that nothing has to be dropped (`KeepsAll`; see `C38_overflow_fails`, `C38_collision_fails`, `C41_other_tokens_fails` and `C40_collision_fails` for what happens otherwise). -/
theorem C101_transition (hE : E.Lawful n) (hH : E.H.Binding) (hr : k.Reachable E.H) {W : Wallet} {inv : Inv.Invoice} {prevs : List OutSeal} {b : Batch}
    (h : compose E W k inv prevs = .ok b) {c : Nat}
    (hw : ∀ a ∈ k.stateAt c prevs, ∀ a' ∈ k.stateAt c prevs, a.opout.op = a'.opout.op → a.witness = a'.witness)
    {t : BuiltTransition} (ht : t ∈ b.transitionsOf c) {q : Quantity} {ty : Nat} (hk : KeepsAll E W k inv prevs c ty q) :
    t.op.issues q ty = ((ofType ty (t.spends (k.stateAt c prevs))).map (fun a => q.of a.state)).sum :=
  Nat.le_antisymm (C100_transition hE hH hr h hw ht q ty) (compose_keeps hE h (C38_apart hH hr hw) ht hk)

/-- **C101** (a network). Take any wallets of a network, whatever they and others did, any contract and type of state, and all outputs of the contract's operations which the wallets have and
which none of their transitions spends. If the transitions were composed with care (`CarefullyPaid`), and somebody of the wallets sees the state at each of these outputs, then there is at
least as much at these outputs as the genesis issued: nothing got lost on the way. -/
theorem C101_kept (hE : E.Lawful n) (hT : E.TagMaps) (hTC : E.TagsCommitted) (hH : E.H.Binding) (hM : M.Lawful) (hG : ∀ d, OMap.Sorted (G d).maxItems)
    (hI : Ids.Lawful E.H E.I) (hO : OneWitness E M G L) {ess : List (List StockEvent)} (hess : ∀ es ∈ ess, ∃ k, Honest E M G L es k) {c ty : Nat} {q : Quantity}
    (hp : ∀ es ∈ ess, ∀ t w, Had E.H es c t (some w) → CarefullyPaid E M G L c ty q t) {g : Op} (hg : ∃ es ∈ ess, Had E.H es c g none)
    (hgs : ∀ ta, OMap.get? g.assigns ty = some ta → ∀ a ∈ ta.items, ∃ st, a.state? = some st) {l : List (Opout × RState)} (hl : AllUnspent E.H ess c ty l) :
    g.issues q ty ≤ (l.map (fun e => q.of e.2)).sum := by
  refine conserved hE hT hTC hH hM hG hI hO hess hp hg ?_ hl
  intro a ha
  unfold Op.itemsAt at ha
  cases hta : OMap.get? g.assigns ty with
  | none => rw [hta] at ha; cases ha
  | some ta => rw [hta] at ha; exact hgs ta hta a ha

/-- **C101** (the balance). With no output spent twice, there is at these outputs exactly as much as the genesis issued. -/
theorem C101_balance (hE : E.Lawful n) (hT : E.TagMaps) (hTC : E.TagsCommitted) (hH : E.H.Binding) (hM : M.Lawful) (hG : ∀ d, OMap.Sorted (G d).maxItems)
    (hI : Ids.Lawful E.H E.I) (hO : OneWitness E M G L) {ess : List (List StockEvent)} (hess : ∀ es ∈ ess, ∃ k, Honest E M G L es k) {c ty : Nat} {q : Quantity}
    (hd : NoDoubleSpend E.H ess c) (hp : ∀ es ∈ ess, ∀ t w, Had E.H es c t (some w) → CarefullyPaid E M G L c ty q t) {g : Op}
    (hg : ∃ es ∈ ess, Had E.H es c g none) (hgs : ∀ ta, OMap.get? g.assigns ty = some ta → ∀ a ∈ ta.items, ∃ st, a.state? = some st) {l : List (Opout × RState)}
    (hl : AllUnspent E.H ess c ty l) : (l.map (fun e => q.of e.2)).sum = g.issues q ty := by
  refine Nat.le_antisymm ?_ (C101_kept hE hT hTC hH hM hG hI hO hess hp hg hgs hl)
  obtain ⟨es, hes, hgh⟩ := hg
  obtain ⟨k, hk⟩ := hess es hes
  have hs := hk.sane hE hT hTC hH hM hG hI
  refine C100_supply hE hT hTC hH hM hG hI hO hess hd ?_ hgs hl.toUnspent q
  generalize hw : (none : Option WitnessId) = w at hgh
  cases hgh with
  | genesis con r he => rw [Op.contractId, (hs.furnished.sound _ he).proper.1.genesisKind]
  | extension _ _ _ _ _ _ _ => cases hw
  | transition _ _ _ _ _ _ _ _ => cases hw

end

/-! ### Examples -/

section
open PaidWorld

/-- Paying 12 of the 17 at the spent outputs was done with care. -/
theorem exKeepsAll : KeepsAll E PayWorld.W k inv PayWorld.prevs 0 4000 .amount where
  amount := fun _ _ _ _ => ⟨rfl, .inr (by decide +kernel), by decide +kernel⟩
  token := fun _ _ _ h => by cases h
  moved := fun h => absurd ⟨rfl, by decide +kernel⟩ h

/-- After the payment the wallet of the payer accounts for all that was issued: 12 for the payee, 5 of change, and what wasn't touched. -/
example : ∃ k', Honest E World.M World.G exLedger (PayWorld.events ++ [.fascia fascia World.r]) k' ∧
    NoDoubleSpend H [PayWorld.events ++ [.fascia fascia World.r]] 0 ∧
    (∀ t w, Had H (PayWorld.events ++ [.fascia fascia World.r]) 0 t (some w) → CarefullyPaid E World.M World.G exLedger 0 4000 .amount t) ∧
    Had H (PayWorld.events ++ [.fascia fascia World.r]) 0 PayWorld.g0 none ∧ AllUnspent H [PayWorld.events ++ [.fascia fascia World.r]] 0 4000 exUnspent ∧
    PayWorld.g0.issues .amount 4000 = 18446744073709551633 := by
  obtain ⟨b, hb, hp⟩ := exComposed
  have hc : (k.consumeFascia H World.r fascia).bind (fun x => if x.2 = none then some () else none) = some () := by decide +kernel
  obtain ⟨⟨k', o⟩, h1, hc⟩ := Option.bind_eq_some_iff.mp hc
  by_cases ho : o = none
  · subst ho
    have hk' : Honest E World.M World.G exLedger (PayWorld.events ++ [.fascia fascia World.r]) k' :=
      .spent exHonest hb (exPacks hp).toMadeOf exPaidUnknown fascia_sound exOnLedger exAttested h1
    have hid := ids.1
    simp only [List.map_cons, List.map_nil, List.cons.injEq, and_true] at hid
    have had : ∀ t w, Had H (PayWorld.events ++ [.fascia fascia World.r]) 0 t w → (t = PayWorld.g0 ∧ w = none) ∨ ((t = p0 ∨ t = p1) ∧ ∃ v, w = some v) := by
      intro t w ht
      generalize hz : (0 : Nat) = z at ht
      cases ht with
      | genesis x r he =>
        refine .inl ?_
        simp only [PayWorld.events, List.mem_append, List.mem_cons, List.not_mem_nil, or_false] at he
        rcases he with (he | he) | he
        · cases he; exact ⟨rfl, rfl⟩
        · cases he
          exact absurd (hid.2.1.symm.trans hz.symm) (by decide)
        · cases he
      | extension x r _ wb he ht =>
        simp only [PayWorld.events, List.mem_append, List.mem_cons, List.not_mem_nil, or_false] at he
        rcases he with (he | he) | he
        · cases he; cases ht
        · cases he; cases ht
        · cases he
      | transition e _ b v _ he hb ht =>
        refine .inr ⟨?_, v, rfl⟩
        simp only [PayWorld.events, List.mem_append, List.mem_cons, List.not_mem_nil, or_false] at he
        rcases he with (rfl | rfl) | rfl
        · cases hb with | consignment _ _ wb _ hw _ => cases hw
        · cases hb with | consignment _ _ wb _ hw _ => cases hw
        · cases hb with
          | fascia _ _ _ _ hm =>
            simp only [fascia, List.mem_cons, List.not_mem_nil, or_false, Prod.mk.injEq] at hm
            rcases hm with ⟨-, rfl⟩ | ⟨-, rfl⟩
            · simp only [b0, OMap.vals, List.map_cons, List.map_nil, List.mem_singleton] at ht
              exact .inl ht
            · simp only [b1, OMap.vals, List.map_cons, List.map_nil, List.mem_singleton] at ht
              exact .inr ht
    have hg : Had H (PayWorld.events ++ [.fascia fascia World.r]) 0 PayWorld.g0 none := by
      have h : Op.contractId H PayWorld.g0 = 0 := hid.1
      rw [← h]
      exact .genesis (PayWorld.con PayWorld.g0) World.r (by simp [PayWorld.events])
    have h0 : Had H (PayWorld.events ++ [.fascia fascia World.r]) 0 p0 (some fascia.witness.id) :=
      .transition (.fascia fascia World.r) 0 b0 _ p0 (by simp) (.fascia fascia World.r 0 b0 (by simp [fascia])) (by simp [b0, OMap.vals])
    have h2 : Had H (PayWorld.events ++ [.fascia fascia World.r]) 0 p1 (some fascia.witness.id) :=
      .transition (.fascia fascia World.r) 0 b1 _ p1 (by simp) (.fascia fascia World.r 0 b1 (by simp [fascia])) (by simp [b1, OMap.vals])
    have spent : ∀ o, o ∈ p0.inputs ∨ o ∈ p1.inputs → ∃ t, SpentBy H (PayWorld.events ++ [.fascia fascia World.r]) 0 o t := by
      rintro o (h | h)
      · exact ⟨p0, ⟨_, h0⟩, h⟩
      · exact ⟨p1, ⟨_, h2⟩, h⟩
    have trs : ∀ {o t}, SpentBy H (PayWorld.events ++ [.fascia fascia World.r]) 0 o t → (t = p0 ∧ o ∈ p0.inputs) ∨ (t = p1 ∧ o ∈ p1.inputs) := by
      rintro o t ⟨⟨w, ht⟩, ho⟩
      rcases had t _ ht with ⟨-, h⟩ | ⟨rfl | rfl, -⟩
      · cases h
      · exact .inl ⟨rfl, ho⟩
      · exact .inr ⟨rfl, ho⟩
    refine ⟨k', hk', ?_, ?_, hg, ⟨⟨by decide, by decide, ?_, ?_⟩, ?_⟩, by decide +kernel⟩
    · intro es hes es' hes' o t t' ht ht'
      rw [List.mem_singleton] at hes hes'
      subst hes; subst hes'
      have hx : ∀ o ∈ p0.inputs, o ∉ p1.inputs := by decide
      rcases trs ht with ⟨rfl, h3⟩ | ⟨rfl, h3⟩ <;> rcases trs ht' with ⟨rfl, h4⟩ | ⟨rfl, h4⟩
      · rfl
      · exact absurd h4 (hx o h3)
      · exact absurd h3 (hx o h4)
      · rfl
    · intro t w ht
      have hm : ∀ x ∈ [p0, p1], ∃ u ∈ b.transitionsOf 0, u.op = x := by
        intro x hx
        rw [← hp] at hx
        obtain ⟨u, hu, rfl⟩ := List.mem_map.1 hx
        exact ⟨u, List.mem_filter.2 ⟨List.mem_append_left _ hu, by rw [((C38_inputs E_lawful hb rfl).1 u hu).1]; decide⟩, rfl⟩
      rcases had t _ ht with ⟨-, h⟩ | ⟨h, -⟩
      · cases h
      · obtain ⟨u, hu, rfl⟩ := hm t (by rcases h with rfl | rfl <;> simp)
        exact ⟨_, _, _, _, _, b, u, exHonest, hb, hu, rfl, exKeepsAll⟩
    · intro e he
      refine ⟨_, .head _, ?_⟩
      simp only [exUnspent, List.mem_cons, List.not_mem_nil, or_false] at he
      rcases he with rfl | rfl | rfl | rfl | rfl
      · exact ⟨p0, _, h0, hid.2.2.1, by decide⟩
      · exact ⟨p1, _, h2, hid.2.2.2, by decide⟩
      · exact ⟨p1, _, h2, hid.2.2.2, by decide⟩
      · exact ⟨PayWorld.g0, _, hg, hid.1, by decide⟩
      · exact ⟨PayWorld.g0, _, hg, hid.1, by decide⟩
    · intro e he es hes t ht
      rw [List.mem_singleton] at hes
      subst hes
      have hx : ∀ e ∈ exUnspent, e.1 ∉ p0.inputs ∧ e.1 ∉ p1.inputs := by decide
      rcases trs ht with ⟨-, h3⟩ | ⟨-, h3⟩
      · exact (hx e he).1 h3
      · exact (hx e he).2 h3
    · intro es hes t w no ht hno hu
      rw [List.mem_singleton] at hes
      subst hes
      have hu' : ∀ o, o = (⟨t.id H, 4000, no⟩ : Opout) → o ∉ p0.inputs ∧ o ∉ p1.inputs := by
        rintro o rfl
        exact ⟨fun h => by obtain ⟨t', h'⟩ := spent _ (.inl h); exact hu _ (.head _) t' h', fun h => by obtain ⟨t', h'⟩ := spent _ (.inr h); exact hu _ (.head _) t' h'⟩
      have key : ∀ (x : Op) (i N : Nat), (x.itemsAt 4000).length = N → x.id H = i →
          (∀ j < N, (⟨i, 4000, j⟩ : Opout) ∈ p0.inputs ∨ (⟨i, 4000, j⟩ : Opout) ∈ p1.inputs ∨ (⟨i, 4000, j⟩ : Opout) ∈ exUnspent.map Prod.fst) →
          x = t → (⟨t.id H, 4000, no⟩ : Opout) ∈ exUnspent.map Prod.fst := by
        rintro x i N hN rfl hall rfl
        rw [Op.at_itemsAt, isSome_getElem?] at hno
        rcases hall no (hN ▸ hno) with h | h | h
        · exact absurd h (hu' _ rfl).1
        · exact absurd h (hu' _ rfl).2
        · exact h
      rcases had t _ ht with ⟨rfl, -⟩ | ⟨rfl | rfl, -⟩
      · exact key PayWorld.g0 0 _ rfl hid.1 (by decide) rfl
      · exact key p0 4 _ rfl hid.2.2.1 (by decide) rfl
      · exact key p1 6 _ rfl hid.2.2.2 (by decide) rfl
  · rw [if_neg ho] at hc
    cases hc

end

end Rgb.Props
