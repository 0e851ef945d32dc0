import Verif.Lemmas.Refresh

/-! # C104: wallets which see the same chain list the same state -/

namespace Rgb.Props
open Rgb Stock

section
variable {E : CEnv} {n : Nat} {M : Mpc} {G : SchemaDoc → SchemaGlobals} {L : Ledger} {es es' : List StockEvent} {k k' : Stock}

/-- **C104** (listing follows the chain). A wallet of a network updates all its witnesses, by a resolver which answers for the witness of an operation which it was shown. Then an allocation which the
operation makes openly is listed if and only if the resolver says that the witness isn't archived; what the genesis makes is always listed. (Heights in mined positions aren't zero by their type.) -/
theorem C104_listed (hE : E.Lawful n) (hT : E.TagMaps) (hTC : E.TagsCommitted) (hH : E.H.Binding) (hM : M.Lawful) (hG : ∀ d, OMap.Sorted (G d).maxItems)
    (hI : Ids.Lawful E.H E.I) (hSR : E.S.Restores M) (hO : L.Once) (h : Honest E M G L es k) {r : Resolver} {after : Nat} (haft : after ≤ 1)
    (hh : ∀ w h rest, OMap.get? k.state.witnesses w = some (.mined h rest) → 0 < h) {c : Nat} {t : Op} {w : Option WitnessId} (ht : Had E.H es c t w)
    (hr : ∀ x, w = some x → ∃ ord, r x = some ord) {kind : StateKind} {a : OutAssign} (hm : t.Makes E.H w kind a) :
    ∃ v, (k.state.updateWitnesses r after).1.contractState c = .ok v ∧ (a ∈ v.all kind ↔ ∀ x, w = some x → r x ≠ some .archived) := by
  have h' : Honest E M G L (es ++ [.update r after]) { k with state := (k.state.updateWitnesses r after).1 } := .own h trivial rfl
  obtain ⟨v, h1, -, h2⟩ := C102_there hE hT hTC hH hM hG hI hSR hO h' (ht.append _) hm
  exact ⟨v, h1, h2.trans (refreshed_valid hE hT hTC hH hM hG hI h haft hh ht hr)⟩

/-- **C104** (agreement). Two wallets of a network, with any histories, update all their witnesses by the same resolver. If both were shown an operation openly at an output, then they list
the same allocation of this output, or both list none. -/
theorem C104_agree (hE : E.Lawful n) (hT : E.TagMaps) (hTC : E.TagsCommitted) (hH : E.H.Binding) (hM : M.Lawful) (hG : ∀ d, OMap.Sorted (G d).maxItems)
    (hI : Ids.Lawful E.H E.I) (hSR : E.S.Restores M) (hO : L.Once) (h : Honest E M G L es k) (h' : Honest E M G L es' k') {r : Resolver} {after : Nat} (haft : after ≤ 1)
    (hh : ∀ w h rest, OMap.get? k.state.witnesses w = some (.mined h rest) → 0 < h) (hh' : ∀ w h rest, OMap.get? k'.state.witnesses w = some (.mined h rest) → 0 < h)
    {c : Nat} {t t' : Op} {w w' : Option WitnessId} (ht : Had E.H es c t w) (ht' : Had E.H es' c t' w') (hid : t.id E.H = t'.id E.H)
    (hr : ∀ x, w = some x → ∃ ord, r x = some ord) {ty no : Nat} {sl sl' : Seal} {st st' : RState}
    (hs : t.at? ty no = some (.revealed sl st)) (hs' : t'.at? ty no = some (.revealed sl' st')) :
    ∀ kind a, a.opout = ⟨t.id E.H, ty, no⟩ →
      ((∃ v, (k.state.updateWitnesses r after).1.contractState c = .ok v ∧ a ∈ v.all kind) ↔
        ∃ v, (k'.state.updateWitnesses r after).1.contractState c = .ok v ∧ a ∈ v.all kind) := by
  have hw := one_witness hE hT hTC hH hM hG hI hSR hO h h' ht ht' hid
  subst hw
  have h₁ : Honest E M G L (es ++ [.update r after]) { k with state := (k.state.updateWitnesses r after).1 } := .own h trivial rfl
  have h₁' : Honest E M G L (es' ++ [.update r after]) { k' with state := (k'.state.updateWitnesses r after).1 } := .own h' trivial rfl
  have v₁ := refreshed_valid hE hT hTC hH hM hG hI h haft hh ht hr
  have v₁' := refreshed_valid hE hT hTC hH hM hG hI h' haft hh' ht' hr
  intro kind a ho
  constructor
  · rintro ⟨v, hv, ha⟩
    exact C102_same hE hT hTC hH hM hG hI hSR hO h₁ h₁' hv ha (ht'.append _) (by rw [ho, hid]) (by rw [ho]; exact hs')
      (v₁'.2 (v₁.1 (listed_valid hE hT hTC hH hM hG hI hSR hO h₁ (ht.append _) (by rw [ho]) hv ha)))
  · rintro ⟨v, hv, ha⟩
    exact C102_same hE hT hTC hH hM hG hI hSR hO h₁' h₁ hv ha (ht.append _) (by rw [ho]) (by rw [ho]; exact hs)
      (v₁.2 (v₁'.1 (listed_valid hE hT hTC hH hM hG hI hSR hO h₁' (ht'.append _) (by rw [ho, hid]) hv ha)))

end

/-! ### Examples -/

section
open PaidWorld

/-- The payer after the payment, and the same wallet after it lost sight of all transactions: the second one doesn't list the change of 5. After both updated by the resolver of the small world, they
list the same again. -/
example : ∃ k' v v', ∃ a : OutAssign, Honest E World.M World.G exLedger (PayWorld.events ++ [.fascia fascia World.r]) k' ∧
    Honest E World.M World.G exLedger (PayWorld.events ++ [.fascia fascia World.r] ++ [.update (fun _ => some .archived) 0])
      { k' with state := (k'.state.updateWitnesses (fun _ => some .archived) 0).1 } ∧
    k'.state.contractState 0 = .ok v ∧ a ∈ v.all .fungible ∧ a.opout = ⟨p1.id H, 4000, 0⟩ ∧ a.state = .fungible 5 2 1000 ∧
    (k'.state.updateWitnesses (fun _ => some .archived) 0).1.contractState 0 = .ok v' ∧ a ∉ v'.all .fungible ∧
    (∀ e ∈ k'.state.witnesses, ∀ h rest, e.2 = .mined h rest → 0 < h) ∧
    (∀ e ∈ (k'.state.updateWitnesses (fun _ => some .archived) 0).1.witnesses, ∀ h rest, e.2 = .mined h rest → 0 < h) ∧
    Had H (PayWorld.events ++ [.fascia fascia World.r]) 0 p1 (some fascia.witness.id) ∧ (∃ ord, World.r fascia.witness.id = some ord ∧ ord ≠ .archived) ∧
    ∃ sl, p1.at? 4000 0 = some (.revealed sl (.fungible 5 2 1000)) := by
  obtain ⟨b, hb, hp⟩ := exComposed
  have hc : (k.consumeFascia H World.r fascia).bind (fun x => (x.1.state.contractState 0).toOption.bind (fun v =>
      ((x.1.state.updateWitnesses (fun _ => some .archived) 0).1.contractState 0).toOption.bind (fun v' =>
      ((v.all .fungible).find? (fun a => decide (a.opout = ⟨6, 4000, 0⟩))).map (fun a => decide (x.2 = none ∧ a ∉ v'.all .fungible ∧ a.state = .fungible 5 2 1000 ∧
        (∀ e ∈ x.1.state.witnesses, e.2 = .archived ∨ e.2 = .tentative) ∧
        (∀ e ∈ (x.1.state.updateWitnesses (fun _ => some .archived) 0).1.witnesses, e.2 = .archived)))))) = some true := by decide +kernel
  obtain ⟨⟨k', o⟩, h2, hc⟩ := Option.bind_eq_some_iff.mp hc
  obtain ⟨v, h1, hc⟩ := Option.bind_eq_some_iff.mp hc
  obtain ⟨v', h3, hc⟩ := Option.bind_eq_some_iff.mp hc
  obtain ⟨a, h4, hc⟩ := Option.map_eq_some_iff.mp hc
  obtain ⟨rfl, h5, h6, h8, h9⟩ := of_decide_eq_true hc
  have h7 : a.opout = ⟨6, 4000, 0⟩ := by simpa using List.find?_some h4
  have hid := ids.1
  simp only [List.map_cons, List.map_nil, List.cons.injEq, and_true] at hid
  have ok : ∀ {s : MemState} {v : ContractView}, (s.contractState 0).toOption = some v → s.contractState 0 = .ok v := by
    intro s v h
    cases e : s.contractState 0 with
    | error _ => rw [e] at h; cases h
    | ok _ => rw [e] at h; cases h; rfl
  have hk' : Honest E World.M World.G exLedger (PayWorld.events ++ [.fascia fascia World.r]) k' :=
    .spent exHonest hb (exPacks hp).toMadeOf exPaidUnknown fascia_sound exOnLedger exAttested h2
  refine ⟨k', v, v', a, hk', .own hk' trivial rfl, ok h1, List.mem_of_find?_eq_some h4, ?_, h6, ok h3, h5, ?_, ?_, ?_, by decide, ⟨_, rfl⟩⟩
  · rw [h7, hid.2.2.2]
  · intro e he h rest hm
    rcases h8 e he with h | h <;> rw [h] at hm <;> cases hm
  · intro e he h rest hm
    rw [h9 e he] at hm; cases hm
  · exact .transition (.fascia fascia World.r) 0 b1 _ p1 (by simp) (.fascia fascia World.r 0 b1 (by simp [fascia])) (by simp [b1, OMap.vals])

end

end Rgb.Props
