import Verif.Props.Resume

/-!
C83: acceptance interrupted any number of times.
-/

namespace Rgb.Props

open Rgb Stock

variable {H : Commit} {I : Ids} {M : Mpc} {G : SchemaDoc → SchemaGlobals} {k k₁ : Stock}

/-- The argument for both kinds of actions. -/
theorem stoppedOften_of {act : Resolver → Stock → Option (Stock × Option (TxErr StockErr))} {resolves : Resolver → Prop}
    (hone : ∀ r k', act r k = some (k', none) → k'.index = k₁.index → ∀ r₂, resolves r₂ →
      ∃ k₂ : Stock, (∀ m, Interrupted k k' m → act r₂ m = some (k₂, none)) ∧ k₂.stash = k'.stash ∧ k₂.index = k'.index)
    {r₁ : Resolver} (h : act r₁ k = some (k₁, none)) {m : Stock} (hm : StoppedOften act resolves k m) :
    ∃ r k', act r k = some (k', none) ∧ Interrupted k k' m ∧ k'.stash = k₁.stash ∧ k'.index = k₁.index := by
  induction hm with
  | never => exact ⟨r₁, k₁, h, .inl rfl, rfl, rfl⟩
  | @again m k'' m' r _ hr ha hi ih =>
    obtain ⟨r', k', h1, h2, h3, h4⟩ := ih
    obtain ⟨k₂, h5, h6, h7⟩ := hone r' k' h1 h4 r hr
    have h8 := h5 m h2
    rw [ha] at h8
    injection h8 with h8
    injection h8 with h8
    subst h8
    have hs : m.stash = k.stash := by rcases h2 with rfl | rfl | rfl <;> rfl
    rcases hi with rfl | rfl | rfl
    · exact ⟨r', k', h1, h2, h3, h4⟩
    · refine ⟨r', k', h1, ?_, h3, h4⟩
      rw [h7]
      rcases h2 with rfl | rfl | rfl
      · exact .inr (.inl rfl)
      · exact .inr (.inl rfl)
      · exact .inr (.inr rfl)
    · refine ⟨r, k'', h5 k (.inl rfl), .inr (.inr ?_), h6.trans h3, h7.trans h4⟩
      rw [hs]

/-- **C83**, any number of interruptions, consignments. However many attempts to accept a consignment were stopped, and wherever between the writes of stores, with whatever answers of the
resolver: the next attempt gives the same as if none of them had been made.
Missing: full sets of the index, as in `C83_consignment_partial`. -/
theorem C83_often_partial (hH : H.Binding) (hG : ∀ d, OMap.Sorted (G d).maxItems) (hk : k.Reachable H) {con : Consignment} {r₁ : Resolver}
    (hc : StockEvent.Proper H (.consignment con r₁)) (h : k.consumeConsignment H I M G r₁ con = some (k₁, none))
    (hx : IndexRoom.consignment H k₁.index con) {m : Stock}
    (hm : StoppedOften (fun r m => m.consumeConsignment H I M G r con) (fun r => ∀ wb ∈ con.data.bundles, (r wb.id).isSome = true) k m)
    {r₂ : Resolver} (hr : ∀ wb ∈ con.data.bundles, (r₂ wb.id).isSome = true) :
    ∃ k₂ : Stock, k.consumeConsignment H I M G r₂ con = some (k₂, none) ∧ m.consumeConsignment H I M G r₂ con = some (k₂, none) ∧
      k₂.stash = k₁.stash ∧ k₂.index = k₁.index := by
  have hone : ∀ r k', k.consumeConsignment H I M G r con = some (k', none) → k'.index = k₁.index → ∀ r₂ : Resolver, (∀ wb ∈ con.data.bundles, (r₂ wb.id).isSome = true) →
      ∃ k₂ : Stock, (∀ m, Interrupted k k' m → m.consumeConsignment H I M G r₂ con = some (k₂, none)) ∧ k₂.stash = k'.stash ∧ k₂.index = k'.index := by
    intro r k' h1 h2 r₂ hr
    obtain ⟨k₂, h3, h4, h5, -⟩ := C83_consignment_partial (r₁ := r) hH hG hk hc h1 (by rw [h2]; exact hx) hr
    exact ⟨k₂, h3, h4, h5⟩
  obtain ⟨r, k', h1, h2, h3, h4⟩ := stoppedOften_of hone h hm
  obtain ⟨k₂, h5, h6, h7⟩ := hone r k' h1 h4 r₂ hr
  exact ⟨k₂, h5 k (.inl rfl), h5 m h2, h6.trans h3, h7.trans h4⟩

/-- **C83**, any number of interruptions, fascias.
Missing: full sets of the index, as in `C83_consignment_partial`. -/
theorem C83_often_fascia_partial (hH : H.Binding) (hk : k.Reachable H) {f : Fascia} {r₁ : Resolver}
    (hc : StockEvent.Proper H (.fascia f r₁)) (h : k.consumeFascia H r₁ f = some (k₁, none))
    (hx : IndexRoom.fascia H k₁.index f) {m : Stock}
    (hm : StoppedOften (fun r m => m.consumeFascia H r f) (fun r => (r f.witness.id).isSome = true) k m)
    {r₂ : Resolver} (hr : (r₂ f.witness.id).isSome = true) :
    ∃ k₂ : Stock, k.consumeFascia H r₂ f = some (k₂, none) ∧ m.consumeFascia H r₂ f = some (k₂, none) ∧
      k₂.stash = k₁.stash ∧ k₂.index = k₁.index := by
  have hone : ∀ r k', k.consumeFascia H r f = some (k', none) → k'.index = k₁.index → ∀ r₂ : Resolver, (r₂ f.witness.id).isSome = true →
      ∃ k₂ : Stock, (∀ m, Interrupted k k' m → m.consumeFascia H r₂ f = some (k₂, none)) ∧ k₂.stash = k'.stash ∧ k₂.index = k'.index := by
    intro r k' h1 h2 r₂ hr
    obtain ⟨k₂, h3, h4, h5, -⟩ := C83_fascia_partial (r₁ := r) hH hk hc h1 (by rw [h2]; exact hx) hr
    exact ⟨k₂, h3, h4, h5⟩
  obtain ⟨r, k', h1, h2, h3, h4⟩ := stoppedOften_of hone h hm
  obtain ⟨k₂, h5, h6, h7⟩ := hone r k' h1 h4 r₂ hr
  exact ⟨k₂, h5 k (.inl rfl), h5 m h2, h6.trans h3, h7.trans h4⟩

/-- The consignment of `World` is accepted by the empty stock, is stopped after the index, then again after the state. -/
example : ∃ k₁ m : Stock, Stock.empty.consumeConsignment World.H World.I World.M World.G World.r World.con = some (k₁, none) ∧
    StoppedOften (fun r m => m.consumeConsignment World.H World.I World.M World.G r World.con)
      (fun r => ∀ wb ∈ World.con.data.bundles, (r wb.id).isSome = true) .empty m ∧ m.index ≠ Stock.empty.index ∧ m.state ≠ Stock.empty.state ∧ m.stash = Stock.empty.stash := by
  have hr : ∀ wb ∈ World.con.data.bundles, (World.r wb.id).isSome = true := by decide +kernel
  have hd : (Stock.empty.consumeConsignment World.H World.I World.M World.G World.r World.con).any (fun p => decide (p.2.isNone = true ∧
    (Stock.consumeConsignment World.H World.I World.M World.G World.r World.con ⟨Stock.empty.stash, Stock.empty.state, p.1.index⟩).any (fun q => decide (q.2.isNone = true ∧
      q.1.index ≠ Stock.empty.index ∧ q.1.state ≠ Stock.empty.state))  = true)) = true := by decide +kernel
  cases e1 : Stock.empty.consumeConsignment World.H World.I World.M World.G World.r World.con with
  | none => rw [e1] at hd; cases hd
  | some p =>
    obtain ⟨k₁, e⟩ := p
    rw [e1] at hd
    obtain ⟨h1, h2⟩ := of_decide_eq_true hd
    cases e with
    | some x => cases h1
    | none =>
    simp only at h2
    cases e2 : Stock.consumeConsignment World.H World.I World.M World.G World.r World.con ⟨Stock.empty.stash, Stock.empty.state, k₁.index⟩ with
    | none => rw [e2] at h2; cases h2
    | some q =>
      obtain ⟨k₂, e⟩ := q
      rw [e2] at h2
      obtain ⟨h3, h4, h5⟩ := of_decide_eq_true h2
      cases e with
      | some x => cases h3
      | none =>
        exact ⟨k₁, ⟨Stock.empty.stash, k₂.state, k₂.index⟩, rfl,
          .again (.again .never hr e1 (.inr (.inl rfl))) hr e2 (.inr (.inr rfl)), h4, h5, rfl⟩

end Rgb.Props
