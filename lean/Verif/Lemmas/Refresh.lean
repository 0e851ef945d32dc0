import Verif.Props.Agree

/-!
Lemmas for C104.
-/

namespace Rgb

open Stock Index Props

variable {E : CEnv} {n : Nat} {M : Mpc} {G : SchemaDoc → SchemaGlobals} {L : Ledger} {es : List StockEvent} {k : Stock}

theorem Had.append {H : Commit} {c : Nat} {t : Op} {w : Option WitnessId} (h : Had H es c t w) (es' : List StockEvent) : Had H (es ++ es') c t w := by
  cases h with
  | genesis con r he => exact .genesis con r (List.mem_append_left _ he)
  | extension con r t wb he ht hw => exact .extension con r t wb (List.mem_append_left _ he) ht hw
  | transition e _ b w _ he hb ht => exact .transition e _ b w _ (List.mem_append_left _ he) hb ht

/-- What is listed has a valid witness, and it's the one which the operation came with. -/
theorem listed_valid (hE : E.Lawful n) (hT : E.TagMaps) (hTC : E.TagsCommitted) (hH : E.H.Binding) (hM : M.Lawful) (hG : ∀ d, OMap.Sorted (G d).maxItems)
    (hI : Ids.Lawful E.H E.I) (hSR : E.S.Restores M) (hO : L.Once) (h : Honest E M G L es k) {c : Nat} {t : Op} {w : Option WitnessId} (ht : Had E.H es c t w)
    {v : ContractView} {kind : StateKind} {a : OutAssign} (hid : a.opout.op = t.id E.H) (hv : k.state.contractState c = .ok v) (ha : a ∈ v.all kind) : k.state.Valid w := by
  have hs := h.sane hE hT hTC hH hM hG hI
  obtain ⟨ses, h4, h5⟩ := (Stock.Reachable.hist hH (hs.reachable hG)).state
  have hval := ((mem_all_iff (runSt_inv h4 stInv_empty h5) hv kind a).1 ha).2
  obtain ⟨t₁, w₁, h1, h2⟩ := C96_assignments hH hG (fun e he => (hs.furnished.sound e he).proper) (allDone_run _ hs.done) hv (List.mem_filter.1 ha).1
  obtain rfl := one_witness hE hT hTC hH hM hG hI hSR hO h h ht h1 (hid.symm.trans h2.1)
  rw [← h2.2.1]
  exact hval

/-- After all witnesses were updated, a witness which came with an operation is valid if the resolver says so. -/
theorem refreshed_valid (hE : E.Lawful n) (hT : E.TagMaps) (hTC : E.TagsCommitted) (hH : E.H.Binding) (hM : M.Lawful) (hG : ∀ d, OMap.Sorted (G d).maxItems)
    (hI : Ids.Lawful E.H E.I) (h : Honest E M G L es k) {r : Resolver} {after : Nat} (haft : after ≤ 1)
    (hh : ∀ w h rest, OMap.get? k.state.witnesses w = some (.mined h rest) → 0 < h) {c : Nat} {t : Op} {w : Option WitnessId} (ht : Had E.H es c t w)
    (hr : ∀ x, w = some x → ∃ ord, r x = some ord) : (k.state.updateWitnesses r after).1.Valid w ↔ ∀ x, w = some x → r x ≠ some .archived := by
  have hs := h.sane hE hT hTC hH hM hG hI
  cases hw : w with
  | none => constructor
            · intro _ x hx; cases hx
            · intro _; trivial
  | some w₁ =>
    subst hw
    have hsort : OMap.Sorted k.state.witnesses := by
      obtain ⟨ses, h4, h5⟩ := (Stock.Reachable.hist hH (hs.reachable hG)).state
      exact (runSt_inv h4 stInv_empty h5).witnesses
    obtain ⟨-, h3, -⟩ := C25_update_witnesses_partial k.state hsort hh r after
    have hknown : ∃ ord, OMap.get? k.state.witnesses w₁ = some ord := by
      cases ht with
      | extension con r t wb he ht hw => rw [hs.furnished.noExtensions con r he] at ht; cases ht
      | transition e _ b _ _ he hb htk =>
        obtain ⟨k₂, hh'⟩ := (complete_facts hH hM hG hs.furnished hs.done).has e he
        exact OMap.contains_iff.mp (hh'.st.wit c _ _ _ ⟨b, hb, rfl, rfl⟩)
    obtain ⟨o, ho⟩ := hknown
    obtain ⟨ord, hord⟩ := hr w₁ rfl
    have h4 := h3 w₁ ⟨o, ho, fun h rest e => by subst e; exact Nat.le_trans haft (hh _ _ _ ho)⟩ ord hord
    show (∃ ord, OMap.get? (k.state.updateWitnesses r after).1.witnesses w₁ = some ord ∧ ord ≠ .archived) ↔ _
    rw [h4]
    constructor
    · rintro ⟨_, e, h5⟩ x hx hx'
      cases e; cases hx
      rw [hord] at hx'
      cases hx'
      exact h5 rfl
    · intro h5
      exact ⟨ord, rfl, fun e => h5 w₁ rfl (e ▸ hord)⟩

end Rgb
