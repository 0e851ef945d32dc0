import Verif.Lemmas.ResumeStock
import Verif.Props.StoreTx
import Verif.Props.Receive
import Verif.Spec.StoreCodecs

/-!
C83: an interrupted acceptance can be repeated.
-/

namespace Rgb.Props

open Rgb Stock

variable {H : Commit} {I : Ids} {M : Mpc} {G : SchemaDoc → SchemaGlobals} {k k₁ : Stock}

/-- **C83**, consignments. If a stock accepts a consignment, and the process is stopped while the stores are being written, then whichever of them were written, the stock
loaded afterwards accepts the consignment too, and the result is the same as if nothing were interrupted: in all the cases it is one and the same `k₂`. The resolver
of the second time (`r₂`) may tell other positions of witnesses, as time has passed; if it is the same, then `k₂` is the `k₁` which was to be written.
Missing: the case of an index which has, after the first acceptance, 255 witnesses of a bundle of the consignment or 255 outputs of a hidden seal of it, see
`C83_repeat_fails`. -/
theorem C83_consignment_partial (hH : H.Binding) (hG : ∀ d, OMap.Sorted (G d).maxItems) (hk : k.Reachable H) {con : Consignment} {r₁ r₂ : Resolver}
    (hc : StockEvent.Proper H (.consignment con r₁)) (h : k.consumeConsignment H I M G r₁ con = some (k₁, none))
    (hx : IndexRoom.consignment H k₁.index con) (hr : ∀ wb ∈ con.data.bundles, (r₂ wb.id).isSome = true) :
    ∃ k₂ : Stock, (∀ m, Interrupted k k₁ m → m.consumeConsignment H I M G r₂ con = some (k₂, none)) ∧
      k₂.stash = k₁.stash ∧ k₂.index = k₁.index ∧ (r₂ = r₁ → k₂ = k₁) := by
  obtain ⟨t, h1⟩ := consignment_resume hH hG (hk.hist hH) hc h hx hr
  refine ⟨_, h1, rfl, rfl, ?_⟩
  rintro rfl
  have := h1 k (.inl rfl)
  rw [h] at this
  injection this with this
  injection this with this
  exact this.symm

/-- **C83**, fascias: the same for accepting the own transitions with their witness.
Missing: full sets of the index, as in `C83_consignment_partial`. -/
theorem C83_fascia_partial (hH : H.Binding) (hk : k.Reachable H) {f : Fascia} {r₁ r₂ : Resolver}
    (hc : StockEvent.Proper H (.fascia f r₁)) (h : k.consumeFascia H r₁ f = some (k₁, none))
    (hx : IndexRoom.fascia H k₁.index f) (hr : (r₂ f.witness.id).isSome = true) :
    ∃ k₂ : Stock, (∀ m, Interrupted k k₁ m → m.consumeFascia H r₂ f = some (k₂, none)) ∧
      k₂.stash = k₁.stash ∧ k₂.index = k₁.index ∧ (r₂ = r₁ → k₂ = k₁) := by
  obtain ⟨t, h1⟩ := fascia_resume hH (hk.hist hH) hc h hx hr
  refine ⟨_, h1, rfl, rfl, ?_⟩
  rintro rfl
  have := h1 k (.inl rfl)
  rw [h] at this
  injection this with this
  injection this with this
  exact this.symm

/-- **C83**, crashes. The stock in memory, and on disk, is `k`; it accepts a consignment, and the process is stopped at any event of the disk. If the stores can be loaded afterwards
(if not, see `C35_torn_fails`), then either everything was written, or the consignment can be accepted again, with the same outcome. -/
theorem C83_crash_partial (C : Codecs3 MemStash MemState Index) (hC : C.Lawful) (hH : H.Binding) (hG : ∀ d, OMap.Sorted (G d).maxItems) (hk : k.Reachable H)
    {con : Consignment} {r₁ r₂ : Resolver} (hc : StockEvent.Proper H (.consignment con r₁))
    (h : k.consumeConsignment H I M G r₁ con = some (k₁, none))
    (hx : IndexRoom.consignment H k₁.index con) (hr : ∀ wb ∈ con.data.bundles, (r₂ wb.id).isSome = true)
    (ps : PStock MemStash MemState Index) (hps : ps.cur = k) (f : Stores MemStash MemState Index → Stores MemStash MemState Index × Bool) (hf : f k = (k₁, true)) :
    ∃ k₂ : Stock, ∀ p c, p <+: (PStock.exec C ps (.transact f)).2 → loadStock C ((C.files k).run p) = some c →
      c = k₁ ∨ Stock.consumeConsignment H I M G r₂ con c = some (k₂, none) := by
  obtain ⟨k₂, h1, -⟩ := C83_consignment_partial hH hG hk hc h hx hr
  refine ⟨k₂, fun p c hp hl => ?_⟩
  subst hps
  have := (C35_combinations C hC f ps ps.cur (by rw [hf]) c).mp ⟨p, hp, hl⟩
  rw [hf] at this
  rcases this with rfl | rfl | rfl | rfl
  · exact .inr (h1 _ (.inl rfl))
  · exact .inr (h1 _ (.inr (.inl rfl)))
  · exact .inr (h1 _ (.inr (.inr rfl)))
  · exact .inl rfl

/-! ### A hidden seal with 255 outputs -/

/-- A genesis with 255 assignments to one hidden seal. -/
def exWide : Op := { kind := .genesis, assigns := [(1, ⟨.fungible, List.replicate 255 (.confidentialSeal 6 (.fungible 4 0 0))⟩)] }

noncomputable def exWideH : Commit := tableCommit World.seals World.states [exWide.conceal World.H₀] []

def exWideCon : Consignment := { data := ⟨exWide, [], []⟩, schema := ⟨0⟩ }

theorem exWide_proper (r : Resolver) : StockEvent.Proper exWideH (.consignment exWideCon r) := by
  have s : OMap.Sorted exWide.assigns := List.pairwise_singleton _ _
  refine ⟨⟨rfl, s, by simp [exWideCon], by simp [exWideCon]⟩, by simp [exWideCon], ⟨s, List.Pairwise.nil⟩, by simp [exWideCon], by simp [exWideCon]⟩

/-- The check of the example by evaluation. -/
noncomputable def exWideCheck : Bool :=
  match Stock.empty.consumeConsignment exWideH World.I World.M World.G World.r exWideCon with
  | some (k₁, none) =>
    decide (((OMap.get? k₁.index.terminals 6).getD []).length = 255) &&
    match Stock.consumeConsignment exWideH World.I World.M World.G World.r exWideCon ⟨{}, {}, k₁.index⟩ with
    | some (k₂, some (.body (.index .confinement))) => decide (OMap.get? k₂.index.terminals 6 = none)
    | _ => false
  | _ => false

theorem exWide_check : exWideCheck = true := by decide +kernel

/-- **C83 is false when a limited set of the index is full**: the empty stock accepts a contract with 255 assignments to one hidden seal; the process is stopped after the index
was written; then the same contract is refused, since nothing can be added to a full set, even what is in it. What is more, the refused attempt
removes all the 255 outputs of the seal from the index. -/
theorem C83_repeat_fails : ∃ (k₁ m k₂ : Stock), exWideH.Binding ∧ StockEvent.Proper exWideH (.consignment exWideCon World.r) ∧
    Stock.empty.consumeConsignment exWideH World.I World.M World.G World.r exWideCon = some (k₁, none) ∧
    Interrupted .empty k₁ m ∧
    m.consumeConsignment exWideH World.I World.M World.G World.r exWideCon = some (k₂, some (.body (.index .confinement))) ∧
    ((OMap.get? m.index.terminals 6).getD []).length = 255 ∧ OMap.get? k₂.index.terminals 6 = none := by
  have h := exWide_check
  unfold exWideCheck at h
  split at h
  · rename_i k₁ h1
    rw [Bool.and_eq_true, decide_eq_true_iff] at h
    obtain ⟨h2, h⟩ := h
    split at h
    · rename_i k₂ h3
      exact ⟨k₁, ⟨{}, {}, k₁.index⟩, k₂, tableCommit_binding _ _ _ _, exWide_proper _, h1, .inr (.inl rfl), h3, h2, of_decide_eq_true h⟩
    · cases h
  · cases h

/-! ### The hypotheses are met -/

/-- The check that the index has room. -/
def exRoomOk (k : Stock) : Prop := (∀ e ∈ k.index.bundleWitness, e.2.length < 255) ∧ (∀ e ∈ k.index.terminals, e.2.length < 255)

instance : DecidablePred exRoomOk := fun k => by unfold exRoomOk; infer_instance

theorem exRoomOk.room (h : exRoomOk k) (b s : Nat → Prop) : IndexRoom k.index b s :=
  ⟨fun _ _ _ hg => h.1 _ (OMap.mem_of_get? hg), fun _ _ _ hg => h.2 _ (OMap.mem_of_get? hg)⟩

theorem done_any {ε : Type} {y : Option (Stock × Option ε)} {P : Stock → Prop} [DecidablePred P]
    (h : y.any (fun p => p.2.isNone && decide (P p.1)) = true) : ∃ k', y = some (k', none) ∧ P k' := by
  cases y with
  | none => cases h
  | some p =>
    obtain ⟨k', o⟩ := p
    simp only [Option.any_some, Bool.and_eq_true, Option.isNone_iff_eq_none, decide_eq_true_iff] at h
    obtain ⟨rfl, h⟩ := h
    exact ⟨k', rfl, h⟩

/-- The stock with a contract, its transition and a secret seal accepts the next consignment, which reveals the seal; the state and the index are changed, and there is room. -/
example : ∃ k k₁ : Stock, k.Reachable World.H ∧ World.H.Binding ∧ (∀ d, OMap.Sorted (World.G d).maxItems) ∧
    StockEvent.Proper World.H (.consignment exNextCon World.r) ∧
    k.consumeConsignment World.H World.I World.M World.G World.r exNextCon = some (k₁, none) ∧ IndexRoom.consignment World.H k₁.index exNextCon ∧
    (∀ wb ∈ exNextCon.data.bundles, (World.r wb.id).isSome = true) ∧ k₁.index ≠ k.index ∧ k₁.state ≠ k.state ∧ k₁.stash ≠ k.stash := by
  obtain ⟨k, h1, h2⟩ := World.obtain [.consignment World.con World.r, .secretSeal World.sC] (by
    intro e he
    simp only [List.mem_cons, List.not_mem_nil, or_false] at he
    rcases he with rfl | rfl
    · exact World.con_proper
    · trivial) (fun k => (k.consumeConsignment World.H World.I World.M World.G World.r exNextCon).any
        (fun p => p.2.isNone && decide (exRoomOk p.1 ∧ p.1.index ≠ k.index ∧ p.1.state ≠ k.state ∧ p.1.stash ≠ k.stash)) = true) (by decide +kernel)
  obtain ⟨k₁, h3, h4, h5⟩ := done_any (P := fun k₁ => exRoomOk k₁ ∧ k₁.index ≠ k.index ∧ k₁.state ≠ k.state ∧ k₁.stash ≠ k.stash) h2
  exact ⟨k, k₁, h1, World.H_binding, World.G_sorted, exNext_proper, h3, h4.room _ _, fun _ _ => rfl, h5⟩

/-- There are lawful encodings of the stores, and an operation as in the theorem on crashes. -/
example (k k₁ : Stock) : storeCodecs.Lawful ∧ (fun _ : Stores MemStash MemState Index => (k₁, true)) k = (k₁, true) := ⟨storeCodecs_lawful, rfl⟩

/-- The same for a fascia with two transitions. -/
example : ∃ k k₁ : Stock, k.Reachable World.H ∧ StockEvent.Proper World.H (.fascia World.fascia World.r) ∧
    k.consumeFascia World.H World.r World.fascia = some (k₁, none) ∧ IndexRoom.fascia World.H k₁.index World.fascia ∧
    (World.r World.fascia.witness.id).isSome = true ∧ k₁.index ≠ k.index ∧ k₁.state ≠ k.state ∧ k₁.stash ≠ k.stash := by
  obtain ⟨k, h1, h2⟩ := World.obtain [.consignment World.con World.r] (by
    intro e he
    simp only [List.mem_cons, List.not_mem_nil, or_false] at he
    subst he
    exact World.con_proper) (fun k => (k.consumeFascia World.H World.r World.fascia).any
        (fun p => p.2.isNone && decide (exRoomOk p.1 ∧ p.1.index ≠ k.index ∧ p.1.state ≠ k.state ∧ p.1.stash ≠ k.stash)) = true) (by decide +kernel)
  obtain ⟨k₁, h3, h4, h5⟩ := done_any (P := fun k₁ => exRoomOk k₁ ∧ k₁.index ≠ k.index ∧ k₁.state ≠ k.state ∧ k₁.stash ≠ k.stash) h2
  exact ⟨k, k₁, h1, World.fascia_proper, h3, h4.room _ _, rfl, h5⟩

end Rgb.Props
