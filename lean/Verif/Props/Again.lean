import Verif.Lemmas.AgainStock
import Verif.Props.Resume

/-!
C84: accepting twice is the same as accepting once.
-/

namespace Rgb.Props

open Rgb Stock

variable {H : Commit} {I : Ids} {M : Mpc} {G : SchemaDoc → SchemaGlobals} {k k₁ : Stock}

/-- **C84**, consignments. A stock `k` accepts a consignment and becomes `k₁`. If it gets the same consignment again, it accepts it again, and the outcome `k₂` is the same as if
the consignment were accepted once, with the positions of witnesses known now (`r₂`); the stash and the index don't change at all; if the resolver tells the same,
nothing changes.
Missing: consignments listing one witness twice (see `C84_witness_fails`), and stocks in which a limited collection is full after the first acceptance
(see `C84_full_fails`). It is assumed that a Merkle root has one message for a protocol (`OneTree`), and that signatures are maps (`OneSig`). -/
theorem C84_consignment_partial (hH : H.Binding) (hG : ∀ d, OMap.Sorted (G d).maxItems) (hk : k.Reachable H) {con : Consignment} {r₁ r₂ : Resolver}
    (hc : StockEvent.Proper H (.consignment con r₁)) (h : k.consumeConsignment H I M G r₁ con = some (k₁, none))
    (hr : ∀ wb ∈ con.data.bundles, (r₂ wb.id).isSome = true) (hw : con.data.bundles.Pairwise (fun wb wb' => wb.id ≠ wb'.id))
    (htree : OneTree M k.stash) (hsig : con.OneSig) (hx : IndexRoom.consignment H k₁.index con) (hs : StashRoom k₁.stash con) :
    ∃ k₂ : Stock, k₁.consumeConsignment H I M G r₂ con = some (k₂, none) ∧ k.consumeConsignment H I M G r₂ con = some (k₂, none) ∧
      k₂.stash = k₁.stash ∧ k₂.index = k₁.index ∧ (r₂ = r₁ → k₂ = k₁) := by
  obtain ⟨t, h1, h2⟩ := consignment_again hH hG hk hc h hx hr htree hsig hw hs
  refine ⟨_, h2, h1, rfl, rfl, ?_⟩
  rintro rfl
  rw [h] at h1
  injection h1 with h1
  injection h1 with h1
  exact h1.symm

/-- **C84**, fascias: the same for accepting the own transitions with their witness.
Missing: as for consignments, see `C84_witness_fails` and `C84_full_fails`. -/
theorem C84_fascia_partial (hH : H.Binding) (hk : k.Reachable H) {f : Fascia} {r₁ r₂ : Resolver}
    (hc : StockEvent.Proper H (.fascia f r₁)) (h : k.consumeFascia H r₁ f = some (k₁, none))
    (hr : (r₂ f.witness.id).isSome = true) (htree : SameTrees f.anchor k.stash) (hx : IndexRoom.fascia H k₁.index f) :
    ∃ k₂ : Stock, k₁.consumeFascia H r₂ f = some (k₂, none) ∧ k.consumeFascia H r₂ f = some (k₂, none) ∧
      k₂.stash = k₁.stash ∧ k₂.index = k₁.index ∧ (r₂ = r₁ → k₂ = k₁) := by
  obtain ⟨t, h1, h2⟩ := fascia_again hH hk hc h hx hr htree
  refine ⟨_, h2, h1, rfl, rfl, ?_⟩
  rintro rfl
  rw [h] at h1
  injection h1 with h1
  injection h1 with h1
  exact h1.symm

/-- **C84**, kits: importing a kit again changes nothing.
Missing: as for consignments, see `C84_witness_fails` and `C84_full_fails`. -/
theorem C84_kit_partial (hH : H.Binding) (hk : k.Reachable H) {x : Kit} {s₁ : MemStash} (h : k.stash.consumeKit I x = some (s₁, .ok ()))
    (hc : (x.signatures.map Prod.fst).Nodup) (hsig : ∀ e ∈ x.signatures, (e.2.map Prod.fst).Nodup)
    (hi : ∀ y ∈ x.iimpls, ∀ si, s₁.schema y.schemaId = some si → si.iimpls.length < 255) (hs : ∀ y ∈ x.supplements, (s₁.supplements y.ref).length < 255) :
    s₁.consumeKit I x = some (s₁, .ok ()) :=
  (kit_again hc hsig (hk.stSorted hH) h hi hs).2

/-- **C84**, crashes. The process which was accepting a consignment is stopped at any event of the disk, and the stores can be loaded afterwards. Nobody needs to know how far it
got: the consignment can be accepted again in every case, and the outcome is the same.
Missing: as without crashes, see `C84_witness_fails` and `C84_full_fails`. -/
theorem C84_crash_partial (C : Codecs3 MemStash MemState Index) (hC : C.Lawful) (hH : H.Binding) (hG : ∀ d, OMap.Sorted (G d).maxItems) (hk : k.Reachable H)
    {con : Consignment} {r₁ r₂ : Resolver} (hc : StockEvent.Proper H (.consignment con r₁))
    (h : k.consumeConsignment H I M G r₁ con = some (k₁, none))
    (hr : ∀ wb ∈ con.data.bundles, (r₂ wb.id).isSome = true) (hw : con.data.bundles.Pairwise (fun wb wb' => wb.id ≠ wb'.id))
    (htree : OneTree M k.stash) (hsig : con.OneSig) (hx : IndexRoom.consignment H k₁.index con) (hs : StashRoom k₁.stash con)
    (ps : PStock MemStash MemState Index) (hps : ps.cur = k) (f : Stores MemStash MemState Index → Stores MemStash MemState Index × Bool) (hf : f k = (k₁, true)) :
    ∃ k₂ : Stock, (r₂ = r₁ → k₂ = k₁) ∧ ∀ p c, p <+: (PStock.exec C ps (.transact f)).2 → loadStock C ((C.files k).run p) = some c →
      Stock.consumeConsignment H I M G r₂ con c = some (k₂, none) := by
  obtain ⟨k₂, h1, h2, -, -, h3⟩ := C84_consignment_partial hH hG hk hc h hr hw htree hsig hx hs
  refine ⟨k₂, h3, fun p c hp hl => ?_⟩
  obtain ⟨k₃, g1⟩ := C83_crash_partial C hC hH hG hk hc h hx hr ps hps f hf
  obtain ⟨k₄, g2, -⟩ := C83_consignment_partial hH hG hk hc h hx hr
  subst hps
  have := (C35_combinations C hC f ps ps.cur (by rw [hf]) c).mp ⟨p, hp, hl⟩
  have e : k₄ = k₂ := by
    have := g2 _ (.inl rfl)
    rw [h2] at this
    injection this with this
    injection this with this
    exact this.symm
  subst e
  rw [hf] at this
  rcases this with rfl | rfl | rfl | rfl
  · exact h2
  · exact g2 _ (.inr (.inl rfl))
  · exact g2 _ (.inr (.inr rfl))
  · exact h1

/-! ### When it is false -/

/-- A consignment which lists one witness twice: by its id, then with the transaction. -/
def exTwiceCon : Consignment := World.conOf [] [World.wb (.txid 61) World.b1, World.wb (.tx ⟨61, 0⟩) World.b1]

theorem exTwice_proper : StockEvent.Proper World.H (.consignment exTwiceCon World.r) :=
  World.conOf_proper [] (by simp) [(.txid 61, World.b1), (.tx ⟨61, 0⟩, World.b1)] (by
    intro b hb
    simp only [List.mem_cons, List.not_mem_nil, or_false] at hb
    rcases hb with rfl | rfl <;> exact ⟨World.b1_check, rfl⟩) World.r

/-- **C84 is false for a consignment which lists a witness twice**, first by its id, then with the transaction: it is accepted by the empty stock, and refused when it comes again, as a
stored transaction can't be merged with its id. -/
theorem C84_witness_fails : ∃ k₁ k₂ : Stock, World.H.Binding ∧ StockEvent.Proper World.H (.consignment exTwiceCon World.r) ∧
    Stock.empty.consumeConsignment World.H World.I World.M World.G World.r exTwiceCon = some (k₁, none) ∧
    k₁.consumeConsignment World.H World.I World.M World.G World.r exTwiceCon = some (k₂, some (.body (.stash (.merge (.txidMismatch 61 61))))) := by
  have h : (match Stock.empty.consumeConsignment World.H World.I World.M World.G World.r exTwiceCon with
    | some (k₁, none) =>
      match k₁.consumeConsignment World.H World.I World.M World.G World.r exTwiceCon with
      | some (_, some (.body (.stash (.merge (.txidMismatch 61 61))))) => true
      | _ => false
    | _ => false) = true := by decide +kernel
  split at h
  · rename_i k₁ h1
    split at h
    · rename_i k₂ h2
      exact ⟨k₁, k₂, World.H_binding, exTwice_proper, h1, h2⟩
    · cases h
  · cases h

/-- A consignment with 255 supplements of one object. -/
def exManyCon : Consignment := { World.con with supplements := (List.range 255).map (fun i => ⟨3, i⟩) }

theorem exMany_proper : StockEvent.Proper World.H (.consignment exManyCon World.r) :=
  ⟨⟨World.con_proper.1.1, World.con_proper.1.2, World.con_proper.1.3, World.con_proper.1.4⟩, World.con_proper.2⟩

/-- **C84 is false when a limited collection of the stash is full**: a consignment with 255 supplements of one object is accepted by the empty stock, and refused when it comes
again, since nothing can be added to a full set, even what is in it. -/
theorem C84_full_fails : ∃ k₁ k₂ : Stock, World.H.Binding ∧ StockEvent.Proper World.H (.consignment exManyCon World.r) ∧
    Stock.empty.consumeConsignment World.H World.I World.M World.G World.r exManyCon = some (k₁, none) ∧
    k₁.consumeConsignment World.H World.I World.M World.G World.r exManyCon = some (k₂, some (.body (.stash .confinement))) := by
  have h : (match Stock.empty.consumeConsignment World.H World.I World.M World.G World.r exManyCon with
    | some (k₁, none) =>
      match k₁.consumeConsignment World.H World.I World.M World.G World.r exManyCon with
      | some (_, some (.body (.stash .confinement))) => true
      | _ => false
    | _ => false) = true := by decide +kernel
  split at h
  · rename_i k₁ h1
    split at h
    · rename_i k₂ h2
      exact ⟨k₁, k₂, World.H_binding, exMany_proper, h1, h2⟩
    · cases h
  · cases h

/-! ### The hypotheses are met -/

/-- Merkle blocks of trees with one message: the root tells which. -/
def exTreeM : Mpc where
  block _ c b := some (b + 1, [(c, b)])

def exTree : Nat → Nat → Option Nat := fun root _ => some (root - 1)

def exInTree (a : Anchor) : Prop := (OMap.keys a.known).Pairwise (fun x y => Key.lt x y = true) ∧ ∀ e ∈ a.known, a.root - 1 = e.2

theorem exInTree.in {a : Anchor} (h : exInTree a) : a.In exTree :=
  ⟨h.1, fun p m hm => by have := h.2 _ (OMap.mem_of_get? hm); simp only [exTree, this]⟩

/-- The parts of the hypotheses which can be checked by evaluation. -/
def exAgainOk (con : Consignment) (k k₁ : Stock) : Prop :=
  (∀ e ∈ k.stash.witnesses, match e.2.anchors with | .opret a => exInTree a | .tapret a => exInTree a | .double a b => exInTree a ∧ exInTree b) ∧
  exRoomOk k₁ ∧ k₁.stash.geneses.length < 255 ∧ (∀ e ∈ k₁.stash.schemata, e.2.iimpls.length < 255) ∧
  (∀ x ∈ con.supplements, (k₁.stash.supplements x.ref).length < 255) ∧ k₁.index ≠ k.index ∧ k₁.state ≠ k.state ∧ k₁.stash ≠ k.stash

instance (a : Anchor) : Decidable (exInTree a) := by unfold exInTree; infer_instance

instance (con : Consignment) (k k₁ : Stock) : Decidable (exAgainOk con k k₁) := by
  unfold exAgainOk
  have : DecidablePred (fun e : WitnessId × SealWitness => match e.2.anchors with | .opret a => exInTree a | .tapret a => exInTree a | .double a b => exInTree a ∧ exInTree b) :=
    fun e => by dsimp only; split <;> infer_instance
  infer_instance

theorem exAgainOk.tree {con : Consignment} {k k₁ : Stock} (h : exAgainOk con k k₁) (w : WitnessId) (sw : SealWitness) (hw : k.stash.witness w = some sw) : sw.anchors.In exTree := by
  have := h.1 _ (OMap.mem_of_get? hw)
  simp only at this
  split at this
  · rename_i e; rw [e]; exact this.in
  · rename_i e; rw [e]; exact this.in
  · rename_i e; rw [e]; exact ⟨this.1.in, this.2.in⟩

/-- The next consignment of the example world, with a supplement, a signature and an attachment. -/
def exRichCon : Consignment := { exNextCon with supplements := [⟨3, 1⟩], signatures := [(7, [(1, 5), (2, 6)])], attachments := [(9, 8)] }

theorem exRich_proper : StockEvent.Proper World.H (.consignment exRichCon World.r) :=
  ⟨⟨exNext_proper.1.1, exNext_proper.1.2, exNext_proper.1.3, exNext_proper.1.4⟩, exNext_proper.2⟩

/-- The stock with a contract, its transition and a secret seal accepts the next consignment, which changes all the stores, and all the conditions are met. -/
example : ∃ k k₁ : Stock, k.Reachable World.H ∧ StockEvent.Proper World.H (.consignment exRichCon World.r) ∧
    k.consumeConsignment World.H World.I exTreeM World.G World.r exRichCon = some (k₁, none) ∧ (∀ wb ∈ exRichCon.data.bundles, (World.r wb.id).isSome = true) ∧
    exRichCon.data.bundles.Pairwise (fun wb wb' => wb.id ≠ wb'.id) ∧ OneTree exTreeM k.stash ∧ exRichCon.OneSig ∧ IndexRoom.consignment World.H k₁.index exRichCon ∧
    StashRoom k₁.stash exRichCon ∧ k₁.index ≠ k.index ∧ k₁.state ≠ k.state ∧ k₁.stash ≠ k.stash := by
  have h : (runStock World.H World.I exTreeM World.G [.consignment World.con World.r, .secretSeal World.sC] .empty).any (fun k =>
    (k.consumeConsignment World.H World.I exTreeM World.G World.r exRichCon).any (fun p => p.2.isNone && decide (exAgainOk exRichCon k p.1))) = true := by decide +kernel
  cases e : runStock World.H World.I exTreeM World.G [.consignment World.con World.r, .secretSeal World.sC] .empty with
  | none => rw [e] at h; cases h
  | some k =>
    rw [e] at h
    simp only [Option.any_some] at h
    obtain ⟨k₁, h3, h4⟩ := done_any (P := fun k₁ => exAgainOk exRichCon k k₁) h
    refine ⟨k, k₁, ⟨World.I, exTreeM, World.G, _, World.G_sorted, ?_, e⟩, exRich_proper, h3, fun _ _ => rfl, by decide +kernel, ⟨exTree, ?_, h4.tree⟩, ⟨by decide, by decide⟩,
      h4.2.1.room _ _, ⟨h4.2.2.1, fun x _ si hsi => h4.2.2.2.1 _ (OMap.mem_of_get? hsi), h4.2.2.2.2.1⟩, h4.2.2.2.2.2⟩
    · intro e he
      simp only [List.mem_cons, List.not_mem_nil, or_false] at he
      rcases he with rfl | rfl
      · exact World.con_proper
      · trivial
    · intro proof p m root known hb
      cases hb
      refine ⟨List.pairwise_singleton _ _, fun q n hq => ?_⟩
      have := OMap.mem_of_get? hq
      simp only [List.mem_singleton, Prod.mk.injEq] at this
      simp only [exTree, this.2, Nat.add_sub_cancel]

/-- A fascia with two transitions, with anchors of such a tree. -/
def exFascia : Fascia := ⟨⟨.bitcoin, .tx ⟨62, 0⟩⟩, .opret ⟨0, 3, [(0, 2)]⟩, [(0, World.b2)]⟩

example : ∃ k k₁ : Stock, k.Reachable World.H ∧ StockEvent.Proper World.H (.fascia exFascia World.r) ∧
    k.consumeFascia World.H World.r exFascia = some (k₁, none) ∧ (World.r exFascia.witness.id).isSome = true ∧ SameTrees exFascia.anchor k.stash ∧
    IndexRoom.fascia World.H k₁.index exFascia ∧ k₁.index ≠ k.index ∧ k₁.state ≠ k.state ∧ k₁.stash ≠ k.stash := by
  have h : (runStock World.H World.I exTreeM World.G [.consignment World.con World.r] .empty).any (fun k =>
    (k.consumeFascia World.H World.r exFascia).any (fun p => p.2.isNone && decide (exAgainOk World.con k p.1))) = true := by decide +kernel
  cases e : runStock World.H World.I exTreeM World.G [.consignment World.con World.r] .empty with
  | none => rw [e] at h; cases h
  | some k =>
    rw [e] at h
    simp only [Option.any_some] at h
    obtain ⟨k₁, h3, h4⟩ := done_any (P := fun k₁ => exAgainOk World.con k k₁) h
    refine ⟨k, k₁, ⟨World.I, exTreeM, World.G, _, World.G_sorted, ?_, e⟩, ?_, h3, rfl, ⟨exTree, exInTree.in (by decide), h4.tree⟩, h4.2.1.room _ _, h4.2.2.2.2.2⟩
    · intro e he
      simp only [List.mem_cons, List.not_mem_nil, or_false] at he
      subst he
      exact World.con_proper
    · intro e he
      simp only [exFascia, List.mem_singleton] at he
      subst he
      exact ⟨World.b2_check.wf, World.b2_check.proper⟩

/-- A kit with all kinds of documents. -/
def exAgainKit : Kit where
  ifaces := [⟨7, [], 0⟩]
  schemata := [⟨0⟩]
  iimpls := [⟨10, 20, 0⟩]
  supplements := [⟨3, 1⟩]
  types := [1]
  scripts := [5]
  signatures := [(7, [(1, 5)])]

example : ∃ s₁, Stock.empty.stash.consumeKit World.I exAgainKit = some (s₁, .ok ()) ∧ (exAgainKit.signatures.map Prod.fst).Nodup ∧
    (∀ e ∈ exAgainKit.signatures, (e.2.map Prod.fst).Nodup) ∧ (∀ y ∈ exAgainKit.iimpls, ∀ si, s₁.schema y.schemaId = some si → si.iimpls.length < 255) ∧
    (∀ y ∈ exAgainKit.supplements, (s₁.supplements y.ref).length < 255) ∧ s₁ ≠ {} := by
  refine ⟨_, rfl, by decide, by decide, ?_, by decide, by decide⟩
  intro y hy si hsi
  simp only [exAgainKit, List.mem_singleton] at hy
  subst hy
  cases hsi
  decide

end Rgb.Props
