import Verif.Lemmas.ReceiveState

/-!
When the stash takes a consignment.
-/

namespace Rgb
open MemStash

/-- A loop of which each step succeeds. -/
theorem each_ok {α β : Type} {Φ : List α → MemStash → Prop} {f : MemStash → α → SR β}
    (hf : ∀ a l s, Φ (a :: l) s → ∃ t b, f s a = some (t, .ok b) ∧ Φ l t) (l : List α) (s : MemStash) (h : Φ l s) :
    ∃ t, SR.each f l s = some (t, .ok ()) ∧ Φ [] t := by
  induction l generalizing s with
  | nil => exact ⟨s, rfl, h⟩
  | cons a l ih =>
    obtain ⟨t, b, h1, h2⟩ := hf a l s h
    obtain ⟨u, h3, h4⟩ := ih t h2
    exact ⟨u, by simp only [SR.each, h1, SR.bind, h3], h4⟩

/-- The parts which operations, bundles and witnesses don't change. -/
structure Frame (s t : MemStash) : Prop where
  schemata : t.schemata = s.schemata
  ifaces : t.ifaces = s.ifaces
  suppl : t.suppl = s.suppl

theorem Frame.refl (s : MemStash) : Frame s s := ⟨rfl, rfl, rfl⟩
theorem Frame.trans {s t u : MemStash} (a : Frame s t) (b : Frame t u) : Frame s u :=
  ⟨b.1.trans a.1, b.2.trans a.2, b.3.trans a.3⟩

variable {H : Commit}

theorem genesis_ok (hH : H.Binding) {s : MemStash} (hs : s.Good H) {g : Op} (hk : g.kind = .genesis) (hw : g.WF)
    (hl : s.geneses.length < 255) :
    ∃ t b, s.consumeGenesis H g = some (t, .ok b) ∧ t.Good H ∧ Frame s t ∧ t.witnesses = s.witnesses := by
  have hput : ∀ g' : Op, ∃ t b, s.replaceGenesis H g' = some (t, .ok b) ∧ Frame s t ∧ t.witnesses = s.witnesses := by
    intro g'
    have hl' : ¬ s.geneses.length ≥ tinyMax := by simp only [tinyMax]; omega
    simp only [replaceGenesis, if_neg hl']
    exact ⟨_, _, rfl, ⟨rfl, rfl, rfl⟩, rfl⟩
  suffices ∃ t b, s.consumeGenesis H g = some (t, .ok b) ∧ Frame s t ∧ t.witnesses = s.witnesses by
    obtain ⟨t, b, h1, h2⟩ := this
    exact ⟨t, b, h1, ((step_consumeGenesis hH s hs g hk hw).1 _ _ h1).1, h2⟩
  cases ho : s.genesis (g.contractId H) with
  | none => simp only [consumeGenesis, ho]; exact hput g
  | some old =>
    obtain ⟨h1, h2, h3⟩ := hs.genesis _ old ho
    have hid : old.id H = g.id H := by simpa [Op.contractId, h2, hk] using h1
    simp only [consumeGenesis, ho, Op.merge_eq hH hid h3]
    exact hput _

theorem extension_ok (hH : H.Binding) {s : MemStash} (hs : s.Good H) {g : Op} (hw : g.WF) :
    ∃ t b, s.consumeExtension H g = some (t, .ok b) ∧ t.Good H ∧ Frame s t ∧ t.witnesses = s.witnesses := by
  suffices ∃ t b, s.consumeExtension H g = some (t, .ok b) ∧ Frame s t ∧ t.witnesses = s.witnesses by
    obtain ⟨t, b, h1, h2⟩ := this
    exact ⟨t, b, h1, ((step_consumeExtension hH s hs g hw).1 _ _ h1).1, h2⟩
  cases ho : s.extension (g.id H) with
  | none => simp only [consumeExtension, ho]; exact ⟨_, _, rfl, ⟨rfl, rfl, rfl⟩, rfl⟩
  | some old =>
    obtain ⟨h1, h3⟩ := hs.extension _ old ho
    simp only [consumeExtension, ho, Op.merge_eq hH h1 h3]
    exact ⟨_, _, rfl, ⟨rfl, rfl, rfl⟩, rfl⟩

theorem bundle_ok (hH : H.Binding) {s : MemStash} (hs : s.Good H) {g : Bundle} (hw : g.WF H) :
    ∃ t b, s.consumeBundle H g = some (t, .ok b) ∧ t.Good H ∧ Frame s t ∧ t.witnesses = s.witnesses := by
  suffices ∃ t b, s.consumeBundle H g = some (t, .ok b) ∧ Frame s t ∧ t.witnesses = s.witnesses by
    obtain ⟨t, b, h1, h2⟩ := this
    exact ⟨t, b, h1, ((step_consumeBundle hH s hs g hw).1 _ _ h1).1, h2⟩
  cases ho : s.bundle (g.id H) with
  | none => simp only [consumeBundle, ho]; exact ⟨_, _, rfl, ⟨rfl, rfl, rfl⟩, rfl⟩
  | some old =>
    obtain ⟨h1, h3⟩ := hs.bundle _ old ho
    obtain ⟨r, hr, -⟩ := bundle_merge_eq hH h3 hw
    simp only [consumeBundle, ho, hr]
    exact ⟨_, _, rfl, ⟨rfl, rfl, rfl⟩, rfl⟩

/-- The anchors which the bundles give. -/
def anchorsOf (H : Commit) (M : Mpc) (c : Nat) (l : List ClientBundle) : List (CloseMethod × Anchor) :=
  l.map (fun x => (x.dbc.method, match M.block x.mpc c (x.bundle.id H) with
    | some p => ⟨x.dbc.data, p.1, p.2⟩
    | none => ⟨x.dbc.data, 0, []⟩))

theorem anchored_ok (hH : H.Binding) {M : Mpc} {c : Nat} (l : List ClientBundle) {s : MemStash} (hs : s.Good H)
    (hl : ∀ x ∈ l, x.bundle.WF H ∧ (M.block x.mpc c (x.bundle.id H)).isSome = true) :
    ∃ t, consumeAnchored H M c l s = some (t, .ok (anchorsOf H M c l)) ∧ t.Good H ∧ Frame s t ∧ t.witnesses = s.witnesses := by
  induction l generalizing s with
  | nil => exact ⟨s, rfl, hs, .refl s, rfl⟩
  | cons x l ih =>
    obtain ⟨h1, h2⟩ := hl x (by simp)
    obtain ⟨t, b, t1, t2, t3, t4⟩ := bundle_ok hH hs h1
    obtain ⟨u, u1, u2, u3, u4⟩ := ih t2 (fun y hy => hl y (by simp [hy]))
    obtain ⟨p, hp⟩ := Option.isSome_iff_exists.mp h2
    refine ⟨u, ?_, u2, t3.trans u3, u4.trans t4⟩
    simp only [consumeAnchored, t1, SR.bind, hp, u1]
    simp [anchorsOf, hp]

/-- A witness which can be merged. -/
theorem witness_ok {s : MemStash} (hs : s.Good H) {w : SealWitness}
    (h1 : ∀ sw, s.witness w.id = some sw → sw.pub.pub.tx? = none ∨ w.pub.pub.tx?.isSome = true)
    (h2 : ∀ sw, s.witness w.id = some sw → ∃ r, sw.anchors.merge w.anchors = .ok r) :
    ∃ t b, s.consumeWitness w = some (t, .ok b) ∧ t.Good H ∧ Frame s t ∧ ∀ i, i ≠ w.id → t.witness i = s.witness i := by
  suffices ∃ t b, s.consumeWitness w = some (t, .ok b) ∧ Frame s t ∧ ∀ i, i ≠ w.id → t.witness i = s.witness i by
    obtain ⟨t, b, e1, e2⟩ := this
    exact ⟨t, b, e1, ((step_consumeWitness s hs w).1 _ _ e1).1, e2⟩
  have put : ∀ w' : SealWitness, w'.id = w.id → ∃ t b, s.replaceWitness w' = some (t, .ok b) ∧ Frame s t ∧
      ∀ i, i ≠ w.id → t.witness i = s.witness i := by
    intro w' hw'
    refine ⟨_, _, rfl, ⟨rfl, rfl, rfl⟩, fun i hi => ?_⟩
    simp only [witness, OMap.get?_insert, hw', if_neg hi]
  cases ho : s.witness w.id with
  | none => simp only [consumeWitness, ho]; exact put w rfl
  | some sw =>
    have hid : sw.pub.id = w.pub.id := hs.witness _ sw ho
    obtain ⟨p, hp⟩ := (Props.C16_witness_merge_partial sw.pub w.pub).1.mpr ⟨hid, fun hx => by
      rcases h1 sw ho with h | h
      · rw [h] at hx; cases hx
      · exact h⟩
    obtain ⟨r, hr⟩ := h2 sw ho
    simp only [consumeWitness, ho, hp, hr]
    exact put _ (by simpa [SealWitness.id] using ((Props.C16_witness_merge_partial sw.pub w.pub).2 p hp).2.1)

/-- What bundles of a witness give. -/
theorem anchorSet_ok {M : Mpc} {c : Nat} {w : WitnessBundle} (hw : w.WF)
    (hm : ∀ x ∈ w.anchored.list, x.dbc.method = x.bundle.closeMethod) :
    ∃ a, anchorSetOf (anchorsOf H M c w.anchored.list) = some a ∧
      ∀ m y, Stock.anchorOf a m = some y → (m, y) ∈ anchorsOf H M c w.anchored.list := by
  obtain ⟨p, a⟩ := w
  cases a with
  | tapret x =>
    have h := (hm x (by simp [AnchoredBundles.list])).trans hw
    simp only [AnchoredBundles.list, anchorsOf, List.map_cons, List.map_nil, h]
    exact ⟨_, rfl, fun m y hy => by cases m <;> simp_all [Stock.anchorOf]⟩
  | opret x =>
    have h := (hm x (by simp [AnchoredBundles.list])).trans hw
    simp only [AnchoredBundles.list, anchorsOf, List.map_cons, List.map_nil, h]
    exact ⟨_, rfl, fun m y hy => by cases m <;> simp_all [Stock.anchorOf]⟩
  | double x z =>
    have h := (hm x (by simp [AnchoredBundles.list])).trans hw.1
    have h' := (hm z (by simp [AnchoredBundles.list])).trans hw.2
    simp only [AnchoredBundles.list, anchorsOf, List.map_cons, List.map_nil, h, h']
    exact ⟨_, rfl, fun m y hy => by cases m <;> simp_all [Stock.anchorOf]⟩

theorem merge_of_anchorOf {a b : AnchorSet}
    (h : ∀ m x y, Stock.anchorOf a m = some x → Stock.anchorOf b m = some y → x.proof = y.proof ∧ x.root = y.root) :
    ∃ r, a.merge b = .ok r := by
  refine Props.C17_anchors_merge_total a b (fun x y hx hy => h .tapretFirst x y ?_ ?_) (fun x y hx hy => h .opretFirst x y ?_ ?_)
  · cases a <;> simp_all [Props.tapretOf, Stock.anchorOf]
  · cases b <;> simp_all [Props.tapretOf, Stock.anchorOf]
  · cases a <;> simp_all [Props.opretOf, Stock.anchorOf]
  · cases b <;> simp_all [Props.opretOf, Stock.anchorOf]

theorem witnessBundle_ok (hH : H.Binding) {M : Mpc} {c : Nat} {w : WitnessBundle} {s : MemStash} (hs : s.Good H) (hw : w.WF)
    (hl : ∀ x ∈ w.anchored.list, x.bundle.WF H ∧ x.dbc.method = x.bundle.closeMethod ∧ (M.block x.mpc c (x.bundle.id H)).isSome = true)
    (ha : ∀ sw, s.witness w.id = some sw → (sw.pub.pub.tx? = none ∨ w.pub.pub.tx?.isSome = true) ∧
      ∀ x ∈ w.anchored.list, ∀ p, M.block x.mpc c (x.bundle.id H) = some p →
        ∀ a, Stock.anchorOf sw.anchors x.dbc.method = some a → a.proof = x.dbc.data ∧ a.root = p.1) :
    ∃ t b, consumeWitnessBundle H M c s w = some (t, .ok b) ∧ t.Good H ∧ Frame s t ∧ ∀ i, i ≠ w.id → t.witness i = s.witness i := by
  obtain ⟨t, t1, t2, t3, t4⟩ := anchored_ok hH w.anchored.list hs (fun x hx => ⟨(hl x hx).1, (hl x hx).2.2⟩)
  obtain ⟨a, a1, a2⟩ := anchorSet_ok (H := H) (M := M) (c := c) hw (fun x hx => (hl x hx).2.1)
  have hwit : ∀ i, t.witness i = s.witness i := fun i => by simp only [witness, t4]
  obtain ⟨u, b, u1, u2, u3, u4⟩ := witness_ok (w := ⟨w.pub, a⟩) t2 (fun sw h => (ha sw (hwit _ ▸ h)).1) (fun sw h => by
    refine merge_of_anchorOf (fun m x y hx hy => ?_)
    obtain ⟨z, z1, z2⟩ := List.mem_map.mp (a2 m y hy)
    obtain ⟨p, hp⟩ := Option.isSome_iff_exists.mp (hl z z1).2.2
    simp only [hp, Prod.mk.injEq] at z2
    obtain ⟨rfl, rfl⟩ := z2
    exact (ha sw (hwit _ ▸ h)).2 z z1 p hp x hx)
  refine ⟨u, b, ?_, u2, t3.trans u3, fun i hi => (u4 i hi).trans (hwit i)⟩
  simp only [consumeWitnessBundle, t1, SR.bind, a1, u1]

/-! Kits -/

theorem libs_ok {I : Ids} (l : List Nat) (s : MemStash) : ∃ t, SR.each (replaceLib I) l s = some (t, .ok ()) ∧ Frame s t :=
  each_ok (Φ := fun _ t => Frame s t) (fun a _ t h => (show ∃ u b, t.replaceLib I a = some (u, .ok b) ∧ Frame s u from by simp only [replaceLib, replaceAttachment]; exact ⟨_, _, rfl, h.trans ⟨rfl, rfl, rfl⟩⟩)) l s (.refl s)

theorem attachments_ok (l : List (Nat × Nat)) (s : MemStash) :
    ∃ t, SR.each (fun s a => s.replaceAttachment a.1 a.2) l s = some (t, .ok ()) ∧ Frame s t :=
  each_ok (Φ := fun _ t => Frame s t) (fun a _ t h => (show ∃ u b, t.replaceAttachment a.1 a.2 = some (u, .ok b) ∧ Frame s u from by simp only [replaceLib, replaceAttachment]; exact ⟨_, _, rfl, h.trans ⟨rfl, rfl, rfl⟩⟩)) l s (.refl s)

theorem schema_ok {I : Ids} {s : MemStash} {d : SchemaDoc} (h : OMap.contains s.schemata (I.schema d) = true ∨ s.schemata.length < 255) :
    ∃ t b, s.replaceSchema I d = some (t, .ok b) ∧ t.ifaces = s.ifaces ∧ t.suppl = s.suppl ∧
      ∃ si, t.schema (I.schema d) = some si ∧ (s.schema (I.schema d) = some si ∨ si.iimpls = []) := by
  simp only [replaceSchema]
  by_cases hc : OMap.contains s.schemata (I.schema d) = true
  · rw [if_pos hc]
    obtain ⟨si, hsi⟩ := OMap.contains_iff.mp hc
    exact ⟨_, _, rfl, rfl, rfl, si, hsi, .inl hsi⟩
  · have hl : ¬ s.schemata.length ≥ tinyMax := by
      rcases h with h | h
      · exact absurd h hc
      · simp only [tinyMax]; omega
    rw [if_neg hc, if_neg hl]
    exact ⟨_, _, rfl, rfl, rfl, ⟨d, []⟩, by simp [schema], .inr rfl⟩

theorem ifaces_ok {I : Ids} (l : List IfaceDoc) (s : MemStash) (h : s.ifaces.length + l.length ≤ 255) :
    ∃ t, SR.each (replaceIface I) l s = some (t, .ok ()) ∧ t.schemata = s.schemata ∧ t.suppl = s.suppl ∧
      ∀ d ∈ l, OMap.contains t.ifaces (I.iface d) = true := by
  induction l generalizing s with
  | nil => exact ⟨s, rfl, rfl, rfl, by simp⟩
  | cons d l ih =>
    have keep : ∀ (s : MemStash) t, SR.each (replaceIface I) l s = some (t, .ok ()) → OMap.contains s.ifaces (I.iface d) = true →
        OMap.contains t.ifaces (I.iface d) = true := by
      intro s t ht hs
      refine each_keeps (Φ := fun s => OMap.contains s.ifaces (I.iface d) = true) l (fun a _ s t r hs h => ?_) s t _ hs ht
      simp only [replaceIface] at h
      split at h
      · cases h; exact hs
      · split at h
        · cases h; exact hs
        · cases h
          obtain ⟨y, hy⟩ := OMap.contains_iff.mp hs
          refine OMap.contains_iff.mpr ?_
          simp only [OMap.get?_insert]
          split
          · exact ⟨_, rfl⟩
          · exact ⟨y, hy⟩
    have step : ∃ t b, s.replaceIface I d = some (t, .ok b) ∧ t.schemata = s.schemata ∧ t.suppl = s.suppl ∧
        OMap.contains t.ifaces (I.iface d) = true ∧ t.ifaces.length ≤ s.ifaces.length + 1 := by
      simp only [replaceIface]
      by_cases hc : OMap.contains s.ifaces (I.iface d) = true
      · rw [if_pos hc]; exact ⟨_, _, rfl, rfl, rfl, hc, by omega⟩
      · have hl : ¬ s.ifaces.length ≥ tinyMax := by simp only [tinyMax]; simp only [List.length_cons] at h; omega
        rw [if_neg hc, if_neg hl]
        exact ⟨_, _, rfl, rfl, rfl, OMap.contains_iff.mpr ⟨d, by simp⟩, Stock.length_insert_le _ _ _⟩
    obtain ⟨t, b, t1, t2, t3, t4, t5⟩ := step
    obtain ⟨u, u1, u2, u3, u4⟩ := ih t (by simp only [List.length_cons] at h; omega)
    refine ⟨u, by simp only [SR.each, t1, SR.bind, u1], u2.trans t2, u3.trans t3, fun x hx => ?_⟩
    rcases List.mem_cons.mp hx with rfl | hx
    · exact keep _ _ u1 t4
    · exact u4 x hx

theorem iimpls_ok (σ : Nat) (l : List IimplDoc) (s : MemStash) (h : ∀ x ∈ l, x.schemaId = σ ∧ OMap.contains s.ifaces x.ifaceId = true)
    (hs : ∃ si, s.schema σ = some si ∧ si.iimpls.length + l.length ≤ 255) :
    ∃ t, SR.each replaceIimpl l s = some (t, .ok ()) ∧ t.suppl = s.suppl := by
  refine (each_ok (Φ := fun l t => t.suppl = s.suppl ∧ (∀ x ∈ l, x.schemaId = σ ∧ OMap.contains t.ifaces x.ifaceId = true) ∧
    ∃ si, t.schema σ = some si ∧ si.iimpls.length + l.length ≤ 255) (fun x l t ht => ?_) l s ⟨rfl, h, hs⟩).imp fun _ h => ⟨h.1, h.2.1⟩
  · obtain ⟨t1, t2, si, t3, t4⟩ := ht
    obtain ⟨e1, e2⟩ := t2 x (by simp)
    obtain ⟨d, hd⟩ := OMap.contains_iff.mp e2
    simp only [schema] at t3
    have hl : ¬ si.iimpls.length ≥ tinyMax := by simp only [tinyMax]; simp only [List.length_cons] at t4; omega
    simp only [replaceIimpl, e1, t3, hd, if_neg hl]
    refine ⟨_, _, rfl, t1, fun y hy => t2 y (by simp [hy]), _, by simp [schema]; rfl, ?_⟩
    have := Stock.length_insert_le si.iimpls d.name x
    simp only [List.length_cons] at t4
    simp only
    omega

theorem suppl_ok (l : List SupplDoc) (s : MemStash) (h1 : s.suppl.length + l.length ≤ 255)
    (h2 : ∀ i, (s.supplements i).length + l.length ≤ 255) : ∃ t, SR.each addSupplement l s = some (t, .ok ()) := by
  refine (each_ok (Φ := fun l t => t.suppl.length + l.length ≤ 255 ∧ ∀ i, (t.supplements i).length + l.length ≤ 255)
    (fun x l t ht => ?_) l s ⟨h1, h2⟩).imp fun _ h => h.1
  · obtain ⟨t1, t2⟩ := ht
    simp only [List.length_cons] at t1 t2
    have t2x := t2 x.ref
    simp only [addSupplement]
    cases hx : OMap.get? t.suppl x.ref with
    | none =>
      have hl : ¬ t.suppl.length ≥ tinyMax := by simp only [tinyMax]; omega
      simp only [if_neg hl]
      refine ⟨_, _, rfl, ?_, fun i => ?_⟩
      · have := Stock.length_insert_le t.suppl x.ref [x]; simp only; omega
      · have := t2 i
        simp only [supplements, OMap.get?_insert] at this ⊢
        split
        · simp only [Option.getD_some, List.length_cons, List.length_nil]; omega
        · omega
    | some m =>
      simp only [supplements, hx, Option.getD_some] at t2x
      have hl : ¬ m.length ≥ tinyMax := by simp only [tinyMax]; omega
      simp only [tinyPush, if_neg hl]
      refine ⟨_, _, rfl, ?_, fun i => ?_⟩
      · have := Stock.length_insert_le t.suppl x.ref (OSet.insert m x); simp only; omega
      · have := t2 i
        have := Stock.length_oset_insert_le m x
        simp only [supplements, OMap.get?_insert] at this ⊢
        split
        · simp only [Option.getD_some]; omega
        · have := t2 i; simp only [supplements] at this; omega

theorem sigs_ok (l : List (Nat × List (Nat × Nat))) (s : MemStash) : ∃ t, importAllSigs l s = some (t, .ok ()) := by
  induction l generalizing s with
  | nil => exact ⟨s, rfl⟩
  | cons e l ih =>
    obtain ⟨t, r, h⟩ := importSigs_some s e.1 e.2
    obtain ⟨u, hu⟩ := ih t
    exact ⟨u, by simp only [importAllSigs, h, hu]⟩

theorem kit_ok {I : Ids} {s : MemStash} {con : Consignment}
    (hi : ∀ e ∈ con.ifaces, e.2.schemaId = I.schema con.schema ∧ ∃ e' ∈ con.ifaces, I.iface e'.1 = e.2.ifaceId)
    (h1 : OMap.contains s.schemata (I.schema con.schema) = true ∨ s.schemata.length < 255)
    (h2 : s.ifaces.length + con.ifaces.length ≤ 255)
    (h3 : ∀ si, s.schema (I.schema con.schema) = some si → si.iimpls.length + con.ifaces.length ≤ 255)
    (h4 : s.suppl.length + con.supplements.length ≤ 255)
    (h5 : ∀ i, (s.supplements i).length + con.supplements.length ≤ 255) :
    ∃ t, consumeKit I s (kitOf con) = some (t, .ok ()) := by
  have len : ∀ {α : Type} [Key α] [DecidableEq α] (l : List α), (OSet.ofList l).length ≤ l.length := by
    intro α _ _ l
    have := Stock.length_oset_extend_le l []
    simpa [OSet.ofList] using this
  have l1 := len (con.ifaces.map Prod.fst)
  have l2 := len (con.ifaces.map Prod.snd)
  simp only [List.length_map] at l1 l2
  obtain ⟨a, a1, a2⟩ := libs_ok (I := I) con.scripts { s with types := OSet.extend s.types con.types }
  obtain ⟨b, _, b1, b2, b3, si, b4, b5⟩ := schema_ok (I := I) (s := a) (d := con.schema) (by rw [a2.schemata]; exact h1)
  obtain ⟨c, c1, c2, c3, c4⟩ := ifaces_ok (I := I) (OSet.ofList (con.ifaces.map Prod.fst)) b (by rw [b2, a2.ifaces]; simp only; omega)
  obtain ⟨d, d1, d2⟩ := iimpls_ok (I.schema con.schema) (OSet.ofList (con.ifaces.map Prod.snd)) c (fun x hx => by
      obtain ⟨e, he, rfl⟩ := List.mem_map.mp (OSet.mem_ofList.mp hx)
      obtain ⟨e1, e', e2, e3⟩ := hi e he
      exact ⟨e1, e3 ▸ c4 _ (OSet.mem_ofList.mpr (List.mem_map.mpr ⟨e', e2, rfl⟩))⟩)
    ⟨si, by simp only [schema, c2]; exact b4, by
      rcases b5 with h | h
      · have := h3 si (by simpa [schema, a2.schemata] using h)
        omega
      · rw [h]; simp only [List.length_nil]; omega⟩
  have hsup : d.suppl = s.suppl := by rw [d2, c3, b3, a2.suppl]
  obtain ⟨e, e1⟩ := suppl_ok con.supplements d (by rw [hsup]; exact h4) (fun i => by simp only [supplements, hsup]; exact h5 i)
  obtain ⟨f, f1⟩ := sigs_ok con.signatures e
  refine ⟨f, ?_⟩
  simp only [consumeKit, consumeTypes, kitOf, SR.bind, a1, SR.each, b1, c1, d1, e1, f1]

/-- The stash takes a consignment. -/
theorem stash_accepts (hH : H.Binding) {I : Ids} {M : Mpc} {G : SchemaDoc → SchemaGlobals} {r : Resolver} {con : Consignment} {k : Stock}
    (hk : k.stash.Good H) (hp : StockEvent.Proper H (.consignment con r))
    (hc : con.Coherent H I M G r) (ha : k.Agrees H M con) (hr : k.Room H I con) :
    ∃ t, k.stash.consumeConsignment H I M con = some (t, .ok ()) := by
  obtain ⟨⟨p1, p2, p3, p4⟩, q1, -⟩ := hp
  obtain ⟨a, _, a1, a2, a3, a4⟩ := genesis_ok hH hk p1 p2 hr.geneses
  obtain ⟨b, b1, b2, b3, b4, -⟩ := each_ok (f := consumeExtension H)
    (Φ := fun l t => t.Good H ∧ Frame k.stash t ∧ t.witnesses = k.stash.witnesses ∧ ∀ e ∈ l, e.WF) (fun e l t ht => by
      obtain ⟨t1, t2, t3, t4⟩ := ht
      obtain ⟨u, b, u1, u2, u3, u4⟩ := extension_ok hH t1 (t4 e (by simp))
      exact ⟨u, b, u1, u2, t2.trans u3, u4.trans t3, fun x hx => t4 x (by simp [hx])⟩)
    con.data.extensions a ⟨a2, a3, a4, p3⟩
  obtain ⟨c, c1, c2, c3, -⟩ := each_ok (f := consumeWitnessBundle H M (con.data.genesis.contractId H))
    (Φ := fun l t => t.Good H ∧ Frame k.stash t ∧ (∀ w ∈ l, w ∈ con.data.bundles) ∧ (∀ w ∈ l, t.witness w.id = k.stash.witness w.id) ∧
      l.Pairwise (fun wb wb' => wb.id ≠ wb'.id)) (fun w l t ht => by
      obtain ⟨t1, t2, t3, t4, t5⟩ := ht
      have hw := t3 w (by simp)
      obtain ⟨u, b, u1, u2, u3, u4⟩ := witnessBundle_ok hH (M := M) (c := con.data.genesis.contractId H) t1 (q1 w hw) (fun x hx =>
          ⟨p4 w hw _ (by simp only [AnchoredBundles.bundles, List.mem_map]; exact ⟨x, hx, rfl⟩), hc.proved w hw x hx⟩)
        (fun sw h => ha.witnesses w hw sw ((t4 w (by simp)) ▸ h))
      obtain ⟨d1, d2⟩ := List.pairwise_cons.mp t5
      exact ⟨u, b, u1, u2, t2.trans u3, fun x hx => t3 x (by simp [hx]),
        fun x hx => (u4 _ (d1 x hx).symm).trans (t4 x (by simp [hx])), d2⟩)
    con.data.bundles b ⟨b2, b3, fun _ h => h, fun w _ => by simp only [witness, b4], hc.witnesses⟩
  obtain ⟨d, d1, d2⟩ := attachments_ok con.attachments c
  have hf := c3.trans d2
  obtain ⟨e, he⟩ := kit_ok (I := I) (s := d) (con := con) hc.iimpls (by rw [hf.schemata]; exact hr.schemata) (by rw [hf.ifaces]; exact hr.ifaces)
    (fun si h => hr.iimpls si (by simpa [schema, hf.schemata] using h)) (by rw [hf.suppl]; exact hr.kinds)
    (fun i => by simp only [supplements, hf.suppl]; exact hr.supplements i)
  exact ⟨e, by simp only [MemStash.consumeConsignment, a1, SR.bind, b1, c1, d1, he]⟩

end Rgb
