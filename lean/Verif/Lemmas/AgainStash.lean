import Verif.Lemmas.AgainMerge

/-!
Consuming a consignment twice changes the stash once.
-/

namespace Rgb

open MemStash

variable {H : Commit}

/-! ### Order of everything in the stash -/

structure StSorted (s : MemStash) : Prop where
  types : OSet.Sorted s.types
  libs : OMap.Sorted s.libs
  schemata : OMap.Sorted s.schemata
  iimpls : ∀ i si, s.schema i = some si → OMap.Sorted si.iimpls
  geneses : OMap.Sorted s.geneses
  suppl : OMap.Sorted s.suppl
  supplSet : ∀ r l, OMap.get? s.suppl r = some l → OSet.Sorted l
  bundles : OMap.Sorted s.bundles
  extensions : OMap.Sorted s.extensions
  witnesses : OMap.Sorted s.witnesses
  attachments : OMap.Sorted s.attachments
  identities : OMap.Sorted s.identities
  sigs : OMap.Sorted s.sigs
  sigMap : ∀ c m, OMap.get? s.sigs c = some m → OMap.Sorted m

theorem stSorted_empty : StSorted {} :=
  ⟨.nil, .nil, .nil, (by intro _ _ h; cases h), .nil, .nil, (by intro _ _ h; cases h), .nil, .nil, .nil, .nil, .nil, .nil, (by intro _ _ h; cases h)⟩

theorem acceptSigner_sorted {ids : OMap Nat TrustLevel} (h : OMap.Sorted ids) (i : Nat) : OMap.Sorted (acceptSigner ids i).1 := by
  simp only [acceptSigner]; split
  · exact h
  · exact h.insert _ _

theorem pushSigs_sorted (l : List (Nat × Nat)) {ids : OMap Nat TrustLevel} {m : OMap Nat Nat} (h : OMap.Sorted ids) (hm : OMap.Sorted m) :
    OMap.Sorted (pushSigs ids m l).1 ∧ OMap.Sorted (pushSigs ids m l).2.1 := by
  induction l generalizing ids m with
  | nil => exact ⟨h, hm⟩
  | cons e l ih =>
    obtain ⟨i, sg⟩ := e
    simp only [pushSigs]
    split
    · split
      · exact ⟨acceptSigner_sorted h i, hm⟩
      · exact ih (acceptSigner_sorted h i) (hm.insert _ _)
    · exact ih (acceptSigner_sorted h i) hm

theorem stSorted_exec (I : Ids) (s t : MemStash) (hs : StSorted s) (w : StashWrite) (h : w.exec H I s = some t) : StSorted t := by
  cases w with
  | schema d =>
    simp only [StashWrite.exec, replaceSchema] at h
    split at h
    · cases h; exact hs
    · split at h <;> cases h
      · exact hs
      · exact { hs with
          schemata := hs.schemata.insert _ _
          iimpls := insert_all (P := fun (si : SchemaIfaces) => OMap.Sorted si.iimpls) hs.iimpls .nil }
  | iface d =>
    simp only [StashWrite.exec, replaceIface] at h
    split at h
    · cases h; exact hs
    · split at h <;> cases h <;> exact { hs with }
  | iimpl x =>
    simp only [StashWrite.exec, replaceIimpl] at h
    split at h
    · rename_i si d e1 e2
      split at h <;> cases h
      · exact hs
      · exact { hs with
          schemata := hs.schemata.insert _ _
          iimpls := insert_all (P := fun (si : SchemaIfaces) => OMap.Sorted si.iimpls) hs.iimpls ((hs.iimpls _ _ e1).insert _ _) }
    · cases h
  | trust i t => cases h; exact { hs with identities := hs.identities.insert _ _ }
  | supplement x =>
    simp only [StashWrite.exec, addSupplement] at h
    split at h
    · split at h <;> cases h
      · exact hs
      · exact { hs with
          suppl := hs.suppl.insert _ _
          supplSet := insert_all hs.supplSet (List.pairwise_singleton _ _) }
    · rename_i l e
      split at h <;> cases h
      · exact hs
      · rename_i l' e'
        simp only [tinyPush] at e'
        split at e'
        · cases e'
        · cases e'
          exact { hs with
            suppl := hs.suppl.insert _ _
            supplSet := insert_all hs.supplSet ((hs.supplSet _ _ e).insert _) }
  | genesis g =>
    simp only [StashWrite.exec, replaceGenesis] at h
    split at h <;> cases h
    · exact hs
    · exact { hs with geneses := hs.geneses.insert _ _ }
  | extension e => cases h; exact { hs with extensions := hs.extensions.insert _ _ }
  | bundle b => cases h; exact { hs with bundles := hs.bundles.insert _ _ }
  | witness w => cases h; exact { hs with witnesses := hs.witnesses.insert _ _ }
  | attachment i b => cases h; exact { hs with attachments := hs.attachments.insert _ _ }
  | types ts => cases h; exact { hs with types := OSet.Sorted.extend hs.types _ }
  | lib l => cases h; exact { hs with libs := hs.libs.insert _ _ }
  | sigs c l =>
    simp only [StashWrite.exec, importSigs] at h
    split at h
    · rename_i m e
      cases h
      obtain ⟨h1, h2⟩ := pushSigs_sorted l hs.identities (hs.sigMap _ _ e)
      exact { hs with identities := h1, sigs := hs.sigs.insert _ _, sigMap := insert_all hs.sigMap h2 }
    · obtain ⟨h1, h2⟩ := pushSigs_sorted l hs.identities (m := []) .nil
      split at h <;> cases h
      · exact { hs with identities := h1, sigs := hs.sigs.insert _ _, sigMap := insert_all hs.sigMap h2 }
      · exact { hs with identities := h1 }
  | secretSeal x => cases h; exact { hs with }

theorem Writes.stSorted {I : Ids} {s t : MemStash} (h : Writes H I s t) (hs : StSorted s) : StSorted t :=
  writes_keep (Φ := StSorted) (fun s t w hs ht => stSorted_exec I s t hs w ht) h hs

/-! ### Loops -/

theorem each_noop {α β : Type} {f : MemStash → α → SR β} {l : List α} {s : MemStash} (h : ∀ a ∈ l, ∃ u, f s a = some (s, .ok u)) :
    SR.each f l s = some (s, .ok ()) := by
  induction l with
  | nil => rfl
  | cons a l ih =>
    obtain ⟨u, hu⟩ := h a List.mem_cons_self
    simp only [SR.each, hu, SR.bind]
    exact ih (fun b hb => h b (List.mem_cons_of_mem _ hb))

theorem each_keep {α β : Type} {f : MemStash → α → SR β} {P : MemStash → Prop} {l : List α}
    (hq : ∀ a ∈ l, ∀ s t b, P s → f s a = some (t, .ok b) → P t)
    {s t : MemStash} {u : Unit} (hs : P s) (h : SR.each f l s = some (t, .ok u)) : P t := by
  induction l generalizing s with
  | nil => cases h; exact hs
  | cons a l ih =>
    obtain ⟨s1, b, h1, h2⟩ := bind_ok h
    exact ih (fun b hb => hq b (List.mem_cons_of_mem _ hb)) (hq a List.mem_cons_self _ _ _ hs h1) h2

theorem each_facts {α β : Type} {f : MemStash → α → SR β} {Inv : MemStash → Prop} {Q : α → MemStash → Prop} {R : α → α → Prop} {l : List α}
    (hp : l.Pairwise R) (hi : ∀ a ∈ l, ∀ s t b, Inv s → f s a = some (t, .ok b) → Inv t ∧ Q a t)
    (hq : ∀ a' ∈ l, ∀ a ∈ l, R a' a → ∀ s t b, Inv s → Q a' s → f s a = some (t, .ok b) → Q a' t)
    {s t : MemStash} {u : Unit} (hs : Inv s) (h : SR.each f l s = some (t, .ok u)) : Inv t ∧ ∀ a ∈ l, Q a t := by
  induction l generalizing s with
  | nil => cases h; exact ⟨hs, by simp⟩
  | cons a l ih =>
    obtain ⟨s1, b, h1, h2⟩ := bind_ok h
    obtain ⟨i1, q1⟩ := hi a List.mem_cons_self _ _ _ hs h1
    rw [List.pairwise_cons] at hp
    have hi' := fun b hb => hi b (List.mem_cons_of_mem a hb)
    obtain ⟨i2, q2⟩ := ih hp.2 hi' (fun a' ha' b hb => hq a' (List.mem_cons_of_mem _ ha') b (List.mem_cons_of_mem _ hb)) i1 h2
    refine ⟨i2, fun x hx => ?_⟩
    rcases List.mem_cons.mp hx with rfl | hx
    · exact (each_keep (P := fun s => Inv s ∧ Q x s) (fun c hc s t b hst hf =>
        ⟨(hi' c hc s t b hst.1 hf).1, hq x List.mem_cons_self c (List.mem_cons_of_mem _ hc) (hp.1 c hc) s t b hst.1 hst.2 hf⟩) ⟨i1, q1⟩ h2).2
    · exact q2 x hx

/-! ### Genesis -/

/-- The genesis is stored, showing everything shown by `g`. -/
def GenesisIn (H : Commit) (g : Op) (s : MemStash) : Prop := ∃ r, s.genesis (g.contractId H) = some r ∧ Op.Absorbs H r g ∧ r.WF ∧ r.kind = .genesis

theorem genesis_first (hH : H.Binding) {s t : MemStash} (hs : Good H s) {g : Op} (hk : g.kind = .genesis) (hw : g.WF) {b : Bool}
    (h : s.consumeGenesis H g = some (t, .ok b)) : t = { s with geneses := t.geneses } ∧ GenesisIn H g t := by
  have put : ∀ r : Op, r.contractId H = g.contractId H → s.replaceGenesis H r = some (t, .ok b) →
      t = { s with geneses := t.geneses } ∧ t.genesis (g.contractId H) = some r := by
    intro r hr h
    simp only [replaceGenesis] at h
    split at h
    · cases h
    · cases h; exact ⟨rfl, by simp [MemStash.genesis, hr]⟩
  simp only [consumeGenesis] at h
  cases ho : s.genesis (g.contractId H) with
  | none =>
    rw [ho] at h
    obtain ⟨h1, h2⟩ := put g rfl h
    exact ⟨h1, g, h2, Op.absorbs_self g, hw, hk⟩
  | some old =>
    rw [ho] at h
    simp only at h
    obtain ⟨g1, g2, g3⟩ := hs.genesis _ _ ho
    split at h
    · cases h
    · rename_i r hm
      obtain ⟨e1, rfl⟩ := Op.merge_join hH g3 hm
      have hkr : (joinOp old g).kind = .genesis := g2
      obtain ⟨h1, h2⟩ := put _ (by
        rw [← g1]; simp only [Op.contractId, hkr, g2]; exact joinOp_id hH e1) h
      exact ⟨h1, _, h2, Op.absorbs_join hH e1, joinOp_wf hH e1 g3, hkr⟩

theorem genesis_again (hH : H.Binding) {s : MemStash} (hs : StSorted s) (hg : Good H s) {g : Op} (h : GenesisIn H g s) (hr : s.geneses.length < 255) :
    ∃ b, s.consumeGenesis H g = some (s, .ok b) := by
  obtain ⟨r, h1, h2, h3, h4⟩ := h
  have : r.contractId H = g.contractId H := (hg.genesis _ _ h1).1
  have hn : ¬ s.geneses.length ≥ tinyMax := by simp only [tinyMax]; omega
  refine ⟨false, ?_⟩
  simp only [consumeGenesis, h1, h2.merge hH h3, replaceGenesis, hn, if_false, this]
  rw [OMap.insert_known hs.geneses h1]
  simp [OMap.contains_iff.mpr ⟨r, h1⟩]

/-! ### Extensions -/

def ExtIn (H : Commit) (e : Op) (s : MemStash) : Prop := ∃ r, s.extension (e.id H) = some r ∧ Op.Absorbs H r e ∧ r.WF

theorem ext_step (hH : H.Binding) {s t : MemStash} (hs : Good H s) {e : Op} (hw : e.WF) {b : Bool} (h : s.consumeExtension H e = some (t, .ok b)) :
    t = { s with extensions := t.extensions } ∧ ExtIn H e t ∧ ∀ x, ExtIn H x s → ExtIn H x t := by
  have put : ∀ r : Op, r.id H = e.id H → s.replaceExtension H r = some (t, .ok b) →
      t = { s with extensions := t.extensions } ∧ ∀ i, t.extension i = if i = e.id H then some r else s.extension i := by
    intro r hr h
    cases h
    exact ⟨rfl, fun i => by simp only [MemStash.extension, OMap.get?_insert, hr]⟩
  simp only [consumeExtension] at h
  cases ho : s.extension (e.id H) with
  | none =>
    rw [ho] at h
    obtain ⟨h1, h2⟩ := put e rfl h
    refine ⟨h1, ⟨e, by rw [h2]; simp, Op.absorbs_self e, hw⟩, ?_⟩
    rintro x ⟨r, r1, r2⟩
    refine ⟨r, ?_, r2⟩
    rw [h2, if_neg]
    · exact r1
    · intro he; rw [he, ho] at r1; cases r1
  | some old =>
    rw [ho] at h
    simp only at h
    obtain ⟨g1, g3⟩ := hs.extension _ _ ho
    split at h
    · cases h
    · rename_i r hm
      obtain ⟨e1, rfl⟩ := Op.merge_join hH g3 hm
      obtain ⟨h1, h2⟩ := put _ ((joinOp_id hH e1).trans e1) h
      refine ⟨h1, ⟨_, by rw [h2]; simp, Op.absorbs_join hH e1, joinOp_wf hH e1 g3⟩, ?_⟩
      rintro x ⟨r, r1, r2, r3⟩
      by_cases he : x.id H = e.id H
      · rw [he, ho] at r1; cases r1
        exact ⟨_, by rw [h2]; simp [he], r2.join hH e1, joinOp_wf hH e1 g3⟩
      · exact ⟨r, by rw [h2, if_neg he]; exact r1, r2, r3⟩

theorem ext_again (hH : H.Binding) {s : MemStash} (hs : StSorted s) (hg : Good H s) {e : Op} (h : ExtIn H e s) : ∃ b, s.consumeExtension H e = some (s, .ok b) := by
  obtain ⟨r, h1, h2, h3⟩ := h
  have : r.id H = e.id H := (hg.extension _ _ h1).1
  refine ⟨false, ?_⟩
  simp only [consumeExtension, h1, h2.merge hH h3, replaceExtension, this]
  rw [OMap.insert_known hs.extensions h1]
  simp [OMap.contains_iff.mpr ⟨r, h1⟩]

/-! ### Bundles -/

def BundleIn (H : Commit) (b : Bundle) (s : MemStash) : Prop := ∃ r, s.bundle (b.id H) = some r ∧ Bundle.Absorbs H r b

theorem bundle_step (hH : H.Binding) {s t : MemStash} (hs : Good H s) {e : Bundle} (hw : e.WF H) {b : Bool} (h : s.consumeBundle H e = some (t, .ok b)) :
    t = { s with bundles := t.bundles } ∧ BundleIn H e t ∧ ∀ x : Bundle, x.WF H → BundleIn H x s → BundleIn H x t := by
  have put : ∀ r : Bundle, r.id H = e.id H → s.replaceBundle H r = some (t, .ok b) →
      t = { s with bundles := t.bundles } ∧ ∀ i, t.bundle i = if i = e.id H then some r else s.bundle i := by
    intro r hr h
    cases h
    exact ⟨rfl, fun i => by simp only [MemStash.bundle, OMap.get?_insert, hr]⟩
  simp only [consumeBundle] at h
  cases ho : s.bundle (e.id H) with
  | none =>
    rw [ho] at h
    obtain ⟨h1, h2⟩ := put e rfl h
    refine ⟨h1, ⟨e, by rw [h2]; simp, Bundle.absorbs_self e⟩, ?_⟩
    rintro x - ⟨r, r1, r2⟩
    refine ⟨r, ?_, r2⟩
    rw [h2, if_neg]
    · exact r1
    · intro he; rw [he, ho] at r1; cases r1
  | some old =>
    rw [ho] at h
    simp only at h
    obtain ⟨g1, g3⟩ := hs.bundle _ _ ho
    split at h
    · cases h
    · rename_i r hm
      obtain ⟨h1, h2⟩ := put _ ((Bundle.shownBy_merge hH g3 hw g1 hm).1.id.trans g1) h
      refine ⟨h1, ⟨_, by rw [h2]; simp, Bundle.absorbs_merge hH g3 hw hm⟩, ?_⟩
      rintro x hx ⟨r', r1, r2⟩
      by_cases he : x.id H = e.id H
      · rw [he, ho] at r1; cases r1
        exact ⟨_, by rw [h2]; simp [he], r2.join hH g3 hx hw hm⟩
      · exact ⟨r', by rw [h2, if_neg he]; exact r1, r2⟩

theorem bundle_again (hH : H.Binding) {s : MemStash} (hs : StSorted s) (hg : Good H s) {e : Bundle} (hw : e.WF H) (h : BundleIn H e s) :
    ∃ b, s.consumeBundle H e = some (s, .ok b) := by
  obtain ⟨r, h1, h2⟩ := h
  obtain ⟨h3, h4⟩ := hg.bundle _ _ h1
  refine ⟨false, ?_⟩
  simp only [consumeBundle, h1, h2.merge hH h4 hw, replaceBundle, h3]
  rw [OMap.insert_known hs.bundles h1]
  simp [OMap.contains_iff.mpr ⟨r, h1⟩]

/-! ### Witnesses -/

def WitnessIn (g : SealWitness) (s : MemStash) : Prop := ∃ r, s.witness g.id = some r ∧ r.pub.merge g.pub = .ok r.pub ∧ r.anchors.merge g.anchors = .ok r.anchors

theorem witness_step {tree : Nat → Nat → Option Nat} {s t : MemStash} (hs : Good H s) (ht : ∀ w sw, s.witness w = some sw → sw.anchors.In tree) {g : SealWitness}
    (hg : g.anchors.In tree) {b : Bool} (h : s.consumeWitness g = some (t, .ok b)) :
    t = { s with witnesses := t.witnesses } ∧ WitnessIn g t ∧ (∀ w sw, t.witness w = some sw → sw.anchors.In tree) ∧
      ∀ i, i ≠ g.id → t.witness i = s.witness i := by
  have put : ∀ r : SealWitness, r.id = g.id → s.replaceWitness r = some (t, .ok b) →
      t = { s with witnesses := t.witnesses } ∧ ∀ i, t.witness i = if i = g.id then some r else s.witness i := by
    intro r hr h
    cases h
    exact ⟨rfl, fun i => by simp only [MemStash.witness, OMap.get?_insert, hr]⟩
  have tr : ∀ r : SealWitness, r.anchors.In tree → (∀ i, t.witness i = if i = g.id then some r else s.witness i) →
      ∀ w sw, t.witness w = some sw → sw.anchors.In tree := by
    intro r hr h w sw e
    rw [h] at e
    split at e
    · cases e; exact hr
    · exact ht _ _ e
  simp only [consumeWitness] at h
  cases ho : s.witness g.id with
  | none =>
    rw [ho] at h
    obtain ⟨h1, h2⟩ := put g rfl h
    exact ⟨h1, ⟨g, by rw [h2]; simp, XPubWitness.merge_self _, AnchorSet.merge_self hg⟩, tr g hg h2, fun i hi => by rw [h2, if_neg hi]⟩
  | some old =>
    rw [ho] at h
    simp only at h
    split at h
    · cases h
    · rename_i p hp
      split at h
      · cases h
      · rename_i a ha
        obtain ⟨h1, h2⟩ := put ⟨p, a⟩ (merge_pub_shown hp).2.1 h
        obtain ⟨a1, a2⟩ := AnchorSet.merge_again (ht _ _ ho) hg ha
        exact ⟨h1, ⟨⟨p, a⟩, by rw [h2]; simp, XPubWitness.merge_again hp, a1⟩, tr _ a2 h2, fun i hi => by rw [h2, if_neg hi]⟩

theorem witness_again {s : MemStash} (hs : StSorted s) (hg : Good H s) {e : SealWitness} (h : WitnessIn e s) :
    ∃ b, s.consumeWitness e = some (s, .ok b) := by
  obtain ⟨r, h1, h2, h3⟩ := h
  have h4 : (⟨r.pub, r.anchors⟩ : SealWitness).id = e.id := hg.witness _ _ h1
  refine ⟨false, ?_⟩
  simp only [consumeWitness, h1, h2, h3, replaceWitness, h4]
  rw [OMap.insert_known hs.witnesses h1]
  simp [OMap.contains_iff.mpr ⟨r, h1⟩]

end Rgb
