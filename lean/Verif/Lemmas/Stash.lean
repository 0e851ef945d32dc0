import Verif.Spec.Stash
import Verif.Lemmas.Base
import Verif.Lemmas.MergeSeq
import Verif.Props.Merge

/-! Lemmas on the stash: what each write keeps. -/

namespace Rgb
open Props

variable {H : Commit}

theorem Op.ShownBy.refl (a : Op) : a.ShownBy H a := ⟨rfl, fun _ _ _ h => h, fun _ _ _ h => h⟩

theorem Op.ShownBy.trans {a b c : Op} (h : a.ShownBy H b) (g : b.ShownBy H c) : a.ShownBy H c :=
  ⟨g.id.trans h.id, fun ty i x hx => g.seals ty i x (h.seals ty i x hx),
    fun ty i x hx => g.states ty i x (h.states ty i x hx)⟩

theorem Bundle.ShownBy.refl (a : Bundle) : a.ShownBy H a := ⟨rfl, fun _ t h => ⟨t, h, .refl t⟩⟩

theorem Bundle.ShownBy.trans {a b c : Bundle} (h : a.ShownBy H b) (g : b.ShownBy H c) : a.ShownBy H c := by
  refine ⟨g.id.trans h.id, fun k t hk => ?_⟩
  obtain ⟨u, hu, h1⟩ := h.known k t hk
  obtain ⟨v, hv, h2⟩ := g.known k u hu
  exact ⟨v, hv, h1.trans h2⟩

theorem SealWitness.ShownBy.refl (a : SealWitness) : a.ShownBy a := ⟨rfl, fun h => h, fun _ _ h => h, fun _ x h => ⟨x, h, rfl, rfl⟩⟩

theorem SealWitness.ShownBy.trans {a b c : SealWitness} (h : a.ShownBy b) (g : b.ShownBy c) : a.ShownBy c :=
  ⟨g.id.trans h.id, fun x => g.tx (h.tx x), fun m c x => g.anchors m c (h.anchors m c x), fun m x hx => by
    obtain ⟨y, hy, e1, e2⟩ := h.proofs m x hx
    obtain ⟨z, hz, e3, e4⟩ := g.proofs m y hy
    exact ⟨z, hz, e3.trans e1, e4.trans e2⟩⟩

theorem Op.shownBy_merge (hH : H.Binding) {a b r : Op} (ha : a.WF) (hid : a.id H = b.id H)
    (h : a.merge H b = .ok r) : a.ShownBy H r ∧ b.ShownBy H r ∧ r.WF ∧ r.kind = a.kind := by
  obtain ⟨r', h1, h2, h3, -, h4, h5, h6, -⟩ := C12_merge_keeps_disclosed H hH a b ha hid
  rw [h1] at h; cases h
  exact ⟨⟨h2, fun ty i x hx => (h5 ty i x).mpr (.inl hx), fun ty i x hx => (h6 ty i x).mpr (.inl hx)⟩,
    ⟨h2.trans hid, fun ty i x hx => (h5 ty i x).mpr (.inr hx), fun ty i x hx => (h6 ty i x).mpr (.inr hx)⟩,
    h4, by rw [h3]⟩

theorem Bundle.merge_wf (hH : H.Binding) {a b r : Bundle} (ha : a.WF H) (hb : b.WF H)
    (h : a.merge H b = .ok r) : r.WF H := by
  obtain ⟨r', h1, h2, h3, h4, h5⟩ := bundle_merge_eq hH ha hb
  rw [h1] at h; cases h
  refine ⟨h4, fun k t hk => ?_, fun k t hk => ?_⟩
  · have := h5 k
    rw [hk] at this
    cases hg : OMap.get? a.known k with
    | none => rw [hg] at this; cases this
    | some t' =>
      rw [hg] at this
      simp only [Option.map_some, Option.some.injEq] at this
      have ht := ha.keyed k t' hg
      cases hu : OMap.get? b.known k with
      | none => rw [hu] at this; simp only at this; rw [this]; exact ht
      | some u =>
        rw [hu] at this
        simp only at this
        have hid : t'.id H = u.id H := ht.1.trans (hb.keyed k u hu).1.symm
        rw [this]
        exact ⟨(joinOp_id hH hid).trans ht.1, joinOp_wf hH hid ht.2⟩
  · have := h5 k
    rw [hk] at this
    cases hg : OMap.get? a.known k with
    | none => rw [hg] at this; cases this
    | some t' => rw [h3]; exact ha.spent k t' hg

/-- Merging a bundle with the stored one: the stored one is shown, and the new one if its transitions are known
to the stored one. -/
theorem Bundle.shownBy_merge (hH : H.Binding) {a b r : Bundle} (ha : a.WF H) (hb : b.WF H)
    (hid : a.id H = b.id H) (h : a.merge H b = .ok r) :
    a.ShownBy H r ∧ ((∀ k, OMap.contains b.known k = true → OMap.contains a.known k = true) → b.ShownBy H r) ∧
    (∀ k, OMap.contains r.known k = OMap.contains a.known k) := by
  obtain ⟨r', h1, h2, h3, h4, h5⟩ := C15_bundle_merge_partial H hH a b ha hb hid
  rw [h1] at h; cases h
  refine ⟨⟨h2, fun k t hk => ?_⟩, fun hsub => ⟨h3, fun k u hu => ?_⟩, h5⟩
  · obtain ⟨t', e1, e2, e3, e4, -⟩ := h4 k t hk
    exact ⟨t', e1, e2.trans (ha.keyed k t hk).1.symm, e3, e4⟩
  · obtain ⟨t, ht⟩ := OMap.contains_iff.mp (hsub k (OMap.contains_iff.mpr ⟨u, hu⟩))
    obtain ⟨t', e1, e2, -, -, e5⟩ := h4 k t ht
    exact ⟨t', e1, e2.trans (hb.keyed k u hu).1.symm, (e5 u hu).1, (e5 u hu).2⟩

theorem Anchor.merge_keys {a b c : Anchor} (h : a.merge b = .ok c) (k : Nat) :
    k ∈ OMap.keys c.known ↔ k ∈ OMap.keys a.known ∨ k ∈ OMap.keys b.known := by
  simp only [Anchor.merge] at h
  split at h
  · cases h
  · split at h
    · cases h
    · cases h
      simp only [OMap.mem_keys_extend]
      rfl

theorem Except.map_ok {ε α β : Type} {x : Except ε α} {f : α → β} {b : β} (h : x.map f = .ok b) :
    ∃ a, x = .ok a ∧ f a = b := by
  cases x with
  | error e => cases h
  | ok a => cases h; exact ⟨a, rfl, rfl⟩

theorem AnchorSet.merge_knows {a b r : AnchorSet} (h : a.merge b = .ok r) (m : CloseMethod) (k : Nat) :
    r.knows m k ↔ a.knows m k ∨ b.knows m k := by
  cases a <;> cases b <;> simp only [AnchorSet.merge] at h
  case tapret.tapret => obtain ⟨c, hc, rfl⟩ := Except.map_ok h; cases m <;> simp [knows, Anchor.merge_keys hc]
  case opret.opret => obtain ⟨c, hc, rfl⟩ := Except.map_ok h; cases m <;> simp [knows, Anchor.merge_keys hc]
  case tapret.opret => cases h; cases m <;> simp [knows]
  case opret.tapret => cases h; cases m <;> simp [knows]
  case double.tapret => obtain ⟨c, hc, rfl⟩ := Except.map_ok h; cases m <;> simp [knows, Anchor.merge_keys hc]
  case double.opret => obtain ⟨c, hc, rfl⟩ := Except.map_ok h; cases m <;> simp [knows, Anchor.merge_keys hc]
  case tapret.double =>
    obtain ⟨c, hc, rfl⟩ := Except.map_ok h; cases m <;> simp [knows, Anchor.merge_keys hc, or_comm]
  case opret.double =>
    obtain ⟨c, hc, rfl⟩ := Except.map_ok h; cases m <;> simp [knows, Anchor.merge_keys hc, or_comm]
  case double.double =>
    split at h
    · cases h
    · rename_i x hx
      obtain ⟨y, hy, rfl⟩ := Except.map_ok h
      cases m <;> simp [knows, Anchor.merge_keys hx, Anchor.merge_keys hy]

theorem Anchor.merge_proof {a b r : Anchor} (h : a.merge b = .ok r) : (r.proof = a.proof ∧ r.root = a.root) ∧ r.proof = b.proof ∧ r.root = b.root := by
  simp only [Anchor.merge] at h
  split at h
  · cases h
  · rename_i h1
    split at h
    · cases h
    · rename_i h2
      cases h
      exact ⟨⟨rfl, rfl⟩, Decidable.not_not.mp h1, Decidable.not_not.mp h2⟩

/-- Merging keeps the proofs and the Merkle roots of both. -/
theorem AnchorSet.merge_proofs {a b r : AnchorSet} (h : a.merge b = .ok r) (m : CloseMethod) (x : Anchor)
    (hx : Stock.anchorOf a m = some x ∨ Stock.anchorOf b m = some x) : ∃ y, Stock.anchorOf r m = some y ∧ y.proof = x.proof ∧ y.root = x.root := by
  cases a <;> cases b <;> simp only [AnchorSet.merge] at h
  case tapret.opret => cases h; cases m <;> rcases hx with hx | hx <;> cases hx <;> exact ⟨_, rfl, rfl, rfl⟩
  case opret.tapret => cases h; cases m <;> rcases hx with hx | hx <;> cases hx <;> exact ⟨_, rfl, rfl, rfl⟩
  case double.double =>
    split at h
    · cases h
    · rename_i z hz
      obtain ⟨u, hu, rfl⟩ := Except.map_ok h
      have p := Anchor.merge_proof hz
      have q := Anchor.merge_proof hu
      cases m <;> rcases hx with hx | hx <;> cases hx
      · exact ⟨_, rfl, q.1⟩
      · exact ⟨_, rfl, q.2⟩
      · exact ⟨_, rfl, p.1⟩
      · exact ⟨_, rfl, p.2⟩
  all_goals
    obtain ⟨u, hu, rfl⟩ := Except.map_ok h
    have p := Anchor.merge_proof hu
    cases m <;> rcases hx with hx | hx <;> cases hx <;> first | exact ⟨_, rfl, p.1⟩ | exact ⟨_, rfl, p.2⟩ | exact ⟨_, rfl, rfl, rfl⟩

namespace MemStash

theorem Grows.refl (s : MemStash) : Grows H s s where
  schema _ d h := ⟨d, h, rfl, fun _ h => h⟩
  iface _ _ h := h
  lib _ h := h
  genesis _ g h := ⟨g, h, .refl g⟩
  extension _ g h := ⟨g, h, .refl g⟩
  bundle _ g h := ⟨g, h, .refl g⟩
  witness _ g h := ⟨g, h, .refl g⟩
  seals _ h := h
  types _ h := h
  supplements _ _ h := h
  attachments _ h := h
  sigs _ m _ h h' := ⟨m, h, h'⟩

theorem Grows.trans {s t u : MemStash} (a : Grows H s t) (b : Grows H t u) : Grows H s u where
  schema i d h := by
    obtain ⟨e, h1, h2, h2'⟩ := a.schema i d h
    obtain ⟨f, h3, h4, h4'⟩ := b.schema i e h1
    exact ⟨f, h3, h4.trans h2, fun n hn => h4' n (h2' n hn)⟩
  iface i d h := b.iface i d (a.iface i d h)
  lib i h := b.lib i (a.lib i h)
  genesis i d h := by
    obtain ⟨e, h1, h2⟩ := a.genesis i d h
    obtain ⟨f, h3, h4⟩ := b.genesis i e h1
    exact ⟨f, h3, h2.trans h4⟩
  extension i d h := by
    obtain ⟨e, h1, h2⟩ := a.extension i d h
    obtain ⟨f, h3, h4⟩ := b.extension i e h1
    exact ⟨f, h3, h2.trans h4⟩
  bundle i d h := by
    obtain ⟨e, h1, h2⟩ := a.bundle i d h
    obtain ⟨f, h3, h4⟩ := b.bundle i e h1
    exact ⟨f, h3, h2.trans h4⟩
  witness i d h := by
    obtain ⟨e, h1, h2⟩ := a.witness i d h
    obtain ⟨f, h3, h4⟩ := b.witness i e h1
    exact ⟨f, h3, h2.trans h4⟩
  seals x h := b.seals x (a.seals x h)
  types x h := b.types x (a.types x h)
  supplements r x h := b.supplements r x (a.supplements r x h)
  attachments i h := b.attachments i (a.attachments i h)
  sigs c m i h h' := by
    obtain ⟨m1, h1, h2⟩ := a.sigs c m i h h'
    exact b.sigs c m1 i h1 h2

/-- Whatever a step returns, the stash stays good and keeps everything. -/
def Step (H : Commit) (s : MemStash) {α : Type} (x : SR α) : Prop :=
  ∀ t r, x = some (t, r) → Good H t ∧ Grows H s t

theorem Step.bind {α β : Type} {s : MemStash} {x : SR α} {f : MemStash → α → SR β} (hx : Step H s x)
    (hf : ∀ t a, x = some (t, .ok a) → Good H t → Step H t (f t a)) : Step H s (SR.bind x f) := by
  intro t r h
  cases x with
  | none => cases h
  | some p =>
    obtain ⟨u, o⟩ := p
    cases o with
    | error e => cases h; exact hx _ _ rfl
    | ok a =>
      obtain ⟨g1, g2⟩ := hx _ _ rfl
      obtain ⟨g3, g4⟩ := hf u a rfl g1 t r h
      exact ⟨g3, g2.trans g4⟩

theorem Step.each {α β : Type} {f : MemStash → α → SR β} {l : List α}
    (hf : ∀ a ∈ l, ∀ s, Good H s → Step H s (f s a)) (s : MemStash) (hs : Good H s) :
    Step H s (SR.each f l s) := by
  induction l generalizing s with
  | nil => intro t r h; cases h; exact ⟨hs, .refl _⟩
  | cons a l ih =>
    exact Step.bind (hf a List.mem_cons_self s hs)
      (fun t _ _ ht => ih (fun b hb => hf b (List.mem_cons_of_mem _ hb)) t ht)

theorem bind_ok {α β : Type} {x : SR α} {f : MemStash → α → SR β} {t : MemStash} {b : β}
    (h : SR.bind x f = some (t, .ok b)) : ∃ u a, x = some (u, .ok a) ∧ f u a = some (t, .ok b) := by
  cases x with
  | none => cases h
  | some p =>
    obtain ⟨u, o⟩ := p
    cases o with
    | error e => cases h
    | ok a => exact ⟨u, a, rfl, h⟩

/-- What each element establishes and everything kept is true after the loop. -/
theorem each_ok {α β : Type} {f : MemStash → α → SR β} {l : List α} {Q : α → MemStash → Prop}
    (hf : ∀ a ∈ l, ∀ s, Good H s → Step H s (f s a))
    (hq : ∀ a ∈ l, ∀ s t b, Good H s → f s a = some (t, .ok b) → Q a t)
    (hst : ∀ a s t, Grows H s t → Q a s → Q a t) (s t : MemStash) (u : Unit) (hs : Good H s)
    (h : SR.each f l s = some (t, .ok u)) : ∀ a ∈ l, Q a t := by
  induction l generalizing s with
  | nil => intro a ha; cases ha
  | cons a l ih =>
    obtain ⟨s1, b, h1, h2⟩ := bind_ok h
    obtain ⟨g1, g2⟩ := hf a List.mem_cons_self s hs _ _ h1
    have hf' := fun b hb => hf b (List.mem_cons_of_mem a hb)
    intro x hx
    rcases List.mem_cons.mp hx with rfl | hx
    · exact hst x s1 t (Step.each hf' s1 g1 _ _ h2).2 (hq x List.mem_cons_self s s1 b hs h1)
    · exact ih hf' (fun b hb => hq b (List.mem_cons_of_mem a hb)) s1 g1 h2 x hx

/-! ## Single writes -/

theorem get?_insert_isSome {κ ν : Type} [Key κ] [DecidableEq κ] {m : OMap κ ν} {k n : κ} {v : ν} (h : (OMap.get? m n).isSome = true) :
    (OMap.get? (OMap.insert m k v) n).isSome = true := by
  rw [OMap.get?_insert]; split
  · rfl
  · exact h

theorem step_replaceSchema (I : Ids) (s : MemStash) (hs : Good H s) (d : SchemaDoc) :
    Step H s (s.replaceSchema I d) := by
  intro t r h
  simp only [replaceSchema] at h
  split at h
  · cases h; exact ⟨hs, .refl _⟩
  · rename_i hc
    split at h
    · cases h; exact ⟨hs, .refl _⟩
    · cases h
      refine ⟨⟨hs.genesis, hs.extension, hs.bundle, hs.witness⟩, { Grows.refl (H := H) s with schema := ?_ }⟩
      intro i e he
      refine ⟨e, ?_, rfl, fun _ h => h⟩
      simp only [schema] at he ⊢
      rw [OMap.get?_insert]
      split
      · rename_i hi
        exact absurd (OMap.contains_iff.mpr ⟨e, hi ▸ he⟩) hc
      · exact he

theorem schema_replaceSchema (I : Ids) (s t : MemStash) (d : SchemaDoc) (b : Bool)
    (hk : ∀ i e, s.schema i = some e → I.schema e.doc = i)
    (h : s.replaceSchema I d = some (t, .ok b)) :
    ∃ e, t.schema (I.schema d) = some e ∧ I.schema e.doc = I.schema d := by
  simp only [replaceSchema] at h
  split at h
  · rename_i hc
    cases h
    obtain ⟨e, he⟩ := OMap.contains_iff.mp hc
    exact ⟨e, he, hk _ e he⟩
  · split at h
    · cases h
    · cases h
      exact ⟨⟨d, []⟩, by simp [schema], rfl⟩

theorem step_replaceIface (I : Ids) (s : MemStash) (hs : Good H s) (d : IfaceDoc) :
    Step H s (s.replaceIface I d) := by
  intro t r h
  simp only [replaceIface] at h
  split at h
  · cases h; exact ⟨hs, .refl _⟩
  · rename_i hc
    split at h
    · cases h; exact ⟨hs, .refl _⟩
    · cases h
      refine ⟨⟨hs.genesis, hs.extension, hs.bundle, hs.witness⟩, { Grows.refl (H := H) s with iface := ?_ }⟩
      intro i e he
      simp only [ifaceById] at he ⊢
      rw [OMap.get?_insert]
      split
      · rename_i hi
        exact absurd (OMap.contains_iff.mpr ⟨e, hi ▸ he⟩) hc
      · exact he

theorem step_replaceIimpl (s : MemStash) (hs : Good H s) (x : IimplDoc) : Step H s (s.replaceIimpl x) := by
  intro t r h
  simp only [replaceIimpl] at h
  split at h
  · rename_i si d h1 h2
    split at h
    · cases h; exact ⟨hs, .refl _⟩
    · cases h
      refine ⟨⟨hs.genesis, hs.extension, hs.bundle, hs.witness⟩, { Grows.refl (H := H) s with schema := ?_ }⟩
      intro i e he
      simp only [schema] at he ⊢
      rw [OMap.get?_insert]
      split
      · rename_i hi
        subst hi
        rw [h1] at he; cases he
        exact ⟨_, rfl, rfl, fun n hn => get?_insert_isSome hn⟩
      · exact ⟨e, he, rfl, fun _ h => h⟩
  · cases h

theorem step_setTrust (s : MemStash) (hs : Good H s) (i : Nat) (l : TrustLevel) : Step H s (s.setTrust i l) := by
  intro t r h
  cases h
  exact ⟨⟨hs.genesis, hs.extension, hs.bundle, hs.witness⟩, { Grows.refl (H := H) s with }⟩

theorem step_addSupplement (s : MemStash) (hs : Good H s) (x : SupplDoc) : Step H s (s.addSupplement x) := by
  intro t r h
  simp only [addSupplement] at h
  split at h
  · rename_i hn
    split at h
    · cases h; exact ⟨hs, .refl _⟩
    · cases h
      refine ⟨⟨hs.genesis, hs.extension, hs.bundle, hs.witness⟩,
        { Grows.refl (H := H) s with supplements := ?_ }⟩
      intro q y hy
      simp only [supplements] at hy ⊢
      rw [OMap.get?_insert]
      split
      · rename_i hq; subst hq; rw [hn] at hy; cases hy
      · exact hy
  · rename_i l hl
    split at h
    · cases h; exact ⟨hs, .refl _⟩
    · rename_i l' hl'
      cases h
      refine ⟨⟨hs.genesis, hs.extension, hs.bundle, hs.witness⟩,
        { Grows.refl (H := H) s with supplements := ?_ }⟩
      intro q y hy
      simp only [supplements] at hy ⊢
      rw [OMap.get?_insert]
      split
      · rename_i hq
        subst hq
        rw [hl] at hy
        simp only [tinyPush] at hl'
        split at hl'
        · cases hl'
        · cases hl'
          simpa using .inr hy
      · exact hy

theorem mem_addSupplement (s t : MemStash) (x : SupplDoc) (u : Unit) (h : s.addSupplement x = some (t, .ok u)) :
    x ∈ t.supplements x.ref := by
  simp only [addSupplement] at h
  split at h
  · split at h
    · cases h
    · cases h; simp [supplements]
  · split at h
    · cases h
    · rename_i l' hl'
      cases h
      simp only [tinyPush] at hl'
      split at hl'
      · cases hl'
      · cases hl'; simp [supplements]

theorem step_replaceGenesis (s : MemStash) (hs : Good H s) (g : Op) (hk : g.kind = .genesis) (hw : g.WF)
    (hold : ∀ o, s.genesis (g.contractId H) = some o → o.ShownBy H g) : Step H s (s.replaceGenesis H g) := by
  intro t r h
  simp only [replaceGenesis] at h
  split at h
  · cases h; exact ⟨hs, .refl _⟩
  · cases h
    refine ⟨⟨?_, hs.extension, hs.bundle, hs.witness⟩, { Grows.refl (H := H) s with genesis := ?_ }⟩
    · intro i o ho
      simp only [genesis] at ho
      rw [OMap.get?_insert] at ho
      split at ho
      · rename_i hi; cases ho; exact ⟨hi.symm, hk, hw⟩
      · exact hs.genesis i o ho
    · intro i o ho
      simp only [genesis]
      rw [OMap.get?_insert]
      split
      · rename_i hi; subst hi; exact ⟨g, rfl, hold o ho⟩
      · exact ⟨o, ho, .refl o⟩

theorem step_replaceExtension (s : MemStash) (hs : Good H s) (g : Op) (hw : g.WF)
    (hold : ∀ o, s.extension (g.id H) = some o → o.ShownBy H g) : Step H s (s.replaceExtension H g) := by
  intro t r h
  cases h
  refine ⟨⟨hs.genesis, ?_, hs.bundle, hs.witness⟩, { Grows.refl (H := H) s with extension := ?_ }⟩
  · intro i o ho
    simp only [extension] at ho
    rw [OMap.get?_insert] at ho
    split at ho
    · rename_i hi; cases ho; exact ⟨hi.symm, hw⟩
    · exact hs.extension i o ho
  · intro i o ho
    simp only [extension]
    rw [OMap.get?_insert]
    split
    · rename_i hi; subst hi; exact ⟨g, rfl, hold o ho⟩
    · exact ⟨o, ho, .refl o⟩

theorem step_replaceBundle (s : MemStash) (hs : Good H s) (g : Bundle) (hw : g.WF H)
    (hold : ∀ o, s.bundle (g.id H) = some o → o.ShownBy H g) : Step H s (s.replaceBundle H g) := by
  intro t r h
  cases h
  refine ⟨⟨hs.genesis, hs.extension, ?_, hs.witness⟩, { Grows.refl (H := H) s with bundle := ?_ }⟩
  · intro i o ho
    simp only [bundle] at ho
    rw [OMap.get?_insert] at ho
    split at ho
    · rename_i hi; cases ho; exact ⟨hi.symm, hw⟩
    · exact hs.bundle i o ho
  · intro i o ho
    simp only [bundle]
    rw [OMap.get?_insert]
    split
    · rename_i hi; subst hi; exact ⟨g, rfl, hold o ho⟩
    · exact ⟨o, ho, .refl o⟩

theorem step_replaceWitness (s : MemStash) (hs : Good H s) (g : SealWitness)
    (hold : ∀ o, s.witness g.id = some o → o.ShownBy g) : Step H s (s.replaceWitness g) := by
  intro t r h
  cases h
  refine ⟨⟨hs.genesis, hs.extension, hs.bundle, ?_⟩, { Grows.refl (H := H) s with witness := ?_ }⟩
  · intro i o ho
    simp only [witness] at ho
    rw [OMap.get?_insert] at ho
    split at ho
    · rename_i hi; cases ho; exact hi.symm
    · exact hs.witness i o ho
  · intro i o ho
    simp only [witness]
    rw [OMap.get?_insert]
    split
    · rename_i hi; subst hi; exact ⟨g, rfl, hold o ho⟩
    · exact ⟨o, ho, .refl o⟩

theorem step_replaceAttachment (s : MemStash) (hs : Good H s) (i b : Nat) :
    Step H s (s.replaceAttachment i b) := by
  intro t r h
  cases h
  refine ⟨⟨hs.genesis, hs.extension, hs.bundle, hs.witness⟩, { Grows.refl (H := H) s with attachments := ?_ }⟩
  intro j hj
  obtain ⟨v, hv⟩ := OMap.contains_iff.mp hj
  refine OMap.contains_iff.mpr ?_
  simp only [OMap.get?_insert]
  split
  · exact ⟨_, rfl⟩
  · exact ⟨v, hv⟩

theorem step_consumeTypes (s : MemStash) (hs : Good H s) (l : List Nat) : Step H s (s.consumeTypes l) := by
  intro t r h
  cases h
  exact ⟨⟨hs.genesis, hs.extension, hs.bundle, hs.witness⟩,
    { Grows.refl (H := H) s with types := fun x hx => OSet.mem_extend.mpr (.inl hx) }⟩

theorem step_replaceLib (I : Ids) (s : MemStash) (hs : Good H s) (l : Nat) : Step H s (s.replaceLib I l) := by
  intro t r h
  cases h
  refine ⟨⟨hs.genesis, hs.extension, hs.bundle, hs.witness⟩, { Grows.refl (H := H) s with lib := ?_ }⟩
  intro i hi
  simp only [lib] at hi ⊢
  rw [OMap.get?_insert]
  split
  · rfl
  · exact hi

theorem pushSigs_keeps (ids : OMap Nat TrustLevel) (m : OMap Nat Nat) (l : List (Nat × Nat)) (i : Nat)
    (h : OMap.contains m i = true) : OMap.contains (pushSigs ids m l).2.1 i = true := by
  induction l generalizing ids m with
  | nil => exact h
  | cons e l ih =>
    obtain ⟨j, sg⟩ := e
    simp only [pushSigs]
    split
    · split
      · exact h
      · refine ih _ _ ?_
        obtain ⟨v, hv⟩ := OMap.contains_iff.mp h
        refine OMap.contains_iff.mpr ?_
        rw [OMap.get?_insert]
        split
        · exact ⟨_, rfl⟩
        · exact ⟨v, hv⟩
    · exact ih _ _ h

theorem step_importSigs (s : MemStash) (hs : Good H s) (c : Nat) (l : List (Nat × Nat)) :
    Step H s (s.importSigs c l) := by
  intro t r h
  simp only [importSigs] at h
  split at h
  · rename_i prev hp
    cases h
    refine ⟨⟨hs.genesis, hs.extension, hs.bundle, hs.witness⟩, { Grows.refl (H := H) s with sigs := ?_ }⟩
    intro d m i hm hi
    simp only [sigsFor] at hm ⊢
    rw [OMap.get?_insert]
    split
    · rename_i hd
      subst hd
      rw [hp] at hm; cases hm
      exact ⟨_, rfl, pushSigs_keeps _ _ _ _ hi⟩
    · exact ⟨m, hm, hi⟩
  · rename_i hp
    split at h
    · cases h
      refine ⟨⟨hs.genesis, hs.extension, hs.bundle, hs.witness⟩, { Grows.refl (H := H) s with sigs := ?_ }⟩
      intro d m i hm hi
      simp only [sigsFor] at hm ⊢
      rw [OMap.get?_insert]
      split
      · rename_i hd; subst hd; rw [hp] at hm; cases hm
      · exact ⟨m, hm, hi⟩
    · cases h
      exact ⟨⟨hs.genesis, hs.extension, hs.bundle, hs.witness⟩, { Grows.refl (H := H) s with }⟩

theorem step_addSecretSeal (s : MemStash) (hs : Good H s) (x : Seal) : Step H s (s.addSecretSeal x) := by
  intro t r h
  cases h
  exact ⟨⟨hs.genesis, hs.extension, hs.bundle, hs.witness⟩,
    { Grows.refl (H := H) s with seals := fun y hy => OSet.mem_insert.mpr (.inr hy) }⟩

/-! ## Consuming -/

theorem Op.contractId_shown {a b : Op} (h : a.ShownBy H b) (ha : a.kind = .genesis) (hb : b.kind = .genesis) :
    b.contractId H = a.contractId H := by
  simp only [Op.contractId, ha, hb, h.id]

theorem step_consumeGenesis (hH : H.Binding) (s : MemStash) (hs : Good H s) (g : Op) (hk : g.kind = .genesis)
    (hw : g.WF) : Step H s (s.consumeGenesis H g) ∧
      ∀ t b, s.consumeGenesis H g = some (t, .ok b) →
        ∃ g', t.genesis (g.contractId H) = some g' ∧ g.ShownBy H g' := by
  have put : ∀ (t : MemStash) (b : Bool) (g' : Op), g'.contractId H = g.contractId H →
      s.replaceGenesis H g' = some (t, .ok b) → t.genesis (g.contractId H) = some g' := by
    intro t b g' hg h
    simp only [replaceGenesis] at h
    split at h
    · cases h
    · cases h; simp [genesis, hg]
  cases ho : s.genesis (g.contractId H) with
  | none =>
    simp only [consumeGenesis, ho]
    refine ⟨step_replaceGenesis s hs g hk hw (fun o h => by rw [ho] at h; cases h), fun t b h => ?_⟩
    exact ⟨g, put t b g rfl h, .refl g⟩
  | some old =>
    simp only [consumeGenesis, ho]
    obtain ⟨h1, h2, h3⟩ := hs.genesis _ old ho
    have hid : old.id H = g.id H := by simpa [Op.contractId, h2, hk] using h1
    cases hm : old.merge H g with
    | error e =>
      exact ⟨fun t r h => (by cases h; exact ⟨hs, .refl _⟩), fun t b h => by cases h⟩
    | ok r =>
      obtain ⟨e1, e2, e3, e4⟩ := Op.shownBy_merge hH h3 hid hm
      have hrk : r.kind = .genesis := e4.trans h2
      have hrc : r.contractId H = g.contractId H := Op.contractId_shown e2 hk hrk
      refine ⟨step_replaceGenesis s hs r hrk e3 (fun o h => ?_), fun t b h => ?_⟩
      · rw [hrc, ho] at h; cases h; exact e1
      · exact ⟨r, put t b r hrc h, e2⟩

theorem step_consumeExtension (hH : H.Binding) (s : MemStash) (hs : Good H s) (g : Op)
    (hw : g.WF) : Step H s (s.consumeExtension H g) ∧
      ∀ t b, s.consumeExtension H g = some (t, .ok b) →
        ∃ g', t.extension (g.id H) = some g' ∧ g.ShownBy H g' := by
  have put : ∀ (t : MemStash) (b : Bool) (g' : Op), g'.id H = g.id H →
      s.replaceExtension H g' = some (t, .ok b) → t.extension (g.id H) = some g' := by
    intro t b g' hg h
    cases h; simp [extension, hg]
  cases ho : s.extension (g.id H) with
  | none =>
    simp only [consumeExtension, ho]
    refine ⟨step_replaceExtension s hs g hw (fun o h => by rw [ho] at h; cases h), fun t b h => ?_⟩
    exact ⟨g, put t b g rfl h, .refl g⟩
  | some old =>
    simp only [consumeExtension, ho]
    obtain ⟨h1, h3⟩ := hs.extension _ old ho
    cases hm : old.merge H g with
    | error e =>
      exact ⟨fun t r h => (by cases h; exact ⟨hs, .refl _⟩), fun t b h => by cases h⟩
    | ok r =>
      obtain ⟨e1, e2, e3, e4⟩ := Op.shownBy_merge hH h3 h1 hm
      refine ⟨step_replaceExtension s hs r e3 (fun o h => ?_), fun t b h => ?_⟩
      · rw [e2.id, ho] at h; cases h; exact e1
      · exact ⟨r, put t b r e2.id h, e2⟩

/-- Every transition with one of these ids is known, if the bundle is stored. -/
def Knows (s : MemStash) (b : Nat) (P : Nat → Prop) : Prop :=
  ∀ o, s.bundle b = some o → ∀ k, P k → OMap.contains o.known k = true

theorem step_consumeBundle (hH : H.Binding) (s : MemStash) (hs : Good H s) (g : Bundle)
    (hw : g.WF H) : Step H s (s.consumeBundle H g) ∧
      (∀ t b, s.consumeBundle H g = some (t, .ok b) →
        ∃ g', t.bundle (g.id H) = some g' ∧ g'.id H = g.id H ∧
          (Knows s (g.id H) (fun k => OMap.contains g.known k = true) → g.ShownBy H g')) ∧
      (∀ (x : Nat) (P : Nat → Prop), Knows s x P →
        (g.id H = x → ∀ k, P k → OMap.contains g.known k = true) →
        ∀ t r, s.consumeBundle H g = some (t, r) → Knows t x P) := by
  have put : ∀ (t : MemStash) (r : Except StashErr Bool) (g' : Bundle), g'.id H = g.id H →
      s.replaceBundle H g' = some (t, r) → ∀ x, t.bundle x = if x = g.id H then some g' else s.bundle x := by
    intro t b g' hg h x
    cases h; simp only [bundle, OMap.get?_insert, hg]
  cases ho : s.bundle (g.id H) with
  | none =>
    simp only [consumeBundle, ho]
    refine ⟨step_replaceBundle s hs g hw (fun o h => by rw [ho] at h; cases h), fun t b h => ?_, ?_⟩
    · exact ⟨g, by rw [put t _ g rfl h]; simp, rfl, fun _ => .refl g⟩
    · intro x P hx hg t r h o hto
      rw [put t r g rfl h] at hto
      split at hto
      · rename_i hx'; cases hto; exact hg hx'.symm
      · exact hx o hto
  | some old =>
    simp only [consumeBundle, ho]
    obtain ⟨h1, h3⟩ := hs.bundle _ old ho
    cases hm : old.merge H g with
    | error e =>
      exact ⟨fun t r h => (by cases h; exact ⟨hs, .refl _⟩), fun t b h => (by cases h),
        fun x P hx _ t r h => by cases h; exact hx⟩
    | ok r =>
      obtain ⟨e1, e2, e3⟩ := Bundle.shownBy_merge hH h3 hw h1 hm
      have hr : r.id H = g.id H := e1.id.trans h1
      refine ⟨step_replaceBundle s hs r (Bundle.merge_wf hH h3 hw hm) (fun o h => ?_), fun t b h => ?_, ?_⟩
      · rw [hr, ho] at h; cases h; exact e1
      · exact ⟨r, by rw [put t _ r hr h]; simp, hr, fun hk => e2 (hk old ho)⟩
      · intro x P hx hg t q h o hto
        rw [put t q r hr h] at hto
        split at hto
        · rename_i hx'
          cases hto
          intro k hk
          rw [e3 k]
          exact hx old (hx' ▸ ho) k hk
        · exact hx o hto

theorem merge_pub_shown {a b p : XPubWitness} (h : a.merge b = .ok p) :
    p.id = a.id ∧ p.id = b.id ∧ (a.pub.tx?.isSome = true → p.pub.tx?.isSome = true) ∧
    (b.pub.tx?.isSome = true → p.pub.tx?.isSome = true) := by
  obtain ⟨h1, h2, h3, -⟩ := (C16_witness_merge_partial a b).2 p h
  refine ⟨h1, h2, fun hx => ?_, fun hx => ?_⟩ <;> rw [h3, hx] <;> simp

theorem step_consumeWitness (s : MemStash) (hs : Good H s) (g : SealWitness) :
    Step H s (s.consumeWitness g) ∧
      (∀ t b, s.consumeWitness g = some (t, .ok b) → ∃ g', t.witness g.id = some g' ∧ g.ShownBy g') ∧
      (∀ t r, s.consumeWitness g = some (t, r) → t.bundles = s.bundles) := by
  have put : ∀ (t : MemStash) (b : Bool) (g' : SealWitness), g'.id = g.id →
      s.replaceWitness g' = some (t, .ok b) → t.witness g.id = some g' := by
    intro t b g' hg h
    cases h; simp [witness, hg]
  cases ho : s.witness g.id with
  | none =>
    simp only [consumeWitness, ho]
    refine ⟨step_replaceWitness s hs g (fun o h => by rw [ho] at h; cases h), fun t b h => ?_, ?_⟩
    · exact ⟨g, put t b g rfl h, .refl g⟩
    · intro t r h; cases h; rfl
  | some old =>
    simp only [consumeWitness, ho]
    have h1 := hs.witness _ old ho
    cases hm : old.pub.merge g.pub with
    | error e =>
      exact ⟨fun t r h => (by cases h; exact ⟨hs, .refl _⟩), fun t b h => (by cases h),
        fun t r h => by cases h; rfl⟩
    | ok p =>
      obtain ⟨q1, q2, q3, q4⟩ := merge_pub_shown hm
      cases hn : old.anchors.merge g.anchors with
      | error e =>
        exact ⟨fun t r h => (by cases h; exact ⟨hs, .refl _⟩), fun t b h => (by cases h),
          fun t r h => by cases h; rfl⟩
      | ok a =>
        have hk := AnchorSet.merge_knows hn
        refine ⟨step_replaceWitness s hs ⟨p, a⟩ (fun o h => ?_), fun t b h => ?_, ?_⟩
        · have : (⟨p, a⟩ : SealWitness).id = g.id := q2
          rw [this, ho] at h; cases h
          exact ⟨q1, q3, fun m c hc => (hk m c).mpr (.inl hc), fun m x hx => AnchorSet.merge_proofs hn m x (.inl hx)⟩
        · exact ⟨_, put t b ⟨p, a⟩ q2 h, q2, q4, fun m c hc => (hk m c).mpr (.inr hc), fun m x hx => AnchorSet.merge_proofs hn m x (.inr hx)⟩
        · intro t r h; cases h; rfl

/-- Storing the bundles of a witness and the anchors. -/
theorem step_consumeAnchored (hH : H.Binding) (M : Mpc) (c : Nat) (l : List ClientBundle)
    (hl : ∀ x ∈ l, x.bundle.WF H) (s : MemStash) (hs : Good H s) :
    Step H s (consumeAnchored H M c l s) ∧
      (∀ (x : Nat) (P : Nat → Prop), Knows s x P →
        (∀ b ∈ l, b.bundle.id H = x → ∀ k, P k → OMap.contains b.bundle.known k = true) →
        ∀ t r, consumeAnchored H M c l s = some (t, r) → Knows t x P) ∧
      (∀ t as, consumeAnchored H M c l s = some (t, .ok as) →
        (as.map Prod.fst = l.map (fun x => x.dbc.method)) ∧
        (∀ b ∈ l, ∃ g, t.bundle (b.bundle.id H) = some g ∧ g.id H = b.bundle.id H ∧
          ((∀ d ∈ l, d.bundle.id H = b.bundle.id H →
              ∀ k, OMap.contains b.bundle.known k = true → OMap.contains d.bundle.known k = true) →
            Knows s (b.bundle.id H) (fun k => OMap.contains b.bundle.known k = true) →
            b.bundle.ShownBy H g))) := by
  induction l generalizing s with
  | nil =>
    refine ⟨fun t r h => by cases h; exact ⟨hs, .refl _⟩, fun x P hx _ t r h => by cases h; exact hx,
      fun t as h => ?_⟩
    cases h
    exact ⟨rfl, fun b hb => by cases hb⟩
  | cons b l ih =>
    obtain ⟨s1, s2, s3⟩ := step_consumeBundle hH s hs b.bundle (hl b List.mem_cons_self)
    have hl' := fun x hx => hl x (List.mem_cons_of_mem b hx)
    refine ⟨?_, ?_, ?_⟩
    · refine Step.bind s1 (fun t a ht hgt => ?_)
      cases hb : M.block b.mpc c (b.bundle.id H) with
      | none => intro t' r h; cases h; exact ⟨hgt, .refl _⟩
      | some p =>
        refine Step.bind (ih hl' t hgt).1 (fun u as _ hu => ?_)
        intro t' r h; cases h; exact ⟨hu, .refl _⟩
    · intro x P hx hP t r h
      simp only [consumeAnchored] at h
      cases hc : s.consumeBundle H b.bundle with
      | none => rw [hc] at h; cases h
      | some p =>
        obtain ⟨u, o⟩ := p
        have hku := s3 x P hx (hP b List.mem_cons_self) u o hc
        have hgu := (s1 u o hc).1
        rw [hc] at h
        cases o with
        | error e => cases h; exact hku
        | ok a =>
          simp only [SR.bind] at h
          split at h
          · cases h; exact hku
          · have hk2 := (ih hl' u hgu).2.1 x P hku (fun d hd => hP d (List.mem_cons_of_mem b hd))
            split at h
            · cases h
            · cases h; rename_i hq; exact hk2 _ _ hq
            · cases h; rename_i hq; exact hk2 _ _ hq
    · intro t as h
      obtain ⟨u, a, hu, h⟩ := bind_ok h
      obtain ⟨hgu, hsu⟩ := s1 _ _ hu
      split at h
      · cases h
      · obtain ⟨v, as', hv, h⟩ := bind_ok h
        cases h
        obtain ⟨i1, i2, i3⟩ := ih hl' u hgu
        obtain ⟨j1, j2⟩ := i3 t as' hv
        refine ⟨by simp [j1], fun d hd => ?_⟩
        rcases List.mem_cons.mp hd with rfl | hd
        · obtain ⟨g, g1, g2, g3⟩ := s2 u a hu
          obtain ⟨g', e1, e2⟩ := (i1 _ _ hv).2.bundle _ _ g1
          exact ⟨g', e1, e2.id.trans g2, fun _ hk => (g3 hk).trans e2⟩
        · obtain ⟨g, g1, g2, g3⟩ := j2 d hd
          refine ⟨g, g1, g2, fun hall hk => g3 (fun d' hd' => hall d' (List.mem_cons_of_mem b hd')) ?_⟩
          exact s3 _ _ hk (hall b List.mem_cons_self) u _ hu

theorem consumeAnchored_anchors (M : Mpc) (c : Nat) (l : List ClientBundle) (s t : MemStash)
    (as : List (CloseMethod × Anchor)) (h : consumeAnchored H M c l s = some (t, .ok as)) :
    ∀ x ∈ l, ∀ p, M.block x.mpc c (x.bundle.id H) = some p → ∃ a, (x.dbc.method, a) ∈ as ∧ a.known = p.2 := by
  induction l generalizing s as with
  | nil => intro x hx; cases hx
  | cons b l ih =>
    obtain ⟨u, a, hu, h⟩ := bind_ok h
    split at h
    · cases h
    · rename_i root known hb
      obtain ⟨v, as', hv, h⟩ := bind_ok h
      cases h
      intro x hx p hp
      rcases List.mem_cons.mp hx with rfl | hx
      · rw [hb] at hp; cases hp
        exact ⟨_, List.mem_cons_self, rfl⟩
      · obtain ⟨a, h1, h2⟩ := ih u as' hv x hx p hp
        exact ⟨a, List.mem_cons_of_mem _ h1, h2⟩

theorem anchorSetOf_knows {as : List (CloseMethod × Anchor)} {y : AnchorSet} (h : anchorSetOf as = some y)
    {m : CloseMethod} {a : Anchor} (ha : (m, a) ∈ as) {k : Nat} (hk : k ∈ OMap.keys a.known) : y.knows m k := by
  unfold anchorSetOf at h
  split at h <;> cases h <;> simp only [List.mem_cons, Prod.mk.injEq, List.not_mem_nil, or_false] at ha
  · obtain ⟨rfl, rfl⟩ := ha; exact hk
  · obtain ⟨rfl, rfl⟩ := ha; exact hk
  · rcases ha with ⟨rfl, rfl⟩ | ⟨rfl, rfl⟩ <;> exact hk
  · rcases ha with ⟨rfl, rfl⟩ | ⟨rfl, rfl⟩ <;> exact hk

theorem step_consumeWitnessBundle (hH : H.Binding) (M : Mpc) (c : Nat) (w : WitnessBundle)
    (hw : ∀ b ∈ w.anchored.bundles, b.WF H) (s : MemStash) (hs : Good H s) :
    Step H s (consumeWitnessBundle H M c s w) ∧
      (∀ (x : Nat) (P : Nat → Prop), Knows s x P →
        (∀ b ∈ w.anchored.bundles, b.id H = x → ∀ k, P k → OMap.contains b.known k = true) →
        ∀ t r, consumeWitnessBundle H M c s w = some (t, r) → Knows t x P) ∧
      (∀ t r, consumeWitnessBundle H M c s w = some (t, .ok r) →
        (∃ y, t.witness w.id = some y ∧ y.id = w.id ∧
          (w.pub.pub.tx?.isSome = true → y.pub.pub.tx?.isSome = true) ∧
          (∀ x ∈ w.anchored.list, ∀ p k, M.block x.mpc c (x.bundle.id H) = some p → k ∈ OMap.keys p.2 →
          y.anchors.knows x.dbc.method k)) ∧
        (∀ b ∈ w.anchored.bundles, ∃ g, t.bundle (b.id H) = some g ∧ g.id H = b.id H ∧
          ((∀ d ∈ w.anchored.bundles, d.id H = b.id H →
              ∀ k, OMap.contains b.known k = true → OMap.contains d.known k = true) →
            Knows s (b.id H) (fun k => OMap.contains b.known k = true) → b.ShownBy H g))) := by
  have hl : ∀ x ∈ w.anchored.list, x.bundle.WF H :=
    fun x hx => hw _ (List.mem_map.mpr ⟨x, hx, rfl⟩)
  obtain ⟨a1, a2, a3⟩ := step_consumeAnchored hH M c w.anchored.list hl s hs
  refine ⟨?_, ?_, ?_⟩
  · refine Step.bind a1 (fun t as _ ht => ?_)
    cases anchorSetOf as with
    | none => intro _ _ h; cases h
    | some y => exact (step_consumeWitness t ht ⟨w.pub, y⟩).1
  · intro x P hx hP t r h
    have hk := a2 x P hx (fun b hb => hP _ (List.mem_map.mpr ⟨b, hb, rfl⟩))
    simp only [consumeWitnessBundle] at h
    cases hc : consumeAnchored H M c w.anchored.list s with
    | none => rw [hc] at h; cases h
    | some p =>
      obtain ⟨u, o⟩ := p
      have hku := hk u o hc
      have hgu := (a1 u o hc).1
      rw [hc] at h
      cases o with
      | error e => cases h; exact hku
      | ok as =>
        simp only [SR.bind] at h
        split at h
        · cases h
        · rename_i y _
          have hb := (step_consumeWitness u hgu ⟨w.pub, y⟩).2.2 t r h
          intro o ho
          refine hku o ?_
          simpa [bundle, hb] using ho
  · intro t r h
    obtain ⟨u, as, hu, h⟩ := bind_ok h
    have hgu := (a1 _ _ hu).1
    split at h
    · cases h
    · rename_i y hy
      obtain ⟨c1, c2, c3⟩ := step_consumeWitness u hgu ⟨w.pub, y⟩
      obtain ⟨g', g1, g2⟩ := c2 t r h
      refine ⟨⟨g', g1, g2.id, g2.tx, fun x hx p k hp hk => ?_⟩, fun b hb => ?_⟩
      · obtain ⟨a, ha1, ha2⟩ := consumeAnchored_anchors M c _ s u as hu x hx p hp
        exact g2.anchors _ _ (anchorSetOf_knows hy ha1 (ha2 ▸ hk))
      obtain ⟨x, hx, rfl⟩ := List.mem_map.mp hb
      obtain ⟨g, e1, e2, e3⟩ := (a3 u as hu).2 x hx
      refine ⟨g, ?_, e2, fun hall => e3 (fun d hd => hall _ (List.mem_map.mpr ⟨d, hd, rfl⟩))⟩
      simpa [bundle, c3 t _ h] using e1

theorem step_importAllSigs (l : List (Nat × List (Nat × Nat))) (s : MemStash) (hs : Good H s) :
    Step H s (importAllSigs l s) := by
  induction l generalizing s with
  | nil => intro t r h; cases h; exact ⟨hs, .refl _⟩
  | cons e l ih =>
    obtain ⟨c, m⟩ := e
    intro t r h
    simp only [importAllSigs] at h
    split at h
    · cases h
    · rename_i u o hu
      obtain ⟨g1, g2⟩ := step_importSigs s hs c m _ _ hu
      obtain ⟨g3, g4⟩ := ih u g1 t r h
      exact ⟨g3, g2.trans g4⟩

theorem step_consumeKit (I : Ids) (s : MemStash) (hs : Good H s) (k : Kit) : Step H s (s.consumeKit I k) :=
  Step.bind (step_consumeTypes s hs _) fun t1 _ _ h1 =>
  Step.bind (Step.each (fun a _ s hs => step_replaceLib I s hs a) t1 h1) fun t2 _ _ h2 =>
  Step.bind (Step.each (fun a _ s hs => step_replaceSchema I s hs a) t2 h2) fun t3 _ _ h3 =>
  Step.bind (Step.each (fun a _ s hs => step_replaceIface I s hs a) t3 h3) fun t4 _ _ h4 =>
  Step.bind (Step.each (fun a _ s hs => step_replaceIimpl s hs a) t4 h4) fun t5 _ _ h5 =>
  Step.bind (Step.each (fun a _ s hs => step_addSupplement s hs a) t5 h5) fun t6 _ _ h6 =>
  step_importAllSigs _ t6 h6

theorem iface_replaceIface (I : Ids) (s t : MemStash) (d : IfaceDoc) (b : Bool)
    (h : s.replaceIface I d = some (t, .ok b)) : (t.ifaceById (I.iface d)).isSome = true := by
  simp only [replaceIface] at h
  split at h
  · rename_i hc; cases h; exact hc
  · split at h
    · cases h
    · cases h; simp [ifaceById]

theorem schema_isSome_replaceSchema (I : Ids) (s t : MemStash) (d : SchemaDoc) (b : Bool)
    (h : s.replaceSchema I d = some (t, .ok b)) : (t.schema (I.schema d)).isSome = true := by
  simp only [replaceSchema] at h
  split at h
  · rename_i hc; cases h; exact hc
  · split at h
    · cases h
    · cases h; simp [schema]

/-- The first value with a property is the one with the least key. -/
theorem find_vals {V : Type} {m : OMap Nat V} (hs : OMap.Sorted m) (p : V → Bool) (d : V) :
    (OMap.vals m).find? p = some d ↔
      p d = true ∧ ∃ i, OMap.get? m i = some d ∧ ∀ j e, OMap.get? m j = some e → p e = true → i ≤ j := by
  induction m with
  | nil => simp [OMap.vals, OMap.get?]
  | cons x m ih =>
    obtain ⟨k, v⟩ := x
    have hlt : ∀ j e, OMap.get? m j = some e → k < j := fun j e h => by
      have := hs.head (List.mem_map.mpr ⟨_, OMap.mem_of_get? h, rfl⟩)
      simpa [Key.lt, Key.enc, lexLt] using this
    simp only [OMap.vals, List.map_cons, List.find?_cons]
    split
    · rename_i hp
      constructor
      · intro h; cases h
        refine ⟨hp, k, by simp [OMap.get?_cons], fun j e h _ => ?_⟩
        rw [OMap.get?_cons] at h
        split at h
        · omega
        · exact Nat.le_of_lt (hlt j e h)
      · rintro ⟨hd, i, hi, hmin⟩
        rw [OMap.get?_cons] at hi
        split at hi
        · exact hi
        · have h1 := hlt i d hi
          have h2 := hmin k v (by simp [OMap.get?_cons]) hp
          omega
    · rename_i hp
      refine (ih hs.tail).trans (and_congr_right fun hd => ?_)
      constructor
      · rintro ⟨i, hi, hmin⟩
        refine ⟨i, ?_, fun j e h he => ?_⟩
        · rw [OMap.get?_cons, if_neg (by have := hlt i d hi; omega)]; exact hi
        · rw [OMap.get?_cons] at h
          split at h
          · cases h; rw [he] at hp; cases hp
          · exact hmin j e h he
      · rintro ⟨i, hi, hmin⟩
        rw [OMap.get?_cons] at hi
        split at hi
        · cases hi; rw [hd] at hp; cases hp
        · refine ⟨i, hi, fun j e h he => hmin j e ?_ he⟩
          rw [OMap.get?_cons, if_neg (by have := hlt j e h; omega)]; exact h

theorem Implemented.grows {s t : MemStash} (hg : Grows H s t) {i j : Nat} (h : s.Implemented i j) : t.Implemented i j := by
  obtain ⟨si, d, h1, h2, h3⟩ := h
  obtain ⟨sj, h4, -, h5⟩ := hg.schema _ si h1
  exact ⟨sj, d, h4, hg.iface _ d h2, h5 _ h3⟩

theorem implemented_replaceIimpl (s t : MemStash) (x : IimplDoc) (b : Bool)
    (h : s.replaceIimpl x = some (t, .ok b)) : t.Implemented x.schemaId x.ifaceId := by
  simp only [replaceIimpl] at h
  split at h
  · rename_i si d h1 h2
    split at h
    · cases h
    · cases h
      exact ⟨_, d, by simp only [schema]; rw [OMap.get?_insert_self], h2, by rw [OMap.get?_insert_self]; rfl⟩
  · cases h

theorem consumeKit_ok (I : Ids) (s t : MemStash) (u : Unit) (hs : Good H s) (k : Kit)
    (h : s.consumeKit I k = some (t, .ok u)) :
    (∀ x ∈ k.types, x ∈ t.types) ∧ (∀ x ∈ k.scripts, (t.lib (I.lib x)).isSome = true) ∧
    (∀ x ∈ k.schemata, (t.schema (I.schema x)).isSome = true) ∧
    (∀ x ∈ k.ifaces, (t.ifaceById (I.iface x)).isSome = true) ∧
    (∀ x ∈ k.supplements, x ∈ t.supplements x.ref) ∧ (∀ x ∈ k.iimpls, t.Implemented x.schemaId x.ifaceId) := by
  obtain ⟨t1, _, e1, h⟩ := bind_ok h
  have g1 := step_consumeTypes (H := H) s hs _ _ _ e1
  obtain ⟨t2, _, e2, h⟩ := bind_ok h
  have g2 := Step.each (H := H) (fun a _ s hs => step_replaceLib I s hs a) t1 g1.1 _ _ e2
  obtain ⟨t3, _, e3, h⟩ := bind_ok h
  have g3 := Step.each (H := H) (fun a _ s hs => step_replaceSchema I s hs a) t2 g2.1 _ _ e3
  obtain ⟨t4, _, e4, h⟩ := bind_ok h
  have g4 := Step.each (H := H) (fun a _ s hs => step_replaceIface I s hs a) t3 g3.1 _ _ e4
  obtain ⟨t5, _, e5, h⟩ := bind_ok h
  have g5 := Step.each (H := H) (fun a _ s hs => step_replaceIimpl s hs a) t4 g4.1 _ _ e5
  obtain ⟨t6, _, e6, h⟩ := bind_ok h
  have g6 := Step.each (H := H) (fun a _ s hs => step_addSupplement s hs a) t5 g5.1 _ _ e6
  have g7 := step_importAllSigs (H := H) _ t6 g6.1 _ _ h
  have w6 := g7.2
  have w5 := g6.2.trans w6
  have w4 := g5.2.trans w5
  have w3 := g4.2.trans w4
  have w2 := g3.2.trans w3
  have w1 := g2.2.trans w2
  refine ⟨fun x hx => ?_, fun x hx => ?_, fun x hx => ?_, fun x hx => ?_, fun x hx => ?_, fun x hx => ?_⟩
  · refine w1.types x ?_
    cases e1; exact OSet.mem_extend.mpr (.inr hx)
  · refine w2.lib _ ?_
    refine each_ok (H := H) (Q := fun x s => (s.lib (I.lib x)).isSome = true)
      (fun a _ s hs => step_replaceLib I s hs a) ?_ (fun a s t hg hq => hg.lib _ hq) t1 t2 _ g1.1 e2 x hx
    intro a _ s t b _ h; cases h; simp [lib]
  · have : ∀ a s t, Grows H s t → (s.schema (I.schema a)).isSome = true → (t.schema (I.schema a)).isSome = true := by
      intro a s t hg hq
      obtain ⟨d, hd⟩ := Option.isSome_iff_exists.mp hq
      obtain ⟨e, he, -⟩ := hg.schema _ d hd
      simp [he]
    refine this x t3 t w3 ?_
    exact each_ok (H := H) (Q := fun x s => (s.schema (I.schema x)).isSome = true)
      (fun a _ s hs => step_replaceSchema I s hs a)
      (fun a _ s t b _ h => schema_isSome_replaceSchema I s t a b h) this t2 t3 _ g2.1 e3 x hx
  · have : ∀ a s t, Grows H s t → (s.ifaceById (I.iface a)).isSome = true →
        (t.ifaceById (I.iface a)).isSome = true := by
      intro a s t hg hq
      obtain ⟨d, hd⟩ := Option.isSome_iff_exists.mp hq
      simp [hg.iface _ d hd]
    refine this x t4 t w4 ?_
    exact each_ok (H := H) (Q := fun x s => (s.ifaceById (I.iface x)).isSome = true)
      (fun a _ s hs => step_replaceIface I s hs a)
      (fun a _ s t b _ h => iface_replaceIface I s t a b h) this t3 t4 _ g3.1 e4 x hx
  · refine w6.supplements _ x ?_
    exact each_ok (H := H) (Q := fun (x : SupplDoc) s => x ∈ s.supplements x.ref)
      (fun a _ s hs => step_addSupplement s hs a)
      (fun a _ s t b _ h => mem_addSupplement s t a b h) (fun a s t hg hq => hg.supplements _ _ hq) t5 t6 _ g5.1 e6 x hx
  · refine Implemented.grows w5 ?_
    exact each_ok (H := H) (Q := fun (x : IimplDoc) s => s.Implemented x.schemaId x.ifaceId)
      (fun a _ s hs => step_replaceIimpl s hs a)
      (fun a _ s t b _ h => implemented_replaceIimpl s t a b h) (fun a s t hg hq => Implemented.grows hg hq) t4 t5 _ g4.1 e5 x hx

theorem bundles_each {α β : Type} {f : MemStash → α → SR β}
    (hf : ∀ s a t r, f s a = some (t, r) → t.bundles = s.bundles) (l : List α) (s t : MemStash)
    (r : Except StashErr Unit) (h : SR.each f l s = some (t, r)) : t.bundles = s.bundles := by
  induction l generalizing s with
  | nil => cases h; rfl
  | cons a l ih =>
    simp only [SR.each] at h
    cases hx : f s a with
    | none => rw [hx] at h; cases h
    | some p =>
      obtain ⟨u, o⟩ := p
      rw [hx] at h
      cases o with
      | error e => cases h; exact hf _ _ _ _ hx
      | ok b => exact (ih u h).trans (hf _ _ _ _ hx)

theorem bundles_consumeGenesis (s t : MemStash) (g : Op) (r : Except StashErr Bool)
    (h : s.consumeGenesis H g = some (t, r)) : t.bundles = s.bundles := by
  simp only [consumeGenesis, replaceGenesis] at h
  split at h
  · split at h <;> cases h <;> rfl
  · split at h
    · cases h; rfl
    · split at h <;> cases h <;> rfl

theorem bundles_consumeExtension (s : MemStash) (g : Op) (t : MemStash) (r : Except StashErr Bool)
    (h : s.consumeExtension H g = some (t, r)) : t.bundles = s.bundles := by
  simp only [consumeExtension, replaceExtension] at h
  split at h
  · cases h; rfl
  · split at h <;> cases h <;> rfl

/-- All the bundles of the consignment with their ids. -/
theorem witnessBundles_ok (hH : H.Binding) (M : Mpc) (c : Nat) (l : List WitnessBundle)
    (hl : ∀ w ∈ l, ∀ b ∈ w.anchored.bundles, b.WF H) (s t : MemStash) (u : Unit) (hs : Good H s)
    (h : SR.each (consumeWitnessBundle H M c) l s = some (t, .ok u)) :
    (∀ w ∈ l, ∃ y, t.witness w.id = some y ∧ y.id = w.id ∧
      (w.pub.pub.tx?.isSome = true → y.pub.pub.tx?.isSome = true) ∧
      (∀ x ∈ w.anchored.list, ∀ p k, M.block x.mpc c (x.bundle.id H) = some p → k ∈ OMap.keys p.2 →
          y.anchors.knows x.dbc.method k)) ∧
    (∀ w ∈ l, ∀ b ∈ w.anchored.bundles, ∃ g, t.bundle (b.id H) = some g ∧ g.id H = b.id H ∧
      ((∀ v ∈ l, ∀ d ∈ v.anchored.bundles, d.id H = b.id H →
          ∀ k, OMap.contains b.known k = true → OMap.contains d.known k = true) →
        Knows s (b.id H) (fun k => OMap.contains b.known k = true) → b.ShownBy H g)) := by
  induction l generalizing s with
  | nil => exact ⟨fun w hw => (by cases hw), fun w hw => by cases hw⟩
  | cons v l ih =>
    obtain ⟨s1, r, h1, h2⟩ := bind_ok h
    obtain ⟨a1, a2, a3⟩ := step_consumeWitnessBundle hH M c v (hl v List.mem_cons_self) s hs
    have hl' := fun x hx => hl x (List.mem_cons_of_mem v hx)
    have g1 := (a1 _ _ h1).1
    obtain ⟨i1, i2⟩ := ih hl' s1 g1 h2
    have hgr := (Step.each (fun w hw s hs => (step_consumeWitnessBundle hH M c w (hl' w hw) s hs).1) s1 g1 _ _ h2).2
    obtain ⟨b1, b2⟩ := a3 s1 r h1
    constructor
    · intro w hw
      rcases List.mem_cons.mp hw with rfl | hw
      · obtain ⟨y, y1, y2, y3, y4⟩ := b1
        obtain ⟨y', z1, z2⟩ := hgr.witness _ _ y1
        exact ⟨y', z1, z2.id.trans y2, fun hx => z2.tx (y3 hx),
          fun x hx p k hp hk => z2.anchors _ _ (y4 x hx p k hp hk)⟩
      · exact i1 w hw
    · intro w hw b hb
      rcases List.mem_cons.mp hw with rfl | hw
      · obtain ⟨g, e1, e2, e3⟩ := b2 b hb
        obtain ⟨g', f1, f2⟩ := hgr.bundle _ _ e1
        exact ⟨g', f1, f2.id.trans e2, fun hall hk => (e3 (hall w List.mem_cons_self) hk).trans f2⟩
      · obtain ⟨g, e1, e2, e3⟩ := i2 w hw b hb
        refine ⟨g, e1, e2, fun hall hk => e3 (fun x hx => hall x (List.mem_cons_of_mem v hx)) ?_⟩
        exact a2 _ _ hk (hall v List.mem_cons_self) s1 _ h1

theorem step_consumeConsignment (hH : H.Binding) (I : Ids) (M : Mpc) (s : MemStash) (hs : Good H s)
    (con : Consignment) (hc : con.Proper H) : Step H s (consumeConsignment H I M s con) :=
  Step.bind (step_consumeGenesis hH s hs _ hc.genesisKind hc.genesis).1 fun t1 _ _ h1 =>
  Step.bind (Step.each (fun e he s hs => (step_consumeExtension hH s hs e (hc.extensions e he)).1) t1 h1)
    fun t2 _ _ h2 =>
  Step.bind (Step.each (fun w hw s hs => (step_consumeWitnessBundle hH M _ w (hc.bundles w hw) s hs).1) t2 h2)
    fun t3 _ _ h3 =>
  Step.bind (Step.each (fun a _ s hs => step_replaceAttachment s hs a.1 a.2) t3 h3) fun t4 _ _ h4 =>
  step_consumeKit I t4 h4 _

/-! ## Histories of writes -/

theorem addressed_insert {κ ν : Type} [Key κ] [DecidableEq κ] {m : OMap κ ν} {f : ν → κ} (v : ν) {k : κ} (hk : f v = k)
    (h : ∀ i x, OMap.get? m i = some x → f x = i) :
    ∀ i x, OMap.get? (OMap.insert m k v) i = some x → f x = i := by
  intro i x hx
  rw [OMap.get?_insert] at hx
  split at hx
  · rename_i hi; cases hx; rw [hi]; exact hk
  · exact h i x hx

theorem addressed_exec (H : Commit) (I : Ids) (s t : MemStash) (hs : Addressed H I s) (w : StashWrite)
    (h : w.exec H I s = some t) : Addressed H I t := by
  cases w with
  | schema d =>
    simp only [StashWrite.exec, replaceSchema] at h
    split at h
    · cases h; exact hs
    · split at h <;> cases h
      · exact hs
      · exact { hs with schema := addressed_insert (f := fun (x : SchemaIfaces) => I.schema x.doc) _ rfl hs.schema }
  | iface d =>
    simp only [StashWrite.exec, replaceIface] at h
    split at h
    · cases h; exact hs
    · split at h <;> cases h
      · exact hs
      · exact { hs with iface := addressed_insert _ rfl hs.iface }
  | iimpl x =>
    simp only [StashWrite.exec, replaceIimpl] at h
    split at h
    · rename_i si d h1 h2
      split at h <;> cases h
      · exact hs
      · exact { hs with schema := addressed_insert (f := fun (x : SchemaIfaces) => I.schema x.doc) _ (hs.schema _ si h1) hs.schema }
    · cases h
  | trust i l => cases h; exact { hs with }
  | supplement x =>
    simp only [StashWrite.exec, addSupplement] at h
    have key : ∀ l, (∀ y ∈ l, y.ref = x.ref) → Addressed H I { s with suppl := OMap.insert s.suppl x.ref l } := by
      intro l hl
      refine { hs with supplements := ?_ }
      intro r y hy
      simp only [supplements, OMap.get?_insert] at hy
      split at hy
      · rename_i hr; rw [hr]; exact hl y hy
      · exact hs.supplements r y hy
    split at h
    · split at h <;> cases h
      · exact hs
      · exact key [x] (by simp)
    · rename_i l hl
      split at h
      · cases h; exact hs
      · rename_i l' hl'
        cases h
        refine key l' ?_
        intro y hy
        simp only [tinyPush] at hl'
        split at hl'
        · cases hl'
        · cases hl'
          rcases OSet.mem_insert.mp hy with rfl | hy
          · rfl
          · exact hs.supplements x.ref y (by simpa [supplements, hl] using hy)
  | genesis g =>
    simp only [StashWrite.exec, replaceGenesis] at h
    split at h <;> cases h
    · exact hs
    · exact { hs with genesis := addressed_insert _ rfl hs.genesis }
  | extension e => cases h; exact { hs with extension := addressed_insert _ rfl hs.extension }
  | bundle b => cases h; exact { hs with bundle := addressed_insert _ rfl hs.bundle }
  | witness w => cases h; exact { hs with witness := addressed_insert _ rfl hs.witness }
  | attachment i b => cases h; exact { hs with }
  | types l => cases h; exact { hs with }
  | lib l => cases h; exact { hs with lib := addressed_insert _ rfl hs.lib }
  | sigs c l =>
    simp only [StashWrite.exec, importSigs] at h
    split at h
    · cases h; exact { hs with }
    · split at h <;> cases h <;> exact { hs with }
  | secretSeal x => cases h; exact { hs with }

theorem addressed_empty (H : Commit) (I : Ids) : Addressed H I {} := by
  constructor <;> intro _ _ h <;> cases h

theorem isSome_insert {κ ν : Type} [Key κ] [DecidableEq κ] (m : OMap κ ν) (k i : κ) (v : ν)
    (h : (OMap.get? m i).isSome = true) : (OMap.get? (OMap.insert m k v) i).isSome = true := by
  rw [OMap.get?_insert]; split
  · rfl
  · exact h

theorem Keeps.refl (s : MemStash) : Keeps s s :=
  ⟨fun _ d h => ⟨d, h, rfl, fun _ h => h⟩, fun _ _ h => h, fun _ h => h, fun _ h => h, fun _ h => h, fun _ h => h, fun _ h => h,
    fun _ _ h => h, fun _ h => h, fun _ h => h, fun _ _ h => h, fun _ h => h⟩

theorem Keeps.trans {s t u : MemStash} (a : Keeps s t) (b : Keeps t u) : Keeps s u := by
  refine ⟨fun i d h => ?_, fun i d h => b.iface i d (a.iface i d h), fun i h => b.lib i (a.lib i h),
    fun i h => b.genesis i (a.genesis i h), fun i h => b.extension i (a.extension i h),
    fun i h => b.bundle i (a.bundle i h), fun i h => b.witness i (a.witness i h),
    fun r x h => b.supplements r x (a.supplements r x h), fun x h => b.types x (a.types x h),
    fun x h => b.seals x (a.seals x h), fun c i h => b.sigs c i (a.sigs c i h), fun i h => b.attachments i (a.attachments i h)⟩
  obtain ⟨e, h1, h2, h2'⟩ := a.schema i d h
  obtain ⟨f, h3, h4, h4'⟩ := b.schema i e h1
  exact ⟨f, h3, h4.trans h2, fun n hn => h4' n (h2' n hn)⟩

/-- Steps which keep everything disclosed keep everything available. -/
theorem Grows.keeps {H : Commit} {s t : MemStash} (g : Grows H s t) : Keeps s t where
  schema := g.schema
  iface := g.iface
  lib := g.lib
  genesis i h := by
    obtain ⟨x, hx⟩ := Option.isSome_iff_exists.mp h
    obtain ⟨y, hy, -⟩ := g.genesis i x hx
    simp [hy]
  extension i h := by
    obtain ⟨x, hx⟩ := Option.isSome_iff_exists.mp h
    obtain ⟨y, hy, -⟩ := g.extension i x hx
    simp [hy]
  bundle i h := by
    obtain ⟨x, hx⟩ := Option.isSome_iff_exists.mp h
    obtain ⟨y, hy, -⟩ := g.bundle i x hx
    simp [hy]
  witness i h := by
    obtain ⟨x, hx⟩ := Option.isSome_iff_exists.mp h
    obtain ⟨y, hy, -⟩ := g.witness i x hx
    simp [hy]
  supplements := g.supplements
  attachments := g.attachments
  types := g.types
  seals := g.seals
  sigs c i h := by
    simp only [sig?] at h
    cases hm : s.sigsFor c with
    | none => rw [hm] at h; cases h
    | some m =>
      rw [hm] at h
      obtain ⟨m', h1, h2⟩ := g.sigs c m i hm h
      simp only [sig?, h1]
      exact h2

theorem keeps_exec (H : Commit) (I : Ids) (s t : MemStash) (w : StashWrite) (h : w.exec H I s = some t) :
    Keeps s t := by
  cases w with
  | genesis g =>
    simp only [StashWrite.exec, replaceGenesis] at h
    split at h <;> cases h
    · exact .refl s
    · exact { Keeps.refl s with genesis := fun i hi => isSome_insert _ _ _ _ hi }
  | extension e =>
    cases h
    exact { Keeps.refl s with extension := fun i hi => isSome_insert _ _ _ _ hi }
  | bundle e =>
    cases h
    exact { Keeps.refl s with bundle := fun i hi => isSome_insert _ _ _ _ hi }
  | witness e =>
    cases h
    exact { Keeps.refl s with witness := fun i hi => isSome_insert _ _ _ _ hi }
  | schema d =>
    simp only [StashWrite.exec, replaceSchema] at h
    split at h
    · cases h; exact .refl _
    · rename_i hc
      split at h <;> cases h
      · exact .refl _
      · refine { Keeps.refl s with schema := ?_ }
        intro i e he
        refine ⟨e, ?_, rfl, fun _ h => h⟩
        simp only [schema] at he ⊢
        rw [OMap.get?_insert]
        split
        · rename_i hi; exact absurd (OMap.contains_iff.mpr ⟨e, hi ▸ he⟩) hc
        · exact he
  | iface d =>
    simp only [StashWrite.exec, replaceIface] at h
    split at h
    · cases h; exact .refl _
    · rename_i hc
      split at h <;> cases h
      · exact .refl _
      · refine { Keeps.refl s with iface := ?_ }
        intro i e he
        simp only [ifaceById] at he ⊢
        rw [OMap.get?_insert]
        split
        · rename_i hi; exact absurd (OMap.contains_iff.mpr ⟨e, hi ▸ he⟩) hc
        · exact he
  | iimpl x =>
    simp only [StashWrite.exec, replaceIimpl] at h
    split at h
    · rename_i si d h1 h2
      split at h <;> cases h
      · exact .refl _
      · refine { Keeps.refl s with schema := ?_ }
        intro i e he
        simp only [schema] at he ⊢
        rw [OMap.get?_insert]
        split
        · rename_i hi
          subst hi
          rw [h1] at he; cases he
          exact ⟨_, rfl, rfl, fun n hn => get?_insert_isSome hn⟩
        · exact ⟨e, he, rfl, fun _ h => h⟩
    · cases h
  | trust i l => cases h; exact { Keeps.refl s with }
  | attachment i l => cases h; exact { Keeps.refl s with attachments := fun j hj => isSome_insert _ _ _ _ hj }
  | types l =>
    cases h
    exact { Keeps.refl s with types := fun x hx => OSet.mem_extend.mpr (.inl hx) }
  | lib l =>
    cases h
    exact { Keeps.refl s with lib := fun i hi => isSome_insert _ _ _ _ hi }
  | secretSeal l =>
    cases h
    exact { Keeps.refl s with seals := fun y hy => OSet.mem_insert.mpr (.inr hy) }
  | supplement x =>
    simp only [StashWrite.exec, addSupplement] at h
    have key : ∀ l, (∀ y ∈ s.supplements x.ref, y ∈ l) →
        Keeps s { s with suppl := OMap.insert s.suppl x.ref l } := by
      intro l hl
      refine { Keeps.refl s with supplements := ?_ }
      intro r y hy
      simp only [supplements, OMap.get?_insert]
      split
      · rename_i hr; subst hr; exact hl y hy
      · exact hy
    split at h
    · rename_i hn
      split at h <;> cases h
      · exact .refl s
      · exact key [x] (by simp [supplements, hn])
    · rename_i l hl
      split at h
      · cases h; exact .refl s
      · rename_i l' hl'
        cases h
        refine key l' ?_
        intro y hy
        simp only [tinyPush] at hl'
        split at hl'
        · cases hl'
        · cases hl'
          refine OSet.mem_insert.mpr (.inr ?_)
          simpa [supplements, hl] using hy
  | sigs c l =>
    simp only [StashWrite.exec, importSigs] at h
    split at h
    · rename_i prev hp
      cases h
      refine { Keeps.refl s with sigs := ?_ }
      intro d i hd
      simp only [sig?, sigsFor] at hd ⊢
      rw [OMap.get?_insert]
      split
      · rename_i hdc
        subst hdc
        rw [hp] at hd
        exact pushSigs_keeps _ _ _ _ hd
      · exact hd
    · rename_i hp
      split at h <;> cases h
      · refine { Keeps.refl s with sigs := ?_ }
        intro d i hd
        simp only [sig?, sigsFor] at hd ⊢
        rw [OMap.get?_insert]
        split
        · rename_i hdc; subst hdc; rw [hp] at hd; cases hd
        · exact hd
      · exact { Keeps.refl s with }

/-- The stash `t` is the result of some sequence of single writes. -/
def Writes (H : Commit) (I : Ids) (s t : MemStash) : Prop := ∃ ws, runWrites H I ws s = some t

theorem runWrites_append (I : Ids) (a b : List StashWrite) (s : MemStash) :
    runWrites H I (a ++ b) s = (runWrites H I a s).bind (runWrites H I b) := by
  induction a generalizing s with
  | nil => rfl
  | cons w a ih =>
    simp only [List.cons_append, runWrites]
    cases w.exec H I s with
    | none => rfl
    | some u => exact ih u

theorem Writes.refl (I : Ids) (s : MemStash) : Writes H I s s := ⟨[], rfl⟩

theorem Writes.trans {I : Ids} {s t u : MemStash} (a : Writes H I s t) (b : Writes H I t u) : Writes H I s u := by
  obtain ⟨x, hx⟩ := a
  obtain ⟨y, hy⟩ := b
  exact ⟨x ++ y, by rw [runWrites_append, hx]; exact hy⟩

theorem Writes.one {I : Ids} {s t : MemStash} (w : StashWrite) (h : w.exec H I s = some t) : Writes H I s t :=
  ⟨[w], by simp [runWrites, h]⟩

theorem Writes.bind {α β : Type} {I : Ids} {s t : MemStash} {x : SR α} {f : MemStash → α → SR β}
    {r : Except StashErr β} (hx : ∀ u o, x = some (u, o) → Writes H I s u)
    (hf : ∀ u a v o, f u a = some (v, o) → Writes H I u v) (h : SR.bind x f = some (t, r)) : Writes H I s t := by
  cases x with
  | none => cases h
  | some p =>
    obtain ⟨u, o⟩ := p
    cases o with
    | error e => cases h; exact hx _ _ rfl
    | ok a => exact (hx _ _ rfl).trans (hf u a t r h)

theorem Writes.each {α β : Type} {I : Ids} {f : MemStash → α → SR β}
    (hf : ∀ s a t r, f s a = some (t, r) → Writes H I s t) (l : List α) (s t : MemStash) (r : Except StashErr Unit)
    (h : SR.each f l s = some (t, r)) : Writes H I s t := by
  induction l generalizing s t r with
  | nil => cases h; exact .refl I _
  | cons a l ih => exact Writes.bind (fun u o hu => hf s a u o hu) (fun u _ v o hv => ih u v o hv) h

theorem exec_of {α : Type} {x : SR α} {t : MemStash} {r : Except StashErr α} (h : x = some (t, r)) :
    x.map Prod.fst = some t := by rw [h]; rfl

theorem writes_consumeGenesis (I : Ids) (s t : MemStash) (g : Op) (r : Except StashErr Bool)
    (h : s.consumeGenesis H g = some (t, r)) : Writes H I s t := by
  simp only [consumeGenesis] at h
  split at h
  · exact .one (.genesis g) (exec_of h)
  · split at h
    · cases h; exact .refl I _
    · rename_i x _; exact .one (.genesis x) (exec_of h)

theorem writes_consumeExtension (I : Ids) (s : MemStash) (g : Op) (t : MemStash) (r : Except StashErr Bool)
    (h : s.consumeExtension H g = some (t, r)) : Writes H I s t := by
  simp only [consumeExtension] at h
  split at h
  · exact .one (.extension g) (exec_of h)
  · split at h
    · cases h; exact .refl I _
    · rename_i x _; exact .one (.extension x) (exec_of h)

theorem writes_consumeBundle (I : Ids) (s : MemStash) (g : Bundle) (t : MemStash) (r : Except StashErr Bool)
    (h : s.consumeBundle H g = some (t, r)) : Writes H I s t := by
  simp only [consumeBundle] at h
  split at h
  · exact .one (.bundle g) (exec_of h)
  · split at h
    · cases h; exact .refl I _
    · rename_i x _; exact .one (.bundle x) (exec_of h)

theorem writes_consumeWitness (I : Ids) (s : MemStash) (g : SealWitness) (t : MemStash) (r : Except StashErr Bool)
    (h : s.consumeWitness g = some (t, r)) : Writes H I s t := by
  simp only [consumeWitness] at h
  split at h
  · exact .one (.witness g) (exec_of h)
  · split at h
    · cases h; exact .refl I _
    · split at h
      · cases h; exact .refl I _
      · exact .one (.witness ⟨_, _⟩) (exec_of h)

theorem writes_consumeAnchored (I : Ids) (M : Mpc) (c : Nat) (l : List ClientBundle) (s t : MemStash)
    (r : Except StashErr (List (CloseMethod × Anchor))) (h : consumeAnchored H M c l s = some (t, r)) :
    Writes H I s t := by
  induction l generalizing s t r with
  | nil => cases h; exact .refl I _
  | cons b l ih =>
    refine Writes.bind (fun u o hu => writes_consumeBundle I s b.bundle u o hu) (fun u a v o hv => ?_) h
    cases hb : M.block b.mpc c (b.bundle.id H) with
    | none => simp only [hb] at hv; cases hv; exact .refl I _
    | some p =>
      simp only [hb] at hv
      refine Writes.bind (fun w o' hw => ih u w o' hw) (fun w as v' o' hv' => ?_) hv
      cases hv'; exact .refl I _

theorem writes_consumeWitnessBundle (I : Ids) (M : Mpc) (c : Nat) (s : MemStash) (w : WitnessBundle) (t : MemStash)
    (r : Except StashErr Bool) (h : consumeWitnessBundle H M c s w = some (t, r)) : Writes H I s t := by
  refine Writes.bind (fun u o hu => writes_consumeAnchored I M c _ s u o hu) (fun u as v o hv => ?_) h
  cases ha : anchorSetOf as with
  | none => simp only [ha] at hv; cases hv
  | some y => simp only [ha] at hv; exact writes_consumeWitness I u _ v o hv

theorem writes_importAllSigs (I : Ids) (l : List (Nat × List (Nat × Nat))) (s t : MemStash)
    (r : Except StashErr Unit) (h : importAllSigs l s = some (t, r)) : Writes H I s t := by
  induction l generalizing s with
  | nil => cases h; exact .refl I _
  | cons e l ih =>
    obtain ⟨c, m⟩ := e
    simp only [importAllSigs] at h
    split at h
    · cases h
    · rename_i u o hu
      exact (Writes.one (.sigs c m) (exec_of hu)).trans (ih u h)

theorem writes_each_of {α β : Type} (I : Ids) {f : MemStash → α → SR β} (w : α → StashWrite)
    (hw : ∀ s a, (w a).exec H I s = (f s a).map Prod.fst) (l : List α) (s t : MemStash) (r : Except StashErr Unit)
    (h : SR.each f l s = some (t, r)) : Writes H I s t :=
  Writes.each (fun s a _ _ h => .one (w a) ((hw s a).trans (exec_of h))) l s t r h

theorem writes_consumeKit (I : Ids) (s : MemStash) (k : Kit) (t : MemStash) (r : Except StashErr Unit)
    (h : s.consumeKit I k = some (t, r)) : Writes H I s t := by
  refine Writes.bind (fun u o hu => Writes.one (.types k.types) ?_) (fun _ _ _ _ h => ?_) h
  · cases hu; rfl
  refine Writes.bind (fun _ _ hu => writes_each_of I .lib (fun _ _ => rfl) _ _ _ _ hu) (fun _ _ _ _ h => ?_) h
  refine Writes.bind (fun _ _ hu => writes_each_of I .schema (fun _ _ => rfl) _ _ _ _ hu) (fun _ _ _ _ h => ?_) h
  refine Writes.bind (fun _ _ hu => writes_each_of I .iface (fun _ _ => rfl) _ _ _ _ hu) (fun _ _ _ _ h => ?_) h
  refine Writes.bind (fun _ _ hu => writes_each_of I .iimpl (fun _ _ => rfl) _ _ _ _ hu) (fun _ _ _ _ h => ?_) h
  refine Writes.bind (fun _ _ hu => writes_each_of I .supplement (fun _ _ => rfl) _ _ _ _ hu) (fun _ _ _ _ h => ?_) h
  exact writes_importAllSigs I _ _ _ _ h

theorem writes_consumeConsignment (I : Ids) (M : Mpc) (s : MemStash) (con : Consignment) (t : MemStash)
    (r : Except StashErr Unit) (h : s.consumeConsignment H I M con = some (t, r)) : Writes H I s t := by
  refine Writes.bind (fun _ _ hu => writes_consumeGenesis I _ _ _ _ hu) (fun _ _ _ _ h => ?_) h
  refine Writes.bind (fun _ _ hu => Writes.each (writes_consumeExtension I) _ _ _ _ hu) (fun _ _ _ _ h => ?_) h
  refine Writes.bind (fun _ _ hu => Writes.each (writes_consumeWitnessBundle I M _) _ _ _ _ hu) (fun _ _ _ _ h => ?_) h
  refine Writes.bind (fun _ _ hu => writes_each_of I (fun a => .attachment a.1 a.2) (fun _ _ => rfl) _ _ _ _ hu)
    (fun _ _ _ _ h => ?_) h
  exact writes_consumeKit I _ _ _ _ h

theorem map_fst_some {α : Type} {x : SR α} {t : MemStash} (h : x.map Prod.fst = some t) : ∃ r, x = some (t, r) := by
  cases x with
  | none => cases h
  | some p => obtain ⟨u, o⟩ := p; cases h; exact ⟨o, rfl⟩

theorem writes_event (I : Ids) (M : Mpc) (s t : MemStash) (e : StashEvent) (h : e.exec H I M s = some t) :
    Writes H I s t := by
  cases e with
  | consignment c => obtain ⟨r, hr⟩ := map_fst_some h; exact writes_consumeConsignment I M s c t r hr
  | kit k => obtain ⟨r, hr⟩ := map_fst_some h; exact writes_consumeKit I s k t r hr
  | bundle b => obtain ⟨r, hr⟩ := map_fst_some h; exact writes_consumeBundle I s b t r hr
  | witness w => obtain ⟨r, hr⟩ := map_fst_some h; exact writes_consumeWitness I s w t r hr
  | secretSeal x => exact .one (.secretSeal x) h
  | trust i l => exact .one (.trust i l) h

theorem writes_runStash (I : Ids) (M : Mpc) (es : List StashEvent) (s t : MemStash)
    (h : runStash H I M es s = some t) : Writes H I s t := by
  induction es generalizing s with
  | nil => cases h; exact .refl I _
  | cons e es ih =>
    obtain ⟨u, hu, h⟩ := Option.bind_eq_some_iff.mp h
    exact (writes_event I M s u e hu).trans (ih u h)

theorem step_event (hH : H.Binding) (I : Ids) (M : Mpc) (s t : MemStash) (hs : Good H s) (e : StashEvent)
    (he : e.Proper H) (h : e.exec H I M s = some t) : Good H t ∧ Grows H s t := by
  cases e with
  | consignment c => obtain ⟨r, hr⟩ := map_fst_some h; exact step_consumeConsignment hH I M s hs c he t r hr
  | kit k => obtain ⟨r, hr⟩ := map_fst_some h; exact step_consumeKit I s hs k t r hr
  | bundle b => obtain ⟨r, hr⟩ := map_fst_some h; exact (step_consumeBundle hH s hs b he).1 t r hr
  | witness w => obtain ⟨r, hr⟩ := map_fst_some h; exact (step_consumeWitness s hs w).1 t r hr
  | secretSeal x =>
    obtain ⟨r, hr⟩ := map_fst_some (x := s.addSecretSeal x) h
    exact step_addSecretSeal s hs x t r hr
  | trust i l =>
    obtain ⟨r, hr⟩ := map_fst_some (x := s.setTrust i l) h
    exact step_setTrust s hs i l t r hr

theorem step_runStash (hH : H.Binding) (I : Ids) (M : Mpc) (es : List StashEvent) (hp : ∀ e ∈ es, e.Proper H)
    (s t : MemStash) (hs : Good H s) (h : runStash H I M es s = some t) : Good H t ∧ Grows H s t := by
  induction es generalizing s with
  | nil => cases h; exact ⟨hs, .refl _⟩
  | cons e es ih =>
    obtain ⟨u, hu, h⟩ := Option.bind_eq_some_iff.mp h
    obtain ⟨g1, g2⟩ := step_event hH I M s u hs e (hp e List.mem_cons_self) hu
    obtain ⟨g3, g4⟩ := ih (fun e he => hp e (List.mem_cons_of_mem _ he)) u g1 h
    exact ⟨g3, g2.trans g4⟩

theorem good_empty : Good H {} := by
  constructor <;> intro _ _ h <;> cases h

/-- What is readable after consuming a consignment. -/
theorem consumeConsignment_ok (hH : H.Binding) (I : Ids) (M : Mpc) (s t : MemStash) (u : Unit) (hs : Good H s)
    (con : Consignment) (hc : con.Proper H) (h : s.consumeConsignment H I M con = some (t, .ok u)) :
    (∃ g, t.genesis (con.data.genesis.contractId H) = some g ∧ con.data.genesis.ShownBy H g) ∧
    (∀ e ∈ con.data.extensions, ∃ g, t.extension (e.id H) = some g ∧ e.ShownBy H g) ∧
    (∀ w ∈ con.data.bundles, ∃ y, t.witness w.id = some y ∧ y.id = w.id ∧
      (w.pub.pub.tx?.isSome = true → y.pub.pub.tx?.isSome = true) ∧
      (∀ x ∈ w.anchored.list, ∀ p k, M.block x.mpc (con.data.genesis.contractId H) (x.bundle.id H) = some p → k ∈ OMap.keys p.2 →
          y.anchors.knows x.dbc.method k)) ∧
    (∀ w ∈ con.data.bundles, ∀ b ∈ w.anchored.bundles, ∃ g, t.bundle (b.id H) = some g ∧ g.id H = b.id H ∧
      ((∀ v ∈ con.data.bundles, ∀ d ∈ v.anchored.bundles, d.id H = b.id H →
          ∀ k, OMap.contains b.known k = true → OMap.contains d.known k = true) →
        Knows s (b.id H) (fun k => OMap.contains b.known k = true) → b.ShownBy H g)) ∧
    (∀ a ∈ con.attachments, OMap.contains t.attachments a.1 = true) ∧
    (∀ x ∈ con.types, x ∈ t.types) ∧ (∀ x ∈ con.scripts, (t.lib (I.lib x)).isSome = true) ∧
    (t.schema (I.schema con.schema)).isSome = true ∧
    (∀ d ∈ con.ifaces, (t.ifaceById (I.iface d.1)).isSome = true) ∧
    (∀ x ∈ con.supplements, x ∈ t.supplements x.ref) ∧
    (∀ e ∈ con.ifaces, t.Implemented e.2.schemaId e.2.ifaceId) := by
  obtain ⟨t1, _, e1, h⟩ := bind_ok h
  obtain ⟨p1, q1⟩ := step_consumeGenesis hH s hs _ hc.genesisKind hc.genesis
  have g1 := p1 _ _ e1
  obtain ⟨t2, _, e2, h⟩ := bind_ok h
  have hext := fun (e : Op) (he : e ∈ con.data.extensions) (s : MemStash) (hs : Good H s) =>
    step_consumeExtension hH s hs e (hc.extensions e he)
  have g2 := Step.each (fun e he s hs => (hext e he s hs).1) t1 g1.1 _ _ e2
  obtain ⟨t3, _, e3, h⟩ := bind_ok h
  have g3 := Step.each (fun w hw s hs => (step_consumeWitnessBundle hH M _ w (hc.bundles w hw) s hs).1) t2 g2.1 _ _ e3
  obtain ⟨t4, _, e4, h⟩ := bind_ok h
  have g4 := Step.each (fun a _ s hs => step_replaceAttachment s hs a.1 a.2) t3 g3.1 _ _ e4
  have g5 := step_consumeKit I t4 g4.1 _ _ _ h
  obtain ⟨k1, k2, k3, k4, k5, k6⟩ := consumeKit_ok (H := H) I t4 t u g4.1 _ h
  have w4 := g5.2
  have w3 := g4.2.trans w4
  have w2 := g3.2.trans w3
  have w1 := g2.2.trans w2
  obtain ⟨b1, b2⟩ := witnessBundles_ok hH M _ con.data.bundles hc.bundles t2 t3 _ g2.1 e3
  refine ⟨?_, ?_, ?_, ?_, ?_, k1, k2, k3 _ (by simp [kitOf]), ?_, k5,
    fun e he => k6 e.2 (OSet.mem_ofList.mpr (List.mem_map.mpr ⟨e, he, rfl⟩))⟩
  · obtain ⟨g, x1, x2⟩ := q1 _ _ e1
    obtain ⟨g', y1, y2⟩ := w1.genesis _ _ x1
    exact ⟨g', y1, x2.trans y2⟩
  · intro e he
    have stable : ∀ (a : Op) (s t : MemStash), Grows H s t →
        (∃ g, s.extension (a.id H) = some g ∧ a.ShownBy H g) → ∃ g, t.extension (a.id H) = some g ∧ a.ShownBy H g := by
      rintro a s t hg ⟨g, x1, x2⟩
      obtain ⟨g', y1, y2⟩ := hg.extension _ _ x1
      exact ⟨g', y1, x2.trans y2⟩
    exact stable e t2 t w2 (each_ok (Q := fun (a : Op) s => ∃ g, s.extension (a.id H) = some g ∧ a.ShownBy H g)
      (fun e he s hs => (hext e he s hs).1) (fun e he s t b hs h => (hext e he s hs).2 t b h) stable t1 t2 _ g1.1 e2 e he)
  · intro w hw
    obtain ⟨y, y1, y2, y3, y4⟩ := b1 w hw
    obtain ⟨y', z1, z2⟩ := w3.witness _ _ y1
    exact ⟨y', z1, z2.id.trans y2, fun hx => z2.tx (y3 hx),
      fun x hx p k hp hk => z2.anchors _ _ (y4 x hx p k hp hk)⟩
  · intro w hw b hb
    obtain ⟨g, x1, x2, x3⟩ := b2 w hw b hb
    obtain ⟨g', y1, y2⟩ := w3.bundle _ _ x1
    refine ⟨g', y1, y2.id.trans x2, fun hall hk => (x3 hall ?_).trans y2⟩
    have hb1 : t1.bundles = s.bundles := bundles_consumeGenesis s t1 _ _ e1
    have hb2 : t2.bundles = t1.bundles := bundles_each bundles_consumeExtension _ _ _ _ e2
    intro o ho
    exact hk o (by simpa [bundle, hb1, hb2] using ho)
  · intro a ha
    exact w4.attachments _ (each_ok (H := H) (Q := fun (a : Nat × Nat) s => OMap.contains s.attachments a.1 = true)
      (fun a _ s hs => step_replaceAttachment s hs a.1 a.2)
      (fun a _ s t b _ h => by cases h; simp [OMap.contains])
      (fun a s t hg hq => hg.attachments _ hq) t3 t4 _ g3.1 e4 a ha)
  · intro d hd
    exact k4 d.1 (OSet.mem_ofList.mpr (List.mem_map.mpr ⟨d, hd, rfl⟩))

theorem consumeAnchored_block (M : Mpc) (c : Nat) (l : List ClientBundle) (s t : MemStash)
    (as : List (CloseMethod × Anchor)) (h : consumeAnchored H M c l s = some (t, .ok as)) :
    ∀ x ∈ l, ∃ p, M.block x.mpc c (x.bundle.id H) = some p := by
  induction l generalizing s as with
  | nil => intro x hx; cases hx
  | cons b l ih =>
    obtain ⟨u, a, hu, h⟩ := bind_ok h
    split at h
    · cases h
    · rename_i root known hb
      obtain ⟨v, as', hv, h⟩ := bind_ok h
      cases h
      intro x hx
      rcases List.mem_cons.mp hx with rfl | hx
      · exact ⟨_, hb⟩
      · exact ih u as' hv x hx

theorem consumeConsignment_block (I : Ids) (M : Mpc) (s t : MemStash) (con : Consignment)
    (h : s.consumeConsignment H I M con = some (t, .ok ())) :
    ∀ w ∈ con.data.bundles, ∀ x ∈ w.anchored.list,
      ∃ p, M.block x.mpc (con.data.genesis.contractId H) (x.bundle.id H) = some p := by
  obtain ⟨t1, _, e1, h⟩ := bind_ok h
  obtain ⟨t2, _, e2, h⟩ := bind_ok h
  obtain ⟨t3, r3, e3, h⟩ := bind_ok h
  have key : ∀ (c : Nat) (l : List WitnessBundle) (t2 t3 : MemStash) (r : Unit),
      SR.each (consumeWitnessBundle H M c) l t2 = some (t3, .ok r) →
      ∀ w ∈ l, ∀ x ∈ w.anchored.list, ∃ p, M.block x.mpc c (x.bundle.id H) = some p := by
    intro c l
    induction l with
    | nil => intro t2 t3 r _ w hw; cases hw
    | cons v l ih =>
      intro t2 t3 r e3 w hw
      obtain ⟨s1, r, h1, h2⟩ := bind_ok e3
      rcases List.mem_cons.mp hw with rfl | hw
      · obtain ⟨u, as, hu, -⟩ := bind_ok h1
        exact consumeAnchored_block M _ _ _ _ as hu
      · exact ih s1 t3 _ h2 w hw
  exact key _ _ _ _ _ e3

/-! ## Signatures -/

theorem acceptSigner_snd (ids : OMap Nat TrustLevel) (i : Nat) :
    (acceptSigner ids i).2 = ((OMap.get? ids i).getD TrustLevel.default).shouldAccept := by
  simp only [acceptSigner]; split <;> rename_i h <;> simp [h]

theorem acceptSigner_fst (ids : OMap Nat TrustLevel) (i j : Nat) :
    (OMap.get? (acceptSigner ids i).1 j).getD TrustLevel.default = (OMap.get? ids j).getD TrustLevel.default := by
  simp only [acceptSigner]
  split
  · rfl
  · rename_i h
    rw [OMap.get?_insert]
    split
    · rename_i hj; subst hj; simp [h]
    · rfl

theorem pushSigs_trust (ids : OMap Nat TrustLevel) (m : OMap Nat Nat) (l : List (Nat × Nat)) (j : Nat) :
    (OMap.get? (pushSigs ids m l).1 j).getD TrustLevel.default = (OMap.get? ids j).getD TrustLevel.default := by
  induction l generalizing ids m with
  | nil => rfl
  | cons e l ih =>
    obtain ⟨i, sg⟩ := e
    simp only [pushSigs]
    split
    · split
      · exact acceptSigner_fst ids i j
      · rw [ih, acceptSigner_fst]
    · rw [ih, acceptSigner_fst]

theorem pushSigs_origin (ids : OMap Nat TrustLevel) (m : OMap Nat Nat) (l : List (Nat × Nat)) (j sg : Nat)
    (h : OMap.get? (pushSigs ids m l).2.1 j = some sg) :
    OMap.get? m j = some sg ∨
      ((j, sg) ∈ l ∧ ((OMap.get? ids j).getD TrustLevel.default).shouldAccept = true) := by
  induction l generalizing ids m with
  | nil => exact .inl h
  | cons e l ih =>
    obtain ⟨i, sg'⟩ := e
    simp only [pushSigs] at h
    split at h
    · rename_i ha
      split at h
      · exact .inl h
      · rcases ih _ _ h with h' | ⟨h1, h2⟩
        · rw [OMap.get?_insert] at h'
          split at h'
          · rename_i hj
            cases h'
            subst hj
            exact .inr ⟨List.mem_cons_self, by rw [← acceptSigner_snd]; exact ha⟩
          · exact .inl h'
        · rw [acceptSigner_fst] at h2
          exact .inr ⟨List.mem_cons_of_mem _ h1, h2⟩
    · rcases ih _ _ h with h' | ⟨h1, h2⟩
      · exact .inl h'
      · rw [acceptSigner_fst] at h2
        exact .inr ⟨List.mem_cons_of_mem _ h1, h2⟩

theorem pushSigs_other (ids : OMap Nat TrustLevel) (m : OMap Nat Nat) (l : List (Nat × Nat)) (j : Nat)
    (hj : j ∉ l.map Prod.fst) : OMap.get? (pushSigs ids m l).2.1 j = OMap.get? m j := by
  induction l generalizing ids m with
  | nil => rfl
  | cons e l ih =>
    obtain ⟨i, sg⟩ := e
    simp only [List.map_cons, List.mem_cons, not_or] at hj
    simp only [pushSigs]
    split
    · split
      · rfl
      · rw [ih _ _ hj.2, OMap.get?_insert_ne _ _ hj.1]
    · exact ih _ _ hj.2

theorem pushSigs_complete (ids : OMap Nat TrustLevel) (m : OMap Nat Nat) (l : List (Nat × Nat))
    (hn : (l.map Prod.fst).Nodup) (hok : (pushSigs ids m l).2.2 = true) (j sg : Nat) (hj : (j, sg) ∈ l)
    (ha : ((OMap.get? ids j).getD TrustLevel.default).shouldAccept = true) :
    OMap.get? (pushSigs ids m l).2.1 j = some sg := by
  induction l generalizing ids m with
  | nil => cases hj
  | cons e l ih =>
    obtain ⟨i, sg'⟩ := e
    simp only [List.map_cons, List.nodup_cons] at hn
    simp only [pushSigs] at hok ⊢
    rcases List.mem_cons.mp hj with hj | hj
    · cases hj
      rw [← acceptSigner_snd] at ha
      rw [if_pos ha] at hok ⊢
      split at hok
      · cases hok
      · rename_i hlen
        rw [if_neg hlen, pushSigs_other _ _ _ _ hn.1]
        simp
    · rw [← acceptSigner_fst ids i] at ha
      split at hok
      · rename_i hacc
        rw [if_pos hacc]
        split at hok
        · cases hok
        · rename_i hlen
          rw [if_neg hlen]
          exact ih _ _ hn.2 hok hj ha
      · rename_i hacc
        rw [if_neg hacc]
        exact ih _ _ hn.2 hok hj ha

theorem shouldAccept_iff (t : TrustLevel) : t.shouldAccept = true ↔ t ≠ .malicious := by
  cases t <;> simp [TrustLevel.shouldAccept, TrustLevel.num]

theorem importSigs_some (s : MemStash) (c : Nat) (l : List (Nat × Nat)) : ∃ t r, s.importSigs c l = some (t, r) := by
  simp only [importSigs]
  split
  · exact ⟨_, _, rfl⟩
  · split <;> exact ⟨_, _, rfl⟩

end MemStash

end Rgb
