import Verif.Lemmas.AgainStash

/-!
Consuming a consignment twice: witnesses, documents, signatures.
-/

namespace Rgb

open MemStash

variable {H : Commit}

/-! ### Witnesses with their bundles -/

/-- The anchors computed for the bundles. -/
def Blocks (H : Commit) (M : Mpc) (c : Nat) : List ClientBundle → List (CloseMethod × Anchor) → Prop
  | [], as => as = []
  | x :: rest, as => ∃ root known as', M.block x.mpc c (x.bundle.id H) = some (root, known) ∧ Blocks H M c rest as' ∧
      as = (x.dbc.method, ⟨x.dbc.data, root, known⟩) :: as'

theorem anchored_first (hH : H.Binding) {M : Mpc} {c : Nat} {l : List ClientBundle} (hl : ∀ x ∈ l, x.bundle.WF H) {s t : MemStash} (hs : Good H s)
    {as : List (CloseMethod × Anchor)} (h : consumeAnchored H M c l s = some (t, .ok as)) :
    Good H t ∧ t = { s with bundles := t.bundles } ∧ (∀ x ∈ l, BundleIn H x.bundle t) ∧ (∀ x : Bundle, x.WF H → BundleIn H x s → BundleIn H x t) ∧
      Blocks H M c l as := by
  induction l generalizing s as with
  | nil => cases h; exact ⟨hs, rfl, by simp, fun _ _ h => h, rfl⟩
  | cons b l ih =>
    obtain ⟨u, a, hu, h⟩ := bind_ok h
    have hb := hl b List.mem_cons_self
    obtain ⟨u1, u2, u3⟩ := bundle_step hH hs hb hu
    have hgu := ((step_consumeBundle hH s hs b.bundle hb).1 _ _ hu).1
    split at h
    · cases h
    · rename_i root known hblk
      obtain ⟨v, as', hv, h⟩ := bind_ok h
      cases h
      obtain ⟨i0, i1, i2, i3, i4⟩ := ih (fun x hx => hl x (List.mem_cons_of_mem _ hx)) hgu hv
      refine ⟨i0, by rw [i1, u1], fun x hx => ?_, fun x hw hx => i3 x hw (u3 x hw hx), root, known, as', hblk, i4, rfl⟩
      rcases List.mem_cons.mp hx with rfl | hx
      · exact i3 _ hb u2
      · exact i2 x hx

theorem anchored_again (hH : H.Binding) {M : Mpc} {c : Nat} {l : List ClientBundle} (hl : ∀ x ∈ l, x.bundle.WF H) {s : MemStash} (hs : Good H s) (hst : StSorted s)
    {as : List (CloseMethod × Anchor)} (h : ∀ x ∈ l, BundleIn H x.bundle s) (hb : Blocks H M c l as) : consumeAnchored H M c l s = some (s, .ok as) := by
  induction l generalizing as with
  | nil => cases hb; rfl
  | cons b l ih =>
    obtain ⟨root, known, as', h1, h2, rfl⟩ := hb
    obtain ⟨x, hx⟩ := bundle_again hH hst hs (hl b List.mem_cons_self) (h b List.mem_cons_self)
    simp only [consumeAnchored, hx, SR.bind, h1, ih (fun x hx => hl x (List.mem_cons_of_mem _ hx)) (fun x hx => h x (List.mem_cons_of_mem _ hx)) h2]

theorem Blocks.tree {M : Mpc} {c : Nat} {tree : Nat → Nat → Option Nat}
    (hM : ∀ proof p m root known, M.block proof p m = some (root, known) → OMap.Sorted known ∧ ∀ q n, OMap.get? known q = some n → tree root q = some n)
    {l : List ClientBundle} {as : List (CloseMethod × Anchor)} (h : Blocks H M c l as) : ∀ a ∈ as, a.2.In tree := by
  induction l generalizing as with
  | nil => cases h; simp
  | cons b l ih =>
    obtain ⟨root, known, as', h1, h2, rfl⟩ := h
    intro a ha
    rcases List.mem_cons.mp ha with rfl | ha
    · obtain ⟨h3, h4⟩ := hM _ _ _ _ _ h1
      exact ⟨h3, h4⟩
    · exact ih h2 a ha

theorem anchorSetOf_in {tree : Nat → Nat → Option Nat} {as : List (CloseMethod × Anchor)} {y : AnchorSet} (h : anchorSetOf as = some y)
    (ha : ∀ a ∈ as, a.2.In tree) : y.In tree := by
  unfold anchorSetOf at h
  split at h <;> cases h
  · exact ha (.opretFirst, _) (by simp)
  · exact ha (.tapretFirst, _) (by simp)
  · exact ⟨ha (.tapretFirst, _) (by simp), ha (.opretFirst, _) (by simp)⟩
  · exact ⟨ha (.tapretFirst, _) (by simp), ha (.opretFirst, _) (by simp)⟩

/-- The witness and its bundles are stored, showing everything shown here. -/
def WbIn (H : Commit) (M : Mpc) (c : Nat) (w : WitnessBundle) (s : MemStash) : Prop :=
  (∀ x ∈ w.anchored.list, BundleIn H x.bundle s) ∧ ∃ as a, Blocks H M c w.anchored.list as ∧ anchorSetOf as = some a ∧ WitnessIn ⟨w.pub, a⟩ s

theorem wb_step (hH : H.Binding) {M : Mpc} {c : Nat} {tree : Nat → Nat → Option Nat}
    (hM : ∀ proof p m root known, M.block proof p m = some (root, known) → OMap.Sorted known ∧ ∀ q n, OMap.get? known q = some n → tree root q = some n)
    {w : WitnessBundle} (hw : ∀ b ∈ w.anchored.bundles, b.WF H) {s t : MemStash} (hs : Good H s) (ht : ∀ w sw, s.witness w = some sw → sw.anchors.In tree) {b : Bool}
    (h : consumeWitnessBundle H M c s w = some (t, .ok b)) :
    Good H t ∧ t = { s with bundles := t.bundles, witnesses := t.witnesses } ∧ WbIn H M c w t ∧ (∀ w sw, t.witness w = some sw → sw.anchors.In tree) ∧
      (∀ x : Bundle, x.WF H → BundleIn H x s → BundleIn H x t) ∧ ∀ i, i ≠ w.id → t.witness i = s.witness i := by
  have hl : ∀ x ∈ w.anchored.list, x.bundle.WF H := fun x hx => hw _ (List.mem_map.mpr ⟨x, hx, rfl⟩)
  have hgt := ((step_consumeWitnessBundle hH M c w hw s hs).1 _ _ h).1
  obtain ⟨u, as, hu, h⟩ := bind_ok h
  obtain ⟨u0, u1, u2, u3, u4⟩ := anchored_first hH hl hs hu
  split at h
  · cases h
  · rename_i y hy
    have ew : u.witnesses = s.witnesses := by rw [u1]
    obtain ⟨v1, v2, v3, v4⟩ := witness_step (tree := tree) u0 (fun w sw e => ht w sw (by simpa only [MemStash.witness, ew] using e))
      (anchorSetOf_in hy (u4.tree hM)) h
    have eb : t.bundles = u.bundles := by rw [v1]
    have hb : ∀ x, BundleIn H x u → BundleIn H x t := by
      rintro x ⟨r, h1, h2⟩
      exact ⟨r, by simpa only [MemStash.bundle, eb] using h1, h2⟩
    refine ⟨hgt, by rw [v1, u1], ⟨fun x hx => hb _ (u2 x hx), as, y, u4, hy, v2⟩, v3, fun x hw hx => hb _ (u3 x hw hx), fun i hi => ?_⟩
    rw [v4 i hi, MemStash.witness, ew]; rfl

theorem wb_again (hH : H.Binding) {M : Mpc} {c : Nat} {w : WitnessBundle} (hw : ∀ b ∈ w.anchored.bundles, b.WF H) {s : MemStash} (hs : Good H s) (hst : StSorted s)
    (h : WbIn H M c w s) : ∃ b, consumeWitnessBundle H M c s w = some (s, .ok b) := by
  have hl : ∀ x ∈ w.anchored.list, x.bundle.WF H := fun x hx => hw _ (List.mem_map.mpr ⟨x, hx, rfl⟩)
  obtain ⟨h1, as, a, h2, h3, h4⟩ := h
  obtain ⟨b, hb⟩ := witness_again hst hs h4
  exact ⟨b, by simp only [consumeWitnessBundle, anchored_again hH hl hs hst h1 h2, SR.bind, h3, hb]⟩

/-! ### Documents -/

theorem extend_self {κ ν : Type} [Key κ] [DecidableEq κ] {m : OMap κ ν} (hm : OMap.Sorted m) (l : List (κ × ν)) :
    OMap.extend (OMap.extend m l) l = OMap.extend m l := by
  refine OMap.Sorted.ext ((hm.extend _).extend _) (hm.extend _) (fun k => ?_)
  rw [get?_extend, get?_extend]
  cases lastFor k l <;> rfl

theorem types_self {s : OSet Nat} (hs : OSet.Sorted s) (l : List Nat) : OSet.extend (OSet.extend s l) l = OSet.extend s l := by
  refine OSet.Sorted.ext ((OSet.Sorted.extend hs _).extend _) (OSet.Sorted.extend hs _) (fun x => ?_)
  rw [OSet.mem_extend, OSet.mem_extend]
  tauto

theorem libs_eq (I : Ids) (ls : List Nat) (s : MemStash) :
    SR.each (replaceLib I) ls s = some ({ s with libs := OMap.extend s.libs (ls.map (fun l => (I.lib l, l))) }, .ok ()) := by
  induction ls generalizing s with
  | nil => rfl
  | cons l ls ih =>
    simp only [SR.each, replaceLib, SR.bind]
    rw [ih]; rfl

theorem attachments_eq (l : List (Nat × Nat)) (s : MemStash) :
    SR.each (fun s (a : Nat × Nat) => s.replaceAttachment a.1 a.2) l s = some ({ s with attachments := OMap.extend s.attachments l }, .ok ()) := by
  induction l generalizing s with
  | nil => rfl
  | cons a l ih =>
    exact ih _

theorem schema_first {I : Ids} {d : SchemaDoc} {s t : MemStash} {b : Bool} (h : s.replaceSchema I d = some (t, .ok b)) :
    t = { s with schemata := t.schemata } ∧ OMap.contains t.schemata (I.schema d) = true := by
  simp only [replaceSchema] at h
  split at h
  · rename_i hc; cases h; exact ⟨rfl, hc⟩
  · split at h
    · cases h
    · cases h; exact ⟨rfl, OMap.contains_iff.mpr ⟨_, OMap.get?_insert_self ..⟩⟩

theorem iface_step {I : Ids} {d : IfaceDoc} {s t : MemStash} {b : Bool} (h : s.replaceIface I d = some (t, .ok b)) :
    t = { s with ifaces := t.ifaces } ∧ OMap.contains t.ifaces (I.iface d) = true ∧ ∀ i, OMap.contains s.ifaces i = true → OMap.contains t.ifaces i = true := by
  simp only [replaceIface] at h
  split at h
  · rename_i hc; cases h; exact ⟨rfl, hc, fun _ h => h⟩
  · split at h
    · cases h
    · cases h
      refine ⟨rfl, OMap.contains_iff.mpr ⟨_, OMap.get?_insert_self ..⟩, fun i hi => ?_⟩
      obtain ⟨v, hv⟩ := OMap.contains_iff.mp hi
      refine OMap.contains_iff.mpr ?_
      rw [OMap.get?_insert]
      split
      · exact ⟨_, rfl⟩
      · exact ⟨v, hv⟩

theorem ifaces_first {I : Ids} {l : List IfaceDoc} {s t : MemStash} {u : Unit} (h : SR.each (replaceIface I) l s = some (t, .ok u)) :
    t = { s with ifaces := t.ifaces } ∧ ∀ d ∈ l, OMap.contains t.ifaces (I.iface d) = true :=
  each_facts (R := fun _ _ => True) (Inv := fun t => t = { s with ifaces := t.ifaces }) (Q := fun d t => OMap.contains t.ifaces (I.iface d) = true)
    (List.pairwise_of_forall (fun _ _ => trivial)) (fun d _ a t b ha hf => by
      obtain ⟨h1, h2, -⟩ := iface_step hf
      exact ⟨by rw [h1, ha], h2⟩) (fun d _ d' _ _ a t b _ hq hf => (iface_step hf).2.2 _ hq) rfl h

/-! ### Implementations -/

def iimplEntries (ifs : OMap Nat IfaceDoc) (l : List IimplDoc) (i : Nat) : List (Nat × IimplDoc) :=
  l.filterMap (fun x => if x.schemaId = i then (OMap.get? ifs x.ifaceId).map (fun d => (d.name, x)) else none)

/-- The implementation has a place: schema and interface are known, and the schema has an implementation for the name. -/
def IimplPlace (s : MemStash) (x : IimplDoc) : Prop :=
  ∃ si d, s.schema x.schemaId = some si ∧ s.ifaceById x.ifaceId = some d ∧ OMap.contains si.iimpls d.name = true

theorem iimpl_step {x : IimplDoc} {s t : MemStash} {b : Bool} (h : s.replaceIimpl x = some (t, .ok b)) :
    t = { s with schemata := t.schemata } ∧ (∀ i, t.schema i = (s.schema i).map (fun si => { si with iimpls := OMap.extend si.iimpls (iimplEntries s.ifaces [x] i) })) ∧
      IimplPlace t x ∧ ∀ y, IimplPlace s y → IimplPlace t y := by
  simp only [replaceIimpl] at h
  split at h
  · rename_i si d h1 h2
    split at h
    · cases h
    · cases h
      have key : ∀ i, OMap.get? (OMap.insert s.schemata x.schemaId { si with iimpls := OMap.insert si.iimpls d.name x }) i =
          (s.schema i).map (fun si => { si with iimpls := OMap.extend si.iimpls (iimplEntries s.ifaces [x] i) }) := by
        intro i
        rw [OMap.get?_insert]
        split
        · rename_i e
          subst e
          simp [iimplEntries, MemStash.schema, h1, h2, OMap.extend]
        · rename_i e
          simp only [iimplEntries, MemStash.schema, List.filterMap_cons, if_neg (fun h : x.schemaId = i => e h.symm), List.filterMap_nil]
          cases OMap.get? s.schemata i <;> rfl
      refine ⟨rfl, key, ?_, ?_⟩
      · exact ⟨_, d, OMap.get?_insert_self .., h2, OMap.contains_iff.mpr ⟨_, OMap.get?_insert_self ..⟩⟩
      · rintro y ⟨sj, e, h3, h4, h5⟩
        refine ⟨_, e, (key _).trans (by rw [h3]; rfl), h4, ?_⟩
        obtain ⟨v, hv⟩ := OMap.contains_iff.mp h5
        refine OMap.contains_iff.mpr ?_
        simp only
        rw [get?_extend, hv]
        cases lastFor e.name (iimplEntries s.ifaces [x] y.schemaId) <;> exact ⟨_, rfl⟩
  · cases h

theorem iimpls_first {l : List IimplDoc} {s t : MemStash} {u : Unit} (h : SR.each replaceIimpl l s = some (t, .ok u)) :
    t = { s with schemata := t.schemata } ∧ (∀ i, t.schema i = (s.schema i).map (fun si => { si with iimpls := OMap.extend si.iimpls (iimplEntries s.ifaces l i) })) ∧
      (∀ x ∈ l, IimplPlace t x) ∧ ∀ y, IimplPlace s y → IimplPlace t y := by
  induction l generalizing s with
  | nil =>
    cases h
    refine ⟨rfl, fun i => ?_, by simp, fun _ h => h⟩
    cases t.schema i <;> rfl
  | cons x l ih =>
    obtain ⟨s1, b, h1, h2⟩ := bind_ok h
    obtain ⟨a1, a2, a3, a4⟩ := iimpl_step h1
    obtain ⟨b1, b2, b3, b4⟩ := ih h2
    have ei : s1.ifaces = s.ifaces := by rw [a1]
    refine ⟨by rw [b1, a1], fun i => ?_, fun y hy => ?_, fun y hy => b4 y (a4 y hy)⟩
    · rw [b2, a2, ei, Option.map_map]
      congr 1
      funext si
      simp only [Function.comp]
      congr 1
      rw [← OMap.extend_append]
      congr 1
      simp [iimplEntries, ← List.filterMap_append]
    · rcases List.mem_cons.mp hy with rfl | hy
      · exact b4 _ a3
      · exact b3 y hy

theorem length_insert_same {κ ν : Type} [Key κ] [DecidableEq κ] {m : OMap κ ν} (hm : OMap.Sorted m) {k : κ} {v : ν} (h : OMap.contains m k = true) :
    (OMap.insert m k v).length = m.length := by
  have e : (OMap.keys (OMap.insert m k v)).Perm (OMap.keys m) := by
    refine (List.perm_ext_iff_of_nodup (hm.insert k v).nodup hm.nodup).mpr (fun a => ?_)
    rw [OMap.mem_keys_insert]
    exact ⟨fun h' => h'.elim (fun e => e ▸ OMap.mem_keys_iff.mpr h) id, .inr⟩
  have := e.length_eq
  simpa [OMap.keys] using this

theorem iimpls_run {l : List IimplDoc} {s : MemStash} (hs : StSorted s) (h : ∀ x ∈ l, IimplPlace s x)
    (hr : ∀ x ∈ l, ∀ si, s.schema x.schemaId = some si → si.iimpls.length < 255) : ∃ t, SR.each replaceIimpl l s = some (t, .ok ()) := by
  induction l generalizing s with
  | nil => exact ⟨s, rfl⟩
  | cons x l ih =>
    obtain ⟨si, d, h1, h2, h3⟩ := h x List.mem_cons_self
    have hn : ¬ si.iimpls.length ≥ tinyMax := by have := hr x List.mem_cons_self si h1; simp only [tinyMax]; omega
    obtain ⟨t, b, ht⟩ : ∃ t b, s.replaceIimpl x = some (t, .ok b) := by
      simp only [MemStash.schema] at h1
      simp only [MemStash.ifaceById] at h2
      simp only [replaceIimpl, h1, h2, if_neg hn]
      exact ⟨_, _, rfl⟩
    obtain ⟨-, a2, -, a4⟩ := iimpl_step ht
    have hst : StSorted t := stSorted_exec (H := toyCommit) ⟨fun _ => 0, fun _ => 0, fun _ => 0, fun _ => 0⟩ s t hs (.iimpl x) (by simp only [StashWrite.exec, ht]; rfl)
    obtain ⟨t', ht'⟩ := ih hst (fun y hy => a4 y (h y (List.mem_cons_of_mem _ hy))) (fun y hy sj hj => by
      have ht2 := ht
      simp only [MemStash.schema] at h1
      simp only [MemStash.ifaceById] at h2
      simp only [replaceIimpl, h1, h2, if_neg hn] at ht2
      cases ht2
      simp only [MemStash.schema, OMap.get?_insert] at hj
      split at hj
      · rename_i e
        cases hj
        simp only
        rw [length_insert_same (hs.iimpls _ _ h1) h3]
        exact hr x List.mem_cons_self si h1
      · exact hr y (List.mem_cons_of_mem _ hy) sj hj)
    exact ⟨t', by simp only [SR.each, ht, SR.bind, ht']⟩

/-- Storing the implementations again. -/
theorem iimpls_again {l : List IimplDoc} {s t : MemStash} {u : Unit} (hs : StSorted s) (h : SR.each replaceIimpl l s = some (t, .ok u))
    {f : MemStash} (hf : StSorted f) (e1 : f.schemata = t.schemata) (e2 : f.ifaces = t.ifaces)
    (hr : ∀ x ∈ l, ∀ si, f.schema x.schemaId = some si → si.iimpls.length < 255) : SR.each replaceIimpl l f = some (f, .ok ()) := by
  obtain ⟨a1, a2, a3, -⟩ := iimpls_first h
  have ei : t.ifaces = s.ifaces := by rw [a1]
  have place : ∀ x ∈ l, IimplPlace f x := by
    intro x hx
    obtain ⟨si, d, h1, h2, h3⟩ := a3 x hx
    exact ⟨si, d, by rw [MemStash.schema, e1]; exact h1, by rw [MemStash.ifaceById, e2]; exact h2, h3⟩
  obtain ⟨f', hf'⟩ := iimpls_run hf place hr
  obtain ⟨b1, b2, -, -⟩ := iimpls_first hf'
  have hsf : StSorted f' := by
    refine each_keep (P := StSorted) (fun x _ s t b hs h => ?_) hf hf'
    exact stSorted_exec (H := toyCommit) ⟨fun _ => 0, fun _ => 0, fun _ => 0, fun _ => 0⟩ s t hs (.iimpl x) (by simp only [StashWrite.exec, h]; rfl)
  have key : f'.schemata = f.schemata := by
    refine OMap.Sorted.ext hsf.schemata hf.schemata (fun i => ?_)
    have b2 := b2 i
    have a2 := a2 i
    simp only [MemStash.schema] at a2 b2
    rw [b2, e1, a2, e2, ei, Option.map_map]
    cases hg : OMap.get? s.schemata i with
    | none => rfl
    | some si =>
      simp only [Option.map_some, Function.comp, Option.some.injEq]
      rw [extend_self (hs.iimpls _ _ hg)]
  rw [hf', b1, key]

/-! ### Supplements -/

theorem suppl_step {x : SupplDoc} {s t : MemStash} {u : Unit} (h : s.addSupplement x = some (t, .ok u)) :
    t = { s with suppl := t.suppl } ∧ x ∈ t.supplements x.ref ∧ ∀ r y, y ∈ s.supplements r → y ∈ t.supplements r := by
  simp only [addSupplement] at h
  split at h
  · rename_i e
    split at h
    · cases h
    · cases h
      refine ⟨rfl, by simp [MemStash.supplements], fun r y hy => ?_⟩
      simp only [MemStash.supplements, OMap.get?_insert] at hy ⊢
      split
      · rename_i e'; rw [e', e] at hy; cases hy
      · exact hy
  · rename_i l e
    split at h
    · cases h
    · rename_i l' e'
      simp only [tinyPush] at e'
      split at e'
      · cases e'
      · cases e'
        cases h
        refine ⟨rfl, by simp [MemStash.supplements, OSet.mem_insert], fun r y hy => ?_⟩
        simp only [MemStash.supplements, OMap.get?_insert] at hy ⊢
        split
        · rename_i e'; rw [e', e] at hy; exact OSet.mem_insert.mpr (.inr hy)
        · exact hy

theorem suppls_first {l : List SupplDoc} {s t : MemStash} {u : Unit} (h : SR.each addSupplement l s = some (t, .ok u)) :
    t = { s with suppl := t.suppl } ∧ ∀ x ∈ l, x ∈ t.supplements x.ref :=
  each_facts (R := fun _ _ => True) (Inv := fun t => t = { s with suppl := t.suppl }) (Q := fun (x : SupplDoc) t => x ∈ t.supplements x.ref)
    (List.pairwise_of_forall (fun _ _ => trivial)) (fun d _ a t b ha hf => by
      obtain ⟨h1, h2, -⟩ := suppl_step hf
      exact ⟨by rw [h1, ha], h2⟩) (fun d _ d' _ _ a t b _ hq hf => (suppl_step hf).2.2 _ _ hq) rfl h

theorem suppl_again {x : SupplDoc} {s : MemStash} (hs : StSorted s) (h : x ∈ s.supplements x.ref) (hr : (s.supplements x.ref).length < 255) :
    s.addSupplement x = some (s, .ok ()) := by
  simp only [MemStash.supplements] at h hr
  cases e : OMap.get? s.suppl x.ref with
  | none => rw [e] at h; cases h
  | some l =>
    rw [e] at h hr
    simp only [Option.getD_some] at h hr
    have hn : ¬ l.length ≥ tinyMax := by simp only [tinyMax]; omega
    simp only [addSupplement, e, tinyPush, if_neg hn, OSet.insert_mem (hs.supplSet _ _ e) h]
    rw [OMap.insert_known hs.suppl e]

end Rgb
