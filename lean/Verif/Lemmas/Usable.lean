import Verif.Spec.Usable
import Verif.Lemmas.StockHist

/-!
What stays in a stock after successful events.
-/

namespace Rgb

open MemStash

variable {H : Commit}

/-! ## Calls of the index -/

theorem anyBundle_bundleCalls {c : Nat} {b : Bundle} {w : WitnessId} {i : Nat} {w' : WitnessId} {c' : Nat} :
    anyBundle (Index.bundleCalls H c b w) i w' c' ↔ c' = c ∧ w' = w ∧ i = b.id H := by
  constructor
  · rintro ⟨call, hc, h⟩
    simp only [Index.bundleCalls, List.mem_cons, List.mem_flatMap, List.mem_map] at hc
    rcases hc with rfl | ⟨k, hk, rfl | ⟨e, he, rfl⟩⟩
    · obtain ⟨h1, h2, h3⟩ := h
      exact ⟨h3.symm, h2.symm, h1.symm⟩
    · exact h.elim
    · exact h.elim
  · rintro ⟨rfl, rfl, rfl⟩
    exact ⟨_, List.mem_cons_self, rfl, rfl, rfl⟩

theorem anyOp_bundleCalls {c : Nat} {b : Bundle} {w : WitnessId} {o i : Nat} :
    anyOp (Index.bundleCalls H c b w) o i ↔ o ∈ OMap.keys b.known ∧ i = b.id H := by
  constructor
  · rintro ⟨call, hc, h⟩
    simp only [Index.bundleCalls, List.mem_cons, List.mem_flatMap, List.mem_map] at hc
    rcases hc with rfl | ⟨k, hk, rfl | ⟨e, he, rfl⟩⟩
    · exact h.elim
    · obtain ⟨h1, h2⟩ := h
      exact ⟨List.mem_map.mpr ⟨k, hk, h1⟩, h2.symm⟩
    · exact h.elim
  · rintro ⟨h1, rfl⟩
    obtain ⟨k, hk, rfl⟩ := List.mem_map.mp h1
    refine ⟨.registerOperation k.1 (b.id H), ?_, rfl, rfl⟩
    simp only [Index.bundleCalls, List.mem_cons, List.mem_flatMap]
    exact .inr ⟨k, hk, .inl rfl⟩

theorem opCalls_only {c : Nat} {op : Op} {call : IdxCall} (h : call ∈ Index.opCalls H c op) :
    ∃ items opid ty, call = .assignments c none items opid ty := by
  simp only [Index.opCalls, List.mem_map] at h
  obtain ⟨e, -, rfl⟩ := h
  exact ⟨_, _, _, rfl⟩

theorem consignmentCalls_cases {d : ConsignmentData} {call : IdxCall} (h : call ∈ Index.consignmentCalls H d) :
    call = .registerContract (d.genesis.contractId H) ∨ (∃ items opid ty, call = .assignments (d.genesis.contractId H) none items opid ty) ∨
    ∃ wb ∈ d.bundles, ∃ b ∈ wb.anchored.bundles, call ∈ Index.bundleCalls H (d.genesis.contractId H) b wb.id := by
  simp only [Index.consignmentCalls, List.mem_cons, List.mem_append, List.mem_flatMap] at h
  rcases h with rfl | h | ⟨e, -, h⟩ | ⟨wb, h1, b, h2, h3⟩
  · exact .inl rfl
  · exact .inr (.inl (opCalls_only h))
  · exact .inr (.inl (opCalls_only h))
  · exact .inr (.inr ⟨wb, h1, b, h2, h3⟩)

theorem anyBundle_iff {op : IdxOp} {i : Nat} {w : WitnessId} {c : Nat} :
    anyBundle (op.calls H) i w c ↔ ∃ b, op.HasBundle H c b w ∧ b.id H = i := by
  constructor
  · intro h
    cases op with
    | bundle c₀ b w₀ =>
      obtain ⟨rfl, rfl, rfl⟩ := anyBundle_bundleCalls.mp h
      exact ⟨b, .single _ _ _, rfl⟩
    | consignment d =>
      obtain ⟨call, hc, h⟩ := h
      rcases consignmentCalls_cases hc with rfl | ⟨_, _, _, rfl⟩ | ⟨wb, h1, b, h2, h3⟩
      · exact h.elim
      · exact h.elim
      · obtain ⟨rfl, rfl, rfl⟩ := anyBundle_bundleCalls.mp ⟨call, h3, h⟩
        exact ⟨b, .inConsignment d wb b h1 h2, rfl⟩
  · rintro ⟨b, hb, rfl⟩
    obtain ⟨call, h1, h2⟩ := anyBundle_bundleCalls (H := H) (c := c) (b := b) (w := w) |>.mpr ⟨rfl, rfl, rfl⟩
    exact ⟨call, calls_bundle hb call h1, h2⟩

theorem anyOp_iff {op : IdxOp} {o i : Nat} :
    anyOp (op.calls H) o i ↔ ∃ c b w, op.HasBundle H c b w ∧ b.id H = i ∧ o ∈ OMap.keys b.known := by
  constructor
  · intro h
    cases op with
    | bundle c₀ b w₀ =>
      obtain ⟨h1, rfl⟩ := anyOp_bundleCalls.mp h
      exact ⟨_, b, _, .single _ _ _, rfl, h1⟩
    | consignment d =>
      obtain ⟨call, hc, h⟩ := h
      rcases consignmentCalls_cases hc with rfl | ⟨_, _, _, rfl⟩ | ⟨wb, h1, b, h2, h3⟩
      · exact h.elim
      · exact h.elim
      · obtain ⟨h4, rfl⟩ := anyOp_bundleCalls.mp ⟨call, h3, h⟩
        exact ⟨_, b, _, .inConsignment d wb b h1 h2, rfl, h4⟩
  · rintro ⟨c, b, w, hb, rfl, ho⟩
    obtain ⟨call, h1, h2⟩ := anyOp_bundleCalls (H := H) (c := c) (b := b) (w := w) |>.mpr ⟨ho, rfl⟩
    exact ⟨call, calls_bundle hb call h1, h2⟩

theorem anyContract_iff {op : IdxOp} {c : Nat} :
    anyContract (op.calls H) c ↔ ∃ d, op = .consignment d ∧ c = d.genesis.contractId H := by
  have bc : ∀ c₀ b w₀ call, call ∈ Index.bundleCalls H c₀ b w₀ → ¬ callContract call c := by
    intro c₀ b w₀ call hc h
    simp only [Index.bundleCalls, List.mem_cons, List.mem_flatMap, List.mem_map] at hc
    rcases hc with rfl | ⟨k, hk, rfl | ⟨e, he, rfl⟩⟩ <;> exact h.elim
  constructor
  · rintro ⟨call, hc, h⟩
    cases op with
    | bundle c₀ b w₀ => exact absurd h (bc _ _ _ _ hc)
    | consignment d =>
      rcases consignmentCalls_cases hc with rfl | ⟨_, _, _, rfl⟩ | ⟨wb, h1, b, h2, h3⟩
      · exact ⟨d, rfl, h.symm⟩
      · exact h.elim
      · exact absurd h (bc _ _ _ _ h3)
  · rintro ⟨d, rfl, rfl⟩
    exact ⟨_, List.mem_cons_self, rfl⟩

theorem OMap.mem_keys_iff {κ ν : Type} [Key κ] [DecidableEq κ] {m : OMap κ ν} {i : κ} :
    i ∈ OMap.keys m ↔ OMap.contains m i = true := by
  rw [OMap.contains_iff]
  constructor
  · intro h
    cases e : OMap.get? m i with
    | some v => exact ⟨v, rfl⟩
    | none => exact absurd h (OMap.get?_eq_none_iff.mp e)
  · rintro ⟨v, h⟩
    exact List.mem_map.mpr ⟨_, OMap.mem_of_get? h, rfl⟩

/-! ## Documents -/

theorem OMap.mem_of_insert {κ ν : Type} [Key κ] [DecidableEq κ] {m : OMap κ ν} {k : κ} {v : ν} {e : κ × ν}
    (h : e ∈ OMap.insert m k v) : e = (k, v) ∨ e ∈ m := by
  induction m with
  | nil => simp only [OMap.insert, List.mem_singleton] at h; exact .inl h
  | cons a m ih =>
    obtain ⟨a1, a2⟩ := a
    simp only [OMap.insert] at h
    split at h
    · rcases List.mem_cons.mp h with h | h
      · exact .inl h
      · exact .inr (by simp [h])
    · split at h
      · rcases List.mem_cons.mp h with h | h
        · exact .inl h
        · exact .inr (by simpa using h)
      · rcases List.mem_cons.mp h with h | h
        · exact .inr (by simp [h])
        · rcases ih h with h | h
          · exact .inl h
          · exact .inr (by simp [h])

/-- Documents in the stash are found by what refers to them. -/
structure MemStash.Docs (I : Ids) (E : Stock.Env) (s : MemStash) : Prop where
  sorted : OMap.Sorted s.ifaces
  addressed : ∀ i si, s.schema i = some si → I.schema si.doc = i
  named : ∀ i si, s.schema i = some si → ∀ e ∈ si.iimpls, ∃ j d, s.ifaceById j = some d ∧ d.name = e.1
  typed : ∀ i d, s.ifaceById i = some d → ∀ ty ∈ E.ifaceTypes d, ty ∈ s.types

theorem MemStash.Docs.congr {I : Ids} {E : Stock.Env} {s t : MemStash} (h : Docs I E s) (h1 : t.schemata = s.schemata) (h2 : t.ifaces = s.ifaces)
    (h3 : t.types = s.types) : Docs I E t := by
  refine ⟨h2 ▸ h.sorted, ?_, ?_, ?_⟩
  · simp only [schema, h1]; exact h.addressed
  · simp only [schema, ifaceById, h1, h2]; exact h.named
  · simp only [ifaceById, h2, h3]; exact h.typed

theorem MemStash.Docs.empty {I : Ids} {E : Stock.Env} : Docs I E {} :=
  ⟨.nil, (by intro _ _ h; cases h), (by intro _ _ h; cases h), (by intro _ _ h; cases h)⟩

theorem bind_keeps {α β : Type} {Φ : MemStash → Prop} {x : SR α} {f : MemStash → α → SR β} {t : MemStash} {r : Except StashErr β}
    (hx : ∀ u o, x = some (u, o) → Φ u) (hf : ∀ u a v o, Φ u → f u a = some (v, o) → Φ v) (h : SR.bind x f = some (t, r)) : Φ t := by
  cases x with
  | none => cases h
  | some p =>
    obtain ⟨u, o⟩ := p
    cases o with
    | error e => cases h; exact hx _ _ rfl
    | ok a => exact hf u a t r (hx _ _ rfl) h

theorem each_keeps {α β : Type} {Φ : MemStash → Prop} {f : MemStash → α → SR β} (l : List α)
    (hf : ∀ a ∈ l, ∀ s t r, Φ s → f s a = some (t, r) → Φ t) (s t : MemStash) (r : Except StashErr Unit) (hs : Φ s)
    (h : SR.each f l s = some (t, r)) : Φ t := by
  induction l generalizing s t r with
  | nil => cases h; exact hs
  | cons a l ih =>
    exact bind_keeps (fun u o hu => hf a (by simp) s u o hs hu)
      (fun u _ v o hu hv => ih (fun b hb => hf b (by simp [hb])) u v o hu hv) h

/-- Schemata, interfaces and types. -/
def SameDocs (s t : MemStash) : Prop := t.schemata = s.schemata ∧ t.ifaces = s.ifaces ∧ t.types = s.types

theorem SameDocs.trans {s t u : MemStash} (a : SameDocs s t) (b : SameDocs t u) : SameDocs s u :=
  ⟨b.1.trans a.1, b.2.1.trans a.2.1, b.2.2.trans a.2.2⟩

theorem sameDocs_genesis {s t : MemStash} {g : Op} {r : Except StashErr Bool} (h : s.consumeGenesis H g = some (t, r)) : SameDocs s t := by
  have put : ∀ g, s.replaceGenesis H g = some (t, r) → SameDocs s t := by
    intro g h; simp only [replaceGenesis] at h; split at h <;> cases h <;> exact ⟨rfl, rfl, rfl⟩
  simp only [consumeGenesis] at h
  split at h
  · exact put _ h
  · split at h
    · cases h; exact ⟨rfl, rfl, rfl⟩
    · exact put _ h

theorem sameDocs_extension {s t : MemStash} {g : Op} {r : Except StashErr Bool} (h : s.consumeExtension H g = some (t, r)) : SameDocs s t := by
  simp only [consumeExtension] at h
  split at h
  · cases h; exact ⟨rfl, rfl, rfl⟩
  · split at h <;> cases h <;> exact ⟨rfl, rfl, rfl⟩

theorem sameDocs_bundle {s t : MemStash} {g : Bundle} {r : Except StashErr Bool} (h : s.consumeBundle H g = some (t, r)) : SameDocs s t := by
  simp only [consumeBundle] at h
  split at h
  · cases h; exact ⟨rfl, rfl, rfl⟩
  · split at h <;> cases h <;> exact ⟨rfl, rfl, rfl⟩

theorem sameDocs_witness {s t : MemStash} {g : SealWitness} {r : Except StashErr Bool} (h : s.consumeWitness g = some (t, r)) : SameDocs s t := by
  simp only [consumeWitness] at h
  split at h
  · cases h; exact ⟨rfl, rfl, rfl⟩
  · split at h
    · cases h; exact ⟨rfl, rfl, rfl⟩
    · split at h <;> cases h <;> exact ⟨rfl, rfl, rfl⟩

theorem sameDocs_anchored {M : Mpc} {c : Nat} (l : List ClientBundle) {s t : MemStash} {r : Except StashErr (List (CloseMethod × Anchor))}
    (h : consumeAnchored H M c l s = some (t, r)) : SameDocs s t := by
  induction l generalizing s t r with
  | nil => cases h; exact ⟨rfl, rfl, rfl⟩
  | cons b l ih =>
    refine bind_keeps (Φ := SameDocs s) (fun u o hu => sameDocs_bundle hu) (fun u a v o hu hv => ?_) h
    cases hb : M.block b.mpc c (b.bundle.id H) with
    | none => simp only [hb] at hv; cases hv; exact hu
    | some p =>
      simp only [hb] at hv
      refine bind_keeps (Φ := SameDocs s) (fun w o' hw => hu.trans (ih hw)) (fun w as v' o' hw hv' => ?_) hv
      cases hv'; exact hw

theorem sameDocs_witnessBundle {M : Mpc} {c : Nat} {w : WitnessBundle} {s t : MemStash} {r : Except StashErr Bool}
    (h : consumeWitnessBundle H M c s w = some (t, r)) : SameDocs s t := by
  refine bind_keeps (Φ := SameDocs s) (fun u o hu => sameDocs_anchored _ hu) (fun u as v o hu hv => ?_) h
  cases ha : anchorSetOf as with
  | none => simp only [ha] at hv; cases hv
  | some y => simp only [ha] at hv; exact hu.trans (sameDocs_witness hv)

/-- Importing a kit with the types of its interfaces. -/
theorem docs_kit {I : Ids} {E : Stock.Env} {s t : MemStash} {k : Kit} {r : Except StashErr Unit} (hs : Docs I E s)
    (hk : ∀ d ∈ k.ifaces, ∀ ty ∈ E.ifaceTypes d, ty ∈ k.types) (h : s.consumeKit I k = some (t, r)) : Docs I E t := by
  suffices h : Docs I E t ∧ ∀ ty ∈ k.types, ty ∈ t.types from h.1
  refine bind_keeps (Φ := fun s => Docs I E s ∧ ∀ ty ∈ k.types, ty ∈ s.types) (fun u o hu => ?_) (fun s _ t _ hs h => ?_) h
  · cases hu
    exact ⟨⟨hs.sorted, hs.addressed, hs.named, fun i d h ty hty => OSet.mem_extend.mpr (.inl (hs.typed i d h ty hty))⟩,
      fun ty hty => OSet.mem_extend.mpr (.inr hty)⟩
  refine bind_keeps (Φ := fun s => Docs I E s ∧ ∀ ty ∈ k.types, ty ∈ s.types) (fun u o hu => ?_) (fun s _ t _ hs h => ?_) h
  · refine each_keeps (Φ := fun s => Docs I E s ∧ ∀ ty ∈ k.types, ty ∈ s.types) _ (fun a _ s t r hs h => ?_) _ _ _ hs hu
    cases h; exact ⟨hs.1.congr rfl rfl rfl, hs.2⟩
  refine bind_keeps (Φ := fun s => Docs I E s ∧ ∀ ty ∈ k.types, ty ∈ s.types) (fun u o hu => ?_) (fun s _ t _ hs h => ?_) h
  · refine each_keeps (Φ := fun s => Docs I E s ∧ ∀ ty ∈ k.types, ty ∈ s.types) _ (fun a _ s t r hs h => ?_) _ _ _ hs hu
    simp only [replaceSchema] at h
    split at h
    · cases h; exact hs
    · split at h
      · cases h; exact hs
      · cases h
        refine ⟨⟨hs.1.sorted, fun i si h => ?_, fun i si h => ?_, hs.1.typed⟩, hs.2⟩
        · simp only [schema, OMap.get?_insert] at h
          split at h
          · rename_i e; cases h; exact e.symm
          · exact hs.1.addressed i si h
        · simp only [schema, OMap.get?_insert] at h
          split at h
          · cases h; intro e he; cases he
          · exact hs.1.named i si h
  refine bind_keeps (Φ := fun s => Docs I E s ∧ ∀ ty ∈ k.types, ty ∈ s.types) (fun u o hu => ?_) (fun s _ t _ hs h => ?_) h
  · refine each_keeps (Φ := fun s => Docs I E s ∧ ∀ ty ∈ k.types, ty ∈ s.types) _ (fun a ha s t r hs h => ?_) _ _ _ hs hu
    simp only [replaceIface] at h
    split at h
    · cases h; exact hs
    · rename_i hc
      split at h
      · cases h; exact hs
      · cases h
        refine ⟨⟨hs.1.sorted.insert _ _, hs.1.addressed, fun i si h e he => ?_, fun i d h ty hty => ?_⟩, hs.2⟩
        · obtain ⟨j, d, h1, h2⟩ := hs.1.named i si h e he
          refine ⟨j, d, ?_, h2⟩
          simp only [ifaceById, OMap.get?_insert]
          split
          · rename_i ej
            subst ej
            exact absurd (OMap.contains_iff.mpr ⟨d, h1⟩) hc
          · exact h1
        · simp only [ifaceById, OMap.get?_insert] at h
          split at h
          · cases h; exact hs.2 _ (hk _ ha _ hty)
          · exact hs.1.typed i d h ty hty
  refine bind_keeps (Φ := fun s => Docs I E s ∧ ∀ ty ∈ k.types, ty ∈ s.types) (fun u o hu => ?_) (fun s _ t _ hs h => ?_) h
  · refine each_keeps (Φ := fun s => Docs I E s ∧ ∀ ty ∈ k.types, ty ∈ s.types) _ (fun a ha s t r hs h => ?_) _ _ _ hs hu
    simp only [replaceIimpl] at h
    split at h
    · rename_i si d h1 h2
      split at h
      · cases h; exact hs
      · cases h
        refine ⟨⟨hs.1.sorted, fun i si' h => ?_, fun i si' h e he => ?_, hs.1.typed⟩, hs.2⟩
        · simp only [schema, OMap.get?_insert] at h
          split at h
          · rename_i e; subst e; cases h; exact hs.1.addressed a.schemaId si h1
          · exact hs.1.addressed i si' h
        · simp only [schema, OMap.get?_insert] at h
          split at h
          · cases h
            rcases OMap.mem_of_insert he with rfl | he
            · exact ⟨_, d, h2, rfl⟩
            · exact hs.1.named _ _ h1 e he
          · exact hs.1.named i si' h e he
    · cases h
  refine bind_keeps (Φ := fun s => Docs I E s ∧ ∀ ty ∈ k.types, ty ∈ s.types) (fun u o hu => ?_) (fun s _ t _ hs h => ?_) h
  · refine each_keeps (Φ := fun s => Docs I E s ∧ ∀ ty ∈ k.types, ty ∈ s.types) _ (fun a ha s t r hs h => ?_) _ _ _ hs hu
    simp only [addSupplement] at h
    split at h <;> split at h <;> cases h <;> exact ⟨hs.1.congr rfl rfl rfl, hs.2⟩
  · have key : ∀ (l : List (Nat × List (Nat × Nat))) (s t : MemStash) (r : Except StashErr Unit), importAllSigs l s = some (t, r) → SameDocs s t := by
      intro l
      induction l with
      | nil => intro s t r h; cases h; exact ⟨rfl, rfl, rfl⟩
      | cons e l ih =>
        intro s t r h
        simp only [importAllSigs] at h
        split at h
        · cases h
        · rename_i u o hu
          refine SameDocs.trans (t := u) ?_ (ih _ _ _ h)
          simp only [importSigs] at hu
          split at hu
          · cases hu; exact ⟨rfl, rfl, rfl⟩
          · split at hu <;> cases hu <;> exact ⟨rfl, rfl, rfl⟩
    obtain ⟨h1, h2, h3⟩ := key _ _ _ _ h
    exact ⟨hs.1.congr h1 h2 h3, h3 ▸ hs.2⟩

theorem docs_consignment {I : Ids} {E : Stock.Env} {M : Mpc} {s t : MemStash} {con : Consignment} {r : Except StashErr Unit} (hs : Docs I E s)
    (hk : ∀ d ∈ con.ifaces, ∀ ty ∈ E.ifaceTypes d.1, ty ∈ con.types) (h : s.consumeConsignment H I M con = some (t, r)) : Docs I E t := by
  refine bind_keeps (Φ := Docs I E) (fun u o hu => ?_) (fun s _ t _ hs h => ?_) h
  · obtain ⟨h1, h2, h3⟩ := sameDocs_genesis hu; exact hs.congr h1 h2 h3
  refine bind_keeps (Φ := Docs I E) (fun u o hu => ?_) (fun s _ t _ hs h => ?_) h
  · refine each_keeps _ (fun a _ s t r hs h => ?_) _ _ _ hs hu
    obtain ⟨h1, h2, h3⟩ := sameDocs_extension h; exact hs.congr h1 h2 h3
  refine bind_keeps (Φ := Docs I E) (fun u o hu => ?_) (fun s _ t _ hs h => ?_) h
  · refine each_keeps _ (fun a _ s t r hs h => ?_) _ _ _ hs hu
    obtain ⟨h1, h2, h3⟩ := sameDocs_witnessBundle h; exact hs.congr h1 h2 h3
  refine bind_keeps (Φ := Docs I E) (fun u o hu => ?_) (fun s _ t _ hs h => ?_) h
  · refine each_keeps _ (fun a _ s t r hs h => ?_) _ _ _ hs hu
    cases h; exact hs.congr rfl rfl rfl
  refine docs_kit hs (fun d hd ty hty => ?_) h
  simp only [kitOf, OSet.mem_ofList, List.mem_map] at hd
  obtain ⟨e, he, rfl⟩ := hd
  exact hk e he ty hty

/-! ## Known transitions of the bundles -/

theorem bundles_consumeKit {I : Ids} {s t : MemStash} {k : Kit} {r : Except StashErr Unit} (h : s.consumeKit I k = some (t, r)) :
    t.bundles = s.bundles := by
  have ch : ∀ {α : Type} {f : MemStash → α → SR Bool} (l : List α), (∀ s a t r, f s a = some (t, r) → t.bundles = s.bundles) →
      ∀ u t r, u.bundles = s.bundles → SR.each f l u = some (t, r) → t.bundles = s.bundles :=
    fun l hf u t r hu h => (bundles_each hf l u t r h).trans hu
  refine bind_keeps (Φ := fun t => t.bundles = s.bundles) (fun u o hu => by cases hu; rfl) (fun s1 _ t _ h1 h => ?_) h
  refine bind_keeps (Φ := fun t => t.bundles = s.bundles) (fun u o hu => ch _ ?_ _ _ _ h1 hu) (fun s1 _ t _ h1 h => ?_) h
  · intro s a t r h; cases h; rfl
  refine bind_keeps (Φ := fun t => t.bundles = s.bundles) (fun u o hu => ch _ ?_ _ _ _ h1 hu) (fun s1 _ t _ h1 h => ?_) h
  · intro s a t r h; simp only [replaceSchema] at h; split at h
    · cases h; rfl
    · split at h <;> cases h <;> rfl
  refine bind_keeps (Φ := fun t => t.bundles = s.bundles) (fun u o hu => ch _ ?_ _ _ _ h1 hu) (fun s1 _ t _ h1 h => ?_) h
  · intro s a t r h; simp only [replaceIface] at h; split at h
    · cases h; rfl
    · split at h <;> cases h <;> rfl
  refine bind_keeps (Φ := fun t => t.bundles = s.bundles) (fun u o hu => ch _ ?_ _ _ _ h1 hu) (fun s1 _ t _ h1 h => ?_) h
  · intro s a t r h; simp only [replaceIimpl] at h; split at h
    · split at h <;> cases h <;> rfl
    · cases h
  refine bind_keeps (Φ := fun t => t.bundles = s.bundles) (fun u o hu => ?_) (fun s1 _ t _ h1 h => ?_) h
  · refine (bundles_each (f := addSupplement) ?_ _ _ _ _ hu).trans h1
    intro s a t r h; simp only [addSupplement] at h; split at h <;> split at h <;> cases h <;> rfl
  · refine Eq.trans ?_ h1
    clear h1
    revert h
    generalize k.signatures = l
    intro h
    induction l generalizing s1 with
    | nil => cases h; rfl
    | cons e l ih =>
      simp only [importAllSigs] at h
      split at h
      · cases h
      · rename_i u o hu
        refine (ih _ h).trans ?_
        simp only [importSigs] at hu
        split at hu
        · cases hu; rfl
        · split at hu <;> cases hu <;> rfl

/-- The known transitions of each stored bundle. -/
def KeysAre (K : Nat → (Nat → Bool) → Prop) (s : MemStash) : Prop :=
  ∀ i g, s.bundle i = some g → K i (OMap.contains g.known)

theorem keysAre_congr {K : Nat → (Nat → Bool) → Prop} {s t : MemStash} (h : KeysAre K s) (e : t.bundles = s.bundles) : KeysAre K t := by
  intro i g hg
  simp only [bundle, e] at hg
  exact h i g hg

theorem keysAre_bundle (hH : H.Binding) {K : Nat → (Nat → Bool) → Prop} {s t : MemStash} (hs : KeysAre K s) (hg : Good H s) {b : Bundle} (hb : b.WF H)
    (hK : K (b.id H) (OMap.contains b.known)) {r : Except StashErr Bool} (h : s.consumeBundle H b = some (t, r)) : KeysAre K t := by
  simp only [consumeBundle] at h
  split at h
  · cases h
    intro i g hi
    simp only [bundle, OMap.get?_insert] at hi
    split at hi
    · rename_i e; subst e; cases hi; exact hK
    · exact hs i g hi
  · rename_i old ho
    split at h
    · cases h; exact hs
    · rename_i m hm
      cases h
      obtain ⟨h1, h2⟩ := hg.bundle _ _ ho
      obtain ⟨h3, -, h4⟩ := Bundle.shownBy_merge hH h2 hb h1 hm
      intro i g hi
      simp only [bundle, OMap.get?_insert] at hi
      split at hi
      · rename_i e; cases hi
        rw [show OMap.contains m.known = OMap.contains old.known from funext h4, e, h3.id, h1]
        exact hs _ _ ho
      · exact hs i g hi

theorem keysAre_anchored (hH : H.Binding) {K : Nat → (Nat → Bool) → Prop} {M : Mpc} {c : Nat} (l : List ClientBundle)
    (hl : ∀ x ∈ l, x.bundle.WF H ∧ K (x.bundle.id H) (OMap.contains x.bundle.known))
    {s t : MemStash} (hs : KeysAre K s) (hg : Good H s) {r : Except StashErr (List (CloseMethod × Anchor))}
    (h : consumeAnchored H M c l s = some (t, r)) : KeysAre K t ∧ Good H t := by
  induction l generalizing s t r with
  | nil => cases h; exact ⟨hs, hg⟩
  | cons b l ih =>
    refine bind_keeps (Φ := fun t => KeysAre K t ∧ Good H t) (fun u o hu => ?_) (fun u a v o hu hv => ?_) h
    · exact ⟨keysAre_bundle hH hs hg (hl b (by simp)).1 (hl b (by simp)).2 hu,
        ((step_consumeBundle hH s hg b.bundle (hl b (by simp)).1).1 u o hu).1⟩
    cases hb : M.block b.mpc c (b.bundle.id H) with
    | none => simp only [hb] at hv; cases hv; exact hu
    | some p =>
      simp only [hb] at hv
      refine bind_keeps (Φ := fun t => KeysAre K t ∧ Good H t) (fun w o' hw => ih (fun x hx => hl x (by simp [hx])) hu.1 hu.2 hw)
        (fun w as v' o' hw hv' => ?_) hv
      cases hv'; exact hw

theorem keysAre_consignment (hH : H.Binding) {K : Nat → (Nat → Bool) → Prop} {I : Ids} {M : Mpc} {s t : MemStash} {con : Consignment}
    (hc : con.Proper H) (hK : ∀ wb ∈ con.data.bundles, ∀ b ∈ wb.anchored.bundles, K (b.id H) (OMap.contains b.known))
    (hs : KeysAre K s) (hg : Good H s) {r : Except StashErr Unit} (h : s.consumeConsignment H I M con = some (t, r)) : KeysAre K t := by
  suffices h : KeysAre K t ∧ Good H t from h.1
  refine bind_keeps (Φ := fun t => KeysAre K t ∧ Good H t) (fun u o hu => ?_) (fun s _ t _ hs h => ?_) h
  · exact ⟨keysAre_congr hs (bundles_consumeGenesis s u _ _ hu), ((step_consumeGenesis hH s hg _ hc.genesisKind hc.genesis).1 u o hu).1⟩
  refine bind_keeps (Φ := fun t => KeysAre K t ∧ Good H t) (fun u o hu => ?_) (fun s _ t _ hs h => ?_) h
  · refine each_keeps (Φ := fun t => KeysAre K t ∧ Good H t) _ (fun a ha s t r hs h => ?_) _ _ _ hs hu
    exact ⟨keysAre_congr hs.1 (bundles_consumeExtension s _ t _ h), ((step_consumeExtension hH s hs.2 a (hc.extensions a ha)).1 t r h).1⟩
  refine bind_keeps (Φ := fun t => KeysAre K t ∧ Good H t) (fun u o hu => ?_) (fun s _ t _ hs h => ?_) h
  · refine each_keeps (Φ := fun t => KeysAre K t ∧ Good H t) _ (fun w hw s t r hs h => ?_) _ _ _ hs hu
    refine bind_keeps (Φ := fun t => KeysAre K t ∧ Good H t) (fun u o hu => ?_) (fun u as v o hu hv => ?_) h
    · refine keysAre_anchored hH _ (fun x hx => ?_) hs.1 hs.2 hu
      have : x.bundle ∈ w.anchored.bundles := List.mem_map.mpr ⟨x, hx, rfl⟩
      exact ⟨hc.bundles w hw _ this, hK w hw _ this⟩
    · cases ha : anchorSetOf as with
      | none => simp only [ha] at hv; cases hv
      | some y =>
        simp only [ha] at hv
        obtain ⟨h1, -, h3⟩ := step_consumeWitness u hu.2 ⟨w.pub, y⟩
        exact ⟨keysAre_congr hu.1 (h3 _ _ hv), (h1 _ _ hv).1⟩
  refine bind_keeps (Φ := fun t => KeysAre K t ∧ Good H t) (fun u o hu => ?_) (fun s _ t _ hs h => ?_) h
  · refine each_keeps (Φ := fun t => KeysAre K t ∧ Good H t) _ (fun w hw s t r hs h => ?_) _ _ _ hs hu
    exact ⟨keysAre_congr hs.1 (by cases h; rfl), (step_replaceAttachment s hs.2 _ _ t r h).1⟩
  exact ⟨keysAre_congr hs.1 (bundles_consumeKit h), (step_consumeKit I s hs.2 _ t _ h).1⟩

end Rgb
