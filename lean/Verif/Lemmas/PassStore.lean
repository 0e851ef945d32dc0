import Verif.Lemmas.UsableConsign

/-!
What holds of the stash of every stock with a history: all its contents were written by single writes, and the transitions of the
stored bundles are indexed under these bundles.
-/

namespace Rgb

open MemStash

variable {H : Commit}

/-! ## Geneses -/

/-- The genesis is that of a valid consignment. -/
def GensAre (s : MemStash) : Prop := ∀ i g, s.genesis i = some g → OMap.Sorted g.globals

theorem gensAre_congr {s t : MemStash} (h : GensAre s) (e : t.geneses = s.geneses) : GensAre t := by
  intro i g hg
  simp only [genesis, e] at hg
  exact h i g hg

theorem gensAre_genesis (hH : H.Binding) {s t : MemStash} (hs : GensAre s) (hg : Good H s) {g : Op} (hk : g.kind = .genesis) (hp : OMap.Sorted g.globals)
    {r : Except StashErr Bool} (h : s.consumeGenesis H g = some (t, r)) : GensAre t := by
  have put : ∀ x : Op, OMap.Sorted x.globals → s.replaceGenesis H x = some (t, r) → GensAre t := by
    intro x hx h
    simp only [replaceGenesis] at h
    split at h
    · cases h; exact hs
    · cases h
      intro i g' hi
      simp only [genesis, OMap.get?_insert] at hi
      split at hi
      · cases hi; exact hx
      · exact hs i g' hi
  simp only [consumeGenesis] at h
  split at h
  · exact put _ hp h
  · rename_i old ho
    split at h
    · cases h; exact hs
    · rename_i x hm
      refine put x ?_ h
      obtain ⟨h1, h2, h3⟩ := hg.genesis _ old ho
      have hid : old.id H = g.id H := by simpa [Op.contractId, h2, hk] using h1
      obtain ⟨-, e2, -, -⟩ := Op.shownBy_merge hH h3 hid hm
      have := congrArg Op.globals (id_conceal hH e2.id)
      simp only [Op.conceal] at this
      rw [this]; exact hp

theorem geneses_extension {s t : MemStash} {g : Op} {r : Except StashErr Bool} (h : s.consumeExtension H g = some (t, r)) : t.geneses = s.geneses := by
  simp only [consumeExtension] at h
  split at h
  · cases h; rfl
  · split at h <;> cases h <;> rfl

theorem geneses_bundle {s t : MemStash} {g : Bundle} {r : Except StashErr Bool} (h : s.consumeBundle H g = some (t, r)) : t.geneses = s.geneses := by
  simp only [consumeBundle] at h
  split at h
  · cases h; rfl
  · split at h <;> cases h <;> rfl

theorem geneses_witness {s t : MemStash} {g : SealWitness} {r : Except StashErr Bool} (h : s.consumeWitness g = some (t, r)) : t.geneses = s.geneses := by
  simp only [consumeWitness] at h
  split at h
  · cases h; rfl
  · split at h
    · cases h; rfl
    · split at h <;> cases h <;> rfl

theorem geneses_anchored {M : Mpc} {c : Nat} (l : List ClientBundle) {s t : MemStash} {r : Except StashErr (List (CloseMethod × Anchor))}
    (h : consumeAnchored H M c l s = some (t, r)) : t.geneses = s.geneses := by
  induction l generalizing s t r with
  | nil => cases h; rfl
  | cons b l ih =>
    refine bind_keeps (Φ := fun t => t.geneses = s.geneses) (fun u o hu => geneses_bundle hu) (fun u a v o hu hv => ?_) h
    cases hb : M.block b.mpc c (b.bundle.id H) with
    | none => simp only [hb] at hv; cases hv; exact hu
    | some p =>
      simp only [hb] at hv
      refine bind_keeps (Φ := fun t => t.geneses = s.geneses) (fun w o' hw => (ih hw).trans hu) (fun w as v' o' hw hv' => ?_) hv
      cases hv'; exact hw

theorem geneses_witnessBundle {M : Mpc} {c : Nat} {w : WitnessBundle} {s t : MemStash} {r : Except StashErr Bool}
    (h : consumeWitnessBundle H M c s w = some (t, r)) : t.geneses = s.geneses := by
  refine bind_keeps (Φ := fun t => t.geneses = s.geneses) (fun u o hu => geneses_anchored _ hu) (fun u as v o hu hv => ?_) h
  cases ha : anchorSetOf as with
  | none => simp only [ha] at hv; cases hv
  | some y =>
    simp only [ha] at hv
    exact (geneses_witness hv).trans hu

theorem geneses_kit {I : Ids} {s t : MemStash} {k : Kit} {r : Except StashErr Unit} (h : s.consumeKit I k = some (t, r)) :
    t.geneses = s.geneses := by
  have ch : ∀ {α β : Type} {f : MemStash → α → SR β} (l : List α), (∀ s a t r, f s a = some (t, r) → t.geneses = s.geneses) →
      ∀ u t r, u.geneses = s.geneses → SR.each f l u = some (t, r) → t.geneses = s.geneses :=
    fun l hf u t r hu h => each_keeps (Φ := fun t => t.geneses = s.geneses) l (fun a _ x y r hx h => (hf x a y r h).trans hx) u t r hu h
  refine bind_keeps (Φ := fun t => t.geneses = s.geneses) (fun u o hu => by cases hu; rfl) (fun s1 _ t _ h1 h => ?_) h
  refine bind_keeps (Φ := fun t => t.geneses = s.geneses) (fun u o hu => ch _ ?_ _ _ _ h1 hu) (fun s1 _ t _ h1 h => ?_) h
  · intro s a t r h; cases h; rfl
  refine bind_keeps (Φ := fun t => t.geneses = s.geneses) (fun u o hu => ch _ ?_ _ _ _ h1 hu) (fun s1 _ t _ h1 h => ?_) h
  · intro s a t r h; simp only [replaceSchema] at h; split at h
    · cases h; rfl
    · split at h <;> cases h <;> rfl
  refine bind_keeps (Φ := fun t => t.geneses = s.geneses) (fun u o hu => ch _ ?_ _ _ _ h1 hu) (fun s1 _ t _ h1 h => ?_) h
  · intro s a t r h; simp only [replaceIface] at h; split at h
    · cases h; rfl
    · split at h <;> cases h <;> rfl
  refine bind_keeps (Φ := fun t => t.geneses = s.geneses) (fun u o hu => ch _ ?_ _ _ _ h1 hu) (fun s1 _ t _ h1 h => ?_) h
  · intro s a t r h; simp only [replaceIimpl] at h; split at h
    · split at h <;> cases h <;> rfl
    · cases h
  refine bind_keeps (Φ := fun t => t.geneses = s.geneses) (fun u o hu => ch _ ?_ _ _ _ h1 hu) (fun s1 _ t _ h1 h => ?_) h
  · intro s a t r h; simp only [addSupplement] at h; split at h <;> split at h <;> cases h <;> rfl
  · refine Eq.trans ?_ h1
    clear h1
    revert h
    generalize k.signatures = l
    intro h
    induction l generalizing s1 with
    | nil => cases h; rfl
    | cons e l ih =>
      simp only [importAllSigs] at h
      split at h
      · cases h
      · rename_i u o hu
        refine (ih _ h).trans ?_
        simp only [importSigs] at hu
        split at hu
        · cases hu; rfl
        · split at hu <;> cases hu <;> rfl

theorem gensAre_consignment (hH : H.Binding) {I : Ids} {M : Mpc} {s t : MemStash} {con : Consignment} (hg : Good H s)
    (hk : con.data.genesis.kind = .genesis) (hp : OMap.Sorted con.data.genesis.globals)
    (hs : GensAre s) {r : Except StashErr Unit} (h : s.consumeConsignment H I M con = some (t, r)) : GensAre t := by
  refine bind_keeps (Φ := GensAre) (fun u o hu => gensAre_genesis hH hs hg hk hp hu) (fun s _ t _ hs h => ?_) h
  refine bind_keeps (Φ := GensAre) (fun u o hu => ?_) (fun s _ t _ hs h => ?_) h
  · exact each_keeps (Φ := GensAre) _ (fun a _ s t r hs h => gensAre_congr hs (geneses_extension h)) _ _ _ hs hu
  refine bind_keeps (Φ := GensAre) (fun u o hu => ?_) (fun s _ t _ hs h => ?_) h
  · exact each_keeps (Φ := GensAre) _ (fun a _ s t r hs h => gensAre_congr hs (geneses_witnessBundle h)) _ _ _ hs hu
  refine bind_keeps (Φ := GensAre) (fun u o hu => ?_) (fun s _ t _ hs h => ?_) h
  · refine each_keeps (Φ := GensAre) _ (fun a _ s t r hs h => gensAre_congr hs ?_) _ _ _ hs hu
    cases h; rfl
  exact gensAre_congr hs (geneses_kit h)

/-! ## Implementations of interfaces -/

/-- Each implementation is stored under its schema and under the name of its interface, which is known. -/
structure Impls (s : MemStash) : Prop where
  sorted : OMap.Sorted s.ifaces
  impls : ∀ i si, s.schema i = some si → si.iimpls.length ≤ 255 ∧
    ∀ e ∈ si.iimpls, e.2.schemaId = i ∧ ∃ d, s.ifaceById e.2.ifaceId = some d ∧ d.name = e.1

theorem Impls.congr {s t : MemStash} (h : Impls s) (h1 : t.schemata = s.schemata) (h2 : t.ifaces = s.ifaces) : Impls t := by
  refine ⟨by rw [h2]; exact h.sorted, fun i si hsi => ?_⟩
  simp only [schema, h1] at hsi
  obtain ⟨a, b⟩ := h.impls i si hsi
  refine ⟨a, fun e he => ?_⟩
  obtain ⟨c, d, e1, e2⟩ := b e he
  refine ⟨c, d, ?_, e2⟩
  simp only [ifaceById, h2]; exact e1

theorem impls_exec (I : Ids) (s t : MemStash) (hs : Impls s) (w : StashWrite) (h : w.exec H I s = some t) : Impls t := by
  cases w with
  | schema d =>
    simp only [StashWrite.exec, replaceSchema] at h
    split at h
    · cases h; exact hs
    · split at h <;> cases h
      · exact hs
      · refine ⟨hs.sorted, fun i si hsi => ?_⟩
        simp only [schema, OMap.get?_insert] at hsi
        split at hsi
        · cases hsi; exact ⟨by simp, by simp⟩
        · exact hs.impls i si hsi
  | iface d =>
    simp only [StashWrite.exec, replaceIface] at h
    split at h
    · cases h; exact hs
    · rename_i hc
      split at h <;> cases h
      · exact hs
      · refine ⟨hs.sorted.insert _ _, fun i si hsi => ?_⟩
        obtain ⟨a, b⟩ := hs.impls i si hsi
        refine ⟨a, fun e he => ?_⟩
        obtain ⟨c, x, e1, e2⟩ := b e he
        refine ⟨c, x, ?_, e2⟩
        simp only [ifaceById, OMap.get?_insert] at e1 ⊢
        split
        · rename_i hi
          rw [hi] at e1
          exact absurd (OMap.contains_iff.mpr ⟨_, e1⟩) hc
        · exact e1
  | iimpl x =>
    simp only [StashWrite.exec, replaceIimpl] at h
    split at h
    · rename_i si d h1 h2
      split at h <;> cases h
      · exact hs
      · rename_i hl
        refine ⟨hs.sorted, fun i sj hsj => ?_⟩
        simp only [schema, OMap.get?_insert] at hsj
        split at hsj
        · rename_i hi
          cases hsj
          subst hi
          obtain ⟨a, b⟩ := hs.impls _ si h1
          refine ⟨?_, fun e he => ?_⟩
          · have := Stock.length_insert_le si.iimpls d.name x
            simp only [tinyMax] at hl
            show (OMap.insert si.iimpls d.name x).length ≤ 255
            omega
          · rcases OMap.mem_of_insert he with he | he
            · subst he; exact ⟨rfl, d, h2, rfl⟩
            · exact b e he
        · exact hs.impls i sj hsj
    · cases h
  | trust i l => cases h; exact hs.congr rfl rfl
  | supplement x =>
    simp only [StashWrite.exec, addSupplement] at h
    split at h
    · split at h <;> cases h <;> exact hs.congr rfl rfl
    · split at h <;> cases h <;> exact hs.congr rfl rfl
  | genesis g =>
    simp only [StashWrite.exec, replaceGenesis] at h
    split at h <;> cases h <;> exact hs.congr rfl rfl
  | extension e => cases h; exact hs.congr rfl rfl
  | bundle b => cases h; exact hs.congr rfl rfl
  | witness w => cases h; exact hs.congr rfl rfl
  | attachment i b => cases h; exact hs.congr rfl rfl
  | types l => cases h; exact hs.congr rfl rfl
  | lib l => cases h; exact hs.congr rfl rfl
  | sigs c l =>
    simp only [StashWrite.exec, importSigs] at h
    split at h
    · cases h; exact hs.congr rfl rfl
    · split at h <;> cases h <;> exact hs.congr rfl rfl
  | secretSeal x => cases h; exact hs.congr rfl rfl

theorem writes_keep {I : Ids} {Φ : MemStash → Prop} (hΦ : ∀ s t w, Φ s → StashWrite.exec H I s w = some t → Φ t) {s t : MemStash}
    (h : Writes H I s t) (hs : Φ s) : Φ t := by
  obtain ⟨ws, h⟩ := h
  induction ws generalizing s with
  | nil => cases h; exact hs
  | cons w ws ih =>
    obtain ⟨u, hu, h⟩ := Option.bind_eq_some_iff.mp h
    exact ih (hΦ s u w hs hu) h

/-! ## Bundles -/

/-- The operation is the id of a transition. -/
def TransId (H : Commit) (o : Nat) : Prop := ∃ t : Op, t.id H = o ∧ t.kind = .transition ∧ OMap.Sorted t.globals

/-- The transitions of the stored bundles are indexed. -/
def OpsIndexed (H : Commit) (x : Index) (i : Nat) (f : Nat → Bool) : Prop :=
  ∀ o, f o = true → TransId H o ∧ OMap.get? x.opBundle o = some i

theorem KeysAre.imp {K L : Nat → (Nat → Bool) → Prop} {s : MemStash} (h : KeysAre K s) (hKL : ∀ i f, K i f → L i f) : KeysAre L s :=
  fun i g hg => hKL _ _ (h i g hg)

theorem OpsIndexed.step {x : Index} {i : Nat} {f : Nat → Bool} (h : OpsIndexed H x i f) (op : IdxOp) : OpsIndexed H (op.exec H x).1 i f :=
  fun o ho => ⟨(h o ho).1, (op_effect H x op).opMono _ _ (h o ho).2⟩

/-- What holds of a stock with a history. -/
structure Stock.Kept (H : Commit) (I : Ids) (k : Stock) : Prop where
  hist : Stock.Hist H k
  writes : Writes H I {} k.stash
  gens : GensAre k.stash
  keys : KeysAre (OpsIndexed H k.index) k.stash

theorem indexed_of {op : IdxOp} {x y : Index} (he : op.exec H x = (y, none)) {c : Nat} {b : Bundle} {w : WitnessId} (hb : op.HasBundle H c b w)
    (hw : b.WF H) (ht : ∀ t ∈ OMap.vals b.known, t.Proper ∧ t.kind = .transition) : OpsIndexed H y (b.id H) (OMap.contains b.known) := by
  intro o ho
  have e := op_effect H x op
  rw [he] at e
  refine ⟨?_, e.opComplete rfl _ _ (anyOp_iff.mpr ⟨c, b, w, hb, rfl, OMap.mem_keys_iff.mpr ho⟩)⟩
  obtain ⟨t, h1⟩ := OMap.contains_iff.mp ho
  obtain ⟨h2, h3⟩ := ht t (List.mem_map.mpr ⟨_, OMap.mem_of_get? h1, rfl⟩)
  exact ⟨t, (hw.keyed _ _ h1).1, h3, h2.2⟩

open Stock

theorem Stock.Kept.withState {I : Ids} {k k' : Stock} (h : Kept H I k) (hh : Hist H k') (h1 : k'.stash = k.stash) (h2 : k'.index = k.index) : Kept H I k' :=
  ⟨hh, by rw [h1]; exact h.writes, by rw [h1]; exact h.gens, by rw [h1, h2]; exact h.keys⟩

theorem Stock.Kept.withStash {I : Ids} {k k' : Stock} (h : Kept H I k) (hh : Hist H k') (h2 : k'.index = k.index)
    (w : Writes H I k.stash k'.stash) (g : GensAre k'.stash) (hk : KeysAre (OpsIndexed H k.index) k'.stash) : Kept H I k' :=
  ⟨hh, h.writes.trans w, g, by rw [h2]; exact hk⟩

theorem consumeBody_kept (hH : H.Binding) {I : Ids} {M : Mpc} {G : SchemaDoc → SchemaGlobals} (hG : ∀ d, OMap.Sorted (G d).maxItems)
    {con : Consignment} {r : Resolver} (hp : StockEvent.Proper H (.consignment con r)) {k k' : Stock} {e : Option StockErr}
    (hk : Kept H I k) (h : consumeBody H I M G r con k = some (k', e)) : Kept H I k' := by
  have hh := consumeBody_hist hH hG hp hk.hist h
  simp only [consumeBody] at h
  cases e1 : k.state.updateFromConsignment H (G con.schema) con.data r with
  | none => simp [e1] at h
  | some p =>
  obtain ⟨t, o⟩ := p
  cases o with
  | some x => simp only [e1] at h; cases h; exact hk.withState hh rfl rfl
  | none =>
  simp only [e1] at h
  have hi := hk.keys.imp (fun i f hf => hf.step (.consignment con.data))
  simp only [IdxOp.exec] at hi
  cases e2 : k.index.indexConsignment H con.data with | mk x o
  rw [e2] at hi
  simp only [e2] at h
  cases o with
  | some y => simp only at h; cases h; exact ⟨hh, hk.writes, hk.gens, hi⟩
  | none =>
  simp only at h
  cases e3 : k.stash.consumeConsignment H I M con with
  | none => simp [e3] at h
  | some q =>
    obtain ⟨s, o⟩ := q
    have h1 := writes_consumeConsignment (H := H) I M k.stash con s o e3
    have h2 := gensAre_consignment hH hk.hist.good hp.1.genesisKind hp.2.2.1.2 hk.gens e3
    have h3 := keysAre_consignment hH (K := OpsIndexed H x) hp.1 (fun wb hwb b hb =>
      indexed_of (op := .consignment con.data) e2 (.inConsignment _ wb b hwb hb) (hp.1.bundles wb hwb b hb) (hp.2.2.2.2 wb hwb b hb)) hi hk.hist.good e3
    cases o with
    | error y => simp only [e3] at h; cases h; exact ⟨hh, hk.writes.trans h1, h2, h3⟩
    | ok y => simp only [e3] at h; cases h; exact ⟨hh, hk.writes.trans h1, h2, h3⟩

theorem fasciaBundles_kept (hH : H.Binding) {I : Ids} {r : Resolver} {w : WitnessId} (l : List (Nat × Bundle))
    (hp : ∀ e ∈ l, e.2.WF H ∧ ∀ t ∈ OMap.vals e.2.known, t.Proper ∧ t.kind = .transition) {k k' : Stock} {e : Option StockErr}
    (hk : Kept H I k) (h : fasciaBundles H r w l k = some (k', e)) : Kept H I k' := by
  induction l generalizing k with
  | nil => simp only [fasciaBundles] at h; cases h; exact hk
  | cons x l ih =>
    have hh := fasciaBundles_hist hH _ hp hk.hist h
    obtain ⟨c, b⟩ := x
    have hfull := h
    simp only [fasciaBundles] at h
    by_cases hchk : (OMap.keys b.known).all (fun o => decide (o ∈ OMap.vals b.inputMap)) = false
    · rw [if_pos hchk] at h
      cases h; exact hk
    rw [if_neg hchk] at h
    have hi := hk.keys.imp (fun i f hf => hf.step (.bundle c b w))
    simp only [IdxOp.exec] at hi
    cases e2 : k.index.indexBundle H c b w with | mk x o
    rw [e2] at hi
    simp only [e2] at h
    cases o with
    | some y => simp only at h; cases h; exact ⟨hh, hk.writes, hk.gens, hi⟩
    | none =>
    simp only at h
    cases e1 : k.state.updateFromBundle H c b w r with
    | none => simp [e1] at h
    | some p =>
    obtain ⟨t, o⟩ := p
    cases o with
    | some y => simp only [e1] at h; cases h; exact ⟨hh, hk.writes, hk.gens, hi⟩
    | none =>
    simp only [e1] at h
    cases e3 : k.stash.consumeBundle H b with
    | none => simp [e3] at h
    | some q =>
      obtain ⟨s, o⟩ := q
      have h1 := writes_consumeBundle (H := H) I k.stash b s o e3
      have h2 := gensAre_congr hk.gens (geneses_bundle e3)
      have h3 := keysAre_bundle hH (K := OpsIndexed H x) hi hk.hist.good (hp (c, b) (by simp)).1
        (indexed_of (op := .bundle c b w) e2 (.single _ _ _) (hp (c, b) (by simp)).1 (hp (c, b) (by simp)).2) e3
      cases o with
      | error y => simp only [e3] at h; cases h; exact ⟨hh, hk.writes.trans h1, h2, h3⟩
      | ok y =>
        simp only [e3] at h
        have hone : fasciaBundles H r w [(c, b)] k = some (⟨s, t, x⟩, none) := by
          simp only [fasciaBundles]
          rw [if_neg hchk]
          simp only [e2, e1, e3]
        refine ih (fun x hx => hp x (by simp [hx])) ⟨?_, hk.writes.trans h1, h2, h3⟩ h
        exact fasciaBundles_hist hH [(c, b)] (fun x hx => hp x (by simp only [List.mem_singleton] at hx; simp [hx])) hk.hist hone

theorem event_kept (hH : H.Binding) {I : Ids} {M : Mpc} {G : SchemaDoc → SchemaGlobals} (hG : ∀ d, OMap.Sorted (G d).maxItems)
    (e : StockEvent) (he : e.Proper H) {k k' : Stock} (hk : Kept H I k) (h : e.exec H I M G k = some k') : Kept H I k' := by
  have hh := event_hist hH hG e he hk.hist h
  cases e with
  | consignment con r =>
    obtain ⟨⟨k1, o⟩, h1, rfl⟩ := Option.map_eq_some_iff.mp h
    simp only [Stock.consumeConsignment] at h1
    cases e1 : k.stash.resolveSecrets H con with
    | error x => simp only [e1] at h1; cases h1; exact hk
    | ok con' =>
      simp only [e1, storeTx_mem] at h1
      obtain ⟨⟨k2, o'⟩, h2, h3⟩ := Option.map_eq_some_iff.mp h1
      cases h3
      exact consumeBody_kept hH hG (resolve_proper hH _ _ _ r he e1).1 hk h2
  | fascia f r =>
    obtain ⟨⟨k1, o⟩, h1, rfl⟩ := Option.map_eq_some_iff.mp h
    simp only [consumeFascia, storeTx_mem] at h1
    obtain ⟨⟨k2, o'⟩, h2, h3⟩ := Option.map_eq_some_iff.mp h1
    cases h3
    simp only [fasciaBody] at h2
    cases e1 : k.stash.consumeWitness ⟨f.witness, f.anchor⟩ with
    | none => simp [e1] at h2
    | some q =>
      obtain ⟨s, x⟩ := q
      obtain ⟨g1, -, g3⟩ := step_consumeWitness (H := H) k.stash hk.hist.good ⟨f.witness, f.anchor⟩
      have hs := (g1 s x e1).1
      have hk1 : Kept H I { k with stash := s } :=
        hk.withStash (hk.hist.withStash hs) rfl (writes_consumeWitness I k.stash _ s x e1) (gensAre_congr hk.gens (geneses_witness e1))
          (keysAre_congr hk.keys (g3 _ _ e1))
      cases x with
      | error y => simp only [e1] at h2; cases h2; exact hk1
      | ok y =>
        simp only [e1] at h2
        exact fasciaBundles_kept hH _ he hk1 h2
  | kit x =>
    obtain ⟨⟨s, o⟩, h1, rfl⟩ := Option.map_eq_some_iff.mp h
    exact hk.withStash hh rfl (writes_consumeKit I k.stash x s o h1) (gensAre_congr hk.gens (geneses_kit h1)) (keysAre_congr hk.keys (bundles_consumeKit h1))
  | secretSeal x =>
    simp only [StockEvent.exec] at h
    obtain ⟨⟨s, o⟩, h1, rfl⟩ := Option.map_eq_some_iff.mp h
    exact hk.withStash hh rfl (.one (.secretSeal x) (exec_of h1)) (gensAre_congr hk.gens (by cases h1; rfl)) (keysAre_congr hk.keys (by cases h1; rfl))
  | trust i t =>
    simp only [StockEvent.exec] at h
    obtain ⟨⟨s, o⟩, h1, rfl⟩ := Option.map_eq_some_iff.mp h
    exact hk.withStash hh rfl (.one (.trust i t) (exec_of h1)) (gensAre_congr hk.gens (by cases h1; rfl)) (keysAre_congr hk.keys (by cases h1; rfl))
  | update r n =>
    simp only [StockEvent.exec, Option.some.injEq] at h
    subst h
    exact hk.withState hh rfl rfl

theorem kept_empty {I : Ids} : Kept H I .empty :=
  ⟨⟨good_empty, ⟨[], rfl⟩, [], by simp [EventsProper], rfl⟩, .refl I _, (by intro _ _ h; cases h), (by intro _ _ h; cases h)⟩

theorem runStock_kept (hH : H.Binding) {I : Ids} {M : Mpc} {G : SchemaDoc → SchemaGlobals} (hG : ∀ d, OMap.Sorted (G d).maxItems)
    (es : List StockEvent) (he : ∀ e ∈ es, StockEvent.Proper H e) {k k' : Stock} (hk : Kept H I k)
    (h : runStock H I M G es k = some k') : Kept H I k' := by
  induction es generalizing k with
  | nil => cases h; exact hk
  | cons e es ih =>
    obtain ⟨u, hu, h⟩ := Option.bind_eq_some_iff.mp h
    exact ih (fun x hx => he x (by simp [hx])) (event_kept hH hG e (he e (by simp)) hk hu) h

theorem Stock.Kept.impls {I : Ids} {k : Stock} (h : Kept H I k) : Impls k.stash :=
  writes_keep (Φ := Impls) (fun s t w hs ht => impls_exec I s t hs w ht) h.writes ⟨.nil, by intro _ _ h; cases h⟩

theorem Stock.Kept.addressed {I : Ids} {k : Stock} (h : Kept H I k) : Addressed H I k.stash :=
  writes_keep (Φ := Addressed H I) (fun s t w hs ht => addressed_exec H I s t hs w ht) h.writes (addressed_empty H I)

end Rgb
