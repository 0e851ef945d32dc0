import Verif.Lemmas.Source
import Verif.Lemmas.PassStore
import Verif.Lemmas.Open

/-!
Where the operations in the stash come from.
-/

namespace Rgb

open MemStash Props Stock Index

variable {H : Commit} {I : Ids} {M : Mpc} {G : SchemaDoc → SchemaGlobals} {k k' : Stock}

/-- Properties of operations which merging keeps. -/
def MergeKeeps (H : Commit) (P : Op → Prop) : Prop := ∀ a b r : Op, a.WF → a.id H = b.id H → P a → P b → a.merge H b = .ok r → P r

/-- The geneses and the transitions in the bundles of the stash have some properties. -/
structure OpsAre (H : Commit) (Pg Pt : Nat → Op → Prop) (s : MemStash) : Prop where
  good : Good H s
  genesis : ∀ i g, s.genesis i = some g → Pg i g
  bundle : ∀ i b, s.bundle i = some b → ∀ o t, OMap.get? b.known o = some t → Pt i t

variable {Pg Pt : Nat → Op → Prop}

theorem OpsAre.congr {s t : MemStash} (h : OpsAre H Pg Pt s) (hg : Good H t) (e1 : t.geneses = s.geneses) (e2 : t.bundles = s.bundles) : OpsAre H Pg Pt t :=
  ⟨hg, fun i g h' => h.genesis i g (by simpa only [MemStash.genesis, e1] using h'), fun i b h' => h.bundle i b (by simpa only [MemStash.bundle, e2] using h')⟩

theorem opsAre_genesis (hH : H.Binding) (hm : ∀ i, MergeKeeps H (Pg i)) {s t : MemStash} (hs : OpsAre H Pg Pt s) {g : Op} (hk : g.kind = .genesis) (hw : g.WF)
    (hp : Pg (g.contractId H) g) {r : Except StashErr Bool} (h : s.consumeGenesis H g = some (t, r)) : OpsAre H Pg Pt t := by
  have hgd := ((step_consumeGenesis hH s hs.good _ hk hw).1 t r h).1
  have hbd : t.bundles = s.bundles := bundles_consumeGenesis s t _ _ h
  refine ⟨hgd, ?_, fun i b h' => hs.bundle i b (by simpa only [MemStash.bundle, hbd] using h')⟩
  have key : ∀ (g' : Op), Pg (g'.contractId H) g' → s.replaceGenesis H g' = some (t, r) → ∀ i g, t.genesis i = some g → Pg i g := by
    intro g' hg' h i x hx
    simp only [replaceGenesis] at h
    split at h
    · cases h; exact hs.genesis i x hx
    · cases h
      simp only [MemStash.genesis, OMap.get?_insert] at hx
      split at hx
      · rename_i e; cases hx; rw [e]; exact hg'
      · exact hs.genesis i x hx
  simp only [consumeGenesis] at h
  split at h
  · exact key g hp h
  · rename_i old ho
    split at h
    · cases h; exact hs.genesis
    · rename_i m hmm
      obtain ⟨g1, g2, g3⟩ := hs.good.genesis _ _ ho
      have hid : old.id H = g.id H := by simpa [Op.contractId, g2, hk] using g1
      have hmi : m.contractId H = g.contractId H := by
        obtain ⟨-, e2, -, e4⟩ := Op.shownBy_merge hH g3 hid hmm
        exact Op.contractId_shown e2 hk (e4.trans g2)
      exact key m (by rw [hmi]; exact hm _ old g m g3 hid (hs.genesis _ _ ho) hp hmm) h

theorem opsAre_bundle (hH : H.Binding) (hm : ∀ i, MergeKeeps H (Pt i)) {s t : MemStash} (hs : OpsAre H Pg Pt s) {b : Bundle} (hb : b.WF H)
    (hp : ∀ o u, OMap.get? b.known o = some u → Pt (b.id H) u) {r : Except StashErr Bool} (h : s.consumeBundle H b = some (t, r)) : OpsAre H Pg Pt t := by
  have hgd := ((step_consumeBundle hH s hs.good b hb).1 t r h).1
  have hge : t.geneses = s.geneses := geneses_bundle h
  refine ⟨hgd, fun i g h' => hs.genesis i g (by simpa only [MemStash.genesis, hge] using h'), ?_⟩
  simp only [consumeBundle] at h
  split at h
  · cases h
    intro i g hi
    simp only [MemStash.bundle, OMap.get?_insert] at hi
    split at hi
    · rename_i e; subst e; cases hi; exact hp
    · exact hs.bundle i g hi
  · rename_i old ho
    split at h
    · cases h; exact hs.bundle
    · rename_i m hmm
      cases h
      obtain ⟨h1, h2⟩ := hs.good.bundle _ _ ho
      have hid := (Bundle.shownBy_merge hH h2 hb h1 hmm).1.id
      intro i g hi o u hu
      simp only [MemStash.bundle, OMap.get?_insert] at hi
      split at hi
      · rename_i e; cases hi
        rw [e, hid, h1]
        obtain ⟨m', g1, -, -, -, g5⟩ := bundle_merge_eq hH h2 hb
        rw [g1] at hmm
        cases hmm
        rw [g5] at hu
        obtain ⟨a, ha, e2⟩ := Option.map_eq_some_iff.mp hu
        have hold := hs.bundle _ _ ho _ _ ha
        cases hb' : OMap.get? b.known o with
        | none => rw [hb'] at e2; simp only at e2; rw [← e2]; exact hold
        | some v =>
          rw [hb'] at e2
          simp only at e2
          have hida : a.id H = v.id H := (h2.keyed _ _ ha).1.trans (hb.keyed _ _ hb').1.symm
          exact hm _ a v u (h2.keyed _ _ ha).2 hida hold (hp _ _ hb') (by rw [← e2]; exact merge_joinOp hH hida (h2.keyed _ _ ha).2)
      · exact hs.bundle i g hi o u hu

theorem opsAre_anchored (hH : H.Binding) (hm : ∀ i, MergeKeeps H (Pt i)) {c : Nat} (l : List ClientBundle)
    (hl : ∀ x ∈ l, x.bundle.WF H ∧ ∀ o u, OMap.get? x.bundle.known o = some u → Pt (x.bundle.id H) u)
    {s t : MemStash} (hs : OpsAre H Pg Pt s) {r : Except StashErr (List (CloseMethod × Anchor))}
    (h : consumeAnchored H M c l s = some (t, r)) : OpsAre H Pg Pt t := by
  induction l generalizing s t r with
  | nil => cases h; exact hs
  | cons b l ih =>
    refine bind_keeps (Φ := OpsAre H Pg Pt) (fun u o hu => opsAre_bundle hH hm hs (hl b (by simp)).1 (hl b (by simp)).2 hu) (fun u a v o hu hv => ?_) h
    cases hb : M.block b.mpc c (b.bundle.id H) with
    | none => simp only [hb] at hv; cases hv; exact hu
    | some p =>
      simp only [hb] at hv
      refine bind_keeps (Φ := OpsAre H Pg Pt) (fun w o' hw => ih (fun x hx => hl x (by simp [hx])) hu hw) (fun w as v' o' hw hv' => ?_) hv
      cases hv'; exact hw

theorem opsAre_kit {s t : MemStash} {x : Kit} (hs : OpsAre H Pg Pt s) {r : Except StashErr Unit} (h : s.consumeKit I x = some (t, r)) : OpsAre H Pg Pt t :=
  hs.congr (step_consumeKit I s hs.good _ t _ h).1 (geneses_kit h) (bundles_consumeKit h)

theorem opsAre_witness {s t : MemStash} {w : SealWitness} (hs : OpsAre H Pg Pt s) {r : Except StashErr Bool} (h : s.consumeWitness w = some (t, r)) : OpsAre H Pg Pt t := by
  obtain ⟨h1, -, h3⟩ := step_consumeWitness (H := H) s hs.good w
  exact hs.congr (h1 _ _ h).1 (geneses_witness h) (h3 _ _ h)

theorem opsAre_consignment (hH : H.Binding) (hmg : ∀ i, MergeKeeps H (Pg i)) (hmt : ∀ i, MergeKeeps H (Pt i)) {s t : MemStash} {con : Consignment}
    (hc : con.Proper H) (hg : Pg (con.data.genesis.contractId H) con.data.genesis)
    (hb : ∀ wb ∈ con.data.bundles, ∀ b ∈ wb.anchored.bundles, ∀ o u, OMap.get? b.known o = some u → Pt (b.id H) u)
    (hs : OpsAre H Pg Pt s) {r : Except StashErr Unit} (h : s.consumeConsignment H I M con = some (t, r)) : OpsAre H Pg Pt t := by
  refine bind_keeps (Φ := OpsAre H Pg Pt) (fun u o hu => opsAre_genesis hH hmg hs hc.genesisKind hc.genesis hg hu) (fun s _ t _ hs h => ?_) h
  refine bind_keeps (Φ := OpsAre H Pg Pt) (fun u o hu => ?_) (fun s _ t _ hs h => ?_) h
  · refine each_keeps (Φ := OpsAre H Pg Pt) _ (fun a ha s t r hs h => ?_) _ _ _ hs hu
    exact hs.congr ((step_consumeExtension hH s hs.good a (hc.extensions a ha)).1 t r h).1 (geneses_extension h) (bundles_consumeExtension s _ t _ h)
  refine bind_keeps (Φ := OpsAre H Pg Pt) (fun u o hu => ?_) (fun s _ t _ hs h => ?_) h
  · refine each_keeps (Φ := OpsAre H Pg Pt) _ (fun w hw s t r hs h => ?_) _ _ _ hs hu
    refine bind_keeps (Φ := OpsAre H Pg Pt) (fun u o hu => ?_) (fun u as v o hu hv => ?_) h
    · refine opsAre_anchored hH hmt _ (fun x hx => ?_) hs hu
      have : x.bundle ∈ w.anchored.bundles := List.mem_map.mpr ⟨x, hx, rfl⟩
      exact ⟨hc.bundles w hw _ this, hb w hw _ this⟩
    · cases ha : anchorSetOf as with
      | none => simp only [ha] at hv; cases hv
      | some y => simp only [ha] at hv; exact opsAre_witness hu hv
  refine bind_keeps (Φ := OpsAre H Pg Pt) (fun u o hu => ?_) (fun s _ t _ hs h => ?_) h
  · refine each_keeps (Φ := OpsAre H Pg Pt) _ (fun w hw s t r hs h => ?_) _ _ _ hs hu
    exact hs.congr (step_replaceAttachment s hs.good _ _ t r h).1 (by cases h; rfl) (by cases h; rfl)
  exact opsAre_kit hs h

/-! ## Sources -/

theorem shownIn_merge (hH : H.Binding) (own : List Seal) (Src : Op → Prop) : MergeKeeps H (fun t => t.ShownIn H own Src) := by
  intro a b r hw hid ha hb h
  rw [Op.merge_eq hH hid hw] at h
  cases h
  refine ⟨fun ty i st hs => ?_, fun ty i sl hs => ?_⟩
  · rw [Op.merge_stateAt hH hid] at hs
    rw [Op.merge_id hH hid]
    rcases Option.or_eq_some_iff.mp hs with hs | ⟨-, hs⟩
    · exact ha.1 ty i st hs
    · rw [hid]; exact hb.1 ty i st hs
  · rw [Op.merge_sealAt hH hid] at hs
    rw [Op.merge_id hH hid]
    rcases Option.or_eq_some_iff.mp hs with hs | ⟨-, hs⟩
    · exact ha.2 ty i sl hs
    · rw [hid]; exact hb.2 ty i sl hs

theorem shownIn_self {own : List Seal} {Src : Op → Prop} {t : Op} (h : Src t) : t.ShownIn H own Src := by
  refine ⟨fun ty i st hs => ⟨t, h, rfl, hs⟩, fun ty i sl hs => ?_⟩
  simp only [Op.sealAt?, Option.bind_eq_some_iff] at hs
  obtain ⟨x, h1, h2⟩ := hs
  exact ⟨t, x, h, rfl, h1, .inl h2⟩

theorem shownIn_reveal {own : List Seal} {Src : Op → Prop} {t : Op} (h : Src t) {g : Nat → Option Seal} (hg : Right H g) (ho : ∀ h x, g h = some x → x ∈ own) :
    (t.revealWith g).ShownIn H own Src := by
  have hd := fun x => Assign.disclosed_revealWith hg x
  refine ⟨fun ty i st hs => ⟨t, h, (Op.revealWith_id hg t).symm, ?_⟩, fun ty i sl hs => ?_⟩
  · simp only [Op.stateAt?, Op.revealWith_at, Option.bind_eq_some_iff, Option.map_eq_some_iff] at hs ⊢
    obtain ⟨x, ⟨y, h1, rfl⟩, h2⟩ := hs
    exact ⟨y, h1, by rw [← (hd y).1]; exact h2⟩
  · simp only [Op.sealAt?, Op.revealWith_at, Option.bind_eq_some_iff, Option.map_eq_some_iff] at hs
    obtain ⟨x, ⟨y, h1, rfl⟩, h2⟩ := hs
    rw [(hd y).2.2] at h2
    refine ⟨t, y, h, (Op.revealWith_id hg t).symm, h1, ?_⟩
    rcases Option.or_eq_some_iff.mp h2 with h2 | ⟨h2, h3⟩
    · exact .inl h2
    · exact .inr ⟨h2, (hg _ _ h3).symm, ho _ _ h3⟩

/-- The operations in the stash are shown in the history. -/
def StashSrc (H : Commit) (es : List StockEvent) (s : MemStash) : Prop :=
  OpsAre H (fun c g => g.ShownIn H (ownSeals es) (GenesisOf H es c)) (fun i t => t.ShownIn H (ownSeals es) (TransitionIn H es i)) s

theorem stashSrc_bundle (hH : H.Binding) {es : List StockEvent} {s t : MemStash} (hs : StashSrc H es s) {b : Bundle} (hb : b.WF H)
    (hp : ∀ u ∈ OMap.vals b.known, TransitionIn H es (b.id H) u) {r : Except StashErr Bool} (h : s.consumeBundle H b = some (t, r)) : StashSrc H es t :=
  opsAre_bundle hH (fun _ => shownIn_merge hH _ _) hs hb (fun _ u hu => shownIn_self (hp u (List.mem_map.mpr ⟨_, OMap.mem_of_get? hu, rfl⟩))) h

theorem stashSrc_fascia (hH : H.Binding) {es : List StockEvent} {r : Resolver} {w : WitnessId} (l : List (Nat × Bundle)) (hw : ∀ e ∈ l, e.2.WF H)
    (hp : ∀ e ∈ l, ∀ u ∈ OMap.vals e.2.known, TransitionIn H es (e.2.id H) u) {e : Option StockErr} (hs : StashSrc H es k.stash)
    (h : fasciaBundles H r w l k = some (k', e)) : StashSrc H es k'.stash := by
  induction l generalizing k with
  | nil => simp only [fasciaBundles] at h; cases h; exact hs
  | cons x l ih =>
    obtain ⟨c, b⟩ := x
    simp only [fasciaBundles] at h
    split at h
    · cases h; exact hs
    cases e2 : k.index.indexBundle H c b w with | mk x o
    simp only [e2] at h
    cases o with
    | some y => simp only at h; cases h; exact hs
    | none =>
    simp only at h
    cases e1 : k.state.updateFromBundle H c b w r with
    | none => simp [e1] at h
    | some p =>
    obtain ⟨t, o⟩ := p
    cases o with
    | some y => simp only [e1] at h; cases h; exact hs
    | none =>
    simp only [e1] at h
    cases e3 : k.stash.consumeBundle H b with
    | none => simp [e3] at h
    | some q =>
      obtain ⟨s, o⟩ := q
      have hse := stashSrc_bundle hH hs (hw (c, b) (by simp)) (hp (c, b) (by simp)) e3
      cases o with
      | error y => simp only [e3] at h; cases h; exact hse
      | ok y => simp only [e3] at h; exact ih (fun x hx => hw x (by simp [hx])) (fun x hx => hp x (by simp [hx])) (k := ⟨s, t, x⟩) hse h

theorem stashSrc_event (hH : H.Binding) {es : List StockEvent} {e : StockEvent} (hm : e ∈ es) (he : e.Proper H)
    (hseals : ∀ x ∈ k.stash.secretSeals, x ∈ ownSeals es) (hi : StashSrc H es k.stash) (h : e.exec H I M G k = some k') : StashSrc H es k'.stash := by
  cases e with
  | consignment con r =>
    simp only [StockEvent.exec] at h
    obtain ⟨⟨k1, o⟩, h1, rfl⟩ := Option.map_eq_some_iff.mp h
    obtain ⟨g, hg, hr⟩ := resolve_ok hH k.stash con he.2.1
    have hp' := (resolve_proper hH _ _ _ r he hr).1
    simp only [Stock.consumeConsignment, hr, storeTx_mem] at h1
    obtain ⟨⟨k2, o'⟩, h2, h3⟩ := Option.map_eq_some_iff.mp h1
    cases h3
    have key : ∀ (s : MemStash) (o : Except StashErr Unit), k.stash.consumeConsignment H I M (withBundles con g) = some (s, o) → StashSrc H es s := by
      intro s o e3
      refine opsAre_consignment hH (fun _ => shownIn_merge hH _ _) (fun _ => shownIn_merge hH _ _) hp'.1 ?_ ?_ hi e3
      · exact shownIn_self ⟨con, r, hm, rfl, rfl⟩
      · intro wb hwb b hb o u hu
        obtain ⟨wb', h4, rfl⟩ := List.mem_map.mp hwb
        obtain ⟨T, hT, hl⟩ := (hg wb' h4).list
        simp only [AnchoredBundles.bundles, hl, List.map_map, List.mem_map, Function.comp] at hb
        obtain ⟨x, h5, rfl⟩ := hb
        simp only [ClientBundle.revealWith, OMap.get?_mapVals] at hu
        obtain ⟨z, h6, rfl⟩ := Option.map_eq_some_iff.mp hu
        refine shownIn_reveal ⟨_, hm, _, x.bundle, _, .consignment con r wb' x.bundle h4 ?_, rfl, List.mem_map.mpr ⟨_, OMap.mem_of_get? h6, rfl⟩⟩
          (hT x).1 (fun h y hy => hseals y ((hT x).2 h y hy))
        simp only [AnchoredBundles.bundles, List.mem_map]
        exact ⟨x, h5, rfl⟩
    simp only [consumeBody] at h2
    split at h2
    · cases h2
    · cases h2; exact hi
    · split at h2
      · cases h2; exact hi
      · split at h2
        · cases h2
        · cases h2; rename_i e3; exact key _ _ e3
        · cases h2; rename_i e3; exact key _ _ e3
  | fascia f r =>
    obtain ⟨⟨k1, o⟩, h1, rfl⟩ := Option.map_eq_some_iff.mp h
    simp only [consumeFascia, storeTx_mem] at h1
    obtain ⟨⟨k2, o'⟩, h2, h3⟩ := Option.map_eq_some_iff.mp h1
    cases h3
    simp only [fasciaBody] at h2
    cases e1 : k.stash.consumeWitness ⟨f.witness, f.anchor⟩ with
    | none => simp [e1] at h2
    | some q =>
      obtain ⟨s, x⟩ := q
      have hi' : StashSrc H es s := opsAre_witness hi e1
      cases x with
      | error y => simp only [e1] at h2; cases h2; exact hi'
      | ok y =>
        simp only [e1] at h2
        exact stashSrc_fascia hH _ (fun e he' => (he e he').1)
          (fun e he' t ht => ⟨_, hm, _, e.2, _, .fascia f r e.1 e.2 he', rfl, ht⟩) (k := { k with stash := s }) hi' h2
  | kit x =>
    obtain ⟨⟨s, o⟩, h1, rfl⟩ := Option.map_eq_some_iff.mp h
    exact opsAre_kit hi h1
  | secretSeal x =>
    simp only [StockEvent.exec] at h
    obtain ⟨⟨s, o⟩, h1, rfl⟩ := Option.map_eq_some_iff.mp h
    simp only [addSecretSeal] at h1
    cases h1
    exact hi.congr ⟨hi.good.genesis, hi.good.extension, hi.good.bundle, hi.good.witness⟩ rfl rfl
  | trust i t =>
    simp only [StockEvent.exec] at h
    obtain ⟨⟨s, o⟩, h1, rfl⟩ := Option.map_eq_some_iff.mp h
    simp only [setTrust] at h1
    cases h1
    exact hi.congr ⟨hi.good.genesis, hi.good.extension, hi.good.bundle, hi.good.witness⟩ rfl rfl
  | update r n =>
    simp only [StockEvent.exec, Option.some.injEq] at h
    subst h
    exact hi

theorem stashSrc_run (hH : H.Binding) (hG : ∀ d, OMap.Sorted (G d).maxItems) {all : List StockEvent} (es : List StockEvent) (hs : ∀ e ∈ es, e ∈ all)
    (he : ∀ e ∈ es, e.Proper H) (hi : Sourced H all k) (hss : StashSrc H all k.stash) (h : runStock H I M G es k = some k') : StashSrc H all k'.stash := by
  induction es generalizing k with
  | nil => simp only [runStock] at h; cases h; exact hss
  | cons e es ih =>
    simp only [runStock] at h
    obtain ⟨k₁, h1, h2⟩ := Option.bind_eq_some_iff.mp h
    exact ih (fun x hx => hs x (by simp [hx])) (fun x hx => he x (by simp [hx])) (source_event hH hG (hs e (by simp)) (he e (by simp)) hi h1)
      (stashSrc_event hH (hs e (by simp)) (he e (by simp)) hi.seals hss h1) h2

theorem stashSrc_empty {es : List StockEvent} : StashSrc H es (Stock.empty).stash :=
  ⟨⟨(fun _ _ h => by cases h), (fun _ _ h => by cases h), (fun _ _ h => by cases h), (fun _ _ h => by cases h)⟩, (fun _ _ h => by cases h), (fun _ _ h => by cases h)⟩

theorem stashSrc_of (hH : H.Binding) (hG : ∀ d, OMap.Sorted (G d).maxItems) {es : List StockEvent} (he : ∀ e ∈ es, e.Proper H)
    (h : runStock H I M G es .empty = some k) : StashSrc H es k.stash :=
  stashSrc_run hH hG es (fun _ => id) he source_empty stashSrc_empty h

/-! ## Contracts of bundles -/

theorem fascia_known {es : List StockEvent} {r : Resolver} {w : WitnessId} (l : List (Nat × Bundle))
    (hp : ∀ e ∈ l, ∀ t ∈ OMap.vals e.2.known, t.Proper ∧ t.kind = .transition) (hh : ∀ e ∈ l, ∀ t ∈ OMap.vals e.2.known, Had H es e.1 t (some w))
    (hi : Sourced H es k) (h : fasciaBundles H r w l k = some (k', none)) : ∀ e ∈ l, Imported H es e.1 := by
  induction l generalizing k with
  | nil => simp
  | cons x l ih =>
    obtain ⟨c, b⟩ := x
    simp only [fasciaBundles] at h
    split at h
    · cases h
    cases e2 : k.index.indexBundle H c b w with | mk x o
    simp only [e2] at h
    cases o with
    | some y => simp only at h; cases h
    | none =>
    simp only at h
    cases e1 : k.state.updateFromBundle H c b w r with
    | none => simp [e1] at h
    | some p =>
    obtain ⟨t, o⟩ := p
    have hent := source_bundle (hp (c, b) (by simp)) (hh (c, b) (by simp)) e1 hi.state
    cases o with
    | some y => simp only [e1] at h; cases h
    | none =>
    simp only [e1] at h
    cases e3 : k.stash.consumeBundle H b with
    | none => simp [e3] at h
    | some q =>
      obtain ⟨s, o⟩ := q
      have hse := seals_bundle _ _ _ _ e3
      cases o with
      | error y => simp only [e3] at h; cases h
      | ok y =>
        simp only [e3] at h
        intro e he
        rcases List.mem_cons.mp he with rfl | he
        · simp only [MemState.updateFromBundle] at e1
          split at e1
          · rename_i hc; exact hi.state.contracts c hc
          · cases e1
        · exact ih (fun x hx => hp x (by simp [hx])) (fun x hx => hh x (by simp [hx])) (k := ⟨s, t, x⟩)
            ⟨fun x hx => hi.seals x (hse ▸ hx), hent⟩ h e he

/-- In a history without failures the contract of each operation was imported. -/
theorem had_imported (hH : H.Binding) (hG : ∀ d, OMap.Sorted (G d).maxItems) {es : List StockEvent} (he : ∀ e ∈ es, e.Proper H)
    (h : AllDone H I M G es .empty k) {c : Nat} {t : Op} {w : Option WitnessId} (ht : Had H es c t w) : Imported H es c := by
  cases ht with
  | genesis con r he => exact ⟨con, r, he, rfl⟩
  | extension con r _ wb he _ _ => exact ⟨con, r, he, rfl⟩
  | transition e _ b w t hm hb _ =>
    cases hb with
    | consignment con r wb _ _ _ => exact ⟨con, r, hm, rfl⟩
    | fascia f r _ _ hmem =>
      have key : ∀ (l : List StockEvent) (k₀ : Stock), (∀ e ∈ l, e ∈ es) → Sourced H es k₀ → AllDone H I M G l k₀ k → .fascia f r ∈ l → Imported H es c := by
        intro l
        induction l with
        | nil => intro k₀ _ _ _ hm; simp at hm
        | cons e l ih =>
          intro k₀ hs hi hd hm
          obtain ⟨k₁, h1, h2⟩ := hd
          rcases List.mem_cons.mp hm with rfl | hm
          · have h1 : consumeFascia H r f k₀ = some (k₁, none) := h1
            simp only [consumeFascia, storeTx_mem] at h1
            obtain ⟨⟨k2, o'⟩, h3, h4⟩ := Option.map_eq_some_iff.mp h1
            have h5 : o' = none := by cases o' with | none => rfl | some x => cases h4
            subst h5
            cases h4
            simp only [fasciaBody] at h3
            cases e1 : k₀.stash.consumeWitness ⟨f.witness, f.anchor⟩ with
            | none => simp [e1] at h3
            | some q =>
              obtain ⟨s, x⟩ := q
              have hse := seals_witness _ _ _ _ e1
              cases x with
              | error y => simp only [e1] at h3; cases h3
              | ok y =>
                simp only [e1] at h3
                exact fascia_known (k := { k₀ with stash := s }) _ (fun e he' => ((show StockEvent.Proper H (.fascia f r) from he _ (hs (.fascia f r) (by simp))) e he').2)
                  (fun e he' t ht => .transition _ _ e.2 _ t (hs (.fascia f r) (by simp)) (.fascia f r e.1 e.2 he') ht)
                  ⟨fun x hx => hi.seals x (hse ▸ hx), hi.state⟩ h3 _ hmem
          · refine ih k₁ (fun x hx => hs x (by simp [hx])) ?_ h2 hm
            have h1' := allDone_run (k := k₀) (k' := k₁) [e] ⟨k₁, h1, rfl⟩
            exact source_run hH hG [e] (fun x hx => hs x (by simp at hx; simp [hx])) (fun x hx => he x (hs x (by simp at hx; simp [hx]))) hi h1'
      exact key es .empty (fun _ => id) source_empty h hm

end Rgb
