import Verif.Lemmas.UsableRec

/-!
The records which successful events leave in a stock.
-/

namespace Rgb.Stock

open MemStash Props

variable {H : Commit}

/-! ## Extensions of a stock -/

/-- Every store of `k'` is that of `k` with more operations. -/
structure Ext (H : Commit) (k k' : Stock) : Prop where
  stash : Grows H k.stash k'.stash
  index : ∃ ops, k'.index = runIdx H k.index ops
  state : ∃ es, EventsProper es ∧ runSt H k.state es = some k'.state

theorem Ext.refl (k : Stock) : Ext H k k := ⟨.refl _, ⟨[], rfl⟩, [], by simp [EventsProper], rfl⟩

theorem Ext.trans {k k' k'' : Stock} (a : Ext H k k') (b : Ext H k' k'') : Ext H k k'' := by
  refine ⟨a.stash.trans b.stash, ?_, ?_⟩
  · obtain ⟨o1, h1⟩ := a.index
    obtain ⟨o2, h2⟩ := b.index
    exact ⟨o1 ++ o2, by rw [run_append, ← h1, h2]⟩
  · obtain ⟨e1, p1, h1⟩ := a.state
    obtain ⟨e2, p2, h2⟩ := b.state
    refine ⟨e1 ++ e2, fun c hc => ?_, by rw [runSt_append _ _ _ _ h1, h2]⟩
    rcases List.mem_append.mp hc with hc | hc
    · exact p1 c hc
    · exact p2 c hc

theorem Ext.withStash {k k' : Stock} (a : Ext H k k') {s : MemStash} (hs : Grows H k'.stash s) : Ext H k { k' with stash := s } :=
  ⟨a.stash.trans hs, a.index, a.state⟩

theorem Ext.withIndex {k k' : Stock} (a : Ext H k k') (op : IdxOp) : Ext H k { k' with index := (op.exec H k'.index).1 } :=
  a.trans ⟨.refl _, ⟨[op], rfl⟩, [], by simp [EventsProper], rfl⟩

theorem Ext.withState {k k' : Stock} (a : Ext H k k') {t : MemState} {es : List StEvent} (hp : EventsProper es)
    (h : runSt H k'.state es = some t) : Ext H k { k' with state := t } :=
  a.trans ⟨.refl _, ⟨[], rfl⟩, es, hp, h⟩

theorem consumeBody_ext (hH : H.Binding) {I : Ids} {M : Mpc} {G : SchemaDoc → SchemaGlobals} (hG : ∀ d, OMap.Sorted (G d).maxItems)
    {con : Consignment} {r : Resolver} (hp : StockEvent.Proper H (.consignment con r)) {k k' : Stock} {e : Option StockErr}
    (hk : Hist H k) (h : consumeBody H I M G r con k = some (k', e)) : Ext H k k' := by
  simp only [consumeBody] at h
  cases e1 : k.state.updateFromConsignment H (G con.schema) con.data r with
  | none => simp [e1] at h
  | some p =>
  obtain ⟨t, o⟩ := p
  obtain ⟨es, he, hr⟩ := updateFromConsignment_run (hG _) hp e1
  have h1 := (Ext.refl k).withState he hr
  cases o with
  | some x => simp only [e1] at h; cases h; exact h1
  | none =>
  simp only [e1] at h
  have h2 := h1.withIndex (.consignment con.data)
  simp only [IdxOp.exec] at h2
  cases e2 : k.index.indexConsignment H con.data with | mk x o
  rw [e2] at h2
  simp only [e2] at h
  cases o with
  | some y => simp only at h; cases h; exact h2
  | none =>
  simp only at h
  cases e3 : k.stash.consumeConsignment H I M con with
  | none => simp [e3] at h
  | some q =>
    obtain ⟨s, o⟩ := q
    have hs := (step_consumeConsignment hH I M k.stash hk.good con hp.1 s o e3).2
    have h3 := h2.withStash hs
    cases o with
    | error y => simp only [e3] at h; cases h; exact h3
    | ok y => simp only [e3] at h; cases h; exact h3

theorem updateFromBundle_run {c : Nat} {b : Bundle} {w : WitnessId} {r : Resolver}
    (hp : ∀ t ∈ OMap.vals b.known, t.Proper ∧ t.kind = .transition) {s t : MemState} {o : Option StErr}
    (e1 : s.updateFromBundle H c b w r = some (t, o)) : ∃ es, EventsProper es ∧ runSt H s es = some t := by
  simp only [MemState.updateFromBundle] at e1
  split at e1
  · split at e1
    · cases e1; exact ⟨[], by simp [EventsProper], rfl⟩
    · split at e1
      · cases e1; exact ⟨[], by simp [EventsProper], rfl⟩
      · obtain ⟨es, h3, h4⟩ := execAll_run _ _ _ _ e1
        refine ⟨es, fun y hy => ?_, h4⟩
        obtain ⟨z, hz, rfl⟩ := List.mem_map.mp (h3 y hy)
        exact hp z.2 (by simp only [OMap.vals, List.mem_map]; exact ⟨z, hz, rfl⟩)
  · cases e1; exact ⟨[], by simp [EventsProper], rfl⟩

theorem fasciaBundles_ext (hH : H.Binding) {r : Resolver} {w : WitnessId} (l : List (Nat × Bundle))
    (hp : ∀ e ∈ l, e.2.WF H ∧ ∀ t ∈ OMap.vals e.2.known, t.Proper ∧ t.kind = .transition) {k k' : Stock} {e : Option StockErr}
    (hk : Hist H k) (h : fasciaBundles H r w l k = some (k', e)) : Ext H k k' := by
  induction l generalizing k with
  | nil => simp only [fasciaBundles] at h; cases h; exact .refl _
  | cons x l ih =>
    obtain ⟨c, b⟩ := x
    simp only [fasciaBundles] at h
    split at h
    · cases h; exact .refl _
    have h1 := (Ext.refl (H := H) k).withIndex (.bundle c b w)
    have k1 := hk.withIndex (.bundle c b w)
    simp only [IdxOp.exec] at h1 k1
    cases e2 : k.index.indexBundle H c b w with | mk x o
    rw [e2] at h1 k1
    simp only [e2] at h
    cases o with
    | some y => simp only at h; cases h; exact h1
    | none =>
    simp only at h
    cases e1 : k.state.updateFromBundle H c b w r with
    | none => simp [e1] at h
    | some p =>
    obtain ⟨t, o⟩ := p
    obtain ⟨es, he, hr⟩ := updateFromBundle_run (hp (c, b) (by simp)).2 e1
    have h2 := h1.withState he hr
    have k2 := k1.withState he hr
    cases o with
    | some y => simp only [e1] at h; cases h; exact h2
    | none =>
    simp only [e1] at h
    cases e3 : k.stash.consumeBundle H b with
    | none => simp [e3] at h
    | some q =>
      obtain ⟨s, o⟩ := q
      have hs := (step_consumeBundle hH k.stash hk.good b (hp (c, b) (by simp)).1).1 s o e3
      have h3 := h2.withStash hs.2
      have k3 := k2.withStash hs.1
      cases o with
      | error y => simp only [e3] at h; cases h; exact h3
      | ok y =>
        simp only [e3] at h
        exact h3.trans (ih (fun x hx => hp x (by simp [hx])) k3 h)

theorem event_ext (hH : H.Binding) {I : Ids} {M : Mpc} {G : SchemaDoc → SchemaGlobals} (hG : ∀ d, OMap.Sorted (G d).maxItems)
    (e : StockEvent) (he : e.Proper H) {k k' : Stock} (hk : Hist H k) (h : e.exec H I M G k = some k') : Ext H k k' := by
  cases e with
  | consignment con r =>
    obtain ⟨⟨k1, o⟩, h1, rfl⟩ := Option.map_eq_some_iff.mp h
    simp only [consumeConsignment] at h1
    cases e1 : k.stash.resolveSecrets H con with
    | error x => simp only [e1] at h1; cases h1; exact .refl _
    | ok con' =>
      simp only [e1, storeTx_mem] at h1
      obtain ⟨⟨k2, o'⟩, h2, h3⟩ := Option.map_eq_some_iff.mp h1
      cases h3
      exact consumeBody_ext hH hG (resolve_proper hH _ _ _ r he e1).1 hk h2
  | fascia f r =>
    obtain ⟨⟨k1, o⟩, h1, rfl⟩ := Option.map_eq_some_iff.mp h
    simp only [consumeFascia, storeTx_mem] at h1
    obtain ⟨⟨k2, o'⟩, h2, h3⟩ := Option.map_eq_some_iff.mp h1
    cases h3
    simp only [fasciaBody] at h2
    cases e1 : k.stash.consumeWitness ⟨f.witness, f.anchor⟩ with
    | none => simp [e1] at h2
    | some q =>
      obtain ⟨s, x⟩ := q
      have hs := (step_consumeWitness k.stash hk.good _).1 s x e1
      have h3 := (Ext.refl (H := H) k).withStash hs.2
      cases x with
      | error y => simp only [e1] at h2; cases h2; exact h3
      | ok y =>
        simp only [e1] at h2
        exact h3.trans (fasciaBundles_ext hH _ he (hk.withStash hs.1) h2)
  | kit x =>
    obtain ⟨⟨s, o⟩, h1, rfl⟩ := Option.map_eq_some_iff.mp h
    exact (Ext.refl k).withStash (step_consumeKit I k.stash hk.good x s o h1).2
  | secretSeal x =>
    simp only [StockEvent.exec] at h
    obtain ⟨⟨s, o⟩, h1, rfl⟩ := Option.map_eq_some_iff.mp h
    exact (Ext.refl k).withStash (step_addSecretSeal k.stash hk.good x s o h1).2
  | trust i t =>
    simp only [StockEvent.exec] at h
    obtain ⟨⟨s, o⟩, h1, rfl⟩ := Option.map_eq_some_iff.mp h
    exact (Ext.refl k).withStash (step_setTrust k.stash hk.good i t s o h1).2
  | update r n =>
    simp only [StockEvent.exec, Option.some.injEq] at h
    subst h
    exact (Ext.refl k).withState (es := [.update r n]) (by simp [EventsProper]) rfl

theorem runStock_ext (hH : H.Binding) {I : Ids} {M : Mpc} {G : SchemaDoc → SchemaGlobals} (hG : ∀ d, OMap.Sorted (G d).maxItems)
    (es : List StockEvent) (he : ∀ e ∈ es, StockEvent.Proper H e) {k k' : Stock} (hk : Hist H k)
    (h : runStock H I M G es k = some k') : Ext H k k' := by
  induction es generalizing k with
  | nil => cases h; exact .refl _
  | cons e es ih =>
    obtain ⟨u, hu, h⟩ := Option.bind_eq_some_iff.mp h
    exact (event_ext hH hG e (he e (by simp)) hk hu).trans
      (ih (fun x hx => he x (by simp [hx])) (event_hist hH hG e (he e (by simp)) hk hu) h)

/-! ## What a stock has -/

structure Has (H : Commit) (I : Ids) (F : Facts) (k : Stock) : Prop where
  idx : IdxHas F k.index
  st : StHas F k.state
  stash : StashHas H I F k.stash

theorem Has.ext {I : Ids} {F : Facts} {k k' : Stock} (h : Has H I F k) (e : Ext H k k') : Has H I F k' := by
  obtain ⟨ops, h1⟩ := e.index
  obtain ⟨es, h2, h3⟩ := e.state
  exact ⟨h1 ▸ h.idx.run ops, h.st.run es h2 h3, h.stash.grows e.stash⟩

/-! ## What an event brings -/

end Rgb.Stock

namespace Rgb

open MemStash Props Stock

variable {H : Commit}

/-- The bundle with more seals shown. -/
def Reveals (H : Commit) (b b' : Bundle) : Prop := ∃ g, Right H g ∧ b' = { b with known := OMap.mapVals (Op.revealWith g) b.known }

theorem Reveals.id {b b' : Bundle} (h : Reveals H b b') : b'.id H = b.id H := by obtain ⟨g, -, rfl⟩ := h; rfl
theorem Reveals.method {b b' : Bundle} (h : Reveals H b b') : b'.closeMethod = b.closeMethod := by obtain ⟨g, -, rfl⟩ := h; rfl

theorem Reveals.get? {b b' : Bundle} (h : Reveals H b b') {o : Nat} {t : Op} (ht : OMap.get? b.known o = some t) :
    ∃ g, Right H g ∧ OMap.get? b'.known o = some (t.revealWith g) := by
  obtain ⟨g, hg, rfl⟩ := h
  exact ⟨g, hg, by simp [OMap.get?_mapVals, ht]⟩

theorem Reveals.contains {b b' : Bundle} (h : Reveals H b b') (o : Nat) : OMap.contains b'.known o = OMap.contains b.known o := by
  obtain ⟨g, hg, rfl⟩ := h
  simp [OMap.contains, OMap.get?_mapVals]

theorem Op.shownBy_revealWith {g : Nat → Option Seal} (hg : Right H g) (t : Op) : t.ShownBy H (t.revealWith g) := by
  refine ⟨Op.revealWith_id hg t, fun ty i x h => ?_, fun ty i x h => ?_⟩
  · simp only [Op.sealAt?, Op.revealWith_at] at h ⊢
    cases ha : t.at? ty i with
    | none => simp [ha] at h
    | some a => cases a <;> simp_all [Assign.revealWith, Assign.seal?]
  · simp only [Op.stateAt?, Op.revealWith_at] at h ⊢
    cases ha : t.at? ty i with
    | none => simp [ha] at h
    | some a =>
      cases a with
      | confidentialSeal sh st => cases hs : g sh <;> simp_all [Assign.revealWith, Assign.state?]
      | _ => simp_all [Assign.revealWith, Assign.state?]

theorem Reveals.shownBy {b b' : Bundle} (h : Reveals H b b') : b.ShownBy H b' := by
  refine ⟨h.id, fun o t ht => ?_⟩
  obtain ⟨g, hg, h1⟩ := h.get? ht
  exact ⟨_, h1, Op.shownBy_revealWith hg t⟩

/-- A revealed assignment stays. -/
theorem assigned_revealWith {g : Nat → Option Seal} (hg : Right H g) {t : Op} {w : Option WitnessId} {k : StateKind} {key : OutKey} {x : OutAssign}
    (h : assignedAt w (t.id H) t.assigns k key = some x) :
    assignedAt w ((t.revealWith g).id H) (t.revealWith g).assigns k key = some x := by
  rw [assignedAt_iff] at h ⊢
  obtain ⟨⟨h1, h2, ta, sl, h3, h4, h5, h6⟩, h7⟩ := h
  refine ⟨⟨h1.trans (Op.revealWith_id hg t).symm, h2, ta.revealWith g, sl, ?_, h4, ?_, h6⟩, h7⟩
  · simp [Op.revealWith, OMap.get?_mapVals, h3]
  · simp [TypedAssigns.revealWith, h5, Assign.revealWith]

theorem resolve_docs {s : MemStash} {con con' : Consignment} (h : s.resolveSecrets H con = .ok con') :
    con'.schema = con.schema ∧ con'.types = con.types ∧ con'.scripts = con.scripts ∧ con'.ifaces = con.ifaces := by
  simp only [resolveSecrets] at h
  split at h
  · cases h
  · cases h; exact ⟨rfl, rfl, rfl, rfl⟩

theorem resolve_brings (hH : H.Binding) {s : MemStash} {con con' : Consignment} {r : Resolver}
    (hp : StockEvent.Proper H (.consignment con r)) (h : s.resolveSecrets H con = .ok con') :
    (∀ c b w, StockEvent.Brings H (.consignment con r) c b w → ∃ b', StockEvent.Brings H (.consignment con' r) c b' w ∧ Reveals H b b') ∧
    (∀ c b' w, StockEvent.Brings H (.consignment con' r) c b' w → ∃ b, StockEvent.Brings H (.consignment con r) c b w ∧ Reveals H b b') := by
  obtain ⟨-, h1, -, h2, h3⟩ := resolve_proper hH s con con' r hp h
  constructor
  · intro c b w hb
    cases hb with
    | consignment _ _ wb _ hw hb =>
      obtain ⟨wb', h4, h5, f, hf, h6⟩ := h3 wb hw
      simp only [AnchoredBundles.bundles, List.mem_map] at hb
      obtain ⟨x, hx, rfl⟩ := hb
      refine ⟨(x.revealWith (f x)).bundle, ?_, f x, hf x, rfl⟩
      rw [← h1, show wb.id = wb'.id by simp only [WitnessBundle.id, h5]]
      refine .consignment con' r wb' _ h4 ?_
      simp only [AnchoredBundles.bundles, h6, List.map_map, List.mem_map]
      exact ⟨x, hx, rfl⟩
  · intro c b w hb
    cases hb with
    | consignment _ _ wb' _ hw hb =>
      obtain ⟨wb, h4, h5, f, hf, h6⟩ := h2 wb' hw
      simp only [AnchoredBundles.bundles, h6, List.map_map, List.mem_map, Function.comp] at hb
      obtain ⟨x, hx, rfl⟩ := hb
      refine ⟨x.bundle, ?_, f x, hf x, rfl⟩
      rw [h1, show wb'.id = wb.id by simp only [WitnessBundle.id, h5]]
      refine .consignment con r wb _ h4 ?_
      simp only [AnchoredBundles.bundles, List.mem_map]
      exact ⟨x, hx, rfl⟩

/-- What the event brings into the stock `k`. -/
def StockEvent.facts (H : Commit) (k : Stock) (e : StockEvent) : Facts where
  b c i m w := ∃ b, e.Brings H c b w ∧ b.id H = i ∧ b.closeMethod = m
  o c i o := ∃ b w, e.Brings H c b w ∧ b.id H = i ∧ OMap.contains b.known o = true
  c c := ∃ con r, e = .consignment con r ∧ c = con.data.genesis.contractId H
  d g sd ts ls := ∃ con r, e = .consignment con r ∧ g = con.data.genesis ∧ sd = con.schema ∧ ts = con.types ∧ ls = con.scripts
  e c kind key := (∃ b w o t x, e.Brings H c b w ∧ OMap.get? b.known o = some t ∧ assignedAt (some w) (t.id H) t.assigns kind key = some x) ∨
    (∃ con r x, e = .consignment con r ∧ c = con.data.genesis.contractId H ∧
      assignedAt none (con.data.genesis.id H) con.data.genesis.assigns kind key = some x)
  s b := ∃ c w, e.Brings H c b w ∧
    (∀ c' b' w', e.Brings H c' b' w' → b'.id H = b.id H → ∀ o, OMap.contains b.known o = true → OMap.contains b'.known o = true) ∧
    MemStash.Knows k.stash (b.id H) (fun o => OMap.contains b.known o = true)

theorem brings_consignment {con : Consignment} {r : Resolver} {c : Nat} {b : Bundle} {w : WitnessId} :
    StockEvent.Brings H (.consignment con r) c b w ↔ IdxOp.HasBundle H (.consignment con.data) c b w := by
  constructor
  · intro h; cases h with | consignment _ _ wb _ hw hb => exact .inConsignment _ wb b hw hb
  · intro h; cases h with | inConsignment _ wb _ hw hb => exact .consignment con r wb b hw hb

/-- The calls after which a consignment is in the state. -/
theorem updateFromConsignment_done {G : SchemaGlobals} (hG : OMap.Sorted G.maxItems) {con : Consignment} {r : Resolver}
    (hp : StockEvent.Proper H (.consignment con r)) {s t : MemState}
    (h : s.updateFromConsignment H G con.data r = some (t, none)) :
    ∃ calls, (∀ c ∈ calls, StCall.Proper c) ∧ StCall.execAll H s calls = some (t, none) ∧ StCall.register G con.data.genesis ∈ calls ∧
      (∀ c b w o x, StockEvent.Brings H (.consignment con r) c b w → OMap.get? b.known o = some x → ∃ ord, r w = some ord ∧
        StCall.transition c x w ord ∈ calls) ∧ (∀ c ∈ calls, ∀ w ord, c.witnessOrd? = some (w, ord) → r w = some ord) := by
  obtain ⟨h1, h2⟩ := C28_consignment_calls H G con.data r
  by_cases hr : ∀ t w, (∃ wb ∈ con.data.bundles, ∃ b ∈ wb.anchored.bundles, ∃ k, (k, t) ∈ b.known ∧ w = wb.id) → (r w).isSome = true
  · obtain ⟨calls, c1, c2, c3, c4, c5, c6⟩ := h1 hr
    rw [c1] at h
    obtain ⟨⟨p1, p2, p3, p4⟩, q1, q2, q3, q4⟩ := hp
    refine ⟨calls, fun c hc => ?_, h, List.mem_of_mem_head? c2, ?_, ?_⟩
    · cases c with
      | register sch g => obtain ⟨rfl, rfl⟩ := c3 _ _ hc; exact ⟨hG, q2, p1⟩
      | transition d t w ord =>
        obtain ⟨-, ⟨wb, h5, b, h6, i, h7, -⟩, -⟩ := (c4 _ _ _ _).mp hc
        exact q4 wb h5 b h6 t (List.mem_map.mpr ⟨_, h7, rfl⟩)
      | extension d t w ord => exact q3 t ((c5 t).mp ⟨_, _, _, hc⟩).1
    · intro c b w o x hb hx
      cases hb with
      | consignment _ _ wb _ hw hb =>
        have hc : ∃ wb' ∈ con.data.bundles, ∃ b ∈ wb'.anchored.bundles, ∃ k, (k, x) ∈ b.known ∧ wb.id = wb'.id :=
          ⟨wb, hw, b, hb, o, OMap.mem_of_get? hx, rfl⟩
        obtain ⟨ord, ho⟩ := Option.isSome_iff_exists.mp (hr x wb.id hc)
        exact ⟨ord, ho, (c4 _ _ _ _).mpr ⟨rfl, hc, ho⟩⟩
    · intro c hc w ord ho
      cases c with
      | register sch g => cases ho
      | transition d t w ord => cases ho; exact ((c4 _ _ _ _).mp hc).2.2
      | extension d t w ord => cases ho; exact (c6 _ _ _ _ hc).2.1
  · refine absurd h (h2 ?_ _ _)
    refine Classical.byContradiction fun hn => hr fun t w hc => ?_
    cases hw : r w with
    | some o => rfl
    | none => exact absurd ⟨t, w, hc, hw⟩ hn

theorem has_body (hH : H.Binding) {I : Ids} {M : Mpc} (hM : M.Lawful) {G : SchemaDoc → SchemaGlobals} (hG : ∀ d, OMap.Sorted (G d).maxItems)
    {con : Consignment} {r : Resolver} (hp : StockEvent.Proper H (.consignment con r)) {k k' : Stock} (hk : Hist H k)
    (hm : ∀ wb ∈ con.data.bundles, ∀ x ∈ wb.anchored.list, x.dbc.method = x.bundle.closeMethod)
    (hn : ∀ c b w, StockEvent.Brings H (.consignment con r) c b w → b.known ≠ [])
    (h : consumeBody H I M G r con k = some (k', none)) :
    Has H I (StockEvent.facts H k (.consignment con r)) k' := by
  simp only [consumeBody] at h
  cases e1 : k.state.updateFromConsignment H (G con.schema) con.data r with
  | none => simp [e1] at h
  | some p =>
  obtain ⟨t, o⟩ := p
  cases o with
  | some x => simp only [e1] at h; cases h
  | none =>
  simp only [e1] at h
  cases e2 : k.index.indexConsignment H con.data with | mk x o
  simp only [e2] at h
  cases o with
  | some y => simp only at h; cases h
  | none =>
  simp only at h
  cases e3 : k.stash.consumeConsignment H I M con with
  | none => simp [e3] at h
  | some q =>
  obtain ⟨s, o⟩ := q
  cases o with
  | error y => simp only [e3] at h; cases h
  | ok u =>
  simp only [e3] at h
  cases h
  refine ⟨?_, ?_, ?_⟩
  · refine idxHas_op (H := H) (x := k.index) (.consignment con.data) e2 ?_ ?_ ?_
    · rintro c i m w ⟨b, hb, h1, h2⟩; exact ⟨b, brings_consignment.mp hb, h1, h2⟩
    · rintro c i o ⟨b, w, hb, h1, h2⟩; exact ⟨b, w, brings_consignment.mp hb, h1, h2⟩
    · rintro c ⟨con', r', h1, rfl⟩; cases h1; exact ⟨_, rfl, rfl⟩
  · obtain ⟨calls, c1, c2, c3, c4, -⟩ := updateFromConsignment_done (hG _) hp e1
    obtain ⟨-, a2, -, -, a5, -, a7⟩ := execAll_witnesses c1 c2
    refine ⟨?_, ?_, ?_⟩
    · rintro c i m w ⟨b, hb, -, -⟩
      obtain ⟨e, l, he⟩ := List.exists_cons_of_ne_nil (hn c b w hb)
      have hx : OMap.get? b.known e.1 = some e.2 := by rw [he]; simp [OMap.get?]
      obtain ⟨ord, -, hc⟩ := c4 c b w _ _ hb hx
      exact a2 w ⟨_, hc, rfl⟩
    · rintro c kd key (⟨b, w, o, t, x, hb, ht, hx⟩ | ⟨con', r', x, h1, rfl, hx⟩)
      · obtain ⟨ord, -, hc⟩ := c4 c b w _ _ hb ht
        exact a5 _ hc kd key x hx
      · cases h1
        exact a5 _ c3 kd key x hx
    · rintro c ⟨con', r', h1, rfl⟩
      cases h1
      exact a7 _ c3
  · obtain ⟨h1, -, h3, h4, -, h6, h7, h8, -⟩ := consumeConsignment_ok hH I M k.stash s () hk.good con hp.1 e3
    have hblk := consumeConsignment_block I M k.stash s con e3
    refine ⟨?_, ?_, ?_, ?_, ?_, ?_, ?_⟩
    · rintro c i m w ⟨b, hb, rfl, rfl⟩
      cases hb with
      | consignment _ _ wb _ hwb hb =>
        obtain ⟨g, hg, -⟩ := h4 wb hwb b hb
        exact ⟨g, hg⟩
    · rintro c i m w ⟨b, hb, rfl, rfl⟩
      cases hb with
      | consignment _ _ wb _ hwb hb =>
        obtain ⟨y, hy, -, -, hk⟩ := h3 wb hwb
        simp only [AnchoredBundles.bundles, List.mem_map] at hb
        obtain ⟨x, hx, rfl⟩ := hb
        obtain ⟨p, hp⟩ := hblk wb hwb x hx
        exact ⟨y, hy, hm wb hwb x hx ▸ hk x hx p _ hp (hM.block _ _ _ _ hp)⟩
    · rintro g sd ts ls ⟨con', r', h0, rfl, rfl, rfl, rfl⟩; cases h0; exact h1
    · rintro g sd ts ls ⟨con', r', h0, rfl, rfl, rfl, rfl⟩; cases h0; exact h8
    · rintro g sd ts ls ⟨con', r', h0, rfl, rfl, rfl, rfl⟩; cases h0; exact h6
    · rintro g sd ts ls ⟨con', r', h0, rfl, rfl, rfl, rfl⟩; cases h0; exact h7
    · rintro b ⟨c, w, hb, hall, hkn⟩
      cases hb with
      | consignment _ _ wb _ hwb hb =>
        obtain ⟨g, hg, -, hs⟩ := h4 wb hwb b hb
        exact ⟨g, hg, hs (fun v hv d hd hid => hall _ d _ (.consignment con r v d hv hd) hid) hkn⟩

/-- One bundle of a fascia. -/
def bundleFacts (H : Commit) (c : Nat) (b : Bundle) (w : WitnessId) (sh : Prop) : Facts where
  b c' i m w' := c' = c ∧ i = b.id H ∧ m = b.closeMethod ∧ w' = w
  o c' i o := c' = c ∧ i = b.id H ∧ OMap.contains b.known o = true
  c _ := False
  d _ _ _ _ := False
  e c' kind key := c' = c ∧ ∃ o t x, OMap.get? b.known o = some t ∧ assignedAt (some w) (t.id H) t.assigns kind key = some x
  s b' := sh ∧ b' = b

theorem has_fasciaBundles (hH : H.Binding) {I : Ids} {r : Resolver} {w : WitnessId} (l : List (Nat × Bundle))
    (hp : ∀ e ∈ l, e.2.WF H ∧ ∀ t ∈ OMap.vals e.2.known, t.Proper ∧ t.kind = .transition) (hn : ∀ e ∈ l, e.2.known ≠ [])
    {k k' : Stock} (hk : Hist H k) {sw : SealWitness} (hsw : k.stash.witness w = some sw)
    (hsa : ∀ e ∈ l, sw.anchors.knows e.2.closeMethod e.1)
    (h : fasciaBundles H r w l k = some (k', none)) (c : Nat) (b : Bundle) (hb : (c, b) ∈ l) :
    Has H I (bundleFacts H c b w ((∀ e ∈ l, e.2.id H = b.id H → ∀ o, OMap.contains b.known o = true → OMap.contains e.2.known o = true) ∧
      MemStash.Knows k.stash (b.id H) (fun o => OMap.contains b.known o = true))) k' ∧
      ∃ ord, r w = some ord ∧ OMap.get? k'.state.witnesses w = some ord := by
  have keepOrd : ∀ (l : List (Nat × Bundle)) (k k' : Stock) (ord : WitnessOrd),
      (∀ e ∈ l, ∀ t ∈ OMap.vals e.2.known, t.Proper ∧ t.kind = .transition) → r w = some ord →
      OMap.get? k.state.witnesses w = some ord → fasciaBundles H r w l k = some (k', none) → OMap.get? k'.state.witnesses w = some ord := by
    intro l
    induction l with
    | nil => intro k k' ord _ _ ho h; simp only [fasciaBundles] at h; cases h; exact ho
    | cons x l ih =>
      intro k k' ord hp hr ho h
      obtain ⟨c, b⟩ := x
      simp only [fasciaBundles] at h
      split at h
      · cases h
      cases e2 : k.index.indexBundle H c b w with | mk x o
      simp only [e2] at h
      cases o with
      | some y => simp only at h; cases h
      | none =>
      simp only at h
      cases e1 : k.state.updateFromBundle H c b w r with
      | none => simp [e1] at h
      | some p =>
      obtain ⟨t, o⟩ := p
      cases o with
      | some y => simp only [e1] at h; cases h
      | none =>
      simp only [e1] at h
      cases e3 : k.stash.consumeBundle H b with
      | none => simp [e3] at h
      | some q =>
        obtain ⟨s, o⟩ := q
        cases o with
        | error y => simp only [e3] at h; cases h
        | ok y =>
          simp only [e3] at h
          refine ih _ _ ord (fun x hx => hp x (by simp [hx])) hr ?_ h
          simp only [MemState.updateFromBundle] at e1
          split at e1
          · split at e1
            · cases e1; exact ho
            · rw [hr] at e1
              have hp' : ∀ c' ∈ b.known.map (fun k => StCall.transition c k.2 w ord), c'.Proper := by
                intro c' hc'
                obtain ⟨z, hz, rfl⟩ := List.mem_map.mp hc'
                exact hp (c, b) (by simp) z.2 (List.mem_map.mpr ⟨z, hz, rfl⟩)
              obtain ⟨-, -, a3, -⟩ := execAll_witnesses hp' e1
              refine a3 w ord (fun c' hc' o ho' => ?_) (.inr ho)
              obtain ⟨z, hz, rfl⟩ := List.mem_map.mp hc'
              cases ho'; rfl
          · cases e1
  induction l generalizing k sw with
  | nil => cases hb
  | cons x l ih =>
    obtain ⟨c₀, b₀⟩ := x
    have hfull := h
    simp only [fasciaBundles] at h
    split at h
    · cases h
    have k1 := hk.withIndex (.bundle c₀ b₀ w)
    simp only [IdxOp.exec] at k1
    cases e2 : k.index.indexBundle H c₀ b₀ w with | mk x o
    rw [e2] at k1
    simp only [e2] at h
    cases o with
    | some y => simp only at h; cases h
    | none =>
    simp only at h
    cases e1 : k.state.updateFromBundle H c₀ b₀ w r with
    | none => simp [e1] at h
    | some p =>
    obtain ⟨t, o⟩ := p
    have hpt := (hp (c₀, b₀) (by simp)).2
    obtain ⟨es, he, hr⟩ := updateFromBundle_run hpt e1
    have k2 := k1.withState he hr
    cases o with
    | some y => simp only [e1] at h; cases h
    | none =>
    simp only [e1] at h
    cases e3 : k.stash.consumeBundle H b₀ with
    | none => simp [e3] at h
    | some q =>
    obtain ⟨s, o⟩ := q
    obtain ⟨s1, s2, s3⟩ := step_consumeBundle hH k.stash hk.good b₀ (hp (c₀, b₀) (by simp)).1
    have hs := s1 s o e3
    have k3 := k2.withStash hs.1
    cases o with
    | error y => simp only [e3] at h; cases h
    | ok y =>
    simp only [e3] at h
    obtain ⟨sw', hsw', hsh⟩ := hs.2.witness _ _ hsw
    rcases List.mem_cons.mp hb with hb | hb
    · cases hb
      have hext := fasciaBundles_ext hH l (fun x hx => hp x (by simp [hx])) k3 h
      have hne := hn (c, b) (by simp)
      simp only [MemState.updateFromBundle] at e1
      split at e1
      swap; · cases e1
      split at e1
      · rename_i hemp; exact absurd (List.isEmpty_iff.mp hemp) hne
      split at e1
      · cases e1
      rename_i ord hord
      have hp' : ∀ c' ∈ b.known.map (fun k => StCall.transition c k.2 w ord), c'.Proper := by
        intro c' hc'
        obtain ⟨z, hz, rfl⟩ := List.mem_map.mp hc'
        exact hpt z.2 (List.mem_map.mpr ⟨z, hz, rfl⟩)
      obtain ⟨-, a2, a3, -, a5, -, -⟩ := execAll_witnesses hp' e1
      obtain ⟨z, l', hz⟩ := List.exists_cons_of_ne_nil hne
      have hany : ∃ c' ∈ b.known.map (fun k => StCall.transition c k.2 w ord), c'.witness? = some w :=
        ⟨.transition c z.2 w ord, by rw [hz]; simp, rfl⟩
      refine ⟨Has.ext ⟨?_, ?_, ?_⟩ hext, ord, hord, ?_⟩
      · refine idxHas_op (H := H) (x := k.index) (.bundle c b w) e2 ?_ ?_ ?_
        · rintro c' i m w' ⟨rfl, rfl, rfl, rfl⟩; exact ⟨b, .single _ _ _, rfl, rfl⟩
        · rintro c' i o ⟨rfl, rfl, ho⟩; exact ⟨b, w, .single _ _ _, rfl, ho⟩
        · rintro c' hf; exact hf.elim
      · refine ⟨?_, ?_, ?_⟩
        · rintro c' i m w' ⟨rfl, rfl, rfl, rfl⟩; exact a2 _ hany
        · rintro c' kd key ⟨rfl, o, t', x', ht', hx'⟩
          exact a5 (.transition c' t' w ord) (List.mem_map.mpr ⟨_, OMap.mem_of_get? ht', rfl⟩) kd key x' hx'
        · rintro c' hf; exact hf.elim
      · refine ⟨?_, ?_, ?_, ?_, ?_, ?_, ?_⟩
        · rintro c' i m w' ⟨rfl, rfl, rfl, rfl⟩
          obtain ⟨g, hg, -⟩ := s2 s y e3
          exact ⟨g, hg⟩
        · rintro c' i m w' ⟨rfl, rfl, rfl, rfl⟩
          exact ⟨sw', hsw', hsh.anchors _ _ (hsa (c', b) (by simp))⟩
        · rintro _ _ _ _ hf; exact hf.elim
        · rintro _ _ _ _ hf; exact hf.elim
        · rintro _ _ _ _ hf; exact hf.elim
        · rintro _ _ _ _ hf; exact hf.elim
        · rintro b' ⟨⟨-, hkn⟩, rfl⟩
          obtain ⟨g, hg, -, hsh'⟩ := s2 s y e3
          exact ⟨g, hg, hsh' hkn⟩
      · refine keepOrd l _ _ ord (fun x hx => (hp x (by simp [hx])).2) hord ?_ h
        exact a3 w ord (fun c' hc' o ho' => by obtain ⟨z, hz, rfl⟩ := List.mem_map.mp hc'; cases ho'; rfl) (.inl hany)
    · obtain ⟨i1, i2⟩ := ih (fun x hx => hp x (by simp [hx])) (fun x hx => hn x (by simp [hx])) k3 hsw'
        (fun x hx => hsh.anchors _ _ (hsa x (by simp [hx]))) h hb
      refine ⟨⟨⟨i1.idx.opC, i1.idx.bC, fun _ hf => hf.elim⟩, ⟨i1.st.wit, i1.st.ent, fun _ hf => hf.elim⟩,
        ⟨i1.stash.bundle, i1.stash.wit, fun _ _ _ _ hf => hf.elim, fun _ _ _ _ hf => hf.elim, fun _ _ _ _ hf => hf.elim,
          fun _ _ _ _ hf => hf.elim, ?_⟩⟩, i2⟩
      rintro b' ⟨⟨hall, hkn⟩, rfl⟩
      exact i1.stash.shown b' ⟨⟨fun e he => hall e (by simp [he]),
        s3 _ _ hkn (fun hid o ho => hall (c₀, b₀) (by simp) hid o ho) _ _ e3⟩, rfl⟩

theorem done_exec {I : Ids} {M : Mpc} {G : SchemaDoc → SchemaGlobals} {k k' : Stock} {e : StockEvent} (h : e.Done H I M G k k') :
    e.exec H I M G k = some k' := by
  cases e with
  | consignment con r => simp only [StockEvent.Done] at h; simp [StockEvent.exec, h]
  | fascia f r => simp only [StockEvent.Done] at h; simp [StockEvent.exec, h]
  | kit x => obtain ⟨s, h, rfl⟩ := h; simp [StockEvent.exec, h]
  | _ => exact h

theorem consignment_done {I : Ids} {M : Mpc} {G : SchemaDoc → SchemaGlobals} {k k' : Stock} {con : Consignment} {r : Resolver}
    (h : StockEvent.Done H I M G k k' (.consignment con r)) :
    ∃ con', k.stash.resolveSecrets H con = .ok con' ∧ consumeBody H I M G r con' k = some (k', none) := by
  simp only [StockEvent.Done, Stock.consumeConsignment] at h
  cases e1 : k.stash.resolveSecrets H con with
  | error x => simp only [e1] at h; cases h
  | ok con' =>
    simp only [e1, storeTx_mem] at h
    obtain ⟨⟨k2, o'⟩, h2, h3⟩ := Option.map_eq_some_iff.mp h
    cases o' <;> cases h3
    exact ⟨con', rfl, h2⟩

theorem fascia_done {I : Ids} {M : Mpc} {G : SchemaDoc → SchemaGlobals} {k k' : Stock} {f : Fascia} {r : Resolver}
    (h : StockEvent.Done H I M G k k' (.fascia f r)) :
    ∃ s u, k.stash.consumeWitness ⟨f.witness, f.anchor⟩ = some (s, .ok u) ∧
      fasciaBundles H r f.witness.id f.bundles { k with stash := s } = some (k', none) := by
  simp only [StockEvent.Done, consumeFascia, storeTx_mem] at h
  obtain ⟨⟨k2, o'⟩, h2, h3⟩ := Option.map_eq_some_iff.mp h
  cases o' <;> cases h3
  simp only [fasciaBody] at h2
  cases e1 : k.stash.consumeWitness ⟨f.witness, f.anchor⟩ with
  | none => simp [e1] at h2
  | some q =>
    obtain ⟨s, x⟩ := q
    cases x with
    | error y => simp only [e1] at h2; cases h2
    | ok y => simp only [e1] at h2; exact ⟨s, y, rfl, h2⟩

theorem resolve_sound (hH : H.Binding) {s : MemStash} {con con' : Consignment} {r : Resolver}
    (hp : StockEvent.Sound H (.consignment con r)) (h : s.resolveSecrets H con = .ok con') : StockEvent.Sound H (.consignment con' r) := by
  obtain ⟨h0, h1, -, h2, h3⟩ := resolve_proper hH s con con' r hp.proper h
  refine ⟨h0, ?_, ?_, fun f r' he => by cases he⟩
  · intro c b' w hb
    obtain ⟨b, hb2, g, -, rfl⟩ := (resolve_brings hH hp.proper h).2 c b' w hb
    have := hp.nonempty c b w hb2
    intro hn
    apply this
    cases hk : b.known with
    | nil => rfl
    | cons a l => simp [hk, OMap.mapVals] at hn
  · intro _ r' he wb' hw x hx
    cases he
    obtain ⟨wb, h4, -, f, -, h6⟩ := h2 wb' hw
    rw [h6] at hx
    obtain ⟨y, hy, rfl⟩ := List.mem_map.mp hx
    exact hp.methods con r rfl wb h4 y hy

theorem has_event (hH : H.Binding) {I : Ids} {M : Mpc} (hM : M.Lawful) {G : SchemaDoc → SchemaGlobals} (hG : ∀ d, OMap.Sorted (G d).maxItems)
    {e : StockEvent} (hp : e.Sound H) {k k' : Stock} (hk : Hist H k) (h : e.Done H I M G k k') : Has H I (e.facts H k) k' := by
  have noFacts : (∀ c b w, ¬ e.Brings H c b w) → (∀ con r, e ≠ .consignment con r) → Has H I (e.facts H k) k' := by
    intro h1 h2
    refine ⟨⟨?_, ?_, ?_⟩, ⟨?_, ?_, ?_⟩, ⟨?_, ?_, ?_, ?_, ?_, ?_, ?_⟩⟩
    · rintro c i o ⟨b, w, hb, -⟩; exact (h1 _ _ _ hb).elim
    · rintro c i m w ⟨b, hb, -⟩; exact (h1 _ _ _ hb).elim
    · rintro c ⟨con, r, rfl, -⟩; exact (h2 _ _ rfl).elim
    · rintro c i m w ⟨b, hb, -⟩; exact (h1 _ _ _ hb).elim
    · rintro c kd key (⟨b, w, o, t, x, hb, -⟩ | ⟨con, r, x, rfl, -⟩)
      · exact (h1 _ _ _ hb).elim
      · exact (h2 _ _ rfl).elim
    · rintro c ⟨con, r, rfl, -⟩; exact (h2 _ _ rfl).elim
    · rintro c i m w ⟨b, hb, -⟩; exact (h1 _ _ _ hb).elim
    · rintro c i m w ⟨b, hb, -⟩; exact (h1 _ _ _ hb).elim
    · rintro g sd ts ls ⟨con, r, rfl, -⟩; exact (h2 _ _ rfl).elim
    · rintro g sd ts ls ⟨con, r, rfl, -⟩; exact (h2 _ _ rfl).elim
    · rintro g sd ts ls ⟨con, r, rfl, -⟩; exact (h2 _ _ rfl).elim
    · rintro g sd ts ls ⟨con, r, rfl, -⟩; exact (h2 _ _ rfl).elim
    · rintro b ⟨c, w, hb, -⟩; exact (h1 _ _ _ hb).elim
  cases e with
  | consignment con r =>
    obtain ⟨con', hc, hb⟩ := consignment_done h
    have hs := resolve_sound hH hp hc
    obtain ⟨h0, h1, -, -, -⟩ := resolve_proper hH _ con con' r hp.proper hc
    obtain ⟨d1, d2, d3, -⟩ := resolve_docs hc
    obtain ⟨b1, b2⟩ := resolve_brings hH hp.proper hc
    have hh := has_body hH (I := I) hM hG hs.proper hk (hs.methods con' r rfl) hs.nonempty hb
    have eb : ∀ c i m w, (StockEvent.facts H k (.consignment con r)).b c i m w → (StockEvent.facts H k (.consignment con' r)).b c i m w := by
      rintro c i m w ⟨b, hb, rfl, rfl⟩
      obtain ⟨b', hb', hr⟩ := b1 c b w hb
      exact ⟨b', hb', hr.id, hr.method⟩
    have eo : ∀ c i o, (StockEvent.facts H k (.consignment con r)).o c i o → (StockEvent.facts H k (.consignment con' r)).o c i o := by
      rintro c i o ⟨b, w, hb, rfl, ho⟩
      obtain ⟨b', hb', hr⟩ := b1 c b w hb
      exact ⟨b', w, hb', hr.id, by rw [hr.contains]; exact ho⟩
    have ec : ∀ c, (StockEvent.facts H k (.consignment con r)).c c → (StockEvent.facts H k (.consignment con' r)).c c := by
      rintro c ⟨_, _, he, rfl⟩; cases he; exact ⟨con', r, rfl, by rw [h1]⟩
    have ed : ∀ g sd ts ls, (StockEvent.facts H k (.consignment con r)).d g sd ts ls →
        (StockEvent.facts H k (.consignment con' r)).d con'.data.genesis sd ts ls ∧ g = con.data.genesis := by
      rintro g sd ts ls ⟨_, _, he, rfl, rfl, rfl, rfl⟩; cases he
      exact ⟨⟨con', r, rfl, rfl, d1.symm, d2.symm, d3.symm⟩, rfl⟩
    refine ⟨⟨?_, ?_, ?_⟩, ⟨?_, ?_, ?_⟩, ⟨?_, ?_, ?_, ?_, ?_, ?_, ?_⟩⟩
    · intro c i o ho; exact hh.idx.opC _ _ _ (eo _ _ _ ho)
    · intro c i m w hb; exact hh.idx.bC _ _ _ _ (eb _ _ _ _ hb)
    · intro c hc; exact hh.idx.conC _ (ec _ hc)
    · intro c i m w hb; exact hh.st.wit _ _ _ _ (eb _ _ _ _ hb)
    · rintro c kd key (⟨b, w, o, t, x, hb, ht, hx⟩ | ⟨_, _, x, he, rfl, hx⟩)
      · obtain ⟨b', hb', hr⟩ := b1 c b w hb
        obtain ⟨g, hg, ht'⟩ := hr.get? ht
        exact hh.st.ent _ _ _ (.inl ⟨b', w, o, _, x, hb', ht', assigned_revealWith hg hx⟩)
      · cases he
        exact hh.st.ent _ _ _ (.inr ⟨con', r, x, rfl, by rw [h1], by rw [h1]; exact hx⟩)
    · intro c hc; exact hh.st.con _ (ec _ hc)
    · intro c i m w hb; exact hh.stash.bundle _ _ _ _ (eb _ _ _ _ hb)
    · intro c i m w hb; exact hh.stash.wit _ _ _ _ (eb _ _ _ _ hb)
    · intro g sd ts ls hd
      obtain ⟨hd2, rfl⟩ := ed g sd ts ls hd
      have hg' := hh.stash.gen _ _ _ _ hd2
      rw [h1] at hg'
      exact hg'
    · intro g sd ts ls hd; exact hh.stash.schema _ _ _ _ (ed g sd ts ls hd).1
    · intro g sd ts ls hd; exact hh.stash.types _ _ _ _ (ed g sd ts ls hd).1
    · intro g sd ts ls hd; exact hh.stash.libs _ _ _ _ (ed g sd ts ls hd).1
    · rintro b ⟨c, w, hb, hall, hkn⟩
      obtain ⟨b', hb', hr⟩ := b1 c b w hb
      obtain ⟨g, hg, hs'⟩ := hh.stash.shown b' ⟨c, w, hb', fun c₂ b₂' w₂ hb₂ hid₂ o ho => by
        obtain ⟨b₂, hb₂, hr₂⟩ := b2 _ _ _ hb₂
        rw [hr₂.contains]
        exact hall _ _ _ hb₂ (by rw [← hr₂.id, hid₂, hr.id]) o (by rw [← hr.contains]; exact ho), by
        simpa only [hr.id, hr.contains] using hkn⟩
      exact ⟨g, hr.id ▸ hg, hr.shownBy.trans hs'⟩
  | fascia f r =>
    obtain ⟨s, u, h1, h2⟩ := fascia_done h
    obtain ⟨s1, s2, s3⟩ := step_consumeWitness k.stash hk.good ⟨f.witness, f.anchor⟩
    obtain ⟨sw, hsw, hsh⟩ := s2 s u h1
    have hb := s3 s _ h1
    have hf := has_fasciaBundles hH (I := I) f.bundles hp.proper (fun x hx => hp.nonempty _ _ _ (.fascia f r x.1 x.2 hx))
      (hk.withStash (s1 s _ h1).1) hsw (fun x hx => hsh.anchors _ _ (hp.anchored f r rfl _ _ hx)) h2
    have ex : ∀ {c b w}, StockEvent.Brings H (.fascia f r) c b w → (c, b) ∈ f.bundles ∧ w = f.witness.id := by
      intro c b w hb; cases hb with | fascia _ _ _ _ hb => exact ⟨hb, rfl⟩
    refine ⟨⟨?_, ?_, ?_⟩, ⟨?_, ?_, ?_⟩, ⟨?_, ?_, ?_, ?_, ?_, ?_, ?_⟩⟩
    · rintro c i o ⟨b, w, hb, rfl, ho⟩; exact (hf c b (ex hb).1).1.idx.opC _ _ _ ⟨rfl, rfl, ho⟩
    · rintro c i m w ⟨b, hb, rfl, rfl⟩; exact (hf c b (ex hb).1).1.idx.bC _ _ _ _ ⟨rfl, rfl, rfl, (ex hb).2⟩
    · rintro c ⟨_, _, he, -⟩; cases he
    · rintro c i m w ⟨b, hb, rfl, rfl⟩; exact (hf c b (ex hb).1).1.st.wit _ _ _ _ ⟨rfl, rfl, rfl, (ex hb).2⟩
    · rintro c kd key (⟨b, w, o, t, x, hb, ht, hx⟩ | ⟨_, _, x, he, -⟩)
      · obtain ⟨h3, rfl⟩ := ex hb
        exact (hf c b h3).1.st.ent _ _ _ ⟨rfl, o, t, x, ht, hx⟩
      · cases he
    · rintro c ⟨_, _, he, -⟩; cases he
    · rintro c i m w ⟨b, hb, rfl, rfl⟩; exact (hf c b (ex hb).1).1.stash.bundle _ _ _ _ ⟨rfl, rfl, rfl, (ex hb).2⟩
    · rintro c i m w ⟨b, hb, rfl, rfl⟩; exact (hf c b (ex hb).1).1.stash.wit _ _ _ _ ⟨rfl, rfl, rfl, (ex hb).2⟩
    · rintro g sd ts ls ⟨_, _, he, -⟩; cases he
    · rintro g sd ts ls ⟨_, _, he, -⟩; cases he
    · rintro g sd ts ls ⟨_, _, he, -⟩; cases he
    · rintro g sd ts ls ⟨_, _, he, -⟩; cases he
    · rintro b ⟨c, w, hb', hall, hkn⟩
      refine (hf c b (ex hb').1).1.stash.shown b ⟨⟨fun x hx => hall _ _ _ (.fascia f r x.1 x.2 hx), ?_⟩, rfl⟩
      simpa only [MemStash.Knows, MemStash.bundle, hb] using hkn
  | kit x => exact noFacts (fun c b w hb => nomatch hb) (fun _ _ he => nomatch he)
  | secretSeal x => exact noFacts (fun c b w hb => nomatch hb) (fun _ _ he => nomatch he)
  | trust i t => exact noFacts (fun c b w hb => nomatch hb) (fun _ _ he => nomatch he)
  | update r n => exact noFacts (fun c b w hb => nomatch hb) (fun _ _ he => nomatch he)

/-- The order of a witness right after the event is the one which the resolver gave. -/
theorem order_event (hH : H.Binding) {I : Ids} {M : Mpc} {G : SchemaDoc → SchemaGlobals} (hG : ∀ d, OMap.Sorted (G d).maxItems)
    {e : StockEvent} (hp : e.Sound H) {k k' : Stock} (hk : Hist H k) (h : e.Done H I M G k k') {c : Nat} {b : Bundle} {w : WitnessId}
    (hb : e.Brings H c b w) : ∃ r ord, e.resolver? = some r ∧ r w = some ord ∧ OMap.get? k'.state.witnesses w = some ord := by
  cases e with
  | consignment con r =>
    obtain ⟨con', hc, hbd⟩ := consignment_done h
    have hs := resolve_sound hH hp hc
    obtain ⟨b', hb', -⟩ := (resolve_brings hH hp.proper hc).1 c b w hb
    obtain ⟨z, l, hz⟩ := List.exists_cons_of_ne_nil (hs.nonempty c b' w hb')
    have hx : OMap.get? b'.known z.1 = some z.2 := by rw [hz]; simp [OMap.get?]
    simp only [consumeBody] at hbd
    cases e1 : k.state.updateFromConsignment H (G con'.schema) con'.data r with
    | none => simp [e1] at hbd
    | some p =>
    obtain ⟨t, o⟩ := p
    cases o with
    | some x => simp only [e1] at hbd; cases hbd
    | none =>
    obtain ⟨calls, c1, c2, -, c4, c5⟩ := updateFromConsignment_done (hG _) hs.proper e1
    obtain ⟨ord, ho, hcall⟩ := c4 c b' w _ _ hb' hx
    obtain ⟨-, -, a3, -⟩ := execAll_witnesses c1 c2
    have hst : k'.state = t := by
      simp only [e1] at hbd
      split at hbd
      · cases hbd
      · split at hbd
        · cases hbd
        · cases hbd
        · cases hbd; rfl
    exact ⟨r, ord, rfl, ho, hst ▸ a3 w ord (fun c' hc' o' ho' => Option.some.inj ((c5 c' hc' w o' ho').symm.trans ho)) (.inl ⟨_, hcall, rfl⟩)⟩
  | fascia f r =>
    obtain ⟨s, u, h1, h2⟩ := fascia_done h
    obtain ⟨s1, s2, s3⟩ := step_consumeWitness k.stash hk.good ⟨f.witness, f.anchor⟩
    obtain ⟨sw, hsw, hsh⟩ := s2 s u h1
    cases hb with
    | fascia _ _ _ _ hb =>
      obtain ⟨-, ord, h3, h4⟩ := has_fasciaBundles hH (I := I) f.bundles hp.proper (fun x hx => hp.nonempty _ _ _ (.fascia f r x.1 x.2 hx))
        (hk.withStash (s1 s _ h1).1) hsw (fun x hx => hsh.anchors _ _ (hp.anchored f r rfl _ _ hx)) h2 c b hb
      exact ⟨r, ord, rfl, h3, h4⟩
  | _ => nomatch hb

theorem body_stash {I : Ids} {M : Mpc} {G : SchemaDoc → SchemaGlobals} {k k' : Stock} {con : Consignment} {r : Resolver}
    (h : consumeBody H I M G r con k = some (k', none)) : k.stash.consumeConsignment H I M con = some (k'.stash, .ok ()) := by
  simp only [consumeBody] at h
  split at h
  · cases h
  · cases h
  split at h
  · cases h
  split at h
  · cases h
  · cases h
  · rename_i h1; cases h; exact h1

/-- The state of an assignment is the same in each operation with the same id. -/
theorem makes_agree_state (hH : H.Binding) {op op' : Op} {w w' : Option WitnessId} {k k' : StateKind} {a a' : OutAssign}
    (h : op.Makes H w k a) (h' : op'.Makes H w' k' a') (ho : a.opout = a'.opout) : a.state = a'.state := by
  obtain ⟨h1, h2, t, sl, ht, hk, hx, hsl⟩ := h
  obtain ⟨h1', h2', t', sl', ht', hk', hx', hsl'⟩ := h'
  have hid : op.id H = op'.id H := by rw [← h1, ← h1', ho]
  have hca : Assignments.conceal H op.assigns = Assignments.conceal H op'.assigns := congrArg Op.assigns (id_conceal hH hid)
  have hg : OMap.get? (Assignments.conceal H op.assigns) a.opout.ty = OMap.get? (Assignments.conceal H op'.assigns) a.opout.ty := by
    rw [hca]
  rw [← ho] at ht' hx'
  simp only [Assignments.conceal, OMap.get?_mapVals, ht, ht', Option.map_some, Option.some.injEq] at hg
  rw [typed_conceal_iff] at hg
  have hxx := conceal_get hg.2 hx hx'
  simp only [Assign.conceal, Assign.confidential.injEq] at hxx
  exact hH.state_inj _ _ hxx.2

end Rgb
