import Verif.Lemmas.Stock
import Verif.Props.State
import Verif.Props.Stash
import Verif.Lemmas.StoreTx

/-!
Every store of a reachable stock has a history of its own operations.
-/

namespace Rgb.Stock

open MemStash

variable {H : Commit}

theorem bundle_revealWith_WF {g : Nat → Option Seal} (hg : Right H g) (c : ClientBundle) (hc : c.bundle.WF H) :
    (c.revealWith g).bundle.WF H where
  sorted := hc.sorted.mapVals _
  keyed := by
    intro i t h
    simp only [ClientBundle.revealWith, OMap.get?_mapVals, Option.map_eq_some_iff] at h
    obtain ⟨t', h1, rfl⟩ := h
    obtain ⟨h2, h3⟩ := hc.keyed _ _ h1
    exact ⟨(Op.revealWith_id hg t').trans h2, OMap.Sorted.mapVals h3 _⟩
  spent := by
    intro i t h
    simp only [ClientBundle.revealWith, OMap.get?_mapVals, Option.map_eq_some_iff] at h
    obtain ⟨t', h1, rfl⟩ := h
    exact hc.spent _ _ h1

/-- Resolving the secrets keeps the consignment valid. -/
theorem resolve_proper (hH : H.Binding) (s : MemStash) (con con' : Consignment) (r : Resolver)
    (hp : StockEvent.Proper H (.consignment con r)) (h : s.resolveSecrets H con = .ok con') :
    StockEvent.Proper H (.consignment con' r) ∧ con'.data.genesis = con.data.genesis ∧ con'.data.extensions = con.data.extensions ∧
    (∀ w' ∈ con'.data.bundles, ∃ w ∈ con.data.bundles, w'.pub = w.pub ∧ ∃ f : ClientBundle → (Nat → Option Seal), (∀ c, Right H (f c)) ∧
      w'.anchored.list = w.anchored.list.map (fun c => c.revealWith (f c))) ∧
    (∀ w ∈ con.data.bundles, ∃ w' ∈ con'.data.bundles, w'.pub = w.pub ∧ ∃ f : ClientBundle → (Nat → Option Seal), (∀ c, Right H (f c)) ∧
      w'.anchored.list = w.anchored.list.map (fun c => c.revealWith (f c))) := by
  obtain ⟨⟨p1, p2, p3, p4⟩, q1, q2, q3, q4⟩ := hp
  simp only [resolveSecrets] at h
  have hf : ∀ sec x, Except.ok (ε := StashErr) (s.sealSecret H sec) = .ok (some x) → H.sealHash x = sec := by
    intro sec x hx
    simp only [Except.ok.injEq] at hx
    simpa using List.find?_some hx
  have key : ∀ (l ws : List WitnessBundle), (∀ w ∈ l, w.WF) →
      revealTerminalSeals H (fun sec => Except.ok (ε := StashErr) (s.sealSecret H sec)) con.terminals l = .ok ws →
      (∀ w' ∈ ws, ∃ w ∈ l, w'.pub = w.pub ∧ w'.WF ∧
        w'.anchored.list = w.anchored.list.map (fun c => c.revealWith
          (termSeal (fun sec => Except.ok (ε := StashErr) (s.sealSecret H sec)) con.terminals (c.bundle.id H)))) ∧
      (∀ w ∈ l, ∃ w' ∈ ws, w'.pub = w.pub ∧ w'.WF ∧
        w'.anchored.list = w.anchored.list.map (fun c => c.revealWith
          (termSeal (fun sec => Except.ok (ε := StashErr) (s.sealSecret H sec)) con.terminals (c.bundle.id H)))) := by
    intro l
    induction l with
    | nil => intro ws _ h; simp only [revealTerminalSeals] at h; cases h; simp
    | cons w l ih =>
      intro ws hw h
      simp only [revealTerminalSeals] at h
      split at h
      · cases h
      · rename_i w1 e1
        split at h
        · cases h
        · rename_i ws1 e2
          cases h
          obtain ⟨r1, r2⟩ := ih ws1 (fun x hx => hw x (by simp [hx])) e2
          obtain ⟨s1, s2, s3⟩ := WitnessBundle.revealTerminals_spec hH _ hf con.terminals w w1 (hw w (by simp)) e1
          refine ⟨fun x hx => ?_, fun x hx => ?_⟩
          · rcases List.mem_cons.mp hx with rfl | hx
            · exact ⟨w, by simp, s1, s2, s3⟩
            · obtain ⟨y, y1, y2⟩ := r1 x hx
              exact ⟨y, by simp [y1], y2⟩
          · rcases List.mem_cons.mp hx with rfl | hx
            · exact ⟨w1, by simp, s1, s2, s3⟩
            · obtain ⟨y, y1, y2⟩ := r2 x hx
              exact ⟨y, by simp [y1], y2⟩
  split at h
  · cases h
  · rename_i ws hws
    cases h
    obtain ⟨k1, k2⟩ := key _ _ q1 hws
    refine ⟨⟨⟨p1, p2, p3, ?_⟩, ?_, q2, q3, ?_⟩, rfl, rfl, ?_, ?_⟩
    · intro w' hw' b hb
      obtain ⟨w, hw, -, -, hl⟩ := k1 w' hw'
      simp only [AnchoredBundles.bundles, hl, List.map_map, List.mem_map, Function.comp] at hb
      obtain ⟨c, hc, rfl⟩ := hb
      exact bundle_revealWith_WF (right_termSeal _ hf _ _) c (p4 w hw _ (by simp only [AnchoredBundles.bundles, List.mem_map]; exact ⟨c, hc, rfl⟩))
    · intro w' hw'
      exact (k1 w' hw').choose_spec.2.2.1
    · intro w' hw' b hb t ht
      obtain ⟨w, hw, -, -, hl⟩ := k1 w' hw'
      simp only [AnchoredBundles.bundles, hl, List.map_map, List.mem_map, Function.comp] at hb
      obtain ⟨c, hc, rfl⟩ := hb
      simp only [ClientBundle.revealWith, OMap.vals, OMap.mapVals, List.map_map, List.mem_map, Function.comp] at ht
      obtain ⟨e, he, rfl⟩ := ht
      obtain ⟨h1, h2⟩ := q4 w hw _ (by simp only [AnchoredBundles.bundles, List.mem_map]; exact ⟨c, hc, rfl⟩) e.2
        (by simp only [OMap.vals, List.mem_map]; exact ⟨e, he, rfl⟩)
      exact ⟨⟨OMap.Sorted.mapVals h1.1 _, h1.2⟩, h2⟩
    · intro w' hw'
      obtain ⟨w, h1, h2, -, h3⟩ := k1 w' hw'
      exact ⟨w, h1, h2, _, fun c => right_termSeal _ hf _ _, h3⟩
    · intro w hw
      obtain ⟨w', h1, h2, -, h3⟩ := k2 w hw
      exact ⟨w', h1, h2, _, fun c => right_termSeal _ hf _ _, h3⟩

/-- The calls made for a consignment. -/
theorem consignmentStCalls_mem (sch : SchemaGlobals) (d : ConsignmentData) (r : Resolver) (call : StCall)
    (h : call ∈ (consignmentStCalls H sch d r).1) :
    call = .register sch d.genesis ∨
    (∃ t w ord, call = .transition (d.genesis.contractId H) t w ord ∧ (t, w) ∈ d.transitions) ∨
    (∃ e w ord, call = .extension (d.genesis.contractId H) e w ord ∧ e ∈ d.extensions) := by
  have key : ∀ (exts : List Nat) (l : List (Op × WitnessId)) (used : OMap Nat (WitnessId × WitnessOrd)) (x : StCall),
      x ∈ (transitionLoop H (d.genesis.contractId H) exts r l used).1 →
      ∃ t w ord, x = .transition (d.genesis.contractId H) t w ord ∧ (t, w) ∈ l := by
    intro exts l
    induction l with
    | nil => intro used x hx; simp [transitionLoop] at hx
    | cons e l ih =>
      obtain ⟨t, w⟩ := e
      intro used x hx
      simp only [transitionLoop] at hx
      split at hx
      · simp at hx
      · rename_i ord _
        rcases List.mem_cons.mp hx with rfl | hx
        · exact ⟨t, w, ord, rfl, by simp⟩
        · obtain ⟨t', w', o', h1, h2⟩ := ih _ x hx
          exact ⟨t', w', o', h1, by simp [h2]⟩
  simp only [consignmentStCalls] at h
  split at h
  · rcases List.mem_cons.mp h with rfl | h
    · exact .inl rfl
    · exact .inr (.inl (key _ _ _ _ h))
  · rcases List.mem_cons.mp h with rfl | h
    · exact .inl rfl
    · rcases List.mem_append.mp h with h | h
      · exact .inr (.inl (key _ _ _ _ h))
      · obtain ⟨e, h1, h2⟩ := List.mem_filterMap.mp h
        obtain ⟨p, -, rfl⟩ := Option.map_eq_some_iff.mp h2
        exact .inr (.inr ⟨e, _, _, rfl, h1⟩)

/-- A sequence of calls stopped at an error is a history. -/
theorem execAll_run (calls : List StCall) (s s' : MemState) (e : Option StErr) (h : StCall.execAll H s calls = some (s', e)) :
    ∃ es, (∀ c, StEvent.call c ∈ es → c ∈ calls) ∧ runSt H s es = some s' := by
  induction calls generalizing s with
  | nil => simp only [StCall.execAll] at h; cases h; exact ⟨[], by simp, rfl⟩
  | cons call calls ih =>
    simp only [StCall.execAll] at h
    cases e1 : call.exec H s with
    | none => simp [e1] at h
    | some p =>
      obtain ⟨s1, o⟩ := p
      cases o with
      | some x =>
        simp only [e1] at h; cases h
        exact ⟨[.call call], by simp, by simp [runSt, e1]⟩
      | none =>
        simp only [e1] at h
        obtain ⟨es, h1, h2⟩ := ih s1 h
        refine ⟨.call call :: es, fun c hc => ?_, by simp [runSt, e1, h2]⟩
        rcases List.mem_cons.mp hc with hc | hc
        · cases hc; simp
        · simp [h1 c hc]

theorem runSt_append (a b : List StEvent) (s t : MemState) (h : runSt H s a = some t) : runSt H s (a ++ b) = runSt H t b := by
  induction a generalizing s with
  | nil => simp only [runSt] at h; cases h; rfl
  | cons e a ih =>
    cases e with
    | call c =>
      simp only [runSt, List.cons_append] at h ⊢
      cases e1 : c.exec H s with
      | none => simp [e1] at h
      | some p => simp only [e1] at h ⊢; exact ih _ h
    | update r n => simp only [runSt, List.cons_append] at h ⊢; exact ih _ h

/-- Every store has a history. -/
structure Hist (H : Commit) (k : Stock) : Prop where
  good : k.stash.Good H
  index : ∃ ops, k.index = runIdx H {} ops
  state : ∃ es, EventsProper es ∧ runSt H {} es = some k.state

theorem Hist.withStash {k : Stock} (hk : Hist H k) {s : MemStash} (hs : s.Good H) : Hist H { k with stash := s } :=
  ⟨hs, hk.index, hk.state⟩

theorem Hist.withIndex {k : Stock} (hk : Hist H k) (op : IdxOp) : Hist H { k with index := (op.exec H k.index).1 } := by
  refine ⟨hk.good, ?_, hk.state⟩
  obtain ⟨ops, ho⟩ := hk.index
  exact ⟨ops ++ [op], by rw [run_append, ← ho]; rfl⟩

theorem Hist.withState {k : Stock} (hk : Hist H k) {t : MemState} {es : List StEvent} (hp : EventsProper es)
    (h : runSt H k.state es = some t) : Hist H { k with state := t } := by
  refine ⟨hk.good, hk.index, ?_⟩
  obtain ⟨es', h1, h2⟩ := hk.state
  refine ⟨es' ++ es, fun c hc => ?_, by rw [runSt_append _ _ _ _ h2, h]⟩
  rcases List.mem_append.mp hc with hc | hc
  · exact h1 c hc
  · exact hp c hc

theorem updateFromConsignment_run {G : SchemaGlobals} (hG : OMap.Sorted G.maxItems) {con : Consignment} {r : Resolver}
    (hp : StockEvent.Proper H (.consignment con r)) {s t : MemState} {e : Option StErr}
    (h : s.updateFromConsignment H G con.data r = some (t, e)) : ∃ es, EventsProper es ∧ runSt H s es = some t := by
  simp only [MemState.updateFromConsignment] at h
  obtain ⟨⟨s1, e1⟩, h1, h2⟩ := Option.map_eq_some_iff.mp h
  cases h2
  obtain ⟨es, h3, h4⟩ := execAll_run _ _ _ _ h1
  refine ⟨es, fun c hc => ?_, h4⟩
  obtain ⟨⟨p1, p2, p3, p4⟩, q1, q2, q3, q4⟩ := hp
  rcases consignmentStCalls_mem _ _ _ _ (h3 c hc) with rfl | ⟨t', w, ord, rfl, ht⟩ | ⟨x, w, ord, rfl, hx⟩
  · exact ⟨hG, q2, p1⟩
  · simp only [ConsignmentData.transitions, WitnessBundle.knownTransitions, List.mem_flatMap, List.mem_map, Prod.mk.injEq] at ht
    obtain ⟨wb, h5, x, ⟨b, h6, h7⟩, rfl, -⟩ := ht
    exact q4 wb h5 b h6 x h7
  · exact q3 x hx

theorem consumeBody_hist (hH : H.Binding) {I : Ids} {M : Mpc} {G : SchemaDoc → SchemaGlobals} (hG : ∀ d, OMap.Sorted (G d).maxItems)
    {con : Consignment} {r : Resolver} (hp : StockEvent.Proper H (.consignment con r)) {k k' : Stock} {e : Option StockErr}
    (hk : Hist H k) (h : consumeBody H I M G r con k = some (k', e)) : Hist H k' := by
  simp only [consumeBody] at h
  cases e1 : k.state.updateFromConsignment H (G con.schema) con.data r with
  | none => simp [e1] at h
  | some p =>
  obtain ⟨t, o⟩ := p
  obtain ⟨es, he, hr⟩ := updateFromConsignment_run (hG _) hp e1
  have h1 := hk.withState he hr
  cases o with
  | some x => simp only [e1] at h; cases h; exact h1
  | none =>
  simp only [e1] at h
  have h2 := h1.withIndex (.consignment con.data)
  simp only [IdxOp.exec] at h2
  cases e2 : k.index.indexConsignment H con.data with | mk x o
  rw [e2] at h2
  simp only [e2] at h
  cases o with
  | some y => simp only at h; cases h; exact h2
  | none =>
  simp only at h
  cases e3 : k.stash.consumeConsignment H I M con with
  | none => simp [e3] at h
  | some q =>
    obtain ⟨s, o⟩ := q
    have hs := (step_consumeConsignment hH I M k.stash hk.good con hp.1 s o e3).1
    have h3 := h2.withStash hs
    cases o with
    | error y => simp only [e3] at h; cases h; exact h3
    | ok y => simp only [e3] at h; cases h; exact h3

theorem storeTx_mem {S T X ε : Type} (f : Stores S T X → Option (Stores S T X × Option ε)) (k : Stores S T X) :
    storeTransaction (memProvider S) (memProvider T) (memProvider X) f k =
      (f k).map (fun p => (p.1, p.2.map TxErr.body)) := by
  simp only [storeTransaction, memProvider]
  cases e : f k with
  | none => simp [e]
  | some p =>
    obtain ⟨k', o⟩ := p
    cases o <;> simp [e, commitAll]

theorem fasciaBundles_hist (hH : H.Binding) {r : Resolver} {w : WitnessId} (l : List (Nat × Bundle))
    (hp : ∀ e ∈ l, e.2.WF H ∧ ∀ t ∈ OMap.vals e.2.known, t.Proper ∧ t.kind = .transition) {k k' : Stock} {e : Option StockErr}
    (hk : Hist H k) (h : fasciaBundles H r w l k = some (k', e)) : Hist H k' := by
  induction l generalizing k with
  | nil => simp only [fasciaBundles] at h; cases h; exact hk
  | cons x l ih =>
    obtain ⟨c, b⟩ := x
    simp only [fasciaBundles] at h
    split at h
    · cases h; exact hk
    have h1 := hk.withIndex (.bundle c b w)
    simp only [IdxOp.exec] at h1
    cases e2 : k.index.indexBundle H c b w with | mk x o
    rw [e2] at h1
    simp only [e2] at h
    cases o with
    | some y => simp only at h; cases h; exact h1
    | none =>
    simp only at h
    cases e1 : k.state.updateFromBundle H c b w r with
    | none => simp [e1] at h
    | some p =>
    obtain ⟨t, o⟩ := p
    have hrun : ∃ es, EventsProper es ∧ runSt H k.state es = some t := by
      simp only [MemState.updateFromBundle] at e1
      split at e1
      · split at e1
        · cases e1; exact ⟨[], by simp [EventsProper], rfl⟩
        · split at e1
          · cases e1; exact ⟨[], by simp [EventsProper], rfl⟩
          · obtain ⟨es, h3, h4⟩ := execAll_run _ _ _ _ e1
            refine ⟨es, fun y hy => ?_, h4⟩
            obtain ⟨z, hz, rfl⟩ := List.mem_map.mp (h3 y hy)
            exact (hp (c, b) (by simp)).2 z.2 (by simp only [OMap.vals, List.mem_map]; exact ⟨z, hz, rfl⟩)
      · cases e1; exact ⟨[], by simp [EventsProper], rfl⟩
    obtain ⟨es, he, hr⟩ := hrun
    have h2 := h1.withState he hr
    cases o with
    | some y => simp only [e1] at h; cases h; exact h2
    | none =>
    simp only [e1] at h
    cases e3 : k.stash.consumeBundle H b with
    | none => simp [e3] at h
    | some q =>
      obtain ⟨s, o⟩ := q
      have hs := ((step_consumeBundle hH k.stash hk.good b (hp (c, b) (by simp)).1).1 s o e3).1
      have h3 := h2.withStash hs
      cases o with
      | error y => simp only [e3] at h; cases h; exact h3
      | ok y =>
        simp only [e3] at h
        exact ih (fun x hx => hp x (by simp [hx])) h3 h

/-- What an error leaves. -/
theorem fasciaBundles_error (hH : H.Binding) {r : Resolver} {w : WitnessId} (l : List (Nat × Bundle))
    (hp : ∀ e ∈ l, e.2.WF H ∧ ∀ t ∈ OMap.vals e.2.known, t.Proper ∧ t.kind = .transition) (k : Stock) {k' : Stock} {e : StockErr}
    (hk : Hist H k) (h : fasciaBundles H r w l k = some (k', some e)) :
    Grows H k.stash k'.stash ∧ ∃ done c b rest k₁, l = done ++ (c, b) :: rest ∧ fasciaBundles H r w done k = some (k₁, none) ∧
      ((∃ x y, e = .invalidBundle x y ∧ k' = k₁) ∨
       (∃ x, e = .index x ∧ k'.state = k₁.state ∧ k'.stash = k₁.stash) ∨
       (∃ x, e = .state x ∧ k'.stash = k₁.stash) ∨
       (∃ x, e = .stash x ∧ Grows H k₁.stash k'.stash)) := by
  induction l generalizing k with
  | nil => simp only [fasciaBundles] at h; cases h
  | cons x l ih =>
    obtain ⟨c, b⟩ := x
    have hfull := h
    simp only [fasciaBundles] at h
    by_cases hchk : (OMap.keys b.known).all (fun o => decide (o ∈ OMap.vals b.inputMap)) = false
    · rw [if_pos hchk] at h
      cases h
      exact ⟨.refl _, [], c, b, l, k', rfl, rfl, .inl ⟨_, _, rfl, rfl⟩⟩
    rw [if_neg hchk] at h
    cases e2 : k.index.indexBundle H c b w with | mk x o
    simp only [e2] at h
    cases o with
    | some y =>
      simp only at h; cases h
      exact ⟨.refl _, [], c, b, l, k, rfl, rfl, .inr (.inl ⟨_, rfl, rfl, rfl⟩)⟩
    | none =>
    simp only at h
    cases e1 : k.state.updateFromBundle H c b w r with
    | none => simp [e1] at h
    | some p =>
    obtain ⟨t, o⟩ := p
    cases o with
    | some y =>
      simp only [e1] at h; cases h
      exact ⟨.refl _, [], c, b, l, k, rfl, rfl, .inr (.inr (.inl ⟨_, rfl, rfl⟩))⟩
    | none =>
    simp only [e1] at h
    cases e3 : k.stash.consumeBundle H b with
    | none => simp [e3] at h
    | some q =>
      obtain ⟨s, o⟩ := q
      have hs := (step_consumeBundle hH k.stash hk.good b (hp (c, b) (by simp)).1).1 s o e3
      cases o with
      | error y =>
        simp only [e3] at h; cases h
        exact ⟨hs.2, [], c, b, l, k, rfl, rfl, .inr (.inr (.inr ⟨_, rfl, hs.2⟩))⟩
      | ok y =>
        simp only [e3] at h
        have h1 : fasciaBundles H r w [(c, b)] k = some (⟨s, t, x⟩, none) := by
          simp only [fasciaBundles]
          rw [if_neg hchk]
          simp only [e2, e1, e3]
        have hk1 := fasciaBundles_hist hH [(c, b)] (fun x hx => hp x (by simp only [List.mem_singleton] at hx; simp [hx])) hk h1
        obtain ⟨g, done, c', b', rest, k₁, h4, h5, h6⟩ := ih (fun x hx => hp x (by simp [hx])) _ hk1 h
        refine ⟨hs.2.trans g, (c, b) :: done, c', b', rest, k₁, by simp [h4], ?_, h6⟩
        simp only [fasciaBundles]
        rw [if_neg hchk]
        simp only [e2, e1, e3]
        exact h5

theorem event_hist (hH : H.Binding) {I : Ids} {M : Mpc} {G : SchemaDoc → SchemaGlobals} (hG : ∀ d, OMap.Sorted (G d).maxItems)
    (e : StockEvent) (he : e.Proper H) {k k' : Stock} (hk : Hist H k) (h : e.exec H I M G k = some k') : Hist H k' := by
  cases e with
  | consignment con r =>
    obtain ⟨⟨k1, o⟩, h1, rfl⟩ := Option.map_eq_some_iff.mp h
    simp only [consumeConsignment] at h1
    cases e1 : k.stash.resolveSecrets H con with
    | error x => simp only [e1] at h1; cases h1; exact hk
    | ok con' =>
      simp only [e1, storeTx_mem] at h1
      obtain ⟨⟨k2, o'⟩, h2, h3⟩ := Option.map_eq_some_iff.mp h1
      cases h3
      exact consumeBody_hist hH hG (resolve_proper hH _ _ _ r he e1).1 hk h2
  | fascia f r =>
    obtain ⟨⟨k1, o⟩, h1, rfl⟩ := Option.map_eq_some_iff.mp h
    simp only [consumeFascia, storeTx_mem] at h1
    obtain ⟨⟨k2, o'⟩, h2, h3⟩ := Option.map_eq_some_iff.mp h1
    cases h3
    simp only [fasciaBody] at h2
    cases e1 : k.stash.consumeWitness ⟨f.witness, f.anchor⟩ with
    | none => simp [e1] at h2
    | some q =>
      obtain ⟨s, x⟩ := q
      have hs := ((step_consumeWitness k.stash hk.good _).1 s x e1).1
      cases x with
      | error y => simp only [e1] at h2; cases h2; exact hk.withStash hs
      | ok y =>
        simp only [e1] at h2
        exact fasciaBundles_hist hH _ he (hk.withStash hs) h2
  | kit x =>
    obtain ⟨⟨s, o⟩, h1, rfl⟩ := Option.map_eq_some_iff.mp h
    exact hk.withStash (step_consumeKit I k.stash hk.good x s o h1).1
  | secretSeal x =>
    simp only [StockEvent.exec] at h
    obtain ⟨⟨s, o⟩, h1, rfl⟩ := Option.map_eq_some_iff.mp h
    exact hk.withStash (step_addSecretSeal k.stash hk.good x s o h1).1
  | trust i t =>
    simp only [StockEvent.exec] at h
    obtain ⟨⟨s, o⟩, h1, rfl⟩ := Option.map_eq_some_iff.mp h
    exact hk.withStash (step_setTrust k.stash hk.good i t s o h1).1
  | update r n =>
    simp only [StockEvent.exec, Option.some.injEq] at h
    subst h
    exact hk.withState (es := [.update r n]) (by simp [EventsProper]) rfl

theorem runStock_hist (hH : H.Binding) {I : Ids} {M : Mpc} {G : SchemaDoc → SchemaGlobals} (hG : ∀ d, OMap.Sorted (G d).maxItems)
    (es : List StockEvent) (he : ∀ e ∈ es, StockEvent.Proper H e) {k k' : Stock} (hk : Hist H k)
    (h : runStock H I M G es k = some k') : Hist H k' := by
  induction es generalizing k with
  | nil => cases h; exact hk
  | cons e es ih =>
    obtain ⟨u, hu, h⟩ := Option.bind_eq_some_iff.mp h
    exact ih (fun x hx => he x (by simp [hx])) (event_hist hH hG e (he e (by simp)) hk hu) h

theorem Reachable.hist (hH : H.Binding) {k : Stock} (h : Reachable H k) : Hist H k := by
  obtain ⟨I, M, G, es, hG, he, hr⟩ := h
  exact runStock_hist hH hG es he ⟨good_empty, ⟨[], rfl⟩, [], by simp [EventsProper], rfl⟩ hr

theorem calls_public (calls : List IdxCall) (x : Index)
    (hx : ∀ c ci, OMap.get? x.contracts c = some ci → ci.publicOpouts = []) (c : Nat) (ci : ContractIndex)
    (h : OMap.get? (IdxCall.execAll x calls).1.contracts c = some ci) : ci.publicOpouts = [] := by
  induction calls generalizing x with
  | nil => exact hx c ci h
  | cons call calls ih =>
    have h1 : ∀ c ci, OMap.get? (call.exec x).1.contracts c = some ci → ci.publicOpouts = [] := by
      intro c ci h
      cases call with
      | registerContract d =>
        simp only [IdxCall.exec, Index.registerContract] at h
        split at h
        · exact hx _ _ h
        · split at h
          · exact hx _ _ h
          · simp only [OMap.get?_insert] at h
            split at h
            · cases h; rfl
            · exact hx _ _ h
      | registerBundle b w d =>
        simp only [IdxCall.exec, Index.registerBundle] at h
        split at h
        · exact hx _ _ h
        · split at h <;> exact hx _ _ h
      | registerOperation o b =>
        simp only [IdxCall.exec, Index.registerOperation] at h
        split at h <;> exact hx _ _ h
      | assignments d w items opid ty =>
        simp only [IdxCall.exec, Index.indexAssignments] at h
        split at h
        · exact hx _ _ h
        · rename_i cj hcj
          have : ∀ m, OMap.get? (OMap.insert x.contracts d { cj with outs := m }) c = some ci → ci.publicOpouts = [] := by
            intro m hm
            simp only [OMap.get?_insert] at hm
            split at hm
            · cases hm; exact hx _ cj hcj
            · exact hx _ _ hm
          split at h <;> exact this _ h
    simp only [IdxCall.execAll] at h
    cases e : call.exec x with | mk y o
    rw [e] at h1
    simp only [e] at h
    cases o with
    | some z => exact h1 _ _ h
    | none => exact ih y h1 h

/-- No output is ever recorded as public. -/
theorem public_nil {x : Index} (h : ∃ ops, x = runIdx H {} ops) (c : Nat) (l : OSet Opout) (hl : x.publicOpouts c = .ok l) : l = [] := by
  have key : ∀ (ops : List IdxOp) (x : Index), (∀ c ci, OMap.get? x.contracts c = some ci → ci.publicOpouts = []) →
      ∀ c ci, OMap.get? (runIdx H x ops).contracts c = some ci → ci.publicOpouts = [] := by
    intro ops
    induction ops with
    | nil => intro x hx; exact hx
    | cons op ops ih =>
      intro x hx
      refine ih _ ?_
      intro c ci h
      rw [IdxOp.exec_eq] at h
      exact calls_public _ _ hx _ _ h
  obtain ⟨ops, rfl⟩ := h
  simp only [Index.publicOpouts] at hl
  split at hl
  · cases hl
  · rename_i ci hci
    cases hl
    exact key ops {} (by simp) _ _ hci

end Rgb.Stock
