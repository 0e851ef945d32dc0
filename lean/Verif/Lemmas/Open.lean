import Verif.Lemmas.Arrive
import Verif.Lemmas.UsableHist
import Verif.Spec.Open

/-! Lemmas for C76. -/

namespace Rgb

open MemStash Props Stock

variable {H : Commit} {I : Ids} {M : Mpc} {G : SchemaDoc → SchemaGlobals} {E : Env}

/-! ## Schema of the state -/

/-- The state of a contract was made for the schema of its genesis. -/
def StateSchemas (H : Commit) (I : Ids) (G : SchemaDoc → SchemaGlobals) (t : MemState) : Prop :=
  ∀ c cs, OMap.get? t.contracts c = some cs → ∃ sd, cs.schema = (G sd).id ∧
    (∀ ty, (OMap.get? cs.global ty).map GlobalState.limit = OMap.get? (G sd).maxItems ty) ∧
    ∀ g : Op, g.kind = .genesis → g.contractId H = c → I.genesisSchema g = I.schema sd

/-- A contract is registered with the schema of its genesis. -/
def StCall.Right (I : Ids) (G : SchemaDoc → SchemaGlobals) (call : StCall) : Prop :=
  ∀ sch g, call = .register sch g → ∃ sd, sch = G sd ∧ I.schema sd = I.genesisSchema g

theorem StateSchemas.insert {s : MemState} (hs : StateSchemas H I G s) {c : Nat} {cs : ContractState} {w : OMap WitnessId WitnessOrd}
    (h : ∃ sd, cs.schema = (G sd).id ∧ (∀ ty, (OMap.get? cs.global ty).map GlobalState.limit = OMap.get? (G sd).maxItems ty) ∧
      ∀ g : Op, g.kind = .genesis → g.contractId H = c → I.genesisSchema g = I.schema sd) :
    StateSchemas H I G { witnesses := w, contracts := OMap.insert s.contracts c cs } := by
  intro c' cs' hc
  simp only [OMap.get?_insert] at hc
  split at hc
  · rename_i hcc; cases hc; subst hcc; exact h
  · exact hs c' cs' hc

theorem call_schemas (hI : Ids.Lawful H I) {s t : MemState} {e : Option StErr} {call : StCall} (hp : call.Proper) (hr : call.Right I G)
    (hs : StateSchemas H I G s) (h : call.exec H s = some (t, e)) : StateSchemas H I G t := by
  have key : ∀ c op w ord ow, op.Proper → s.addOp H c op w ord ow = some (t, e) → StateSchemas H I G t := by
    intro c op w ord ow hop h
    simp only [MemState.addOp] at h
    cases hc : OMap.get? s.contracts c with
    | none => simp only [hc] at h; cases h; exact hs
    | some cs =>
      simp only [hc] at h
      obtain ⟨cs', h1, h2⟩ := Option.map_eq_some_iff.mp h
      cases h2
      have sp := addOperation_spec hop h1
      obtain ⟨sd, a1, a2, a3⟩ := hs c cs hc
      exact hs.insert ⟨sd, sp.schema.trans a1, fun ty => (sp.limit ty).trans (a2 ty), a3⟩
  cases call with
  | transition c op w ord => exact key _ _ _ _ _ hp.1 h
  | extension c op w ord => exact key _ _ _ _ _ hp.1 h
  | register sch g =>
    simp only [StCall.exec, MemState.registerContract] at h
    cases hc : OMap.get? s.contracts (g.contractId H) with
    | some cs =>
      simp only [hc] at h
      obtain ⟨cs', h1, h2⟩ := Option.map_eq_some_iff.mp h
      cases h2
      have sp := addOperation_spec hp.2.1 h1
      obtain ⟨sd, a1, a2, a3⟩ := hs _ cs hc
      exact hs.insert ⟨sd, sp.schema.trans a1, fun ty => (sp.limit ty).trans (a2 ty), a3⟩
    | none =>
      simp only [hc] at h
      split at h
      · cases h; exact hs
      · obtain ⟨cs', h1, h2⟩ := Option.map_eq_some_iff.mp h
        cases h2
        have sp := addOperation_spec hp.2.1 h1
        obtain ⟨sd, rfl, hsd⟩ := hr _ _ rfl
        refine hs.insert ⟨sd, sp.schema, fun ty => (sp.limit ty).trans ?_, fun g' hk' hg' => ?_⟩
        · simp only [ContractState.new, OMap.get?_mapVals]
          cases OMap.get? (G sd).maxItems ty <;> rfl
        · rw [hsd]; exact hI.genesis _ _ (by simpa only [Op.contractId, hk', hp.2.2] using hg')

theorem execAll_schemas (hI : Ids.Lawful H I) (calls : List StCall) (hp : ∀ c ∈ calls, c.Proper) (hr : ∀ c ∈ calls, c.Right I G) {s t : MemState}
    {e : Option StErr} (hs : StateSchemas H I G s) (h : StCall.execAll H s calls = some (t, e)) : StateSchemas H I G t := by
  induction calls generalizing s with
  | nil => cases h; exact hs
  | cons c l ih =>
    simp only [StCall.execAll] at h
    cases h1 : c.exec H s with
    | none => simp [h1] at h
    | some p =>
      obtain ⟨u, o⟩ := p
      have hu := call_schemas hI (hp c (by simp)) (hr c (by simp)) hs h1
      cases o with
      | some x => simp only [h1] at h; cases h; exact hu
      | none =>
        simp only [h1] at h
        exact ih (fun c hc => hp c (by simp [hc])) (fun c hc => hr c (by simp [hc])) hu h

theorem consignment_schemas (hI : Ids.Lawful H I) (hG : ∀ d, OMap.Sorted (G d).maxItems) {con : Consignment} {r : Resolver}
    (hp : StockEvent.Proper H (.consignment con r)) (hsc : I.schema con.schema = I.genesisSchema con.data.genesis) {s t : MemState} {e : Option StErr}
    (hs : StateSchemas H I G s) (h : s.updateFromConsignment H (G con.schema) con.data r = some (t, e)) : StateSchemas H I G t := by
  simp only [MemState.updateFromConsignment] at h
  obtain ⟨⟨s1, e1⟩, h1, h2⟩ := Option.map_eq_some_iff.mp h
  cases h2
  obtain ⟨⟨p1, p2, p3, p4⟩, q1, q2, q3, q4⟩ := hp
  refine execAll_schemas hI _ (fun c hc => ?_) (fun c hc => ?_) hs h1
  · rcases consignmentStCalls_mem _ _ _ _ hc with rfl | ⟨t', w, ord, rfl, ht⟩ | ⟨x, w, ord, rfl, hx⟩
    · exact ⟨hG _, q2, p1⟩
    · simp only [ConsignmentData.transitions, WitnessBundle.knownTransitions, List.mem_flatMap, List.mem_map, Prod.mk.injEq] at ht
      obtain ⟨wb, h5, x, ⟨b, h6, h7⟩, rfl, -⟩ := ht
      exact q4 wb h5 b h6 x h7
    · exact q3 x hx
  · rcases consignmentStCalls_mem _ _ _ _ hc with rfl | ⟨t', w, ord, rfl, ht⟩ | ⟨x, w, ord, rfl, hx⟩
    · intro sch g hg; cases hg; exact ⟨_, rfl, hsc⟩
    · intro sch g hg; cases hg
    · intro sch g hg; cases hg

theorem bundle_schemas (hI : Ids.Lawful H I) {c : Nat} {b : Bundle} {w : WitnessId} {r : Resolver}
    (hp : ∀ t ∈ OMap.vals b.known, t.Proper ∧ t.kind = .transition) {s t : MemState} {o : Option StErr} (hs : StateSchemas H I G s)
    (h : s.updateFromBundle H c b w r = some (t, o)) : StateSchemas H I G t := by
  simp only [MemState.updateFromBundle] at h
  split at h
  · split at h
    · cases h; exact hs
    · split at h
      · cases h; exact hs
      · refine execAll_schemas hI _ (fun y hy => ?_) (fun y hy => ?_) hs h
        · obtain ⟨z, hz, rfl⟩ := List.mem_map.mp hy
          exact hp z.2 (List.mem_map.mpr ⟨z, hz, rfl⟩)
        · obtain ⟨z, hz, rfl⟩ := List.mem_map.mp hy
          intro sch g hg; cases hg
  · cases h; exact hs

/-- The schemata of consignments are those of their geneses. -/
def StockEvent.SchemaRight (I : Ids) (e : StockEvent) : Prop :=
  ∀ con r, e = .consignment con r → I.schema con.schema = I.genesisSchema con.data.genesis

theorem fasciaBundles_schemas (hI : Ids.Lawful H I) {r : Resolver} {w : WitnessId} (l : List (Nat × Bundle))
    (hp : ∀ e ∈ l, e.2.WF H ∧ ∀ t ∈ OMap.vals e.2.known, t.Proper ∧ t.kind = .transition) {k k' : Stock} {e : Option StockErr}
    (hs : StateSchemas H I G k.state) (h : fasciaBundles H r w l k = some (k', e)) : StateSchemas H I G k'.state := by
  induction l generalizing k with
  | nil => simp only [fasciaBundles] at h; cases h; exact hs
  | cons x l ih =>
    obtain ⟨c, b⟩ := x
    simp only [fasciaBundles] at h
    split at h
    · cases h; exact hs
    cases e2 : k.index.indexBundle H c b w with | mk x o
    simp only [e2] at h
    cases o with
    | some y => simp only at h; cases h; exact hs
    | none =>
    simp only at h
    cases e1 : k.state.updateFromBundle H c b w r with
    | none => simp [e1] at h
    | some p =>
    obtain ⟨t, o⟩ := p
    have ht := bundle_schemas hI (hp (c, b) (by simp)).2 hs e1
    cases o with
    | some y => simp only [e1] at h; cases h; exact ht
    | none =>
    simp only [e1] at h
    cases e3 : k.stash.consumeBundle H b with
    | none => simp [e3] at h
    | some q =>
      obtain ⟨s, o⟩ := q
      cases o with
      | error y => simp only [e3] at h; cases h; exact ht
      | ok y => simp only [e3] at h; exact ih (fun x hx => hp x (by simp [hx])) ht h

theorem event_schemas (hH : H.Binding) (hI : Ids.Lawful H I) (hG : ∀ d, OMap.Sorted (G d).maxItems) (e : StockEvent) (he : e.Proper H) (hr : e.SchemaRight I)
    {k k' : Stock} (hs : StateSchemas H I G k.state) (h : e.exec H I M G k = some k') : StateSchemas H I G k'.state := by
  cases e with
  | consignment con r =>
    obtain ⟨⟨k1, o⟩, h1, rfl⟩ := Option.map_eq_some_iff.mp h
    simp only [Stock.consumeConsignment] at h1
    cases e1 : k.stash.resolveSecrets H con with
    | error x => simp only [e1] at h1; cases h1; exact hs
    | ok con' =>
      simp only [e1, storeTx_mem] at h1
      obtain ⟨⟨k2, o'⟩, h2, h3⟩ := Option.map_eq_some_iff.mp h1
      cases h3
      obtain ⟨hp', hg', -⟩ := resolve_proper hH _ _ _ r he e1
      have hsc : con'.schema = con.schema := by
        simp only [resolveSecrets] at e1
        split at e1
        · cases e1
        · cases e1; rfl
      simp only [consumeBody] at h2
      cases e2 : k.state.updateFromConsignment H (G con'.schema) con'.data r with
      | none => simp [e2] at h2
      | some p =>
      obtain ⟨t, o⟩ := p
      have ht := consignment_schemas hI hG hp' (by rw [hsc, hg']; exact hr _ _ rfl) hs e2
      cases o with
      | some x => simp only [e2] at h2; cases h2; exact ht
      | none =>
      simp only [e2] at h2
      cases e3 : k.index.indexConsignment H con'.data with | mk x o
      simp only [e3] at h2
      cases o with
      | some y => simp only at h2; cases h2; exact ht
      | none =>
      simp only at h2
      cases e4 : k.stash.consumeConsignment H I M con' with
      | none => simp [e4] at h2
      | some q =>
        obtain ⟨s, o⟩ := q
        cases o with
        | error y => simp only [e4] at h2; cases h2; exact ht
        | ok y => simp only [e4] at h2; cases h2; exact ht
  | fascia f r =>
    obtain ⟨⟨k1, o⟩, h1, rfl⟩ := Option.map_eq_some_iff.mp h
    simp only [Stock.consumeFascia, storeTx_mem] at h1
    obtain ⟨⟨k2, o'⟩, h2, h3⟩ := Option.map_eq_some_iff.mp h1
    cases h3
    simp only [fasciaBody] at h2
    cases e1 : k.stash.consumeWitness ⟨f.witness, f.anchor⟩ with
    | none => simp [e1] at h2
    | some q =>
      obtain ⟨s, x⟩ := q
      cases x with
      | error y => simp only [e1] at h2; cases h2; exact hs
      | ok y => simp only [e1] at h2; exact fasciaBundles_schemas (k := { k with stash := s }) hI _ he hs h2
  | kit x => obtain ⟨⟨s, o⟩, h1, rfl⟩ := Option.map_eq_some_iff.mp h; exact hs
  | secretSeal x => simp only [StockEvent.exec] at h; obtain ⟨⟨s, o⟩, h1, rfl⟩ := Option.map_eq_some_iff.mp h; exact hs
  | trust i t => simp only [StockEvent.exec] at h; obtain ⟨⟨s, o⟩, h1, rfl⟩ := Option.map_eq_some_iff.mp h; exact hs
  | update r n =>
    simp only [StockEvent.exec, Option.some.injEq] at h
    subst h
    intro c cs hc
    exact hs c cs hc

theorem runStock_schemas (hH : H.Binding) (hI : Ids.Lawful H I) (hG : ∀ d, OMap.Sorted (G d).maxItems) (es : List StockEvent)
    (he : ∀ e ∈ es, StockEvent.Proper H e) (hr : ∀ e ∈ es, StockEvent.SchemaRight I e) {k k' : Stock} (hs : StateSchemas H I G k.state)
    (h : runStock H I M G es k = some k') : StateSchemas H I G k'.state := by
  induction es generalizing k with
  | nil => cases h; exact hs
  | cons e es ih =>
    obtain ⟨u, hu, h⟩ := Option.bind_eq_some_iff.mp h
    exact ih (fun x hx => he x (by simp [hx])) (fun x hx => hr x (by simp [hx])) (event_schemas hH hI hG e (he e (by simp)) (hr e (by simp)) hs hu) h

theorem allDone_run (es : List StockEvent) {k k' : Stock} (h : AllDone H I M G es k k') : runStock H I M G es k = some k' := by
  induction es generalizing k with
  | nil => cases h; rfl
  | cons e es ih =>
    obtain ⟨k₁, h1, h2⟩ := h
    simp only [runStock, done_exec h1, Option.bind_some]
    exact ih h2

/-! ## Orders of the maps of a stash -/

structure Ordered (s : MemStash) : Prop where
  geneses : OMap.Sorted s.geneses
  schemata : OMap.Sorted s.schemata
  libs : OMap.Sorted s.libs
  iimpls : ∀ i si, s.schema i = some si → OMap.Sorted si.iimpls

theorem ordered_exec (I : Ids) (s t : MemStash) (hs : Ordered s) (w : StashWrite) (h : w.exec H I s = some t) : Ordered t := by
  have same : ∀ {t : MemStash}, t.geneses = s.geneses → t.schemata = s.schemata → t.libs = s.libs → Ordered t := by
    intro t h1 h2 h3
    exact ⟨h1 ▸ hs.geneses, h2 ▸ hs.schemata, h3 ▸ hs.libs, fun i si hi => hs.iimpls i si (by simpa only [schema, h2] using hi)⟩
  cases w with
  | schema d =>
    simp only [StashWrite.exec, replaceSchema] at h
    split at h
    · cases h; exact hs
    · split at h <;> cases h
      · exact hs
      · refine ⟨hs.geneses, hs.schemata.insert _ _, hs.libs, fun i si hi => ?_⟩
        simp only [schema, OMap.get?_insert] at hi
        split at hi
        · cases hi; exact .nil
        · exact hs.iimpls i si hi
  | iface d =>
    simp only [StashWrite.exec, replaceIface] at h
    split at h
    · cases h; exact hs
    · split at h <;> cases h
      · exact hs
      · exact same rfl rfl rfl
  | iimpl x =>
    simp only [StashWrite.exec, replaceIimpl] at h
    split at h
    · rename_i si d h1 h2
      split at h <;> cases h
      · exact hs
      · refine ⟨hs.geneses, hs.schemata.insert _ _, hs.libs, fun i sj hi => ?_⟩
        simp only [schema, OMap.get?_insert] at hi
        split at hi
        · cases hi; exact (hs.iimpls _ si h1).insert _ _
        · exact hs.iimpls i sj hi
    · cases h
  | trust i l => cases h; exact same rfl rfl rfl
  | supplement x =>
    simp only [StashWrite.exec, addSupplement] at h
    split at h
    · split at h <;> cases h <;> exact same rfl rfl rfl
    · split at h <;> cases h <;> exact same rfl rfl rfl
  | genesis g =>
    simp only [StashWrite.exec, replaceGenesis] at h
    split at h <;> cases h
    · exact hs
    · exact ⟨hs.geneses.insert _ _, hs.schemata, hs.libs, hs.iimpls⟩
  | extension e => cases h; exact same rfl rfl rfl
  | bundle b => cases h; exact same rfl rfl rfl
  | witness w => cases h; exact same rfl rfl rfl
  | attachment i b => cases h; exact same rfl rfl rfl
  | types l => cases h; exact same rfl rfl rfl
  | lib l => cases h; exact ⟨hs.geneses, hs.schemata, hs.libs.insert _ _, hs.iimpls⟩
  | sigs c l =>
    simp only [StashWrite.exec, importSigs] at h
    split at h
    · cases h; exact same rfl rfl rfl
    · split at h <;> cases h <;> exact same rfl rfl rfl
  | secretSeal x => cases h; exact same rfl rfl rfl

theorem Stock.Kept.ordered {k : Stock} (h : Kept H I k) : Ordered k.stash :=
  writes_keep (Φ := Ordered) (fun s t w hs ht => ordered_exec I s t hs w ht) h.writes ⟨.nil, .nil, .nil, by intro _ _ h; cases h⟩

/-! ## Geneses are of the consignments -/

/-- The contracts of the stash are among these. -/
def GensFrom (P : Nat → Prop) (s : MemStash) : Prop := ∀ i, OMap.contains s.geneses i = true → P i

variable {P : Nat → Prop}

theorem gensFrom_congr {s t : MemStash} (h : GensFrom P s) (e : t.geneses = s.geneses) : GensFrom P t := by
  intro i hi; rw [e] at hi; exact h i hi

theorem gensFrom_genesis (hH : H.Binding) {s t : MemStash} (hs : GensFrom P s) (hg : Good H s) {g : Op} (hk : g.kind = .genesis) (hp : P (g.contractId H))
    {r : Except StashErr Bool} (h : s.consumeGenesis H g = some (t, r)) : GensFrom P t := by
  have put : ∀ x : Op, P (x.contractId H) → s.replaceGenesis H x = some (t, r) → GensFrom P t := by
    intro x hx h
    simp only [replaceGenesis] at h
    split at h
    · cases h; exact hs
    · cases h
      intro i hi
      obtain ⟨y, hy⟩ := OMap.contains_iff.mp hi
      simp only [OMap.get?_insert] at hy
      split at hy
      · rename_i e; rw [e]; exact hx
      · exact hs i (OMap.contains_iff.mpr ⟨y, hy⟩)
  simp only [consumeGenesis] at h
  split at h
  · exact put _ hp h
  · rename_i old ho
    split at h
    · cases h; exact hs
    · rename_i x hm
      refine put x ?_ h
      obtain ⟨h1, h2, h3⟩ := hg.genesis _ old ho
      have hid : old.id H = g.id H := by simpa [Op.contractId, h2, hk] using h1
      obtain ⟨-, e2, -, -⟩ := Op.shownBy_merge hH h3 hid hm
      have hc := congrArg Op.kind (id_conceal hH e2.id)
      simp only [Op.conceal] at hc
      have : x.contractId H = g.contractId H := by simp only [Op.contractId, hc, hk, e2.id]
      rw [this]; exact hp

theorem gensFrom_consignment (hH : H.Binding) {s t : MemStash} {con : Consignment} (hg : Good H s)
    (hk : con.data.genesis.kind = .genesis) (hp : P (con.data.genesis.contractId H))
    (hs : GensFrom P s) {r : Except StashErr Unit} (h : s.consumeConsignment H I M con = some (t, r)) : GensFrom P t := by
  refine bind_keeps (Φ := GensFrom P) (fun u o hu => gensFrom_genesis hH hs hg hk hp hu) (fun s _ t _ hs h => ?_) h
  refine bind_keeps (Φ := GensFrom P) (fun u o hu => ?_) (fun s _ t _ hs h => ?_) h
  · exact each_keeps (Φ := GensFrom P) _ (fun a _ s t r hs h => gensFrom_congr hs (geneses_extension h)) _ _ _ hs hu
  refine bind_keeps (Φ := GensFrom P) (fun u o hu => ?_) (fun s _ t _ hs h => ?_) h
  · exact each_keeps (Φ := GensFrom P) _ (fun a _ s t r hs h => gensFrom_congr hs (geneses_witnessBundle h)) _ _ _ hs hu
  refine bind_keeps (Φ := GensFrom P) (fun u o hu => ?_) (fun s _ t _ hs h => ?_) h
  · refine each_keeps (Φ := GensFrom P) _ (fun a _ s t r hs h => gensFrom_congr hs ?_) _ _ _ hs hu
    cases h; rfl
  exact gensFrom_congr hs (geneses_kit h)

theorem fasciaBundles_geneses {r : Resolver} {w : WitnessId} (l : List (Nat × Bundle)) {k k' : Stock} {e : Option StockErr}
    (h : fasciaBundles H r w l k = some (k', e)) : k'.stash.geneses = k.stash.geneses := by
  induction l generalizing k with
  | nil => simp only [fasciaBundles] at h; cases h; rfl
  | cons x l ih =>
    obtain ⟨c, b⟩ := x
    simp only [fasciaBundles] at h
    split at h
    · cases h; rfl
    cases e2 : k.index.indexBundle H c b w with | mk x o
    simp only [e2] at h
    cases o with
    | some y => simp only at h; cases h; rfl
    | none =>
    simp only at h
    cases e1 : k.state.updateFromBundle H c b w r with
    | none => simp [e1] at h
    | some p =>
    obtain ⟨t, o⟩ := p
    cases o with
    | some y => simp only [e1] at h; cases h; rfl
    | none =>
    simp only [e1] at h
    cases e3 : k.stash.consumeBundle H b with
    | none => simp [e3] at h
    | some q =>
      obtain ⟨s, o⟩ := q
      cases o with
      | error y => simp only [e3] at h; cases h; exact geneses_bundle e3
      | ok y => simp only [e3] at h; exact (ih h).trans (geneses_bundle e3)

theorem event_gens (hH : H.Binding) (e : StockEvent) (he : e.Proper H)
    (hP : ∀ con r, e = .consignment con r → P (con.data.genesis.contractId H)) {k k' : Stock} (hk : Good H k.stash)
    (hs : GensFrom P k.stash) (h : e.exec H I M G k = some k') : GensFrom P k'.stash := by
  cases e with
  | consignment con r =>
    obtain ⟨⟨k1, o⟩, h1, rfl⟩ := Option.map_eq_some_iff.mp h
    simp only [Stock.consumeConsignment] at h1
    cases e1 : k.stash.resolveSecrets H con with
    | error x => simp only [e1] at h1; cases h1; exact hs
    | ok con' =>
      simp only [e1, storeTx_mem] at h1
      obtain ⟨⟨k2, o'⟩, h2, h3⟩ := Option.map_eq_some_iff.mp h1
      cases h3
      obtain ⟨hp', hg', -⟩ := resolve_proper hH _ _ _ r he e1
      simp only [consumeBody] at h2
      cases e2 : k.state.updateFromConsignment H (G con'.schema) con'.data r with
      | none => simp [e2] at h2
      | some p =>
      obtain ⟨t, o⟩ := p
      cases o with
      | some x => simp only [e2] at h2; cases h2; exact hs
      | none =>
      simp only [e2] at h2
      cases e3 : k.index.indexConsignment H con'.data with | mk x o
      simp only [e3] at h2
      cases o with
      | some y => simp only at h2; cases h2; exact hs
      | none =>
      simp only at h2
      cases e4 : k.stash.consumeConsignment H I M con' with
      | none => simp [e4] at h2
      | some q =>
        obtain ⟨s, o⟩ := q
        have ht := gensFrom_consignment hH hk hp'.1.genesisKind (by rw [hg']; exact hP _ _ rfl) hs e4
        cases o with
        | error y => simp only [e4] at h2; cases h2; exact ht
        | ok y => simp only [e4] at h2; cases h2; exact ht
  | fascia f r =>
    obtain ⟨⟨k1, o⟩, h1, rfl⟩ := Option.map_eq_some_iff.mp h
    simp only [Stock.consumeFascia, storeTx_mem] at h1
    obtain ⟨⟨k2, o'⟩, h2, h3⟩ := Option.map_eq_some_iff.mp h1
    cases h3
    simp only [fasciaBody] at h2
    cases e1 : k.stash.consumeWitness ⟨f.witness, f.anchor⟩ with
    | none => simp [e1] at h2
    | some q =>
      obtain ⟨s, x⟩ := q
      cases x with
      | error y => simp only [e1] at h2; cases h2; exact gensFrom_congr hs (geneses_witness e1)
      | ok y => simp only [e1] at h2; exact gensFrom_congr hs ((fasciaBundles_geneses _ h2).trans (geneses_witness e1))
  | kit x => obtain ⟨⟨s, o⟩, h1, rfl⟩ := Option.map_eq_some_iff.mp h; exact gensFrom_congr hs (geneses_kit h1)
  | secretSeal x => simp only [StockEvent.exec] at h; obtain ⟨⟨s, o⟩, h1, rfl⟩ := Option.map_eq_some_iff.mp h; exact gensFrom_congr hs (by cases h1; rfl)
  | trust i t => simp only [StockEvent.exec] at h; obtain ⟨⟨s, o⟩, h1, rfl⟩ := Option.map_eq_some_iff.mp h; exact gensFrom_congr hs (by cases h1; rfl)
  | update r n => simp only [StockEvent.exec, Option.some.injEq] at h; subst h; exact hs

/-- The contracts of a stash came with consignments. -/
theorem runStock_imported (hH : H.Binding) (hG : ∀ d, OMap.Sorted (G d).maxItems) (es : List StockEvent)
    (he : ∀ e ∈ es, StockEvent.Proper H e) {k : Stock} (h : runStock H I M G es .empty = some k) {c : Nat} {g : Op} (hg : k.stash.genesis c = some g) :
    Imported H es c := by
  have key : ∀ (l : List StockEvent) (k k' : Stock), (∀ e ∈ l, e ∈ es) → Hist H k → GensFrom (Imported H es) k.stash →
      runStock H I M G l k = some k' → GensFrom (Imported H es) k'.stash := by
    intro l
    induction l with
    | nil => intro k k' _ _ hs h; cases h; exact hs
    | cons e l ih =>
      intro k k' hl hk hs h
      obtain ⟨u, hu, h⟩ := Option.bind_eq_some_iff.mp h
      have h0 := hl e (by simp)
      refine ih u k' (fun x hx => hl x (by simp [hx])) (event_hist hH hG e (he e h0) hk hu) ?_ h
      exact event_gens hH e (he e h0) (fun con r hc => ⟨con, r, hc ▸ h0, rfl⟩) hk.good hs hu
  exact key es .empty k (fun _ h => h) (kept_empty (I := I)).hist (by intro i hi; cases hi) h c (OMap.contains_iff.mpr ⟨g, hg⟩)

end Rgb
