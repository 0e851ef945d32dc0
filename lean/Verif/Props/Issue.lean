import Verif.Lemmas.Issue
import Verif.Spec.IssueWorld
import Verif.Props.Receive
import Verif.Props.Pass

/-! # C81: builders made by a stock. C82: issued contracts -/

namespace Rgb.Props
open Rgb

variable {E : CEnv} {M : Mpc} {G : SchemaDoc → SchemaGlobals} {k k' : Stock} {es : List StockEvent}

/-! ### C81 -/

/-- **C81** (contracts). A stock gives a builder of a contract exactly if it knows the schema, the interface, an implementation of the interface for
the schema, the types of both and the libraries of the schema. -/
theorem C81_contract (hH : E.H.Binding) (hG : ∀ d, OMap.Sorted (G d).maxItems) (he : ∀ e ∈ es, StockEvent.Proper E.H e)
    (hes : runStock E.H E.I M G es .empty = some k) (issuer i : Nat) (r : IfaceRef) :
    (∃ b, Stock.contractBuilder E k.stash issuer i r = .ok b) ↔
      ∃ si d x, k.stash.schema i = some si ∧ k.stash.iface r = some d ∧ si.ImplementedBy E.I d x ∧ k.stash.HasDocs E si.doc d := by
  have hk := runStock_kept hH hG es he kept_empty hes
  exact contractBuilder_iff hk.addressed hk.impls hk.docsSorted

/-- **C81** (contracts, what is built with). The builder is a new one, with the schema of the given id, the interface asked for, its implementation
for this schema, and with exactly the types of both and the libraries of the schema. -/
theorem C81_contract_with (hH : E.H.Binding) (hG : ∀ d, OMap.Sorted (G d).maxItems) (he : ∀ e ∈ es, StockEvent.Proper E.H e)
    (hes : runStock E.H E.I M G es .empty = some k) {issuer i : Nat} {r : IfaceRef} {b : Issuing} (h : Stock.contractBuilder E k.stash issuer i r = .ok b) :
    (∃ si, k.stash.schema i = some si ∧ b.schema = si.doc ∧ si.ImplementedBy E.I b.iface b.iimpl) ∧ E.I.schema b.schema = i ∧ b.iimpl.schemaId = i ∧
      k.stash.iface r = some b.iface ∧ b.builder = .new false issuer (E.ifaceOf b.iface) (E.schemaOf b.schema) (E.implOf b.iimpl) ∧
      OSet.Sorted b.types ∧ (∀ t, t ∈ b.types ↔ t ∈ E.S.schemaTypes b.schema ∨ t ∈ E.S.ifaceTypes b.iface) ∧
      (∀ l, l ∈ b.scripts ↔ ∃ j ∈ E.S.schemaLibs b.schema, k.stash.lib j = some l) := by
  have hk := runStock_kept hH hG es he kept_empty hes
  obtain ⟨h1, h2, h3, -⟩ := contractBuilder_docs h
  obtain ⟨si, h4, h5, h6, h7, -, h8⟩ := contractBuilder_ok h
  have h9 := ifaceRef_iff.mp h6
  have h10 := iface_found hk.addressed hk.impls.sorted h9
  obtain ⟨g1, -, g3, g4⟩ := get_found (I := E.I) hk.impls h4 h7 h10
  exact ⟨⟨si, h4, h5, g1, g4⟩, by rw [h5]; exact hk.addressed.schema _ _ h4, g3, h9, h8, h1, h2, h3⟩

/-- **C81** (transitions). A stock gives a builder of a transition exactly if it knows the contract, its schema, the interface and the rest as above, and
the operation is one of the interface which the implementation has. The builder is a new one, for this operation, with the asset tags of the contract. -/
theorem C81_transition (hH : E.H.Binding) (hT : E.TagMaps) (hG : ∀ d, OMap.Sorted (G d).maxItems) (he : ∀ e ∈ es, StockEvent.Proper E.H e)
    (hes : runStock E.H E.I M G es .empty = some k) (c : Nat) (r : IfaceRef) (op : Option Nat) (b : TransitionBuilder) :
    Stock.transitionBuilder E k.stash c r op = .ok b ↔
      ∃ g si d x ty, k.stash.genesis c = some g ∧ k.stash.schema (E.I.genesisSchema g) = some si ∧ k.stash.iface r = some d ∧
        si.ImplementedBy E.I d x ∧ k.stash.HasDocs E si.doc d ∧ E.opType d x op = some ty ∧ b = E.newTransition c d si.doc x (E.tagsOf g) ty := by
  have hk := runStock_kept hH hG es he kept_empty hes
  exact transitionBuilder_iff hT hk.addressed hk.impls hk.docsSorted

/-- **C81** (blank transitions), in part. A stock gives a builder of a blank transition exactly if it knows the contract, its schema, the interface, any
implementation of the schema, and the types and libraries. The builder is a new one with the asset tags of the contract, with the
implementation of the interface asked for, or, if there isn't one, with the first implementation of the schema and its interface.
Missing: stocks with two interfaces of the same name, see `C81_blank_fails`. -/
theorem C81_blank_partial (hH : E.H.Binding) (hT : E.TagMaps) (hG : ∀ d, OMap.Sorted (G d).maxItems) (he : ∀ e ∈ es, StockEvent.Proper E.H e)
    (hes : runStock E.H E.I M G es .empty = some k) (hn : k.stash.NamesDiffer) (c : Nat) (r : IfaceRef) :
    ((∃ b, Stock.blankBuilder E k.stash c r = .ok b) ↔
      ∃ g si d, k.stash.genesis c = some g ∧ k.stash.schema (E.I.genesisSchema g) = some si ∧ k.stash.iface r = some d ∧
        si.iimpls ≠ [] ∧ k.stash.HasDocs E si.doc d) ∧
    ∀ b, Stock.blankBuilder E k.stash c r = .ok b → ∃ g si d d' x, k.stash.genesis c = some g ∧ k.stash.schema (E.I.genesisSchema g) = some si ∧
      k.stash.iface r = some d ∧ k.stash.ifaceById (E.I.iface d') = some d' ∧ si.ImplementedBy E.I d' x ∧
      (d' = d ∨ (∀ y, ¬ si.ImplementedBy E.I d y) ∧ (OMap.vals si.iimpls).head? = some x) ∧
      b = E.newTransition c d' si.doc x (E.tagsOf g) 65535 := by
  have hk := runStock_kept hH hG es he kept_empty hes
  have key := fun b => blankBuilder_iff (b := b) (c := c) (r := r) hT hk.addressed hk.impls hk.docsSorted
  constructor
  · constructor
    · rintro ⟨b, hb⟩
      obtain ⟨g, si, d, d', x, h1, h2, h3, h4, h5, -⟩ := (key b).mp hb
      refine ⟨g, si, d, h1, h2, h3, ?_, h4⟩
      intro hn
      rcases h5 with ⟨-, h5, -⟩ | ⟨-, -, h5⟩
      · rw [hn] at h5; cases h5
      · rw [hn] at h5; cases h5
    · rintro ⟨g, si, d, h1, h2, h3, h4, h5⟩
      by_cases hx : ∃ x, si.ImplementedBy E.I d x
      · obtain ⟨x, hx⟩ := hx
        exact ⟨_, (key _).mpr ⟨g, si, d, d, x, h1, h2, h3, h5, .inl ⟨rfl, hx⟩, rfl⟩⟩
      · cases e : si.iimpls with
        | nil => exact absurd e h4
        | cons p l =>
          obtain ⟨d', h6, h7⟩ := first_named hk.impls h2 (e := p) (by rw [e]; exact List.mem_cons_self ..)
          exact ⟨_, (key _).mpr ⟨g, si, d, d', p.2, h1, h2, h3, h5, .inr ⟨fun y hy => hx ⟨y, hy⟩, by rw [h7]; exact h6, by rw [e, h7]; rfl⟩, rfl⟩⟩
  · intro b hb
    obtain ⟨g, si, d, d', x, h1, h2, h3, h4, h5, h6⟩ := (key b).mp hb
    rcases h5 with ⟨rfl, h5⟩ | ⟨h5, h7, h8⟩
    · exact ⟨g, si, d', d', x, h1, h2, h3, iface_found hk.addressed hk.impls.sorted h3, h5, .inl rfl, h6⟩
    · have hx : (d'.name, x) ∈ si.iimpls := List.mem_of_mem_head? h8
      obtain ⟨-, d2, g2, g3⟩ := (hk.impls.impls _ _ h2).2 _ hx
      have hd' := ifaceRef_found hk.addressed hk.impls.sorted (r := .name d'.name) (orErr_ok.mpr h7)
      have := hn _ _ _ _ g2 hd' g3
      refine ⟨g, si, d, d', x, h1, h2, h3, hd', ⟨List.mem_map.mpr ⟨_, hx, rfl⟩, this⟩, .inr ⟨h5, ?_⟩, h6⟩
      simp only [OMap.vals, List.head?_map, h8, Option.map_some]

/-- **C81** (panics), in part. Builders of contracts and of blank transitions are given, or refused with an error, without a panic. Missing: builders of
transitions, see `C81_operation_fails`. -/
theorem C81_total_partial (hT : E.TagMaps) (s : MemStash) (issuer i c : Nat) (r : IfaceRef) :
    Stock.contractBuilder E s issuer i r ≠ .error .panic ∧ Stock.blankBuilder E s c r ≠ .error .panic :=
  ⟨contractBuilder_err, blankBuilder_err hT⟩

/-- **C81 is false** of panics: asking for a builder of a transition panics, and does so exactly if all is known but the operation, which the caller gives
(and for the default operation, if the interface has none). -/
theorem C81_operation_fails (hH : E.H.Binding) (hT : E.TagMaps) (hG : ∀ d, OMap.Sorted (G d).maxItems) (he : ∀ e ∈ es, StockEvent.Proper E.H e)
    (hes : runStock E.H E.I M G es .empty = some k) (c : Nat) (r : IfaceRef) (op : Option Nat) :
    Stock.transitionBuilder E k.stash c r op = .error .panic ↔
      ∃ g si d x, k.stash.genesis c = some g ∧ k.stash.schema (E.I.genesisSchema g) = some si ∧ k.stash.iface r = some d ∧
        si.ImplementedBy E.I d x ∧ k.stash.HasDocs E si.doc d ∧ E.opType d x op = none := by
  have hk := runStock_kept hH hG es he kept_empty hes
  exact transitionBuilder_panic hT hk.addressed hk.impls hk.docsSorted

/-- **C81 is false** of blank transitions with two interfaces of the same name. The stock has interfaces 20 and 21, both named 7, and 22, named 8. The
schema has one implementation, of 21. Asked for a blank transition through 22, the stock gives a builder with the implementation of 21 and the interface 20. -/
theorem C81_blank_fails : ∃ (k : Stock) (es : List StockEvent) (si : SchemaIfaces) (b : TransitionBuilder), (∀ e ∈ es, StockEvent.Proper IssueWorld.E.H e) ∧
    runStock IssueWorld.E.H IssueWorld.E.I World.M IssueWorld.G es .empty = some k ∧
    k.stash.schema 10 = some si ∧ OMap.vals si.iimpls = [⟨10, 21, 1⟩] ∧ Stock.blankBuilder IssueWorld.E k.stash 0 (.name 8) = .ok b ∧
    k.stash.ifaceById 20 = some ⟨7, [], 0⟩ ∧ b.builder.iface = IssueWorld.E.ifaceOf ⟨7, [], 0⟩ ∧ b.builder.iimpl = IssueWorld.E.implOf ⟨10, 21, 1⟩ ∧
    k.stash.ifaceById 21 = some ⟨7, [], 1⟩ := by
  have h : (runStock IssueWorld.E.H IssueWorld.E.I World.M IssueWorld.G
      (IssueWorld.events ++ [.kit { ifaces := [⟨7, [], 1⟩, ⟨8, [], 2⟩], iimpls := [⟨10, 21, 1⟩] }]) .empty).any (fun k => decide (
        (k.stash.schema 10).any (fun si => decide (OMap.vals si.iimpls = [⟨10, 21, 1⟩])) = true ∧
        (Stock.blankBuilder IssueWorld.E k.stash 0 (.name 8)).toOption.any (fun b => decide (
          b.builder.iface = IssueWorld.E.ifaceOf ⟨7, [], 0⟩ ∧ b.builder.iimpl = IssueWorld.E.implOf ⟨10, 21, 1⟩)) = true ∧
        k.stash.ifaceById 20 = some ⟨7, [], 0⟩ ∧ k.stash.ifaceById 21 = some ⟨7, [], 1⟩)) = true := by decide +kernel
  obtain ⟨k, hk, h⟩ := (Option.any_eq_true _ _).mp h
  obtain ⟨h1, h2, h3, h4⟩ := of_decide_eq_true h
  obtain ⟨si, h5, h6⟩ := (Option.any_eq_true _ _).mp h1
  obtain ⟨b, h7, h8, h9⟩ := PayWorld.ok_any h2
  refine ⟨k, _, si, b, ?_, hk, h5, of_decide_eq_true h6, h7, h3, h8, h9, h4⟩
  intro e he
  rcases List.mem_append.mp he with he | he
  · exact IssueWorld.events_proper e he
  · rw [List.mem_singleton.mp he]; trivial

/-! ### C82 -/

variable {n : Nat} {issuer i : Nat} {r : IfaceRef} {b : Issuing} {rest : Nat → BuiltGenesis → Nat} {valid : Consignment → Bool} {ts : Int}
  {calls : List CCall} {g : BuiltGenesis} {con : Consignment} {res : Resolver}

theorem issue_proper {H : Commit} (hb : b.builder = .new false issuer (E.ifaceOf b.iface) (E.schemaOf b.schema) (E.implOf b.iimpl))
    (h : b.issue E rest valid ts calls = .ok (g, con)) : StockEvent.Proper H (.consignment con res) := by
  obtain ⟨rfl, cb, h1, h2⟩ := issue_iff.mp h
  rw [hb] at h1
  obtain ⟨h3, h4, -, -⟩ := issued_sorted h1 h2
  refine ⟨⟨rfl, h3, ?_, ?_⟩, ?_, ⟨h3, h4⟩, ?_, ?_⟩ <;> intro x hx <;> cases hx

/-- **C82** (import). A contract made with a builder of a stock is taken by this stock, if there is room for it. -/
theorem C82_imported (hH : E.H.Binding) (hE : E.B.Lawful n) (hG : ∀ d, OMap.Sorted (G d).maxItems) (hg : E.SameGlobals G)
    (he : ∀ e ∈ es, StockEvent.Proper E.H e) (hes : runStock E.H E.I M G es .empty = some k)
    (hb : Stock.contractBuilder E k.stash issuer i r = .ok b) (hs : GenesisSeals (E.implOf b.iimpl) calls)
    (h : b.issue E rest valid ts calls = .ok (g, con)) (hn : k.New (con.data.genesis.contractId E.H)) (hr : k.Room E.H E.I con) (res : Resolver) :
    ∃ k', k.consumeConsignment E.H E.I M G res con = some (k', none) := by
  obtain ⟨⟨si, h1, h2, h3⟩, h4, h5, h6, h7, -⟩ := C81_contract_with hH hG he hes hb
  have hp : StockEvent.Proper E.H (.consignment con res) := issue_proper h7 h
  have hk : k.Reachable E.H := ⟨E.I, M, G, es, hG, he, hes⟩
  obtain ⟨rfl, cb, g1, g2⟩ := issue_iff.mp h
  rw [h7] at g1
  obtain ⟨-, -, -, g3⟩ := issued_sorted g1 g2
  refine C72_accepts hH hG hk hp ⟨?_, ?_, ?_, ?_, .nil, ?_, ?_, ?_⟩ ⟨?_, ?_, ?_, ?_⟩ hr
  · intro wb hwb; cases hwb
  · intro op hop a ha x hx
    simp only [ConsignmentData.plainOps, Issuing.contract, List.mem_singleton] at hop
    subst hop
    simp only [Op.assigned, List.mem_flatMap] at ha
    obtain ⟨e, he', ha⟩ := ha
    have hp' := hp.2.2.1.1
    exact issued_seals hE g1 g2 hs (hp'.get?_of_mem he') ha hx
  · intro p hp'; cases hp'
  · intro op hop e he'
    have hop : op = g.op rest (E.I.schema b.schema) := by
      simpa [ConsignmentData.ops, ConsignmentData.plainOps, ConsignmentData.transitions, Issuing.contract] using hop
    subst hop
    exact hg _ _ (g3 e he')
  · intro wb hwb; cases hwb
  · intro wb hwb; cases hwb
  · intro e he'
    simp only [Issuing.contract, List.mem_singleton] at he'
    subst he'
    exact ⟨by show b.iimpl.schemaId = E.I.schema b.schema; rw [h4, h5], (b.iface, b.iimpl), List.mem_singleton.mpr rfl, h3.2.symm⟩
  · intro x _ wb hwb; cases hwb
  · intro cs' hcs
    have := hn.state
    rw [OMap.contains, hcs] at this
    cases this
  · intro wb hwb; cases hwb
  · intro wb hwb; cases hwb

/-- **C82** (stash). Importing it changes nothing else in the stash: the documents were there. -/
theorem C82_stash (hH : E.H.Binding) (hG : ∀ d, OMap.Sorted (G d).maxItems)
    (he : ∀ e ∈ es, StockEvent.Proper E.H e) (hes : runStock E.H E.I M G es .empty = some k)
    (hb : Stock.contractBuilder E k.stash issuer i r = .ok b)
    (h : b.issue E rest valid ts calls = .ok (g, con)) (hn : k.New (con.data.genesis.contractId E.H))
    (hd : k.consumeConsignment E.H E.I M G res con = some (k', none)) :
    k'.stash = { k.stash with geneses := OMap.insert k.stash.geneses (con.data.genesis.contractId E.H) con.data.genesis } := by
  have hk := runStock_kept hH hG es he kept_empty hes
  obtain ⟨⟨si, h1, h2, h3⟩, h4, h5, h6, h7, -⟩ := C81_contract_with hH hG he hes hb
  obtain ⟨-, d2, d3, d4⟩ := contractBuilder_docs hb
  obtain ⟨con', c1, c2⟩ := consignment_done hd
  obtain ⟨rfl, -⟩ := issue_iff.mp h
  have hcon : con' = b.contract E rest g := by
    simp only [MemStash.resolveSecrets, Issuing.contract] at c1
    cases c1; rfl
  subst hcon
  have h10 := iface_found hk.addressed hk.impls.sorted h6
  have hget := (implemented_get (I := E.I) hk.impls hk.docsSorted h1 h10).mpr h3
  obtain ⟨g1, g2, g3, g4⟩ := get_found (I := E.I) hk.impls h1 hget h10
  refine genesis_import rfl rfl rfl hn.genesis (fun u o e1 e2 e3 e4 hA hu => ?_) hk.addressed (body_stash c2)
  refine kit_known (H := E.H) hA (hk.impls.congr e1 e2) ?_ (sd := b.schema) (d := b.iface) (x := b.iimpl) ⟨si, ?_, g2, ?_, g4⟩ ?_ ?_ ?_ hu
  · obtain ⟨q1, q2, q3, q4⟩ := hk.docsSorted
    exact ⟨by rw [e3]; exact q1, by rw [e4]; exact q2, by rw [e1]; exact q3, fun j sj hj => q4 j sj (by simpa only [MemStash.schema, e1] using hj)⟩
  · rw [h4]; simpa only [MemStash.schema, e1] using h1
  · rw [h4, g3]
  · simpa only [MemStash.ifaceById, e2] using h10
  · intro ty hty; rw [e3]; exact d4.types ty ((d2 ty).mp hty)
  · intro l hl
    obtain ⟨j, -, hj⟩ := (d3 l).mp hl
    exact ⟨j, by simpa only [MemStash.lib, e4] using hj⟩

/-- **C82** (owned state). After the import, the stock shows as state of the contract, for each type and seal given to the builder, the state given last for them, and
nothing else: each at the output of its seal, with an opout of its own in the genesis, and without a witness. States are as given up to blinding factors and asset tags. -/
theorem C82_state (hH : E.H.Binding) (hE : E.B.Lawful n) (hG : ∀ d, OMap.Sorted (G d).maxItems)
    (he : ∀ e ∈ es, StockEvent.Proper E.H e) (hes : runStock E.H E.I M G es .empty = some k)
    (hb : Stock.contractBuilder E k.stash issuer i r = .ok b) (hs : GenesisSeals (E.implOf b.iimpl) calls)
    (h : b.issue E rest valid ts calls = .ok (g, con)) (hn : k.New (con.data.genesis.contractId E.H))
    (hd : k.consumeConsignment E.H E.I M G res con = some (k', none)) :
    ∃ v, k'.state.contractState (con.data.genesis.contractId E.H) = .ok v ∧ ∃ made : Nat → Seal → OutAssign,
      (∀ kd a, a ∈ v.all kd ↔ ∃ ty s st, lastFor (ty, .revealed s) (calls.filterMap (CCall.slot (E.implOf b.iimpl))) = some st ∧ st.kind = kd ∧ a = made ty s) ∧
      (∀ ty s st, lastFor (ty, .revealed s) (calls.filterMap (CCall.slot (E.implOf b.iimpl))) = some st →
        (made ty s).opout.op = con.data.genesis.contractId E.H ∧ (made ty s).opout.ty = ty ∧ s.toOutput = some (made ty s).sl ∧
          (made ty s).state.content = st.content ∧ (made ty s).witness = none) ∧
      (∀ ty s st s' st', lastFor (ty, .revealed s) (calls.filterMap (CCall.slot (E.implOf b.iimpl))) = some st →
        lastFor (ty, .revealed s') (calls.filterMap (CCall.slot (E.implOf b.iimpl))) = some st' → (made ty s).opout = (made ty s').opout → s = s') := by
  obtain ⟨-, -, -, -, h7, -⟩ := C81_contract_with hH hG he hes hb
  have hp : StockEvent.Proper E.H (.consignment con res) := issue_proper h7 h
  have hk := runStock_kept hH hG es he kept_empty hes
  obtain ⟨ses, h3, h4⟩ := hk.hist.state
  obtain ⟨con', c1, c2⟩ := consignment_done hd
  obtain ⟨rfl, cb, g1, g2⟩ := issue_iff.mp h
  rw [h7] at g1
  have hcon : con' = b.contract E rest g := by
    simp only [MemStash.resolveSecrets, Issuing.contract] at c1
    cases c1; rfl
  subst hcon
  obtain ⟨v, v1, v2, -⟩ := new_contract_state (runSt_inv (H := E.H) h3 stInv_empty h4) (hG _) hp.2.2.1 rfl hn.state (body_state c2)
  obtain ⟨made, m1, m2, m3⟩ := genesis_made hE g1 g2 hs E.H (op := g.op rest (E.I.schema b.schema)) rfl
  exact ⟨v, v1, made, fun kd a => (v2 kd a).trans (m1 kd a), m2, m3⟩

/-- **C82** (global state). After the import, the global state of a type is what was given to the builder, the last given first, up to the limit of the schema. -/
theorem C82_globals (hH : E.H.Binding) (hG : ∀ d, OMap.Sorted (G d).maxItems)
    (he : ∀ e ∈ es, StockEvent.Proper E.H e) (hes : runStock E.H E.I M G es .empty = some k)
    (hb : Stock.contractBuilder E k.stash issuer i r = .ok b)
    (h : b.issue E rest valid ts calls = .ok (g, con)) (hn : k.New (con.data.genesis.contractId E.H))
    (hd : k.consumeConsignment E.H E.I M G res con = some (k', none)) :
    ∃ v, k'.state.contractState (con.data.genesis.contractId E.H) = .ok v ∧ ∀ ty limit, OMap.get? (G b.schema).maxItems ty = some limit →
      ∃ items, v.globalItems ty = some items ∧
        items.map Prod.snd = ((allFor ty (calls.filterMap (CCall.global (E.implOf b.iimpl)))).reverse).take limit := by
  obtain ⟨-, -, -, -, h7, -⟩ := C81_contract_with hH hG he hes hb
  have hp : StockEvent.Proper E.H (.consignment con res) := issue_proper h7 h
  have hk := runStock_kept hH hG es he kept_empty hes
  obtain ⟨ses, h3, h4⟩ := hk.hist.state
  obtain ⟨con', c1, c2⟩ := consignment_done hd
  obtain ⟨rfl, cb, g1, g2⟩ := issue_iff.mp h
  rw [h7] at g1
  have hcon : con' = b.contract E rest g := by
    simp only [MemStash.resolveSecrets, Issuing.contract] at c1
    cases c1; rfl
  subst hcon
  obtain ⟨v, v1, -, v2⟩ := new_contract_state (runSt_inv (H := E.H) h3 stInv_empty h4) (hG _) hp.2.2.1 rfl hn.state (body_state c2)
  refine ⟨v, v1, fun ty limit hl => ?_⟩
  have := v2 ty
  rw [show (b.contract E rest g).schema = b.schema from rfl, hl] at this
  refine ⟨_, this, ?_⟩
  have hsnd : ∀ l : List Nat, (l.mapIdx (fun i x => (GlobalOrd.genesis i, x))).map Prod.snd = l := by
    intro l
    apply List.ext_getElem?
    intro j
    rw [List.getElem?_map, List.getElem?_mapIdx]
    cases l[j]? <;> rfl
  rw [← (C46_globals_contract g1 g2 ty).1, List.map_take, List.map_reverse, hsnd]
  rfl

/-- **C82** (next). After the import, the stock gives builders of transitions of the contract, through the interface it was issued with, for each operation which the
implementation has: with the schema of the contract and with the asset tags of its genesis. -/
theorem C82_next (hH : E.H.Binding) (hT : E.TagMaps) (hG : ∀ d, OMap.Sorted (G d).maxItems)
    (he : ∀ e ∈ es, StockEvent.Proper E.H e) (hes : runStock E.H E.I M G es .empty = some k)
    (hb : Stock.contractBuilder E k.stash issuer i r = .ok b)
    (h : b.issue E rest valid ts calls = .ok (g, con)) (hn : k.New (con.data.genesis.contractId E.H))
    (hr : E.Reads con.data.genesis i g.tags)
    (hd : k.consumeConsignment E.H E.I M G res con = some (k', none)) {op : Option Nat} {ty : Nat} (hty : E.opType b.iface b.iimpl op = some ty) :
    Stock.transitionBuilder E k'.stash (con.data.genesis.contractId E.H) r op =
      .ok (E.newTransition (con.data.genesis.contractId E.H) b.iface b.schema b.iimpl g.tags ty) := by
  have hst := C82_stash hH hG he hes hb h hn hd
  obtain ⟨⟨si, h1, h2, h3⟩, h4, h5, h6, h7, -⟩ := C81_contract_with hH hG he hes hb
  have hp : StockEvent.Proper E.H (.consignment con res) := issue_proper h7 h
  obtain ⟨-, -, -, d4⟩ := contractBuilder_docs hb
  have he' : ∀ e ∈ es ++ [.consignment con res], StockEvent.Proper E.H e := by
    intro e hm
    rcases List.mem_append.mp hm with hm | hm
    · exact he e hm
    · rw [List.mem_singleton.mp hm]; exact hp
  have hk := runStock_kept hH hG es he kept_empty hes
  have hes' : runStock E.H E.I M G [.consignment con res] k = some k' := by
    simp only [runStock, StockEvent.exec, hd, Option.map_some, Option.bind_some]
  have hk' := runStock_kept hH hG [.consignment con res] (fun e hm => he' e (List.mem_append_right _ hm)) hk hes'
  rw [transitionBuilder_iff hT hk'.addressed hk'.impls hk'.docsSorted]
  refine ⟨con.data.genesis, si, b.iface, b.iimpl, ty, ?_, ?_, ?_, h3, ?_, hty, ?_⟩
  · rw [hst]; exact OMap.get?_insert_self ..
  · rw [hr.schema _ rfl, hst]; exact h1
  · rw [hst]
    cases r <;> exact h6
  · rw [hst, ← h2]; exact ⟨d4.types, d4.libs⟩
  · rw [hr.tags _ rfl, h2]

/-! The stock of the example world issues a contract. -/

theorem exIssue_builder : ∃ b, Stock.contractBuilder IssueWorld.E IssueWorld.k.stash 1 10 (.name 7) = .ok b ∧ b.schema = ⟨0⟩ ∧ b.iface = ⟨7, [], 0⟩ ∧
    b.iimpl = ⟨10, 20, 0⟩ ∧ b.types = [1, 2] ∧ b.scripts = [5] :=
  PayWorld.ok_any (by decide +kernel)

theorem exIssue_made : (IssueWorld.g.op IssueWorld.rest 10).contractId IssueWorld.H = 2 := by decide +kernel

theorem exIssue_new : IssueWorld.k.New 2 := ⟨by decide +kernel, by decide +kernel⟩

theorem exIssuedCon : ∃ b con, Stock.contractBuilder IssueWorld.E IssueWorld.k.stash 1 10 (.name 7) = .ok b ∧ b.iface = ⟨7, [], 0⟩ ∧ b.iimpl = ⟨10, 20, 0⟩ ∧ b.schema = ⟨0⟩ ∧
    b.issue IssueWorld.E IssueWorld.rest (fun _ => true) 0 IssueWorld.calls = .ok (IssueWorld.g, con) ∧ con = b.contract IssueWorld.E IssueWorld.rest IssueWorld.g ∧
    con.data.genesis = IssueWorld.g.op IssueWorld.rest 10 := by
  obtain ⟨b, h1, h2, h3, h4, -⟩ := exIssue_builder
  obtain ⟨-, -, -, -, h7, -⟩ := C81_contract_with IssueWorld.H_binding IssueWorld.G_sorted IssueWorld.events_proper IssueWorld.k_run h1
  rw [h2, h3, h4] at h7
  have hc : ((ContractBuilder.calls calcEnv IssueWorld.calls (.new false 1 (IssueWorld.E.ifaceOf ⟨7, [], 0⟩) mixedSchema (IssueWorld.E.implOf ⟨10, 20, 0⟩))).toOption.bind
      (fun cb => (cb.issue calcEnv (fun _ => true) false 0).toOption)) = some IssueWorld.g := by decide +kernel
  refine ⟨b, _, h1, h3, h4, h2, issue_iff.mpr ⟨rfl, ?_⟩, rfl, by rw [Issuing.contract, h2]; rfl⟩
  obtain ⟨cb, h5, h6⟩ := Option.bind_eq_some_iff.mp hc
  have toOpt : ∀ {ε α : Type} {y : Except ε α} {a : α}, y.toOption = some a → y = .ok a := by
    intro ε α y a h
    cases y with
    | error e => cases h
    | ok x => cases h; rfl
  exact ⟨cb, by rw [h7]; exact toOpt h5, toOpt h6⟩

/-- What has to be checked of the stock. -/
def exIssueRoom (k : Stock) : Prop :=
  k.state.contracts.length < 255 ∧ k.index.contracts.length < 255 ∧ k.stash.geneses.length < 255 ∧
  (∀ e ∈ k.index.bundleWitness, e.2.length ≤ 200) ∧ (∀ e ∈ k.index.terminals, e.2.length ≤ 200) ∧
  k.stash.schemata.length < 255 ∧ k.stash.ifaces.length ≤ 200 ∧ (∀ e ∈ k.stash.schemata, e.2.iimpls.length ≤ 200) ∧
  k.stash.suppl.length ≤ 200 ∧ (∀ e ∈ k.stash.suppl, e.2.length ≤ 200)

noncomputable instance : DecidablePred exIssueRoom := fun k => by unfold exIssueRoom; infer_instance

theorem exIssue_room {con : Consignment} {b : Issuing} (h : con = b.contract IssueWorld.E IssueWorld.rest IssueWorld.g) :
    IssueWorld.k.Room IssueWorld.E.H IssueWorld.E.I con := by
  subst h
  have hk : exIssueRoom IssueWorld.k := by decide +kernel
  obtain ⟨a1, a2, a3, a4, a5, a6, a7, a8, a9, a10⟩ := hk
  constructor
  · exact .inr a1
  · exact .inr a2
  · exact a3
  · intro x; have := getD_le a4 x; show _ + 0 ≤ 255; omega
  · intro x
    have := getD_le a5 x
    have : (b.contract IssueWorld.E IssueWorld.rest IssueWorld.g).data.hiddenTo IssueWorld.E.H x ≤ 5 := by
      have h5 : (IssueWorld.g.op IssueWorld.rest (IssueWorld.E.I.schema b.schema)).hiddenTo IssueWorld.E.H x ≤ 5 :=
        Nat.le_trans List.countP_le_length (Nat.le_of_ble_eq_true rfl)
      exact h5
    omega
  · exact .inr a6
  · show _ + 1 ≤ 255; omega
  · intro si h
    have h8 : si.iimpls.length ≤ 200 := a8 _ (OMap.mem_of_get? h)
    show _ + 1 ≤ 255; omega
  · show _ + 0 ≤ 255; omega
  · intro i
    have := getD_le a10 i
    show ((OMap.get? _ i).getD []).length + 0 ≤ 255; omega

example : ∃ b con k' v, Stock.contractBuilder IssueWorld.E IssueWorld.k.stash 1 10 (.name 7) = .ok b ∧
    b.issue IssueWorld.E IssueWorld.rest (fun _ => true) 0 IssueWorld.calls = .ok (IssueWorld.g, con) ∧
    IssueWorld.k.consumeConsignment IssueWorld.E.H IssueWorld.E.I World.M IssueWorld.G World.r con = some (k', none) ∧
    k'.state.contractState 2 = .ok v ∧
    Stock.transitionBuilder IssueWorld.E k'.stash 2 (.name 7) none = .ok (IssueWorld.E.newTransition 2 b.iface b.schema b.iimpl IssueWorld.g.tags 10000) := by
  obtain ⟨b, con, h1, h2, h3, h4, h5, h6, h7⟩ := exIssuedCon
  have hid : con.data.genesis.contractId IssueWorld.E.H = 2 := by rw [h7]; exact exIssue_made
  have hn : IssueWorld.k.New (con.data.genesis.contractId IssueWorld.E.H) := by rw [hid]; exact exIssue_new
  have hs : GenesisSeals (IssueWorld.E.implOf b.iimpl) IssueWorld.calls := IssueWorld.seals
  obtain ⟨k', h8⟩ := C82_imported IssueWorld.H_binding calcEnv_lawful IssueWorld.G_sorted IssueWorld.E_globals IssueWorld.events_proper IssueWorld.k_run h1 hs h5 hn
    (exIssue_room h6) World.r
  obtain ⟨v, h9, -⟩ := C82_state IssueWorld.H_binding calcEnv_lawful IssueWorld.G_sorted IssueWorld.events_proper IssueWorld.k_run h1 hs h5 hn h8
  have h10 := C82_next IssueWorld.H_binding IssueWorld.E_tags IssueWorld.G_sorted IssueWorld.events_proper IssueWorld.k_run h1 h5 hn
    ⟨fun _ _ => rfl, fun _ _ => rfl⟩ h8 (op := none) (ty := 10000) rfl
  rw [hid] at h9 h10
  exact ⟨b, con, k', v, h1, h5, h8, h9, h10⟩

example : lastFor (4000, .revealed (PayWorld.sO 50 0)) (IssueWorld.calls.filterMap (CCall.slot mixedImpl)) = some (.fungible 400 33 0) ∧
    allFor 2001 (IssueWorld.calls.filterMap (CCall.global mixedImpl)) = [1, 2] := by decide +kernel

example : Stock.transitionBuilder IssueWorld.E IssueWorld.k.stash 0 (.id 20) (some 99) = .error .panic := by
  have h : (match Stock.transitionBuilder IssueWorld.E IssueWorld.k.stash 0 (.id 20) (some 99) with | .error .panic => true | _ => false) = true := by decide +kernel
  split at h
  · assumption
  · cases h

example : ∃ b, Stock.blankBuilder IssueWorld.E IssueWorld.k.stash 0 (.name 7) = .ok b ∧ b.ty = blankType :=
  PayWorld.ok_any (by decide +kernel)

example : IssueWorld.k.stash.NamesDiffer := by
  have h : ∀ e ∈ IssueWorld.k.stash.ifaces, ∀ e' ∈ IssueWorld.k.stash.ifaces, e.2.name = e'.2.name → e.1 = e'.1 := by decide +kernel
  exact fun i j d d' hi hj he => h (i, d) (OMap.mem_of_get? hi) (j, d') (OMap.mem_of_get? hj) he

end Rgb.Props
