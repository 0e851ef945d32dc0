import Verif.Lemmas.StockHist
import Verif.Spec.StockWorld

/-! # C34, C36, C37: the stock -/

namespace Rgb.Props
open Rgb

variable {H : Commit} {I : Ids} {E : Stock.Env} {k : Stock}

/-! ## C36 -/

/-- **C36** (the part which holds). A transfer made from a stock with any history has the genesis of the contract and, for each
operation needed for the requested outputs, its transition as known to the stock, in a bundle with a valid witness
and with the proofs from the stored anchor.
Missing: outputs which the index doesn't find (`C36_same_outpoint_fails`) and histories with extensions, which can't be
transferred (`C36_extension_fails`). -/
theorem C36_full_history_partial (hH : H.Binding) (hr : k.Reachable H) {fuel c : Nat} {outputs : List Outpoint}
    {secret : Option Nat} {con : Consignment} (h : k.transfer H I E fuel c outputs secret = some (.ok con)) :
    k.stash.genesis c = some con.data.genesis ∧ con.data.genesis.contractId H = c ∧
    ∀ o, Stock.Needed k c outputs secret o → ∃ b t wb cb, Stock.Knows k o b t ∧ t.id H = o ∧ wb ∈ con.data.bundles ∧
      OMap.get? cb.bundle.known o = some t ∧ Stock.Proves E k b cb wb := by
  have hist := Stock.Reachable.hist hH hr
  obtain ⟨ops, acc₀, acc, groups, si, -, -, hi, -, hn, hgen, -, -, -, hgr, -, hb, -⟩ :=
    Stock.consign_ok hist.good (fun l => Stock.public_nil hist.index c l) h
  refine ⟨hgen, (hist.good.genesis _ _ hgen).1, fun o ho => ?_⟩
  obtain ⟨t, ht⟩ := Option.isSome_iff_exists.mp ((hn o).mp ho)
  obtain ⟨-, b, hk, hs⟩ := hi.trans _ _ ht
  obtain ⟨cb, hcb⟩ := Option.isSome_iff_exists.mp hs
  obtain ⟨wb, hwb, hp⟩ := (Stock.consign_bundles hist.good hi hgr).2 b cb hcb
  refine ⟨b, t, wb, cb, hk, hk.id hist.good, by rw [hb]; exact hwb, ?_, hp⟩
  obtain ⟨x, hx, h3⟩ := hk.2
  rw [hp.bundle] at hx
  cases hx
  exact h3

/-- **C36** (documents). The transfer has the schema of the genesis as stored, all the types and libraries which the schema
uses, all the types of the interfaces it has, and an interface for each implementation of the schema. -/
theorem C36_documents (hH : H.Binding) (hr : k.Reachable H) {fuel c : Nat} {outputs : List Outpoint}
    {secret : Option Nat} {con : Consignment} (h : k.transfer H I E fuel c outputs secret = some (.ok con)) :
    ∃ si, k.stash.schema (I.genesisSchema con.data.genesis) = some si ∧ con.schema = si.doc ∧
      (∀ ty, ty ∈ E.schemaTypes con.schema → ty ∈ con.types) ∧
      (∀ d x, (d, x) ∈ con.ifaces → ∀ ty, ty ∈ E.ifaceTypes d → ty ∈ con.types) ∧
      (∀ l, l ∈ E.schemaLibs con.schema → ∃ x, k.stash.lib l = some x ∧ x ∈ con.scripts) ∧
      (∀ name x, (name, x) ∈ si.iimpls → ∃ d, k.stash.ifaceByName name = some d ∧ d ∈ con.ifaces.map Prod.fst) := by
  have hist := Stock.Reachable.hist hH hr
  obtain ⟨ops, acc₀, acc, groups, si, -, -, -, -, -, -, hs, hd, hf, -, he, -⟩ :=
    Stock.consign_ok hist.good (fun l => Stock.public_nil hist.index c l) h
  obtain ⟨e1, e2, e3⟩ := Stock.extract_ok he
  refine ⟨si, hs, hd, ?_, ?_, ?_, (Stock.consignIfaces_ok _ _ _ hf).1⟩
  · intro ty ht; rw [hd] at ht; exact e1 ty ht
  · intro d x hx ty ht
    exact e2 d (by simp only [OMap.keys, List.mem_map]; exact ⟨_, hx, rfl⟩) ty ht
  · intro l hl; rw [hd] at hl; exact e3 l hl

/-- **C36** (supplements and signatures). The transfer has one supplement (the first one) of the contract, of its schema, of each of its interfaces and of
each implementation, whichever has one, and all the stored signatures for these, and no others. -/
theorem C36_annotations (hH : H.Binding) (hr : k.Reachable H) {fuel c : Nat} {outputs : List Outpoint}
    {secret : Option Nat} {con : Consignment} (h : k.transfer H I E fuel c outputs secret = some (.ok con)) :
    (∀ x, x ∈ con.supplements ↔ ∃ r, Stock.ContentOf I E c con r ∧ (k.stash.supplements r).head? = some x) ∧
    (∀ r l, OMap.get? con.signatures r = some l ↔ Stock.ContentOf I E c con r ∧ k.stash.sigsFor r = some l) := by
  have hist := Stock.Reachable.hist hH hr
  obtain ⟨ops, acc₀, acc, groups, si, -, -, -, -, -, -, -, -, -, -, -, -, -, -, h1, h2, -⟩ :=
    Stock.consign_ok hist.good (fun l => Stock.public_nil hist.index c l) h
  constructor
  · intro x
    rw [h1, Stock.mem_consignSuppl]
    exact exists_congr fun r => and_congr Stock.mem_consignContents (by rw [Stock.supplement_eq])
  · intro r l
    rw [h2, Stock.get?_consignSigs, Stock.mem_consignContents]

/-- **C36** (terminals). The terminals of a transfer with a secret seal are the bundles of those requested operations which assign to
the seal, with this seal; without a secret seal there are none. -/
theorem C36_terminals (hH : H.Binding) (hr : k.Reachable H) {fuel c : Nat} {outputs : List Outpoint}
    {secret : Option Nat} {con : Consignment} (h : k.transfer H I E fuel c outputs secret = some (.ok con)) (b v : Nat) :
    OMap.get? con.terminals b = some v ↔ secret = some v ∧
      ∃ o t, Stock.Requested k c outputs secret o ∧ o.op ≠ c ∧ Stock.Knows k o.op b t ∧ t.AssignsTo H v := by
  have hist := Stock.Reachable.hist hH hr
  have hpub := fun l => Stock.public_nil hist.index c l
  obtain ⟨ops, acc₀, acc, groups, si, ho, h₀, -, ht, -, -, -, -, -, -, -, -, hc, -⟩ := Stock.consign_ok hist.good hpub h
  rw [hc, ht, Stock.consignOpouts_terminals hist.good ops h₀ b v]
  simp only [OMap.get?_nil, reduceCtorEq, false_or]
  constructor
  · rintro ⟨rfl, x, hx, hxc, t, hk, ha⟩
    obtain ⟨o, ho', rfl⟩ := (Stock.mem_consignOps hpub ho x).mp hx
    exact ⟨rfl, o, t, ho', hxc, hk, ha⟩
  · rintro ⟨rfl, o, t, hq, hoc, hk, ha⟩
    exact ⟨rfl, o.op, (Stock.mem_consignOps hpub ho _).mpr ⟨o, hq, rfl⟩, hoc, t, hk, ha⟩

/-- **C36** (termination). If no operation is its own ancestor (ids are hashes of contents including the ids of the inputs) then
making a transfer terminates, for every stock, and the result doesn't depend on the number of steps allowed. -/
theorem C36_terminates (rank : Nat → Nat) {c : Nat}
    (hrank : ∀ o b t (i : Opout), Stock.Knows k o b t → i ∈ t.inputs → i.op ≠ c → rank i.op < rank o)
    (outputs : List Outpoint) (secret : Option Nat) :
    ∃ fuel r, ∀ fuel', fuel ≤ fuel' → k.transfer H I E fuel' c outputs secret = some r := by
  have hr : ∀ o b t, Stock.Knows k o b t → ∀ p ∈ Stock.parents t, p ≠ c → rank p < rank o := by
    intro o b t hk p hp hpc
    simp only [Stock.parents, List.mem_map] at hp
    obtain ⟨i, hi, rfl⟩ := hp
    exact hrank o b t i hk hi hpc
  simp only [Stock.transfer, Stock.consign]
  cases Stock.consignOps k c outputs secret with
  | error e => exact ⟨0, _, fun _ _ => rfl⟩
  | ok ops =>
  simp only
  cases Stock.consignOpouts H E k c secret ops {} with
  | error e => exact ⟨0, _, fun _ _ => rfl⟩
  | ok acc =>
  simp only
  let st := ((OMap.vals acc.transitions).flatMap Stock.parents).reverse
  obtain ⟨n, hn⟩ : ∃ n, ∀ o ∈ st, o ≠ c → rank o < n := by
    have : ∀ l : List Nat, ∃ n, ∀ o ∈ l, o ≠ c → rank o < n := by
      intro l
      induction l with
      | nil => exact ⟨0, by simp⟩
      | cons a l ih =>
        obtain ⟨n, hn⟩ := ih
        refine ⟨max n (rank a + 1), fun o ho hoc => ?_⟩
        rcases List.mem_cons.mp ho with rfl | ho
        · omega
        · have := hn o ho hoc; omega
    exact this st
  obtain ⟨fuel, r, hf⟩ := Stock.consignLoop_terminates (H := H) (E := E) rank hr n st hn acc
  cases r with
  | error e =>
    refine ⟨fuel, .error e, fun f hle => ?_⟩
    rw [Stock.consignLoop_mono fuel st acc _ hf f hle]
  | ok a =>
    refine ⟨fuel, Stock.consignFinish H I E k c a, fun f hle => ?_⟩
    rw [Stock.consignLoop_mono fuel st acc _ hf f hle]

/-- The hypotheses are met, and the results aren't trivial: from the example stock the output of `t3` is transferred, with
`t1` as an ancestor, and an output given to a secret seal, with its terminal. -/
theorem exTransfer : ∃ con, World.k.transfer World.H World.I World.E 100 0 [⟨.bitcoin, 62, 1⟩] none = some (.ok con) ∧
    con.data.bundles.flatMap (fun w => w.anchored.bundles) = [World.b1, World.b2] ∧ con.types = [1, 2] ∧ con.scripts = [5] := by
  have hs : ((World.k.transfer World.H World.I World.E 100 0 [⟨.bitcoin, 62, 1⟩] none).bind Except.toOption).isSome = true := by
    decide +kernel
  obtain ⟨con, hcon⟩ := Option.isSome_iff_exists.mp hs
  obtain ⟨r, hr, he⟩ := Option.bind_eq_some_iff.mp hcon
  cases r with
  | error e => cases he
  | ok c =>
    cases he
    refine ⟨con, hr, ?_⟩
    have : ((World.k.transfer World.H World.I World.E 100 0 [⟨.bitcoin, 62, 1⟩] none).bind Except.toOption).map
        (fun con => (con.data.bundles.flatMap (fun w => w.anchored.bundles), con.types, con.scripts)) =
        some ([World.b1, World.b2], [1, 2], [5]) := by decide +kernel
    rw [hcon] at this
    simpa using this

example : ((World.k.transfer World.H World.I World.E 100 0 [] (some 6)).bind Except.toOption).map (fun con => con.terminals) =
    some [(2, 6)] := by decide +kernel

example : ∀ o b t (i : Opout), Stock.Knows World.k o b t → i ∈ t.inputs → i.op ≠ 0 → i.op < o := by
  intro o b t i hk hi _
  have hkey : ∀ e ∈ World.k.index.opBundle, ∀ x, World.k.stash.bundle e.2 = some x → ∀ t', OMap.get? x.known e.1 = some t' →
      ∀ i ∈ t'.inputs, i.op < e.1 := by
    have h0 : World.k.index.opBundle = [(2, 0), (4, 2), (6, 2)] := by decide +kernel
    have h1 : World.k.stash.bundle 0 = some World.b1 := by decide +kernel
    have h2 : World.k.stash.bundle 2 = some World.b2 := by decide +kernel
    rw [h0]
    intro e he x hx t' ht'
    simp only [List.mem_cons, List.not_mem_nil, or_false] at he
    rcases he with rfl | rfl | rfl
    · rw [h1] at hx; cases hx; cases ht'; decide
    · rw [h2] at hx; cases hx; cases ht'; decide
    · rw [h2] at hx; cases hx; cases ht'; decide
  obtain ⟨h1, x, h2, h3⟩ := hk
  exact hkey (o, b) (OMap.mem_of_get? h1) x h2 t h3 i hi

theorem exFascia_proper (txid : Nat) (b : Bundle) (hb : World.CheckB World.H b) :
    ∀ e ∈ [StockEvent.consignment World.con World.r, .fascia (World.fasciaOf txid b) World.r], StockEvent.Proper World.H e := by
  intro e he
  simp only [List.mem_cons, List.not_mem_nil, or_false] at he
  rcases he with rfl | rfl
  · exact World.con_proper
  · exact World.fasciaOf_proper _ _ hb

/-- **C36** fails for outputs which depend on an extension: the stock has the extension and the transition spending its output, but
the output of this transition can't be transferred. -/
theorem C36_extension_fails : ∃ (k : Stock), k.Reachable World.H ∧ k.stash.extension 8 = some World.x ∧
    Stock.Knows k 10 4 World.t4 ∧
    (k.state.contractState 0).map (fun v => v.byOutpoint .fungible ⟨.bitcoin, 63, 1⟩ 1) = .ok [.fungible 4 0 0] ∧
    k.transfer World.H World.I World.E 100 0 [⟨.bitcoin, 63, 1⟩] none = some (.error (.index (.bundleAbsent 8))) := by
  refine World.obtain [.consignment (World.conOf [World.x] ([(.tx ⟨63, 0⟩, World.b4)].map (fun b => World.wb b.1 b.2))) World.r] ?_ _ ?_
  · intro e he
    simp only [List.mem_singleton] at he
    subst he
    refine World.conOf_proper _ ?_ _ ?_ _
    · intro e he
      simp only [List.mem_singleton] at he
      subst he
      exact ⟨⟨List.pairwise_singleton _ _, List.Pairwise.nil⟩, rfl⟩
    · intro b hb
      simp only [List.mem_singleton] at hb
      subst hb
      exact ⟨by decide +kernel, rfl⟩
  · decide +kernel

/-- **C36**: making a transfer panics if a transition has two assignments to the secret seal, and also if its output is requested
together with the secret seal. -/
theorem C36_terminals_panic :
    (∃ k : Stock, k.Reachable World.H ∧ k.transfer World.H World.I World.E 100 0 [] (some 6) = some (.error .panic)) ∧
    (∃ k : Stock, k.Reachable World.H ∧
      k.transfer World.H World.I World.E 100 0 [⟨.bitcoin, 65, 1⟩] (some 6) = some (.error .panic)) :=
  ⟨World.obtain _ (exFascia_proper 64 World.b5 (by decide +kernel)) _ (by decide +kernel),
    World.obtain _ (exFascia_proper 65 World.b6 (by decide +kernel)) _ (by decide +kernel)⟩

/-- **C36** fails when an outpoint has assignments with both closing methods: the transfer of the outpoint leaves one of them out. -/
theorem C36_same_outpoint_fails : ∃ k : Stock, k.Reachable World.H ∧
    (k.state.contractState 0).map (fun v => v.byOutpoint .fungible ⟨.bitcoin, 66, 1⟩ 1) = .ok [.fungible 4 0 0, .fungible 6 0 0] ∧
    Stock.Knows k 16 10 World.t7 ∧ Stock.Knows k 18 12 World.t8 ∧
    ∃ con, k.transfer World.H World.I World.E 100 0 [⟨.bitcoin, 66, 1⟩] none = some (.ok con) ∧
      ∀ w ∈ con.data.bundles, ∀ b ∈ w.anchored.bundles, OMap.get? b.known 18 = none := by
  obtain ⟨k, hr, h1, h2, h3, h4⟩ := World.obtain [.consignment World.con World.r, .fascia World.fascia78 World.r] (by
      intro e he
      simp only [List.mem_cons, List.not_mem_nil, or_false] at he
      rcases he with rfl | rfl
      · exact World.con_proper
      · intro e he
        have hb7 : World.CheckB World.H World.b7 := by decide +kernel
        have hb8 : World.CheckB World.H World.b8 := by decide +kernel
        simp only [World.fascia78, List.mem_cons, List.not_mem_nil, or_false] at he
        rcases he with rfl | rfl
        · exact ⟨hb7.wf, hb7.proper⟩
        · exact ⟨hb8.wf, hb8.proper⟩)
    (fun k => (k.state.contractState 0).map (fun v => v.byOutpoint .fungible ⟨.bitcoin, 66, 1⟩ 1) = .ok [.fungible 4 0 0, .fungible 6 0 0] ∧
      Stock.Knows k 16 10 World.t7 ∧ Stock.Knows k 18 12 World.t8 ∧
      ((k.transfer World.H World.I World.E 100 0 [⟨.bitcoin, 66, 1⟩] none).bind Except.toOption).any (fun con => decide
        (∀ w ∈ con.data.bundles, ∀ b ∈ w.anchored.bundles, OMap.get? b.known 18 = none)) = true) (by decide +kernel)
  exact ⟨k, hr, h1, h2, h3, World.any_ok h4⟩

/-! ## C37 -/

/-- **C37** (the part which holds). Each bundle of a transfer is, as stored, the bundle of an operation needed for the requested outputs;
each transition it reveals is either such an operation or is in one bundle with it. In particular if the stored bundles have one known
transition each then only such operations are revealed.
Missing: nothing is hidden of the other transitions of these bundles, see `C37_siblings_fails`. -/
theorem C37_nothing_unrelated_partial (hH : H.Binding) (hr : k.Reachable H) {fuel c : Nat} {outputs : List Outpoint}
    {secret : Option Nat} {con : Consignment} (h : k.transfer H I E fuel c outputs secret = some (.ok con)) :
    con.data.extensions = [] ∧
    ∀ wb ∈ con.data.bundles, ∀ cb ∈ wb.anchored.list, ∃ b, Stock.Proves E k b cb wb ∧
      (∃ o t, Stock.Needed k c outputs secret o ∧ Stock.Knows k o b t) ∧
      (∀ o t, OMap.get? cb.bundle.known o = some t → Stock.Needed k c outputs secret o ∨
        ∃ o' t', o' ≠ o ∧ Stock.Needed k c outputs secret o' ∧ OMap.get? cb.bundle.known o' = some t') := by
  have hist := Stock.Reachable.hist hH hr
  obtain ⟨ops, acc₀, acc, groups, si, -, -, hi, -, hn, -, -, -, -, hgr, -, hb, -, hx, -⟩ :=
    Stock.consign_ok hist.good (fun l => Stock.public_nil hist.index c l) h
  refine ⟨hx, fun wb hwb cb hcb => ?_⟩
  rw [hb] at hwb
  obtain ⟨b, hb', hp⟩ := (Stock.consign_bundles hist.good hi hgr).1 wb hwb cb hcb
  obtain ⟨-, o, t, ho, hk⟩ := hi.anchored _ _ hb'
  refine ⟨b, hp, ⟨o, t, ho, hk⟩, fun o' t' _ => ?_⟩
  by_cases he : o = o'
  · subst he; exact .inl ho
  · obtain ⟨x, hx, h3⟩ := hk.2
    rw [hp.bundle] at hx
    cases hx
    exact .inr ⟨o, t, he, ho, h3⟩

example : ∃ con, World.k.transfer World.H World.I World.E 100 0 [⟨.bitcoin, 62, 1⟩] none = some (.ok con) ∧
    con.data.bundles.flatMap (fun w => w.anchored.bundles) ≠ [] :=
  World.any_ok (by decide +kernel)

/-- **C37** fails: the output of `t3` is transferred, which depends on `t1` only, and the transfer reveals also `t2` with the amount which it pays
to somebody else, since it's in the same bundle. -/
theorem C37_siblings_fails : ∃ k : Stock, k.Reachable World.H ∧
    (∀ o, Stock.Needed k 0 [⟨.bitcoin, 62, 1⟩] none o → o = 6 ∨ o = 2) ∧
    ∃ con, k.transfer World.H World.I World.E 100 0 [⟨.bitcoin, 62, 1⟩] none = some (.ok con) ∧
      ∃ w ∈ con.data.bundles, ∃ b ∈ w.anchored.bundles, OMap.get? b.known 4 = some World.t2 := by
  refine ⟨World.k, World.k_reachable, ?_, World.any_ok (by decide +kernel)⟩
  have h3 : Stock.Knows World.k 6 2 World.t3 := by decide +kernel
  have h1 : Stock.Knows World.k 2 0 World.t1 := by decide +kernel
  have hq : World.k.index.opoutsByOutputs 0 [⟨.bitcoin, 62, 1⟩] = .ok [⟨6, 1, 0⟩] := by decide +kernel
  intro o ho
  induction ho with
  | output hr hc =>
    rcases hr with ⟨l, hl, hm⟩ | ⟨s, hs, -⟩
    · rw [hq] at hl; cases hl
      simp only [List.mem_singleton] at hm
      subst hm; exact .inl rfl
    · cases hs
  | input hn hk hi hc ih =>
    rcases ih with rfl | rfl
    · obtain ⟨rfl, rfl⟩ := hk.unique h3
      simp only [World.t3, List.mem_singleton] at hi
      subst hi; exact .inr rfl
    · obtain ⟨rfl, rfl⟩ := hk.unique h1
      simp only [World.t1, List.mem_singleton] at hi
      subst hi; exact absurd rfl hc

/-! ## C34 -/

/-- **C34** (in-memory stock, consuming a consignment; the part which holds). The store which reports the error isn't the
last one to be changed: an error of revealing seals leaves everything as it was, an error of the state leaves the index and
the stash as they were, an error of the index leaves the stash; in all cases nothing in the stash gets lost.
Missing: the rest, see `C34_consume_consignment_fails`. -/
theorem C34_consume_consignment_partial (hH : H.Binding) (hr : k.Reachable H) {M : Mpc} {G : SchemaDoc → SchemaGlobals} {r : Resolver}
    {con : Consignment} (hp : StockEvent.Proper H (.consignment con r)) {k' : Stock} {e : TxErr StockErr}
    (h : k.consumeConsignment H I M G r con = some (k', some e)) :
    (∃ x, e = .body (.state x) ∧ k'.index = k.index ∧ k'.stash = k.stash) ∨
    (∃ x, e = .body (.index x) ∧ k'.stash = k.stash) ∨
    (∃ x, e = .body (.stash x) ∧ MemStash.Grows H k.stash k'.stash) := by
  have hist := Stock.Reachable.hist hH hr
  simp only [Stock.consumeConsignment] at h
  cases e1 : k.stash.resolveSecrets H con with
  | error x =>
    simp only [e1] at h; cases h
    exact .inr (.inr ⟨x, rfl, .refl _⟩)
  | ok con' =>
  simp only [e1, Stock.storeTx_mem] at h
  obtain ⟨⟨k1, o⟩, h1, h2⟩ := Option.map_eq_some_iff.mp h
  cases o with
  | none => cases h2
  | some x =>
  simp only [Option.map_some, Prod.mk.injEq, Option.some.injEq] at h2
  obtain ⟨rfl, rfl⟩ := h2
  have hp' := (Stock.resolve_proper hH k.stash con con' r hp e1).1
  simp only [Stock.consumeBody] at h1
  split at h1
  · cases h1
  · cases h1; exact .inl ⟨_, rfl, rfl, rfl⟩
  · split at h1
    · cases h1; exact .inr (.inl ⟨_, rfl, rfl⟩)
    · split at h1
      · cases h1
      · rename_i hs
        cases h1
        refine .inr (.inr ⟨_, rfl, ?_⟩)
        exact (MemStash.step_consumeConsignment hH I M _ hist.good con' hp'.1 _ _ hs).2
      · cases h1

/-- **C34** fails for consignments: a consignment, with the known transaction given by its id only, is refused with an error, and the state
shows the new allocation afterwards, while the stash has nothing about the transition, so it can't be transferred. -/
theorem C34_consume_consignment_fails : ∃ (k k' : Stock) (con : Consignment) (e : TxErr StockErr), k.Reachable World.H ∧
    StockEvent.Proper World.H (.consignment con World.r) ∧
    k.consumeConsignment World.H World.I World.M World.G World.r con = some (k', some e) ∧
    (k.state.contractState 0).map (fun v => v.byOutpoint .fungible ⟨.bitcoin, 62, 1⟩ 1) = .ok [] ∧
    (k'.state.contractState 0).map (fun v => v.byOutpoint .fungible ⟨.bitcoin, 62, 1⟩ 1) = .ok [.fungible 6 0 0] ∧
    k'.transition 6 = .error (.bundleAbsent 2) := by
  let con' := World.conOf [] ([(.txid 61, World.b1), (.tx ⟨62, 0⟩, World.b2)].map (fun b => World.wb b.1 b.2))
  obtain ⟨k, hr, h1, h2⟩ := World.obtain [.consignment World.con World.r] (by
      intro e he
      simp only [List.mem_singleton] at he
      subst he
      exact World.con_proper)
    (fun k => (k.state.contractState 0).map (fun v => v.byOutpoint .fungible ⟨.bitcoin, 62, 1⟩ 1) = .ok [] ∧
      (k.consumeConsignment World.H World.I World.M World.G World.r con').any (fun p => decide (p.2.isSome = true ∧
        (p.1.state.contractState 0).map (fun v => v.byOutpoint .fungible ⟨.bitcoin, 62, 1⟩ 1) = .ok [.fungible 6 0 0] ∧
        p.1.transition 6 = .error (.bundleAbsent 2))) = true) (by decide +kernel)
  cases e1 : k.consumeConsignment World.H World.I World.M World.G World.r con' with
  | none => rw [e1] at h2; cases h2
  | some p =>
    rw [e1] at h2
    obtain ⟨h3, h4, h5⟩ := of_decide_eq_true h2
    obtain ⟨e, he⟩ := Option.isSome_iff_exists.mp h3
    refine ⟨k, p.1, con', e, hr, World.conOf_proper _ (by simp) _ ?_ _, by rw [e1, ← he], h1, h4, h5⟩
    intro b hb
    simp only [List.mem_cons, List.not_mem_nil, or_false] at hb
    rcases hb with rfl | rfl
    · exact ⟨World.b1_check, rfl⟩
    · exact ⟨World.b2_check, rfl⟩

/-- **C34** (in-memory stock, consuming a fascia; exactly what is left after an error). The witness is stored unless storing it fails;
then the bundles before the failed one are consumed completely, those after it aren't touched, and of the failed one the index (state) has changes
only if its check (indexing) succeeded. In all cases nothing in the stash gets lost.
Missing: that nothing is changed by the bundles before it, see `C34_consume_fascia_fails`. -/
theorem C34_consume_fascia_partial (hH : H.Binding) (hr : k.Reachable H) {r : Resolver} {f : Stock.Fascia}
    (hp : StockEvent.Proper H (.fascia f r)) {k' : Stock} {e : TxErr StockErr}
    (h : k.consumeFascia H r f = some (k', some e)) :
    MemStash.Grows H k.stash k'.stash ∧
    ((∃ x, e = .body (.stash x) ∧ k'.state = k.state ∧ k'.index = k.index) ∨
     ∃ done c b rest k₁, f.bundles = done ++ (c, b) :: rest ∧
      k.consumeFascia H r { f with bundles := done } = some (k₁, none) ∧
      ((∃ x y, e = .body (.invalidBundle x y) ∧ k' = k₁) ∨
       (∃ x, e = .body (.index x) ∧ k'.state = k₁.state ∧ k'.stash = k₁.stash) ∨
       (∃ x, e = .body (.state x) ∧ k'.stash = k₁.stash) ∨
       (∃ x, e = .body (.stash x) ∧ MemStash.Grows H k₁.stash k'.stash))) := by
  have hist := Stock.Reachable.hist hH hr
  simp only [Stock.consumeFascia, Stock.storeTx_mem] at h ⊢
  obtain ⟨⟨k1, o⟩, h1, h2⟩ := Option.map_eq_some_iff.mp h
  cases o with
  | none => cases h2
  | some x =>
  simp only [Option.map_some, Prod.mk.injEq, Option.some.injEq] at h2
  obtain ⟨rfl, rfl⟩ := h2
  simp only [Stock.fasciaBody] at h1 ⊢
  cases e1 : k.stash.consumeWitness ⟨f.witness, f.anchor⟩ with
  | none => simp [e1] at h1
  | some p =>
  obtain ⟨s, res⟩ := p
  have hs := (MemStash.step_consumeWitness (H := H) k.stash hist.good ⟨f.witness, f.anchor⟩).1 s res e1
  cases res with
  | error y =>
    simp only [e1, Option.some.injEq, Prod.mk.injEq] at h1
    obtain ⟨rfl, rfl⟩ := h1
    exact ⟨hs.2, .inl ⟨_, rfl, rfl, rfl⟩⟩
  | ok y =>
  simp only [e1] at h1 ⊢
  obtain ⟨h3, done, c, b, rest, k₁, h4, h5, h6⟩ := Stock.fasciaBundles_error hH f.bundles hp { k with stash := s } (hist.withStash hs.1) h1
  exact ⟨hs.2.trans h3, .inr ⟨done, c, b, rest, k₁, h4, by simp [h5], by simpa using h6⟩⟩

/-- **C34** fails for fascias: the bundle of the second contract, which isn't known, is refused with an error, and the state shows
the new allocation from the bundle of the first one. -/
theorem C34_consume_fascia_fails : ∃ (k k' : Stock) (f : Stock.Fascia) (e : TxErr StockErr), k.Reachable World.H ∧
    StockEvent.Proper World.H (.fascia f World.r) ∧
    k.consumeFascia World.H World.r f = some (k', some e) ∧
    (k.state.contractState 0).map (fun v => v.byOutpoint .fungible ⟨.bitcoin, 62, 1⟩ 1) = .ok [] ∧
    (k'.state.contractState 0).map (fun v => v.byOutpoint .fungible ⟨.bitcoin, 62, 1⟩ 1) = .ok [.fungible 6 0 0] ∧
    (k'.transition 6).toOption = some World.t3 := by
  let f' : Stock.Fascia := { World.fascia with bundles := [(0, World.b2), (7, World.b7)] }
  obtain ⟨k, hr, h1, h2⟩ := World.obtain [.consignment World.con World.r] (by
      intro e he
      simp only [List.mem_singleton] at he
      subst he
      exact World.con_proper)
    (fun k => (k.state.contractState 0).map (fun v => v.byOutpoint .fungible ⟨.bitcoin, 62, 1⟩ 1) = .ok [] ∧
      (k.consumeFascia World.H World.r f').any (fun p => decide (p.2.isSome = true ∧
        (p.1.state.contractState 0).map (fun v => v.byOutpoint .fungible ⟨.bitcoin, 62, 1⟩ 1) = .ok [.fungible 6 0 0] ∧
        (p.1.transition 6).toOption = some World.t3)) = true) (by decide +kernel)
  cases e1 : k.consumeFascia World.H World.r f' with
  | none => rw [e1] at h2; cases h2
  | some p =>
    rw [e1] at h2
    obtain ⟨h3, h4, h5⟩ := of_decide_eq_true h2
    obtain ⟨e, he⟩ := Option.isSome_iff_exists.mp h3
    refine ⟨k, p.1, f', e, hr, ?_, by rw [e1, ← he], h1, h4, h5⟩
    intro x hx
    have hb7 : World.CheckB World.H World.b7 := by decide +kernel
    simp only [f', List.mem_cons, List.not_mem_nil, or_false] at hx
    rcases hx with rfl | rfl
    · exact ⟨World.b2_check.wf, World.b2_check.proper⟩
    · exact ⟨hb7.wf, hb7.proper⟩

end Rgb.Props
