import Verif.Lemmas.Stash
import Verif.Spec.ToyCommit
import Verif.Spec.CalcCommit

/-! C30–C33, C62: the stash. -/

namespace Rgb.Props
open Rgb MemStash

/-! ## Example data -/

/-- Ids of the example documents. -/
def exIds : Ids where
  schema d := 10 + d.body
  iface d := 20 + d.body
  lib l := 30 + l
  genesisSchema _ := 11

/-- Merkle blocks of the examples: any proof is fine. -/
def exMpc : Mpc where
  block p c b := some (p, [(c, b)])

/-- A history: the schema 11, two interfaces of the name 7, implementations of both, a secret seal. -/
def exWrites : List StashWrite :=
  [.schema ⟨1⟩, .iface ⟨7, [], 1⟩, .iface ⟨7, [21], 2⟩, .iimpl ⟨11, 21, 0⟩, .lib 5, .types [3, 1],
    .genesis { kind := .genesis }, .extension { kind := .extension, nonce := 3 },
    .bundle ⟨.opretFirst, [(0, 4)], []⟩, .witness ⟨⟨.bitcoin, .txid 1⟩, .opret ⟨0, 0, []⟩⟩,
    .trust 9 .malicious, .sigs 1 [(8, 80), (9, 90)], .secretSeal ⟨.bitcoin, .opretFirst, some 1, 0, 6⟩]

theorem exWrites_run : (runWrites calcCommit exIds exWrites {}).isSome = true := by decide +kernel

/-! ## C30 -/

/-- **C30** (content addressing). After any sequence of writes every object read by an id has this id. -/
theorem C30_content_addressed (H : Commit) (I : Ids) (ws : List StashWrite) (s : MemStash)
    (h : runWrites H I ws {} = some s) :
    (∀ i d, s.schema i = some d → I.schema d.doc = i) ∧ (∀ i d, s.ifaceById i = some d → I.iface d = i) ∧
    (∀ i l, s.lib i = some l → I.lib l = i) ∧ (∀ i g, s.genesis i = some g → g.contractId H = i) ∧
    (∀ i e, s.extension i = some e → e.id H = i) ∧ (∀ i b, s.bundle i = some b → b.id H = i) ∧
    (∀ i w, s.witness i = some w → w.id = i) ∧ (∀ r x, x ∈ s.supplements r → x.ref = r) := by
  have key : ∀ (ws : List StashWrite) (s t : MemStash), Addressed H I s → runWrites H I ws s = some t →
      Addressed H I t := by
    intro ws
    induction ws with
    | nil => intro s t hs h; cases h; exact hs
    | cons w ws ih =>
      intro s t hs h
      obtain ⟨u, hu, h⟩ := Option.bind_eq_some_iff.mp h
      exact ih u t (addressed_exec H I s u hs w hu) h
  obtain ⟨a1, a2, a3, a4, a5, a6, a7, a8⟩ := key ws {} s (addressed_empty H I) h
  exact ⟨a1, a2, a3, a4, a5, a6, a7, a8⟩

example : ∃ s, runWrites calcCommit exIds exWrites {} = some s ∧ (s.schema 11).isSome = true ∧
    (s.ifaceById 22).isSome = true ∧ (s.lib 35).isSome = true ∧ (s.genesis 100).isSome = true ∧
    (s.extension 103).isSome = true ∧ (s.bundle 504).isSome = true ∧ (s.witness ⟨.bitcoin, 1⟩).isSome = true := by
  refine ⟨(runWrites calcCommit exIds exWrites {}).get exWrites_run, by simp, ?_⟩
  decide +kernel

/-- **C30** (monotone, for everything but interface implementations). No sequence of writes, from any state, makes an
available object unavailable. Missing: implementations, which can disappear, see `C30_implementation_fails`. -/
theorem C30_monotone_partial (H : Commit) (I : Ids) (ws : List StashWrite) (s t : MemStash)
    (h : runWrites H I ws s = some t) : Keeps s t := by
  induction ws generalizing s with
  | nil => cases h; exact .refl _
  | cons w ws ih =>
    obtain ⟨u, hu, h⟩ := Option.bind_eq_some_iff.mp h
    exact (keeps_exec H I s u w hu).trans (ih u h)

/-- **C30** fails for implementations: they are stored under the *name* of the interface, so that storing an
implementation of another interface of the same name makes the first one unavailable. -/
theorem C30_implementation_fails : ∃ (ws : List StashWrite) (w : StashWrite) (s t : MemStash) (si sj : SchemaIfaces),
    runWrites calcCommit exIds ws {} = some s ∧ w.exec calcCommit exIds s = some t ∧
    s.schema 11 = some si ∧ t.schema 11 = some sj ∧
    si.get 21 = some ⟨11, 21, 0⟩ ∧ sj.get 21 = none := by
  refine ⟨exWrites, .iimpl ⟨11, 22, 0⟩, (runWrites calcCommit exIds exWrites {}).get exWrites_run,
    ((runWrites calcCommit exIds (exWrites ++ [.iimpl ⟨11, 22, 0⟩]) {}).get (by decide +kernel)),
    ⟨⟨1⟩, [(7, ⟨11, 21, 0⟩)]⟩, ⟨⟨1⟩, [(7, ⟨11, 22, 0⟩)]⟩, by simp, ?_, ?_, ?_, rfl, rfl⟩ <;> decide +kernel

/-- Reading an interface by its name gives the known interface of this name with the least id. -/
theorem C30_iface_by_name (H : Commit) (I : Ids) (ws : List StashWrite) (s : MemStash)
    (hw : runWrites H I ws {} = some s) (n : Nat) (d : IfaceDoc) :
    s.ifaceByName n = some d ↔ d.name = n ∧ s.ifaceById (I.iface d) = some d ∧
      ∀ (j : Nat) (e : IfaceDoc), s.ifaceById j = some e → e.name = n → I.iface d ≤ j := by
  have hs : OMap.Sorted s.ifaces := by
    have key : ∀ (ws : List StashWrite) (s t : MemStash), OMap.Sorted s.ifaces → runWrites H I ws s = some t →
        OMap.Sorted t.ifaces := by
      intro ws
      induction ws with
      | nil => intro s t hs h; cases h; exact hs
      | cons w ws ih =>
        intro s t hs h
        obtain ⟨u, hu, h⟩ := Option.bind_eq_some_iff.mp h
        refine ih u t ?_ h
        cases w with
        | iface d =>
          simp only [StashWrite.exec, replaceIface] at hu
          split at hu
          · cases hu; exact hs
          · split at hu <;> cases hu
            · exact hs
            · exact hs.insert _ _
        | schema d =>
          simp only [StashWrite.exec, replaceSchema] at hu
          split at hu
          · cases hu; exact hs
          · split at hu <;> cases hu <;> exact hs
        | iimpl x =>
          simp only [StashWrite.exec, replaceIimpl] at hu
          split at hu
          · split at hu <;> cases hu <;> exact hs
          · cases hu
        | supplement x =>
          simp only [StashWrite.exec, addSupplement] at hu
          split at hu
          · split at hu <;> cases hu <;> exact hs
          · split at hu <;> cases hu <;> exact hs
        | genesis g =>
          simp only [StashWrite.exec, replaceGenesis] at hu
          split at hu <;> cases hu <;> exact hs
        | sigs c l =>
          simp only [StashWrite.exec, importSigs] at hu
          split at hu
          · cases hu; exact hs
          · split at hu <;> cases hu <;> exact hs
        | trust i l => cases hu; exact hs
        | extension e => cases hu; exact hs
        | bundle e => cases hu; exact hs
        | witness e => cases hu; exact hs
        | attachment i e => cases hu; exact hs
        | types e => cases hu; exact hs
        | lib e => cases hu; exact hs
        | secretSeal e => cases hu; exact hs
    exact key ws {} s List.Pairwise.nil hw
  have had := (C30_content_addressed H I ws s hw).2.1
  refine (MemStash.find_vals hs _ d).trans ?_
  simp only [decide_eq_true_eq]
  constructor
  · rintro ⟨h1, i, h2, h3⟩
    rw [had i d h2]
    exact ⟨h1, h2, h3⟩
  · rintro ⟨h1, h2, h3⟩
    exact ⟨h1, _, h2, h3⟩

example : ∃ s, runWrites calcCommit exIds exWrites {} = some s ∧ s.ifaceByName 7 = some ⟨7, [], 1⟩ := by
  refine ⟨(runWrites calcCommit exIds exWrites {}).get exWrites_run, by simp, ?_⟩
  decide +kernel

/-- A name doesn't always resolve to the same interface: importing another interface of the same name with a smaller id
changes what the name stands for. -/
theorem C30_name_lookup_fails : ∃ (ws : List StashWrite) (w : StashWrite) (s t : MemStash),
    runWrites calcCommit exIds ws {} = some s ∧ w.exec calcCommit exIds s = some t ∧
    s.ifaceByName 7 = some ⟨7, [], 1⟩ ∧ t.ifaceByName 7 = some ⟨7, [], 0⟩ := by
  refine ⟨exWrites, .iface ⟨7, [], 0⟩, (runWrites calcCommit exIds exWrites {}).get exWrites_run,
    ((runWrites calcCommit exIds (exWrites ++ [.iface ⟨7, [], 0⟩]) {}).get (by decide +kernel)),
    by simp, ?_, ?_, ?_⟩ <;> decide +kernel

/-- **C30** for what the stock does: consuming consignments, kits, bundles and witnesses is a sequence of the writes
above, so that after any history objects have their ids and nothing gets lost.
Missing: implementations and lookups by name, see `C30_implementation_fails` and `C30_name_lookup_fails`. -/
theorem C30_histories_partial (H : Commit) (I : Ids) (M : Mpc) (before after : List StashEvent) (s t : MemStash)
    (hs : runStash H I M before {} = some s) (ht : runStash H I M after s = some t) :
    Addressed H I s ∧ Addressed H I t ∧ Keeps s t := by
  obtain ⟨ws, h1⟩ := writes_runStash (H := H) I M before {} s hs
  obtain ⟨vs, h2⟩ := writes_runStash (H := H) I M after s t ht
  have h3 : runWrites H I (ws ++ vs) {} = some t := by rw [runWrites_append, h1]; exact h2
  obtain ⟨a1, a2, a3, a4, a5, a6, a7, a8⟩ := C30_content_addressed H I ws s h1
  obtain ⟨b1, b2, b3, b4, b5, b6, b7, b8⟩ := C30_content_addressed H I _ t h3
  exact ⟨⟨a1, a2, a3, a4, a5, a6, a7, a8⟩, ⟨b1, b2, b3, b4, b5, b6, b7, b8⟩, C30_monotone_partial H I vs s t h2⟩

/-! ## C31 -/

/-- A transition, and a consignment with one bundle which has the transition `known` or not. -/
def exStashOp : Op := { kind := .transition, contract := 100, nonce := 5 }

def exStashBundle (known : Bool) : Bundle := ⟨.opretFirst, [(0, 105)], if known then [(105, exStashOp)] else []⟩

def exStashCon (pub : PubWitness) (known : Bool) : Consignment where
  data := ⟨{ kind := .genesis }, [{ kind := .extension, nonce := 3 }],
    [⟨⟨.bitcoin, pub⟩, .opret ⟨0, ⟨.opretFirst, 0⟩, exStashBundle known⟩⟩]⟩
  schema := ⟨1⟩
  ifaces := [(⟨7, [], 1⟩, ⟨11, 21, 0⟩)]
  supplements := [⟨100, 0⟩]
  types := [1]
  scripts := [5]
  attachments := [(1, 1)]
  signatures := [(100, [(8, 80)])]

theorem exStashBundle_wf (known : Bool) : (exStashBundle known).WF calcCommit := by
  cases known
  · exact ⟨List.Pairwise.nil, fun k t h => (by cases h), fun k t h => by cases h⟩
  · refine ⟨List.pairwise_singleton _ _, fun k t h => ?_, fun k t h => ?_⟩ <;>
      simp only [exStashBundle, if_true, OMap.get?_cons, OMap.get?_nil] at h <;> split at h <;> cases h <;> rename_i h
    · exact ⟨by rw [h]; decide +kernel, List.Pairwise.nil⟩
    · simp [exStashBundle, OMap.vals, h]

theorem exStashCon_proper (pub : PubWitness) (known : Bool) : (exStashCon pub known).Proper calcCommit where
  genesisKind := rfl
  genesis := List.Pairwise.nil
  extensions e he := by
    simp only [exStashCon, List.mem_singleton] at he
    subst he; exact List.Pairwise.nil
  bundles w hw b hb := by
    simp only [exStashCon, List.mem_singleton] at hw
    subst hw
    simp only [AnchoredBundles.bundles, AnchoredBundles.list, List.map_cons, List.map_nil, List.mem_singleton] at hb
    subst hb; exact exStashBundle_wf known

/-- **C31** (the part which holds). A consignment successfully consumed at any point of any history: at any later
time its genesis, extensions, witnesses (with anchors of each closing method knowing the contract), schema, interfaces, types, scripts, supplements and bundles can be read, the schema has an
implementation for each of the interfaces (under its name), with
everything which the consignment discloses; for the transitions of a bundle this needs that
everyone giving this bundle (the stash before, the consignment itself) knows these transitions.
Missing: transitions of a bundle which the stash already has without them, see `C31_transitions_fails`. -/
theorem C31_consumed_retrievable_partial (H : Commit) (hH : H.Binding) (I : Ids) (M : Mpc) (hM : M.Lawful)
    (before after : List StashEvent) (hb : ∀ e ∈ before, e.Proper H) (ha : ∀ e ∈ after, e.Proper H)
    (con : Consignment) (hc : con.Proper H) (s₀ s₁ s : MemStash)
    (h₀ : runStash H I M before {} = some s₀) (h₁ : s₀.consumeConsignment H I M con = some (s₁, .ok ()))
    (h₂ : runStash H I M after s₁ = some s) :
    (∃ g, s.genesis (con.data.genesis.contractId H) = some g ∧ con.data.genesis.ShownBy H g) ∧
    (∀ e ∈ con.data.extensions, ∃ g, s.extension (e.id H) = some g ∧ e.ShownBy H g) ∧
    (∀ w ∈ con.data.bundles, ∃ y, s.witness w.id = some y ∧ y.id = w.id ∧
      (w.pub.pub.tx?.isSome = true → y.pub.pub.tx?.isSome = true) ∧
      (∀ x ∈ w.anchored.list, y.anchors.knows x.dbc.method (con.data.genesis.contractId H))) ∧
    (∀ w ∈ con.data.bundles, ∀ b ∈ w.anchored.bundles, ∃ g, s.bundle (b.id H) = some g ∧ g.id H = b.id H ∧
      ((∀ v ∈ con.data.bundles, ∀ d ∈ v.anchored.bundles, d.id H = b.id H →
          ∀ k, OMap.contains b.known k = true → OMap.contains d.known k = true) →
        (∀ o, s₀.bundle (b.id H) = some o → ∀ k, OMap.contains b.known k = true → OMap.contains o.known k = true) →
        b.ShownBy H g)) ∧
    (∀ x ∈ con.types, x ∈ s.types) ∧ (∀ x ∈ con.scripts, (s.lib (I.lib x)).isSome = true) ∧
    (∃ d, s.schema (I.schema con.schema) = some d ∧ I.schema d.doc = I.schema con.schema) ∧
    (∀ d ∈ con.ifaces, ∃ e, s.ifaceById (I.iface d.1) = some e ∧ I.iface e = I.iface d.1) ∧
    (∀ x ∈ con.supplements, x ∈ s.supplements x.ref) ∧
    (∀ a ∈ con.attachments, OMap.contains s.attachments a.1 = true) ∧
    (∀ e ∈ con.ifaces, s.Implemented e.2.schemaId e.2.ifaceId) := by
  have g0 := (step_runStash hH I M before hb {} s₀ good_empty h₀).1
  obtain ⟨g1, -⟩ := step_consumeConsignment hH I M s₀ g0 con hc _ _ h₁
  obtain ⟨-, g2⟩ := step_runStash hH I M after ha s₁ s g1 h₂
  obtain ⟨c1, c2, c3, c4, c5, c6, c7, c8, c9, c10, c11⟩ := consumeConsignment_ok hH I M s₀ s₁ () g0 con hc h₁
  have had : Addressed H I s := by
    refine (C30_histories_partial H I M (before ++ .consignment con :: after) [] s s ?_ rfl).1
    have : ∀ (a b : List StashEvent) (x : MemStash),
        runStash H I M (a ++ b) x = (runStash H I M a x).bind (runStash H I M b) := by
      intro a b
      induction a with
      | nil => intro x; rfl
      | cons e a ih =>
        intro x
        simp only [List.cons_append, runStash]
        cases e.exec H I M x with
        | none => rfl
        | some u => exact ih u
    rw [this, h₀]
    simp only [Option.bind_some, runStash, StashEvent.exec, h₁, Option.map_some]
    exact h₂
  refine ⟨?_, ?_, ?_, ?_, fun x hx => g2.types x (c6 x hx), fun x hx => g2.lib _ (c7 x hx), ?_, ?_,
    fun x hx => g2.supplements _ x (c10 x hx), fun a ha' => g2.attachments _ (c5 a ha'),
    fun e he => (c11 e he).grows g2⟩
  · obtain ⟨g, x1, x2⟩ := c1
    obtain ⟨g', y1, y2⟩ := g2.genesis _ _ x1
    exact ⟨g', y1, x2.trans y2⟩
  · intro e he
    obtain ⟨g, x1, x2⟩ := c2 e he
    obtain ⟨g', y1, y2⟩ := g2.extension _ _ x1
    exact ⟨g', y1, x2.trans y2⟩
  · intro w hw
    obtain ⟨y, y1, y2, y3, y4⟩ := c3 w hw
    obtain ⟨y', z1, z2⟩ := g2.witness _ _ y1
    refine ⟨y', z1, z2.id.trans y2, fun hx => z2.tx (y3 hx), fun x hx => ?_⟩
    obtain ⟨p, hp⟩ := consumeConsignment_block I M s₀ s₁ con h₁ w hw x hx
    exact z2.anchors _ _ (y4 x hx p _ hp (hM.block _ _ _ _ hp))
  · intro w hw b hb
    obtain ⟨g, x1, x2, x3⟩ := c4 w hw b hb
    obtain ⟨g', y1, y2⟩ := g2.bundle _ _ x1
    exact ⟨g', y1, y2.id.trans x2, fun hall hk => (x3 hall hk).trans y2⟩
  · obtain ⟨d, hd⟩ := Option.isSome_iff_exists.mp c8
    obtain ⟨e, he, -⟩ := g2.schema _ d hd
    exact ⟨e, he, had.schema _ e he⟩
  · intro d hd
    obtain ⟨e, he⟩ := Option.isSome_iff_exists.mp (c9 d hd)
    have := g2.iface _ e he
    exact ⟨e, this, had.iface _ e this⟩

example : exMpc.Lawful := ⟨fun _ _ _ p h => by cases h; simp [OMap.keys]⟩

/-- The consignment of the examples is consumed after a non-trivial history, and followed by another one. -/
example : ((runStash calcCommit exIds exMpc [.kit { schemata := [⟨1⟩] }, .secretSeal ⟨.bitcoin, .opretFirst, none, 0, 6⟩] {}).bind
      (fun s => s.consumeConsignment calcCommit exIds exMpc (exStashCon (.txid 1) true))).map
        (fun r => ((runStash calcCommit exIds exMpc [.consignment (exStashCon (.txid 1) true)] r.1).isSome, r.2.toOption))
    = some (true, some ()) := by decide +kernel

/-- Nothing once readable is lost or disclosed less later, also when events fail in the middle. -/
theorem C31_nothing_lost (H : Commit) (hH : H.Binding) (I : Ids) (M : Mpc) (before after : List StashEvent)
    (hb : ∀ e ∈ before, e.Proper H) (ha : ∀ e ∈ after, e.Proper H) (s t : MemStash)
    (h₀ : runStash H I M before {} = some s) (h₁ : runStash H I M after s = some t) : Grows H s t :=
  (step_runStash hH I M after ha s t (step_runStash hH I M before hb {} s good_empty h₀).1 h₁).2

/-- **C31** fails for transitions: two consignments with the same bundle are consumed without an error, and the transition
which the second one brings can't be read afterwards. -/
theorem C31_transitions_fails : ∃ (s₁ s₂ : MemStash) (b : Bundle),
    (exStashCon (.txid 1) false).Proper calcCommit ∧ (exStashCon (.txid 1) true).Proper calcCommit ∧
    ({} : MemStash).consumeConsignment calcCommit exIds exMpc (exStashCon (.txid 1) false) = some (s₁, .ok ()) ∧
    s₁.consumeConsignment calcCommit exIds exMpc (exStashCon (.txid 1) true) = some (s₂, .ok ()) ∧
    OMap.get? (exStashBundle true).known 105 = some exStashOp ∧
    s₂.bundle ((exStashBundle true).id calcCommit) = some b ∧ OMap.get? b.known 105 = none := by
  refine ⟨_, _, exStashBundle false, exStashCon_proper _ _, exStashCon_proper _ _, rfl, rfl, ?_, ?_, ?_⟩
  · decide +kernel
  · decide +kernel
  · decide +kernel

/-- **C31**: a consignment can't be consumed when the stash has the witness transaction in full and the
consignment has only its id. -/
theorem C31_known_transaction_fails : ∃ (s₁ s₂ : MemStash) (e : StashErr),
    ({} : MemStash).consumeConsignment calcCommit exIds exMpc (exStashCon (.tx ⟨1, 0⟩) true) = some (s₁, .ok ()) ∧
    s₁.consumeConsignment calcCommit exIds exMpc (exStashCon (.txid 1) true) = some (s₂, .error e) ∧
    (exStashCon (.tx ⟨1, 0⟩) true).data.bundles.map WitnessBundle.id =
      (exStashCon (.txid 1) true).data.bundles.map WitnessBundle.id := by
  exact ⟨_, _, .merge (.txidMismatch 1 1), rfl, rfl, rfl⟩

/-! ## C32 -/

/-- **C32** (one import). Whatever is imported and whether it succeeds or not: each stored signature was stored before or is an
imported one by an identity above the malicious level; each signature stored before is there, or replaced by an
imported one of the same content and identity; trust levels don't change; and if the import succeeds all
signatures by identities above the malicious level are stored. -/
theorem C32_import_signatures (s t : MemStash) (c : Nat) (l : List (Nat × Nat)) (r : Except StashErr Unit)
    (h : s.importSigs c l = some (t, r)) :
    (∀ c' i sg, t.sig? c' i = some sg → s.sig? c' i = some sg ∨
      (c' = c ∧ (i, sg) ∈ l ∧ (s.getTrust i).num > TrustLevel.malicious.num)) ∧
    (∀ c' i sg, s.sig? c' i = some sg → t.sig? c' i = some sg ∨
      ∃ sg', c' = c ∧ (i, sg') ∈ l ∧ (s.getTrust i).num > TrustLevel.malicious.num ∧ t.sig? c' i = some sg') ∧
    (∀ i, t.getTrust i = s.getTrust i) ∧
    ((l.map Prod.fst).Nodup → (∃ u, r = .ok u) → ∀ i sg, (i, sg) ∈ l →
      (s.getTrust i).num > TrustLevel.malicious.num → t.sig? c i = some sg) := by
  have num : ∀ t : TrustLevel, t.shouldAccept = true ↔ t.num > TrustLevel.malicious.num := by
    intro t; cases t <;> simp [TrustLevel.shouldAccept, TrustLevel.num]
  have origin : ∀ c' i sg, t.sig? c' i = some sg → s.sig? c' i = some sg ∨
      (c' = c ∧ (i, sg) ∈ l ∧ (s.getTrust i).num > TrustLevel.malicious.num) := by
    intro c' i sg hsg
    simp only [importSigs] at h
    split at h
    · rename_i prev hp
      cases h
      simp only [sig?, sigsFor] at hsg ⊢
      rw [OMap.get?_insert] at hsg
      split at hsg
      · rename_i hc
        subst hc
        rcases pushSigs_origin _ _ _ _ _ hsg with h' | ⟨h1, h2⟩
        · rw [hp]; exact .inl h'
        · exact .inr ⟨rfl, h1, (num _).mp h2⟩
      · exact .inl hsg
    · rename_i hp
      split at h
      · cases h
        simp only [sig?, sigsFor] at hsg ⊢
        rw [OMap.get?_insert] at hsg
        split at hsg
        · rename_i hc
          subst hc
          rcases pushSigs_origin _ _ _ _ _ hsg with h' | ⟨h1, h2⟩
          · cases h'
          · exact .inr ⟨rfl, h1, (num _).mp h2⟩
        · exact .inl hsg
      · cases h
        exact .inl hsg
  refine ⟨origin, ?_, ?_, ?_⟩
  · intro c' i sg hsg
    have hk := (keeps_exec calcCommit exIds s t (.sigs c l) (by
      simp only [StashWrite.exec, h, Option.map_some])).sigs c' i (by rw [hsg]; rfl)
    obtain ⟨sg', hsg'⟩ := Option.isSome_iff_exists.mp hk
    rcases origin c' i sg' hsg' with h' | ⟨h1, h2, h3⟩
    · rw [hsg] at h'; cases h'; exact .inl hsg'
    · exact .inr ⟨sg', h1, h2, h3, hsg'⟩
  · intro i
    simp only [importSigs] at h
    split at h
    · cases h; exact pushSigs_trust _ _ _ _
    · split at h <;> cases h <;> exact pushSigs_trust _ _ _ _
  · rintro hn ⟨u, rfl⟩ i sg hi ht
    have ha : ((OMap.get? s.identities i).getD TrustLevel.default).shouldAccept = true := (num _).mpr ht
    simp only [importSigs] at h
    split at h
    · split at h
      · rename_i hok
        cases h
        simp only [sig?, sigsFor, OMap.get?_insert_self, Option.bind_some]
        exact pushSigs_complete _ _ _ hn hok i sg hi ha
      · cases h
    · split at h
      · rename_i hok
        cases h
        simp only [sig?, sigsFor, OMap.get?_insert_self, Option.bind_some]
        exact pushSigs_complete _ _ _ hn (Bool.and_eq_true_iff.mp hok).1 i sg hi ha
      · cases h

/-- The accepted signature is stored, the one by the malicious identity isn't. -/
example : ∃ s t, runWrites calcCommit exIds [.trust 9 .malicious] {} = some s ∧
    s.importSigs 1 [(8, 80), (9, 90)] = some (t, .ok ()) ∧ t.sig? 1 8 = some 80 ∧ t.sig? 1 9 = none :=
  ⟨_, _, rfl, rfl, by decide +kernel, by decide +kernel⟩

theorem sigs_exec_other (H : Commit) (I : Ids) (s t : MemStash) (w : StashWrite) (h : w.exec H I s = some t)
    (hw : ∀ c l, w ≠ .sigs c l) : t.sigs = s.sigs := by
  cases w with
  | sigs c l => exact absurd rfl (hw c l)
  | schema d =>
    simp only [StashWrite.exec, replaceSchema] at h
    split at h
    · cases h; rfl
    · split at h <;> cases h <;> rfl
  | iface d =>
    simp only [StashWrite.exec, replaceIface] at h
    split at h
    · cases h; rfl
    · split at h <;> cases h <;> rfl
  | iimpl x =>
    simp only [StashWrite.exec, replaceIimpl] at h
    split at h
    · split at h <;> cases h <;> rfl
    · cases h
  | supplement x =>
    simp only [StashWrite.exec, addSupplement] at h
    split at h
    · split at h <;> cases h <;> rfl
    · split at h <;> cases h <;> rfl
  | genesis g =>
    simp only [StashWrite.exec, replaceGenesis] at h
    split at h <;> cases h <;> rfl
  | trust i l => cases h; rfl
  | extension e => cases h; rfl
  | bundle e => cases h; rfl
  | witness e => cases h; rfl
  | attachment i e => cases h; rfl
  | types e => cases h; rfl
  | lib e => cases h; rfl
  | secretSeal e => cases h; rfl

/-- **C32** (any history). Each signature in the stash was given to some import of signatures of this content, at
a moment when the level of its identity was above malicious. -/
theorem C32_history (H : Commit) (I : Ids) (ws : List StashWrite) (s : MemStash)
    (h : runWrites H I ws {} = some s) (c i sg : Nat) (hs : s.sig? c i = some sg) :
    ∃ (pre post : List StashWrite) (l : List (Nat × Nat)) (s₀ : MemStash),
      ws = pre ++ .sigs c l :: post ∧ runWrites H I pre {} = some s₀ ∧ (i, sg) ∈ l ∧
      (s₀.getTrust i).num > TrustLevel.malicious.num := by
  have key : ∀ (ws : List StashWrite) (s₁ s : MemStash), runWrites H I ws s₁ = some s → s.sig? c i = some sg →
      s₁.sig? c i = some sg ∨ ∃ (pre post : List StashWrite) (l : List (Nat × Nat)) (s₀ : MemStash),
        ws = pre ++ .sigs c l :: post ∧ runWrites H I pre s₁ = some s₀ ∧ (i, sg) ∈ l ∧
        (s₀.getTrust i).num > TrustLevel.malicious.num := by
    intro ws
    induction ws with
    | nil => intro s₁ s h hs; cases h; exact .inl hs
    | cons w ws ih =>
      intro s₁ s h hs
      obtain ⟨u, hu, h⟩ := Option.bind_eq_some_iff.mp h
      rcases ih u s h hs with h' | ⟨pre, post, l, s₀, e1, e2, e3, e4⟩
      · cases w with
        | sigs c' l =>
          obtain ⟨r, hr⟩ := map_fst_some (x := s₁.importSigs c' l) hu
          rcases (C32_import_signatures s₁ u c' l r hr).1 c i sg h' with h' | ⟨rfl, h2, h3⟩
          · exact .inl h'
          · exact .inr ⟨[], ws, l, s₁, rfl, rfl, h2, h3⟩
        | _ =>
          refine .inl ?_
          have := sigs_exec_other H I s₁ u _ hu (by simp)
          simpa [sig?, sigsFor, this] using h'
      · refine .inr ⟨w :: pre, post, l, s₀, by rw [e1]; rfl, ?_, e3, e4⟩
        simp only [runWrites, hu, Option.bind_some, e2]
  rcases key ws {} s h hs with h' | h'
  · cases h'
  · exact h'

example : ∃ s, runWrites calcCommit exIds exWrites {} = some s ∧ s.sig? 1 8 = some 80 := by
  refine ⟨(runWrites calcCommit exIds exWrites {}).get exWrites_run, by simp, ?_⟩
  decide +kernel

/-! ## C33 -/

/-- **C33** (secret seals). A stored seal is found by its secret after any later history; it is listed; and under
collision-free commitments the seal found is the stored one. A seal found for a secret is always a stored one having this
secret. -/
theorem C33_secret_found (H : Commit) (I : Ids) (before after : List StashWrite) (x : Seal) (s₀ s₁ s : MemStash)
    (b : Bool) (_h₀ : runWrites H I before {} = some s₀) (h₁ : s₀.addSecretSeal x = some (s₁, .ok b))
    (h₂ : runWrites H I after s₁ = some s) :
    x ∈ s.secretSeals ∧ (∃ y, s.sealSecret H (H.sealHash x) = some y ∧ H.sealHash y = H.sealHash x) ∧
    (H.Binding → s.sealSecret H (H.sealHash x) = some x) ∧
    (∀ sec y, s.sealSecret H sec = some y → y ∈ s.secretSeals ∧ H.sealHash y = sec) := by
  have hx : x ∈ s.secretSeals := by
    refine (C30_monotone_partial H I after s₁ s h₂).seals x ?_
    cases h₁; exact OSet.mem_insert.mpr (.inl rfl)
  have hfound : ∃ y, s.sealSecret H (H.sealHash x) = some y ∧ H.sealHash y = H.sealHash x := by
    cases hf : s.sealSecret H (H.sealHash x) with
    | none =>
      have := List.find?_eq_none.mp hf x hx
      simp at this
    | some y => exact ⟨y, rfl, by simpa using List.find?_some hf⟩
  refine ⟨hx, hfound, fun hH => ?_, fun sec y hy => ⟨List.mem_of_find?_eq_some hy, by simpa using List.find?_some hy⟩⟩
  obtain ⟨y, h1, h2⟩ := hfound
  rw [h1, hH.seal_inj _ _ h2]

example : ∃ s₀ s₁ s, runWrites calcCommit exIds exWrites {} = some s₀ ∧
    s₀.addSecretSeal ⟨.bitcoin, .opretFirst, none, 2, 9⟩ = some (s₁, .ok true) ∧
    runWrites calcCommit exIds [.lib 6, .secretSeal ⟨.bitcoin, .opretFirst, none, 0, 1⟩] s₁ = some s ∧
    s.sealSecret calcCommit 1009 = some ⟨.bitcoin, .opretFirst, none, 2, 9⟩ := by
  refine ⟨(runWrites calcCommit exIds exWrites {}).get exWrites_run, _, _, by simp, rfl, rfl, ?_⟩
  decide +kernel

/-- **C33** (resolving terminals). Resolving the terminals of a consignment always succeeds and changes nothing but
hidden seals of its bundles: a hidden seal becomes visible iff its bundle with its secret is among the
terminals and a seal with this secret is stored, and then it is this stored seal. -/
theorem C33_resolve_terminals (H : Commit) (hH : H.Binding) (s : MemStash) (con : Consignment)
    (hw : ∀ w ∈ con.data.bundles, w.WF) :
    ∃ ws, s.resolveSecrets H con = .ok { con with data := { con.data with bundles := ws } } ∧
      ws.length = con.data.bundles.length ∧
      ∃ stored : Nat → Option Seal,
        (∀ sec x, stored sec = some x ↔ (x ∈ s.secretSeals ∧ H.sealHash x = sec)) ∧
        ∀ (j : Nat) (w : WitnessBundle), con.data.bundles[j]? = some w → ∃ w', ws[j]? = some w' ∧ w'.pub = w.pub ∧
          w'.anchored.list.length = w.anchored.list.length ∧
          ∀ (i : Nat) (c : ClientBundle), w.anchored.list[i]? = some c → ∃ d, w'.anchored.list[i]? = some d ∧
            ClientBundle.Disclosed H
              (fun sec => if (c.bundle.id H, sec) ∈ con.terminals then stored sec else none) c d := by
  have hstored : ∀ sec x, s.sealSecret H sec = some x ↔ (x ∈ s.secretSeals ∧ H.sealHash x = sec) := by
    intro sec x
    constructor
    · intro h; exact ⟨List.mem_of_find?_eq_some h, by simpa using List.find?_some h⟩
    · rintro ⟨h1, h2⟩
      cases hf : s.sealSecret H sec with
      | none =>
        have := List.find?_eq_none.mp hf x h1
        simp [h2] at this
      | some y =>
        have hy : H.sealHash y = sec := by simpa using List.find?_some hf
        rw [hH.seal_inj y x (hy.trans h2.symm)]
  have htot : ∀ (terms : List (Nat × Nat)) (w : WitnessBundle), ∃ w',
      w.revealTerminals H (fun sec => Except.ok (ε := StashErr) (s.sealSecret H sec)) terms = .ok w' := by
    intro terms
    induction terms with
    | nil => intro w; exact ⟨w, rfl⟩
    | cons e terms ih =>
      intro w
      obtain ⟨bid, sec⟩ := e
      simp only [WitnessBundle.revealTerminals]
      cases s.sealSecret H sec with
      | none => exact ih w
      | some sl => exact ih _
  have htot2 : ∀ l : List WitnessBundle, ∃ ws,
      revealTerminalSeals H (fun sec => Except.ok (ε := StashErr) (s.sealSecret H sec)) con.terminals l = .ok ws := by
    intro l
    induction l with
    | nil => exact ⟨[], rfl⟩
    | cons w l ih =>
      obtain ⟨w', hw'⟩ := htot con.terminals w
      obtain ⟨ws, hws⟩ := ih
      exact ⟨w' :: ws, by simp only [revealTerminalSeals, hw', hws]⟩
  obtain ⟨ws, hws⟩ := htot2 con.data.bundles
  obtain ⟨h1, h2⟩ := C18_reveal_terminals H hH _ (fun h x hx => by
    simp only [Except.ok.injEq] at hx; exact ((hstored h x).mp hx).2) con.terminals con.data.bundles ws hw hws
  refine ⟨ws, by simp only [resolveSecrets, hws], h1, s.sealSecret H, hstored, ?_⟩
  intro j w hj
  exact h2 j w hj

example : ∀ w ∈ (exStashCon (.txid 1) true).data.bundles, w.WF := by
  intro w hw
  simp only [exStashCon, List.mem_singleton] at hw
  subst hw; rfl

/-! ## C62 -/

theorem implFor_isSome (I : Ids) (s : MemStash) (ids : List Nat) (si : SchemaIfaces) :
    (implFor I s ids si).isSome = true ↔ s.Supports I ids si := by
  simp only [implFor, Option.isSome_or, Bool.or_eq_true, List.find?_isSome, List.findSome?_isSome_iff, Supports]
  constructor
  · rintro (⟨x, hx, h⟩ | ⟨i, hi, h⟩)
    · exact ⟨x, hx, .inl (by simpa using h)⟩
    · cases hd : s.ifaceById i with
      | none => simp [hd] at h
      | some d =>
        simp only [hd, Option.bind_some, findAbstractable, Option.isSome_or, Bool.or_eq_true,
          List.findSome?_isSome_iff, SchemaIfaces.get, List.find?_isSome] at h
        rcases h with ⟨x, hx, h⟩ | ⟨p, hp, x, hx, h⟩
        · exact ⟨x, hx, .inr ⟨i, hi, d, hd, .inl (by simpa using h)⟩⟩
        · exact ⟨x, hx, .inr ⟨i, hi, d, hd, .inr (by
            simp only [decide_eq_true_eq] at h; rw [h]; simpa using hp)⟩⟩
  · rintro ⟨x, hx, h | ⟨i, hi, d, hd, h⟩⟩
    · exact .inl ⟨x, hx, by simpa using h⟩
    · refine .inr ⟨i, hi, ?_⟩
      simp only [hd, Option.bind_some, findAbstractable, Option.isSome_or, Bool.or_eq_true,
          List.findSome?_isSome_iff, SchemaIfaces.get, List.find?_isSome]
      rcases h with h | h
      · exact .inl ⟨x, hx, by simpa using h⟩
      · exact .inr ⟨_, List.mem_reverse.mpr h, x, hx, by simp⟩

/-- **C62.** The schemata listed for a class of interfaces are exactly the stored ones supporting the class, and the contracts
listed are exactly the stored ones issued under a supporting schema; an implementation is found for a schema iff it
supports the class, and it is one of its implementations. -/
theorem C62_listing_by_interface (I : Ids) (s : MemStash) (ids : List Nat) :
    (∀ si, si ∈ s.schemataBy I ids ↔ si ∈ OMap.vals s.schemata ∧ s.Supports I ids si) ∧
    (∀ g, g ∈ s.genesesBy I ids ↔ g ∈ OMap.vals s.geneses ∧
      ∃ si ∈ OMap.vals s.schemata, s.Supports I ids si ∧ I.schema si.doc = I.genesisSchema g) ∧
    (∀ si, (∃ x, s.implFor I ids si = some x) ↔ s.Supports I ids si) ∧
    (∀ si x, s.implFor I ids si = some x → x ∈ OMap.vals si.iimpls) := by
  have h1 : ∀ si, si ∈ s.schemataBy I ids ↔ si ∈ OMap.vals s.schemata ∧ s.Supports I ids si := by
    intro si
    simp only [schemataBy, List.mem_filter, implFor_isSome]
  refine ⟨h1, fun g => ?_, fun si => ?_, fun si x hx => ?_⟩
  · simp only [genesesBy, List.mem_flatMap, h1, List.mem_filter, decide_eq_true_eq]
    constructor
    · rintro ⟨si, ⟨a, b⟩, c, d⟩; exact ⟨c, si, a, b, d⟩
    · rintro ⟨c, si, a, b, d⟩; exact ⟨si, ⟨a, b⟩, c, d⟩
  · rw [← implFor_isSome, Option.isSome_iff_exists]
  · simp only [implFor, Option.or_eq_some_iff] at hx
    rcases hx with hx | ⟨-, hx⟩
    · exact List.mem_of_find?_eq_some hx
    · obtain ⟨i, -, hi⟩ := List.exists_of_findSome?_eq_some hx
      obtain ⟨d, -, hd⟩ := Option.bind_eq_some_iff.mp hi
      simp only [findAbstractable, Option.or_eq_some_iff] at hd
      rcases hd with hd | ⟨-, hd⟩
      · exact List.mem_of_find?_eq_some hd
      · obtain ⟨p, -, hp⟩ := List.exists_of_findSome?_eq_some hd
        exact List.mem_of_find?_eq_some hp

/-- The contract is listed for the interface 22, which inherits the implemented interface 21. -/
example : ∃ s, runWrites calcCommit exIds exWrites {} = some s ∧
    s.genesesBy exIds [22] = [{ kind := .genesis }] ∧ s.genesesBy exIds [23] = [] := by
  refine ⟨(runWrites calcCommit exIds exWrites {}).get exWrites_run, by simp, ?_, ?_⟩ <;> decide +kernel

end Rgb.Props
