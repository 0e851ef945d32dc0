import Verif.Spec.Issue
import Verif.Lemmas.Compose
import Verif.Lemmas.BuilderFinal
import Verif.Lemmas.PassStore
import Verif.Lemmas.ExportSchema

/-! Lemmas for C81 and C82: builders made by the stock, contracts issued with them. -/

namespace Rgb
open MemStash

theorem PRun.globalsSorted {a b : OpBuilder} {ps : List Prim} (r : PRun a ps b) (h : OMap.Sorted a.globals) : OMap.Sorted b.globals := by
  induction r with
  | nil => exact h
  | snoc _ s ih =>
    cases s with
    | tag => exact ih
    | md => exact ih
    | put => rw [(OpBuilder.setSlots_rest _ _ _).2.1]; exact ih
    | glob ty v m hm _ =>
      show OMap.Sorted m
      unfold OpBuilder.pushGlobal at hm
      split at hm
      · split at hm
        · cases hm
        · cases hm; exact ih.insert _ _
      · rw [insertMax_ok] at hm
        obtain ⟨-, rfl⟩ := hm
        exact ih.insert _ _

theorem PRun.tagsSorted {a b : OpBuilder} {ps : List Prim} (r : PRun a ps b) (h : OMap.Sorted a.tags) (hl : a.tags.length ≤ 255) :
    OMap.Sorted b.tags ∧ b.tags.length ≤ 255 := by
  induction r with
  | nil => exact ⟨h, hl⟩
  | snoc _ s ih =>
    cases s with
    | glob => exact ih
    | md => exact ih
    | put => rw [(OpBuilder.setSlots_rest _ _ _).1]; exact ih
    | tag ty t hg hl =>
      refine ⟨ih.1.insert _ _, Nat.le_trans (OMap.length_insert_le _ _ _) ?_⟩
      simp only [tinyMax] at hl
      omega

theorem PRun.globalTypes {a b : OpBuilder} {ps : List Prim} (r : PRun a ps b) (h : ∀ e ∈ a.globals, OMap.contains a.schema.globalTypes e.1 = true) :
    ∀ e ∈ b.globals, OMap.contains a.schema.globalTypes e.1 = true := by
  induction r with
  | nil => exact h
  | snoc r s ih =>
    rename_i b1 c1 _ _
    cases s with
    | tag => exact ih
    | md => exact ih
    | put => rw [(OpBuilder.setSlots_rest _ _ _).2.1]; exact ih
    | glob ty v m hm hk =>
      have hs : b1.schema = a.schema := r.sameDocs.1.symm
      rw [hs] at hk
      have key : ∀ x e, e ∈ OMap.insert b1.globals ty x → OMap.contains a.schema.globalTypes e.1 = true := by
        intro x e he
        rcases OMap.mem_of_insert he with rfl | he
        · exact hk
        · exact ih e he
      show ∀ e ∈ m, _
      unfold OpBuilder.pushGlobal at hm
      split at hm
      · split at hm
        · cases hm
        · cases hm; exact key _
      · rw [insertMax_ok] at hm
        obtain ⟨-, rfl⟩ := hm
        exact key _

theorem complete_sorted {E : BEnv} {b : OpBuilder} {ins : List (Opout × RState)} {a : Assignments} (hi : b.Inv)
    (h : b.complete E ins = .ok a) : OMap.Sorted a := by
  simp only [OpBuilder.complete, except_bind_ok] at h
  obtain ⟨a1, h1, a2, h2, a3, h3, h4⟩ := h
  obtain ⟨g0, g1⟩ := OpBuilder.completeAllFungible_ok h1
  rw [OpBuilder.extendMax_ok h4, OpBuilder.extendMax_ok h3, OpBuilder.extendMax_ok h2]
  exact OMap.Sorted.extend (OMap.Sorted.extend (OMap.Sorted.extend (sorted_of_keys g0 (hi.wf .fungible).sorted) _) _) _

/-! ### The stash -/

/-- The maps of documents are in order. -/
structure DocsSorted (s : MemStash) : Prop where
  types : OSet.Sorted s.types
  libs : OMap.Sorted s.libs
  schemata : OMap.Sorted s.schemata
  iimpls : ∀ i si, s.schema i = some si → OMap.Sorted si.iimpls

theorem docsSorted_exec {H : Commit} (I : Ids) (s t : MemStash) (hs : DocsSorted s) (w : StashWrite) (h : w.exec H I s = some t) : DocsSorted t := by
  cases w with
  | schema d =>
    simp only [StashWrite.exec, replaceSchema] at h
    split at h
    · cases h; exact hs
    · split at h <;> cases h
      · exact hs
      · refine ⟨hs.types, hs.libs, hs.schemata.insert _ _, fun i si hi => ?_⟩
        simp only [MemStash.schema, OMap.get?_insert] at hi
        split at hi
        · cases hi; exact .nil
        · exact hs.iimpls _ _ hi
  | iface d =>
    simp only [StashWrite.exec, replaceIface] at h
    split at h
    · cases h; exact hs
    · split at h <;> cases h <;> exact ⟨hs.types, hs.libs, hs.schemata, hs.iimpls⟩
  | iimpl x =>
    simp only [StashWrite.exec, replaceIimpl] at h
    split at h
    · rename_i si d e1 e2
      split at h <;> cases h
      · exact hs
      · refine ⟨hs.types, hs.libs, hs.schemata.insert _ _, fun i si' hi => ?_⟩
        simp only [MemStash.schema, OMap.get?_insert] at hi
        split at hi
        · cases hi; exact (hs.iimpls _ _ e1).insert _ _
        · exact hs.iimpls _ _ hi
    · cases h
  | trust i t => cases h; exact ⟨hs.types, hs.libs, hs.schemata, hs.iimpls⟩
  | supplement x =>
    simp only [StashWrite.exec, addSupplement] at h
    split at h
    · split at h <;> cases h <;> exact ⟨hs.types, hs.libs, hs.schemata, hs.iimpls⟩
    · split at h <;> cases h <;> exact ⟨hs.types, hs.libs, hs.schemata, hs.iimpls⟩
  | genesis g =>
    simp only [StashWrite.exec, replaceGenesis] at h
    split at h <;> cases h <;> exact ⟨hs.types, hs.libs, hs.schemata, hs.iimpls⟩
  | extension e => cases h; exact ⟨hs.types, hs.libs, hs.schemata, hs.iimpls⟩
  | bundle b => cases h; exact ⟨hs.types, hs.libs, hs.schemata, hs.iimpls⟩
  | witness w => cases h; exact ⟨hs.types, hs.libs, hs.schemata, hs.iimpls⟩
  | attachment i b => cases h; exact ⟨hs.types, hs.libs, hs.schemata, hs.iimpls⟩
  | types ts => cases h; exact ⟨OSet.Sorted.extend hs.types _, hs.libs, hs.schemata, hs.iimpls⟩
  | lib l => cases h; exact ⟨hs.types, hs.libs.insert _ _, hs.schemata, hs.iimpls⟩
  | sigs c l =>
    simp only [StashWrite.exec, importSigs] at h
    split at h
    · cases h; exact ⟨hs.types, hs.libs, hs.schemata, hs.iimpls⟩
    · split at h <;> cases h <;> exact ⟨hs.types, hs.libs, hs.schemata, hs.iimpls⟩
  | secretSeal x => cases h; exact ⟨hs.types, hs.libs, hs.schemata, hs.iimpls⟩

theorem Stock.Kept.docsSorted {H : Commit} {I : Ids} {k : Stock} (h : Kept H I k) : DocsSorted k.stash :=
  writes_keep (Φ := DocsSorted) (fun s t w hs ht => docsSorted_exec I s t hs w ht) h.writes ⟨.nil, .nil, .nil, by intro _ _ h; cases h⟩

theorem OMap.insert_known {κ ν : Type} [Key κ] [DecidableEq κ] {m : OMap κ ν} (hm : OMap.Sorted m) {a : κ} {v : ν} (h : OMap.get? m a = some v) :
    OMap.insert m a v = m := by
  refine OMap.Sorted.ext (hm.insert _ _) hm (fun b => ?_)
  rw [OMap.get?_insert]
  split
  · rename_i e; subst e; exact h.symm
  · rfl

/-- What the builder of a contract was made of. -/
theorem contractBuilder_ok {E : CEnv} {s : MemStash} {issuer i : Nat} {r : IfaceRef} {b : Issuing}
    (h : Stock.contractBuilder E s issuer i r = .ok b) :
    ∃ si, s.schema i = some si ∧ b.schema = si.doc ∧ Stock.ifaceRef s r = .ok b.iface ∧ si.get (E.I.iface b.iface) = some b.iimpl ∧
      Stock.extract E.S s si.doc [b.iface] = .ok (b.types, b.scripts) ∧
      b.builder = .new false issuer (E.ifaceOf b.iface) (E.schemaOf b.schema) (E.implOf b.iimpl) := by
  unfold Stock.contractBuilder at h
  obtain ⟨si, h1, h⟩ := except_bind_ok.1 h
  obtain ⟨d, h2, h⟩ := except_bind_ok.1 h
  obtain ⟨x, h3, h⟩ := except_bind_ok.1 h
  cases h4 : Stock.extract E.S s si.doc [d] with
  | error e => simp only [h4] at h; cases h
  | ok p =>
    obtain ⟨ts, ls⟩ := p
    simp only [h4] at h
    cases h
    exact ⟨si, orErr_ok.1 h1, rfl, h2, orErr_ok.1 h3, h4, rfl⟩

theorem ifaceRef_found {H : Commit} {I : Ids} {s : MemStash} (ha : Addressed H I s) (hi : OMap.Sorted s.ifaces) {r : IfaceRef} {d : IfaceDoc} (h : Stock.ifaceRef s r = .ok d) :
    s.ifaceById (I.iface d) = some d := by
  cases r with
  | id i =>
    have := orErr_ok.1 h
    rw [ha.iface _ _ this]; exact this
  | name n =>
    have := orErr_ok.1 h
    obtain ⟨⟨j, d'⟩, h1, rfl⟩ := List.mem_map.mp (List.mem_of_find?_eq_some this)
    have h2 := hi.get?_of_mem h1
    have h3 := ha.iface _ _ h2
    subst h3
    exact h2

theorem get_found {I : Ids} {s : MemStash} (hs : Impls s) {i j : Nat} {si : SchemaIfaces} {x : IimplDoc} {d : IfaceDoc} (h1 : s.schema i = some si)
    (h2 : si.get j = some x) (h3 : s.ifaceById j = some d) : x ∈ OMap.vals si.iimpls ∧ (d.name, x) ∈ si.iimpls ∧ x.schemaId = i ∧ x.ifaceId = j := by
  have h4 := List.mem_of_find?_eq_some h2
  have h5 := List.find?_some h2
  simp only [decide_eq_true_eq] at h5
  obtain ⟨⟨n, x'⟩, h6, rfl⟩ := List.mem_map.mp h4
  obtain ⟨-, h7⟩ := hs.impls _ _ h1
  obtain ⟨h8, d', h9, h10⟩ := h7 _ h6
  simp only at h5 h8 h9 h10
  rw [h5, h3] at h9
  cases h9
  subst h10
  exact ⟨h4, h6, h8, h5⟩

/-- Importing documents which are known changes nothing. -/
theorem kit_known {H : Commit} {I : Ids} {s t : MemStash} (ha : Addressed H I s) (hi : Impls s) (hd : DocsSorted s) {sd : SchemaDoc} {d : IfaceDoc}
    {x : IimplDoc} {types : List Nat} {scripts : List Nat} {o : Unit}
    (h1 : ∃ si, s.schema (I.schema sd) = some si ∧ (d.name, x) ∈ si.iimpls ∧ x.schemaId = I.schema sd ∧ x.ifaceId = I.iface d)
    (h2 : s.ifaceById (I.iface d) = some d) (h3 : ∀ ty ∈ types, ty ∈ s.types) (h4 : ∀ l ∈ scripts, ∃ i, s.lib i = some l)
    (h : s.consumeKit I { ifaces := [d], schemata := [sd], iimpls := [x], types := types, scripts := scripts } = some (t, .ok o)) : t = s := by
  obtain ⟨si, g1, g2, g3, g4⟩ := h1
  obtain ⟨u, a, k1, h5⟩ := bind_ok h
  cases k1
  have e1 : OSet.extend s.types types = s.types :=
    OSet.Sorted.ext (OSet.Sorted.extend hd.types _) hd.types (fun y => by rw [OSet.mem_extend]; exact ⟨fun h => h.elim id (h3 y), .inl⟩)
  simp only [e1] at h5
  obtain ⟨u, a, k2, h6⟩ := bind_ok h5
  have e2 : u = s := by
    have key : ∀ (l : List Nat), (∀ y ∈ l, y ∈ scripts) → ∀ r, SR.each (replaceLib I) l s = some (u, r) → u = s := by
      intro l
      induction l with
      | nil => intro _ r h; cases h; rfl
      | cons y l ih =>
        intro hl r h
        obtain ⟨i, hli⟩ := h4 y (hl y (by simp))
        have hI := ha.lib _ _ hli
        subst hI
        have : s.replaceLib I y = some (s, .ok (!OMap.contains s.libs (I.lib y))) := by
          simp only [replaceLib, OMap.insert_known hd.libs hli]
        simp only [SR.each, this, SR.bind] at h
        exact ih (fun z hz => hl z (by simp [hz])) r h
    exact key scripts (fun _ h => h) _ k2
  subst e2
  obtain ⟨v, a, k3, h7⟩ := bind_ok h6
  have e3 : v = u := by

    simp only [SR.each, replaceSchema, OMap.contains_iff.mpr ⟨_, g1⟩, if_true, SR.bind] at k3
    cases k3; rfl
  subst e3
  obtain ⟨u, a, k4, h8⟩ := bind_ok h7
  have e4 : u = v := by
    simp only [SR.each, replaceIface, OMap.contains_iff.mpr ⟨_, h2⟩, if_true, SR.bind] at k4
    cases k4; rfl
  subst e4
  obtain ⟨v, a, k5, h9⟩ := bind_ok h8
  have e5 : v = u := by
    have hs := (hd.iimpls _ _ g1).get?_of_mem g2
    simp only [MemStash.schema] at g1
    simp only [MemStash.ifaceById] at h2
    simp only [SR.each, replaceIimpl, g3, g4, g1, h2, OMap.insert_known (hd.iimpls _ _ g1) hs] at k5
    have hsi : ({ doc := si.doc, iimpls := si.iimpls } : SchemaIfaces) = si := rfl
    rw [hsi, OMap.insert_known hd.schemata g1] at k5
    split at k5
    · cases k5
    · cases k5; rfl
  subst e5
  obtain ⟨u, a, k6, h10⟩ := bind_ok h9
  cases k6
  cases h10
  rfl

/-! ### The state -/

theorem genesis_known {m : OMap GlobalOut Nat} (hm : OMap.Sorted m) {opid nonce : Nat} {vals : List Nat}
    (h : ∀ key, OMap.get? m key = gitemAt opid nonce 0 .genesis vals key) :
    m = vals.mapIdx (fun i x => (⟨opid, nonce, i, .genesis⟩, x)) := by
  have hs : ∀ (l : List Nat) (n : Nat), OMap.Sorted (ν := Nat) (l.mapIdx (fun i x => ((⟨opid, nonce, i + n, .genesis⟩ : GlobalOut), x))) := by
    intro l
    induction l with
    | nil => intro n; exact .nil
    | cons a l ih =>
      intro n
      rw [List.mapIdx_cons]
      have := ih (n + 1)
      simp only [OMap.Sorted, OMap.keys, List.map_cons, List.pairwise_cons] at this ⊢
      refine ⟨?_, by simpa only [show ∀ i, i + 1 + n = i + (n + 1) from fun i => by omega] using this⟩
      intro k hk
      obtain ⟨e, he, rfl⟩ := List.mem_map.mp hk
      obtain ⟨i, hi, rfl⟩ := List.mem_mapIdx.mp he
      have h1 : n < i + 1 + n := by omega
      simp [Key.lt, Key.enc, lexLt, h1]
  refine OMap.Sorted.ext hm (by simpa using hs vals 0) (fun key => ?_)
  rw [h]
  have hsv := by simpa using hs vals 0
  cases e : gitemAt opid nonce 0 .genesis vals key with
  | some x =>
    symm
    apply OMap.Sorted.get?_of_mem hsv
    simp only [gitemAt] at e
    split at e
    · rename_i hc
      obtain ⟨c1, c2, c3, -⟩ := hc
      obtain ⟨o, n, i, w⟩ := key
      simp only at c1 c2 c3 e
      subst c1 c2 c3
      simp only [Nat.sub_zero] at e
      obtain ⟨hi, rfl⟩ := List.getElem?_eq_some_iff.mp e
      exact List.mem_mapIdx.mpr ⟨i, hi, rfl⟩
    · cases e
  | none =>
    symm
    cases e2 : OMap.get? (vals.mapIdx (fun i x => ((⟨opid, nonce, i, .genesis⟩ : GlobalOut), x))) key with
    | none => rfl
    | some x =>
      obtain ⟨i, hi, h2⟩ := List.mem_mapIdx.mp (OMap.mem_of_get? e2)
      cases h2
      simp [gitemAt, hi] at e

theorem new_contract_state {H : Commit} {s t : MemState} (hs : StInv s) {G : SchemaGlobals} (hG : OMap.Sorted G.maxItems) {g : Op}
    (hg : g.Proper) (hk : g.kind = .genesis) {r : Resolver} (hn : OMap.contains s.contracts (g.contractId H) = false)
    (h : s.updateFromConsignment H G ⟨g, [], []⟩ r = some (t, none)) :
    ∃ v, t.contractState (g.contractId H) = .ok v ∧ (∀ kd a, a ∈ v.all kd ↔ g.Makes H none kd a) ∧
      ∀ ty, v.globalItems ty = (OMap.get? G.maxItems ty).map (fun limit =>
        ((((OMap.get? g.globals ty).getD []).mapIdx (fun i x => (GlobalOrd.genesis i, x))).reverse).take limit) := by
  have hcalls : consignmentStCalls H G ⟨g, [], []⟩ r = ([.register G g], none) := rfl
  simp only [MemState.updateFromConsignment, hcalls] at h
  have hp : (StCall.register G g).Proper := ⟨hG, hg, hk⟩
  obtain ⟨⟨t', o⟩, h1, h2⟩ := Option.map_eq_some_iff.mp h
  have hex : (StCall.register G g).exec H s = some (t, none) := by
    simp only [StCall.execAll] at h1
    cases e : (StCall.register G g).exec H s with
    | none => rw [e] at h1; cases h1
    | some p =>
      obtain ⟨u, o'⟩ := p
      rw [e] at h1
      cases o' with
      | some x => cases h1; cases h2
      | none => cases h1; cases h2; rfl
  have hinv : StInv t := runSt_inv (H := H) (es := [.call (.register G g)]) (by
    intro c hc; simp at hc; subst hc; exact hp) hs (by simp [runSt, hex])
  obtain ⟨-, spec⟩ := (exec_spec hp hex).resolve_right (fun h => h.1 rfl)
  have hnone : OMap.get? s.contracts (g.contractId H) = none := by
    simpa [OMap.contains] using hn
  have hid : g.contractId H = g.id H := by simp [Op.contractId, hk]
  obtain ⟨v, hv⟩ : ∃ v, t.contractState (g.contractId H) = .ok v := by
    obtain ⟨cs, hcs⟩ := OMap.contains_iff.mp spec.mem
    simp only [StCall.contract] at hcs
    exact ⟨_, by unfold MemState.contractState; rw [hcs]⟩
  refine ⟨v, hv, fun kd a => ?_, fun ty => ?_⟩
  · rw [mem_all_iff hinv hv]
    have key : ∀ key, entry t (g.contractId H) kd key = assignedAt none (g.id H) g.assigns kd key := by
      intro key
      rw [spec.entry]
      simp only [entry, hnone, Option.bind_none, Option.none_or, StCall.contract, if_true]
      rfl
    simp only [key, assignedAt_iff]
    constructor
    · rintro ⟨⟨_, h, -⟩, -⟩; exact h
    · intro h
      refine ⟨⟨_, h, rfl⟩, ?_⟩
      rw [h.2.1]; trivial
  · have hlim := spec.limit (g.contractId H) ty
    rw [hn] at hlim
    simp only [Bool.false_eq_true, if_false, StCall.contract, if_true, StCall.limits] at hlim
    have hcs := contractState_get? hv
    unfold ContractView.globalItems
    simp only [glimit, hcs, Option.bind_some] at hlim
    rw [← hlim]
    cases e : OMap.get? v.unfiltered.global ty with
    | none => rfl
    | some gs =>
      simp only [Option.map_some, Option.some.injEq]
      have hknown : gs.known = (((OMap.get? g.globals ty).getD []).mapIdx (fun i x => ((⟨g.id H, g.nonce, i, .genesis⟩ : GlobalOut), x))) := by
        apply genesis_known ((hinv.cs _ _ hcs).glob.known _ _ e)
        intro key
        have := spec.gentry (g.contractId H) ty key
        simp only [gentry, hnone, hcs, Option.bind_none, Option.bind_some, Option.or_none, StCall.contract, if_true, gget, e] at this
        rw [this]
        simp only [StCall.globals, globalAt, StCall.op, StCall.opWitness]
        cases OMap.get? g.globals ty with
        | none => simp [gitemAt]
        | some vals => rfl
      rw [hknown]
      congr 1
      rw [List.filterMap_reverse]
      congr 1
      rw [List.mapIdx_eq_zipIdx_map, List.mapIdx_eq_zipIdx_map, List.filterMap_map, ← List.filterMap_eq_map]
      rfl

/-! ### Builders made by the stash -/

theorem addTags_exact {tags : List (Nat × Nat)} {b : TransitionBuilder} (hf : b.builder.fungible = [])
    (hl : b.builder.tags.length + tags.length ≤ 255) :
    Stock.addTags tags b = .ok { b with builder := { b.builder with tags := OMap.extend b.builder.tags tags } } := by
  induction tags generalizing b with
  | nil => rfl
  | cons e tags ih =>
    obtain ⟨ty, tag⟩ := e
    simp only [List.length_cons] at hl
    have h1 : b.builder.addAssetTagRaw ty tag = .ok { b.builder with tags := OMap.insert b.builder.tags ty tag } := by
      unfold OpBuilder.addAssetTagRaw
      rw [except_bind_ok]
      refine ⟨(), by rw [failIf_ok, hf]; rfl, ?_⟩
      rw [except_bind_ok]
      refine ⟨_, insertMax_ok.mpr ⟨by simp only [tinyMax]; omega, rfl⟩, rfl⟩
    simp only [Stock.addTags]
    rw [except_bind_ok]
    refine ⟨_, expectB_ok.mpr (by rw [h1]; rfl), ?_⟩
    have hlen := OMap.length_insert_le b.builder.tags ty tag
    exact ih (b := { b with builder := { b.builder with tags := OMap.insert b.builder.tags ty tag } }) hf
      (show (OMap.insert b.builder.tags ty tag).length + tags.length ≤ 255 by omega)

theorem OMap.extend_sorted {κ ν : Type} [Key κ] [DecidableEq κ] {m : OMap κ ν} (hm : OMap.Sorted m) : OMap.extend [] m = m := by
  refine OMap.Sorted.ext (OMap.Sorted.extend .nil _) hm (fun k => ?_)
  rw [get?_extend, Sorted.lastFor hm]
  simp

theorem ifaceRef_iff {s : MemStash} {r : IfaceRef} {d : IfaceDoc} : Stock.ifaceRef s r = .ok d ↔ s.iface r = some d := by
  cases r <;> exact orErr_ok

theorem ifaceRef_err {s : MemStash} {r : IfaceRef} : Stock.ifaceRef s r ≠ .error .panic := by
  cases r <;> (simp only [Stock.ifaceRef, Stock.ifaceNamed, orErr]; split <;> simp)

theorem iface_found {H : Commit} {I : Ids} {s : MemStash} (ha : Addressed H I s) (hi : OMap.Sorted s.ifaces) {r : IfaceRef} {d : IfaceDoc} (h : s.iface r = some d) :
    s.ifaceById (I.iface d) = some d := ifaceRef_found ha hi (ifaceRef_iff.mpr h)

/-- The implementation of a known interface is the only one. -/
theorem implemented_get {I : Ids} {s : MemStash} (hi : Impls s) (hd : DocsSorted s) {i : Nat} {si : SchemaIfaces} (h1 : s.schema i = some si)
    {d : IfaceDoc} (h2 : s.ifaceById (I.iface d) = some d) {x : IimplDoc} : si.get (I.iface d) = some x ↔ si.ImplementedBy I d x := by
  constructor
  · intro h
    obtain ⟨h3, -, -, h4⟩ := get_found (I := I) hi h1 h h2
    exact ⟨h3, h4⟩
  · rintro ⟨h3, h4⟩
    cases e : si.get (I.iface d) with
    | none =>
      have := List.find?_eq_none.mp e x h3
      simp [h4] at this
    | some y =>
      obtain ⟨-, h5, -, -⟩ := get_found (I := I) hi h1 e h2
      obtain ⟨⟨n, x'⟩, h6, rfl⟩ := List.mem_map.mp h3
      obtain ⟨-, h7⟩ := hi.impls _ _ h1
      obtain ⟨-, d', h8, h9⟩ := h7 _ h6
      simp only at h4 h8 h9
      rw [h4, h2] at h8
      cases h8
      subst h9
      have h10 := (hd.iimpls _ _ h1).get?_of_mem h5
      have h11 := (hd.iimpls _ _ h1).get?_of_mem h6
      rw [h10] at h11
      exact h11

theorem extract_iff {E : CEnv} {s : MemStash} {sd : SchemaDoc} {d : IfaceDoc} :
    (∃ p, Stock.extract E.S s sd [d] = .ok p) ↔ s.HasDocs E sd d := by
  rcases extract_cases (E := E.S) s sd [d] with ⟨t, h1, h2, h3⟩ | ⟨i, h1, h2, h3⟩ | ⟨h1, h2, ts, ls, h3, -⟩
  · rw [h3]
    constructor
    · rintro ⟨p, h⟩; cases h
    · intro h; exact absurd (h.types t (by simpa using h2)) h1
  · rw [h3]
    constructor
    · rintro ⟨p, h⟩; cases h
    · intro h; have := h.libs i h1; rw [h2] at this; cases this
  · exact ⟨fun _ => ⟨fun t ht => h1 t (by simpa using ht), h2⟩, fun _ => ⟨_, h3⟩⟩

theorem extracts_ok {E : CEnv} {s : MemStash} {si : SchemaIfaces} {d : IfaceDoc} {u : Unit} : Stock.extracts E s si d = .ok u ↔ s.HasDocs E si.doc d := by
  rw [← extract_iff]
  unfold Stock.extracts
  cases Stock.extract E.S s si.doc [d] with
  | error e => simp
  | ok p => simp

theorem extracts_err {E : CEnv} {s : MemStash} {si : SchemaIfaces} {d : IfaceDoc} : Stock.extracts E s si d ≠ .error .panic := by
  unfold Stock.extracts
  cases Stock.extract E.S s si.doc [d] <;> simp

theorem namedOrDefault_ok {E : CEnv} {c : Nat} {d : IfaceDoc} {sd : Schema} {x : IimplDoc} {op : Option Nat} {b : TransitionBuilder} :
    Stock.namedOrDefault c (E.ifaceOf d) sd (E.implOf x) op = .ok b ↔
      ∃ ty, E.opType d x op = some ty ∧ b = .new false c (E.ifaceOf d) sd (E.implOf x) ty := by
  cases op with
  | some n =>
    simp only [Stock.namedOrDefault, TransitionBuilder.named, except_bind_ok, orErr_ok, CEnv.opType, Option.some_or, Option.bind_some]
    constructor
    · rintro ⟨ty, h1, h2⟩; cases h2; exact ⟨ty, h1, rfl⟩
    · rintro ⟨ty, h1, rfl⟩; exact ⟨ty, h1, rfl⟩
  | none =>
    simp only [Stock.namedOrDefault, TransitionBuilder.default, except_bind_ok, orErr_ok, CEnv.opType, Option.none_or]
    constructor
    · rintro ⟨ty, h1, h2⟩; cases h2; exact ⟨ty, h1, rfl⟩
    · rintro ⟨ty, h1, rfl⟩; exact ⟨ty, h1, rfl⟩

/-- All about `transition_builder`. -/
theorem transitionBuilder_iff {E : CEnv} (hT : E.TagMaps) {s : MemStash} {H : Commit} (ha : Addressed H E.I s) (hi : Impls s) (hd : DocsSorted s) {c : Nat} {r : IfaceRef} {op : Option Nat}
    {b : TransitionBuilder} : Stock.transitionBuilder E s c r op = .ok b ↔
      ∃ g si d x ty, s.genesis c = some g ∧ s.schema (E.I.genesisSchema g) = some si ∧ s.iface r = some d ∧ si.ImplementedBy E.I d x ∧
        s.HasDocs E si.doc d ∧ E.opType d x op = some ty ∧ b = E.newTransition c d si.doc x (E.tagsOf g) ty := by
  unfold Stock.transitionBuilder
  have tags : ∀ (g : Op) (d : IfaceDoc) (sd : SchemaDoc) (x : IimplDoc) (ty : Nat),
      Stock.addTags (E.tagsOf g) (.new false c (E.ifaceOf d) (E.schemaOf sd) (E.implOf x) ty) = .ok (E.newTransition c d sd x (E.tagsOf g) ty) := by
    intro g d sd x ty
    obtain ⟨h1, h2⟩ := hT g
    rw [addTags_exact rfl (by simpa [TransitionBuilder.new] using h2)]
    have : OMap.extend ([] : OMap Nat Nat) (E.tagsOf g) = E.tagsOf g := OMap.extend_sorted h1
    simp only [CEnv.newTransition, TransitionBuilder.new, this]
  constructor
  · intro h
    obtain ⟨⟨g, si⟩, h1, h⟩ := except_bind_ok.1 h
    obtain ⟨d, h2, h⟩ := except_bind_ok.1 h
    obtain ⟨x, h3, h⟩ := except_bind_ok.1 h
    obtain ⟨_, h4, h⟩ := except_bind_ok.1 h
    obtain ⟨b0, h5, h⟩ := except_bind_ok.1 h
    obtain ⟨h6, h7⟩ := contractSchema_ok h1
    rw [expectB_ok, namedOrDefault_ok] at h5
    obtain ⟨ty, h8, rfl⟩ := h5
    rw [ifaceRef_iff] at h2
    rw [tags] at h
    injection h with h
    exact ⟨g, si, d, x, ty, h6, h7, h2, (implemented_get hi hd h7 (iface_found ha hi.sorted h2)).mp (orErr_ok.1 h3), extracts_ok.mp h4, h8, h.symm⟩
  · rintro ⟨g, si, d, x, ty, h1, h2, h3, h4, h5, h6, rfl⟩
    rw [except_bind_ok]
    refine ⟨(g, si), ?_, ?_⟩
    · unfold Stock.contractSchema
      rw [except_bind_ok]
      refine ⟨g, orErr_ok.2 h1, ?_⟩
      rw [except_bind_ok]
      exact ⟨si, orErr_ok.2 h2, rfl⟩
    · simp only
      rw [except_bind_ok]
      refine ⟨d, ifaceRef_iff.mpr h3, ?_⟩
      rw [except_bind_ok]
      refine ⟨x, orErr_ok.2 ((implemented_get hi hd h2 (iface_found ha hi.sorted h3)).mpr h4), ?_⟩
      rw [except_bind_ok]
      refine ⟨(), extracts_ok.mpr h5, ?_⟩
      rw [except_bind_ok]
      exact ⟨_, expectB_ok.mpr (namedOrDefault_ok.mpr ⟨ty, h6, rfl⟩), tags g d si.doc x ty⟩

theorem namedOrDefault_err {E : CEnv} {c : Nat} {d : IfaceDoc} {sd : Schema} {x : IimplDoc} {op : Option Nat} :
    (∃ e, Stock.namedOrDefault c (E.ifaceOf d) sd (E.implOf x) op = .error e) ↔ E.opType d x op = none := by
  cases h : Stock.namedOrDefault c (E.ifaceOf d) sd (E.implOf x) op with
  | ok b =>
    obtain ⟨ty, h1, -⟩ := namedOrDefault_ok.mp h
    simp [h1]
  | error e =>
    cases h2 : E.opType d x op with
    | none => simp
    | some ty =>
      have := (namedOrDefault_ok (E := E) (c := c) (sd := sd)).mpr ⟨ty, h2, rfl⟩
      rw [h] at this
      cases this

theorem transitionBuilder_panic {E : CEnv} (hT : E.TagMaps) {s : MemStash} {H : Commit} (ha : Addressed H E.I s) (hi : Impls s) (hd : DocsSorted s) {c : Nat} {r : IfaceRef} {op : Option Nat} :
    Stock.transitionBuilder E s c r op = .error .panic ↔
      ∃ g si d x, s.genesis c = some g ∧ s.schema (E.I.genesisSchema g) = some si ∧ s.iface r = some d ∧ si.ImplementedBy E.I d x ∧
        s.HasDocs E si.doc d ∧ E.opType d x op = none := by
  constructor
  · intro h
    unfold Stock.transitionBuilder at h
    rcases except_bind_error.1 h with h | ⟨⟨g, si⟩, h1, h⟩
    · unfold Stock.contractSchema at h
      rcases except_bind_error.1 h with h | ⟨g, -, h⟩
      · simp only [orErr] at h; split at h <;> simp at h
      rcases except_bind_error.1 h with h | ⟨si, -, h⟩
      · simp only [orErr] at h; split at h <;> simp at h
      cases h
    obtain ⟨h6, h7⟩ := contractSchema_ok h1
    simp only at h
    rcases except_bind_error.1 h with h | ⟨d, h2, h⟩
    · exact absurd h ifaceRef_err
    rcases except_bind_error.1 h with h | ⟨x, h3, h⟩
    · simp only [orErr] at h; split at h <;> simp at h
    rcases except_bind_error.1 h with h | ⟨u, h4, h⟩
    · exact absurd h extracts_err
    have h2' := ifaceRef_iff.mp h2
    have h3' := (implemented_get hi hd h7 (iface_found ha hi.sorted h2')).mp (orErr_ok.mp h3)
    rcases except_bind_error.1 h with h | ⟨b, h5, h⟩
    · obtain ⟨e, he⟩ : ∃ e, Stock.namedOrDefault c (E.ifaceOf d) (E.schemaOf si.doc) (E.implOf x) op = .error e := by
        revert h
        cases Stock.namedOrDefault c (E.ifaceOf d) (E.schemaOf si.doc) (E.implOf x) op with
        | ok b => intro h; cases h
        | error e => intro _; exact ⟨e, rfl⟩
      exact ⟨g, si, d, x, h6, h7, h2', h3', extracts_ok.mp h4, namedOrDefault_err.mp ⟨e, he⟩⟩
    · rw [expectB_ok, namedOrDefault_ok] at h5
      obtain ⟨ty, h8, rfl⟩ := h5
      rw [addTags_exact rfl (by simpa [TransitionBuilder.new] using (hT g).2)] at h
      cases h
  · rintro ⟨g, si, d, x, h1, h2, h3, h4, h5, h6⟩
    obtain ⟨e, he⟩ := (namedOrDefault_err (c := c) (sd := E.schemaOf si.doc)).mpr h6
    have h4' := (implemented_get hi hd h2 (iface_found ha hi.sorted h3)).mpr h4
    unfold Stock.transitionBuilder Stock.contractSchema
    have h5' : Stock.extracts E s si d = .ok () := extracts_ok.mpr h5
    simp only [h1, h2, orErr, bind, Except.bind, ifaceRef_iff.mpr h3, h4', h5', he, expectB]

/-! ### The genesis -/

section issued
variable {E : BEnv} {n : Nat} {det : Bool} {issuer : Nat} {iface : Iface} {schema : Schema} {iimpl : IfaceImpl} {cs : List CCall} {b : ContractBuilder}
  {valid : BuiltGenesis → Bool} {det' : Bool} {ts : Int} {g : BuiltGenesis}

theorem issued_sorted (h : ContractBuilder.calls E cs (.new det issuer iface schema iimpl) = .ok b) (hg : b.issue E valid det' ts = .ok g) :
    OMap.Sorted g.assigns ∧ OMap.Sorted g.globals ∧ (OMap.Sorted g.tags ∧ g.tags.length ≤ 255) ∧
      ∀ e ∈ g.globals, OMap.contains schema.globalTypes e.1 = true := by
  obtain ⟨ps, d⟩ := ContractBuilder.calls_did h
  obtain ⟨as, hc, -, rfl⟩ := ContractBuilder.issue_ok hg
  have hi := d.run.inv (ContractBuilder.new_inv _ _ _ _ _)
  exact ⟨complete_sorted hi hc, d.run.globalsSorted .nil, d.run.tagsSorted .nil (Nat.zero_le _), d.run.globalTypes (by intro e he; cases he)⟩

theorem issued_assigned (hE : E.Lawful n) (h : ContractBuilder.calls E cs (.new det issuer iface schema iimpl) = .ok b) (hg : b.issue E valid det' ts = .ok g) (ty : Nat) :
    (∀ t, OMap.get? g.assigns ty = some t → ∃ (sls : List BSeal) (f : BSeal → RState), sls.Nodup ∧ t.items = sls.map (fun sl => OpBuilder.toAssign (sl, f sl)) ∧
      (∀ sl, sl ∈ sls ↔ ∃ st, lastFor (ty, sl) (cs.filterMap (CCall.slot iimpl)) = some st) ∧
      ∀ sl st, lastFor (ty, sl) (cs.filterMap (CCall.slot iimpl)) = some st → (f sl).content = st.content ∧ st.kind = t.kind) ∧
    ∀ sl st, lastFor (ty, sl) (cs.filterMap (CCall.slot iimpl)) = some st → ∃ t, OMap.get? g.assigns ty = some t := by
  obtain ⟨ps, d⟩ := ContractBuilder.calls_did h
  obtain ⟨as, hc, -, rfl⟩ := ContractBuilder.issue_ok hg
  have hi := d.run.inv (ContractBuilder.new_inv _ _ _ _ _)
  have hlast : ∀ sl, (b.builder.found ty sl).map RState.untag = (lastFor (ty, sl) (cs.filterMap (CCall.slot iimpl))).map RState.untag :=
    fun sl => found_content d.run (ContractBuilder.new_found _ _ _ _ _) d.puts ty sl
  have hsame : ∀ sl st, lastFor (ty, sl) (cs.filterMap (CCall.slot iimpl)) = some st → ∃ st', b.builder.found ty sl = some st' ∧ st'.untag = st.untag := by
    intro sl st hst
    have := hlast sl
    rw [hst] at this
    cases e : b.builder.found ty sl with
    | none => rw [e] at this; cases this
    | some st' => rw [e] at this; exact ⟨st', rfl, by simpa using this⟩
  refine ⟨fun t ht => ?_, fun sl st hst => ?_⟩
  · obtain ⟨sls, f, h1, h2, h3, h4⟩ := Completed.items hE hi ((OpBuilder.complete_get hi hc ty t).1 ht)
    refine ⟨sls, f, h1, h2, fun sl => ?_, fun sl st hst => ?_⟩
    · rw [h3]
      constructor
      · intro hs
        obtain ⟨st', e⟩ := Option.isSome_iff_exists.mp hs
        have := hlast sl
        rw [e] at this
        cases e2 : lastFor (ty, sl) (cs.filterMap (CCall.slot iimpl)) with
        | none => rw [e2] at this; cases this
        | some st => exact ⟨st, rfl⟩
      · rintro ⟨st, hst⟩
        obtain ⟨st', h5, -⟩ := hsame sl st hst
        rw [h5]; rfl
    · obtain ⟨st', h5, h6⟩ := hsame sl st hst
      obtain ⟨st0, h7, h8, h9⟩ := h4 sl ((h3 sl).mpr (by rw [h5]; rfl))
      rw [h5] at h7
      cases h7
      constructor
      · rw [← RState.content_of_untag h6]
        rcases h9 with h9 | ⟨x, h9⟩
        · rw [h9]
        · rw [h9, setBlinding_content]
      · rw [← h8, ← RState.kind_untag st, ← RState.kind_untag st', h6]
  · obtain ⟨st', h5, -⟩ := hsame sl st hst
    obtain ⟨t, ht, -⟩ := complete_exists hi hc h5
    exact ⟨t, ht⟩

theorem slot_mem {ty : Nat} {sl : BSeal} {st : RState} (h : lastFor (ty, sl) (cs.filterMap (CCall.slot iimpl)) = some st) :
    ∃ c ∈ cs, c.assigned iimpl = some (ty, sl, st) := by
  obtain ⟨c, hcm, hcs⟩ := List.mem_filterMap.1 (lastFor_mem h)
  simp only [CCall.slot, Option.map_eq_some_iff] at hcs
  obtain ⟨⟨x, y, z⟩, h1, h2⟩ := hcs
  simp only [Prod.mk.injEq] at h2
  obtain ⟨⟨rfl, rfl⟩, rfl⟩ := h2
  exact ⟨c, hcm, h1⟩

/-- The seals of the genesis have transactions. -/
theorem issued_seals (hE : E.Lawful n) (h : ContractBuilder.calls E cs (.new det issuer iface schema iimpl) = .ok b) (hg : b.issue E valid det' ts = .ok g)
    (hs : GenesisSeals iimpl cs) {ty : Nat} {t : TypedAssigns} (ht : OMap.get? g.assigns ty = some t) {a : Assign} (ha : a ∈ t.items) {x : Seal} (hx : a.seal? = some x) :
    x.txid.isSome = true := by
  obtain ⟨sls, f, -, h2, h3, -⟩ := (issued_assigned hE h hg ty).1 t ht
  rw [h2, List.mem_map] at ha
  obtain ⟨sl, hsl, rfl⟩ := ha
  cases sl with
  | concealed c h => simp [OpBuilder.toAssign, Assign.seal?] at hx
  | revealed y =>
    simp only [OpBuilder.toAssign, Assign.seal?, Option.some.injEq] at hx
    subst hx
    obtain ⟨st, hst⟩ := (h3 _).mp hsl
    obtain ⟨c, hc1, hc2⟩ := slot_mem hst
    exact hs c hc1 _ _ _ hc2

/-- One assignment of the genesis for each seal. -/
theorem genesis_made (hE : E.Lawful n) (h : ContractBuilder.calls E cs (.new det issuer iface schema iimpl) = .ok b) (hg : b.issue E valid det' ts = .ok g)
    (hs : GenesisSeals iimpl cs) (H : Commit) {op : Op} (hop : op.assigns = g.assigns) :
    ∃ made : Nat → Seal → OutAssign,
      (∀ kd a, op.Makes H none kd a ↔ ∃ ty s st, lastFor (ty, .revealed s) (cs.filterMap (CCall.slot iimpl)) = some st ∧ st.kind = kd ∧ a = made ty s) ∧
      (∀ ty s st, lastFor (ty, .revealed s) (cs.filterMap (CCall.slot iimpl)) = some st → (made ty s).opout.op = op.id H ∧ (made ty s).opout.ty = ty ∧
        s.toOutput = some (made ty s).sl ∧ (made ty s).state.content = st.content ∧ (made ty s).witness = none) ∧
      (∀ ty s st s' st', lastFor (ty, .revealed s) (cs.filterMap (CCall.slot iimpl)) = some st → lastFor (ty, .revealed s') (cs.filterMap (CCall.slot iimpl)) = some st' →
        (made ty s).opout = (made ty s').opout → s = s') := by
  have hex : ∀ ty s, ∃ a : OutAssign, ∀ st, lastFor (ty, .revealed s) (cs.filterMap (CCall.slot iimpl)) = some st →
      op.Makes H none st.kind a ∧ a.opout.ty = ty ∧ (∃ t, OMap.get? g.assigns ty = some t ∧ t.items[a.opout.no]? = some (.revealed s a.state)) ∧
        s.toOutput = some a.sl ∧ a.state.content = st.content := by
    intro ty s
    cases e : lastFor (ty, .revealed s) (cs.filterMap (CCall.slot iimpl)) with
    | none => exact ⟨⟨⟨0, 0, 0⟩, ⟨.bitcoin, .opretFirst, 0, 0⟩, .void, none⟩, fun st h => by cases h⟩
    | some st =>
      obtain ⟨h1, h2⟩ := issued_assigned hE h hg ty
      obtain ⟨t, ht⟩ := h2 _ _ e
      obtain ⟨sls, f, g1, g2, g3, g4⟩ := h1 t ht
      obtain ⟨g5, g6⟩ := g4 _ _ e
      obtain ⟨i, hi, g7⟩ := List.getElem_of_mem ((g3 (.revealed s)).mpr ⟨st, e⟩)
      obtain ⟨c, hc1, hc2⟩ := slot_mem e
      obtain ⟨tx, htx⟩ := Option.isSome_iff_exists.mp (hs c hc1 _ _ _ hc2)
      have hi2 : t.items[i]? = some (.revealed s (f (.revealed s))) := by
        rw [g2, List.getElem?_map, List.getElem?_eq_getElem hi, g7]; rfl
      have ho : s.toOutput = some ⟨s.chain, s.method, tx, s.vout⟩ := by simp [Seal.toOutput, htx]
      refine ⟨⟨⟨op.id H, ty, i⟩, ⟨s.chain, s.method, tx, s.vout⟩, f (.revealed s), none⟩, fun st' h => ?_⟩
      cases h
      exact ⟨⟨rfl, rfl, t, s, by rw [hop]; exact ht, g6.symm, hi2, ho⟩, rfl, ⟨t, ht, hi2⟩, ho, g5⟩
  choose made hm using hex
  have uniq : ∀ (ty : Nat) (s : Seal) (t : TypedAssigns) (i j : Nat) (x y : RState), OMap.get? g.assigns ty = some t → t.items[i]? = some (.revealed s x) →
      t.items[j]? = some (.revealed s y) → i = j := by
    intro ty s t i j x y ht hi hj
    obtain ⟨sls, f, g1, g2, -, -⟩ := (issued_assigned hE h hg ty).1 t ht
    have key : ∀ (i : Nat) (x : RState), t.items[i]? = some (.revealed s x) → sls[i]? = some (.revealed s) := by
      intro i x hi
      rw [g2, List.getElem?_map] at hi
      obtain ⟨sl, h1, h2⟩ := Option.map_eq_some_iff.mp hi
      cases sl with
      | concealed => cases h2
      | revealed z => simp only [OpBuilder.toAssign, Assign.revealed.injEq] at h2; rw [h1, h2.1]
    exact (List.getElem?_inj (by
      obtain ⟨hlt, -⟩ := List.getElem?_eq_some_iff.mp (key i x hi)
      exact hlt) g1).mp ((key i x hi).trans (key j y hj).symm)
  refine ⟨made, fun kd a => ⟨?_, ?_⟩, ?_, ?_⟩
  · rintro ⟨h1, h2, t, s, h3, h4, h5, h6⟩
    rw [hop] at h3
    obtain ⟨sls, f, g1, g2, g3, g4⟩ := (issued_assigned hE h hg _).1 t h3
    have hs' : .revealed s ∈ sls := by
      have h5' := h5
      rw [g2, List.getElem?_map] at h5'
      obtain ⟨sl, k1, k2⟩ := Option.map_eq_some_iff.mp h5'
      cases sl with
      | concealed => cases k2
      | revealed z => simp only [OpBuilder.toAssign, Assign.revealed.injEq] at k2; rw [← k2.1]; exact List.mem_of_getElem? k1
    obtain ⟨st, hst⟩ := (g3 _).mp hs'
    refine ⟨a.opout.ty, s, st, hst, ?_, ?_⟩
    · rw [(g4 _ _ hst).2, h4]
    · obtain ⟨⟨m1, m2, -⟩, m3, ⟨t', m4, m5⟩, m6, -⟩ := hm a.opout.ty s st hst
      rw [h3] at m4
      cases m4
      have hno := uniq _ _ _ _ _ _ _ h3 h5 m5
      rw [← hno, h5] at m5
      have hst' : a.state = (made a.opout.ty s).state := by
        simp only [Option.some.injEq, Assign.revealed.injEq] at m5; exact m5.2
      have hsl : a.sl = (made a.opout.ty s).sl := by
        have : s.toOutput = some a.sl := h6
        rw [m6] at this; exact (Option.some.inj this).symm
      have hop' : a.opout = (made a.opout.ty s).opout := by
        generalize hq : made a.opout.ty s = q at *
        obtain ⟨⟨q1, q2, q3⟩, q4, q5, q6⟩ := q
        obtain ⟨⟨p1, p2, p3⟩, p4, p5, p6⟩ := a
        simp only at *
        subst m1 m3 hno h1
        rfl
      generalize hq : made a.opout.ty s = q at *
      obtain ⟨q1, q4, q5, q6⟩ := q
      obtain ⟨p1, p4, p5, p6⟩ := a
      simp only at *
      subst hop' hsl hst' h2 m2
      rfl
  · rintro ⟨ty, s, st, h1, rfl, rfl⟩
    exact (hm ty s st h1).1
  · intro ty s st h1
    obtain ⟨⟨m1, m2, -⟩, m3, -, m6, m7⟩ := hm ty s st h1
    exact ⟨m1, m3, m6, m7, m2⟩
  · intro ty s st s' st' h1 h2 h3
    obtain ⟨-, -, ⟨t, m4, m5⟩, -, -⟩ := hm ty s st h1
    obtain ⟨-, -, ⟨t', n4, n5⟩, -, -⟩ := hm ty s' st' h2
    rw [m4] at n4
    cases n4
    rw [h3, n5] at m5
    simp only [Option.some.injEq, Assign.revealed.injEq] at m5
    exact m5.1.symm

end issued

/-! ### Builders -/

section builders
variable {E : CEnv} {s : MemStash} {H : Commit}

theorem contractBuilder_iff (ha : Addressed H E.I s) (hi : Impls s) (hd : DocsSorted s) {issuer i : Nat} {r : IfaceRef} :
    (∃ b, Stock.contractBuilder E s issuer i r = .ok b) ↔
      ∃ si d x, s.schema i = some si ∧ s.iface r = some d ∧ si.ImplementedBy E.I d x ∧ s.HasDocs E si.doc d := by
  constructor
  · rintro ⟨b, h⟩
    obtain ⟨si, h1, h2, h3, h4, h5, -⟩ := contractBuilder_ok h
    have h6 := ifaceRef_iff.mp h3
    exact ⟨si, b.iface, b.iimpl, h1, h6, (implemented_get hi hd h1 (iface_found ha hi.sorted h6)).mp h4, extract_iff.mp ⟨_, h5⟩⟩
  · rintro ⟨si, d, x, h1, h2, h3, h4⟩
    obtain ⟨⟨ts, ls⟩, h5⟩ := extract_iff.mpr h4
    unfold Stock.contractBuilder
    refine ⟨⟨.new false issuer (E.ifaceOf d) (E.schemaOf si.doc) (E.implOf x), si.doc, d, x, ts, ls⟩, except_bind_ok.mpr ⟨si, orErr_ok.mpr h1, except_bind_ok.mpr ⟨d, ifaceRef_iff.mpr h2, except_bind_ok.mpr ⟨x,
      orErr_ok.mpr ((implemented_get hi hd h1 (iface_found ha hi.sorted h2)).mpr h3), ?_⟩⟩⟩⟩
    rw [h5]

theorem contractBuilder_err {issuer i : Nat} {r : IfaceRef} : Stock.contractBuilder E s issuer i r ≠ .error .panic := by
  intro h
  unfold Stock.contractBuilder at h
  rcases except_bind_error.1 h with h | ⟨si, -, h⟩
  · simp only [orErr] at h; split at h <;> simp at h
  rcases except_bind_error.1 h with h | ⟨d, -, h⟩
  · exact ifaceRef_err h
  rcases except_bind_error.1 h with h | ⟨x, -, h⟩
  · simp only [orErr] at h; split at h <;> simp at h
  split at h <;> simp at h

theorem contractBuilder_docs {issuer i : Nat} {r : IfaceRef} {b : Issuing} (h : Stock.contractBuilder E s issuer i r = .ok b) :
    OSet.Sorted b.types ∧ (∀ t, t ∈ b.types ↔ t ∈ E.S.schemaTypes b.schema ∨ t ∈ E.S.ifaceTypes b.iface) ∧
      (∀ l, l ∈ b.scripts ↔ ∃ j ∈ E.S.schemaLibs b.schema, s.lib j = some l) ∧ s.HasDocs E b.schema b.iface := by
  obtain ⟨si, h1, h2, h3, h4, h5, -⟩ := contractBuilder_ok h
  have h6 := extract_iff.mp ⟨_, h5⟩
  rcases extract_cases (E := E.S) s si.doc [b.iface] with ⟨t, g1, g2, g3⟩ | ⟨j, g1, g2, g3⟩ | ⟨g1, g2, ts, ls, g3, g4, g5, g6⟩
  · rw [h5] at g3; cases g3
  · rw [h5] at g3; cases g3
  · rw [h5] at g3
    simp only [Except.ok.injEq, Prod.mk.injEq] at g3
    obtain ⟨e1, e2⟩ := g3
    rw [e1, e2, h2]
    exact ⟨g4, by simpa using g5, g6, h6⟩

theorem first_named (hi : Impls s) {i : Nat} {si : SchemaIfaces} (h1 : s.schema i = some si) {e : Nat × IimplDoc} (he : e ∈ si.iimpls) :
    ∃ d, s.ifaceByName e.1 = some d ∧ d.name = e.1 := by
  obtain ⟨-, d, h2, h3⟩ := (hi.impls _ _ h1).2 e he
  simp only [ifaceByName]
  cases hf : (OMap.vals s.ifaces).find? (fun x => decide (x.name = e.1)) with
  | none =>
    have := List.find?_eq_none.mp hf d (List.mem_map.mpr ⟨_, OMap.mem_of_get? h2, rfl⟩)
    simp [h3] at this
  | some d' => exact ⟨d', rfl, by simpa using List.find?_some hf⟩

/-- The new builder of a blank transition. -/
theorem blankBuilder_iff (hT : E.TagMaps) (ha : Addressed H E.I s) (hi : Impls s) (hd : DocsSorted s) {c : Nat} {r : IfaceRef}
    {b : TransitionBuilder} : Stock.blankBuilder E s c r = .ok b ↔
      ∃ g si d d' x, s.genesis c = some g ∧ s.schema (E.I.genesisSchema g) = some si ∧ s.iface r = some d ∧ s.HasDocs E si.doc d ∧
        (d' = d ∧ si.ImplementedBy E.I d x ∨ (∀ y, ¬ si.ImplementedBy E.I d y) ∧ s.ifaceByName d'.name = some d' ∧ si.iimpls.head? = some (d'.name, x)) ∧
        b = E.newTransition c d' si.doc x (E.tagsOf g) blankType := by
  have tags : ∀ (g : Op) (d : IfaceDoc) (sd : SchemaDoc) (x : IimplDoc),
      Stock.addTags (E.tagsOf g) (.blank false c (E.ifaceOf d) (E.schemaOf sd) (E.implOf x)) = .ok (E.newTransition c d sd x (E.tagsOf g) blankType) := by
    intro g d sd x
    obtain ⟨h1, h2⟩ := hT g
    rw [addTags_exact rfl (by simpa [TransitionBuilder.blank, TransitionBuilder.new] using h2)]
    have : OMap.extend ([] : OMap Nat Nat) (E.tagsOf g) = E.tagsOf g := OMap.extend_sorted h1
    simp only [CEnv.newTransition, TransitionBuilder.blank, TransitionBuilder.new, this]
  constructor
  · intro h
    unfold Stock.blankBuilder at h
    obtain ⟨⟨g, si⟩, h1, h⟩ := except_bind_ok.1 h
    obtain ⟨g', h11, h1⟩ := except_bind_ok.1 h1
    obtain ⟨si', h12, h1⟩ := except_bind_ok.1 h1
    cases h1
    obtain ⟨d, h2, h⟩ := except_bind_ok.1 h
    obtain ⟨u, h3, h⟩ := except_bind_ok.1 h
    obtain ⟨u', h4, h⟩ := except_bind_ok.1 h
    obtain ⟨⟨d', x⟩, h5, h⟩ := except_bind_ok.1 h
    simp only at h h2 h3 h4 h5
    rw [tags] at h
    have g1 := orErr_ok.1 h11
    have g2 := orErr_ok.1 h12
    have g3 := ifaceRef_iff.mp h2
    have g6 := fun x => implemented_get (x := x) hi hd g2 (iface_found ha hi.sorted g3)
    refine ⟨g, si, d, d', x, g1, g2, g3, extracts_ok.mp h4, ?_, (Except.ok.inj h).symm⟩
    unfold Stock.blankImpl at h5
    cases e : si.get (E.I.iface d) with
    | some y =>
      rw [e] at h5
      simp only [Except.ok.injEq, Prod.mk.injEq] at h5
      obtain ⟨rfl, rfl⟩ := h5
      exact .inl ⟨rfl, (g6 _).mp e⟩
    | none =>
      rw [e] at h5
      simp only at h5
      refine .inr ⟨fun y hy => ?_, ?_⟩
      · rw [← g6] at hy; rw [e] at hy; cases hy
      · split at h5
        · cases h5
        · rename_i name y rest heq
          obtain ⟨d2, h6, h7⟩ := except_bind_ok.1 h5
          cases h7
          have g7 := orErr_ok.1 h6
          have g8 : d'.name = name := by simpa using List.find?_some g7
          rw [heq, g8]
          exact ⟨g7, rfl⟩
  · rintro ⟨g, si, d, d', x, g1, g2, g3, g4, g5, rfl⟩
    unfold Stock.blankBuilder
    have g6 := fun x => implemented_get (x := x) hi hd g2 (iface_found ha hi.sorted g3)
    have hne : si.iimpls.isEmpty = false := by
      rcases g5 with ⟨-, g5, -⟩ | ⟨-, -, g5⟩
      · cases e : si.iimpls with
        | nil => rw [e] at g5; cases g5
        | cons => rfl
      · cases e : si.iimpls with
        | nil => rw [e] at g5; cases g5
        | cons => rfl
    have himpl : Stock.blankImpl E s si d = .ok (d', x) := by
      unfold Stock.blankImpl
      rcases g5 with ⟨rfl, g5⟩ | ⟨g7, g8, g5⟩
      · rw [(g6 x).mpr g5]
      · cases e : si.get (E.I.iface d) with
        | some y => exact absurd ((g6 y).mp e) (g7 y)
        | none =>
          cases e2 : si.iimpls with
          | nil => rw [e2] at g5; cases g5
          | cons p l =>
            rw [e2] at g5
            cases g5
            simp only
            exact except_bind_ok.mpr ⟨d', orErr_ok.mpr g8, rfl⟩
    refine except_bind_ok.mpr ⟨(g, si), except_bind_ok.mpr ⟨g, orErr_ok.mpr g1, except_bind_ok.mpr ⟨si, orErr_ok.mpr g2, rfl⟩⟩, ?_⟩
    refine except_bind_ok.mpr ⟨d, ifaceRef_iff.mpr g3, except_bind_ok.mpr ⟨(), ?_, except_bind_ok.mpr ⟨(), extracts_ok.mpr g4, except_bind_ok.mpr ⟨(d', x), himpl, tags _ _ _ _⟩⟩⟩⟩
    rw [hne]; rfl

theorem blankBuilder_err (hT : E.TagMaps) {c : Nat} {r : IfaceRef} : Stock.blankBuilder E s c r ≠ .error .panic := by
  intro h
  unfold Stock.blankBuilder at h
  rcases except_bind_error.1 h with h | ⟨⟨g, si⟩, h1, h⟩
  · unfold Stock.contractSchema at h
    rcases except_bind_error.1 h with h | ⟨g, -, h⟩
    · simp only [orErr] at h; split at h <;> simp at h
    rcases except_bind_error.1 h with h | ⟨si, -, h⟩
    · simp only [orErr] at h; split at h <;> simp at h
    cases h
  rcases except_bind_error.1 h with h | ⟨d, -, h⟩
  · exact ifaceRef_err h
  rcases except_bind_error.1 h with h | ⟨u, h2, h⟩
  · simp only [failIf] at h; split at h <;> simp at h
  rcases except_bind_error.1 h with h | ⟨u, -, h⟩
  · exact extracts_err h
  rcases except_bind_error.1 h with h | ⟨⟨d', x⟩, -, h⟩
  · unfold Stock.blankImpl at h
    split at h
    · cases h
    split at h
    · rename_i e
      simp only [e] at h2
      simp [failIf] at h2
    · rcases except_bind_error.1 h with h | ⟨d', -, h⟩
      · simp only [Stock.ifaceNamed, orErr] at h; split at h <;> simp at h
      cases h
  · obtain ⟨t1, t2⟩ := hT g
    simp only at h
    rw [addTags_exact rfl (by simpa [TransitionBuilder.blank, TransitionBuilder.new] using t2)] at h
    cases h

end builders

/-! ### Importing the issued contract -/

section imported
variable {E : CEnv} {M : Mpc} {G : SchemaDoc → SchemaGlobals} {k : Stock} {rest : Nat → BuiltGenesis → Nat} {valid : Consignment → Bool} {ts : Int} {cs : List CCall}
  {b : Issuing} {g : BuiltGenesis} {con : Consignment}

theorem issue_iff : b.issue E rest valid ts cs = .ok (g, con) ↔
    con = b.contract E rest g ∧ ∃ cb, ContractBuilder.calls E.B cs b.builder = .ok cb ∧ cb.issue E.B (fun g => valid (b.contract E rest g)) false ts = .ok g := by
  unfold Issuing.issue
  constructor
  · intro h
    obtain ⟨cb, h1, h⟩ := except_bind_ok.1 h
    obtain ⟨g', h2, h⟩ := except_bind_ok.1 h
    cases h
    exact ⟨rfl, cb, h1, h2⟩
  · rintro ⟨rfl, cb, h1, h2⟩
    exact except_bind_ok.mpr ⟨cb, h1, except_bind_ok.mpr ⟨g, h2, rfl⟩⟩

theorem genesis_import {H : Commit} {I : Ids} {M : Mpc} {s t : MemStash} {con : Consignment} (hb : con.data.bundles = []) (he : con.data.extensions = []) (ha : con.attachments = [])
    (hn : s.genesis (con.data.genesis.contractId H) = none)
    (hk : ∀ u o, u.schemata = s.schemata → u.ifaces = s.ifaces → u.types = s.types → u.libs = s.libs → Addressed H I u → MemStash.consumeKit I u (MemStash.kitOf con) = some (t, .ok o) → t = u)
    (hA : Addressed H I s) (h : MemStash.consumeConsignment H I M s con = some (t, .ok ())) :
    t = { s with geneses := OMap.insert s.geneses (con.data.genesis.contractId H) con.data.genesis } := by
  obtain ⟨u, a, k1, h1⟩ := bind_ok h
  obtain ⟨u2, a2, k2, h2⟩ := bind_ok h1
  obtain ⟨u3, a3, k3, h3⟩ := bind_ok h2
  obtain ⟨u4, a4, k4, h4⟩ := bind_ok h3
  rw [he] at k2
  rw [hb] at k3
  rw [ha] at k4
  cases k2; cases k3; cases k4
  simp only [MemStash.consumeGenesis, hn, MemStash.replaceGenesis] at k1
  split at k1
  · cases k1
  cases k1
  refine hk _ _ rfl rfl rfl rfl ⟨hA.schema, hA.iface, hA.lib, ?_, hA.extension, hA.bundle, hA.witness, hA.supplements⟩ h4
  intro i g' hg'
  simp only [MemStash.genesis] at hg'
  rw [OMap.get?_insert] at hg'
  split at hg'
  · rename_i e; cases hg'; exact e.symm
  · exact hA.genesis _ _ hg'

end imported

end Rgb
