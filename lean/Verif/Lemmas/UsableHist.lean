import Verif.Lemmas.UsableConsign

/-!
What a history in which everything succeeded leaves in a stock, and nothing else.
-/

namespace Rgb

open MemStash Props Stock

variable {H : Commit} {I : Ids} {M : Mpc} {E : Env} {G : SchemaDoc → SchemaGlobals}

/-! ## Nothing else -/

/-- The stock has no other records than the given ones. -/
structure Only (I : Ids) (E : Env) (bf : Nat → Nat → CloseMethod → WitnessId → Prop) (ofs : Nat → Nat → Nat → Prop)
    (K : Nat → (Nat → Bool) → Prop) (k : Stock) : Prop where
  idx : IdxOnly bf ofs k.index
  keys : KeysAre K k.stash
  docs : Docs I E k.stash

variable {bf : Nat → Nat → CloseMethod → WitnessId → Prop} {ofs : Nat → Nat → Nat → Prop} {K : Nat → (Nat → Bool) → Prop}

theorem Only.empty : Only I E bf ofs K .empty :=
  ⟨⟨(by intro _ _ h; cases h), (by intro _ _ h; simp [Stock.empty, mset] at h), (by intro _ _ _ h; simp [Stock.empty, outSet] at h)⟩,
    (by intro _ _ h; cases h), .empty⟩

theorem only_fasciaBundles (hH : H.Binding) {r : Resolver} {w : WitnessId} (l : List (Nat × Bundle))
    (hp : ∀ e ∈ l, e.2.WF H ∧ ∀ t ∈ OMap.vals e.2.known, t.Proper ∧ t.kind = .transition)
    (hb : ∀ e ∈ l, bf e.1 (e.2.id H) e.2.closeMethod w) (ho : ∀ e ∈ l, ∀ o, OMap.contains e.2.known o = true → ofs e.1 (e.2.id H) o)
    (hK : ∀ e ∈ l, K (e.2.id H) (OMap.contains e.2.known)) {k k' : Stock} (hk : Hist H k) (hs : Only I E bf ofs K k)
    (h : fasciaBundles H r w l k = some (k', none)) : Only I E bf ofs K k' := by
  induction l generalizing k with
  | nil => simp only [fasciaBundles] at h; cases h; exact hs
  | cons x l ih =>
    obtain ⟨c, b⟩ := x
    simp only [fasciaBundles] at h
    split at h
    · cases h
    have k1 := hk.withIndex (.bundle c b w)
    have i1 := hs.idx.step (H := H) (.bundle c b w) (by intro d hd; cases hd)
      (by rintro _ _ _ _ ⟨b', hb', rfl, rfl⟩; cases hb'; exact hb (c, b) (by simp))
      (by rintro _ _ o ⟨b', w', hb', rfl, ho'⟩; cases hb'; exact ho (c, b) (by simp) o ho')
    simp only [IdxOp.exec] at k1 i1
    cases e2 : k.index.indexBundle H c b w with | mk x o
    rw [e2] at k1 i1
    simp only [e2] at h
    cases o with
    | some y => simp only at h; cases h
    | none =>
    simp only at h
    cases e1 : k.state.updateFromBundle H c b w r with
    | none => simp [e1] at h
    | some p =>
    obtain ⟨t, o⟩ := p
    obtain ⟨es, he, hr⟩ := updateFromBundle_run (hp (c, b) (by simp)).2 e1
    have k2 := k1.withState he hr
    cases o with
    | some y => simp only [e1] at h; cases h
    | none =>
    simp only [e1] at h
    cases e3 : k.stash.consumeBundle H b with
    | none => simp [e3] at h
    | some q =>
      obtain ⟨s, o⟩ := q
      have hs' := (step_consumeBundle hH k.stash hk.good b (hp (c, b) (by simp)).1).1 s o e3
      have k3 := k2.withStash hs'.1
      cases o with
      | error y => simp only [e3] at h; cases h
      | ok y =>
        simp only [e3] at h
        obtain ⟨d1, d2, d3⟩ := sameDocs_bundle e3
        exact ih (fun x hx => hp x (by simp [hx])) (fun x hx => hb x (by simp [hx])) (fun x hx => ho x (by simp [hx]))
          (fun x hx => hK x (by simp [hx])) k3
          ⟨i1, keysAre_bundle hH hs.keys hk.good (hp (c, b) (by simp)).1 (hK (c, b) (by simp)) e3, hs.docs.congr d1 d2 d3⟩ h

theorem only_event (hH : H.Binding) {e : StockEvent} (hp : e.Sound H) {k k' : Stock} (hk : Hist H k) (hs : Only I E bf ofs K k)
    (hb : ∀ c b w, e.Brings H c b w → bf c (b.id H) b.closeMethod w)
    (ho : ∀ c b w o, e.Brings H c b w → OMap.contains b.known o = true → ofs c (b.id H) o)
    (hK : ∀ c b w, e.Brings H c b w → K (b.id H) (OMap.contains b.known))
    (hx : ∀ con r, e = .consignment con r → con.data.extensions = [] ∧ ∀ d ∈ con.ifaces, ∀ ty ∈ E.ifaceTypes d.1, ty ∈ con.types)
    (hkit : ∀ x, e = .kit x → ∀ d ∈ x.ifaces, ∀ ty ∈ E.ifaceTypes d, ty ∈ x.types)
    (h : e.Done H I M G k k') : Only I E bf ofs K k' := by
  cases e with
  | consignment con r =>
    obtain ⟨con', hc, hbd⟩ := consignment_done h
    obtain ⟨h0, h1, h2, -, -⟩ := resolve_proper hH _ con con' r hp.proper hc
    obtain ⟨-, d2, -, d4⟩ := resolve_docs hc
    obtain ⟨-, b2⟩ := resolve_brings hH hp.proper hc
    obtain ⟨x1, x2⟩ := hx con r rfl
    have hst := body_stash hbd
    refine ⟨?_, ?_, ?_⟩
    · have i1 := hs.idx.step (H := H) (.consignment con'.data) (by intro d hd; cases hd; exact ⟨h0.1.genesisKind, h2.trans x1⟩)
        (by
          rintro c i m w ⟨b', hb', rfl, rfl⟩
          obtain ⟨b, hb2, hr⟩ := b2 c b' w (brings_consignment.mpr hb')
          rw [hr.id, hr.method]; exact hb _ _ _ hb2)
        (by
          rintro c i o ⟨b', w, hb', rfl, ho'⟩
          obtain ⟨b, hb2, hr⟩ := b2 c b' w (brings_consignment.mpr hb')
          rw [hr.id]; rw [hr.contains] at ho'; exact ho _ _ _ _ hb2 ho')
      have hi : k'.index = (IdxOp.exec H k.index (.consignment con'.data)).1 := by
        simp only [IdxOp.exec]
        simp only [consumeBody] at hbd
        split at hbd
        · cases hbd
        · cases hbd
        split at hbd
        · cases hbd
        rename_i h3
        split at hbd
        · cases hbd
        · cases hbd
        · cases hbd; simp only [h3]
      rw [hi]; exact i1
    · refine keysAre_consignment hH h0.1 (fun wb hw b' hb' => ?_) hs.keys hk.good hst
      obtain ⟨b, hb2, hr⟩ := b2 _ b' _ (.consignment con' r wb b' hw hb')
      have := hK _ _ _ hb2
      rw [hr.id, show OMap.contains b'.known = OMap.contains b.known from funext hr.contains]
      exact this
    · exact docs_consignment hs.docs (fun d hd ty hty => d2 ▸ x2 d (d4 ▸ hd) ty hty) hst
  | fascia f r =>
    obtain ⟨s, u, h1, h2⟩ := fascia_done h
    obtain ⟨s1, -, s3⟩ := step_consumeWitness k.stash hk.good ⟨f.witness, f.anchor⟩
    obtain ⟨d1, d2, d3⟩ := sameDocs_witness h1
    exact only_fasciaBundles hH f.bundles hp.proper (fun x hx => hb _ _ _ (.fascia f r x.1 x.2 hx))
      (fun x hx o ho' => ho _ _ _ _ (.fascia f r x.1 x.2 hx) ho') (fun x hx => hK _ _ _ (.fascia f r x.1 x.2 hx))
      (hk.withStash (s1 s _ h1).1) ⟨hs.idx, keysAre_congr hs.keys (s3 s _ h1), hs.docs.congr d1 d2 d3⟩ h2
  | kit x =>
    obtain ⟨s, h1, rfl⟩ := h
    exact ⟨hs.idx, keysAre_congr hs.keys (bundles_consumeKit h1), docs_kit hs.docs (hkit x rfl) h1⟩
  | secretSeal x =>
    simp only [StockEvent.Done, StockEvent.exec] at h
    obtain ⟨⟨s, o⟩, h1, rfl⟩ := Option.map_eq_some_iff.mp h
    simp only [addSecretSeal] at h1
    cases h1
    exact ⟨hs.idx, keysAre_congr hs.keys rfl, hs.docs.congr rfl rfl rfl⟩
  | trust i t =>
    simp only [StockEvent.Done, StockEvent.exec] at h
    obtain ⟨⟨s, o⟩, h1, rfl⟩ := Option.map_eq_some_iff.mp h
    simp only [setTrust] at h1
    cases h1
    exact ⟨hs.idx, keysAre_congr hs.keys rfl, hs.docs.congr rfl rfl rfl⟩
  | update r n =>
    simp only [StockEvent.Done, StockEvent.exec, Option.some.injEq] at h
    subst h
    exact ⟨hs.idx, hs.keys, hs.docs⟩

/-! ## Histories -/

theorem allDone_hist (hH : H.Binding) (hG : ∀ d, OMap.Sorted (G d).maxItems) (es : List StockEvent) (hp : ∀ e ∈ es, e.Sound H) {k k' : Stock}
    (hk : Hist H k) (h : AllDone H I M G es k k') : Hist H k' ∧ Ext H k k' := by
  induction es generalizing k with
  | nil => cases h; exact ⟨hk, .refl _⟩
  | cons e es ih =>
    obtain ⟨k₁, h1, h2⟩ := h
    have p := (hp e (by simp)).proper
    obtain ⟨i1, i2⟩ := ih (fun x hx => hp x (by simp [hx])) (event_hist hH hG e p hk (done_exec h1)) h2
    exact ⟨i1, (event_ext hH hG e p hk (done_exec h1)).trans i2⟩

theorem allDone_has (hH : H.Binding) (hM : M.Lawful) (hG : ∀ d, OMap.Sorted (G d).maxItems) (es : List StockEvent) (hp : ∀ e ∈ es, e.Sound H)
    {k k' : Stock} (hk : Hist H k) (h : AllDone H I M G es k k') : ∀ e ∈ es, ∃ k₁, Has H I (e.facts H k₁) k' := by
  induction es generalizing k with
  | nil => intro e he; cases he
  | cons e es ih =>
    obtain ⟨k₁, h1, h2⟩ := h
    have p := hp e (by simp)
    have hk1 := event_hist hH hG e p.proper hk (done_exec h1)
    intro e' he'
    rcases List.mem_cons.mp he' with rfl | he'
    · exact ⟨k, (has_event hH hM hG p hk h1).ext (allDone_hist hH hG es (fun x hx => hp x (by simp [hx])) hk1 h2).2⟩
    · exact ih (fun x hx => hp x (by simp [hx])) hk1 h2 e' he'

theorem allDone_only (hH : H.Binding) (hG : ∀ d, OMap.Sorted (G d).maxItems) (es : List StockEvent) (hp : ∀ e ∈ es, e.Sound H)
    {k k' : Stock} (hk : Hist H k) (hs : Only I E bf ofs K k)
    (hb : ∀ e ∈ es, ∀ c b w, e.Brings H c b w → bf c (b.id H) b.closeMethod w)
    (ho : ∀ e ∈ es, ∀ c b w o, e.Brings H c b w → OMap.contains b.known o = true → ofs c (b.id H) o)
    (hK : ∀ e ∈ es, ∀ c b w, e.Brings H c b w → K (b.id H) (OMap.contains b.known))
    (hx : ∀ con r, .consignment con r ∈ es → con.data.extensions = [] ∧ ∀ d ∈ con.ifaces, ∀ ty ∈ E.ifaceTypes d.1, ty ∈ con.types)
    (hkit : ∀ x, .kit x ∈ es → ∀ d ∈ x.ifaces, ∀ ty ∈ E.ifaceTypes d, ty ∈ x.types)
    (h : AllDone H I M G es k k') : Only I E bf ofs K k' := by
  induction es generalizing k with
  | nil => cases h; exact hs
  | cons e es ih =>
    obtain ⟨k₁, h1, h2⟩ := h
    have p := hp e (by simp)
    have hk1 := event_hist hH hG e p.proper hk (done_exec h1)
    refine ih (fun x hx => hp x (by simp [hx])) hk1 ?_ (fun e he => hb e (by simp [he])) (fun e he => ho e (by simp [he]))
      (fun e he => hK e (by simp [he])) (fun con r he => hx con r (by simp [he])) (fun x he => hkit x (by simp [he])) h2
    exact only_event hH p hk hs (hb e (by simp)) (ho e (by simp)) (hK e (by simp)) (fun con r he => hx con r (by simp [he]))
      (fun x he => hkit x (by simp [he])) h1

/-! ## All is ready for consigning -/

structure Facts2 (H : Commit) (I : Ids) (E : Env) (es : List StockEvent) (k : Stock) : Prop where
  hist : Hist H k
  has : ∀ e ∈ es, ∃ k₁, Has H I (e.facts H k₁) k
  only : Only I E (fun c i m w => ∃ e ∈ es, ∃ b, StockEvent.Brings H e c b w ∧ b.id H = i ∧ b.closeMethod = m)
    (fun c i o => ∃ e ∈ es, ∃ b w, StockEvent.Brings H e c b w ∧ b.id H = i ∧ OMap.contains b.known o = true)
    (fun i f => ∀ e ∈ es, ∀ c b w, StockEvent.Brings H e c b w → b.id H = i → ∀ o, OMap.contains b.known o = true → f o = true) k

theorem complete_facts (hH : H.Binding) (hM : M.Lawful) (hG : ∀ d, OMap.Sorted (G d).maxItems) {es : List StockEvent} (hc : Furnished H I E es)
    {k : Stock} (h : AllDone H I M G es .empty k) : Facts2 H I E es k := by
  have hk : Hist H .empty := Stock.Reachable.hist hH ⟨I, M, G, [], hG, by simp, rfl⟩
  refine ⟨(allDone_hist hH hG es hc.sound hk h).1, allDone_has hH hM hG es hc.sound hk h, allDone_only hH hG es hc.sound hk .empty ?_ ?_ ?_ ?_ ?_ h⟩
  · exact fun e he c b w hb => ⟨e, he, b, hb, rfl, rfl⟩
  · exact fun e he c b w o hb ho => ⟨e, he, b, w, hb, rfl, ho⟩
  · exact fun e he c b w hb e' he' c' b' w' hb' hid o ho => hc.same e' he' e he _ _ _ _ _ _ hb' hb hid o ho
  · exact fun con r he => ⟨hc.noExtensions con r he, fun d hd ty hty => hc.types con r he ty (.inr ⟨d, hd, hty⟩)⟩
  · exact hc.kitTypes

theorem Facts2.index {es : List StockEvent} {k : Stock} (hf : Facts2 H I E es k) {e : StockEvent} (he : e ∈ es) {c : Nat} {b : Bundle} {w : WitnessId}
    (hb : e.Brings H c b w) : OMap.get? k.index.bundleContract (b.id H) = some c ∧
      ∃ ws, OMap.get? k.index.bundleWitness (b.id H) = some ws ∧ w ∈ ws := by
  obtain ⟨k₁, hh⟩ := hf.has e he
  obtain ⟨h1, h2⟩ := hh.idx.bC c (b.id H) b.closeMethod w ⟨b, hb, rfl, rfl⟩
  refine ⟨h1, ?_⟩
  simp only [mset] at h2
  cases hw : OMap.get? k.index.bundleWitness (b.id H) with
  | none => simp [hw] at h2
  | some ws => exact ⟨ws, rfl, by simpa [hw] using h2⟩

theorem Facts2.witness {es : List StockEvent} {k : Stock} (hf : Facts2 H I E es k) {i c : Nat} {ws : OSet WitnessId}
    (h1 : OMap.get? k.index.bundleWitness i = some ws) (h2 : OMap.get? k.index.bundleContract i = some c) {w : WitnessId} (hw : w ∈ ws) :
    ∃ e ∈ es, ∃ b, StockEvent.Brings H e c b w ∧ b.id H = i := by
  obtain ⟨c', m, e, he, b, hb, hid, -⟩ := hf.only.idx.bwS i w (by simp only [mset, h1]; exact hw)
  obtain ⟨h3, -⟩ := hf.index he hb
  rw [hid, h2] at h3
  cases h3
  exact ⟨e, he, b, hb, hid⟩

/-- Operations which came in bundles with valid witnesses, together with those whose outputs they spend, can be consigned. -/
theorem Facts2.ready_of (hH : H.Binding) (hE : E.Lawful) {es : List StockEvent} (hc : Furnished H I E es) {k : Stock} (hf : Facts2 H I E es k) {c : Nat}
    {N : Nat → Prop} (hN : ∀ o, N o → ∃ e ∈ es, ∃ b w, StockEvent.Brings H e c b w ∧ OMap.contains b.known o = true ∧
      ∃ e' ∈ es, ∃ b' w', StockEvent.Brings H e' c b' w' ∧ b'.id H = b.id H ∧ k.state.isValidWitness w' = .ok true)
    (hcl : ∀ o, N o → ∀ e ∈ es, ∀ b w t, StockEvent.Brings H e c b w → OMap.get? b.known o = some t → ∀ i ∈ t.inputs, i.op = c ∨ N i.op) : Ready E k c N := by
  refine ⟨?_, ?_⟩
  · intro o hn
    obtain ⟨e, he, b, w, hb, ho, hv⟩ := hN o hn
    obtain ⟨k₁, hh⟩ := hf.has e he
    have h1 := hh.idx.opC c (b.id H) o ⟨b, w, hb, rfl, ho⟩
    obtain ⟨g, hg⟩ := hh.stash.bundle c (b.id H) b.closeMethod w ⟨b, hb, rfl, rfl⟩
    obtain ⟨t, ht⟩ := OMap.contains_iff.mp (hf.only.keys _ _ hg e he c b w hb rfl o ho)
    obtain ⟨hbc, ws, hws, -⟩ := hf.index he hb
    have hwit : ∀ e' ∈ es, ∀ b' w', StockEvent.Brings H e' c b' w' → b'.id H = b.id H →
        ∃ ord, OMap.get? k.state.witnesses w' = some ord := by
      intro e' he' b' w' hb' hid
      obtain ⟨k₂, hh'⟩ := hf.has e' he'
      exact OMap.contains_iff.mp (hh'.st.wit c _ _ _ ⟨b', hb', rfl, rfl⟩)
    obtain ⟨cb, hcb⟩ := clientBundle_complete hE hws hbc hg (fun w' hw' => by
        obtain ⟨e', he', b', hb', hid⟩ := hf.witness hws hbc hw'
        obtain ⟨k₂, hh'⟩ := hf.has e' he'
        obtain ⟨sw, h2, h3⟩ := hh'.stash.wit c _ _ _ ⟨b', hb', rfl, rfl⟩
        refine ⟨hwit e' he' b' w' hb' hid, sw, h2, ?_⟩
        have hm := (hH.bundle_inj _ _ _ _ ((hf.hist.good.bundle _ _ hg).1.trans hid.symm)).1
        rw [hm]; exact h3) (by
        obtain ⟨e', he', b', w', hb', hid, hval⟩ := hv
        obtain ⟨ord, ho⟩ := hwit e' he' b' w' hb' hid
        obtain ⟨-, ws', hws', hm⟩ := hf.index he' hb'
        rw [hid, hws] at hws'
        cases hws'
        refine ⟨w', hm, ord, ho, ?_⟩
        simpa [MemState.isValidWitness, ho] using hval)
    exact ⟨_, t, cb, ⟨h1, g, hg, ht⟩, hcb⟩
  · intro o b t hn hk p hp hpc
    obtain ⟨e, he, b₀, w, hb, ho, -⟩ := hN o hn
    obtain ⟨t₀, ht₀⟩ := OMap.contains_iff.mp ho
    simp only [Stock.parents, List.mem_map] at hp
    obtain ⟨i, hi, rfl⟩ := hp
    have hwf : b₀.WF H := by
      have hpr := (hc.sound e he).proper
      cases hb with
      | consignment con r wb _ hw hb => exact hpr.1.bundles wb hw _ hb
      | fascia f r _ _ hb => exact (hpr _ hb).1
    have hid : t.id H = t₀.id H := (hk.id hf.hist.good).trans (hwf.keyed _ _ ht₀).1.symm
    have hin : t.inputs = t₀.inputs := by
      have := congrArg Op.inputs (id_conceal hH hid)
      exact this
    exact (hcl o hn e he b₀ w t₀ hb ht₀ i (hin ▸ hi)).resolve_left hpc

theorem ifaceByName_some {s : MemStash} (hd : Docs I E s) {i : Nat} {d : IfaceDoc} (h : s.ifaceById i = some d) :
    ∃ d' j, s.ifaceByName d.name = some d' ∧ s.ifaceById j = some d' := by
  have hm : d ∈ OMap.vals s.ifaces := List.mem_map.mpr ⟨_, OMap.mem_of_get? h, rfl⟩
  simp only [ifaceByName]
  cases hf : (OMap.vals s.ifaces).find? (fun x => decide (x.name = d.name)) with
  | none => have := List.find?_eq_none.mp hf d hm; simp at this
  | some d' =>
    have := List.mem_of_find?_eq_some hf
    obtain ⟨j, hj⟩ := (mem_vals hd.sorted).mp this
    exact ⟨d', j, rfl, hj⟩

theorem Facts2.documents (hI : Ids.Lawful H I) {es : List StockEvent} (hc : Furnished H I E es) {k : Stock}
    (hf : Facts2 H I E es k) {c : Nat} (himp : Imported H es c) :
    ∃ g si, k.stash.genesis c = some g ∧ k.stash.schema (I.genesisSchema g) = some si ∧
      (∀ e ∈ si.iimpls, ∃ d, k.stash.ifaceByName e.1 = some d ∧ ∀ t ∈ E.ifaceTypes d, t ∈ k.stash.types) ∧
      (∀ t ∈ E.schemaTypes si.doc, t ∈ k.stash.types) ∧ (∀ l ∈ E.schemaLibs si.doc, (k.stash.lib l).isSome = true) := by
  obtain ⟨con, r, he, rfl⟩ := himp
  obtain ⟨k₁, hh⟩ := hf.has _ he
  have hd : (StockEvent.facts H k₁ (.consignment con r)).d con.data.genesis con.schema con.types con.scripts := ⟨con, r, rfl, rfl, rfl, rfl, rfl⟩
  obtain ⟨g, hg, hsh⟩ := hh.stash.gen _ _ _ _ hd
  have hsc : I.genesisSchema g = I.schema con.schema := (hI.genesis _ _ hsh.id).trans (hc.schema con r he).symm
  obtain ⟨si, hsi⟩ := Option.isSome_iff_exists.mp (hh.stash.schema _ _ _ _ hd)
  have hdoc : si.doc = con.schema := hI.schema_inj _ _ (hf.only.docs.addressed _ _ hsi)
  refine ⟨g, si, hg, hsc ▸ hsi, fun e hm => ?_, fun ty hty => ?_, fun l hl => ?_⟩
  · obtain ⟨j, d, hj, hn⟩ := hf.only.docs.named _ _ hsi e hm
    obtain ⟨d', j', h1, h2⟩ := ifaceByName_some hf.only.docs hj
    exact ⟨d', hn ▸ h1, hf.only.docs.typed _ _ h2⟩
  · exact hh.stash.types _ _ _ _ hd ty (hc.types con r he ty (.inl (hdoc ▸ hty)))
  · obtain ⟨x, hx, rfl⟩ := List.mem_map.mp (hc.libs con r he l (hdoc ▸ hl))
    exact hh.stash.libs _ _ _ _ hd x hx

end Rgb

namespace Rgb.Stock

variable {H : Commit} {E : Env} {k : Stock}

theorem timesTo_eq (t : Op) (s : Nat) : t.timesTo H s = (secretSeals H t).count s := by
  simp only [Op.timesTo, secretSeals, OMap.vals, List.count_eq_countP, ← List.countP_eq_length_filter, List.flatMap_map]
  induction t.assigns with
  | nil => rfl
  | cons a l ih =>
    simp only [List.flatMap_cons, List.countP_append, ih, List.countP_map]
    congr 1

theorem sorted_nodup {s : OSet Opout} (h : OSet.Sorted s) : s.Nodup :=
  List.Pairwise.imp (fun {a b} hab e => by rw [e, Key.lt_irrefl] at hab; cases hab) h

theorem requested_of_ops {c : Nat} {outputs : List Outpoint} {secret : Option Nat} (hpub : ∀ l, k.index.publicOpouts c = .ok l → l = [])
    {l : OSet Opout} (h : k.index.opoutsByOutputs c outputs = .ok l) :
    ∃ os : List Opout, consignOps k c outputs secret = .ok (os.map (fun o => o.op)) ∧ os.Nodup ∧ ∀ o, o ∈ os ↔ Requested k c outputs secret o := by
  have hp : k.index.publicOpouts c = .ok [] := by
    simp only [Index.opoutsByOutputs] at h
    cases hc : OMap.get? k.index.contracts c with
    | none => simp [hc] at h
    | some ci =>
      have h1 : k.index.publicOpouts c = .ok ci.publicOpouts := by simp [Index.publicOpouts, hc]
      rw [h1, hpub _ h1]
  refine ⟨_, by simp only [consignOps, hp, h]; rfl, sorted_nodup ?_, fun o => ?_⟩
  · exact OSet.Sorted.extend (OSet.Sorted.extend List.Pairwise.nil _) _
  · simp only [OSet.mem_extend, List.not_mem_nil, false_or, Requested, h, Except.ok.injEq, exists_eq_left']
    cases secret with
    | none => simp [Index.opoutsByTerminals, OSet.mem_ofList]
    | some s => simp

theorem onceEach_iff {c : Nat} {outputs : List Outpoint} {secret : Option Nat} {os : List Opout} (hnd : os.Nodup)
    (hos : ∀ o, o ∈ os ↔ Requested k c outputs secret o) :
    OnceEach H k c secret (os.map (fun o => o.op)) ↔ ∀ s, secret = some s → OncePerBundle H k c outputs s := by
  constructor
  · intro h s hs
    obtain ⟨h1, h2⟩ := h s hs
    subst hs
    refine ⟨fun o b t ho hoc hk => ?_, fun o o' b t t' ho ho' hne hoc hoc' hk hk' => ?_⟩
    · rw [timesTo_eq]; exact h1 o.op (List.mem_map.mpr ⟨o, (hos o).mpr ho, rfl⟩) hoc b t hk
    · rw [← mem_secretSeals, ← mem_secretSeals]
      rw [List.pairwise_map] at h2
      have h3 : os.Pairwise (fun o o' => o.op ≠ c → o'.op ≠ c → ∀ b t t', Knows k o.op b t → Knows k o'.op b t' →
          ¬ (s ∈ secretSeals H t ∧ s ∈ secretSeals H t')) := h2
      rcases List.pairwise_iff_getElem.mp h3 with h4
      obtain ⟨i, hi, ei⟩ := List.mem_iff_getElem.mp ((hos o).mpr ho)
      obtain ⟨j, hj, ej⟩ := List.mem_iff_getElem.mp ((hos o').mpr ho')
      rcases Nat.lt_trichotomy i j with hij | hij | hij
      · have := h4 i j hi hj hij
        rw [ei, ej] at this
        exact this hoc hoc' b t t' hk hk'
      · subst hij; exact absurd (ei.symm.trans ej) hne
      · have := h4 j i hj hi hij
        rw [ei, ej] at this
        exact fun hm => this hoc' hoc b t' t hk' hk ⟨hm.2, hm.1⟩
  · intro h s hs
    have h0 := h s hs
    subst hs
    refine ⟨fun x hx hxc b t hk => ?_, ?_⟩
    · obtain ⟨o, ho, rfl⟩ := List.mem_map.mp hx
      rw [← timesTo_eq]; exact h0.once o b t ((hos o).mp ho) hxc hk
    · rw [List.pairwise_map]
      refine List.Pairwise.imp_of_mem ?_ hnd
      intro o o' ho ho' hne hoc hoc' b t t' hk hk'
      rw [mem_secretSeals, mem_secretSeals]
      exact h0.apart o o' b t t' ((hos o).mp ho) ((hos o').mp ho') hne hoc hoc' hk hk'

end Rgb.Stock

namespace Rgb

open MemStash Props Stock

variable {H : Commit} {I : Ids} {M : Mpc} {E : Env} {G : SchemaDoc → SchemaGlobals}

/-- The outputs found at the outpoints are of the genesis or of what came. -/
theorem Facts2.outs {es : List StockEvent} {k : Stock} (hf : Facts2 H I E es k) {c : Nat} {outputs : List Outpoint} {l : OSet Opout}
    (h : k.index.opoutsByOutputs c outputs = .ok l) : ∀ o ∈ l, o.op = c ∨ Came H es c o.op := by
  intro o ho
  simp only [Index.opoutsByOutputs] at h
  cases hc : OMap.get? k.index.contracts c with
  | none => simp [hc] at h
  | some ci =>
    simp only [hc] at h
    rcases byOutputs_sound h o ho with ho | ⟨s, set, h1, -, h2⟩
    · cases ho
    obtain ⟨ops, hops⟩ := hf.hist.index
    have hinv : IdxInv k.index := hops ▸ run_inv H ops {} ⟨.nil, .nil, by simp, by simp, by simp, by simp⟩
    have h3 := (hinv.sorted c ci hc).get?_of_mem h1
    have h4 : o ∈ outSet k.index c s := by simp [outSet, hc, mset, h3, h2]
    rcases hf.only.idx.outS c s o h4 with h | ⟨i, e, he, b, w, hb, -, hm⟩
    · exact .inl h
    · exact .inr ⟨e, he, b, w, hb, hm⟩

/-- All together, for a set of operations. -/
theorem transfer_ready (hH : H.Binding) (hM : M.Lawful) (hG : ∀ d, OMap.Sorted (G d).maxItems) (hI : Ids.Lawful H I) (hE : E.Lawful)
    {es : List StockEvent} (hc : Furnished H I E es) {k : Stock} (h : AllDone H I M G es .empty k) {c : Nat} (himp : Imported H es c)
    {N : Nat → Prop} (hN : ∀ o, N o → ∃ e ∈ es, ∃ b w, StockEvent.Brings H e c b w ∧ OMap.contains b.known o = true ∧
      ∃ e' ∈ es, ∃ b' w', StockEvent.Brings H e' c b' w' ∧ b'.id H = b.id H ∧ k.state.isValidWitness w' = .ok true)
    (hcl : ∀ o, N o → ∀ e ∈ es, ∀ b w t, StockEvent.Brings H e c b w → OMap.get? b.known o = some t → ∀ i ∈ t.inputs, i.op = c ∨ N i.op)
    (hu : ∀ e ∈ es, ∀ e' ∈ es, ∀ b b' w, StockEvent.Brings H e c b w → StockEvent.Brings H e' c b' w → b.closeMethod = b'.closeMethod → b.id H = b'.id H)
    {outputs : List Outpoint} {l : OSet Opout} (hl : k.index.opoutsByOutputs c outputs = .ok l) {secret : Option Nat}
    (hreq : ∀ o, Requested k c outputs secret o → o.op = c ∨ N o.op) (hfew : FewIfaces I k c) (fuel : Nat) :
    ((∀ s, secret = some s → OncePerBundle H k c outputs s) → ∀ e, k.transfer H I E fuel c outputs secret ≠ some (.error e)) ∧
    (¬ (∀ s, secret = some s → OncePerBundle H k c outputs s) → k.transfer H I E fuel c outputs secret = some (.error .panic)) := by
  have hf := complete_facts hH hM hG hc h
  have hr := hf.ready_of hH hE hc hN hcl
  have hg := hf.hist.good
  obtain ⟨os, ho, hnd, hos⟩ := requested_of_ops (secret := secret) (fun l => public_nil hf.hist.index c l) hl
  have hn : ∀ o ∈ os.map (fun o => o.op), o ≠ c → N o := by
    intro x hx hxc
    obtain ⟨o, hmem, rfl⟩ := List.mem_map.mp hx
    exact (hreq o ((hos o).mp hmem)).resolve_left hxc
  constructor
  · intro hone
    obtain ⟨g, si, d1, d2, d3, d4, d5⟩ := hf.documents hI hc himp
    refine consign_complete hg hr ho hn ((onceEach_iff hnd hos).mpr hone) ?_ d1 d2 d3 d4 d5 (hfew g si d1 d2) fuel
    intro o o' b b' t t' cb cb' n n' kn kn' hcb hcb' hne w s1 s2 hm
    have came : ∀ {o b t}, N o → Knows k o b t → OMap.get? k.index.bundleContract b = some c := by
      intro o b t hn hk
      obtain ⟨e, he, b₀, w, hb, hm, -⟩ := hN o hn
      obtain ⟨k₁, hh⟩ := hf.has e he
      have h1 := hh.idx.opC c (b₀.id H) o ⟨b₀, w, hb, rfl, hm⟩
      have h2 := hk.1
      rw [h1] at h2; cases h2
      exact (hf.index he hb).1
    have sel : ∀ {b : Nat} {cb : ClientBundle}, OMap.get? k.index.bundleContract b = some c → clientBundle E k b = .ok cb → Sel H k cb w →
        ∃ e ∈ es, ∃ b₁, StockEvent.Brings H e c b₁ w ∧ b₁.id H = b ∧ b₁.closeMethod = cb.dbc.method := by
      rintro b cb hbc hcb ⟨ws, h1, h2⟩
      obtain ⟨g1, ws', c', w', sw, a, i1, i2, i3, i4, i5, i6, -⟩ := clientBundle_ok hcb
      have hid := (hg.bundle _ _ g1).1
      rw [hid] at h1
      obtain ⟨e, he, b₁, hb₁, hid₁⟩ := hf.witness h1 hbc (selectValid_ok h2).1
      refine ⟨e, he, b₁, hb₁, hid₁, ?_⟩
      rw [i6]
      exact (hH.bundle_inj _ _ _ _ (hid₁.trans hid.symm)).1
    obtain ⟨e, he, b₁, hb₁, hid₁, hm₁⟩ := sel (came n kn) hcb s1
    obtain ⟨e', he', b₂, hb₂, hid₂, hm₂⟩ := sel (came n' kn') hcb' s2
    exact hne (by rw [← hid₁, ← hid₂]; exact hu e he e' he' b₁ b₂ w hb₁ hb₂ (by rw [hm₁, hm₂, hm]))
  · intro hone
    exact consign_panics hg hr ho hn (fun h1 => hone ((onceEach_iff hnd hos).mp h1)) fuel

/-- All together. -/
theorem transfer_complete (hH : H.Binding) (hM : M.Lawful) (hG : ∀ d, OMap.Sorted (G d).maxItems) (hI : Ids.Lawful H I) (hE : E.Lawful)
    {es : List StockEvent} (hc : Complete H I E es) {k : Stock} (h : AllDone H I M G es .empty k) {c : Nat} (himp : Imported H es c)
    (hv : ∀ e ∈ es, ∀ b w, StockEvent.Brings H e c b w → ∃ e' ∈ es, ∃ b' w', StockEvent.Brings H e' c b' w' ∧ b'.id H = b.id H ∧
      k.state.isValidWitness w' = .ok true)
    (hu : ∀ e ∈ es, ∀ e' ∈ es, ∀ b b' w, StockEvent.Brings H e c b w → StockEvent.Brings H e' c b' w → b.closeMethod = b'.closeMethod → b.id H = b'.id H)
    {outputs : List Outpoint} {l : OSet Opout} (hl : k.index.opoutsByOutputs c outputs = .ok l) {secret : Option Nat}
    (ht : ∀ s, secret = some s → ∀ o ∈ k.index.opoutsByTerminals [s], o.op = c ∨ Came H es c o.op) (hfew : FewIfaces I k c) (fuel : Nat) :
    ((∀ s, secret = some s → OncePerBundle H k c outputs s) → ∀ e, k.transfer H I E fuel c outputs secret ≠ some (.error e)) ∧
    (¬ (∀ s, secret = some s → OncePerBundle H k c outputs s) → k.transfer H I E fuel c outputs secret = some (.error .panic)) := by
  have hf := complete_facts hH hM hG hc.toFurnished h
  refine transfer_ready hH hM hG hI hE hc.toFurnished h himp (N := Came H es c) ?_ ?_ hu hl ?_ hfew fuel
  · rintro o ⟨e, he, b, w, hb, ho⟩
    exact ⟨e, he, b, w, hb, ho, hv e he b w hb⟩
  · intro o _ e he b w t hb ht i hi
    rcases hc.closed e he c b w o t hb ht i hi with h | ⟨e', he', b', w', hb', h⟩
    · exact .inl h
    · exact .inr ⟨e', he', b', w', hb', h⟩
  · rintro o (⟨l', h1, h2⟩ | ⟨s, h1, h2⟩)
    · exact hf.outs h1 o h2
    · exact ht s h1 o h2

end Rgb
