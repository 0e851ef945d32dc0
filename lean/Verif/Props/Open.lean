import Verif.Lemmas.Open
import Verif.Props.Export

/-! # C76: contracts through interfaces -/

namespace Rgb.Props
open Rgb MemStash

variable {H : Commit} {I : Ids} {M : Mpc} {G : SchemaDoc → SchemaGlobals} {E : Stock.Env} {k : Stock}

theorem get_isSome {si : SchemaIfaces} {i : Nat} : (si.get i).isSome = true ↔ ∃ x ∈ OMap.vals si.iimpls, x.ifaceId = i := by
  simp only [SchemaIfaces.get, List.find?_isSome, decide_eq_true_eq]

theorem get_none {si : SchemaIfaces} {i : Nat} : si.get i = none ↔ ∀ x ∈ OMap.vals si.iimpls, x.ifaceId ≠ i := by
  simp only [SchemaIfaces.get, List.find?_eq_none, decide_eq_true_eq, ne_eq]

theorem get_some {si : SchemaIfaces} {i : Nat} {x : IimplDoc} (h : si.get i = some x) : x ∈ OMap.vals si.iimpls ∧ x.ifaceId = i :=
  ⟨List.mem_of_find?_eq_some h, by simpa using List.find?_some h⟩

theorem findSome_last {α β : Type} (f : α → Option β) (l : List α) {y : β} (h : l.reverse.findSome? f = some y) :
    ∃ before a after, l = before ++ a :: after ∧ f a = some y ∧ ∀ b ∈ after, f b = none := by
  induction l with
  | nil => cases h
  | cons a l ih =>
    simp only [List.reverse_cons, List.findSome?_append, Option.or_eq_some_iff] at h
    rcases h with h | ⟨h1, h2⟩
    · obtain ⟨b, x, c, e1, e2, e3⟩ := ih h
      exact ⟨a :: b, x, c, by simp [e1], e2, e3⟩
    · refine ⟨[], a, l, rfl, ?_, fun b hb => ?_⟩
      · simp only [List.findSome?_cons, List.findSome?_nil] at h2
        cases hf : f a with
        | none => simp [hf] at h2
        | some z => simpa [hf] using h2
      · exact List.findSome?_eq_none_iff.mp h1 b (by simpa using hb)

theorem find_best {si : SchemaIfaces} {d : IfaceDoc} {x : IimplDoc} (h : findAbstractable I d si = some x) : si.Best I d x := by
  simp only [findAbstractable, Option.or_eq_some_iff] at h
  rcases h with h | ⟨h1, h2⟩
  · exact ⟨(get_some h).1, .inl (get_some h).2⟩
  · obtain ⟨b, p, a, e1, e2, e3⟩ := findSome_last _ _ h2
    obtain ⟨f1, f2⟩ := get_some e2
    exact ⟨f1, .inr ⟨get_none.mp h1, b, a, by rw [f2]; exact e1, fun q hq => get_none.mp (e3 q hq)⟩⟩

theorem find_isSome {si : SchemaIfaces} {d : IfaceDoc} : (findAbstractable I d si).isSome = true ↔ si.Implements I d := by
  simp only [findAbstractable, Option.isSome_or, Bool.or_eq_true, List.findSome?_isSome_iff, get_isSome, SchemaIfaces.Implements, List.mem_reverse]
  constructor
  · rintro (⟨x, hx, h⟩ | ⟨p, hp, x, hx, h⟩)
    · exact ⟨x, hx, .inl h⟩
    · exact ⟨x, hx, .inr (h ▸ hp)⟩
  · rintro ⟨x, hx, h | h⟩
    · exact .inl ⟨x, hx, h⟩
    · exact .inr ⟨_, h, x, hx, rfl⟩

/-- What there is for opening a contract. -/
theorem open_facts (hH : H.Binding) (hM : M.Lawful) (hG : ∀ d, OMap.Sorted (G d).maxItems) (hI : Ids.Lawful H I) (hL : GlobalsLawful I G)
    {es : List StockEvent} {c : Nat} (hc : Complete H I E es) (h : AllDone H I M G es .empty k) (himp : Imported H es c) :
    ∃ g si v, k.stash.genesis c = some g ∧ g.contractId H = c ∧ k.stash.schema (I.genesisSchema g) = some si ∧ I.schema si.doc = I.genesisSchema g ∧
      k.state.contractState c = .ok v ∧ k.contractRaw c = .ok (si, v, g) ∧
      (∀ ty, OMap.contains v.unfiltered.global ty = OMap.contains (G si.doc).maxItems ty) ∧
      (∀ d j, k.stash.ifaceById j = some d → ∃ p, Stock.extract E k.stash si.doc [d] = .ok p ∧ ∀ t, t ∈ p.1 ↔ t ∈ E.schemaTypes si.doc ∨ t ∈ E.ifaceTypes d) := by
  have hf := complete_facts hH hM hG hc.toFurnished h
  have hrun := allDone_run es h
  have hprop : ∀ e ∈ es, StockEvent.Proper H e := fun e he => (hc.sound e he).proper
  have kept := runStock_kept hH hG es hprop kept_empty hrun
  have hsch := runStock_schemas hH hI hG es hprop (fun e he con r hcon => hc.schema con r (hcon ▸ he)) (k := .empty) (by intro c cs h; cases h) hrun
  obtain ⟨g, si, d1, d2, d3, d4, d5⟩ := hf.documents hI hc.toFurnished himp
  have hdoc := hf.only.docs.addressed _ _ d2
  obtain ⟨hid, hkind, -⟩ := kept.hist.good.genesis _ _ d1
  have hcon : OMap.contains k.state.contracts c = true := by
    obtain ⟨con, r, he, rfl⟩ := himp
    obtain ⟨k₁, hh⟩ := hf.has _ he
    exact hh.st.con _ ⟨con, r, rfl, rfl⟩
  obtain ⟨cs, hcs⟩ := OMap.contains_iff.mp hcon
  have hv : ∃ v, k.state.contractState c = .ok v ∧ v.unfiltered = cs := ⟨_, by simp only [MemState.contractState, hcs]; rfl, rfl⟩
  obtain ⟨v, hv, hvu⟩ := hv
  obtain ⟨sd, s1, s2, s3⟩ := hsch c cs hcs
  have hsd : sd = si.doc := hI.schema_inj _ _ ((s3 g hkind hid).symm.trans hdoc.symm)
  subst hsd
  have hs : v.unfiltered.schema = I.genesisSchema g := by rw [hvu, s1, hL, hdoc]
  refine ⟨g, si, v, d1, hid, d2, hdoc, hv, ?_, fun ty => ?_, fun d j hd => ?_⟩
  · simp only [Stock.contractRaw, hv, hs, d2, d1]
  · rw [hvu]
    have := s2 ty
    simp only [OMap.contains]
    rw [← this]
    cases OMap.get? cs.global ty <;> rfl
  · obtain ⟨p, hp⟩ := Stock.extract_complete (ifaces := [d]) d4 (by
      intro d' hd' t ht
      simp only [List.mem_singleton] at hd'
      subst hd'
      exact hf.only.docs.typed _ _ hd t ht) d5
    refine ⟨p, hp, fun t => ?_⟩
    simp only [Stock.extract] at hp
    split at hp
    · cases hp
    · split at hp
      · cases hp
      · cases hp
        simp only [OSet.mem_ofList, List.mem_append, List.flatMap_cons, List.flatMap_nil, List.append_nil]

theorem iface_byId (hk : Impls k.stash) {r : IfaceRef} {d : IfaceDoc} (h : k.stash.iface r = some d) : ∃ j, k.stash.ifaceById j = some d := by
  cases r with
  | id i => exact ⟨i, h⟩
  | name n =>
    simp only [MemStash.iface, ifaceByName] at h
    exact (Stock.mem_vals hk.sorted).mp (List.mem_of_find?_eq_some h)

theorem findSome_first {α β : Type} (f : α → Option β) (l : List α) {y : β} (h : l.findSome? f = some y) :
    ∃ before a after, l = before ++ a :: after ∧ f a = some y ∧ ∀ b ∈ before, f b = none := by
  induction l with
  | nil => cases h
  | cons a l ih =>
    rw [List.findSome?_cons] at h
    split at h
    · rename_i z hz; cases h
      exact ⟨[], a, l, rfl, hz, by simp⟩
    · rename_i hz
      obtain ⟨b, c, d, h1, h2, h3⟩ := ih h
      exact ⟨a :: b, c, d, by rw [h1]; rfl, h2, by simpa [hz] using h3⟩

theorem implFor_best {s : MemStash} {ids : List Nat} {si : SchemaIfaces} {x : IimplDoc} (h : implFor I s ids si = some x) :
    si.BestFor I s ids x := by
  simp only [implFor, Option.or_eq_some_iff] at h
  rcases h with h | ⟨h0, h⟩
  · obtain ⟨h1, b, a, h2, h3⟩ := List.find?_eq_some_iff_append.mp h
    exact ⟨List.mem_of_find?_eq_some h, .inl ⟨by simpa using h1, b, a, h2, fun y hy => by simpa using h3 y hy⟩⟩
  · obtain ⟨b, i, a, h1, h2, h3⟩ := findSome_first _ ids h
    obtain ⟨d, h4, h5⟩ := Option.bind_eq_some_iff.mp h2
    refine ⟨(find_best h5).1, .inr ⟨fun y hy => by simpa using List.find?_eq_none.mp h0 y hy, b, i, d, a, h1, h4, find_best h5, fun p hp e he hno => ?_⟩⟩
    have h6 := h3 p hp
    rw [he, Option.bind_some] at h6
    have := find_isSome.mpr hno
    rw [h6] at this
    cases this

/-- **C76** (opening a contract). A stock got its contents by events of which nothing was missing, without errors. Then a contract which came with its genesis is opened through each interface the stock
knows which its schema implements, directly or by an interface it inherits, and through no other. What is opened is this contract, and the implementation is the best one. -/
theorem C76_opened (hH : H.Binding) (hM : M.Lawful) (hG : ∀ d, OMap.Sorted (G d).maxItems) (hI : Ids.Lawful H I) (hL : GlobalsLawful I G)
    {es : List StockEvent} {c : Nat} (hc : Complete H I E es) (h : AllDone H I M G es .empty k) (himp : Imported H es c)
    {r : IfaceRef} {d : IfaceDoc} (hd : k.stash.iface r = some d) :
    ∃ g si, k.stash.genesis c = some g ∧ k.stash.schema (I.genesisSchema g) = some si ∧
      (si.Implements I d → ∃ o, k.contractIface I E c r = .ok o ∧ o.Of H I E k c d ∧ si.Best I d o.impl) ∧
      (¬ si.Implements I d → k.contractIface I E c r = .error (.noAbstractImpl (I.iface d) (I.genesisSchema g))) := by
  obtain ⟨g, si, v, a1, a2, a3, a4, a5, a6, -, a7⟩ := open_facts hH hM hG hI hL hc h himp
  have kept := runStock_kept hH hG es (fun e he => (hc.sound e he).proper) kept_empty (allDone_run es h)
  obtain ⟨j, hj⟩ := iface_byId kept.impls hd
  obtain ⟨p, p1, p2⟩ := a7 d j hj
  refine ⟨g, si, a1, a3, fun himpl => ?_, fun hno => ?_⟩
  · obtain ⟨x, hx⟩ := Option.isSome_iff_exists.mp (find_isSome.mpr himpl)
    refine ⟨⟨v, si.doc, x, p.1, g⟩, by simp only [Stock.contractIface, a6, hd, hx, p1], ⟨a1, a2, ⟨si, a3, rfl, (find_best hx).1⟩, a5, p2⟩, find_best hx⟩
  · have hx : findAbstractable I d si = none := by
      cases hx : findAbstractable I d si with
      | none => rfl
      | some x => exact absurd (find_isSome.mp (by rw [hx]; rfl)) hno
    simp only [Stock.contractIface, a6, hd, hx, a4]

/-- **C76** (opening by a class). Such a contract is opened through a class of interfaces if its schema supports the class, with the implementation which comes
first for the class, and isn't otherwise. -/
theorem C76_class (hH : H.Binding) (hM : M.Lawful) (hG : ∀ d, OMap.Sorted (G d).maxItems) (hI : Ids.Lawful H I) (hL : GlobalsLawful I G)
    {es : List StockEvent} {c : Nat} (hc : Complete H I E es) (h : AllDone H I M G es .empty k) (himp : Imported H es c) (ids : List Nat) :
    ∃ g si, k.stash.genesis c = some g ∧ k.stash.schema (I.genesisSchema g) = some si ∧
      (k.stash.Supports I ids si → ∃ o d, k.contractIfaceClass I E c ids = .ok o ∧ k.stash.ifaceById o.impl.ifaceId = some d ∧ o.Of H I E k c d ∧
        si.BestFor I k.stash ids o.impl) ∧
      (¬ k.stash.Supports I ids si → k.contractIfaceClass I E c ids = .error (.noAbstractImpl (ids.headD 0) (I.genesisSchema g))) := by
  obtain ⟨g, si, v, a1, a2, a3, a4, a5, a6, -, a7⟩ := open_facts hH hM hG hI hL hc h himp
  have kept := runStock_kept hH hG es (fun e he => (hc.sound e he).proper) kept_empty (allDone_run es h)
  obtain ⟨-, -, l3, l4⟩ := C62_listing_by_interface I k.stash ids
  refine ⟨g, si, a1, a3, fun hs => ?_, fun hno => ?_⟩
  · obtain ⟨x, hx⟩ := (l3 si).mpr hs
    have hm := l4 si x hx
    obtain ⟨e, he, rfl⟩ := List.mem_map.mp hm
    obtain ⟨-, d, hd, -⟩ := (kept.impls.impls _ si a3).2 e he
    obtain ⟨p, p1, p2⟩ := a7 d _ hd
    refine ⟨⟨v, si.doc, e.2, p.1, g⟩, d, ?_, hd, ⟨a1, a2, ⟨si, a3, rfl, hm⟩, a5, p2⟩, implFor_best hx⟩
    simp only [Stock.contractIfaceClass, a6, hx, MemStash.iface, hd, p1]
  · have hx : implFor I k.stash ids si = none := by
      cases hx : implFor I k.stash ids si with
      | none => rfl
      | some x => exact absurd ((l3 si).mp ⟨x, hx⟩) hno
    simp only [Stock.contractIfaceClass, a6, hx, a4]

theorem filterMap_all {α β γ : Type} (f : α → Option β) (p : β → γ) (q : α → γ) (l : List α) (h : ∀ a ∈ l, ∃ b, f a = some b ∧ p b = q a) :
    (l.filterMap f).map p = l.map q := by
  induction l with
  | nil => rfl
  | cons a l ih =>
    obtain ⟨b, h1, h2⟩ := h a (by simp)
    rw [List.filterMap_cons_some h1, List.map_cons, List.map_cons, h2, ih (fun x hx => h x (by simp [hx]))]

/-- **C76** (listing). In such a stock the contracts listed for a class of interfaces are exactly those of the stock whose schema supports the class, each once and each opened; none is left out silently. -/
theorem C76_listed (hH : H.Binding) (hM : M.Lawful) (hG : ∀ d, OMap.Sorted (G d).maxItems) (hI : Ids.Lawful H I) (hL : GlobalsLawful I G)
    {es : List StockEvent} (hc : Complete H I E es) (h : AllDone H I M G es .empty k) (ids : List Nat) :
    (∀ g, g ∈ (k.contractsBy H I E ids).map Opened.genesis ↔ ∃ c si, k.stash.genesis c = some g ∧ k.stash.schema (I.genesisSchema g) = some si ∧ k.stash.Supports I ids si) ∧
    ((k.contractsBy H I E ids).map (fun o => o.genesis.contractId H)).Nodup ∧
    ∀ o ∈ k.contractsBy H I E ids, ∃ d, k.stash.ifaceById o.impl.ifaceId = some d ∧ o.Of H I E k (o.genesis.contractId H) d := by
  have kept := runStock_kept hH hG es (fun e he => (hc.sound e he).proper) kept_empty (allDone_run es h)
  have hord := kept.ordered
  have haddr := kept.addressed
  obtain ⟨-, l2, l3, l4⟩ := C62_listing_by_interface I k.stash ids
  have all : ∀ g ∈ genesesBy I k.stash ids, ∃ o d, Stock.openedBy H I E k ids g = some o ∧ o.genesis = g ∧
      k.stash.ifaceById o.impl.ifaceId = some d ∧ o.Of H I E k (g.contractId H) d := by
    intro g hg
    obtain ⟨h1, si, h2, h3, h4⟩ := (l2 g).mp hg
    obtain ⟨c, hgc⟩ := (Stock.mem_vals hord.geneses).mp h1
    obtain ⟨i, hsi⟩ := (Stock.mem_vals hord.schemata).mp h2
    have hcid := (kept.hist.good.genesis _ _ hgc).1
    have himp := runStock_imported hH hG es (fun e he => (hc.sound e he).proper) (allDone_run es h) hgc
    obtain ⟨g', si', b1, b2, b3, -⟩ := C76_class hH hM hG hI hL hc h himp ids
    have hgg : g' = g := by rw [show OMap.get? k.stash.geneses c = k.stash.genesis c from rfl, b1] at hgc; exact Option.some.inj hgc
    subst hgg
    have hii : i = I.genesisSchema g' := (haddr.schema i si hsi).symm.trans h4
    subst hii
    have hss : si' = si := by rw [show OMap.get? k.stash.schemata _ = k.stash.schema (I.genesisSchema g') from rfl, b2] at hsi; exact Option.some.inj hsi
    subst hss
    obtain ⟨o, d, e1, e2, e3, -⟩ := b3 h3
    refine ⟨o, d, by simp only [Stock.openedBy, hcid, e1], ?_, e2, hcid ▸ e3⟩
    have := e3.genesis
    rw [b1] at this
    exact (Option.some.inj this).symm
  have hmap : (k.contractsBy H I E ids).map Opened.genesis = genesesBy I k.stash ids := by
    have := filterMap_all (Stock.openedBy H I E k ids) Opened.genesis id (genesesBy I k.stash ids)
      (fun g hg => by obtain ⟨o, d, e1, e2, -⟩ := all g hg; exact ⟨o, e1, e2⟩)
    rw [List.map_id] at this
    exact this
  have hsi : ∀ si ∈ OMap.vals k.stash.schemata, ∃ i, k.stash.schema i = some si ∧ I.schema si.doc = i := by
    intro si h
    obtain ⟨i, hi⟩ := (Stock.mem_vals hord.schemata).mp h
    exact ⟨i, hi, haddr.schema i si hi⟩
  refine ⟨fun g => ?_, ?_, fun o ho => ?_⟩
  · rw [hmap, l2]
    constructor
    · rintro ⟨h1, si, h2, h3, h4⟩
      obtain ⟨c, hgc⟩ := (Stock.mem_vals hord.geneses).mp h1
      obtain ⟨i, i1, i2⟩ := hsi si h2
      exact ⟨c, si, hgc, by rw [← h4, i2]; exact i1, h3⟩
    · rintro ⟨c, si, h1, h2, h3⟩
      exact ⟨(Stock.mem_vals hord.geneses).mpr ⟨c, h1⟩, si, (Stock.mem_vals hord.schemata).mpr ⟨_, h2⟩, h3, haddr.schema _ _ h2⟩
  · have : (k.contractsBy H I E ids).map (fun o => o.genesis.contractId H) = (genesesBy I k.stash ids).map (Op.contractId H) := by
      rw [← hmap, List.map_map]; rfl
    rw [this]
    have hgen : ∀ e ∈ k.stash.geneses, e.2.contractId H = e.1 ∧ e.2.kind = .genesis := fun e he => by
      obtain ⟨a, b, -⟩ := kept.hist.good.genesis e.1 e.2 (hord.geneses.get?_of_mem he)
      exact ⟨a, b⟩
    simp only [List.Nodup, List.pairwise_map, genesesBy, List.pairwise_flatMap, schemataBy]
    refine ⟨fun si _ => List.Pairwise.filter _ ?_, List.Pairwise.filter _ ?_⟩
    · simp only [OMap.vals, List.pairwise_map]
      refine (sorted_pairwise hord.geneses).imp_of_mem fun {a b} ha hb hne => ?_
      rw [(hgen a ha).1, (hgen b hb).1]; exact hne
    · simp only [OMap.vals, List.pairwise_map]
      refine (sorted_pairwise hord.schemata).imp_of_mem fun {a b} ha hb hne x hx y hy hxy => hne ?_
      simp only [List.mem_filter, List.mem_map, decide_eq_true_eq] at hx hy
      obtain ⟨⟨e, he, rfl⟩, hx⟩ := hx
      obtain ⟨⟨f, hf, rfl⟩, hy⟩ := hy
      have hids : e.2.id H = f.2.id H := by simpa only [Op.contractId, (hgen e he).2, (hgen f hf).2] using hxy
      have := hI.genesis _ _ hids
      rw [← hx, ← hy] at this
      rw [← haddr.schema a.1 a.2 (hord.schemata.get?_of_mem ha), ← haddr.schema b.1 b.2 (hord.schemata.get?_of_mem hb)]
      exact this
  · simp only [Stock.contractsBy, List.mem_filterMap] at ho
    obtain ⟨g, hg, ho⟩ := ho
    obtain ⟨o', d, e1, e2, e3, e4⟩ := all g hg
    rw [e1] at ho
    cases ho
    exact ⟨d, e3, by rw [e2]; exact e4⟩

/-! ## Global state -/

theorem decodeAll_ok (decode : Nat → Nat → Option Nat) (sem : Nat) (l : List (GlobalOrd × Nat)) :
    (∀ vs, decodeAll decode sem l = .ok vs ↔ l.map (fun e => decode sem e.2) = vs.map some) ∧
    (decodeAll decode sem l = .error .panic ↔ ∃ e ∈ l, decode sem e.2 = none) := by
  induction l with
  | nil =>
    refine ⟨fun vs => ?_, by simp [decodeAll]⟩
    cases vs <;> simp [decodeAll]
  | cons e l ih =>
    obtain ⟨ih1, ih2⟩ := ih
    simp only [decodeAll]
    cases hd : decode sem e.2 with
    | none =>
      refine ⟨fun vs => ?_, by simp [hd]⟩
      cases vs <;> simp [hd]
    | some v =>
      simp only [List.map_cons, hd, List.mem_cons, exists_eq_or_imp]
      cases hl : decodeAll decode sem l with
      | error x =>
        have hx : x = .panic := by
          cases x with
          | panic => rfl
          | unknown n =>
            exfalso
            clear ih1 ih2
            induction l with
            | nil => cases hl
            | cons a l ih =>
              simp only [decodeAll] at hl
              split at hl
              · cases hl
              · split at hl
                · rename_i h; cases hl; exact ih h
                · cases hl
        subst hx
        refine ⟨fun vs => ⟨fun h => (by cases h), fun h => ?_⟩, by simp [ih2.mp hl]⟩
        exfalso
        cases vs with
        | nil => cases h
        | cons a vs =>
          simp only [List.map_cons, List.cons.injEq] at h
          have := (ih1 vs).mpr h.2
          rw [hl] at this; cases this
      | ok vs' =>
        have h2 := (ih1 vs').mp hl
        refine ⟨fun vs => ?_, ?_⟩
        · constructor
          · intro h; cases h; simp [h2]
          · intro h
            cases vs with
            | nil => cases h
            | cons a vs =>
              simp only [List.map_cons, List.cons.injEq, Option.some.injEq] at h
              have := (ih1 vs).mpr h.2
              rw [hl] at this; cases this
              rw [h.1]
        · constructor
          · intro h; cases h
          · rintro (h | h)
            · cases h
            · have := ih2.mpr h; rw [hl] at this; cases this

/-- **C76** (global state by name). Such a contract, opened through any interface: the global state of a name which the implementation has for a type of the schema is read without a panic, if the
stored values are of the type of the schema, and it's the values of the items seen in the state, each decoded, in the same order. The other names are reported as unknown. -/
theorem C76_global (hH : H.Binding) (hM : M.Lawful) (hG : ∀ d, OMap.Sorted (G d).maxItems) (hI : Ids.Lawful H I) (hL : GlobalsLawful I G)
    {es : List StockEvent} {c : Nat} (hc : Complete H I E es) (h : AllDone H I M G es .empty k) (himp : Imported H es c)
    {r : IfaceRef} {o : Opened} (ho : k.contractIface I E c r = .ok o)
    {sems : OMap Nat Nat} (hs : ∀ ty, OMap.contains sems ty = OMap.contains (G o.schema).maxItems ty) (decode : Nat → Nat → Option Nat)
    {impl : IfaceImpl} (name : Nat) :
    ((∀ e ∈ impl.globalState, e.name ≠ name) → ContractIface.global sems decode ⟨o.state, impl⟩ name = .error (.unknown name)) ∧
    ∀ ty, typeByName impl.globalState name = some ty → OMap.contains (G o.schema).maxItems ty = true →
      ∃ sem items, OMap.get? sems ty = some sem ∧ o.state.globalItems ty = some items ∧
        (∀ vs, ContractIface.global sems decode ⟨o.state, impl⟩ name = .ok vs ↔ items.map (fun e => decode sem e.2) = vs.map some) ∧
        ((∀ e ∈ items, (decode sem e.2).isSome = true) → ∃ vs, ContractIface.global sems decode ⟨o.state, impl⟩ name = .ok vs) := by
  obtain ⟨g, si, v, a1, a2, a3, a4, a5, a6, a7, a8⟩ := open_facts hH hM hG hI hL hc h himp
  have hov : o.state = v ∧ o.schema = si.doc := by
    simp only [Stock.contractIface, a6] at ho
    split at ho
    · cases ho
    · split at ho
      · cases ho
      · split at ho
        · cases ho
        · cases ho; exact ⟨rfl, rfl⟩
  refine ⟨fun hno => ?_, fun ty hty hin => ?_⟩
  · have : typeByName impl.globalState name = none := by
      simp only [typeByName, Option.map_eq_none_iff, List.find?_eq_none, decide_eq_true_eq]
      exact hno
    simp only [ContractIface.global, this]
  · obtain ⟨sem, hsem⟩ := OMap.contains_iff.mp ((hs ty).trans hin)
    have := a7 ty
    rw [← hov.2, hin] at this
    obtain ⟨gs, hgs⟩ := OMap.contains_iff.mp this
    have hitems : ∃ items, o.state.globalItems ty = some items := ⟨_, by rw [hov.1]; simp only [ContractView.globalItems, hgs]; rfl⟩
    obtain ⟨items, hitems⟩ := hitems
    obtain ⟨q1, q2⟩ := decodeAll_ok decode sem items
    refine ⟨sem, items, hsem, hitems, fun vs => ?_, fun hall => ?_⟩
    · simp only [ContractIface.global, hty, hsem, hitems]; exact q1 vs
    · simp only [ContractIface.global, hty, hsem, hitems]
      refine ⟨items.filterMap (fun e => decode sem e.2), (q1 _).mpr ?_⟩
      clear q1 q2 hitems
      induction items with
      | nil => rfl
      | cons e items ih =>
        obtain ⟨x, hx⟩ := Option.isSome_iff_exists.mp (hall e (by simp))
        rw [List.filterMap_cons_some (f := fun e : GlobalOrd × Nat => decode sem e.2) hx, List.map_cons, List.map_cons, hx, ih (fun e he => hall e (by simp [he]))]

/-! The contract of the example world. -/

theorem exGlobals : GlobalsLawful World.I World.G := fun _ => rfl

/-- It is opened by the name of the interface it implements. -/
theorem exOpened : ∃ o, World.k.contractIface World.I World.E 0 (.name 7) = .ok o ∧ o.Of World.H World.I World.E World.k 0 ⟨7, [], 0⟩ ∧ o.impl = ⟨10, 20, 0⟩ := by
  obtain ⟨h1, h2, h3, h4, -, -, -, -, h5⟩ := exLaws
  obtain ⟨g, si, e1, e2, e3, -⟩ := C76_opened World.H_binding h3 World.G_sorted h1 exGlobals exComplete exAllDone h4 (r := .name 7) (d := ⟨7, [], 0⟩) (by decide +kernel)
  have hs : World.k.stash.schema 10 = some ⟨⟨0⟩, [(7, ⟨10, 20, 0⟩)]⟩ := by decide +kernel
  have : si = ⟨⟨0⟩, [(7, ⟨10, 20, 0⟩)]⟩ := Option.some.inj (e2.symm.trans hs)
  subst this
  obtain ⟨o, f1, f2, f3⟩ := e3 ⟨⟨10, 20, 0⟩, by simp [OMap.vals], .inl rfl⟩
  exact ⟨o, f1, f2, by simpa [OMap.vals] using f3.1⟩

/-- It is listed for the interface 20, and not for the interface 21. -/
example : (World.k.contractsBy World.H World.I World.E [20, 21]).map Opened.genesis = [World.g] ∧ World.k.contractsBy World.H World.I World.E [21] = [] := by
  decide +kernel

example : ∃ o, World.k.contractIface World.I World.E 0 (.name 7) = .ok o ∧
    ContractIface.global [(5, 4)] (fun sem v => some (100 * sem + v)) ⟨o.state, { schemaId := 10, ifaceId := 20, globalState := [⟨5, 3, 0⟩] }⟩ 3 = .ok [477] ∧
    ContractIface.global [(5, 4)] (fun sem v => some (100 * sem + v)) ⟨o.state, { schemaId := 10, ifaceId := 20, globalState := [⟨5, 3, 0⟩] }⟩ 4 = .error (.unknown 4) := by
  obtain ⟨h1, h2, h3, h4, -, -, -, -, h5⟩ := exLaws
  obtain ⟨o, ho, hof, -⟩ := exOpened
  have hsch : o.schema = ⟨0⟩ := by
    obtain ⟨si, s1, s2, -⟩ := hof.schema
    have hs : World.k.stash.schema 10 = some ⟨⟨0⟩, [(7, ⟨10, 20, 0⟩)]⟩ := by decide +kernel
    have : si = ⟨⟨0⟩, [(7, ⟨10, 20, 0⟩)]⟩ := Option.some.inj (s1.symm.trans hs)
    rw [← s2, this]
  obtain ⟨-, g2⟩ := C76_global World.H_binding h3 World.G_sorted h1 exGlobals exComplete exAllDone h4 ho (sems := [(5, 4)]) (by intro ty; rw [hsch]; simp only [World.G, OMap.contains, OMap.get?]; split <;> rfl)
    (fun sem v => some (100 * sem + v)) (impl := { schemaId := 10, ifaceId := 20, globalState := [⟨5, 3, 0⟩] }) 3
  obtain ⟨g1, -⟩ := C76_global World.H_binding h3 World.G_sorted h1 exGlobals exComplete exAllDone h4 ho (sems := [(5, 4)]) (by intro ty; rw [hsch]; simp only [World.G, OMap.contains, OMap.get?]; split <;> rfl)
    (fun sem v => some (100 * sem + v)) (impl := { schemaId := 10, ifaceId := 20, globalState := [⟨5, 3, 0⟩] }) 4
  refine ⟨o, ho, ?_, g1 (by simp)⟩
  obtain ⟨sem, items, i1, i2, i3, -⟩ := g2 5 rfl (by rw [hsch]; rfl)
  have hsem : sem = 4 := by simpa [OMap.get?] using i1.symm
  subst hsem
  have hst : ∃ v, World.k.state.contractState 0 = .ok v ∧ v.globalItems 5 = some [(.genesis 0, 77)] := by
    have : ((World.k.state.contractState 0).toOption.any (fun v => decide (v.globalItems 5 = some [(.genesis 0, 77)]))) = true := by decide +kernel
    cases hv : World.k.state.contractState 0 with
    | error e => rw [hv] at this; cases this
    | ok v => rw [hv] at this; exact ⟨v, rfl, by simpa [Except.toOption] using this⟩
  obtain ⟨v, v1, v2⟩ := hst
  have : o.state = v := by have := hof.state; rw [v1] at this; cases this; rfl
  rw [this, v2] at i2
  cases i2
  exact (i3 _).mpr rfl

/-- Two more interfaces: the first one inherits the implemented one. -/
example : ∃ k : Stock, k.Reachable World.H ∧ ((k.contractIface World.I World.E 0 (.name 8)).toOption.map Opened.impl) = some ⟨10, 20, 0⟩ ∧
    (k.contractIface World.I World.E 0 (.name 9)) = .error (.noAbstractImpl 22 10) := by
  obtain ⟨k, h1, h2, h3⟩ := World.obtain (World.events ++ [.kit { ifaces := [⟨8, [20], 1⟩, ⟨9, [19], 2⟩] }])
    (by
      intro e he
      rcases List.mem_append.mp he with he | he
      · exact World.events_proper e he
      · simp only [List.mem_singleton] at he; subst he; trivial)
    (fun k => ((k.contractIface World.I World.E 0 (.name 8)).toOption.map Opened.impl) = some ⟨10, 20, 0⟩ ∧
    (k.contractIface World.I World.E 0 (.name 9)) = .error (.noAbstractImpl 22 10)) (by decide +kernel)
  exact ⟨k, h1, h2, h3⟩

end Rgb.Props
