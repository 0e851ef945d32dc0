import Verif.Lemmas.ExportSchema
import Verif.Props.Open

/-! # C77: exported schemata -/

namespace Rgb.Props
open Rgb MemStash

variable {H : Commit} {I : Ids} {M : Mpc} {G : SchemaDoc → SchemaGlobals} {E : Stock.Env} {k k' : Stock} {kit : Kit}

/-- **C77** (errors). With any history of the stock, exporting a schema fails exactly if the schema isn't known, or a type or a library used by it or by one of its interfaces is missing. It never
panics and never misses an interface. -/
theorem C77_errors (hH : H.Binding) (hG : ∀ d, OMap.Sorted (G d).maxItems)
    {es : List StockEvent} (he : ∀ e ∈ es, StockEvent.Proper H e) (hes : runStock H I M G es .empty = some k) (i : Nat) :
    (k.stash.schema i = none → k.exportSchema E i = .error (.schemaAbsent i)) ∧
    ∀ e, k.exportSchema E i = .error e → (k.stash.schema i = none ∧ e = .schemaAbsent i) ∨ k.Lacks e := by
  have kept := runStock_kept hH hG es he kept_empty hes
  refine ⟨fun h => by simp only [Stock.exportSchema, h], fun e hx => ?_⟩
  cases hs : k.stash.schema i with
  | none =>
    simp only [Stock.exportSchema, hs, Except.error.injEq] at hx
    exact .inl ⟨rfl, hx.symm⟩
  | some si =>
    obtain ⟨a, b, -, -, -, -, h⟩ := exportSchema_cases (E := E) kept.impls hs
    rw [h] at hx
    rcases extract_cases (E := E) k.stash si.doc a with ⟨t, h1, -, h2⟩ | ⟨l, -, h1, h2⟩ | ⟨-, -, ts, ls, h2, -⟩
    · rw [h2] at hx; cases hx; exact .inr h1
    · rw [h2] at hx; cases hx; exact .inr h1
    · rw [h2] at hx; cases hx

/-- **C77** (contents). An exported schema is what the stock has: the schema, all its implementations, the interfaces they are of, and exactly the types and libraries these use.
Missing: stocks with two interfaces of the same name, see `C77_same_name_fails`. -/
theorem C77_contents_partial (hH : H.Binding) (hG : ∀ d, OMap.Sorted (G d).maxItems)
    {es : List StockEvent} (he : ∀ e ∈ es, StockEvent.Proper H e) (hes : runStock H I M G es .empty = some k) (hn : k.stash.NamesDiffer)
    {i : Nat} (h : k.exportSchema E i = .ok kit) : ∃ si, k.stash.schema i = some si ∧ I.schema si.doc = i ∧ kit.Of E k si := by
  have kept := runStock_kept hH hG es he kept_empty hes
  cases hs : k.stash.schema i with
  | none => simp only [Stock.exportSchema, hs] at h; cases h
  | some si =>
    obtain ⟨a, b, -, -, h3, h4, hx⟩ := exportSchema_cases (E := E) kept.impls hs
    rw [h] at hx
    rcases extract_cases (E := E) k.stash si.doc a with ⟨t, -, -, h2⟩ | ⟨l, -, -, h2⟩ | ⟨-, -, ts, ls, h2, -, h5, h6⟩
    · rw [h2] at hx; cases hx
    · rw [h2] at hx; cases hx
    · rw [h2] at hx
      cases hx
      refine ⟨si, rfl, kept.addressed.schema _ _ hs, rfl, h4, fun d => ?_, h5, fun l => ?_, rfl, rfl⟩
      · have himp := (kept.impls.impls _ _ hs).2
        rw [h3]
        constructor
        · rintro ⟨e, he, hd⟩
          obtain ⟨-, d', e1, e2⟩ := himp e he
          have := byName_iff kept.impls.sorted hn e1
          rw [e2, hd] at this
          cases this
          exact ⟨e.2, List.mem_map.mpr ⟨e, he, rfl⟩, e1⟩
        · rintro ⟨x, hx, hd⟩
          obtain ⟨e, he, rfl⟩ := List.mem_map.mp hx
          obtain ⟨-, d', e1, e2⟩ := himp e he
          rw [hd] at e1
          cases e1
          exact ⟨e, he, e2 ▸ byName_iff kept.impls.sorted hn hd⟩
      · simp only [OSet.mem_ofList, h6]

/-- **C77** (what was imported can be exported). A stock got its contents by events of which nothing was missing, without errors. Then the schema of each contract which came with its genesis
is exported. -/
theorem C77_exported (hH : H.Binding) (hM : M.Lawful) (hG : ∀ d, OMap.Sorted (G d).maxItems) (hI : Ids.Lawful H I)
    {es : List StockEvent} {c : Nat} (hc : Complete H I E es) (h : AllDone H I M G es .empty k) (himp : Imported H es c) :
    ∃ g kit, k.stash.genesis c = some g ∧ k.exportSchema E (I.genesisSchema g) = .ok kit := by
  obtain ⟨g, si, h1, h2, h3, h4, h5⟩ := (complete_facts hH hM hG hc.toFurnished h).documents hI hc.toFurnished himp
  have kept := runStock_kept hH hG es (fun e he => (hc.sound e he).proper) kept_empty (allDone_run es h)
  obtain ⟨a, b, -, -, a3, -, hx⟩ := exportSchema_cases (E := E) kept.impls h2
  refine ⟨g, ?_⟩
  rcases extract_cases (E := E) k.stash si.doc a with ⟨t, e1, e2, -⟩ | ⟨l, e1, e2, -⟩ | ⟨-, -, ts, ls, e1, -⟩
  · refine absurd ?_ e1
    rcases e2 with e2 | ⟨d, d1, d2⟩
    · exact h4 t e2
    · obtain ⟨e, f1, f2⟩ := (a3 d).mp d1
      obtain ⟨d', g1, g2⟩ := h3 e f1
      rw [f2] at g1
      cases g1
      exact g2 t d2
  · have := h5 l e1
    rw [e2] at this
    cases this
  · exact ⟨_, h1, by rw [hx, e1]⟩

/-- **C77** (others take it). An exported schema is taken by each new stock, which then has this schema with all the implementations and interfaces, and exports the same kit.
Missing: stocks with two interfaces of the same name, see `C77_same_name_fails`. -/
theorem C77_imported_partial (hH : H.Binding) (hG : ∀ d, OMap.Sorted (G d).maxItems)
    {es : List StockEvent} (he : ∀ e ∈ es, StockEvent.Proper H e) (hes : runStock H I M G es .empty = some k) (hn : k.stash.NamesDiffer)
    {i : Nat} (h : k.exportSchema E i = .ok kit) :
    ∃ k₂, (StockEvent.kit kit).Done H I M G .empty k₂ ∧ k₂.stash.schema i = k.stash.schema i ∧
      (∀ x ∈ kit.iimpls, k₂.stash.ifaceById x.ifaceId = k.stash.ifaceById x.ifaceId) ∧ k₂.exportSchema E i = .ok kit := by
  have kept := runStock_kept hH hG es he kept_empty hes
  obtain ⟨si, hs, hid, hof⟩ := C77_contents_partial hH hG he hes hn h
  obtain ⟨hlen, himp⟩ := kept.impls.impls _ _ hs
  obtain ⟨a, b, a1, b1, a2, b2, hx⟩ := exportSchema_cases (E := E) kept.impls hs
  rw [h] at hx
  have hkit : kit.ifaces = a ∧ kit.iimpls = b ∧ OSet.Sorted kit.types ∧ OSet.Sorted kit.scripts ∧
      (∀ t, t ∈ E.schemaTypes si.doc ∨ (∃ d ∈ a, t ∈ E.ifaceTypes d) → t ∈ k.stash.types) ∧ (∀ l ∈ E.schemaLibs si.doc, (k.stash.lib l).isSome = true) := by
    rcases extract_cases (E := E) k.stash si.doc a with ⟨t, -, -, h2⟩ | ⟨l, -, -, h2⟩ | ⟨h5, h6, ts, ls, h2, h7, -, -⟩
    · rw [h2] at hx; cases hx
    · rw [h2] at hx; cases hx
    · rw [h2] at hx; cases hx; exact ⟨rfl, rfl, h7, OSet.Sorted.extend List.Pairwise.nil _, h5, h6⟩
  obtain ⟨ka, kb, kt, ks, ht, hl⟩ := hkit
  subst ka kb
  obtain ⟨s1, l1, l2, l3, -, l5⟩ := libs_import (I := I) k.stash.lib kit.scripts { ({} : MemStash) with types := OSet.extend [] kit.types } (fun x hx => by
    obtain ⟨j, j1, j2⟩ := (hof.scripts x).mp hx
    rw [kept.addressed.lib _ _ j2]; exact j2)
  have l3' := l3 (fun j x hx => by cases hx)
  have s1s : s1.schemata = [] := by rw [l2]
  have s1i : s1.ifaces = [] := by rw [l2]
  obtain ⟨s2, f1, f2, f3, f4, -, f6⟩ := ifaces_import (I := I) k.stash.ifaceById kit.ifaces { s1 with schemata := OMap.insert s1.schemata i ⟨si.doc, []⟩ } (fun d hd => by
    obtain ⟨x, x1, x2⟩ := (hof.ifaces d).mp hd
    rw [kept.addressed.iface _ _ x2]; exact x2) (by simp only [s1i, List.length_nil]; omega) (fun j d hd => by simp only [ifaceById, s1i] at hd; cases hd)
  have hiface : ∀ x ∈ kit.iimpls, ∃ d, s2.ifaceById x.ifaceId = some d ∧ k.stash.ifaceById x.ifaceId = some d ∧ OMap.get? si.iimpls d.name = some x := by
    intro x hx
    obtain ⟨e, e1, rfl⟩ := List.mem_map.mp ((hof.iimpls x).mp hx)
    obtain ⟨-, d, d1, d2⟩ := himp e e1
    refine ⟨d, ?_, d1, ?_⟩
    · have := f6 d ((hof.ifaces d).mpr ⟨e.2, (hof.iimpls _).mp hx, d1⟩)
      rwa [kept.addressed.iface _ _ d1] at this
    · rw [d2]
      exact (kept.ordered.iimpls _ _ hs).get?_of_mem e1
  obtain ⟨s3, si', g1, g2, g3, g4, -, g6, -, g8⟩ := iimpls_import (OMap.get? si.iimpls) i kit.iimpls s2 (si := ⟨si.doc, []⟩) (fun x hx => by
      obtain ⟨d, d1, -, d3⟩ := hiface x hx
      obtain ⟨e, e1, rfl⟩ := List.mem_map.mp ((hof.iimpls x).mp hx)
      exact ⟨(himp e e1).1, d, d1, d3⟩) (by rw [f2]; simp [schema]) (by simp only [List.length_nil]; omega) (fun n x hx => by cases hx)
  have hdone : (StockEvent.kit kit).Done H I M G .empty ⟨s3, {}, {}⟩ := by
    have h0 : OMap.contains s1.schemata (I.schema si.doc) = false := by rw [s1s]; rfl
    have h1 : ¬ s1.schemata.length ≥ tinyMax := by rw [s1s]; simp [tinyMax]
    rw [← hid] at f1
    have : consumeKit I {} kit = some (s3, .ok ()) := by
      simp only [consumeKit, consumeTypes, SR.bind, l1, hof.schemata, SR.each, replaceSchema, h0, if_neg h1, Bool.false_eq_true, if_false, f1, g1, hof.rest.1, hof.rest.2, importAllSigs]
    exact ⟨s3, this, rfl⟩
  have kept₂ := runStock_kept (M := M) hH hG [.kit kit] (k' := ⟨s3, {}, {}⟩) (by simp [StockEvent.Proper]) kept_empty (allDone_run _ ⟨_, hdone, rfl⟩)
  have hsi : s3.schema i = some si := by
    rw [g3]
    have : si'.iimpls = si.iimpls := by
      refine (kept₂.ordered.iimpls _ _ g3).ext (kept.ordered.iimpls _ _ hs) fun n => ?_
      cases hn' : OMap.get? si.iimpls n with
      | none =>
        cases hn'' : OMap.get? si'.iimpls n with
        | none => rfl
        | some x => rw [g6 n x hn''] at hn'; cases hn'
      | some x =>
        have hxk : x ∈ kit.iimpls := (hof.iimpls x).mpr (List.mem_map.mpr ⟨_, OMap.mem_of_get? hn', rfl⟩)
        obtain ⟨-, d, d1, d2⟩ := himp (n, x) (OMap.mem_of_get? hn')
        obtain ⟨d', e1, e2, -⟩ := hiface x hxk
        rw [d1] at e2
        cases e2
        obtain ⟨y, hy⟩ := Option.isSome_iff_exists.mp (g8 x hxk d e1)
        rw [d2] at hy
        have := g6 _ _ hy
        simp only at this
        rw [hn'] at this
        rw [hy, this]
    cases si; cases si'
    simp only at this g4
    rw [this, g4]
  have hif : s3.ifaces = s2.ifaces := by rw [g2]
  have hlib : s3.libs = s1.libs := by rw [g2, f2]
  have hty : s3.types = OSet.extend [] kit.types := by rw [g2, f2, l2]
  have hn₂ : s3.NamesDiffer := fun j j' d d' e e' => by
    simp only [ifaceById, hif] at e e'
    exact hn j j' d d' (f3 _ _ e) (f3 _ _ e')
  have same : ∀ x ∈ kit.iimpls, s3.ifaceById x.ifaceId = k.stash.ifaceById x.ifaceId := fun x hx => by
    obtain ⟨d, d1, d2, -⟩ := hiface x hx
    rw [d2]; simp only [ifaceById, hif]; exact d1
  refine ⟨⟨s3, {}, {}⟩, hdone, hsi.trans hs.symm, same, ?_⟩
  obtain ⟨a', b', a1', b1', a2', b2', hx'⟩ := exportSchema_cases (E := E) kept₂.impls hsi
  have ea : a' = kit.ifaces := by
    refine a1'.1.ext a1.1 fun d => ?_
    rw [a2', hof.ifaces]
    constructor
    · rintro ⟨e, he, hd⟩
      obtain ⟨-, d', e1, e2⟩ := (kept₂.impls.impls _ _ hsi).2 e he
      have := byName_iff kept₂.impls.sorted hn₂ e1
      rw [e2, hd] at this
      cases this
      refine ⟨e.2, List.mem_map.mpr ⟨e, he, rfl⟩, ?_⟩
      rw [← same _ ((hof.iimpls _).mpr (List.mem_map.mpr ⟨e, he, rfl⟩))]
      exact e1
    · rintro ⟨x, hx, hd⟩
      obtain ⟨e, he, rfl⟩ := List.mem_map.mp hx
      obtain ⟨-, d', e1, e2⟩ := himp e he
      rw [hd] at e1
      cases e1
      rw [← same _ ((hof.iimpls _).mpr hx)] at hd
      exact ⟨e, he, e2 ▸ byName_iff kept₂.impls.sorted hn₂ hd⟩
  have eb : b' = kit.iimpls := b1'.1.ext b1.1 fun x => by rw [b2', hof.iimpls]
  subst ea
  have tin : ∀ t, t ∈ s3.types ↔ t ∈ kit.types := fun t => by rw [hty]; exact OSet.mem_ofList
  have lsame : ∀ l ∈ E.schemaLibs si.doc, s3.lib l = k.stash.lib l := by
    intro l hl'
    obtain ⟨x, hx⟩ := Option.isSome_iff_exists.mp (hl l hl')
    have hy := l5 x ((hof.scripts x).mpr ⟨l, hl', hx⟩)
    rw [kept.addressed.lib _ _ hx] at hy
    obtain ⟨y, hy⟩ := Option.isSome_iff_exists.mp hy
    have := l3' _ _ hy
    rw [hx] at this
    rw [hx, this]
    simp only [lib, hlib]
    exact hy
  rcases extract_cases (E := E) s3 si.doc kit.ifaces with ⟨t, e1, e2, -⟩ | ⟨l, e1, e2, -⟩ | ⟨-, -, ts, ls, e1, e2, e3, e4⟩
  · exact absurd ((tin t).mpr ((hof.types t).mpr e2)) e1
  · rw [lsame l e1] at e2
    have := hl l e1
    rw [e2] at this
    cases this
  · rw [hx']
    simp only [e1]
    have h1 : ts = kit.types := e2.ext kt fun t => by rw [e3, hof.types]
    have h2 : OSet.ofList ls = kit.scripts := (OSet.Sorted.extend List.Pairwise.nil _ : OSet.Sorted (OSet.ofList ls)).ext ks fun l => by
      show l ∈ OSet.ofList ls ↔ _
      rw [OSet.mem_ofList, e4, hof.scripts]
      constructor
      · rintro ⟨j, j1, j2⟩; exact ⟨j, j1, lsame j j1 ▸ j2⟩
      · rintro ⟨j, j1, j2⟩; exact ⟨j, j1, (lsame j j1).trans j2⟩
    rw [h1, h2, eb, ← hof.schemata]
    have := hof.rest
    cases kit
    simp only at this
    rw [this.1, this.2]

/-- **C77** is false with two interfaces of the same name. The stock has interfaces 20 and 21, both named 7; the schema has one implementation, of 21. Exporting the schema looks for the interface
by its name and finds 20. The kit has no interface for the implementation, and importing it panics. -/
theorem C77_same_name_fails : ∃ (k : Stock) (kit : Kit), k.Reachable World.H ∧
    k.stash.ifaceById 20 = some ⟨7, [], 0⟩ ∧ k.stash.ifaceById 21 = some ⟨7, [], 1⟩ ∧
    k.exportSchema World.E 10 = .ok kit ∧ kit.ifaces = [⟨7, [], 0⟩] ∧ kit.iimpls = [⟨10, 21, 1⟩] ∧ MemStash.consumeKit World.I {} kit = none := by
  obtain ⟨k, h1, h2, h3, h4⟩ := World.obtain
    [.consignment World.con World.r, .kit { ifaces := [⟨7, [], 1⟩], iimpls := [⟨10, 21, 1⟩] }]
    (by
      intro e he
      simp only [List.mem_cons, List.not_mem_nil, or_false] at he
      rcases he with rfl | rfl
      · exact World.con_proper
      · trivial)
    (fun k => k.stash.ifaceById 20 = some ⟨7, [], 0⟩ ∧ k.stash.ifaceById 21 = some ⟨7, [], 1⟩ ∧
      (k.exportSchema World.E 10).toOption.any (fun kit => decide (kit.ifaces = [⟨7, [], 0⟩] ∧ kit.iimpls = [⟨10, 21, 1⟩] ∧
        MemStash.consumeKit World.I {} kit = none)) = true) (by decide +kernel)
  cases hx : k.exportSchema World.E 10 with
  | error e => rw [hx] at h4; cases h4
  | ok kit =>
    rw [hx] at h4
    exact ⟨k, kit, h1, h2, h3, hx, by simpa [Except.toOption] using h4⟩

/-! The schema of the example world. -/

theorem exExportSchema : ∃ kit, World.k.exportSchema World.E 10 = .ok kit ∧ kit.ifaces ≠ [] ∧ kit.iimpls ≠ [] ∧ kit.types ≠ [] ∧ kit.scripts ≠ [] := by
  have h : (World.k.exportSchema World.E 10).toOption.any (fun kit => decide (kit.ifaces ≠ [] ∧ kit.iimpls ≠ [] ∧ kit.types ≠ [] ∧ kit.scripts ≠ [])) = true := by
    decide +kernel
  cases hx : World.k.exportSchema World.E 10 with
  | error e => rw [hx] at h; cases h
  | ok kit => rw [hx] at h; exact ⟨kit, rfl, by simpa [Except.toOption] using h⟩

example : ∃ g kit, World.k.stash.genesis 0 = some g ∧ World.k.exportSchema World.E (World.I.genesisSchema g) = .ok kit := by
  obtain ⟨h1, h2, h3, h4, -, -, -, -, h5⟩ := exLaws
  exact C77_exported World.H_binding h3 World.G_sorted h1 exComplete exAllDone h4

example : ∃ kit k₂, World.k.exportSchema World.E 10 = .ok kit ∧ (StockEvent.kit kit).Done World.H World.I World.M World.G .empty k₂ ∧
    k₂.stash.schema 10 = World.k.stash.schema 10 ∧ k₂.exportSchema World.E 10 = .ok kit := by
  obtain ⟨kit, h, -⟩ := exExportSchema
  obtain ⟨k₂, h1, h2, -, h3⟩ := C77_imported_partial (I := World.I) (M := World.M) World.H_binding World.G_sorted World.events_proper (Option.some_get _).symm exPass_names h
  exact ⟨kit, k₂, h, h1, h2, h3⟩

example : World.k.exportSchema World.E 11 = .error (.schemaAbsent 11) :=
  (C77_errors (I := World.I) (M := World.M) World.H_binding World.G_sorted World.events_proper (Option.some_get _).symm 11).1 (by decide +kernel)

end Rgb.Props
