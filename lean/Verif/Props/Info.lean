import Verif.Lemmas.Info
import Verif.Props.Open

/-! # C86: listings of interfaces, schemata and contracts -/

namespace Rgb.Props
open Rgb MemStash

variable {H : Commit} {I : Ids} {M : Mpc} {G : SchemaDoc → SchemaGlobals} {E : Stock.Env} {D : InfoEnv} {now : Int} {k : Stock}

theorem shownTime (t : Int) : D.ShownTime now t (D.time now t) :=
  ⟨fun h => by simp [InfoEnv.time, h], fun h => by simp [InfoEnv.time, h]⟩

theorem shownTime_unique {t x y : Int} (hx : D.ShownTime now t x) (hy : D.ShownTime now t y) : x = y := by
  cases h : D.timeOk t
  · rw [hx.2 h, hy.2 h]
  · rw [hx.1 h, hy.1 h]

theorem stash_listed {es : List StockEvent} (h : runStock H I M G es .empty = some k) : MemStash.Listed H I k.stash :=
  Writes.listed (runStock_writes es h)

theorem ifaceNames_get (hl : MemStash.Listed H I k.stash) (i : Nat) :
    OMap.get? (k.ifaceNames I) i = (k.stash.ifaceById i).map IfaceDoc.name := by
  have hv : ∀ d, d ∈ OMap.vals k.stash.ifaces ↔ k.stash.ifaceById (I.iface d) = some d := fun d => by
    rw [Stock.mem_vals hl.impls.sorted]
    constructor
    · rintro ⟨j, hj⟩
      have := hl.addressed.iface j d hj
      rw [this]; exact hj
    · exact fun h => ⟨_, h⟩
  obtain ⟨h1, h2⟩ := get?_names I (OMap.vals k.stash.ifaces) [] (by
    intro a ha b hb e
    rw [hv] at ha hb
    rw [e] at ha
    rw [ha] at hb; cases hb; rfl) i
  cases e : k.stash.ifaceById i with
  | some d =>
    have hd := hl.addressed.iface i d e
    rw [Stock.ifaceNames, h1 d ((hv d).mpr (by rw [hd]; exact e)) hd]; rfl
  | none =>
    rw [Stock.ifaceNames, h2 (fun d hd hi => by rw [hv, hi, e] at hd; cases hd)]; rfl

theorem getDefaultOpt_says {T : Type} (de : Nat → Except Unit T) (x : SupplDoc) (name : Nat) (v : T) :
    Suppl.getDefaultOpt de (D.annotations x) .itself name = some v ↔ ∃ blob, D.says x name = some blob ∧ de blob = .ok v := by
  simp only [Suppl.getDefaultOpt, Suppl.getDefault, InfoEnv.says]
  cases h1 : OMap.get? (D.annotations x).annotations .itself with
  | none => simp
  | some a =>
    cases h2 : OMap.get? a .default with
    | none => simp [h2]
    | some b =>
      cases h3 : OMap.get? b name with
      | none => simp [h2, h3]
      | some blob => cases h4 : de blob <;> simp [h2, h3, h4]

theorem ifaceInfo_of (hl : MemStash.Listed H I k.stash) {i : Nat} {d : IfaceDoc} (hd : k.stash.ifaceById i = some d) :
    IfaceInfo.Of D now k i d (IfaceInfo.new I D now d (k.ifaceNames I) (k.stash.supplement (D.ifaceRef (I.iface d)))) := by
  have hi := hl.addressed.iface i d hd
  have hin : ∀ st ft, Pointwise k.ShownRef d.inherits (IfaceInfo.with I D now d st ft (k.ifaceNames I)).inherits := fun st ft => by
    refine pointwise_map _ _ (fun j _ => ?_)
    rw [ifaceNames_get hl]
    refine ⟨fun e he => by rw [he]; rfl, fun he => by rw [he]; rfl⟩
  rw [hi]
  have hs : k.stash.supplement (D.ifaceRef i) = (k.stash.supplements (D.ifaceRef i)).head? := by
    simp only [MemStash.supplement, MemStash.supplements]
    cases OMap.get? k.stash.suppl (D.ifaceRef i) <;> rfl
  rw [hs]
  cases hsup : k.stash.supplements (D.ifaceRef i) with
  | nil =>
    exact ⟨hi, rfl, rfl, rfl, shownTime _, rfl, hin _ _, (fun x rest h => by rw [hsup] at h; cases h), fun _ => ⟨rfl, rfl⟩⟩
  | cons y rest =>
    refine ⟨hi, rfl, rfl, rfl, shownTime _, rfl, hin _ _, fun x rest' h => ?_, fun h => by rw [hsup] at h; cases h⟩
    rw [hsup] at h
    cases h
    refine ⟨fun c => getDefaultOpt_says _ _ _ _, fun f => ?_⟩
    simp only [List.head?_cons, IfaceInfo.new, IfaceInfo.with]
    constructor
    · intro hf
      cases hg : Suppl.getDefaultOpt D.deFeatures (D.annotations y) .itself D.featuresAnnot with
      | none => rw [hg] at hf; cases hf
      | some l =>
        rw [hg] at hf
        obtain ⟨blob, h1, h2⟩ := (getDefaultOpt_says _ _ _ _).mp hg
        exact ⟨blob, l, h1, h2, hf⟩
    · rintro ⟨blob, l, h1, h2, hf⟩
      rw [(getDefaultOpt_says _ _ _ _).mpr ⟨blob, h1, h2⟩]
      exact hf

/-- **C86** (interfaces). Whatever happened to a stock, `ifaces()` lists each interface it knows once, with the data of this interface; the inherited ones
by their names, or by their ids if they aren't known. The class and the features are those which the first supplement says. -/
theorem C86_interfaces {es : List StockEvent} (h : runStock H I M G es .empty = some k) (D : InfoEnv) (now : Int) :
    ((k.ifaceInfos I D now).map IfaceInfo.id).Nodup ∧
    (∀ info ∈ k.ifaceInfos I D now, ∃ i d, k.stash.ifaceById i = some d ∧ info.Of D now k i d) ∧
    (∀ i d, k.stash.ifaceById i = some d → ∃ info ∈ k.ifaceInfos I D now, info.Of D now k i d) := by
  have hl := stash_listed h
  refine ⟨?_, fun info hi => ?_, fun i d hd => ?_⟩
  · have hid : (k.ifaceInfos I D now).map IfaceInfo.id = OMap.keys k.stash.ifaces := by
      simp only [Stock.ifaceInfos, OMap.vals, List.map_map, OMap.keys]
      refine List.map_congr_left (fun e he => ?_)
      exact (ifaceInfo_of (now := now) (D := D) hl (hl.impls.sorted.get?_of_mem he)).id
    rw [hid]
    exact hl.impls.sorted.nodup
  · simp only [Stock.ifaceInfos, List.mem_map] at hi
    obtain ⟨d, hd, rfl⟩ := hi
    obtain ⟨i, hi⟩ := (Stock.mem_vals hl.impls.sorted).mp hd
    exact ⟨i, d, hi, ifaceInfo_of hl hi⟩
  · exact ⟨_, List.mem_map.mpr ⟨d, (Stock.mem_vals hl.impls.sorted).mpr ⟨i, hd⟩, rfl⟩, ifaceInfo_of hl hd⟩

/-- **C86** (following what is inherited), for a stock without two interfaces of one name. Each reference in the description of an interface leads, by `iface()`, to
the inherited interface, or to nothing if this isn't known.
Missing: stocks with two interfaces of one name, see `C86_inherited_fails`. -/
theorem C86_inherited_partial {es : List StockEvent} (h : runStock H I M G es .empty = some k)
    (hnames : ∀ i j d e, k.stash.ifaceById i = some d → k.stash.ifaceById j = some e → d.name = e.name → i = j)
    {info : IfaceInfo} (hi : info ∈ k.ifaceInfos I D now) :
    ∃ d, k.stash.ifaceById info.id = some d ∧
      Pointwise (fun i r => k.stash.iface r = k.stash.ifaceById i) d.inherits info.inherits := by
  have hl := stash_listed h
  obtain ⟨i, d, hd, hof⟩ := (C86_interfaces h D now).2.1 info hi
  refine ⟨d, by rw [hof.id]; exact hd, hof.inherits.1, fun n j r hj hr => ?_⟩
  obtain ⟨h1, h2⟩ := hof.inherits.2 n j r hj hr
  cases e : k.stash.ifaceById j with
  | none => rw [h2 e]; exact e
  | some d' =>
    rw [h1 d' e]
    simp only [MemStash.iface, ifaceByName]
    have hm : d' ∈ OMap.vals k.stash.ifaces := (Stock.mem_vals hl.impls.sorted).mpr ⟨j, e⟩
    cases hf : (OMap.vals k.stash.ifaces).find? (fun d => d.name = d'.name) with
    | none => have := List.find?_eq_none.mp hf d' hm; simp at this
    | some y =>
      have hy := List.find?_some hf
      simp only [decide_eq_true_eq] at hy
      obtain ⟨l, hl'⟩ := (Stock.mem_vals hl.impls.sorted).mp (List.mem_of_find?_eq_some hf)
      have := hnames l j y d' hl' e hy
      subst this
      have hl'' : k.stash.ifaceById l = some y := hl'
      rw [e] at hl''; cases hl''; rfl

/-- **C86** (schemata). Whatever happened to a stock, `schemata()` lists each schema it knows once, with the data of this schema and of each of its implementations. Each of these is
shown with the name of its interface, which is among the listed interfaces. -/
theorem C86_schemata {es : List StockEvent} (h : runStock H I M G es .empty = some k) (D : InfoEnv) (now : Int) :
    ((k.schemaInfos I D now).map SchemaInfo.id).Nodup ∧
    (∀ info ∈ k.schemaInfos I D now, ∃ i si, k.stash.schema i = some si ∧ info.Of D now i si) ∧
    (∀ i si, k.stash.schema i = some si → ∃ info ∈ k.schemaInfos I D now, info.Of D now i si) ∧
    (∀ info ∈ k.schemaInfos I D now, (info.implements.map ImplInfo.ifaceName).Nodup ∧
      ∀ x ∈ info.implements, ∃ y ∈ k.ifaceInfos I D now, y.id = x.ifaceId ∧ y.name = x.ifaceName) := by
  have hl := stash_listed h
  have hof : ∀ i si, k.stash.schema i = some si → (SchemaInfo.with I D now si).Of D now i si := fun i si hs =>
    ⟨hl.addressed.schema i si hs, rfl, rfl, shownTime _, by
      have : (SchemaInfo.with I D now si).implements.length = (OMap.vals si.iimpls).length := by simp [SchemaInfo.with, OMap.vals]
      refine ⟨this.symm, fun n x y hx hy => ?_⟩
      simp only [SchemaInfo.with, OMap.vals, List.getElem?_map] at hx hy
      cases he : si.iimpls[n]? with
      | none => rw [he] at hx; cases hx
      | some e =>
        rw [he] at hx hy
        simp only [Option.map_some, Option.some.injEq] at hx hy
        subst hx; subst hy
        exact ⟨rfl, rfl, rfl, shownTime _⟩⟩
  have hmem : ∀ si, si ∈ OMap.vals k.stash.schemata ↔ ∃ i, k.stash.schema i = some si := fun si => Stock.mem_vals hl.sorted.schemata
  refine ⟨?_, fun info hi => ?_, fun i si hs => ?_, fun info hi => ?_⟩
  · have hid : (k.schemaInfos I D now).map SchemaInfo.id = OMap.keys k.stash.schemata := by
      simp only [Stock.schemaInfos, OMap.vals, List.map_map, OMap.keys]
      exact List.map_congr_left (fun e he => (hof _ _ (hl.sorted.schemata.get?_of_mem he)).id)
    rw [hid]
    exact hl.sorted.schemata.nodup
  · simp only [Stock.schemaInfos, List.mem_map] at hi
    obtain ⟨si, hs, rfl⟩ := hi
    obtain ⟨i, hi⟩ := (hmem si).mp hs
    exact ⟨i, si, hi, hof i si hi⟩
  · exact ⟨_, List.mem_map.mpr ⟨si, (hmem si).mpr ⟨i, hs⟩, rfl⟩, hof i si hs⟩
  · simp only [Stock.schemaInfos, List.mem_map] at hi
    obtain ⟨si, hs, rfl⟩ := hi
    obtain ⟨i, hi⟩ := (hmem si).mp hs
    refine ⟨?_, fun x hx => ?_⟩
    · have hn : (SchemaInfo.with I D now si).implements.map ImplInfo.ifaceName = OMap.keys si.iimpls := by
        simp only [SchemaInfo.with, List.map_map, OMap.keys]
        exact List.map_congr_left (fun e _ => rfl)
      rw [hn]
      exact (hl.sorted.iimpls i si hi).nodup
    · simp only [SchemaInfo.with, List.mem_map] at hx
      obtain ⟨e, he, rfl⟩ := hx
      obtain ⟨-, d, hd, hn⟩ := (hl.impls.impls i si hi).2 e he
      obtain ⟨y, hy, hof'⟩ := (C86_interfaces h D now).2.2 _ d hd
      exact ⟨y, hy, hof'.id, by rw [hof'.name]; exact hn⟩

/-- **C86** (contracts). Whatever happened to a stock, `contracts()` lists each contract whose genesis it knows once, with the data of the genesis; `contract_info()` gives the same for each of them,
and an error for any other; and when a contract is opened through an interface or a class, the description is of it. -/
theorem C86_contracts {es : List StockEvent} (h : runStock H I M G es .empty = some k) (D : InfoEnv) (now : Int) :
    ((k.contractInfos H I D now).map ContractInfo.id).Nodup ∧
    (∀ info, info ∈ k.contractInfos H I D now ↔ k.contractInfo H I D now info.id = .ok info) ∧
    (∀ c info, k.contractInfo H I D now c = .ok info → info.id = c) ∧
    (∀ c g, k.stash.genesis c = some g → ∃ info, k.contractInfo H I D now c = .ok info ∧ info.Of I D now c g) ∧
    (∀ c, k.stash.genesis c = none → k.contractInfo H I D now c = .error (.contractAbsent c)) ∧
    (∀ E c r o, k.contractIface I E c r = .ok o → k.contractInfo H I D now c = .ok (ContractInfo.with H I D now o.genesis)) := by
  have hl := stash_listed h
  have hid : ∀ c g, k.stash.genesis c = some g → (ContractInfo.with H I D now g).id = c := fun c g hg => hl.addressed.genesis c g hg
  have hgot : ∀ c info, k.contractInfo H I D now c = .ok info ↔ ∃ g, k.stash.genesis c = some g ∧ info = ContractInfo.with H I D now g := by
    intro c info
    simp only [Stock.contractInfo]
    cases e : k.stash.genesis c with
    | none => simp
    | some g => simp [eq_comm]
  refine ⟨?_, fun info => ?_, fun c info hc => ?_, fun c g hg => ?_, fun c hc => ?_, fun E c r o ho => ?_⟩
  · have : (k.contractInfos H I D now).map ContractInfo.id = OMap.keys k.stash.geneses := by
      simp only [Stock.contractInfos, Stock.contracts, OMap.vals, List.map_map, OMap.keys]
      exact List.map_congr_left (fun e he => hid _ _ (hl.sorted.geneses.get?_of_mem he))
    rw [this]
    exact hl.sorted.geneses.nodup
  · rw [hgot]
    simp only [Stock.contractInfos, Stock.contracts, List.mem_map, Stock.mem_vals hl.sorted.geneses]
    constructor
    · rintro ⟨g, ⟨c, hg⟩, rfl⟩
      exact ⟨g, by rw [hid c g hg]; exact hg, rfl⟩
    · rintro ⟨g, hg, rfl⟩
      exact ⟨g, ⟨_, hg⟩, rfl⟩
  · obtain ⟨g, hg, rfl⟩ := (hgot c info).mp hc
    exact hid c g hg
  · exact ⟨_, (hgot c _).mpr ⟨g, hg, rfl⟩, hid c g hg, rfl, rfl, shownTime _, rfl, rfl⟩
  · simp only [Stock.contractInfo, hc]
  · refine (hgot c _).mpr ⟨o.genesis, ?_, rfl⟩
    simp only [Stock.contractIface, Stock.contractRaw] at ho
    split at ho
    · cases ho
    · rename_i si v g hraw
      split at ho
      · cases ho
      · split at ho
        · cases ho
        · split at ho
          · cases ho
          · cases ho
            split at hraw
            · cases hraw
            · split at hraw
              · cases hraw
              · split at hraw
                · cases hraw
                · rename_i hg
                  cases hraw; exact hg

/-- **C86** (listed for good). What is listed stays listed, whatever happens: with the same data of a contract, and the same document of an interface or a schema. -/
theorem C86_stable (hH : H.Binding) (hG : ∀ d, OMap.Sorted (G d).maxItems) (hI : Ids.Lawful H I) (hD : D.Lawful H) {es es' : List StockEvent}
    (hp : ∀ e ∈ es, StockEvent.Proper H e) (hp' : ∀ e ∈ es', StockEvent.Proper H e)
    (h : runStock H I M G es .empty = some k) {k' : Stock} (h' : runStock H I M G es' k = some k') :
    (∀ info ∈ k.contractInfos H I D now, info ∈ k'.contractInfos H I D now) ∧
    (∀ info ∈ k.ifaceInfos I D now, ∃ info' ∈ k'.ifaceInfos I D now, info'.id = info.id ∧ info'.name = info.name ∧ info'.version = info.version ∧
      info'.developer = info.developer ∧ info'.createdAt = info.createdAt ∧ info'.defaultOp = info.defaultOp) ∧
    (∀ info ∈ k.schemaInfos I D now, ∃ info' ∈ k'.schemaInfos I D now, info'.id = info.id ∧ info'.name = info.name ∧ info'.developer = info.developer ∧
      info'.createdAt = info.createdAt ∧ ∀ x ∈ info.implements, ∃ x' ∈ info'.implements, x'.ifaceName = x.ifaceName) := by
  have kept := runStock_kept hH hG es hp kept_empty h
  have kept' := runStock_kept hH hG es' hp' kept h'
  have hw : Writes H I {} k'.stash := kept'.writes
  have hk := writes_keeps (runStock_writes es' h')
  have hl := Writes.listed (H := H) kept.writes
  have hl' := Writes.listed (H := H) hw
  refine ⟨fun info hi => ?_, fun info hi => ?_, fun info hi => ?_⟩
  · simp only [Stock.contractInfos, Stock.contracts, List.mem_map, Stock.mem_vals hl.sorted.geneses] at hi
    obtain ⟨g, ⟨c, hg⟩, rfl⟩ := hi
    obtain ⟨g', hg'⟩ := Option.isSome_iff_exists.mp (hk.genesis c (by rw [show k.stash.genesis c = some g from hg]; rfl))
    obtain ⟨a1, a2, -⟩ := kept.hist.good.genesis c g hg
    obtain ⟨b1, b2, -⟩ := kept'.hist.good.genesis c g' hg'
    have hid : g'.id H = g.id H := by
      simp only [Op.contractId, a2] at a1
      simp only [Op.contractId, b2] at b1
      rw [a1, b1]
    simp only [Stock.contractInfos, Stock.contracts, List.mem_map, Stock.mem_vals hl'.sorted.geneses]
    refine ⟨g', ⟨c, hg'⟩, ?_⟩
    simp only [ContractInfo.with, hD.issuer _ _ hid, hD.time _ _ hid, hD.testnet _ _ hid, hD.layers _ _ hid, hI.genesis _ _ hid, a1, b1]
  · simp only [Stock.ifaceInfos, List.mem_map, Stock.mem_vals hl.impls.sorted] at hi
    obtain ⟨d, ⟨i, hd⟩, rfl⟩ := hi
    have hd' := hk.iface i d hd
    have h1 := ifaceInfo_of (D := D) (now := now) hl hd
    have h2 := ifaceInfo_of (D := D) (now := now) hl' hd'
    refine ⟨_, List.mem_map.mpr ⟨d, (Stock.mem_vals hl'.impls.sorted).mpr ⟨i, hd'⟩, rfl⟩, ?_⟩
    exact ⟨h2.id.trans h1.id.symm, h2.name.trans h1.name.symm, h2.version.trans h1.version.symm, h2.developer.trans h1.developer.symm,
      shownTime_unique h2.created h1.created, h2.defaultOp.trans h1.defaultOp.symm⟩
  · simp only [Stock.schemaInfos, List.mem_map, Stock.mem_vals hl.sorted.schemata] at hi
    obtain ⟨si, ⟨i, hs⟩, rfl⟩ := hi
    obtain ⟨si', hs', hdoc, him⟩ := hk.schema i si hs
    refine ⟨_, List.mem_map.mpr ⟨si', (Stock.mem_vals hl'.sorted.schemata).mpr ⟨i, hs'⟩, rfl⟩, by simp only [SchemaInfo.with, hdoc],
      by simp only [SchemaInfo.with, hdoc], by simp only [SchemaInfo.with, hdoc], by simp only [SchemaInfo.with, hdoc], fun x hx => ?_⟩
    simp only [SchemaInfo.with, List.mem_map] at hx
    obtain ⟨e, he, rfl⟩ := hx
    have hget := (hl.sorted.iimpls i si hs).get?_of_mem he
    obtain ⟨y, hy⟩ := Option.isSome_iff_exists.mp (him e.1 (by rw [hget]; rfl))
    exact ⟨_, List.mem_map.mpr ⟨(e.1, y), OMap.mem_of_get? hy, rfl⟩, rfl⟩

/-- **C86** (accepted contracts). A stock got its contents by events of which nothing was missing, without errors. Then each contract which came with its genesis is listed, and so is its schema. -/
theorem C86_accepted (hH : H.Binding) (hM : M.Lawful) (hG : ∀ d, OMap.Sorted (G d).maxItems) (hI : Ids.Lawful H I)
    {es : List StockEvent} {c : Nat} (hc : Furnished H I E es) (h : AllDone H I M G es .empty k) (himp : Imported H es c) (D : InfoEnv) (now : Int) :
    ∃ info ∈ k.contractInfos H I D now, info.id = c ∧ ∃ s ∈ k.schemaInfos I D now, s.id = info.schemaId := by
  have hf := complete_facts hH hM hG hc h
  have hrun := allDone_run es h
  obtain ⟨g, si, d1, d2, -⟩ := hf.documents hI hc himp
  obtain ⟨-, h2, h3, h4, -, -⟩ := C86_contracts hrun D now
  obtain ⟨info, i1, i2⟩ := h4 c g d1
  obtain ⟨s, s1, s2⟩ := (C86_schemata hrun D now).2.2.1 _ si d2
  exact ⟨info, (h2 info).mpr (by rw [i2.id]; exact i1), i2.id, s, s1, by rw [s2.id, i2.schema]⟩

/-- Data for the examples: the class is the annotation 1, the features are the annotation 2; negative times aren't in the calendar. -/
def exInfo : InfoEnv where
  ifaceVersion _ := 1
  ifaceDeveloper d := 100 + d.body
  ifaceTime d := if d.body = 9 then -1 else 1000 + d.body
  ifaceDefaultOp d := if d.body = 0 then none else some d.body
  schemaName d := 200 + d.body
  schemaDeveloper _ := 5
  schemaTime _ := 900
  implId x := 300 + x.body
  implDeveloper _ := 6
  implTime _ := 950
  genesisIssuer _ := 8
  genesisTime _ := 1200
  genesisTestnet _ := true
  genesisLayers _ := [1]
  ifaceRef i := 4 * i + 2
  annotations x := if x.body = 0 then ⟨[]⟩ else ⟨[(.itself, [(.default, [(1, x.body), (2, 10 + x.body)])])]⟩
  classAnnot := 1
  featuresAnnot := 2
  deClass b := .ok (50 + b)
  deFeatures b := .ok [60 + b, 70 + b]
  timeOk t := decide (0 ≤ t)

theorem exInfo_lawful : exInfo.Lawful World.H := ⟨fun _ _ _ => rfl, fun _ _ _ => rfl, fun _ _ _ => rfl, fun _ _ _ => rfl⟩

/-- An interface which inherits a known one and an unknown one, with a supplement. -/
def exInfoKit : Kit where
  ifaces := [⟨8, [20, 99], 2⟩]
  supplements := [⟨4 * 22 + 2, 3⟩]

def exInfoEvents : List StockEvent := World.events ++ [.kit exInfoKit]

theorem exInfoRun : ∃ k : Stock, runStock World.H World.I World.M World.G exInfoEvents .empty = some k ∧
    k.ifaceInfos World.I exInfo 7 = [⟨20, 1, 7, none, [], 100, 1000, [], none⟩, ⟨22, 1, 8, some 53, [73, 83], 102, 1002, [.name 7, .id 99], some 2⟩] ∧
    k.schemaInfos World.I exInfo 7 = [⟨10, 200, 5, 900, [⟨300, 20, 7, 6, 950⟩]⟩] ∧
    k.contractInfos World.H World.I exInfo 7 = [⟨0, 10, 8, 1200, true, [1]⟩] := by
  have h : (runStock World.H World.I World.M World.G exInfoEvents .empty).any (fun k => decide (
    k.ifaceInfos World.I exInfo 7 = [⟨20, 1, 7, none, [], 100, 1000, [], none⟩, ⟨22, 1, 8, some 53, [73, 83], 102, 1002, [.name 7, .id 99], some 2⟩] ∧
    k.schemaInfos World.I exInfo 7 = [⟨10, 200, 5, 900, [⟨300, 20, 7, 6, 950⟩]⟩] ∧
    k.contractInfos World.H World.I exInfo 7 = [⟨0, 10, 8, 1200, true, [1]⟩])) = true := by decide +kernel
  obtain ⟨k, h1, h2⟩ := (Option.any_eq_true _ _).mp h
  exact ⟨k, h1, by simpa using h2⟩

/-- A stock to which `C86_interfaces`, `C86_schemata`, `C86_contracts` and `C86_inherited_partial` apply, with two interfaces, one of which inherits the other. -/
example : ∃ k : Stock, ∃ info ∈ k.ifaceInfos World.I exInfo 7, info.inherits = [.name 7, .id 99] ∧
    ∃ d, k.stash.ifaceById info.id = some d ∧ Pointwise (fun i r => k.stash.iface r = k.stash.ifaceById i) d.inherits info.inherits := by
  obtain ⟨k, h, h1, -⟩ := exInfoRun
  have hm : (⟨22, 1, 8, some 53, [73, 83], 102, 1002, [.name 7, .id 99], some 2⟩ : IfaceInfo) ∈ k.ifaceInfos World.I exInfo 7 := by rw [h1]; simp
  refine ⟨k, _, hm, rfl, C86_inherited_partial h ?_ hm⟩
  have key : ∀ i d, k.stash.ifaceById i = some d → (i = 20 ∧ d.name = 7) ∨ (i = 22 ∧ d.name = 8) := by
    intro i d hd
    obtain ⟨info, hi, ho⟩ := (C86_interfaces h exInfo 7).2.2 i d hd
    rw [h1] at hi
    simp only [List.mem_cons, List.not_mem_nil, or_false] at hi
    rcases hi with rfl | rfl
    · exact .inl ⟨ho.id.symm, ho.name.symm⟩
    · exact .inr ⟨ho.id.symm, ho.name.symm⟩
  intro i j d e hi hj hn
  rcases key i d hi with ⟨rfl, a⟩ | ⟨rfl, a⟩ <;> rcases key j e hj with ⟨rfl, b⟩ | ⟨rfl, b⟩ <;> simp_all

/-- A history with a continuation, to which `C86_stable` applies. -/
example : ∃ k' : Stock, runStock World.H World.I World.M World.G [.kit exInfoKit] World.k = some k' ∧
    (∀ info ∈ World.k.contractInfos World.H World.I exInfo 7, info ∈ k'.contractInfos World.H World.I exInfo 7) := by
  have hk : runStock World.H World.I World.M World.G World.events .empty = some World.k := by simp [World.k]
  have : (runStock World.H World.I World.M World.G [.kit exInfoKit] World.k).isSome = true := by decide +kernel
  obtain ⟨k', h'⟩ := Option.isSome_iff_exists.mp this
  refine ⟨k', h', (C86_stable World.H_binding World.G_sorted exLaws.1 exInfo_lawful World.events_proper ?_ hk h').1⟩
  intro e he
  simp only [List.mem_singleton] at he
  subst he
  trivial

/-- A history to which `C86_accepted` applies. -/
example : ∃ info ∈ World.k.contractInfos World.H World.I exInfo 7, info.id = 0 ∧ ∃ s ∈ World.k.schemaInfos World.I exInfo 7, s.id = info.schemaId := by
  obtain ⟨h1, h2, h3, h4, -⟩ := exLaws
  exact C86_accepted World.H_binding h3 World.G_sorted h1 exComplete.toFurnished exAllDone h4 exInfo 7

theorem exInfoObtain (M : Mpc) (es : List StockEvent) (P : Stock → Prop) [DecidablePred P]
    (h : (runStock World.H World.I M World.G es .empty).any (fun k => decide (P k)) = true) :
    ∃ k : Stock, runStock World.H World.I M World.G es .empty = some k ∧ P k := by
  obtain ⟨k, h1, h2⟩ := (Option.any_eq_true _ _).mp h
  exact ⟨k, h1, by simpa using h2⟩

/-- **C86** is false for what an interface inherits: it's shown by the name, and two known interfaces may have one name, e.g. versions of one interface. Following the
reference leads to another interface than the inherited one. -/
theorem C86_inherited_fails : ∃ k : Stock, ∃ es, runStock World.H World.I World.M World.G es .empty = some k ∧
    ∃ info ∈ k.ifaceInfos World.I exInfo 7, ∃ d d', k.stash.ifaceById info.id = some d ∧ d.inherits = [21] ∧ info.inherits = [.name 7] ∧
      k.stash.iface (.name 7) = some d' ∧ World.I.iface d' = 20 ∧ k.stash.ifaceById 21 = some ⟨7, [], 1⟩ := by
  obtain ⟨k, h, h1⟩ := exInfoObtain World.M [.kit { ifaces := [⟨7, [], 0⟩, ⟨7, [], 1⟩, ⟨8, [21], 2⟩] }] (fun k =>
    k.ifaceInfos World.I exInfo 7 = [⟨20, 1, 7, none, [], 100, 1000, [], none⟩, ⟨21, 1, 7, none, [], 101, 1001, [], some 1⟩, ⟨22, 1, 8, none, [], 102, 1002, [.name 7], some 2⟩] ∧
    k.stash.iface (.name 7) = some ⟨7, [], 0⟩ ∧ k.stash.ifaceById 22 = some ⟨8, [21], 2⟩ ∧ k.stash.ifaceById 21 = some ⟨7, [], 1⟩) (by decide +kernel)
  exact ⟨k, _, h, ⟨22, 1, 8, none, [], 102, 1002, [.name 7], some 2⟩, by rw [h1.1]; simp, _, _, h1.2.2.1, rfl, rfl, h1.2.1, rfl, h1.2.2.2⟩

/-- **C86** is false for classes and features: only the first supplement of an interface is looked at, and they are ordered by their time, the oldest one first. A supplement
which names the class is stored, but an older one without it hides it. -/
theorem C86_class_fails : ∃ k : Stock, ∃ es, runStock World.H World.I World.M World.G es .empty = some k ∧
    ∃ info ∈ k.ifaceInfos World.I exInfo 7, info.standard = none ∧
      ∃ x ∈ k.stash.supplements (exInfo.ifaceRef info.id), exInfo.says x exInfo.classAnnot = some 3 ∧ exInfo.deClass 3 = .ok 53 := by
  obtain ⟨k, h, h1⟩ := exInfoObtain World.M [.kit { ifaces := [⟨7, [], 0⟩], supplements := [⟨4 * 20 + 2, 0⟩, ⟨4 * 20 + 2, 3⟩] }] (fun k =>
    k.ifaceInfos World.I exInfo 7 = [⟨20, 1, 7, none, [], 100, 1000, [], none⟩] ∧
    k.stash.supplements (exInfo.ifaceRef 20) = [⟨4 * 20 + 2, 0⟩, ⟨4 * 20 + 2, 3⟩]) (by decide +kernel)
  exact ⟨k, _, h, ⟨20, 1, 7, none, [], 100, 1000, [], none⟩, by rw [h1.1]; simp, rfl, ⟨4 * 20 + 2, 3⟩, by rw [h1.2]; simp, by decide +kernel, rfl⟩

/-- **C86** is false for times which the calendar doesn't have: such an interface is shown as made at the time of the listing, so two listings of one stock differ. -/
theorem C86_created_fails : ∃ k : Stock, ∃ es, runStock World.H World.I World.M World.G es .empty = some k ∧
    ∃ info ∈ k.ifaceInfos World.I exInfo 7, ∃ info' ∈ k.ifaceInfos World.I exInfo 8, info.id = info'.id ∧ info.createdAt = 7 ∧ info'.createdAt = 8 := by
  obtain ⟨k, h, h1⟩ := exInfoObtain World.M [.kit { ifaces := [⟨7, [], 9⟩] }] (fun k =>
    k.ifaceInfos World.I exInfo 7 = [⟨29, 1, 7, none, [], 109, 7, [], some 9⟩] ∧ k.ifaceInfos World.I exInfo 8 = [⟨29, 1, 7, none, [], 109, 8, [], some 9⟩]) (by decide +kernel)
  exact ⟨k, _, h, ⟨29, 1, 7, none, [], 109, 7, [], some 9⟩, by rw [h1.1]; simp, ⟨29, 1, 7, none, [], 109, 8, [], some 9⟩, by rw [h1.2]; simp, rfl, rfl, rfl⟩

/-- **C86** is false for a contract whose acceptance failed: it's listed, and its schema isn't. Here the Merkle proof of its bundle is refused. -/
theorem C86_schema_fails : ∃ M : Mpc, ∃ k : Stock, ∃ o, Stock.consumeConsignment World.H World.I M World.G World.r World.con .empty = some (k, some o) ∧
    ∃ info ∈ k.contractInfos World.H World.I exInfo 7, info.schemaId = 10 ∧ k.schemaInfos World.I exInfo 7 = [] := by
  have h : (Stock.consumeConsignment World.H World.I ⟨fun _ _ _ => none⟩ World.G World.r World.con .empty).any (fun p => decide (p.2.isSome = true ∧
    p.1.contractInfos World.H World.I exInfo 7 = [⟨0, 10, 8, 1200, true, [1]⟩] ∧ p.1.schemaInfos World.I exInfo 7 = [])) = true := by decide +kernel
  obtain ⟨⟨k, o⟩, h1, h2⟩ := (Option.any_eq_true _ _).mp h
  simp only [decide_eq_true_eq] at h2
  obtain ⟨o', ho⟩ := Option.isSome_iff_exists.mp h2.1
  have ho : o = some o' := ho
  subst ho
  exact ⟨_, k, o', h1, ⟨0, 10, 8, 1200, true, [1]⟩, by rw [h2.2.1]; simp, rfl, h2.2.2⟩

end Rgb.Props
