import Verif.Spec.Pass
import Verif.Lemmas.PassStore

/-!
A consignment made by a stock is coherent.
-/

namespace Rgb

open MemStash Stock

variable {H : Commit} {I : Ids} {E : Env} {k : Stock}

theorem client_method {b : Nat} {cb : ClientBundle} (h : clientBundle E k b = .ok cb) : cb.dbc.method = cb.bundle.closeMethod := by
  obtain ⟨-, _, _, _, _, _, -, -, -, -, -, h6, -⟩ := clientBundle_ok h
  rw [h6]

/-- Grouped bundles are on the sides of their closing methods. -/
theorem groupBundles_wf (cbs : List ClientBundle) (m m' : OMap WitnessId WitnessBundle)
    (hm : ∀ w wb, OMap.get? m w = some wb → wb.WF) (hcb : ∀ cb ∈ cbs, cb.dbc.method = cb.bundle.closeMethod)
    (h : groupBundles H k cbs m = .ok m') : ∀ w wb, OMap.get? m' w = some wb → wb.WF := by
  induction cbs generalizing m with
  | nil => simp only [groupBundles] at h; cases h; exact hm
  | cons cb cbs ih =>
    simp only [groupBundles] at h
    have hcb1 := hcb cb (by simp)
    split at h
    · cases h
    split at h
    · cases h
    split at h
    · cases h
    rename_i w _ sw _
    split at h
    · refine ih _ (fun w' wb hw => ?_) (fun x hx => hcb x (by simp [hx])) h
      simp only [OMap.get?_insert] at hw
      split at hw
      · cases hw
        simp only [WitnessBundle.with_, WitnessBundle.WF, AnchoredBundles.of, hcb1]
        cases hc : cb.bundle.closeMethod <;> simp [hc]
      · exact hm _ _ hw
    · rename_i wb hwb
      split at h
      · cases h
      · rename_i wb2 e2
        refine ih _ (fun w' x hw => ?_) (fun x hx => hcb x (by simp [hx])) h
        simp only [OMap.get?_insert] at hw
        split at hw
        · cases hw
          have h1 := hm _ _ hwb
          simp only [WitnessBundle.intoDouble] at e2
          simp only [WitnessBundle.WF] at h1
          split at e2 <;> first | cases e2 | skip
          · rename_i o ea em
            rw [ea] at h1
            exact ⟨hcb1 ▸ em, h1⟩
          · rename_i o ea em
            rw [ea] at h1
            exact ⟨h1, hcb1 ▸ em⟩
        · rw [OMap.get?_erase] at hw
          split at hw
          · cases hw
          · exact hm _ _ hw

theorem sorted_pairwise {κ ν : Type} [Key κ] [DecidableEq κ] {m : OMap κ ν} (hm : OMap.Sorted m) : m.Pairwise (fun a b => a.1 ≠ b.1) := by
  have := hm.nodup
  simp only [OMap.keys, List.Nodup, List.pairwise_map] at this
  exact this

theorem filter_le_one {α : Type} {f : α → Nat} {l : List α} (h : l.Pairwise (fun a b => f a ≠ f b)) (n : Nat) :
    (l.filter (fun x => decide (f x = n))).length ≤ 1 := by
  induction l with
  | nil => simp
  | cons a l ih =>
    rw [List.pairwise_cons] at h
    by_cases ha : f a = n
    · have : l.filter (fun x => decide (f x = n)) = [] := by
        rw [List.filter_eq_nil_iff]
        intro x hx
        simp only [decide_eq_true_eq]
        intro hn
        exact h.1 x hx (ha.trans hn.symm)
      simp [List.filter_cons, ha, this]
    · simp only [List.filter_cons, ha, decide_false]
      exact ih h.2

theorem consignIfaces_from (l : OMap Nat IimplDoc) (m m' : OMap IfaceDoc IimplDoc) (h : consignIfaces k l m = .ok m') :
    ∀ e ∈ m', e ∈ m ∨ ∃ name, (name, e.2) ∈ l ∧ k.stash.ifaceByName name = some e.1 := by
  induction l generalizing m with
  | nil => simp only [consignIfaces] at h; cases h; exact fun e he => .inl he
  | cons e l ih =>
    obtain ⟨name, x⟩ := e
    simp only [consignIfaces] at h
    cases hd : k.stash.ifaceByName name with
    | none => simp [hd] at h
    | some d =>
      simp only [hd] at h
      intro e he
      rcases ih _ h e he with h1 | ⟨n, h1, h2⟩
      · rcases OMap.mem_of_insert h1 with h1 | h1
        · subst h1; exact .inr ⟨name, by simp, hd⟩
        · exact .inl h1
      · exact .inr ⟨n, by simp [h1], h2⟩

theorem known_transition (hH : H.Binding) (hk : Kept H I k) {b : Nat} {x : Bundle} (hb : k.stash.bundle b = some x) {t : Op} (ht : t ∈ OMap.vals x.known) :
    t.Proper ∧ t.kind = .transition := by
  obtain ⟨h1, h2⟩ := hk.hist.good.bundle _ _ hb
  obtain ⟨e, he, rfl⟩ := List.mem_map.mp ht
  have hg : OMap.get? x.known e.1 = some e.2 := h2.sorted.get?_of_mem he
  obtain ⟨h3, h4⟩ := h2.keyed _ _ hg
  obtain ⟨t0, e1, e2, e3⟩ := (hk.keys _ _ hb e.1 (OMap.contains_iff.mpr ⟨_, hg⟩)).1
  have hc := id_conceal hH (e1.trans h3.symm)
  have hk1 := congrArg Op.kind hc
  have hk2 := congrArg Op.globals hc
  simp only [Op.conceal] at hk1 hk2
  exact ⟨⟨h4, by rw [← hk2]; exact e3⟩, by rw [← hk1]; exact e2⟩

/-- The bundles of a consignment made by the stock. -/
theorem consign_shape (hH : H.Binding) (hk : Kept H I k) {fuel c : Nat} {outputs : List Outpoint} {secret : Option Nat} {con : Consignment}
    (h : consign H I E fuel k c outputs secret = some (.ok con)) :
    con.data.genesis.contractId H = c ∧ con.data.genesis.kind = .genesis ∧ con.data.genesis.Proper ∧ con.data.extensions = [] ∧
    (∀ wb ∈ con.data.bundles, wb.WF) ∧
    (∀ wb ∈ con.data.bundles, ∀ x ∈ wb.anchored.list, clientBundle E k (x.bundle.id H) = .ok x ∧
      ∃ o t, Needed k c outputs secret o ∧ Knows k o (x.bundle.id H) t) ∧
    (con.data.bundles.flatMap (fun wb => wb.anchored.bundles)).Pairwise (fun b b' => b.id H ≠ b'.id H) ∧
    con.data.bundles.Pairwise (fun wb wb' => wb.id ≠ wb'.id) := by
  have hg := hk.hist.good
  obtain ⟨ops, acc₀, acc, groups, si, h1, h2, hi, -, hn, hgen, hs, -, -, hgr, -, hbs, -, hex, -⟩ :=
    consign_ok hg (fun l => public_nil hk.hist.index c l) h
  obtain ⟨g1, g2, g3⟩ := hg.genesis _ _ hgen
  have hid : ∀ b cb, OMap.get? acc.anchored b = some cb → cb.bundle.id H = b := by
    intro b cb h
    exact (hg.bundle _ _ (clientBundle_ok (hi.anchored _ _ h).1).1).1
  have hcl : ∀ cb ∈ OMap.vals acc.anchored, clientBundle E k (cb.bundle.id H) = .ok cb := by
    intro cb hcb
    obtain ⟨b, hb⟩ := (mem_vals hi.sortedA).mp hcb
    rw [hid b cb hb]
    exact (hi.anchored _ _ hb).1
  obtain ⟨r1, r2, r3⟩ := groupBundles_ok hg (OMap.vals acc.anchored) [] groups .nil (by simp) hcl hgr
  have hwf := groupBundles_wf (OMap.vals acc.anchored) [] groups (by simp) (fun cb hcb => client_method (hcl cb hcb)) hgr
  have hfrom : ∀ w wb, OMap.get? groups w = some wb → ∀ x ∈ wb.anchored.list, x ∈ OMap.vals acc.anchored ∧
      ∃ ws, OMap.get? k.index.bundleWitness (x.bundle.id H) = some ws ∧ k.state.selectValidWitness ws = .ok w := by
    intro w wb hw x hx
    rcases (r3 w x).mp ⟨wb, hw, hx⟩ with ⟨_, h1, -⟩ | h1
    · cases h1
    · exact h1
  have hwid : ∀ w wb, OMap.get? groups w = some wb → wb.id = w := by
    intro w wb hw
    obtain ⟨sw, s1, s2⟩ := r2 _ _ hw
    rw [← hg.witness _ _ s1, SealWitness.id, WitnessBundle.id, s2]
  refine ⟨g1, g2, ⟨g3, hk.gens _ _ hgen⟩, hex, fun wb hwb => ?_, fun wb hwb x hx => ?_, ?_, ?_⟩
  · rw [hbs] at hwb
    obtain ⟨w, hw⟩ := (mem_vals r1).mp hwb
    exact hwf w wb hw
  · rw [hbs] at hwb
    obtain ⟨w, hw⟩ := (mem_vals r1).mp hwb
    obtain ⟨h3, -⟩ := hfrom w wb hw x hx
    obtain ⟨b, hb⟩ := (mem_vals hi.sortedA).mp h3
    rw [hid b x hb]
    exact hi.anchored _ _ hb
  · rw [hbs, List.pairwise_flatMap]
    refine ⟨fun wb hwb => ?_, ?_⟩
    · obtain ⟨w, hw⟩ := (mem_vals r1).mp hwb
      have h3 := hwf w wb hw
      simp only [WitnessBundle.WF] at h3
      simp only [AnchoredBundles.bundles]
      split at h3
      · rename_i t ea; simp [ea, AnchoredBundles.list]
      · rename_i t ea; simp [ea, AnchoredBundles.list]
      · rename_i t o ea
        simp only [ea, AnchoredBundles.list, List.map_cons, List.map_nil, List.pairwise_cons, List.mem_singleton, List.not_mem_nil, false_implies,
          implies_true, List.Pairwise.nil, and_true, forall_eq]
        intro he
        have ht := (hfrom w wb hw t (by simp [ea, AnchoredBundles.list])).1
        have ho := (hfrom w wb hw o (by simp [ea, AnchoredBundles.list])).1
        have e1 := clientBundle_ok (hcl t ht)
        have e2 := clientBundle_ok (hcl o ho)
        rw [he, e2.1] at e1
        have e3 : o.bundle = t.bundle := by injection e1.1
        rw [← e3, h3.2] at h3
        cases h3.1
    · simp only [OMap.vals, List.pairwise_map]
      refine (sorted_pairwise r1).imp_of_mem (fun {a b} ha hb hab x hx y hy he => hab ?_)
      simp only [AnchoredBundles.bundles, List.mem_map] at hx hy
      obtain ⟨x', hx', rfl⟩ := hx
      obtain ⟨y', hy', rfl⟩ := hy
      obtain ⟨-, ws, e1, e2⟩ := hfrom a.1 a.2 (r1.get?_of_mem ha) x' hx'
      obtain ⟨-, ws', e3, e4⟩ := hfrom b.1 b.2 (r1.get?_of_mem hb) y' hy'
      rw [he, e3] at e1; cases e1
      rw [e4] at e2
      injection e2 with e2
      exact e2.symm
  · rw [hbs]
    simp only [OMap.vals, List.pairwise_map]
    refine (sorted_pairwise r1).imp_of_mem (fun {a b} ha hb hab he => hab ?_)
    rw [← hwid a.1 a.2 (r1.get?_of_mem ha), ← hwid b.1 b.2 (r1.get?_of_mem hb), he]

theorem consign_proper (hH : H.Binding) (hk : Kept H I k) {fuel c : Nat} {outputs : List Outpoint} {secret : Option Nat} {con : Consignment} (r : Resolver)
    (h : consign H I E fuel k c outputs secret = some (.ok con)) : StockEvent.Proper H (.consignment con r) := by
  obtain ⟨-, g2, g3, hex, hwf, hcb, -, -⟩ := consign_shape hH hk h
  have hst : ∀ wb ∈ con.data.bundles, ∀ b ∈ wb.anchored.bundles, k.stash.bundle (b.id H) = some b := by
    intro wb hwb b hb
    obtain ⟨x, hx, rfl⟩ := List.mem_map.mp hb
    exact (clientBundle_ok (hcb wb hwb x hx).1).1
  refine ⟨⟨g2, g3.1, by simp [hex], fun wb hwb b hb => (hk.hist.good.bundle _ _ (hst wb hwb b hb)).2⟩, hwf, g3, by simp [hex], ?_⟩
  exact fun wb hwb b hb t ht => known_transition hH hk (hst wb hwb b hb) ht

theorem consign_coherent (hH : H.Binding) {M : Mpc} {G : SchemaDoc → SchemaGlobals} {r : Resolver} (hE : E.ProvesFor M) (hk : Kept H I k)
    {fuel c : Nat} {outputs : List Outpoint} {secret : Option Nat} {con : Consignment}
    (h : consign H I E fuel k c outputs secret = some (.ok con)) (hn : k.stash.NamesDiffer) (ho : k.OfContract c outputs secret)
    (hv : con.Checked G r) : con.Coherent H I M G r ∧ con.ifaces.length ≤ 255 ∧ con.supplements.length ≤ 255 ∧ ∀ b, con.data.timesBundle H b ≤ 1 := by
  have hg := hk.hist.good
  obtain ⟨g1, -, -, -, -, hcb, hp, hw⟩ := consign_shape hH hk h
  obtain ⟨ops, acc₀, acc, groups, si, -, -, -, -, -, hgen, hs, hsd, hif, -, -, -, -, -, -, -, hsl, -⟩ :=
    consign_ok hg (fun l => public_nil hk.hist.index c l) h
  obtain ⟨hi1, hi2⟩ := hk.impls.impls _ _ hs
  refine ⟨⟨hv.resolved, hv.plainSeals, hv.seals, hv.globals, hw, ?_, ?_, ?_⟩, ?_, hsl, fun b => ?_⟩
  · intro wb hwb wb' hwb' b hb b' hb' o h1 h2
    obtain ⟨x, hx, rfl⟩ := List.mem_map.mp hb
    obtain ⟨x', hx', rfl⟩ := List.mem_map.mp hb'
    have e1 := (hk.keys _ _ (clientBundle_ok (hcb wb hwb x hx).1).1 o h1).2
    have e2 := (hk.keys _ _ (clientBundle_ok (hcb wb' hwb' x' hx').1).1 o h2).2
    rw [e1] at e2
    injection e2
  · intro wb hwb x hx
    obtain ⟨h1, o, t, h2, h3⟩ := hcb wb hwb x hx
    refine ⟨client_method h1, ?_⟩
    obtain ⟨-, ws, c', w, sw, a, -, i2, -, -, -, -, i7⟩ := clientBundle_ok h1
    rw [ho o _ t h2 h3] at i2
    cases i2
    rw [g1]
    exact hE _ _ _ _ i7 _
  · have hfind : ∀ name d, k.stash.ifaceByName name = some d → ∃ i, k.stash.ifaceById i = some d ∧ d.name = name ∧ I.iface d = i := by
      intro name d hd
      simp only [ifaceByName] at hd
      have h1 := List.find?_some hd
      obtain ⟨i, h3⟩ := (mem_vals hk.impls.sorted).mp (List.mem_of_find?_eq_some hd)
      exact ⟨i, h3, by simpa using h1, hk.addressed.iface _ _ h3⟩
    intro e he
    rcases consignIfaces_from _ _ _ hif e he with h1 | ⟨name, h1, h2⟩
    · cases h1
    obtain ⟨e1, d, e2, e3⟩ := hi2 _ h1
    refine ⟨?_, e, he, ?_⟩
    · rw [e1, hsd, hk.addressed.schema _ _ hs]
    · obtain ⟨i, f1, f2, f3⟩ := hfind _ _ h2
      rw [f3]
      exact hn i _ _ _ f1 e2 (f2.trans e3.symm)
  · have := length_consignIfaces _ _ _ hif
    simp only [List.length_nil] at this
    omega
  · exact filter_le_one (f := Bundle.id H) hp b

/-! ## Operations which a finished transfer can't have visited -/

/-- The loop isn't finished while something of a set is to be visited, each known operation of which has a parent in the set. -/
theorem loop_trap {c : Nat} {S : Nat → Prop} (hc : ∀ o, S o → o ≠ c) (hS : ∀ o b t, S o → Knows k o b t → ∃ p ∈ parents t, S p)
    (fuel : Nat) (st : List Nat) {acc acc' : ConsignAcc} (h : consignLoop H E k c fuel st acc = some (.ok acc')) : ∀ o ∈ st, ¬ S o := by
  induction fuel generalizing st acc with
  | zero =>
    cases st with
    | nil => simp
    | cons o st => simp [consignLoop] at h
  | succ fuel ih =>
    cases st with
    | nil => simp
    | cons o st =>
      simp only [consignLoop] at h
      by_cases hoc : o = c
      · rw [if_pos hoc] at h
        intro x hx hs
        rcases List.mem_cons.mp hx with rfl | hx
        · exact hc _ hs hoc
        · exact ih st h x hx hs
      · rw [if_neg hoc] at h
        cases e : consignVisit H E k acc o with
        | error x => simp [e] at h
        | ok q =>
          obtain ⟨a, ps⟩ := q
          simp only [e] at h
          have hi := ih _ h
          obtain ⟨b, t, hk, rfl⟩ := consignVisit_parents e
          intro x hx hs
          rcases List.mem_cons.mp hx with rfl | hx
          · obtain ⟨p, hp, hps⟩ := hS _ _ _ hs hk
            exact hi p (by simp [hp]) hps
          · exact hi x (by simp [hx]) hs

/-- Operations from which those of a set are reached. -/
inductive Leads (k : Stock) (c : Nat) (S : Nat → Prop) : Nat → Prop
  | self {o : Nat} : S o → Leads k c S o
  | step {o b p : Nat} {t : Op} : o ≠ c → Knows k o b t → p ∈ parents t → Leads k c S p → Leads k c S o

theorem consign_trap (hk : Kept H I k) {fuel c : Nat} {outputs : List Outpoint} {secret : Option Nat} {con : Consignment}
    (h : consign H I E fuel k c outputs secret = some (.ok con)) {S : Nat → Prop} (hc : ∀ o, S o → o ≠ c)
    (hS : ∀ o b t, S o → Knows k o b t → ∃ p ∈ parents t, S p) {o : Nat} (ho : Needed k c outputs secret o) : ¬ S o := by
  have hg := hk.hist.good
  have hpub := fun l => public_nil hk.hist.index c l
  have hne : ∀ o, Leads k c S o → o ≠ c := by
    intro o h
    cases h with
    | self h => exact hc _ h
    | step h => exact h
  have hle : ∀ o b t, Leads k c S o → Knows k o b t → ∃ p ∈ parents t, Leads k c S p := by
    intro o b t hl hkn
    cases hl with
    | self hs =>
      obtain ⟨p, h1, h2⟩ := hS _ _ _ hs hkn
      exact ⟨p, h1, .self h2⟩
    | step _ hk' hp hl =>
      obtain ⟨-, rfl⟩ := hkn.unique hk'
      exact ⟨_, hp, hl⟩
  have hneed : ∀ o, Needed k c outputs secret o → o ≠ c := by
    intro o hn
    cases hn with
    | output _ h => exact h
    | input _ _ _ h => exact h
  simp only [consign] at h
  cases e1 : consignOps k c outputs secret with
  | error e => simp [e1] at h
  | ok ops =>
  simp only [e1] at h
  cases e2 : consignOpouts H E k c secret ops {} with
  | error e => simp [e2] at h
  | ok acc₀ =>
  simp only [e2] at h
  cases e3 : consignLoop H E k c fuel ((OMap.vals acc₀.transitions).flatMap parents).reverse acc₀ with
  | none => simp [e3] at h
  | some r =>
  cases r with
  | error e => simp [e3] at h
  | ok acc =>
  have htrap := loop_trap hne hle fuel _ e3
  obtain ⟨i1, -, t1⟩ := consignOpouts_ok (N := fun _ => True) hg ops ⟨.nil, .nil, by simp, by simp⟩ (fun _ _ _ => trivial) e2
  have key : ∀ o, Needed k c outputs secret o → ¬ Leads k c S o := by
    intro o hn
    induction hn with
    | output hr hoc =>
      intro hl
      obtain ⟨t, ht⟩ := Option.isSome_iff_exists.mp (t1 _ ((mem_consignOps hpub e1 _).mpr ⟨_, hr, rfl⟩) hoc)
      obtain ⟨-, b, hkn, -⟩ := i1.trans _ _ ht
      obtain ⟨p, hp, hl⟩ := hle _ _ _ hl hkn
      refine htrap p ?_ hl
      simp only [List.mem_reverse, List.mem_flatMap]
      exact ⟨t, (mem_vals i1.sortedT).mpr ⟨_, ht⟩, hp⟩
    | @input o b t i hn hkn hi hic ih =>
      intro hl
      exact ih (.step (hneed _ hn) hkn (List.mem_map.mpr ⟨i, hi, rfl⟩) hl)
  exact fun hs => key o ho (.self hs)

/-- The id of a known genesis isn't that of a known transition. -/
theorem not_knows_genesis (hH : H.Binding) (hk : Kept H I k) {c : Nat} (hc : (k.stash.genesis c).isSome = true) {b : Nat} {t : Op} : ¬ Knows k c b t := by
  intro hkn
  obtain ⟨g, hg⟩ := Option.isSome_iff_exists.mp hc
  obtain ⟨h1, h2, -⟩ := hk.hist.good.genesis _ _ hg
  have hid := hkn.id hk.hist.good
  obtain ⟨-, x, h3, h4⟩ := hkn
  obtain ⟨-, h5⟩ := known_transition hH hk h3 (t := t) (List.mem_map.mpr ⟨_, OMap.mem_of_get? h4, rfl⟩)
  have hgi : g.id H = t.id H := by rw [hid, ← h1]; simp [Op.contractId, h2]
  have := congrArg Op.kind (id_conceal hH hgi)
  simp only [Op.conceal, h2, h5] at this
  cases this

/-- A transfer which is made has only operations of the contract, if the histories are complete. -/
theorem consign_of (hH : H.Binding) (hk : Kept H I k) (hl : k.Linked) {fuel c : Nat} {outputs : List Outpoint} {secret : Option Nat} {con : Consignment}
    (h : consign H I E fuel k c outputs secret = some (.ok con)) : k.OfContract c outputs secret := by
  intro o b t hn hkn
  obtain ⟨ops, acc₀, acc, groups, si, -, -, hinv, -, hall, hgen, -⟩ := consign_ok hk.hist.good (fun l => public_nil hk.hist.index c l) h
  have hgc : (k.stash.genesis c).isSome = true := by rw [hgen]; rfl
  obtain ⟨t', ht'⟩ := Option.isSome_iff_exists.mp ((hall o).mp hn)
  obtain ⟨-, b', hkn', hb'⟩ := hinv.trans _ _ ht'
  obtain ⟨rfl, rfl⟩ := hkn.unique hkn'
  obtain ⟨cb, hcb⟩ := Option.isSome_iff_exists.mp hb'
  obtain ⟨-, ws, c', -, -, -, -, hi2, -⟩ := clientBundle_ok (hinv.anchored _ _ hcb).1
  by_cases hcc : c' = c
  · exact hcc ▸ hi2
  exfalso
  refine consign_trap hk h (S := fun o => o ≠ c ∧ ((∀ b t, ¬ Knows k o b t) ∨ ∃ b t, Knows k o b t ∧ OMap.get? k.index.bundleContract b = some c'))
    (fun o h => h.1) ?_ hn ⟨?_, .inr ⟨b, t, hkn, hi2⟩⟩
  · rintro o b t ⟨-, h | ⟨b', t', h1, h2⟩⟩ hkn
    · exact absurd hkn (h _ _)
    obtain ⟨rfl, rfl⟩ := hkn.unique h1
    obtain ⟨g1, g2, g3⟩ := hl _ _ _ _ hkn h2
    obtain ⟨i, hi⟩ := List.exists_mem_of_ne_nil _ g2
    refine ⟨i.op, List.mem_map.mpr ⟨i, hi, rfl⟩, ?_⟩
    rcases g3 i hi with rfl | ⟨b', t', h3, h4⟩
    · exact ⟨hcc, .inl fun b t h => not_knows_genesis hH hk g1 h⟩
    · refine ⟨?_, .inr ⟨b', t', h3, h4⟩⟩
      rintro rfl
      exact not_knows_genesis hH hk hgc h3
  · rintro rfl
    exact not_knows_genesis hH hk hgc hkn

end Rgb
