import Verif.Spec.Conform
import Verif.Props.Source
import Verif.Props.Issue
import Verif.Props.Shown
import Verif.Lemmas.Targets
import Verif.Spec.Consume

/-!
Lemmas about histories which conform to the schemata.
-/

namespace Rgb

open Stock Index Props

variable {E : CEnv} {M : Mpc} {G : SchemaDoc → SchemaGlobals} {es : List StockEvent} {k : Stock}

/-- What a stock has of a contract which was imported. -/
theorem docs_of (hH : E.H.Binding) (hM : M.Lawful) (hG : ∀ d, OMap.Sorted (G d).maxItems) (hI : Ids.Lawful E.H E.I) (hc : Furnished E.H E.I E.S es)
    (h : AllDone E.H E.I M G es .empty k) {con : Consignment} {r : Resolver} (he : .consignment con r ∈ es) :
    ∃ g si, k.stash.genesis (con.data.genesis.contractId E.H) = some g ∧ g.id E.H = con.data.genesis.id E.H ∧
      k.stash.schema (E.I.genesisSchema g) = some si ∧ si.doc = con.schema ∧
      ∀ ref d, k.stash.iface ref = some d → k.stash.HasDocs E si.doc d := by
  have hf := complete_facts hH hM hG hc h
  have hk := runStock_kept hH hG es (fun e he => (hc.sound e he).proper) kept_empty (allDone_run _ h)
  obtain ⟨k₁, hh⟩ := hf.has _ he
  have hd : (StockEvent.facts E.H k₁ (.consignment con r)).d con.data.genesis con.schema con.types con.scripts := ⟨con, r, rfl, rfl, rfl, rfl, rfl⟩
  obtain ⟨g, hg, hsh⟩ := hh.stash.gen _ _ _ _ hd
  have hsc : E.I.genesisSchema g = E.I.schema con.schema := (hI.genesis _ _ hsh.id).trans (hc.schema con r he).symm
  obtain ⟨si, hsi⟩ := Option.isSome_iff_exists.mp (hh.stash.schema _ _ _ _ hd)
  have hdoc : si.doc = con.schema := hI.schema_inj _ _ (hf.only.docs.addressed _ _ hsi)
  obtain ⟨g', si', h1, h2, -, h4, h5⟩ := hf.documents hI hc ⟨con, r, he, rfl⟩
  rw [hg] at h1
  cases h1
  rw [hsc, hsi] at h2
  cases h2
  refine ⟨g, si, hg, hsh.id, hsc ▸ hsi, hdoc, fun ref d hd => ⟨fun t ht => ?_, h5⟩⟩
  rcases ht with ht | ht
  · exact h4 t ht
  · exact hf.only.docs.typed _ _ (iface_found hk.addressed hk.impls.sorted hd) t ht

/-- A contract with state at some outputs was imported. -/
theorem imported_of_state (hH : E.H.Binding) (hG : ∀ d, OMap.Sorted (G d).maxItems) (hp : ∀ e ∈ es, e.Proper E.H)
    (h : runStock E.H E.I M G es .empty = some k) {c : Nat} {prevs : List OutSeal} {a : OutAssign} (ha : a ∈ k.stateAt c prevs) :
    ∃ con r, .consignment con r ∈ es ∧ con.data.genesis.contractId E.H = c := by
  simp only [Stock.stateAt] at ha
  cases hv : k.state.contractState c with
  | error x => rw [hv] at ha; cases ha
  | ok v => exact C96_contracts hH hG hp h hv

/-- An allocation at some outputs was made by an operation of the history. -/
theorem had_of_state (hH : E.H.Binding) (hG : ∀ d, OMap.Sorted (G d).maxItems) (hp : ∀ e ∈ es, e.Proper E.H)
    (h : runStock E.H E.I M G es .empty = some k) {c : Nat} {prevs : List OutSeal} {a : OutAssign} (ha : a ∈ k.stateAt c prevs) :
    ∃ t w, Had E.H es c t w ∧ ∃ ta x, OMap.get? t.assigns a.opout.ty = some ta ∧ x ∈ ta.items ∧ x.state? = some a.state := by
  simp only [Stock.stateAt] at ha
  cases hv : k.state.contractState c with
  | error x => rw [hv] at ha; cases ha
  | ok v =>
    rw [hv] at ha
    obtain ⟨h1, -⟩ := List.mem_filter.mp ha
    obtain ⟨kind, h2⟩ : ∃ kind, a ∈ v.all kind := by
      simp only [List.mem_append] at h1
      rcases h1 with ((h1 | h1) | h1) | h1 <;> exact ⟨_, h1⟩
    obtain ⟨t, w, h3, -, -, ta, x, sl, h4, -, h5, h6, -⟩ := C96_assignments hH hG hp h hv (List.mem_filter.mp h2).1
    exact ⟨t, w, h3, ta, x, h4, List.mem_of_getElem? h5, h6⟩

theorem defines_of (hH : E.H.Binding) (hM : M.Lawful) (hG : ∀ d, OMap.Sorted (G d).maxItems) (hI : Ids.Lawful E.H E.I) (hTC : E.TagsCommitted)
    (hc : Furnished E.H E.I E.S es) (h : AllDone E.H E.I M G es .empty k) (hcf : Conforming E es) {c : Nat} {prevs : List OutSeal} {a : OutAssign}
    (ha : a ∈ k.stateAt c prevs) : k.Defines E c a := by
  have hp : ∀ e ∈ es, e.Proper E.H := fun e he => (hc.sound e he).proper
  have hrun := allDone_run _ h
  obtain ⟨con, r, he, rfl⟩ := imported_of_state hH hG hp hrun ha
  obtain ⟨t, w, h1, ta, x, h2, h3, h4⟩ := had_of_state hH hG hp hrun ha
  obtain ⟨h5, h6⟩ := hcf _ t w h1 con r he rfl _ ta x _ h2 h3 h4
  obtain ⟨g, si, g1, g2, g3, g4, -⟩ := docs_of hH hM hG hI hc h he
  exact ⟨g, si, g1, g3, by rw [g4]; exact h5, fun v bl t e => by rw [hTC _ _ g2]; exact h6 v bl t e⟩

theorem spendable_of (hH : E.H.Binding) (hM : M.Lawful) (hG : ∀ d, OMap.Sorted (G d).maxItems) (hI : Ids.Lawful E.H E.I) (hTC : E.TagsCommitted)
    (hc : Furnished E.H E.I E.S es) (h : AllDone E.H E.I M G es .empty k) (hcf : Conforming E es) {c : Nat} {prevs : List OutSeal}
    (hs : k.stateAt c prevs ≠ [] ∧ (k.stateAt c prevs).length ≤ 255 ∧
      ∀ a ∈ k.stateAt c prevs, ∀ a' ∈ k.stateAt c prevs, a.opout.op = a'.opout.op → a.witness = a'.witness) : k.Spendable E c prevs :=
  ⟨hs.1, hs.2.1, fun _ ha => defines_of hH hM hG hI hTC hc h hcf ha, C38_apart hH ⟨E.I, M, G, es, hG, fun e he => (hc.sound e he).proper, allDone_run _ h⟩ hs.2.2⟩

theorem payable_of (hT : E.TagMaps) (hTC : E.TagsCommitted) (hH : E.H.Binding) (hM : M.Lawful) (hG : ∀ d, OMap.Sorted (G d).maxItems) (hI : Ids.Lawful E.H E.I)
    (h : AllDone E.H E.I M G es .empty k) (hc : Furnished E.H E.I E.S es) (hcf : Conforming E es) (hnd : k.stash.NamesDiffer)
    {W : Wallet} {inv : Inv.Invoice} {prevs : List OutSeal} {c iface ty : Nat} (ha : k.Affords E W inv prevs c iface ty) :
    k.Payable E W inv prevs c iface ty := by
  have hp : ∀ e ∈ es, e.Proper E.H := fun e he => (hc.sound e he).proper
  have hrun := allDone_run _ h
  have hk := runStock_kept hH hG es hp kept_empty hrun
  obtain ⟨n, hn, hiface⟩ := ha.named
  have hty := ha.typed
  simp only [Stock.invoiced, ha.contract, hn, Option.bind_eq_bind, Option.bind_some, Option.bind_eq_some_iff] at hty
  obtain ⟨g, hg, si, hsi, d, hd, x, hx, op, hop, -⟩ := hty
  have hdocs : ∀ id, k.stateAt id prevs ≠ [] → ∃ g si, k.stash.genesis id = some g ∧ k.stash.schema (E.I.genesisSchema g) = some si ∧
      k.stash.HasDocs E si.doc d := by
    intro id hne
    obtain ⟨a, ha⟩ := List.exists_mem_of_ne_nil _ hne
    obtain ⟨con, r, he, rfl⟩ := imported_of_state hH hG hp hrun ha
    obtain ⟨g, si, g1, -, g3, -, g5⟩ := docs_of hH hM hG hI hc h he
    exact ⟨g, si, g1, g3, g5 (.name (E.name n)) d hd⟩
  refine ⟨ha.contract, ha.named, ha.fresh, ?_, ha.typed, ha.vout, ha.alloc, spendable_of hH hM hG hI hTC hc h hcf (ha.few c (.inl rfl)), ha.enough, fun id hid hne => ?_,
    fun id hid _ => spendable_of hH hM hG hI hTC hc h hcf (ha.few id (.inr hid)), ha.count, ha.balance⟩
  · obtain ⟨g', si', g1, g2, g3⟩ := hdocs c (ha.few c (.inl rfl)).1
    rw [hg] at g1
    cases g1
    rw [hsi] at g2
    cases g2
    have hdi : k.stash.iface (.name iface) = some d := by rw [hiface]; exact hd
    refine ⟨_, (C81_transition hH hT hG hp hrun c (.name iface) _ _).mpr ⟨g, si, d, x, op, hg, hsi, hdi, ?_, g3, Option.bind_eq_some_iff.mpr hop, rfl⟩⟩
    exact (implemented_get hk.impls hk.docsSorted hsi (iface_found hk.addressed hk.impls.sorted hdi)).mp hx
  · obtain ⟨g', si', g1, g2, g3⟩ := hdocs id (ha.few id (.inr hid)).1
    exact (C81_blank_partial hH hT hG hp hrun hnd id (.name iface)).1.mpr ⟨g', si', d, g1, g2, by rw [hiface]; exact hd, ha.faced id hid hne _ _ g1 g2, g3⟩

/-! ### Composed transitions -/

namespace Stock

theorem items_tagged (I : IfaceImpl) (E : CEnv) (W : Wallet) (k : Stock) (p : Prep) (l : List Item) :
    (l.flatMap (itemCalls E W k p)).filterMap (TCall.tagged I) = [] := by
  induction l with
  | nil => rfl
  | cons x l ih =>
    rw [List.flatMap_cons, List.filterMap_append, ih]
    unfold itemCalls
    split <;> rfl

theorem blank_tagged (I : IfaceImpl) (E : CEnv) (W : Wallet) (k : Stock) (layer : Layer1) (id : Nat) (l : List Item) :
    (l.flatMap (blankCalls E W k layer id)).filterMap (TCall.tagged I) = [] := by
  induction l with
  | nil => rfl
  | cons x l ih =>
    rw [List.flatMap_cons, List.filterMap_append, ih]
    rfl

theorem payCalls_tagged (I : IfaceImpl) (ty : Nat) (sl : BSeal) (v bl : Nat) : (payCalls ty sl v bl).filterMap (TCall.tagged I) = [] := by
  unfold payCalls; split <;> rfl

theorem Pays.tagged {E : CEnv} {W : Wallet} {k : Stock} {p : Prep} {st : Inv.InvoiceState} {a : Acc} {pm pa : List TCall} (h : Pays E W k p st a pm pa)
    (I : IfaceImpl) : pm.filterMap (TCall.tagged I) = [] ∧ pa.filterMap (TCall.tagged I) = [] := by
  cases st with
  | void => cases h
  | attach x => cases h
  | amount amt =>
    obtain ⟨-, sm, -, rfl, rfl⟩ := h
    constructor <;> rw [List.filterMap_append, payCalls_tagged, payCalls_tagged] <;> rfl
  | data t =>
    obtain ⟨-, rfl, rfl⟩ := h
    constructor <;> cases a.dataMain <;> rfl

theorem payment_fits {E : CEnv} {W : Wallet} {k : Stock} {inv : Inv.Invoice} {prevs : List OutSeal} {b : Batch}
    (C : Composed E W k inv prevs b) {t : BuiltTransition} (ht : t ∈ b.payments) :
    ∀ aty ta, OMap.get? t.op.assigns aty = some ta → ∀ a ∈ ta.items, ∀ st, a.state? = some st → k.KnownFits E t.op.contract aty st := by
  have fin : ∀ {l pays ts}, Side E W k C.p (inv.operation.map E.name) C.s l pays ts → (∀ I, pays.filterMap (TCall.tagged I) = []) → t ∈ ts →
      ∀ aty ta, OMap.get? t.op.assigns aty = some ta → ∀ a ∈ ta.items, ∀ st, a.state? = some st → k.KnownFits E t.op.contract aty st := by
    intro l pays ts h hp hm
    rcases h with ⟨rfl, rfl⟩ | ⟨-, t', rfl, hb⟩
    · cases hm
    · simp only [List.mem_singleton] at hm
      subst hm
      rw [hb.contract]
      exact hb.fits (by rw [List.filterMap_append, items_tagged, hp]; rfl)
  rw [C.payments] at ht
  rcases List.mem_append.1 ht with ht | ht
  · exact fin C.main (fun I => (C.pays.tagged I).1) ht
  · exact fin C.alt (fun I => (C.pays.tagged I).2) ht

theorem blank_fits {E : CEnv} {n : Nat} (hE : E.Lawful n) {W : Wallet} {k : Stock} {inv : Inv.Invoice} {prevs : List OutSeal} {b : Batch}
    (C : Composed E W k inv prevs b) {t : BuiltTransition} (ht : t ∈ b.blankTransitions) :
    ∀ aty ta, OMap.get? t.op.assigns aty = some ta → ∀ a ∈ ta.items, ∀ st, a.state? = some st → k.KnownFits E t.op.contract aty st := by
  obtain ⟨B⟩ := C.toBlanks hE
  unfold Batch.blankTransitions at ht
  rw [B.blanks] at ht
  obtain ⟨d, hd, ht⟩ := List.mem_flatMap.1 ht
  obtain ⟨x, hx, rfl⟩ := List.mem_map.1 hd
  obtain ⟨D⟩ := B.done x hx
  rw [toList_map, List.map_map] at ht
  have ht' : t ∈ D.tt ++ D.to := by rw [← D.list]; exact ht
  have fin : ∀ {l ts}, BSide E W k inv.layer x.1.1 l ts → t ∈ ts →
      ∀ aty ta, OMap.get? t.op.assigns aty = some ta → ∀ a ∈ ta.items, ∀ st, a.state? = some st → k.KnownFits E t.op.contract aty st := by
    intro l ts h hm
    rcases h with ⟨rfl, rfl⟩ | ⟨-, t', I, dflt, rfl, hb⟩
    · cases hm
    · simp only [List.mem_singleton] at hm
      subst hm
      rw [hb.contract]
      exact hb.fits (blank_tagged ..)
  rcases List.mem_append.1 ht' with hm | hm
  · exact fin D.tapret hm
  · exact fin D.opret hm

end Stock

theorem compose_fits {n : Nat} (hE : E.Lawful n) {W : Wallet} {inv : Inv.Invoice} {prevs : List OutSeal} {b : Batch}
    (h : compose E W k inv prevs = .ok b) {c : Nat} {t : BuiltTransition} (ht : t ∈ b.transitionsOf c) :
    ∀ aty ta, OMap.get? t.op.assigns aty = some ta → ∀ a ∈ ta.items, ∀ st, a.state? = some st → k.KnownFits E c aty st := by
  obtain ⟨C⟩ := compose_ok hE h
  obtain ⟨h1, h2⟩ := List.mem_filter.1 ht
  have h2 : t.op.contract = c := of_decide_eq_true h2
  rw [← h2]
  rcases List.mem_append.1 h1 with h1 | h1
  · exact payment_fits C h1
  · exact blank_fits hE C h1

/-- The states which a stock knows to be allowed conform to the consignments. -/
theorem knownFits_of (hT : E.TagMaps) (hTC : E.TagsCommitted) (hH : E.H.Binding) (hM : M.Lawful) (hG : ∀ d, OMap.Sorted (G d).maxItems) (hI : Ids.Lawful E.H E.I)
    (hc : Furnished E.H E.I E.S es) (h : AllDone E.H E.I M G es .empty k) {con : Consignment} {r : Resolver} (he : .consignment con r ∈ es)
    {ty : Nat} {st : RState} (hf : k.KnownFits E (con.data.genesis.contractId E.H) ty st) : st.Fits E con.schema con.data.genesis ty := by
  obtain ⟨g, si, g1, g2, g3, g4, -⟩ := docs_of hH hM hG hI hc h he
  obtain ⟨g', si', h1, h2, h3, h4⟩ := hf
  rw [g1] at h1
  cases h1
  rw [g3] at h2
  cases h2
  refine ⟨by rw [← g4]; exact h3, fun v bl t e => ?_⟩
  have := h4 v bl t e
  rw [lastFor_sorted (hT g).1, hTC _ _ g2] at this
  exact this

theorem conforming_fascia {n : Nat} (hE : E.Lawful n) (hT : E.TagMaps) (hTC : E.TagsCommitted) (hH : E.H.Binding) (hM : M.Lawful)
    (hG : ∀ d, OMap.Sorted (G d).maxItems) (hI : Ids.Lawful E.H E.I)
    (hc : Furnished E.H E.I E.S es) (h : AllDone E.H E.I M G es .empty k) (hcf : Conforming E es) {W : Wallet} {inv : Inv.Invoice} {prevs : List OutSeal} {b : Batch}
    (hb : compose E W k inv prevs = .ok b) {f : Fascia} (hf : ∀ e ∈ f.bundles, ∀ u ∈ OMap.vals e.2.known, ∃ t ∈ b.transitionsOf e.1, t.op = u) (r : Resolver) :
    Conforming E (es ++ [.fascia f r]) := by
  intro c t w ht con r' he hcon
  have he' : .consignment con r' ∈ es := by simpa using he
  have old : Had E.H es c t w → t.Fits E con.schema con.data.genesis := fun ht => hcf c t w ht con r' he' hcon
  cases ht with
  | genesis con' r'' he'' => exact old (.genesis con' r'' (by simpa using he''))
  | extension con' r'' _ wb he'' h1 h2 => exact old (.extension con' r'' t wb (by simpa using he'') h1 h2)
  | transition e _ b' w' _ he'' hbr hm =>
    rcases List.mem_append.1 he'' with he'' | he''
    · exact old (.transition e c b' w' t he'' hbr hm)
    · rw [List.mem_singleton] at he''
      subst he''
      cases hbr with
      | fascia _ _ _ _ hmem =>
        obtain ⟨t', ht', rfl⟩ := hf _ hmem _ hm
        intro ty ta x st h1 h2 h3
        subst hcon
        exact knownFits_of hT hTC hH hM hG hI hc h he' (compose_fits hE hb ht' ty ta h1 x h2 st h3)

/-! ### Transfers -/

/-- The consignments of a contract have the same schema and asset tags. -/
theorem same_documents (hTC : E.TagsCommitted) (hI : Ids.Lawful E.H E.I) (hc : Furnished E.H E.I E.S es) {con con' : Consignment} {r r' : Resolver}
    (h : .consignment con r ∈ es) (h' : .consignment con' r' ∈ es) (hid : con.data.genesis.contractId E.H = con'.data.genesis.contractId E.H) :
    con.schema = con'.schema ∧ E.tagsOf con.data.genesis = E.tagsOf con'.data.genesis := by
  have k1 : con.data.genesis.kind = .genesis := (hc.sound _ h).proper.1.genesisKind
  have k2 : con'.data.genesis.kind = .genesis := (hc.sound _ h').proper.1.genesisKind
  have hid' : con.data.genesis.id E.H = con'.data.genesis.id E.H := by simpa [Op.contractId, k1, k2] using hid
  exact ⟨hI.schema_inj _ _ ((hc.schema con r h).trans ((hI.genesis _ _ hid').trans (hc.schema con' r' h').symm)), hTC _ _ hid'⟩

theorem fits_shown {d : SchemaDoc} {g t : Op} {own : List Seal} {Src : Op → Prop} (h : t.ShownIn E.H own Src) (hs : ∀ u, Src u → u.Fits E d g) : t.Fits E d g := by
  intro ty ta x st h1 h2 h3
  obtain ⟨i, hi⟩ := List.getElem?_of_mem h2
  obtain ⟨u, h4, -, h5⟩ := h.1 ty i st (by simp only [Op.stateAt?, Op.at?, h1, Option.bind_some, hi, h3])
  simp only [Op.stateAt?, Op.at?, Option.bind_eq_some_iff] at h5
  obtain ⟨y, ⟨tb, h6, h7⟩, h8⟩ := h5
  exact hs u h4 ty tb y st h6 (List.mem_of_getElem? h7) h8

theorem transfer_fits (hTC : E.TagsCommitted) (hH : E.H.Binding) (hM : M.Lawful) (hG : ∀ d, OMap.Sorted (G d).maxItems) (hI : Ids.Lawful E.H E.I)
    (hc : Furnished E.H E.I E.S es) (h : AllDone E.H E.I M G es .empty k) (hcf : Conforming E es) {fuel c : Nat} {outputs : List Outpoint} {secret : Option Nat}
    {con : Consignment} (ht : k.transfer E.H E.I E.S fuel c outputs secret = some (.ok con)) (hoc : k.OfContract c outputs secret) : con.Fits E := by
  have hp : ∀ e ∈ es, e.Proper E.H := fun e he => (hc.sound e he).proper
  have hrun := allDone_run _ h
  have hk := runStock_kept hH hG es hp kept_empty hrun
  have hf := complete_facts hH hM hG hc h
  obtain ⟨hg, -, -⟩ := C36_full_history_partial hH ⟨_, _, _, es, hG, hp, hrun⟩ ht
  obtain ⟨si, d1, d2, -⟩ := C36_documents hH ⟨_, _, _, es, hG, hp, hrun⟩ ht
  obtain ⟨con', r', he, hid⟩ := runStock_imported hH hG es hp hrun hg
  obtain ⟨g, si', g1, g2, g3, g4, -⟩ := docs_of hH hM hG hI hc h he
  rw [hid, hg] at g1
  cases g1
  rw [d1] at g3
  cases g3
  have fits : ∀ u w, Had E.H es c u w → u.Fits E con.schema con.data.genesis := by
    intro u w hu ty ta x st h1 h2 h3
    obtain ⟨f1, f2⟩ := hcf c u w hu con' r' he hid ty ta x st h1 h2 h3
    rw [← g4, ← d2] at f1
    rw [← hTC _ _ g2] at f2
    exact ⟨f1, f2⟩
  obtain ⟨s1, s2, s3⟩ := C96_consigned hH hG hp hrun ht
  obtain ⟨-, -, -, -, -, hcl, -, -⟩ := consign_shape hH hk ht
  refine ⟨fits_shown s1 ?_, by simp [s2], fun wb hwb b hb t htt => fits_shown (s3 wb hwb b hb t htt) ?_⟩
  · rintro u ⟨con₂, r₂, h1, h2, rfl⟩
    exact fits _ none (h2 ▸ .genesis con₂ r₂ h1)
  · rintro u ⟨e, h1, c', b', w, h2, h3, h4⟩
    obtain ⟨x, hx, rfl⟩ := List.mem_map.mp hb
    obtain ⟨-, o, t', h5, h6⟩ := hcl wb hwb x hx
    have h7 := (hf.index h1 h2).1
    rw [h3, hoc o _ t' h5 h6] at h7
    cases h7
    exact fits u (some w) (.transition e c b' w u h1 h2 h4)

theorem conforming_consignment (hTC : E.TagsCommitted) (hH : E.H.Binding) (hG : ∀ d, OMap.Sorted (G d).maxItems) (hI : Ids.Lawful E.H E.I)
    (h : AllDone E.H E.I M G es .empty k) (hcf : Conforming E es) {con : Consignment} {r : Resolver} (hc : Furnished E.H E.I E.S (es ++ [.consignment con r]))
    (hf : con.Fits E) : Conforming E (es ++ [.consignment con r]) := by
  have hp : ∀ e ∈ es, e.Proper E.H := fun e he => (hc.sound e (List.mem_append_left _ he)).proper
  have new : .consignment con r ∈ es ++ [.consignment con r] := by simp
  have carry : ∀ {t : Op} {con₁ con₂ : Consignment} {r₁ r₂ : Resolver}, .consignment con₁ r₁ ∈ es ++ [.consignment con r] → .consignment con₂ r₂ ∈ es ++ [.consignment con r] →
      con₁.data.genesis.contractId E.H = con₂.data.genesis.contractId E.H → t.Fits E con₁.schema con₁.data.genesis → t.Fits E con₂.schema con₂.data.genesis := by
    intro t con₁ con₂ r₁ r₂ h1 h2 hid hf ty ta x st e1 e2 e3
    obtain ⟨s1, s2⟩ := same_documents hTC hI hc h1 h2 hid
    obtain ⟨f1, f2⟩ := hf ty ta x st e1 e2 e3
    exact ⟨s1 ▸ f1, fun v bl tg e => s2 ▸ f2 v bl tg e⟩
  intro c t w ht con₂ r₂ h2 hcon
  have old : Had E.H es c t w → t.Fits E con₂.schema con₂.data.genesis := by
    intro ht
    obtain ⟨con₁, r₁, h1, hid⟩ := C96_imported hH hG hp h ht
    exact carry (List.mem_append_left _ h1) h2 (hid.trans hcon.symm) (hcf c t w ht con₁ r₁ h1 hid)
  have fresh : con.data.genesis.contractId E.H = c → t.Fits E con.schema con.data.genesis → t.Fits E con₂.schema con₂.data.genesis :=
    fun h1 h3 => carry new h2 (h1.trans hcon.symm) h3
  have mem : ∀ {e}, e ∈ es ++ [StockEvent.consignment con r] → e ∈ es ∨ e = .consignment con r := by
    intro e he
    simpa using he
  cases ht with
  | genesis con' r'' he =>
    rcases mem he with he | he
    · exact old (.genesis con' r'' he)
    · cases he; exact fresh rfl hf.1
  | extension con' r'' _ wb he h3 h4 =>
    rcases mem he with he | he
    · exact old (.extension con' r'' t wb he h3 h4)
    · cases he; exact fresh rfl (hf.2.1 t h3)
  | transition e _ b w' _ he hbr hm =>
    rcases mem he with he | he
    · exact old (.transition e c b w' t he hbr hm)
    · subst he
      cases hbr with
      | consignment _ _ wb _ h3 h4 => exact fresh rfl (hf.2.2 wb h3 b h4 t hm)

end Rgb
