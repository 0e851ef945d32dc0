import Verif.Lemmas.StashSource
import Verif.Lemmas.Pass
import Verif.Props.Usable

/-!
C96: where the state shown comes from.
-/

namespace Rgb.Props

open Rgb Stock Index

section
variable {H : Commit} {I : Ids} {M : Mpc} {G : SchemaDoc → SchemaGlobals} {k : Stock} {es : List StockEvent}

/-- **C96.** After any history, with any failures: each assignment which the state of a contract has was made by an operation of this contract which was in a
consignment or fascia of the history, and has the state, the kind, the output and the witness it was made with there. If its seal was hidden there, then the seal is one which this wallet
made in the history. -/
theorem C96_assignments (hH : H.Binding) (hG : ∀ d, OMap.Sorted (G d).maxItems) (he : ∀ e ∈ es, e.Proper H) (h : runStock H I M G es .empty = some k)
    {c : Nat} {v : ContractView} (hv : k.state.contractState c = .ok v) {kind : StateKind} {a : OutAssign} (ha : a ∈ OMap.vals (v.unfiltered.kindSet kind)) :
    ∃ t w, Had H es c t w ∧ t.Allots H (ownSeals es) w kind a :=
  (source_run hH hG es (fun _ => id) he source_empty h).state.entries _ _ _ _
    (entry_of_view (Stock.Reachable.hist hH ⟨I, M, G, es, hG, he, h⟩) hv ha)

/-- **C96**, what is shown. The same of the state shown by `rights`, `fungible`, `data` and `attach`. -/
theorem C96_shown (hH : H.Binding) (hG : ∀ d, OMap.Sorted (G d).maxItems) (he : ∀ e ∈ es, e.Proper H) (h : runStock H I M G es .empty = some k)
    {c : Nat} {v : ContractView} (hv : k.state.contractState c = .ok v) {kind : StateKind} {p : Outpoint} {ty : Nat} {st : RState}
    (hs : st ∈ v.byOutpoint kind p ty) :
    ∃ t w a, Had H es c t w ∧ t.Allots H (ownSeals es) w kind a ∧ a.state = st ∧ a.sl.outpoint = p ∧ a.opout.ty = ty := by
  obtain ⟨a, ha, rfl⟩ := List.mem_map.mp hs
  obtain ⟨h1, -⟩ := List.mem_filter.mp ha
  obtain ⟨h1, h2⟩ := List.mem_filter.mp h1
  simp only [Bool.and_eq_true, decide_eq_true_eq] at h2
  obtain ⟨t, w, h3, h4⟩ := C96_assignments hH hG he h hv h1
  exact ⟨t, w, a, h3, h4, rfl, h2⟩

/-- **C96**, global state. Each item of global state shown was declared, under its type, by an operation of the contract which was in a consignment or fascia of the history; the witness of it,
if it isn't the genesis, is known to the contract's state. -/
theorem C96_globals (hH : H.Binding) (hG : ∀ d, OMap.Sorted (G d).maxItems) (he : ∀ e ∈ es, e.Proper H) (h : runStock H I M G es .empty = some k)
    {c : Nat} {v : ContractView} (hv : k.state.contractState c = .ok v) {ty : Nat} {items : List (GlobalOrd × Nat)} (hi : v.globalItems ty = some items)
    {o : GlobalOrd} {d : Nat} (hd : (o, d) ∈ items) :
    ∃ t w vals, Had H es c t w ∧ OMap.get? t.globals ty = some vals ∧ d ∈ vals ∧ ∀ w', w = some w' → (v.witnessOrd w').isSome = true := by
  simp only [ContractView.globalItems] at hi
  obtain ⟨gs, h1, rfl⟩ := Option.map_eq_some_iff.mp hi
  obtain ⟨⟨key, d'⟩, h2, h3⟩ := List.mem_filterMap.mp (List.mem_of_mem_take hd)
  obtain ⟨ses, h4, h5⟩ := (Stock.Reachable.hist hH ⟨I, M, G, es, hG, he, h⟩).state
  have hs := runSt_inv h4 stInv_empty h5
  have hsort := (hs.cs _ _ (contractState_get? hv)).glob.known _ _ h1
  have h6 : gentry k.state c ty key = some d' := by
    simp only [gentry, contractState_get? hv, Option.bind_some, gget, h1]
    exact hsort.get?_of_mem (List.mem_reverse.mp h2)
  obtain ⟨t, w, h7, -, -, h8, vals, h9, h10⟩ := (source_run hH hG es (fun _ => id) he source_empty h).state.globals _ _ _ _ h6
  have h11 : d' = d ∧ ∀ w', key.opWitness.witness? = some w' → (v.witnessOrd w').isSome = true := by
    simp only [ContractView.globalItem] at h3
    cases e : key.opWitness with
    | genesis => simp only [e] at h3; cases h3; exact ⟨rfl, by simp [OpWitness.witness?]⟩
    | transition w ty =>
      simp only [e] at h3
      obtain ⟨ord, e1, e2⟩ := Option.map_eq_some_iff.mp h3
      cases e2
      refine ⟨rfl, fun w' hw => ?_⟩
      simp only [OpWitness.witness?] at hw
      cases hw
      simp [ContractView.witnessOrd, e1]
    | extension w ty =>
      simp only [e] at h3
      obtain ⟨ord, e1, e2⟩ := Option.map_eq_some_iff.mp h3
      cases e2
      refine ⟨rfl, fun w' hw => ?_⟩
      simp only [OpWitness.witness?] at hw
      cases hw
      simp [ContractView.witnessOrd, e1]
  exact ⟨t, w, vals, h7, h9, h11.1 ▸ List.mem_of_getElem? h10, fun w' hw => h11.2 w' (h8.trans hw)⟩

/-- **C96**, contracts. Only contracts of which a consignment was consumed (maybe with a failure) have a state. -/
theorem C96_contracts (hH : H.Binding) (hG : ∀ d, OMap.Sorted (G d).maxItems) (he : ∀ e ∈ es, e.Proper H) (h : runStock H I M G es .empty = some k)
    {c : Nat} {v : ContractView} (hv : k.state.contractState c = .ok v) : ∃ con r, .consignment con r ∈ es ∧ con.data.genesis.contractId H = c :=
  (source_run hH hG es (fun _ => id) he source_empty h).state.contracts c (OMap.contains_iff.mpr ⟨_, contractState_get? hv⟩)

/-- **C96**, hidden seals. If all operations of a contract in the history hide the seals of all their assignments, and this wallet didn't make any of them, then the contract
has no owned state. -/
theorem C96_hidden (hH : H.Binding) (hG : ∀ d, OMap.Sorted (G d).maxItems) (he : ∀ e ∈ es, e.Proper H) (h : runStock H I M G es .empty = some k)
    {c : Nat} (hid : ∀ t w, Had H es c t w → ∀ ta ∈ OMap.vals t.assigns, ∀ x ∈ ta.items, x.seal? = none ∧ ∀ y, .secretSeal y ∈ es → H.sealHash y ≠ x.secret H)
    {v : ContractView} (hv : k.state.contractState c = .ok v) (kind : StateKind) : v.all kind = [] := by
  refine List.eq_nil_iff_forall_not_mem.mpr fun a ha => ?_
  obtain ⟨t, w, h1, -, -, ta, x, sl, h2, -, h3, -, h4, -⟩ := C96_assignments hH hG he h hv (List.mem_filter.mp ha).1
  obtain ⟨h5, h6⟩ := hid t w h1 ta (List.mem_map.mpr ⟨_, OMap.mem_of_get? h2, rfl⟩) x (List.mem_of_getElem? h3)
  rcases h4 with h4 | ⟨-, h4, h7⟩
  · rw [h5] at h4; cases h4
  · obtain ⟨e, h8, h9⟩ := List.mem_filterMap.mp h7
    cases e <;> simp only at h9 <;> cases h9
    exact h6 sl h8 h4.symm

/-- **C96**, operations stored. Each state which a stored genesis or a stored transition shows was shown, at the same place, by this genesis in a consignment, or by this transition in a bundle with the same
id in a consignment or a fascia of the history. So was each seal, or it was hidden there and is one which this wallet made in the history. -/
theorem C96_stored (hH : H.Binding) (hG : ∀ d, OMap.Sorted (G d).maxItems) (he : ∀ e ∈ es, e.Proper H) (h : runStock H I M G es .empty = some k) :
    (∀ c g, k.stash.genesis c = some g → g.ShownIn H (ownSeals es) (GenesisOf H es c)) ∧
    ∀ i b, k.stash.bundle i = some b → ∀ o t, OMap.get? b.known o = some t → t.ShownIn H (ownSeals es) (TransitionIn H es i) :=
  ⟨(stashSrc_of hH hG he h).genesis, (stashSrc_of hH hG he h).bundle⟩

/-- **C96**, operations consigned. The same of the operations in a transfer made by the stock (with no outputs and no seal: in an exported contract). In particular a stock doesn't disclose
what it wasn't shown. -/
theorem C96_consigned (hH : H.Binding) (hG : ∀ d, OMap.Sorted (G d).maxItems) (he : ∀ e ∈ es, e.Proper H) (h : runStock H I M G es .empty = some k)
    {E : Stock.Env} {fuel c : Nat} {outputs : List Outpoint} {secret : Option Nat} {con : Consignment}
    (ht : k.transfer H I E fuel c outputs secret = some (.ok con)) :
    con.data.genesis.ShownIn H (ownSeals es) (GenesisOf H es c) ∧ con.data.extensions = [] ∧
    ∀ wb ∈ con.data.bundles, ∀ b ∈ wb.anchored.bundles, ∀ t ∈ OMap.vals b.known, t.ShownIn H (ownSeals es) (TransitionIn H es (b.id H)) := by
  have kept := runStock_kept hH hG es he kept_empty h
  obtain ⟨-, -, -, hex, -, hcl, -, -⟩ := consign_shape hH kept ht
  obtain ⟨-, -, -, -, -, -, -, -, -, -, hgen, -⟩ := consign_ok kept.hist.good (fun l => public_nil kept.hist.index c l) ht
  obtain ⟨h1, h2⟩ := C96_stored hH hG he h
  refine ⟨h1 _ _ hgen, hex, fun wb hwb b hb t htt => ?_⟩
  obtain ⟨x, hx, rfl⟩ := List.mem_map.mp hb
  have hst := (clientBundle_ok (hcl wb hwb x hx).1).1
  obtain ⟨⟨o, t'⟩, h3, rfl⟩ := List.mem_map.mp htt
  exact h2 _ _ hst o t' ((kept.hist.good.bundle _ _ hst).2.sorted.get?_of_mem h3)

/-- **C96**, operations of unknown contracts. In a history without failures each operation is of a contract of which a consignment was consumed. -/
theorem C96_imported (hH : H.Binding) (hG : ∀ d, OMap.Sorted (G d).maxItems) (he : ∀ e ∈ es, e.Proper H) (h : AllDone H I M G es .empty k)
    {c : Nat} {t : Op} {w : Option WitnessId} (ht : Had H es c t w) : Imported H es c := had_imported hH hG he h ht

end

/-! A wallet which made the seal `sC` gets a consignment with `t1` to `t3`, and then fails to consume a fascia of an unknown contract. It has the 4 at 70:0: they come from `t2`, in which the seal
is hidden. And it has the global state 77, of the genesis. -/

def exFull : Consignment := { World.conOf [] [World.wb (.tx ⟨61, 0⟩) World.b1, World.wb (.tx ⟨62, 0⟩) World.b2] with terminals := [(2, 6)] }

def exSrc : List StockEvent :=
  [.secretSeal World.sC, .consignment exFull World.r, .fascia { World.fasciaOf 63 World.b1 with bundles := [(9, World.b1)] } World.r]

theorem exSrc_proper : ∀ e ∈ exSrc, StockEvent.Proper World.H e := by
  intro e he
  simp only [exSrc, List.mem_cons, List.not_mem_nil, or_false] at he
  rcases he with rfl | rfl | rfl
  · trivial
  · have h := World.conOf_proper [] (by simp) [(.tx ⟨61, 0⟩, World.b1), (.tx ⟨62, 0⟩, World.b2)] (by
      intro b hb
      simp only [List.mem_cons, List.not_mem_nil, or_false] at hb
      rcases hb with rfl | rfl
      · exact ⟨World.b1_check, rfl⟩
      · exact ⟨World.b2_check, rfl⟩) World.r
    obtain ⟨⟨h1, h2, h3, h4⟩, h5, h6, h7, h8⟩ := h
    exact ⟨⟨h1, h2, h3, h4⟩, h5, h6, h7, h8⟩
  · intro e he
    simp only [List.mem_singleton] at he
    subst he
    exact ⟨World.b1_check.wf, World.b1_check.proper⟩

theorem exSrc_some : (runStock World.H World.I World.M World.G exSrc .empty).isSome = true := by decide +kernel

noncomputable def exSrcStock : Stock := (runStock World.H World.I World.M World.G exSrc .empty).get exSrc_some

theorem exSrc_run : runStock World.H World.I World.M World.G exSrc .empty = some exSrcStock := by simp [exSrcStock]

def exSrcShown : OutAssign := ⟨⟨4, 1, 0⟩, ⟨.bitcoin, .opretFirst, 70, 0⟩, .fungible 4 0 0, some ⟨.bitcoin, 62⟩⟩

theorem exSrc_state : (exSrcStock.state.contractState 0).toOption.any (fun v => decide (exSrcShown ∈ v.all .fungible) &&
    decide (v.globalItems 5 = some [(.genesis 0, 77)])) = true ∧ (exSrcStock.state.contractState 9).toOption.isNone = true := by decide +kernel

example : ∃ (v : ContractView) (t : Op) (w : Option WitnessId), exSrcStock.state.contractState 0 = .ok v ∧ exSrcShown ∈ v.all .fungible ∧
    Had World.H exSrc 0 t w ∧ t.Allots World.H [World.sC] w .fungible exSrcShown := by
  have h := exSrc_state.1
  cases e : exSrcStock.state.contractState 0 with
  | error x => simp [e, Except.toOption] at h
  | ok v =>
    simp only [e, Except.toOption, Option.any_some, Bool.and_eq_true, decide_eq_true_eq] at h
    obtain ⟨t, w, h1, h2⟩ := C96_assignments World.H_binding World.G_sorted exSrc_proper exSrc_run e (List.mem_filter.mp h.1).1
    exact ⟨v, t, w, rfl, h.1, h1, h2⟩

example : ∃ (v : ContractView) (t : Op) (w : Option WitnessId) (vals : List Nat), exSrcStock.state.contractState 0 = .ok v ∧ v.globalItems 5 = some [(.genesis 0, 77)] ∧
    Had World.H exSrc 0 t w ∧ OMap.get? t.globals 5 = some vals ∧ 77 ∈ vals := by
  have h := exSrc_state.1
  cases e : exSrcStock.state.contractState 0 with
  | error x => simp [e, Except.toOption] at h
  | ok v =>
    simp only [e, Except.toOption, Option.any_some, Bool.and_eq_true, decide_eq_true_eq] at h
    obtain ⟨t, w, vals, h1, h2, h3, -⟩ := C96_globals World.H_binding World.G_sorted exSrc_proper exSrc_run e h.2 (List.mem_singleton.mpr rfl)
    exact ⟨v, t, w, vals, rfl, h.2, h1, h2, h3⟩

/-- The same stock without the secret seal has nothing at 70:0. -/
example : (runStock World.H World.I World.M World.G exSrc.tail .empty).any (fun k => (k.state.contractState 0).toOption.any (fun v =>
    decide (v.byOutpoint .fungible ⟨.bitcoin, 70, 0⟩ 1 = []) && decide (v.byOutpoint .fungible ⟨.bitcoin, 62, 1⟩ 1 = [.fungible 6 0 0]))) = true := by
  decide +kernel

/-! A contract whose genesis and only transition hide all seals has no owned state in a wallet which made another seal. -/

def exVeilG : Op := { kind := .genesis, assigns := [(1, ⟨.fungible, [.confidentialSeal 0 (.fungible 10 0 0)]⟩)] }

noncomputable def exVeilH : Commit := tableCommit World.seals World.states [exVeilG.conceal World.H₀] []

def exVeil : List StockEvent := [.secretSeal World.sC, .consignment { World.con with data := ⟨exVeilG, [], []⟩ } World.r]

example : ∃ (k : Stock) (v : ContractView), runStock exVeilH World.I World.M World.G exVeil .empty = some k ∧ k.state.contractState 0 = .ok v ∧
    v.all .fungible = [] := by
  have hs : (runStock exVeilH World.I World.M World.G exVeil .empty).isSome = true := by decide +kernel
  have hid : exVeilG.contractId exVeilH = 0 := by decide +kernel
  obtain ⟨k, hk⟩ := Option.isSome_iff_exists.mp hs
  have hc : (runStock exVeilH World.I World.M World.G exVeil .empty).any (fun k => (k.state.contractState 0).toOption.isSome) = true := by decide +kernel
  rw [hk] at hc
  simp only [Option.any_some] at hc
  cases e : k.state.contractState 0 with
  | error x => simp [e, Except.toOption] at hc
  | ok v =>
    refine ⟨k, v, hk, e, C96_hidden (tableCommit_binding _ _ _ _) World.G_sorted ?_ hk ?_ e _⟩
    · intro x hx
      simp only [exVeil, List.mem_cons, List.not_mem_nil, or_false] at hx
      rcases hx with rfl | rfl
      · trivial
      · refine ⟨⟨rfl, List.pairwise_singleton _ _, ?_, ?_⟩, ?_, ⟨List.pairwise_singleton _ _, List.Pairwise.nil⟩, ?_, ?_⟩ <;> intro x hx <;> cases hx
    · intro t w ht ta hta x hx
      have key : ∀ c t w, Had exVeilH exVeil c t w → t = exVeilG := by
        intro c t w ht
        cases ht with
        | genesis con r he => simp [exVeil] at he; rw [he.1]
        | extension con r t wb he ht hw => simp [exVeil] at he; rw [he.1] at ht; simp at ht
        | transition e c b w t he hb ht =>
          cases hb with
          | consignment con r wb b h1 h2 => simp [exVeil] at he; rw [he.1] at h1; simp at h1
          | fascia f r c b h1 => simp [exVeil] at he
      cases key _ _ _ ht
      simp only [exVeilG, OMap.vals, List.map_cons, List.map_nil, List.mem_singleton] at hta
      subst hta
      simp only [List.mem_singleton] at hx
      subst hx
      refine ⟨rfl, fun y hy => ?_⟩
      simp only [exVeil, List.mem_cons, List.not_mem_nil, or_false, StockEvent.secretSeal.injEq, reduceCtorEq] at hy
      subst hy
      decide +kernel

/-- A transfer of the stock of the first example has the transition with the id 4 and shows its seal, which was hidden in what it got. -/
example : ∃ con : Consignment, exSrcStock.transfer World.H World.I World.E 100 0 [⟨.bitcoin, 70, 0⟩] none = some (.ok con) ∧
    ∃ wb ∈ con.data.bundles, ∃ b ∈ wb.anchored.bundles, ∃ t ∈ OMap.vals b.known, t.sealAt? 1 0 = some World.sC ∧
    ∃ u x, TransitionIn World.H exSrc (b.id World.H) u ∧ u.id World.H = t.id World.H ∧ u.at? 1 0 = some x ∧
    (x.seal? = some World.sC ∨ x.seal? = none ∧ x.secret World.H = World.H.sealHash World.sC ∧ World.sC ∈ ownSeals exSrc) := by
  have hc : ((exSrcStock.transfer World.H World.I World.E 100 0 [⟨.bitcoin, 70, 0⟩] none).any (fun x => x.toOption.any (fun con =>
    con.data.bundles.any (fun wb => wb.anchored.bundles.any (fun b => (OMap.vals b.known).any (fun t => decide (t.sealAt? 1 0 = some World.sC))))))) = true := by
    decide +kernel
  obtain ⟨y, hy, hc⟩ := (Option.any_eq_true _ _).mp hc
  cases y with
  | error x => cases hc
  | ok con =>
    simp only [Except.toOption, Option.any_some, List.any_eq_true, decide_eq_true_eq] at hc
    obtain ⟨wb, h1, b, h2, t, h3, h4⟩ := hc
    exact ⟨con, hy, wb, h1, b, h2, t, h3, h4, ((C96_consigned World.H_binding World.G_sorted exSrc_proper exSrc_run hy).2.2 wb h1 b h2 t h3).2 _ _ _ h4⟩

end Rgb.Props
