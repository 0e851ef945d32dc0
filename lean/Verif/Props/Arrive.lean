import Verif.Lemmas.Arrive
import Verif.Props.Pass

/-! # C74: payments arrive -/

namespace Rgb.Props
open Rgb

variable {H : Commit} {I : Ids} {M : Mpc} {G : SchemaDoc → SchemaGlobals} {E : Stock.Env} {r : Resolver} {con : Consignment} {k k' : Stock}

/-- **C74** (what the payer sends). A transfer made with a secret seal has, for each requested operation with an assignment to this seal, the bundle of this
operation with the operation as the stock has it, and names the bundle and the seal as a terminal. -/
theorem C74_terminals (hH : H.Binding) (hG : ∀ d, OMap.Sorted (G d).maxItems)
    {es : List StockEvent} (he : ∀ e ∈ es, StockEvent.Proper H e) (hes : runStock H I M G es .empty = some k)
    {fuel c s : Nat} {outputs : List Outpoint} (ht : k.transfer H I E fuel c outputs (some s) = some (.ok con))
    {o : Opout} (hr : Stock.Requested k c outputs (some s) o) (hoc : o.op ≠ c) {b : Nat} {t : Op} (hk : Stock.Knows k o.op b t) (ha : t.AssignsTo H s) :
    (b, s) ∈ con.terminals ∧ ∃ wb ∈ con.data.bundles, ∃ x ∈ wb.anchored.bundles, x.id H = b ∧ OMap.get? x.known o.op = some t := by
  have kept := runStock_kept hH hG es he kept_empty hes
  have hg := kept.hist.good
  obtain ⟨ops, acc₀, acc, groups, si, h1, h2, h3, h4, h5, -, -, -, -, h10, -, h12, h13, -⟩ :=
    Stock.consign_ok hg (fun l => Stock.public_nil kept.hist.index c l) ht
  constructor
  · rw [h13, h4]
    refine OMap.mem_of_get? ((Stock.consignOpouts_terminals hg ops h2 b s).mpr (.inr ⟨rfl, o.op, ?_, hoc, t, hk, ha⟩))
    exact (Stock.mem_consignOps (fun l => Stock.public_nil kept.hist.index c l) h1 _).mpr ⟨o, hr, rfl⟩
  · obtain ⟨t', ht'⟩ := Option.isSome_iff_exists.mp ((h5 o.op).mp (.output hr hoc))
    obtain ⟨-, b', hk', hb'⟩ := h3.trans _ _ ht'
    obtain ⟨rfl, rfl⟩ := hk.unique hk'
    obtain ⟨cb, hcb⟩ := Option.isSome_iff_exists.mp hb'
    obtain ⟨wb, hwb, hpr⟩ := (Stock.consign_bundles hg h3 h10).2 _ _ hcb
    have h6 := (Stock.clientBundle_ok (h3.anchored _ _ hcb).1).1
    refine ⟨wb, h12 ▸ hwb, cb.bundle, List.mem_map.mpr ⟨cb, hpr.listed, rfl⟩, (hg.bundle _ _ h6).1, ?_⟩
    obtain ⟨-, x, h7, h8⟩ := hk
    rw [h6] at h7; cases h7; exact h8

/-- **C74** (what the payee gets; the part which holds always). A stock which has the secret seal consumes a consignment with a terminal for this seal and a bundle, without an error. Then
each assignment of visible state to the seal in this bundle is in the state of the contract, at the output which the seal defines.
Missing: that it's visible, if an assignment was known before with a witness which is archived: see `C64_state_fails`. -/
theorem C74_received_partial (hH : H.Binding) (hG : ∀ d, OMap.Sorted (G d).maxItems) (hk : k.Reachable H)
    (hp : StockEvent.Proper H (.consignment con r)) (hd : k.consumeConsignment H I M G r con = some (k', none))
    {x : Seal} (hx : x ∈ k.stash.secretSeals) {wb : WitnessBundle} (hwb : wb ∈ con.data.bundles) {b : Bundle} (hb : b ∈ wb.anchored.bundles)
    (ht : (b.id H, H.sealHash x) ∈ con.terminals) {o : Nat} {t : Op} (ho : OMap.get? b.known o = some t) {kind : StateKind} {ty no : Nat} {v : RState}
    (hpay : t.Pays H kind ty no (H.sealHash x) v) {sl : OutSeal} (hsl : x.toOutputWith wb.id = some sl) :
    ∃ view, k'.state.contractState (con.data.genesis.contractId H) = .ok view ∧
      ∃ a ∈ OMap.vals (view.unfiltered.kindSet kind), a.opout = ⟨o, ty, no⟩ ∧ a.sl = sl ∧ a.state = v := by
  have hist := Stock.Reachable.hist hH hk
  obtain ⟨con', h1, h2⟩ := consignment_done hd
  have hp' := (Stock.resolve_proper hH _ _ _ r hp h1).1
  have hist' := Stock.event_hist hH hG _ hp hist (done_exec hd)
  obtain ⟨b', t', h3, h4, h5⟩ := resolve_terminal hH hp h1 hx hwb hb ht ho hpay hsl
  obtain ⟨y, hy, h6⟩ := made_entry hH hG hist hp' h2 hist' h3 h4 h5
  obtain ⟨cs, h7, h8⟩ := Option.bind_eq_some_iff.mp hy
  exact ⟨_, by simp only [MemState.contractState, h7]; rfl, y, List.mem_map.mpr ⟨_, OMap.mem_of_get? h8, rfl⟩, h6⟩

/-- **C74** (what the payee gets, new to it). If nothing was known of the assignment (of the contract maybe), the operation comes with one witness only, and this witness isn't archived, the state
is visible: it's in the contract's state with this witness, and it's found by the outpoint. -/
theorem C74_received_new (hH : H.Binding) (hG : ∀ d, OMap.Sorted (G d).maxItems) (hk : k.Reachable H)
    (hp : StockEvent.Proper H (.consignment con r)) (hd : k.consumeConsignment H I M G r con = some (k', none))
    {x : Seal} (hx : x ∈ k.stash.secretSeals) {wb : WitnessBundle} (hwb : wb ∈ con.data.bundles) {b : Bundle} (hb : b ∈ wb.anchored.bundles)
    (ht : (b.id H, H.sealHash x) ∈ con.terminals) {o : Nat} {t : Op} (ho : OMap.get? b.known o = some t) {kind : StateKind} {ty no : Nat} {v : RState}
    (hpay : t.Pays H kind ty no (H.sealHash x) v) {sl : OutSeal} (hsl : x.toOutputWith wb.id = some sl)
    (hnew : k.Unseen (con.data.genesis.contractId H) kind ⟨o, ty, no⟩)
    (hone : ∀ wb' ∈ con.data.bundles, ∀ b' ∈ wb'.anchored.bundles, OMap.contains b'.known o = true → wb'.id = wb.id)
    (hr : r wb.id ≠ some .archived) :
    ∃ view, k'.state.contractState (con.data.genesis.contractId H) = .ok view ∧ (⟨⟨o, ty, no⟩, sl, v, some wb.id⟩ : OutAssign) ∈ view.all kind ∧
      v ∈ view.byOutpoint kind sl.outpoint ty := by
  have hist := Stock.Reachable.hist hH hk
  obtain ⟨con', h1, h2⟩ := consignment_done hd
  have hp' := (Stock.resolve_proper hH _ _ _ r hp h1).1
  have hist' := Stock.event_hist hH hG _ hp hist (done_exec hd)
  obtain ⟨b', t', h3, h4, h5⟩ := resolve_terminal hH hp h1 hx hwb hb ht ho hpay hsl
  have hy := made_new hH hG hist hp' h2 hist' h3 h4 h5 (unseen_entry hist hnew _) (by
    intro wb' hwb' b'' hb'' hc
    obtain ⟨b0, g1, g2⟩ := (resolve_brings hH hp h1).2 _ b'' _ (.consignment con' r wb' b'' hwb' hb'')
    rw [g2.contains] at hc
    generalize wb'.id = w' at g1 ⊢
    generalize con'.data.genesis.contractId H = c' at g1
    cases g1 with
    | consignment _ _ wb0 _ hw0 hb0 => exact hone wb0 hw0 _ hb0 hc)
  obtain ⟨cs, h7, h8⟩ := Option.bind_eq_some_iff.mp hy
  have hv : ∃ view, k'.state.contractState (con.data.genesis.contractId H) = .ok view := ⟨_, by simp only [MemState.contractState, h7]; rfl⟩
  obtain ⟨view, hv⟩ := hv
  obtain ⟨es, g3, g4⟩ := hist'.state
  have hinv : StInv k'.state := runSt_inv g3 stInv_empty g4
  obtain ⟨calls, c1, c2, -, c4, c5⟩ := updateFromConsignment_done (hG _) hp' (body_state h2)
  obtain ⟨ord, hord, hcall⟩ := c4 _ _ _ _ _ h3 h4
  obtain ⟨-, -, a3, -⟩ := execAll_witnesses c1 c2
  have hwit := a3 wb.id ord (fun c' hc' o' ho' => Option.some.inj ((c5 c' hc' _ o' ho').symm.trans hord)) (.inl ⟨_, hcall, rfl⟩)
  have hmem : (⟨⟨o, ty, no⟩, sl, v, some wb.id⟩ : OutAssign) ∈ view.all kind :=
    (mem_all_iff hinv hv kind _).mpr ⟨⟨_, hy⟩, ord, hwit, fun e => hr (e ▸ hord)⟩
  refine ⟨view, hv, hmem, ?_⟩
  obtain ⟨m1, m2⟩ := List.mem_filter.mp hmem
  refine List.mem_map.mpr ⟨_, List.mem_filter.mpr ⟨List.mem_filter.mpr ⟨m1, by simp⟩, m2⟩, rfl⟩

/-- **C74**. The payee, with any history, who has a secret seal and doesn't know the assignments (and maybe knows the contract), consumes without an error a transfer which was made with this seal. Then all the state which the requested operations
assign to it, and the payer sees, is visible to the payee at the output which the seal defines, unless the witness is archived.
Missing: state which the genesis assigns to the seal, see `C74_genesis_fails`. -/
theorem C74_payment_partial (hH : H.Binding) (hG : ∀ d, OMap.Sorted (G d).maxItems)
    {es : List StockEvent} (he : ∀ e ∈ es, StockEvent.Proper H e) (hes : runStock H I M G es .empty = some k)
    {fuel c : Nat} {outputs : List Outpoint} {x : Seal} (htr : k.transfer H I E fuel c outputs (some (H.sealHash x)) = some (.ok con))
    {o : Nat} {kind : StateKind} {ty no : Nat} {v : RState} (hreq : Stock.Requested k c outputs (some (H.sealHash x)) ⟨o, ty, no⟩) (hoc : o ≠ c)
    {b : Nat} {t : Op} (hkn : Stock.Knows k o b t) (hpay : t.Pays H kind ty no (H.sealHash x) v)
    {k₁ k₂ : Stock} (hk₁ : k₁.Reachable H) (hx : x ∈ k₁.stash.secretSeals) (hnew : k₁.Unseen c kind ⟨o, ty, no⟩)
    (hd : k₁.consumeConsignment H I M G r con = some (k₂, none)) :
    ∃ wb ∈ con.data.bundles, (∃ y ∈ wb.anchored.bundles, y.id H = b) ∧ ∀ sl, x.toOutputWith wb.id = some sl → r wb.id ≠ some .archived →
      ∃ view, k₂.state.contractState c = .ok view ∧ (⟨⟨o, ty, no⟩, sl, v, some wb.id⟩ : OutAssign) ∈ view.all kind ∧ v ∈ view.byOutpoint kind sl.outpoint ty := by
  have kept := runStock_kept hH hG es he kept_empty hes
  obtain ⟨ta, a, p1, p2, p3, p4, p5⟩ := hpay
  obtain ⟨h1, wb, hwb, y, hy, rfl, h2⟩ := C74_terminals hH hG he hes htr hreq hoc hkn
    ⟨ty, ta, a, OMap.mem_of_get? p1, List.mem_of_getElem? p3, p4⟩
  have hp := consign_proper hH kept r htr
  obtain ⟨g1, -, -, -, -, g2, g3, -⟩ := consign_shape hH kept htr
  refine ⟨wb, hwb, ⟨y, hy, rfl⟩, fun sl hsl hr => ?_⟩
  have := C74_received_new hH hG hk₁ hp hd hx hwb hy h1 h2 ⟨ta, a, p1, p2, p3, p4, p5⟩ hsl (g1 ▸ hnew) (by
    intro wb' hwb' b' hb' hc
    obtain ⟨cb, hcb, rfl⟩ := List.mem_map.mp hb'
    have s1 := (Stock.clientBundle_ok (g2 wb' hwb' cb hcb).1).1
    have s2 := (kept.keys _ _ s1 o hc).2
    have s3 : y.id H = cb.bundle.id H := by
      have := hkn.1.symm.trans s2
      injection this
    rw [same_of_flatMap (f := Bundle.id H) g3 hwb hwb' hy hb' s3]) hr
  rwa [g1] at this

/-! In the example world 4 are paid to the secret seal `sC`; a wallet which has this seal, and has got the contract before, sees them. -/

theorem exArrive : ∃ k₁ : Stock, k₁.Reachable World.H ∧ (k₁.stash.secretSeals = [World.sC] ∧
    (k₁.state.contractState 0).map (fun v => (OMap.vals (v.unfiltered.kindSet .fungible)).map OutAssign.opout) = .ok [⟨0, 1, 0⟩, ⟨2, 1, 0⟩, ⟨2, 1, 1⟩] ∧
    (k₁.state.contractState 0).map (fun v => v.byOutpoint .fungible ⟨.bitcoin, 70, 0⟩ 1) = .ok [] ∧
    ((World.k.transfer World.H World.I World.E 100 0 [⟨.bitcoin, 62, 1⟩] (some 6)).bind (fun x => x.toOption.bind (fun con =>
      k₁.consumeConsignment World.H World.I World.M World.G World.r con))).map Prod.snd = some none) :=
  World.obtain [.secretSeal World.sC, .consignment World.con World.r] (by
    intro e he
    rcases List.mem_cons.mp he with rfl | he
    · trivial
    · exact World.events_proper e (by simp only [List.mem_singleton] at he; subst he; simp [World.events])) _ (by decide +kernel)

example : ∃ (k₁ : Stock) (con : Consignment) (k₂ : Stock) (view : ContractView), k₁.Reachable World.H ∧
    (k₁.state.contractState 0).map (fun v => v.byOutpoint .fungible ⟨.bitcoin, 70, 0⟩ 1) = .ok [] ∧
    World.k.transfer World.H World.I World.E 100 0 [⟨.bitcoin, 62, 1⟩] (some 6) = some (.ok con) ∧
    k₁.consumeConsignment World.H World.I World.M World.G World.r con = some (k₂, none) ∧
    k₂.state.contractState 0 = .ok view ∧ .fungible 4 0 0 ∈ view.byOutpoint .fungible ⟨.bitcoin, 70, 0⟩ 1 := by
  obtain ⟨con, h1, h2, h3, h4⟩ := exPass
  obtain ⟨k₁, hr, e1, e2, e4, e3⟩ := exArrive
  have hs : World.H.sealHash World.sC = 6 := by decide +kernel
  have hreq : Stock.Requested World.k 0 [⟨.bitcoin, 62, 1⟩] (some (World.H.sealHash World.sC)) ⟨4, 1, 0⟩ :=
    .inr ⟨_, rfl, by rw [hs]; decide +kernel⟩
  rw [h1] at e3
  obtain ⟨⟨k₂, x⟩, hd, rfl⟩ := Option.map_eq_some_iff.mp e3
  have hd' : k₁.consumeConsignment World.H World.I World.M World.G World.r con = some (k₂, none) := hd
  have hun : k₁.Unseen 0 .fungible ⟨4, 1, 0⟩ := by
    intro v hv a ha hao
    rw [hv] at e2
    have e2' : (OMap.vals (v.unfiltered.kindSet .fungible)).map OutAssign.opout = [⟨0, 1, 0⟩, ⟨2, 1, 0⟩, ⟨2, 1, 1⟩] := Except.ok.inj e2
    have := List.mem_map_of_mem (f := OutAssign.opout) ha
    rw [e2', hao] at this
    simp at this
  obtain ⟨wb, -, -, h5⟩ := C74_payment_partial (I := World.I) (E := World.E) (r := World.r) World.H_binding World.G_sorted World.events_proper (Option.some_get _).symm
    (hs ▸ h1) hreq (by decide) (show Stock.Knows World.k 4 2 World.t2 by decide +kernel)
    (kind := .fungible) (v := .fungible 4 0 0) ⟨_, _, rfl, rfl, rfl, hs.symm, rfl⟩ hr (by simp [e1]) hun hd'
  obtain ⟨view, h6, -, h7⟩ := h5 ⟨.bitcoin, .opretFirst, 70, 0⟩ rfl (by simp [World.r])
  exact ⟨k₁, con, k₂, view, hr, e4, h1, hd', h6, h7⟩

/-! A contract whose genesis assigns 10 to the secret seal `sC`. -/

def exIssued : Op := { kind := .genesis, assigns := [(1, ⟨.fungible, [.confidentialSeal 6 (.fungible 10 0 0)]⟩)] }

noncomputable def exIssueH : Commit := tableCommit World.seals World.states [exIssued.conceal World.H₀] []

def exIssue : Consignment := { World.con with data := ⟨exIssued, [], []⟩ }

theorem exIssue_run : (runStock exIssueH World.I World.M World.G [.consignment exIssue World.r] .empty).isSome = true := by decide +kernel

/-- **C74** fails for state which the genesis assigns to the secret seal: the issuer's stock finds the output by the secret seal and makes the transfer, without any terminal;
the payee, who has the seal, consumes it without an error, and has no state at the output which the seal defines. -/
theorem C74_genesis_fails : ∃ (k k₂ : Stock) (con : Consignment), k.Reachable exIssueH ∧ exIssued.Pays exIssueH .fungible 1 0 (exIssueH.sealHash World.sC) (.fungible 10 0 0) ∧
    Stock.Requested k (exIssued.id exIssueH) [] (some (exIssueH.sealHash World.sC)) ⟨exIssued.id exIssueH, 1, 0⟩ ∧
    k.transfer exIssueH World.I World.E 100 (exIssued.id exIssueH) [] (some (exIssueH.sealHash World.sC)) = some (.ok con) ∧ con.terminals = [] ∧
    (Stock.fresh [World.sC]).consumeConsignment exIssueH World.I World.M World.G World.r con = some (k₂, none) ∧
    World.sC.toOutput = some ⟨.bitcoin, .opretFirst, 70, 0⟩ ∧
    (k₂.state.contractState (exIssued.id exIssueH)).map (fun v => v.all .fungible) = .ok [] := by
  have hs : exIssueH.sealHash World.sC = 6 := by decide +kernel
  have hrun := Option.some_get exIssue_run
  generalize hkd : (runStock exIssueH World.I World.M World.G [.consignment exIssue World.r] .empty).get exIssue_run = k at hrun
  have hr : k.Reachable exIssueH := by
    refine ⟨World.I, World.M, World.G, [.consignment exIssue World.r], World.G_sorted, ?_, hrun.symm⟩
    intro e he
    simp only [List.mem_singleton] at he
    subst he
    refine ⟨⟨rfl, List.pairwise_singleton _ _, by simp [exIssue], by simp [exIssue]⟩, by simp [exIssue], ⟨List.pairwise_singleton _ _, List.Pairwise.nil⟩, by simp [exIssue], by simp [exIssue]⟩
  subst hkd
  obtain ⟨con, h1, h2, h3⟩ := World.any_ok (y := Stock.transfer exIssueH World.I World.E 100
      ((runStock exIssueH World.I World.M World.G [.consignment exIssue World.r] .empty).get exIssue_run) (exIssued.id exIssueH) [] (some (exIssueH.sealHash World.sC)))
    (P := fun con => con.terminals = [] ∧
      ((Stock.fresh [World.sC]).consumeConsignment exIssueH World.I World.M World.G World.r con).any (fun p => decide (p.2 = none ∧
        (p.1.state.contractState (exIssued.id exIssueH)).map (fun v => v.all .fungible) = .ok [])) = true) (by decide +kernel)
  cases e1 : (Stock.fresh [World.sC]).consumeConsignment exIssueH World.I World.M World.G World.r con with
  | none => rw [e1] at h3; cases h3
  | some p =>
    rw [e1] at h3
    obtain ⟨h4, h5⟩ := of_decide_eq_true h3
    obtain ⟨k₂, o⟩ := p
    cases h4
    exact ⟨_, k₂, con, hr, ⟨_, _, rfl, rfl, rfl, hs.symm, rfl⟩, .inr ⟨_, rfl, by rw [hs]; decide +kernel⟩, h1, h2, e1, rfl, h5⟩

end Rgb.Props
