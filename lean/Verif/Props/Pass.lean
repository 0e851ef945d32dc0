import Verif.Lemmas.Pass
import Verif.Props.Receive

/-! # C73: transfers are accepted -/

namespace Rgb.Props
open Rgb

variable {H : Commit} {I : Ids} {M : Mpc} {G : SchemaDoc → SchemaGlobals} {E : Stock.Env} {r : Resolver} {con : Consignment} {k : Stock}

/-- **C73**. A transfer made by a stock with any history is taken by any other stock which has nothing contradicting it and has room for it, without an error and
without a panic: its structure is always right, what remains to be checked is what validation checks about its contents.
Missing: stocks with two interfaces of the same name, see `C73_same_name_fails`. -/
theorem C73_accepted_partial (hH : H.Binding) (hG : ∀ d, OMap.Sorted (G d).maxItems) (hE : E.ProvesFor M)
    {es : List StockEvent} (he : ∀ e ∈ es, StockEvent.Proper H e) (hes : runStock H I M G es .empty = some k)
    {fuel c : Nat} {outputs : List Outpoint} {secret : Option Nat} (ht : k.transfer H I E fuel c outputs secret = some (.ok con))
    (hn : k.stash.NamesDiffer) (ho : k.OfContract c outputs secret) (hv : con.Checked G r)
    {k₁ : Stock} (hk₁ : k₁.Reachable H) (ha : k₁.Agrees H M con) (hr : k₁.Room H I con) :
    ∃ k₂, k₁.consumeConsignment H I M G r con = some (k₂, none) := by
  have hk := runStock_kept hH hG es he kept_empty hes
  exact C72_accepts hH hG hk₁ (consign_proper hH hk r ht) (consign_coherent hH hE hk ht hn ho hv).1 ha hr

/-- **C73** (new wallet). Such a transfer is taken by each stock which has nothing but secret seals, unless one of them is to be on another chain than a witness, or
more than 255 outputs are assigned to one secret seal.
Missing: stocks with two interfaces of the same name, see `C73_same_name_fails`. -/
theorem C73_new_wallet_partial (hH : H.Binding) (hG : ∀ d, OMap.Sorted (G d).maxItems) (hE : E.ProvesFor M)
    {es : List StockEvent} (he : ∀ e ∈ es, StockEvent.Proper H e) (hes : runStock H I M G es .empty = some k)
    {fuel c : Nat} {outputs : List Outpoint} {secret : Option Nat} (ht : k.transfer H I E fuel c outputs secret = some (.ok con))
    (hn : k.stash.NamesDiffer) (ho : k.OfContract c outputs secret) (hv : con.Checked G r)
    {seals : List Seal} (hs : ∀ x ∈ seals, ∀ wb ∈ con.data.bundles, (x.toOutputWith wb.id).isSome = true)
    (hf : ∀ s, con.data.hiddenTo H s ≤ 255) :
    ∃ k₂, (Stock.fresh seals).consumeConsignment H I M G r con = some (k₂, none) := by
  have hk := runStock_kept hH hG es he kept_empty hes
  obtain ⟨h1, h2, h3, h4⟩ := consign_coherent hH hE hk ht hn ho hv
  exact C72_new_wallet hH hG (consign_proper hH hk r ht) h1 hs h2 h3 (fun b => Nat.le_trans (h4 b) (by decide)) hf

/-- **C73** (one contract). If the histories of the stock are complete, the operations which a transfer is made of are all of the contract asked for, also with a secret seal to which
other contracts assign: then no transfer is made. -/
theorem C73_of_contract (hH : H.Binding) (hG : ∀ d, OMap.Sorted (G d).maxItems)
    {es : List StockEvent} (he : ∀ e ∈ es, StockEvent.Proper H e) (hes : runStock H I M G es .empty = some k) (hl : k.Linked)
    {fuel c : Nat} {outputs : List Outpoint} {secret : Option Nat} (ht : k.transfer H I E fuel c outputs secret = some (.ok con)) :
    k.OfContract c outputs secret :=
  consign_of hH (runStock_kept hH hG es he kept_empty hes) hl ht

/-! The transfer made in the example world satisfies this. -/

theorem exPass_linked : World.k.Linked := by
  have h : ∀ e ∈ World.k.index.opBundle, ∀ x ∈ World.k.stash.bundle e.2, ∀ t ∈ OMap.get? x.known e.1,
      ∀ c ∈ OMap.get? World.k.index.bundleContract e.2, (World.k.stash.genesis c).isSome = true ∧ t.inputs ≠ [] ∧
      ∀ i ∈ t.inputs, i.op = c ∨ (i.op = 2 ∧ OMap.get? World.k.index.bundleContract 0 = some c) := by decide +kernel
  have h1 : Stock.Knows World.k 2 0 World.t1 := by decide +kernel
  intro o b t c hk hc
  obtain ⟨e1, x, e2, e3⟩ := hk
  obtain ⟨f1, f2, f3⟩ := h (o, b) (OMap.mem_of_get? e1) x e2 t e3 c hc
  refine ⟨f1, f2, fun i hi => ?_⟩
  rcases f3 i hi with h | ⟨h, h'⟩
  · exact .inl h
  · exact .inr ⟨0, World.t1, h ▸ h1, h'⟩

theorem exPass_proves : World.E.ProvesFor World.M := fun _ _ _ _ _ _ => rfl

theorem exPass_names : World.k.stash.NamesDiffer := by
  have h : ∀ e ∈ World.k.stash.ifaces, ∀ e' ∈ World.k.stash.ifaces, e.2.name = e'.2.name → e.1 = e'.1 := by decide +kernel
  exact fun i j d d' hi hj he => h (i, d) (OMap.mem_of_get? hi) (j, d') (OMap.mem_of_get? hj) he

theorem exPass_of (outputs : List Outpoint) (secret : Option Nat) : World.k.OfContract 0 outputs secret := by
  have h : ∀ e ∈ World.k.index.opBundle, OMap.get? World.k.index.bundleContract e.2 = some 0 := by decide +kernel
  exact fun o b t _ hk => h (o, b) (OMap.mem_of_get? hk.1)

/-- What has to be checked of a consignment. -/
def exPassOk (con : Consignment) : Prop :=
  (∀ op ∈ con.data.plainOps, ∀ a ∈ op.assigned, a.seal?.all (fun x => x.txid.isSome) = true) ∧
  (∀ p ∈ con.data.transitions, ∀ a ∈ p.1.assigned, a.seal?.all (fun x => (x.toOutputWith p.2).isSome) = true) ∧
  (∀ op ∈ con.data.ops, ∀ e ∈ op.globals, e.1 = 5) ∧ (con.data.ops.map (fun op => op.assigned.length)).sum ≤ 255

instance : DecidablePred exPassOk := fun k => by unfold exPassOk; infer_instance

theorem exPass_checked (h : exPassOk con) : con.Checked World.G World.r where
  resolved := fun _ _ => rfl
  plainSeals := fun op hop a ha x hx => by simpa [hx] using h.1 op hop a ha
  seals := fun p hp a ha x hx => by simpa [hx] using h.2.1 p hp a ha
  globals := fun op hop e he => by rw [h.2.2.1 op hop e he]; rfl

theorem exPass_hidden (h : exPassOk con) (s : Nat) : con.data.hiddenTo H s ≤ 255 := by
  refine Nat.le_trans ?_ h.2.2.2
  simp only [ConsignmentData.hiddenTo]
  generalize con.data.ops = l
  induction l with
  | nil => simp
  | cons op l ih =>
    simp only [List.map_cons, List.sum_cons]
    exact Nat.add_le_add List.countP_le_length ih

theorem exPass : ∃ con, World.k.transfer World.H World.I World.E 100 0 [⟨.bitcoin, 62, 1⟩] (some 6) = some (.ok con) ∧
    exPassOk con ∧ con.data.bundles.length = 2 ∧ (∀ x ∈ [World.sC], ∀ wb ∈ con.data.bundles, (x.toOutputWith wb.id).isSome = true) :=
  World.any_ok (by decide +kernel)

example : ∃ con k₂, World.k.transfer World.H World.I World.E 100 0 [⟨.bitcoin, 62, 1⟩] (some 6) = some (.ok con) ∧ con.data.bundles.length = 2 ∧
    (Stock.fresh [World.sC]).consumeConsignment World.H World.I World.M World.G World.r con = some (k₂, none) := by
  obtain ⟨con, h1, h2, h3, h4⟩ := exPass
  obtain ⟨k₂, h⟩ := C73_new_wallet_partial (I := World.I) World.H_binding World.G_sorted exPass_proves World.events_proper (Option.some_get _).symm h1
    exPass_names (exPass_of _ _) (exPass_checked h2) h4 (exPass_hidden h2)
  exact ⟨con, k₂, h1, h3, h⟩

/-- **C73** fails when the stock has two interfaces of the same name: a schema got an implementation of the second one, the transfer has it together with the first one, and
accepting it panics. -/
theorem C73_same_name_fails : ∃ (k : Stock) (con : Consignment), k.Reachable World.H ∧
    k.stash.ifaceById 20 = some ⟨7, [], 0⟩ ∧ k.stash.ifaceById 21 = some ⟨7, [], 1⟩ ∧
    k.transfer World.H World.I World.E 100 0 [⟨.bitcoin, 61, 1⟩] none = some (.ok con) ∧
    con.Checked World.G World.r ∧ con.ifaces = [(⟨7, [], 0⟩, ⟨10, 21, 1⟩)] ∧
    Stock.empty.consumeConsignment World.H World.I World.M World.G World.r con = none := by
  obtain ⟨k, h1, h2, h3, h4⟩ := World.obtain
    [.consignment World.con World.r, .kit { ifaces := [⟨7, [], 1⟩], iimpls := [⟨10, 21, 1⟩] }]
    (by
      intro e he
      simp only [List.mem_cons, List.not_mem_nil, or_false] at he
      rcases he with rfl | rfl
      · exact World.con_proper
      · trivial)
    (fun k => k.stash.ifaceById 20 = some ⟨7, [], 0⟩ ∧ k.stash.ifaceById 21 = some ⟨7, [], 1⟩ ∧
      ((k.transfer World.H World.I World.E 100 0 [⟨.bitcoin, 61, 1⟩] none).bind Except.toOption).any (fun con => decide (
        exPassOk con ∧ con.ifaces = [(⟨7, [], 0⟩, ⟨10, 21, 1⟩)] ∧
        Stock.empty.consumeConsignment World.H World.I World.M World.G World.r con = none)) = true) (by decide +kernel)
  obtain ⟨con, h5, h6, h7, h8⟩ := World.any_ok h4
  exact ⟨k, con, h1, h2, h3, h5, exPass_checked h6, h7, h8⟩

end Rgb.Props
