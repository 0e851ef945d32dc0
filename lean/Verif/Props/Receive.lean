import Verif.Lemmas.ReceiveReveal
import Verif.Spec.StockWorld
import Verif.Props.Usable

/-! # C72: valid consignments are accepted -/

namespace Rgb.Props
open Rgb

variable {H : Commit} {I : Ids} {M : Mpc} {G : SchemaDoc → SchemaGlobals} {r : Resolver} {con : Consignment} {k : Stock}

/-- **C72**. A stock with any history takes a valid consignment, without an error and without a panic, if the consignment is coherent, the stock
has nothing which contradicts it, and has room for it. -/
theorem C72_accepts (hH : H.Binding) (hG : ∀ d, OMap.Sorted (G d).maxItems) (hk : k.Reachable H)
    (hp : StockEvent.Proper H (.consignment con r)) (hc : con.Coherent H I M G r) (ha : k.Agrees H M con) (hr : k.Room H I con) :
    ∃ k', k.consumeConsignment H I M G r con = some (k', none) :=
  stock_accepts hH hG (Stock.Reachable.hist hH hk).good hp hc ha hr

/-- **C72** (new wallet). A stock which has nothing but secret seals takes each coherent consignment whose sets are within the limits,
unless one of the seals is to be on another chain than a witness. -/
theorem C72_new_wallet (hH : H.Binding) (hG : ∀ d, OMap.Sorted (G d).maxItems) {seals : List Seal}
    (hp : StockEvent.Proper H (.consignment con r)) (hc : con.Coherent H I M G r)
    (hs : ∀ x ∈ seals, ∀ wb ∈ con.data.bundles, (x.toOutputWith wb.id).isSome = true)
    (h1 : con.ifaces.length ≤ 255) (h2 : con.supplements.length ≤ 255)
    (h3 : ∀ b, con.data.timesBundle H b ≤ 255) (h4 : ∀ s, con.data.hiddenTo H s ≤ 255) :
    ∃ k', (Stock.fresh seals).consumeConsignment H I M G r con = some (k', none) := by
  refine stock_accepts (k := .fresh seals) hH hG ?_ hp hc ⟨hs, ?_, ?_, ?_⟩ ?_
  · constructor <;> intro _ _ h <;> cases h
  · intro cs h; cases h
  · intro wb _ b _
    exact ⟨fun c h => (by cases h), fun o i _ h => (by cases h)⟩
  · intro wb _ sw h; cases h
  · refine ⟨.inr (Nat.lt_of_lt_of_le Nat.zero_lt_one (Nat.le_of_ble_eq_true rfl)), .inr (Nat.lt_of_lt_of_le Nat.zero_lt_one (Nat.le_of_ble_eq_true rfl)), Nat.lt_of_lt_of_le Nat.zero_lt_one (Nat.le_of_ble_eq_true rfl), fun b => ?_, fun b => ?_, .inr (Nat.lt_of_lt_of_le Nat.zero_lt_one (Nat.le_of_ble_eq_true rfl)), ?_, ?_, ?_, fun i => ?_⟩
    · show 0 + _ ≤ 255; have := h3 b; omega
    · show 0 + _ ≤ 255; have := h4 b; omega
    · show 0 + _ ≤ 255; omega
    · intro si h; cases h
    · show 0 + _ ≤ 255; omega
    · show 0 + _ ≤ 255; omega

/-! A stock which got the consignment of the example world, and has a secret seal, takes another one, with the same bundle and one more which
assigns to the secret seal. -/

def exNextCon : Consignment :=
  { World.conOf [] [World.wb (.tx ⟨61, 0⟩) World.b1, World.wb (.tx ⟨63, 0⟩) World.b6] with terminals := [(8, 6)] }

theorem exNext_proper : StockEvent.Proper World.H (.consignment exNextCon World.r) := by
  have h := World.conOf_proper [] (by simp) [(.tx ⟨61, 0⟩, World.b1), (.tx ⟨63, 0⟩, World.b6)] (by
    intro b hb
    simp only [List.mem_cons, List.not_mem_nil, or_false] at hb
    rcases hb with rfl | rfl
    · exact ⟨World.b1_check, rfl⟩
    · exact ⟨by decide +kernel, rfl⟩) World.r
  exact ⟨⟨h.1.1, h.1.2, h.1.3, h.1.4⟩, h.2⟩

theorem exNext_coherent : exNextCon.Coherent World.H World.I World.M World.G World.r where
  resolved := fun _ _ => rfl
  plainSeals := by
    have h : ∀ op ∈ exNextCon.data.plainOps, ∀ a ∈ op.assigned, a.seal?.all (fun x => x.txid.isSome) = true := by decide +kernel
    intro op hop a ha x hx
    simpa [hx] using h op hop a ha
  seals := by
    have h : ∀ p ∈ exNextCon.data.transitions, ∀ a ∈ p.1.assigned, a.seal?.all (fun x => (x.toOutputWith p.2).isSome) = true := by decide +kernel
    intro p hp a ha x hx
    simpa [hx] using h p hp a ha
  globals := by decide +kernel
  witnesses := by decide +kernel
  ops := by
    have h : ∀ wb ∈ exNextCon.data.bundles, ∀ wb' ∈ exNextCon.data.bundles, ∀ b ∈ wb.anchored.bundles, ∀ b' ∈ wb'.anchored.bundles,
        ∀ o ∈ OMap.keys b.known, OMap.contains b'.known o = true → b.id World.H = b'.id World.H := by decide +kernel
    exact fun wb h1 wb' h2 b h3 b' h4 o h5 => h wb h1 wb' h2 b h3 b' h4 o (OMap.mem_keys_iff.mpr h5)
  proved := by decide +kernel
  iimpls := by decide +kernel

/-- What has to be checked of the stock. -/
def exNextOk (k : Stock) : Prop :=
  (∀ x ∈ k.stash.secretSeals, ∀ wb ∈ exNextCon.data.bundles, (x.toOutputWith wb.id).isSome = true) ∧
  (∀ op ∈ exNextCon.data.ops, ∀ e ∈ op.globals, ∀ y ∈ k.state.contracts, OMap.contains y.2.global e.1 = true) ∧
  (∀ wb ∈ exNextCon.data.bundles, ∀ b ∈ wb.anchored.bundles,
    ((OMap.get? k.index.bundleContract (b.id World.H)).all (fun c => decide (c = exNextCon.data.genesis.contractId World.H)) = true) ∧
    (∀ o ∈ OMap.keys b.known, (OMap.get? k.index.opBundle o).all (fun i => decide (i = b.id World.H)) = true)) ∧
  (∀ wb ∈ exNextCon.data.bundles, (k.stash.witness wb.id).all (fun sw => decide (wb.pub.pub.tx?.isSome = true ∧
    ∀ x ∈ wb.anchored.list, (Stock.anchorOf sw.anchors x.dbc.method).all (fun a => decide (a.proof = x.dbc.data ∧ a.root = x.mpc)) = true)) = true) ∧
  k.state.contracts.length < 255 ∧ k.index.contracts.length < 255 ∧ k.stash.geneses.length < 255 ∧
  (∀ e ∈ k.index.bundleWitness, e.2.length ≤ 200) ∧ (∀ e ∈ k.index.terminals, e.2.length ≤ 200) ∧
  k.stash.schemata.length < 255 ∧ k.stash.ifaces.length ≤ 200 ∧ (∀ e ∈ k.stash.schemata, e.2.iimpls.length ≤ 200) ∧
  k.stash.suppl.length ≤ 200 ∧ (∀ e ∈ k.stash.suppl, e.2.length ≤ 200) ∧
  (k.stash.witness ⟨.bitcoin, 61⟩).isSome = true ∧ k.stash.secretSeals ≠ []

noncomputable instance : DecidablePred exNextOk := fun k => by unfold exNextOk; infer_instance

theorem getD_le {κ α : Type} [Key κ] [DecidableEq κ] {m : OMap κ (List α)} {n : Nat} (h : ∀ e ∈ m, e.2.length ≤ n) (i : κ) :
    ((OMap.get? m i).getD []).length ≤ n := by
  cases hg : OMap.get? m i with
  | none => simp
  | some l => exact h _ (OMap.mem_of_get? hg)

theorem exNext_agrees (h : exNextOk k) : k.Agrees World.H World.M exNextCon where
  seals := h.1
  globals := fun cs hcs op hop e he => h.2.1 op hop e he _ (OMap.mem_of_get? hcs)
  bundles := by
    intro wb hwb b hb
    obtain ⟨h1, h2⟩ := h.2.2.1 wb hwb b hb
    refine ⟨fun c hc => ?_, fun o i ho hi => ?_⟩
    · simpa [hc] using h1
    · simpa [hi] using h2 o (OMap.mem_keys_iff.mpr ho)
  witnesses := by
    intro wb hwb sw hsw
    have := h.2.2.2.1 wb hwb
    rw [hsw] at this
    simp only [Option.all_some, decide_eq_true_iff] at this
    refine ⟨.inr this.1, fun x hx p hp a ha => ?_⟩
    have h2 := this.2 x hx
    rw [ha] at h2
    cases hp
    simpa using h2

theorem exNext_hidden (s : Nat) : exNextCon.data.hiddenTo World.H s ≤ 5 := by
  have h : ∀ l : List Op, (l.map (Op.hiddenTo World.H s)).sum ≤ (l.map (fun op => op.assigned.length)).sum := by
    intro l
    induction l with
    | nil => simp
    | cons op l ih =>
      simp only [List.map_cons, List.sum_cons]
      exact Nat.add_le_add List.countP_le_length ih
  exact Nat.le_trans (h _) (by decide +kernel)

example : ∃ k : Stock, k.Reachable World.H ∧ exNextCon.Coherent World.H World.I World.M World.G World.r ∧ k.Agrees World.H World.M exNextCon ∧
    k.Room World.H World.I exNextCon ∧ (k.stash.witness ⟨.bitcoin, 61⟩).isSome = true ∧ k.stash.secretSeals ≠ [] := by
  obtain ⟨k, h1, h2⟩ := World.obtain [.consignment World.con World.r, .secretSeal World.sC] (by
    intro e he
    simp only [List.mem_cons, List.not_mem_nil, or_false] at he
    rcases he with rfl | rfl
    · exact World.con_proper
    · trivial) exNextOk (by decide +kernel)
  refine ⟨k, h1, exNext_coherent, exNext_agrees h2, ?_, h2.2.2.2.2.2.2.2.2.2.2.2.2.2.2⟩
  obtain ⟨-, -, -, -, a1, a2, a3, a4, a5, a6, a7, a8, a9, a10, -⟩ := h2
  have ht : ∀ b, exNextCon.data.timesBundle World.H b ≤ 2 := fun b => Nat.le_trans (List.length_filter_le _ _) (by decide +kernel)
  constructor
  · exact .inr a1
  · exact .inr a2
  · exact a3
  · intro b; have := getD_le a4 b; have := ht b; omega
  · intro b; have := getD_le a5 b; have := exNext_hidden b; omega
  · exact .inr a6
  · have : exNextCon.ifaces.length = 1 := rfl
    omega
  · intro si h
    have h8 : si.iimpls.length ≤ 200 := a8 _ (OMap.mem_of_get? h)
    have : exNextCon.ifaces.length = 1 := rfl
    omega
  · have : exNextCon.supplements.length = 0 := rfl
    omega
  · intro i
    have := getD_le a10 i
    have : exNextCon.supplements.length = 0 := rfl
    simp only [MemStash.supplements]
    omega

end Rgb.Props
