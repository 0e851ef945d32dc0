import Verif.Props.Arrive
import Verif.Lemmas.Open

/-! # C75: exported contracts -/

namespace Rgb.Props
open Rgb

variable {H : Commit} {I : Ids} {M : Mpc} {G : SchemaDoc → SchemaGlobals} {E : Stock.Env} {r : Resolver} {con : Consignment} {k k' : Stock}

/-- **C75** (contents). An exported contract is the genesis as the stock has it, with nothing of the history of the contract. -/
theorem C75_only_genesis (hH : H.Binding) (hk : k.Reachable H) {fuel c : Nat} (h : k.exportContract H I E fuel c = some (.ok con)) :
    k.stash.genesis c = some con.data.genesis ∧ con.data.genesis.contractId H = c ∧
    con.data.bundles = [] ∧ con.data.extensions = [] ∧ con.terminals = [] := by
  have hist := Stock.Reachable.hist hH hk
  obtain ⟨ops, acc₀, acc, groups, si, h1, h2, h3, h4, h5, h6, -, -, -, h10, -, h12, h13, h14, -⟩ :=
    Stock.consign_ok hist.good (fun l => Stock.public_nil hist.index c l) h
  have hops : ops = [] := by
    cases ops with
    | nil => rfl
    | cons o l =>
      obtain ⟨p, hp, -⟩ := (Stock.mem_consignOps (fun l => Stock.public_nil hist.index c l) h1 o).mp (by simp)
      rcases hp with ⟨l, e1, e2⟩ | ⟨s, e1, -⟩
      · simp only [Index.opoutsByOutputs] at e1
        split at e1
        · cases e1
        · cases e1; cases e2
      · cases e1
  subst hops
  cases h2
  have hno : ∀ o, ¬ Stock.Needed k c [] none o := by
    intro o hn
    induction hn with
    | output hr _ =>
      rcases hr with ⟨l, e1, e2⟩ | ⟨s, e1, -⟩
      · simp only [Index.opoutsByOutputs] at e1
        split at e1
        · cases e1
        · cases e1; cases e2
      · cases e1
    | input _ _ _ _ ih => exact ih
  refine ⟨h6, (hist.good.genesis _ _ h6).1, ?_, h14, h13.trans h4⟩
  have ha : acc.anchored = [] := by
    cases hq : acc.anchored with
    | nil => rfl
    | cons e l =>
      obtain ⟨-, o, t, hn, -⟩ := h3.anchored e.1 e.2 (by rw [hq]; simp [OMap.get?])
      exact absurd hn (hno o)
  rw [ha] at h10
  cases h10
  exact h12

/-- **C75** (always finished). Exporting a contract always ends, and with the same result however many steps are allowed. -/
theorem C75_finished (hH : H.Binding) (hk : k.Reachable H) (c : Nat) : ∃ x, ∀ fuel, k.exportContract H I E fuel c = some x := by
  have hist := Stock.Reachable.hist hH hk
  simp only [Stock.exportContract, Stock.consign, Stock.consignOps]
  cases h1 : k.index.publicOpouts c with
  | error e => exact ⟨_, fun _ => rfl⟩
  | ok l =>
    have := Stock.public_nil hist.index c l h1
    subst this
    simp only [Index.publicOpouts] at h1
    cases h2 : OMap.get? k.index.contracts c with
    | none => simp [h2] at h1
    | some ci =>
      have h3 : k.index.opoutsByTerminals ([] : List Nat) = [] := by
        simp only [Index.opoutsByTerminals, List.not_mem_nil, decide_false, List.filter_false, List.flatMap_nil]; rfl
      have hl : ∀ fuel, Stock.consignLoop H E k c fuel [] {} = some (.ok {}) := fun fuel => by cases fuel <;> rfl
      simp only [Index.opoutsByOutputs, h2, Index.byOutputsLoop, Option.toList_none, h3]
      exact ⟨Stock.consignFinish H I E k c {}, fun fuel => by simp [OSet.extend, Stock.consignOpouts, OMap.vals, hl]⟩

/-- **C75** (what was imported can be exported). A stock got its contents by events of which nothing was missing, without errors. Then each contract which came with its genesis, and which
is committed as in C64, is exported. -/
theorem C75_exported (hH : H.Binding) (hM : M.Lawful) (hG : ∀ d, OMap.Sorted (G d).maxItems) (hI : Ids.Lawful H I) (hE : E.Lawful)
    {es : List StockEvent} {c : Nat} (hc : Complete H I E es) (h : AllDone H I M G es .empty k) (himp : Imported H es c) (hv : AllValid H es k c) (hu : OneCommitted H es c)
    (hfew : k.FewIfaces I c) :
    ∃ con, ∀ fuel, k.exportContract H I E fuel c = some (.ok con) := by
  have hk : k.Reachable H := ⟨I, M, G, es, hG, fun e he => (hc.sound e he).proper, allDone_run es h⟩
  have hi : OMap.contains k.index.contracts c = true := by
    obtain ⟨con, r, he, rfl⟩ := himp
    obtain ⟨k₁, hh⟩ := (complete_facts hH hM hG hc.toFurnished h).has _ he
    exact hh.idx.conC _ ⟨con, r, rfl, rfl⟩
  obtain ⟨x, hx⟩ := C75_finished (I := I) (E := E) hH hk c
  obtain ⟨ci, hci⟩ := OMap.contains_iff.mp hi
  have hl : k.index.opoutsByOutputs c [] = .ok [] := by simp only [Index.opoutsByOutputs, hci]; rfl
  cases x with
  | ok con => exact ⟨con, hx⟩
  | error e => exact absurd (hx 0) (C64_transferable hH hM hG hI hE hc h himp hv hu hfew hl 0 e)

/-- **C75** (import). After a consignment was consumed without an error, the visible state which its genesis assigns to visible seals is seen in the contract's state, whatever was known before and
whatever is known about witnesses. -/
theorem C75_genesis_state (hH : H.Binding) (hG : ∀ d, OMap.Sorted (G d).maxItems) (hk : k.Reachable H)
    (hp : StockEvent.Proper H (.consignment con r)) (hd : k.consumeConsignment H I M G r con = some (k', none)) :
    ∃ view, k'.state.contractState (con.data.genesis.contractId H) = .ok view ∧ ∀ kind a, con.data.genesis.Makes H none kind a → a ∈ view.all kind := by
  have hist := Stock.Reachable.hist hH hk
  obtain ⟨con', h1, h2⟩ := consignment_done hd
  obtain ⟨hp', hgen, -⟩ := Stock.resolve_proper hH _ _ _ r hp h1
  have hist' := Stock.event_hist hH hG _ hp hist (done_exec hd)
  obtain ⟨es, g3, g4⟩ := hist'.state
  have hinv : StInv k'.state := runSt_inv g3 stInv_empty g4
  obtain ⟨calls, c1, c2, c3, -⟩ := updateFromConsignment_done (hG _) hp' (body_state h2)
  obtain ⟨-, -, -, -, -, -, a7⟩ := execAll_witnesses c1 c2
  have hcon := a7 _ c3
  simp only [StCall.contract, hgen] at hcon
  obtain ⟨cs, hcs⟩ := OMap.contains_iff.mp hcon
  have hv : ∃ view, k'.state.contractState (con.data.genesis.contractId H) = .ok view := ⟨_, by simp only [MemState.contractState, hcs]; rfl⟩
  obtain ⟨view, hv⟩ := hv
  refine ⟨view, hv, fun kind a hm => (mem_all_iff hinv hv kind a).mpr ⟨⟨⟨a.opout, a.sl⟩, ?_⟩, ?_⟩⟩
  · have := made_genesis hH hG hp' h2 hist' (kind := kind) (a := a) (by rw [hgen]; exact hm)
    rwa [hgen] at this
  · rw [hm.2.1]; trivial

/-- **C75** (others take it). An exported contract, whose genesis was validated, is taken by each new stock, and what its genesis assigns is seen there.
Missing: stocks with two interfaces of the same name, see `C75_same_name_fails`. -/
theorem C75_imported_partial (hH : H.Binding) (hG : ∀ d, OMap.Sorted (G d).maxItems) (hE : E.ProvesFor M)
    {es : List StockEvent} (he : ∀ e ∈ es, StockEvent.Proper H e) (hes : runStock H I M G es .empty = some k)
    {fuel c : Nat} (hx : k.exportContract H I E fuel c = some (.ok con)) (hn : k.stash.NamesDiffer)
    (hs : ∀ a ∈ con.data.genesis.assigned, ∀ x, a.seal? = some x → x.txid.isSome = true)
    (hgl : ∀ e ∈ con.data.genesis.globals, OMap.contains (G con.schema).maxItems e.1 = true)
    (hf : ∀ s, con.data.genesis.hiddenTo H s ≤ 255) :
    ∃ k₂ view, Stock.empty.consumeConsignment H I M G r con = some (k₂, none) ∧ k₂.state.contractState c = .ok view ∧
      ∀ kind a, con.data.genesis.Makes H none kind a → a ∈ view.all kind := by
  have hk : k.Reachable H := ⟨I, M, G, es, hG, he, hes⟩
  obtain ⟨-, h2, h3, h4, h5⟩ := C75_only_genesis hH hk hx
  have kept := runStock_kept hH hG es he kept_empty hes
  have hops : con.data.ops = [con.data.genesis] := by
    simp [ConsignmentData.ops, ConsignmentData.plainOps, ConsignmentData.transitions, h3, h4]
  have htr : con.data.transitions = [] := by simp [ConsignmentData.transitions, h3]
  have hno : ∀ o, ¬ Stock.Needed k c [] none o := by
    intro o hn
    induction hn with
    | output hr _ =>
      rcases hr with ⟨l, e1, e2⟩ | ⟨s, e1, -⟩
      · simp only [Index.opoutsByOutputs] at e1
        split at e1
        · cases e1
        · cases e1; cases e2
      · cases e1
    | input _ _ _ _ ih => exact ih
  obtain ⟨k₂, hd⟩ := C73_new_wallet_partial (r := r) hH hG hE he hes hx hn (fun o b t h => absurd h (hno o))
    ⟨by simp [h3], by simpa [ConsignmentData.plainOps, h4] using hs, by simp [htr], by simpa [hops] using hgl⟩ (seals := []) (by simp)
    (by simpa [ConsignmentData.hiddenTo, hops] using hf)
  have he : Stock.empty.Reachable H := ⟨I, M, G, [], hG, by simp, rfl⟩
  obtain ⟨view, hv, hall⟩ := C75_genesis_state hH hG he (consign_proper hH kept r hx) hd
  exact ⟨k₂, view, hd, h2 ▸ hv, hall⟩

/-! The contract of the example world. -/

example : ∃ con, ∀ fuel, World.k.exportContract World.H World.I World.E fuel 0 = some (.ok con) := by
  obtain ⟨h1, h2, h3, h4, -, -, -, -, h5⟩ := exLaws
  exact C75_exported World.H_binding h3 World.G_sorted h1 h2 exComplete exAllDone h4 exValid exOne h5

theorem exExport : ∃ con, World.k.exportContract World.H World.I World.E 0 0 = some (.ok con) ∧ con.data.genesis = World.g ∧ con.schema = ⟨0⟩ :=
  World.any_ok (by decide +kernel)

example : ∃ con k₂ view, World.k.exportContract World.H World.I World.E 0 0 = some (.ok con) ∧
    Stock.empty.consumeConsignment World.H World.I World.M World.G World.r con = some (k₂, none) ∧ k₂.state.contractState 0 = .ok view ∧
    (⟨⟨0, 1, 0⟩, ⟨.bitcoin, .opretFirst, 50, 0⟩, .fungible 10 0 0, none⟩ : OutAssign) ∈ view.all .fungible := by
  obtain ⟨con, h1, h2, h3⟩ := exExport
  obtain ⟨k₂, view, h4, h5, h6⟩ := C75_imported_partial (I := World.I) (M := World.M) (r := World.r) World.H_binding World.G_sorted exPass_proves World.events_proper (Option.some_get _).symm h1 exPass_names
    (by
      rw [h2]
      have h : ∀ a ∈ World.g.assigned, a.seal?.all (fun x => x.txid.isSome) = true := by decide
      intro a ha x hx
      simpa [hx] using h a ha)
    (by rw [h2]; intro e he; simp only [World.g, List.mem_singleton] at he; subst he; rfl)
    (fun s => by rw [h2]; exact Nat.le_trans List.countP_le_length (by decide))
  refine ⟨con, k₂, view, h1, h4, h5, h6 _ _ ?_⟩
  rw [h2]
  exact ⟨by decide +kernel, rfl, _, World.sG, rfl, rfl, rfl, rfl⟩

/-- **C75** fails when the stock has two interfaces of the same name, and the schema got an implementation of the second one: the export has it together with the first one,
and a new wallet which imports it panics. -/
theorem C75_same_name_fails : ∃ (k : Stock) (con : Consignment), k.Reachable World.H ∧
    k.stash.ifaceById 20 = some ⟨7, [], 0⟩ ∧ k.stash.ifaceById 21 = some ⟨7, [], 1⟩ ∧
    k.exportContract World.H World.I World.E 100 0 = some (.ok con) ∧ con.Checked World.G World.r ∧ con.ifaces = [(⟨7, [], 0⟩, ⟨10, 21, 1⟩)] ∧
    Stock.empty.consumeConsignment World.H World.I World.M World.G World.r con = none := by
  obtain ⟨k, h1, h2, h3, h4⟩ := World.obtain
    [.consignment World.con World.r, .kit { ifaces := [⟨7, [], 1⟩], iimpls := [⟨10, 21, 1⟩] }]
    (by
      intro e he
      simp only [List.mem_cons, List.not_mem_nil, or_false] at he
      rcases he with rfl | rfl
      · exact World.con_proper
      · trivial)
    (fun k => k.stash.ifaceById 20 = some ⟨7, [], 0⟩ ∧ k.stash.ifaceById 21 = some ⟨7, [], 1⟩ ∧
      ((k.exportContract World.H World.I World.E 100 0).bind Except.toOption).any (fun con => decide (
        exPassOk con ∧ con.ifaces = [(⟨7, [], 0⟩, ⟨10, 21, 1⟩)] ∧
        Stock.empty.consumeConsignment World.H World.I World.M World.G World.r con = none)) = true) (by decide +kernel)
  obtain ⟨con, h5, h6, h7, h8⟩ := World.any_ok h4
  exact ⟨k, con, h1, h2, h3, h5, exPass_checked h6, h7, h8⟩

end Rgb.Props
