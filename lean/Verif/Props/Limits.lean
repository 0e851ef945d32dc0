import Verif.Lemmas.Limits
import Verif.Lemmas.Payment
import Verif.Spec.StockWorld

/-!
C90: the collections of a stock stay within the limits of the format it is stored in, and a call is refused for a lack of room only when there is none.
-/

namespace Rgb.Props
open Rgb MemStash

/-- **C90**: whatever is given to a stock, in whatever order, succeeding or failing: none of its collections outgrows the limit of the stored format. -/
theorem C90_limits {H : Commit} (hH : H.Binding) {k : Stock} (h : k.Reachable H) : k.InLimits := by
  obtain ⟨I, M, G, es, hG, he, hr⟩ := h
  have h := history_roomy hH hG he hr
  exact {
    schemata := h.stash.2.schemata
    impls := h.stash.2.impls
    ifaces := h.stash.2.ifaces
    geneses := h.stash.2.geneses
    supplemented := h.stash.2.supplemented
    supplements := fun r => by
      simp only [MemStash.supplements]
      cases e : OMap.get? k.stash.suppl r with
      | none => simp
      | some l => exact h.stash.2.supplements r l e
    sigs := h.stash.2.sigs
    contracts := h.state
    indexed := h.index.contracts
    witnesses := h.index.witnesses
    terminals := h.index.terminals }

/-- **C90**: an update is refused for a lack of room only if a collection of the stock is then full, or some secret hides 255 different outputs of those in the
stock and in the update. -/
theorem C90_refused {H : Commit} (hH : H.Binding) {I : Ids} {M : Mpc} {G : SchemaDoc → SchemaGlobals} (hG : ∀ d, OMap.Sorted (G d).maxItems)
    {es : List StockEvent} (he : ∀ e ∈ es, StockEvent.Proper H e) {k k' : Stock} (hr : runStock H I M G es .empty = some k) {e : StockEvent}
    (hp : e.Proper H) (h : e.NoRoom H I M G k k') :
    k'.Full ∨ ∃ (s : Nat) (l : List Opout), l.Nodup ∧ l.length = 255 ∧ ∀ o ∈ l, o ∈ k.index.opoutsByTerminals [s] ∨ e.Hides H k s o := by
  have hk := history_roomy hH hG he hr
  have hx : IdxInv k.index := by
    obtain ⟨ops, ho⟩ := (Stock.Reachable.hist hH ⟨I, M, G, es, hG, he, hr⟩).index
    rw [ho]; exact run_inv H ops _ idxInv_empty
  have hk' : ∀ (_ : e.exec H I M G k = some k'), Roomy k' := by
    intro h
    refine history_roomy hH (I := I) (M := M) hG (es := es ++ [e]) (fun e' h => (List.mem_append.mp h).elim (he e') fun h => List.mem_singleton.mp h ▸ hp) ?_
    have key : ∀ (l : List StockEvent) (a : Stock), runStock H I M G l a = some k → runStock H I M G (l ++ [e]) a = some k' := by
      intro l
      induction l with
      | nil => intro a ha; cases ha; simp [runStock, h]
      | cons x l ih =>
        intro a ha
        obtain ⟨b, hb, ha⟩ := Option.bind_eq_some_iff.mp ha
        exact Option.bind_eq_some_iff.mpr ⟨b, hb, ih b ha⟩
    exact key es _ hr
  have conv : ∀ {F : Nat → Opout → Prop}, ManyHidden F k.index.terminals → (∀ s o, F s o → e.Hides H k s o) →
      ∃ (s : Nat) (l : List Opout), l.Nodup ∧ l.length = 255 ∧ ∀ o ∈ l, o ∈ k.index.opoutsByTerminals [s] ∨ e.Hides H k s o :=
    fun ⟨s, l, h1, h2, h3⟩ hF => ⟨s, l, h1, h2, fun o ho => (h3 o ho).imp (mem_terminals hx).mpr (hF s o)⟩
  cases e with
  | consignment con r =>
    obtain ⟨e, h, hn⟩ := h
    have hk' := hk' (by simp [StockEvent.exec, h])
    simp only [Stock.consumeConsignment] at h
    cases e1 : k.stash.resolveSecrets H con with
    | error x => exact absurd e1 (resolve_never k.stash con x)
    | ok con' =>
      simp only [e1, Stock.storeTx_mem] at h
      obtain ⟨⟨k2, o'⟩, h, h3⟩ := Option.map_eq_some_iff.mp h
      simp only [Prod.mk.injEq, Option.map_eq_some_iff, TxErr.body.injEq, exists_eq_right] at h3
      obtain ⟨rfl, rfl⟩ := h3
      simp only [Stock.consumeBody] at h
      split at h
      · cases h
      · rename_i t e' he'
        cases h
        left
        cases e' <;> simp [StockErr.noRoom] at hn
        exact .contracts (Nat.le_antisymm hk'.state (consignmentSt_full he'))
      · have h4 := op_full hk.idx hk.index (.consignment con'.data) (H := H)
        simp only [IdxOp.exec] at h4
        split at h
        · rename_i x e' he'
          cases h
          rw [he'] at h4
          cases e' <;> simp [StockErr.noRoom] at hn
          exact (h4 rfl).imp (fun g => g _ _) fun g => conv g fun s o hs => .consignment con con' r s o e1 hs
        · split at h
          · cases h
          · rename_i s e' he'
            cases h
            left
            cases e' <;> simp [StockErr.noRoom] at hn
            exact refuses_consignment _ _ _ _ _ he' hk'.stash _ _
          · cases h
  | fascia f r =>
    obtain ⟨e, h, hn⟩ := h
    have hk' := hk' (by simp [StockEvent.exec, h])
    simp only [Stock.consumeFascia, Stock.storeTx_mem] at h
    obtain ⟨⟨k2, o'⟩, h, h3⟩ := Option.map_eq_some_iff.mp h
    simp only [Prod.mk.injEq, Option.map_eq_some_iff, TxErr.body.injEq, exists_eq_right] at h3
    obtain ⟨rfl, rfl⟩ := h3
    simp only [Stock.fasciaBody] at h
    split at h
    · cases h
    · rename_i s e' he'
      cases h
      left
      cases e' <;> simp [StockErr.noRoom] at hn
      exact refuses_witness _ _ _ he' hk'.stash _ _
    · rename_i s _ _
      exact (fasciaBundles_full (k := ⟨s, k.state, k.index⟩) _ _ _ hk.idx hk.index hk'.stash hk'.state h hn).imp id fun g =>
        conv g fun s o ⟨c, b, hb, hs⟩ => .fascia f r c b s o hb hs
  | kit x =>
    obtain ⟨s, h, rfl⟩ := h
    have hk' := hk' (by simp [StockEvent.exec, h])
    exact .inl (refuses_kit _ _ _ _ h hk'.stash _ _)
  | secretSeal x => cases h
  | trust i t => cases h
  | update r n => cases h

/-! ### Non-vacuity -/

section
open World

/-- A kit of so many interfaces. -/
def exMany (n : Nat) : Kit := { ifaces := (List.range n).map fun i => ⟨n - i, [], n - i⟩ }

example : k.InLimits := C90_limits H_binding k_reachable

/-- The limit is reached: 255 interfaces are stored, one more is refused. -/
theorem exMany_full : (({} : MemStash).consumeKit I (exMany 255)).map (fun p => (p.1.ifaces.length, p.2)) = some (255, .ok ()) ∧
    (({} : MemStash).consumeKit I (exMany 256)).map (fun p => (p.1.ifaces.length, p.2)) = some (255, .error .confinement) := by
  decide +kernel

example : ∃ k', (StockEvent.kit (exMany 256)).NoRoom H I M G .empty k' ∧ k'.Full := by
  obtain ⟨⟨s, o⟩, h1, h2⟩ := Option.map_eq_some_iff.mp exMany_full.2
  simp only [Prod.mk.injEq] at h2
  obtain ⟨h2, rfl⟩ := h2
  have h : (StockEvent.kit (exMany 256)).NoRoom H I M G .empty ⟨s, {}, {}⟩ := ⟨s, h1, rfl⟩
  refine ⟨_, h, (C90_refused H_binding G_sorted (es := []) (by simp) rfl (e := .kit (exMany 256)) trivial h).resolve_right ?_⟩
  rintro ⟨x, l, -, hl, ho⟩
  cases l with
  | nil => cases hl
  | cons o l =>
    rcases ho o (.head _) with h | h
    · cases h
    · cases h

/-- A genesis of which so many outputs are hidden under one secret. -/
def exSecretGenesis (n : Nat) : Op := { kind := .genesis, assigns := [(1, ⟨.declarative, List.replicate n (.confidentialSeal 77 .void)⟩)] }

def exHides (n : Nat) : Consignment := { con with data := ⟨exSecretGenesis n, [], []⟩ }

/-- 256 outputs under one secret are refused, whatever the commitments are. -/
theorem exHides_full (H : Commit) : ∃ k', Stock.empty.consumeConsignment H I M G r (exHides 256) = some (k', some (.body (.index .confinement))) := by
  have h1 : ∀ opid n no m, ContractState.process none opid 1 (List.replicate n (.confidentialSeal 77 .void)) no m = some m := by
    intro opid n
    induction n with
    | zero => intro no m; rfl
    | succ n ih => intro no m; simp [List.replicate_succ, ContractState.process, ContractState.revealed?, ih]
  have h2 : ∀ opid n no m, Index.indexOuts none opid 1 (List.replicate n (.confidentialSeal 77 .void)) no m = (m, none) := by
    intro opid n
    induction n with
    | zero => intro no m; rfl
    | succ n ih => intro no m; simp [List.replicate_succ, Index.indexOuts, Assign.seal?, ih]
  have h3 : (MemState.updateFromConsignment H {} (G (exHides 256).schema) (exHides 256).data r).map Prod.snd = some none := by
    simp only [MemState.updateFromConsignment, consignmentStCalls, exHides, exSecretGenesis, ConsignmentData.transitions, transitionLoop, extensionCalls, StCall.execAll, StCall.exec,
      MemState.registerContract, OMap.get?, ContractState.addOperation, ContractState.addGlobals, ContractState.addAssignments, OpWitness.witness?, h1, List.flatMap_nil, List.filterMap_nil,
      List.append_nil]
    rfl
  have h4 : (Index.indexConsignment H {} (exHides 256).data).2 = some .confinement := by
    have e : List.replicate 256 (Assign.confidentialSeal 77 .void) = .confidentialSeal 77 .void :: List.replicate 255 (.confidentialSeal 77 .void) := rfl
    obtain ⟨o1, -⟩ := extendTerminals_overflow (opid := (exSecretGenesis 256).id H) (ty := 1) (secret := 77) (st := .void) (n := 255) (no := 1)
      (m := [(77, [⟨(exSecretGenesis 256).id H, 1, 0⟩])]) (set := [⟨(exSecretGenesis 256).id H, 1, 0⟩]) (by simp [OMap.get?]) (by simp) (by simp) (by simp)
    have h5 : (Index.extendTerminals ((exSecretGenesis 256).id H) 1 (List.replicate 256 (.confidentialSeal 77 .void)) 0 []).2 = some .confinement := by
      have step : ∀ l, Index.extendTerminals ((exSecretGenesis 256).id H) 1 (.confidentialSeal 77 .void :: l) 0 [] =
          Index.extendTerminals ((exSecretGenesis 256).id H) 1 l 1 [(77, [⟨(exSecretGenesis 256).id H, 1, 0⟩])] := fun _ => rfl
      rw [e, step]
      exact o1
    show (IdxCall.execAll {} (.registerContract ((exSecretGenesis 256).id H) :: [.assignments ((exSecretGenesis 256).id H) none
          (List.replicate 256 (.confidentialSeal 77 .void)) ((exSecretGenesis 256).id H) 1])).2 = _
    have hreg : Index.registerContract {} ((exSecretGenesis 256).id H) = ({ contracts := [((exSecretGenesis 256).id H, {})] }, none) := rfl
    have hia : ∃ y : Index, Index.indexAssignments { contracts := [((exSecretGenesis 256).id H, {})] } ((exSecretGenesis 256).id H) none
        (List.replicate 256 (.confidentialSeal 77 .void)) ((exSecretGenesis 256).id H) 1 = (y, some .confinement) := by
      rw [Index.indexAssignments]
      simp only [OMap.get?, if_pos, h2]
      exact ⟨_, Prod.ext rfl h5⟩
    obtain ⟨y, hy⟩ := hia
    rw [IdxCall.execAll, IdxCall.exec, hreg]
    simp only [IdxCall.execAll, IdxCall.exec, hy]
  obtain ⟨⟨t, o⟩, h5, rfl⟩ := Option.map_eq_some_iff.mp h3
  have h6 : MemStash.resolveSecrets H {} (exHides 256) = .ok (exHides 256) := rfl
  cases h7 : Index.indexConsignment H {} (exHides 256).data with
  | mk x o =>
    rw [h7] at h4
    simp only at h4
    subst h4
    refine ⟨⟨{}, t, x⟩, ?_⟩
    simp only [Stock.consumeConsignment, Stock.empty, h6, Stock.storeTx_mem, Stock.consumeBody, h5, h7, Option.map_some]

example : ∃ k', StockEvent.Proper H (.consignment (exHides 256) r) ∧ (StockEvent.consignment (exHides 256) r).NoRoom H I M G .empty k' := by
  obtain ⟨k', h1⟩ := exHides_full H
  refine ⟨k', ⟨⟨rfl, ?_, ?_, ?_⟩, ?_, ⟨?_, ?_⟩, ?_, ?_⟩, _, h1, rfl⟩
  · exact .cons (by simp) .nil
  · intro x hx; cases hx
  · intro x hx; cases hx
  · intro x hx; cases hx
  · exact .cons (by simp) .nil
  · exact .nil
  · intro x hx; cases hx
  · intro x hx; cases hx

end

end Rgb.Props
