import Verif.Lemmas.ReceiveIndex

/-!
When the state takes a consignment.
-/

namespace Rgb

theorem toOutputWith_isSome {x : Seal} (h : x.txid.isSome = true) (w : WitnessId) : (x.toOutputWith w).isSome = true := by
  obtain ⟨t, ht⟩ := Option.isSome_iff_exists.mp h
  simp [Seal.toOutputWith, ht]

theorem revealed?_seal {a : Assign} {p : Seal × RState} (h : ContractState.revealed? a = some p) : a.seal? = some p.1 := by
  cases a <;> simp [ContractState.revealed?] at h <;> simp [Assign.seal?, ← h]

/-- Calls for a known contract which don't panic all succeed. -/
theorem stCalls_ok {H : Commit} {c : Nat} (l : List StCall) {s : MemState} (hc : OMap.contains s.contracts c = true)
    (h : ∀ call ∈ l, call.Proper ∧ call.contract H = c ∧ AddableIn H s call) : ∃ s', StCall.execAll H s l = some (s', none) := by
  induction l generalizing s with
  | nil => exact ⟨s, rfl⟩
  | cons call l ih =>
    obtain ⟨h1, h2, h3⟩ := h call (by simp)
    obtain ⟨s₁, hs₁⟩ := (exec_of_addable (h2.symm ▸ hc)).mp h3
    rcases exec_spec h1 hs₁ with ⟨-, hs⟩ | ⟨hne, -⟩
    swap; · exact absurd rfl hne
    obtain ⟨s', hs'⟩ := ih (hs.mono c hc) (fun call' hm => by
      obtain ⟨i1, i2, i3⟩ := h call' (by simp [hm])
      refine ⟨i1, i2, ?_⟩
      have hk : OMap.contains s.contracts (call'.contract H) = true := i2.symm ▸ hc
      simpa only [AddableIn, hs.limit, if_pos hk] using i3)
    exact ⟨s', by simp only [StCall.execAll, hs₁, hs']⟩

/-- The state takes a consignment. -/
theorem state_accepts {H : Commit} {I : Ids} {M : Mpc} {G : SchemaDoc → SchemaGlobals} (hG : ∀ d, OMap.Sorted (G d).maxItems) {r : Resolver}
    {con : Consignment} {k : Stock} (hp : StockEvent.Proper H (.consignment con r))
    (hc : con.Coherent H I M G r) (ha : k.Agrees H M con) (hr : k.Room H I con) :
    ∃ s', k.state.updateFromConsignment H (G con.schema) con.data r = some (s', none) := by
  obtain ⟨⟨p1, p2, p3, p4⟩, -, q2, q3, q4⟩ := hp
  obtain ⟨calls, e1, e2, e3, e4, e5, e6⟩ := (Props.C28_consignment_calls H (G con.schema) con.data r).1 (by
    rintro t w ⟨wb, hwb, b, hb, i, hi, rfl⟩; exact hc.resolved wb hwb)
  have hopt : ∀ c t w ord, StCall.transition c t w ord ∈ calls → c = con.data.genesis.contractId H ∧ (t, w) ∈ con.data.transitions ∧
      t.Proper ∧ t.kind = .transition := by
    intro c t w ord h
    obtain ⟨rfl, ⟨wb, hwb, b, hb, i, hi, rfl⟩, -⟩ := (e4 c t w ord).mp h
    obtain ⟨j1, j2⟩ := q4 wb hwb b hb t (List.mem_map.mpr ⟨_, hi, rfl⟩)
    exact ⟨rfl, op_of_known hwb hb hi, j1, j2⟩
  have hprop : ∀ call ∈ calls, call.Proper ∧ call.contract H = con.data.genesis.contractId H ∧ call.op ∈ con.data.ops ∧
      AssignsResolve call.witness? call.op.assigns := by
    intro call hm
    cases call with
    | register sch g =>
      obtain ⟨rfl, rfl⟩ := e3 _ _ hm
      refine ⟨⟨hG _, q2, p1⟩, rfl, by simp [StCall.op, ConsignmentData.ops, ConsignmentData.plainOps], ?_⟩
      intro e he a hae x hx
      have := hc.plainSeals con.data.genesis (by simp [ConsignmentData.plainOps]) a (mem_assigned he hae) _ (revealed?_seal hx)
      show (x.1.toOutput).isSome = true
      rw [toOutput_isSome]; exact this
    | transition c t w ord =>
      obtain ⟨rfl, h1, h2, h3⟩ := hopt _ _ _ _ hm
      refine ⟨⟨h2, h3⟩, rfl, ?_, ?_⟩
      · simp only [ConsignmentData.ops, List.mem_append, List.mem_map]
        exact .inr ⟨_, h1, rfl⟩
      · intro e he a hae x hx
        exact hc.seals _ h1 a (mem_assigned he hae) _ (revealed?_seal hx)
    | extension c e w ord =>
      obtain ⟨h1, -⟩ := (e5 e).mp ⟨_, _, _, hm⟩
      obtain ⟨rfl, -, -⟩ := e6 _ _ _ _ hm
      refine ⟨q3 e h1, rfl, by simp [StCall.op, ConsignmentData.ops, ConsignmentData.plainOps, h1], ?_⟩
      intro e' he a hae x hx
      exact toOutputWith_isSome (hc.plainSeals e (by simp [ConsignmentData.plainOps, h1]) a (mem_assigned he hae) _ (revealed?_seal hx)) w
  rw [e1]
  by_cases hk : OMap.contains k.state.contracts (con.data.genesis.contractId H) = true
  · refine stCalls_ok _ hk (fun call hm => ?_)
    obtain ⟨i1, i2, i3, i4⟩ := hprop call hm
    refine ⟨i1, i2, fun e he => ?_, i4⟩
    obtain ⟨cs, hcs⟩ := OMap.contains_iff.mp hk
    have := ha.globals cs hcs call.op i3 e he
    obtain ⟨gs, hgs⟩ := OMap.contains_iff.mp this
    simp [glimit, i2, hcs, hgs]
  · obtain ⟨l, rfl⟩ : ∃ l, calls = .register (G con.schema) con.data.genesis :: l := by
      cases calls with
      | nil => simp at e2
      | cons a l => simp only [List.head?_cons, Option.some.injEq] at e2; exact ⟨l, by rw [e2]⟩
    obtain ⟨i1, i2, i3, i4⟩ := hprop _ (.head _)
    have hn : OMap.get? k.state.contracts (con.data.genesis.contractId H) = none := by simpa [OMap.contains] using hk
    have hl : ¬ k.state.contracts.length ≥ tinyMax := by
      rcases hr.state with h | h
      · exact absurd h hk
      · simp only [tinyMax]; omega
    have hadd : ((ContractState.new (G con.schema) (con.data.genesis.contractId H)).addOperation H con.data.genesis .genesis).isSome = true := by
      rw [addOperation_isSome]
      refine ⟨fun e he => ?_, i4⟩
      obtain ⟨m, hm⟩ := OMap.contains_iff.mp (hc.globals _ i3 e he)
      exact OMap.contains_iff.mpr ⟨_, by simp only [ContractState.new, OMap.get?_mapVals, hm]; rfl⟩
    obtain ⟨cs', hcs'⟩ := Option.isSome_iff_exists.mp hadd
    have hex : StCall.exec H k.state (.register (G con.schema) con.data.genesis) =
        some ({ k.state with contracts := OMap.insert k.state.contracts (con.data.genesis.contractId H) cs' }, none) := by
      simp only [StCall.exec, MemState.registerContract, hn, hl, if_false, hcs']
      rfl
    rcases exec_spec i1 hex with ⟨-, hs⟩ | ⟨hne, -⟩
    swap; · exact absurd rfl hne
    obtain ⟨s', hs'⟩ := stCalls_ok (H := H) (c := con.data.genesis.contractId H) l hs.mem (fun call hm => by
      obtain ⟨j1, j2, j3, j4⟩ := hprop call (.tail _ hm)
      refine ⟨j1, j2, fun e he => ?_, j4⟩
      obtain ⟨m, hm⟩ := OMap.contains_iff.mp (hc.globals _ j3 e he)
      rw [j2, hs.limit, if_neg hk]
      simp [StCall.contract, StCall.limits, hm])
    exact ⟨s', by simp only [StCall.execAll, hex, hs']⟩

end Rgb
