import Verif.Lemmas.Index
import Verif.Spec.CalcCommit

/-! # C19–C22: the index -/

namespace Rgb.Props
open Rgb

/-! Data for the examples. -/

/-- Genesis assigning to an explicit outpoint. -/
def exGenesis : Op :=
  { kind := .genesis, nonce := 1, assigns := [(4, ⟨.fungible, [.revealed ⟨.bitcoin, .opretFirst, some 50, 1, 7⟩ (.fungible 10 0 0)]⟩)] }

/-- A transition with a seal on the witness transaction, and a hidden seal. -/
def exTransition : Op :=
  { kind := .transition, contract := 101, nonce := 2, inputs := [⟨101, 4, 0⟩],
    assigns := [(4, ⟨.fungible, [.revealed ⟨.bitcoin, .opretFirst, none, 2, 8⟩ (.fungible 3 0 0), .confidentialSeal 77 (.fungible 7 0 0)]⟩)] }

def exTBundle : Bundle := { closeMethod := .opretFirst, inputMap := [(0, 102)], known := [(102, exTransition)] }

def exHistory : List IdxOp := [.consignment ⟨exGenesis, [], []⟩, .bundle 101 exTBundle ⟨.bitcoin, 60⟩]

/-- **C19.** Whatever happened before: after an indexing operation (of a consignment or of a single bundle) succeeds, and
after whatever indexing operations follow (successful or not), each transition known in any of the indexed bundles
resolves to that bundle; the bundle resolves to its contract and to a set of witnesses, which contains the witness and which
consists only of the witnesses this bundle was seen with. -/
theorem C19_indexed_ops_resolvable (H : Commit) (before later : List IdxOp) (op : IdxOp) (c : Nat) (b : Bundle)
    (w : WitnessId) (hop : op.HasBundle H c b w) (hok : (op.exec H (runIdx H {} before)).2 = none) :
    let y := runIdx H {} (before ++ op :: later)
    (∀ k t, (k, t) ∈ b.known → y.bundleIdForOp k = .ok (b.id H)) ∧
    ∃ ws, y.bundleInfo (b.id H) = .ok (ws, c) ∧ w ∈ ws ∧
      ∀ w' ∈ ws, ∃ op' ∈ before ++ op :: later, ∃ c' b', op'.HasBundle H c' b' w' ∧ b'.id H = b.id H := by
  intro y
  have hy : y = runIdx H (op.exec H (runIdx H {} before)).1 later := run_append H before (op :: later) {}
  have he := op_effect H (runIdx H {} before) op
  obtain ⟨-, m2, m3, m4⟩ := run_mono H later (op.exec H (runIdx H {} before)).1
  have hmem := calls_bundle hop
  obtain ⟨b1, b2⟩ := he.bComplete hok (b.id H) w c
    ⟨.registerBundle (b.id H) w c, hmem _ (by simp [Index.bundleCalls]), rfl, rfl, rfl⟩
  have b1' := m2 _ _ b1
  have b2' := m3 _ _ b2
  rw [← hy] at b1' b2' m4
  refine ⟨?_, ?_⟩
  · intro k t hk
    have := he.opComplete hok k (b.id H) ⟨.registerOperation k (b.id H), hmem _ (by
      simp only [Index.bundleCalls, List.mem_cons, List.mem_flatMap]
      exact .inr ⟨(k, t), hk, .inl rfl⟩), rfl, rfl⟩
    simp [Index.bundleIdForOp, m4 _ _ this]
  · cases hws : OMap.get? y.bundleWitness (b.id H) with
    | none => simp [mset, hws] at b2'
    | some ws =>
      refine ⟨ws, by simp [Index.bundleInfo, hws, b1'], by simpa [mset, hws] using b2', ?_⟩
      intro w' hw'
      have hw : w' ∈ mset y.bundleWitness (b.id H) := by simpa [mset, hws] using hw'
      have := run_bw_sound H _ _ _ _ hw
      rcases this with h | h
      · simp [mset, OMap.get?] at h
      · exact h

example : (IdxOp.exec calcCommit (runIdx calcCommit {} [.consignment ⟨exGenesis, [], []⟩])
    (.bundle 101 exTBundle ⟨.bitcoin, 60⟩)).2 = none := by decide +kernel

/-- **C20**, bundles. When a bundle is known to belong to a contract, an indexing operation with this bundle under another contract
fails; the bundle's contract is kept by any history of further operations. Indexing the bundle alone changes nothing. -/
theorem C20_one_contract_per_bundle (H : Commit) (before : List IdxOp) (x : Index) (hb : x = runIdx H {} before) (ws : OSet WitnessId) (c c' : Nat) (b : Bundle) (w : WitnessId)
    (hx : x.bundleInfo (b.id H) = .ok (ws, c)) (hc : c' ≠ c) :
    (∀ op : IdxOp, op.HasBundle H c' b w → (op.exec H x).2 ≠ none) ∧
    x.indexBundle H c' b w = (x, some (.distinctBundleContract (b.id H) c c')) ∧
    (∀ ops, ∃ ws', (runIdx H x ops).bundleInfo (b.id H) = .ok (ws', c) ∧ ∀ w ∈ ws, w ∈ ws') := by
  have hw : OMap.get? x.bundleWitness (b.id H) = some ws ∧ OMap.get? x.bundleContract (b.id H) = some c := by
    unfold Index.bundleInfo at hx
    split at hx
    · cases hx
    · split at hx
      · cases hx
      · cases hx; exact ⟨by assumption, by assumption⟩
  refine ⟨?_, ?_, ?_⟩
  · intro op hop hok
    have he := op_effect H x op
    have := (he.bComplete hok (b.id H) w c' ⟨.registerBundle (b.id H) w c', calls_bundle hop _ (by simp [Index.bundleCalls]), rfl, rfl, rfl⟩).1
    rw [he.bcMono _ _ hw.2] at this
    cases this; exact hc rfl
  · simp [Index.indexBundle, Index.bundleCalls, IdxCall.execAll, IdxCall.exec, Index.registerBundle, hw.2, Option.filter,
      Ne.symm hc]
  · intro ops
    obtain ⟨-, m2, m3, -⟩ := run_mono H ops x
    have h2 := m2 _ _ hw.2
    cases hws : OMap.get? (runIdx H x ops).bundleWitness (b.id H) with
    | none =>
      have := (run_inv H ops x (hb ▸ run_inv H before {} idxInv_empty)).both (b.id H) (by simp [h2])
      simp [hws] at this
    | some ws' =>
      refine ⟨ws', by simp [Index.bundleInfo, hws, h2], ?_⟩
      intro w hw'
      have := m3 (b.id H) w (by simpa [mset, hw.1] using hw')
      simpa [mset, hws] using this

example : ∃ ws, (runIdx calcCommit {} exHistory).bundleInfo (exTBundle.id calcCommit) = .ok (ws, 101) := ⟨_, rfl⟩

/-- **C20**, operations. When an operation is known to be in a bundle, an indexing operation with another bundle in which that operation
is known fails, and any history of further operations keeps the bundle of the operation. -/
theorem C20_one_bundle_per_operation (H : Commit) (x : Index) (k b : Nat) (hx : x.bundleIdForOp k = .ok b) :
    (∀ (op : IdxOp) (c : Nat) (b' : Bundle) (w : WitnessId) (t : Op), op.HasBundle H c b' w → (k, t) ∈ b'.known →
      b'.id H ≠ b → (op.exec H x).2 ≠ none) ∧
    (∀ b', b' ≠ b → x.registerOperation k b' = (x, some (.distinctBundleOp k b b'))) ∧
    (∀ ops, (runIdx H x ops).bundleIdForOp k = .ok b) := by
  have hk : OMap.get? x.opBundle k = some b := by
    unfold Index.bundleIdForOp at hx
    split at hx
    · cases hx
    · cases hx; assumption
  refine ⟨?_, ?_, ?_⟩
  · intro op c b' w t hop hm hb hok
    have he := op_effect H x op
    have := he.opComplete hok k (b'.id H) ⟨.registerOperation k (b'.id H), calls_bundle hop _ (by
      simp only [Index.bundleCalls, List.mem_cons, List.mem_flatMap]
      exact .inr ⟨(k, t), hm, .inl rfl⟩), rfl, rfl⟩
    rw [he.opMono _ _ hk] at this
    cases this; exact hb rfl
  · intro b' hb
    simp [Index.registerOperation, hk, Option.filter, Ne.symm hb]
  · intro ops
    simp [Index.bundleIdForOp, (run_mono H ops x).2.2.2 _ _ hk]

example : (runIdx calcCommit {} exHistory).bundleIdForOp 102 = .ok (exTBundle.id calcCommit) := rfl

/-- **C21.** For any history of indexing operations: a successful lookup by outpoints returns no output except those which some
operation of the history assigns, within the contract, to a visible seal on one of the outpoints; and all such outputs mentioned
by the successful operations of the history, provided that seals of the history on one outpoint have one closing method.
The lookup fails only if the contract is unknown or a requested outpoint has no output.

Missing from the full property: without the proviso, see `C21_lookup_by_outputs_fails`; an outpoint with no state makes the whole lookup
an error. -/
theorem C21_lookup_by_outputs_partial (H : Commit) (ops : List IdxOp) (c : Nat) (outpoints : List Outpoint) :
    let x := runIdx H {} ops
    (∀ r, x.opoutsByOutputs c outpoints = .ok r →
      (∀ o ∈ r, ∃ op ∈ ops, ∃ s, s.outpoint ∈ outpoints ∧ op.Out H c s o) ∧
      ((∀ op ∈ ops, ∀ op' ∈ ops, ∀ s s' o o', op.Out H c s o → op'.Out H c s' o' → s.outpoint = s'.outpoint →
          s.method = s'.method) →
        ∀ op s o, (op, none) ∈ resultsIdx H {} ops → s.outpoint ∈ outpoints → op.Out H c s o → o ∈ r)) ∧
    (∀ e, x.opoutsByOutputs c outpoints = .error e →
      (e = .contractAbsent c ∧ ∀ op s o, (op, none) ∈ resultsIdx H {} ops → ¬ op.Out H c s o) ∨
      (∃ p ∈ outpoints, e = .outpointUnknown p c ∧
        ∀ op s o, (op, none) ∈ resultsIdx H {} ops → s.outpoint = p → ¬ op.Out H c s o)) := by
  intro x
  have hinv : IdxInv x := run_inv H ops {} idxInv_empty
  have hsnd : ∀ s o, o ∈ outSet x c s → ∃ op ∈ ops, op.Out H c s o := by
    intro s o h
    rcases run_out_sound H ops {} c s o h with h | h
    · simp [outSet, OMap.get?] at h
    · exact h
  have hcmp : ∀ op s o, (op, none) ∈ resultsIdx H {} ops → op.Out H c s o → o ∈ outSet x c s :=
    fun op s o h h' => run_out_complete H ops {} c s o op h h'
  unfold Index.opoutsByOutputs
  cases hc : OMap.get? x.contracts c with
  | none =>
    refine ⟨fun r h => by simp at h, fun e h => ?_⟩
    simp only [Except.error.injEq] at h
    refine .inl ⟨h.symm, fun op s o hs ho => ?_⟩
    have := hcmp op s o hs ho
    simp [outSet, hc] at this
  | some ci =>
    have hset : ∀ s, outSet x c s = mset ci.outs s := by intro s; simp [outSet, hc]
    have hsorted := hinv.sorted c ci hc
    refine ⟨fun r h => ⟨fun o ho => ?_, fun hm op s o hs hp hop => ?_⟩, fun e h => .inr ?_⟩
    · rcases byOutputs_sound h o ho with h' | ⟨s, set, hmem, hp, hin⟩
      · cases h'
      · obtain ⟨op, hop, hf⟩ := hsnd s o (by rw [hset, mset, hsorted.get?_of_mem hmem]; exact hin)
        exact ⟨op, hop, s, hp, hf⟩
    · have ho : o ∈ mset ci.outs s := by rw [← hset]; exact hcmp op s o hs hop
      obtain ⟨s', set', hmem, hp', hall⟩ := (byOutputs_complete h).2 s.outpoint hp
      have hne := hinv.nonempty c ci hc s' set' (hsorted.get?_of_mem hmem)
      obtain ⟨o', ho'⟩ := List.exists_mem_of_ne_nil _ hne
      obtain ⟨op1, hop1, hf1⟩ := hsnd s' o' (by rw [hset, mset, hsorted.get?_of_mem hmem]; exact ho')
      obtain ⟨op2, hop2, hf2⟩ := hsnd s o (by rw [hset]; exact ho)
      have hmeth := hm op1 hop1 op2 hop2 s' s o' o hf1 hf2 hp'
      have : s' = s := OutSeal.eq_of_outpoint hp' hmeth
      subst this
      rw [mset, hsorted.get?_of_mem hmem] at ho
      exact hall o ho
    · obtain ⟨p, hp, rfl, hno⟩ := byOutputs_error h
      refine ⟨p, hp, rfl, fun op s o hs hsp hop => ?_⟩
      have ho : o ∈ mset ci.outs s := by rw [← hset]; exact hcmp op s o hs hop
      cases hg : OMap.get? ci.outs s with
      | none => simp [mset, hg] at ho
      | some set => exact hno _ (OMap.mem_of_get? hg) hsp

example : (runIdx calcCommit {} exHistory).opoutsByOutputs 101 [⟨.bitcoin, 50, 1⟩, ⟨.bitcoin, 60, 2⟩] =
    .ok [⟨101, 4, 0⟩, ⟨102, 4, 0⟩] := rfl

/-- **C21**, contracts. For any history: a contract is listed as assigning state to one of the outpoints only if some operation of the
history does so, and is listed whenever a successful one does. -/
theorem C21_contracts_assigning (H : Commit) (ops : List IdxOp) (outpoints : List Outpoint) (c : Nat) :
    (c ∈ (runIdx H {} ops).contractsAssigning outpoints →
      ∃ op ∈ ops, ∃ s o, s.outpoint ∈ outpoints ∧ op.Out H c s o) ∧
    (∀ op s o, (op, none) ∈ resultsIdx H {} ops → s.outpoint ∈ outpoints → op.Out H c s o →
      c ∈ (runIdx H {} ops).contractsAssigning outpoints) := by
  have hinv : IdxInv (runIdx H {} ops) := run_inv H ops {} idxInv_empty
  generalize hx : runIdx H {} ops = x at hinv
  have hmem : c ∈ x.contractsAssigning outpoints ↔
      ∃ ci, OMap.get? x.contracts c = some ci ∧ ∃ s ∈ OMap.keys ci.outs, s.outpoint ∈ outpoints := by
    simp only [Index.contractsAssigning, List.mem_flatMap, List.mem_filterMap]
    constructor
    · rintro ⟨⟨c', ci⟩, h1, p, hp, h2⟩
      split at h2
      · rename_i ha
        simp only [Option.some.injEq] at h2; subst h2
        obtain ⟨s, hs, h3⟩ := List.any_eq_true.mp ha
        simp only [decide_eq_true_eq] at h3
        exact ⟨ci, hinv.sortedC.get?_of_mem h1, s, hs, h3 ▸ hp⟩
      · cases h2
    · rintro ⟨ci, h1, s, hs, hp⟩
      refine ⟨(c, ci), OMap.mem_of_get? h1, s.outpoint, hp, ?_⟩
      rw [if_pos]
      exact List.any_eq_true.mpr ⟨s, hs, by simp⟩
  rw [hmem]
  constructor
  · rintro ⟨ci, h1, s, hs, hp⟩
    obtain ⟨⟨s', set⟩, he, rfl⟩ := List.mem_map.mp hs
    have hg := (hinv.sorted c ci h1).get?_of_mem he
    obtain ⟨o, ho⟩ := List.exists_mem_of_ne_nil _ (hinv.nonempty c ci h1 _ _ hg)
    rcases run_out_sound H ops {} c s' o (by rw [hx]; simpa [outSet, h1, mset, hg] using ho) with h | ⟨op, hop, h⟩
    · simp [outSet, OMap.get?] at h
    · exact ⟨op, hop, s', o, hp, h⟩
  · intro op s o hop hp h
    have := run_out_complete H ops {} c s o op hop h
    rw [hx] at this
    cases hc : OMap.get? x.contracts c with
    | none => simp [outSet, hc] at this
    | some ci =>
      refine ⟨ci, rfl, s, ?_, hp⟩
      cases hs : OMap.get? ci.outs s with
      | none => simp [outSet, hc, mset, hs] at this
      | some set => exact List.mem_map.mpr ⟨(s, set), OMap.mem_of_get? hs, rfl⟩

example : (runIdx calcCommit {} exHistory).contractsAssigning [⟨.bitcoin, 60, 2⟩, ⟨.bitcoin, 60, 9⟩] = [101] := by decide +kernel

/-- **C21 is false without the proviso**: of two seals on one outpoint with different closing methods only one is found. -/
theorem C21_lookup_by_outputs_fails (H : Commit) :
    ∃ (ops : List IdxOp) (c : Nat) (p : Outpoint) (r : OSet Opout) (s : OutSeal) (o : Opout),
      (∀ e ∈ resultsIdx H {} ops, e.2 = none) ∧
      (runIdx H {} ops).opoutsByOutputs c [p] = .ok r ∧ (∃ op ∈ ops, op.Out H c s o) ∧ s.outpoint = p ∧ o ∉ r := by
  let g : Op := { kind := .genesis, assigns := [(4, ⟨.declarative,
    [.revealed ⟨.bitcoin, .opretFirst, some 50, 1, 7⟩ .void, .revealed ⟨.bitcoin, .tapretFirst, some 50, 1, 8⟩ .void]⟩)] }
  refine ⟨[.consignment ⟨g, [], []⟩], g.contractId H, ⟨.bitcoin, 50, 1⟩, [⟨g.id H, 4, 0⟩], ⟨.bitcoin, .tapretFirst, 50, 1⟩,
    ⟨g.id H, 4, 1⟩, ?_, ?_, ⟨_, List.mem_singleton_self _, g.id H, g, none, .genesis _, ?_⟩, rfl, ?_⟩
  · simp [resultsIdx, IdxOp.exec, Index.indexConsignment, Index.consignmentCalls, Index.opCalls, IdxCall.execAll, IdxCall.exec,
      Index.registerContract, OMap.contains, OMap.get?, tinyMax, g, Index.indexAssignments, Index.indexOuts, Assign.seal?,
      Index.outputSeal, Seal.toOutput, OMap.insert, Index.extendTerminals, Index.hidden?]
  · simp [runIdx, IdxOp.exec, Index.indexConsignment, Index.consignmentCalls, Index.opCalls, IdxCall.execAll, IdxCall.exec,
      Index.registerContract, OMap.contains, OMap.get?, tinyMax, g, Index.indexAssignments, Index.indexOuts, Assign.seal?,
      Index.outputSeal, Seal.toOutput, OMap.insert, Index.extendTerminals, Index.hidden?, Index.opoutsByOutputs,
      Index.byOutputsLoop, OutSeal.outpoint, Key.lt, Key.enc, lexLt, CloseMethod.num, OSet.insert, OSet.extend]
  · exact ⟨4, _, 1, _, _, List.mem_singleton_self _, rfl, rfl, rfl, rfl⟩
  · simp

/-- **C22.** For any history of indexing operations: a lookup by secret seals returns only outputs which some operation of the history
assigns to one of the requested secret seals, hidden; and all of those mentioned by the successful operations of the history, provided
that no operation of the history ran over a size limit.

Missing from the full property: outputs whose seal is revealed (`C22_revealed_fails`), and what is lost by an overflow
(`C22_overflow_fails`). -/
theorem C22_lookup_by_terminals_partial (H : Commit) (ops : List IdxOp) (secrets : List Nat) :
    (∀ o ∈ (runIdx H {} ops).opoutsByTerminals secrets, ∃ op ∈ ops, ∃ s ∈ secrets, op.Secret H s o) ∧
    ((∀ op, (op, some IdxErr.confinement) ∉ resultsIdx H {} ops) →
      ∀ op s o, (op, none) ∈ resultsIdx H {} ops → s ∈ secrets → op.Secret H s o →
        o ∈ (runIdx H {} ops).opoutsByTerminals secrets) := by
  have hinv : IdxInv (runIdx H {} ops) := run_inv H ops {} idxInv_empty
  have hmem : ∀ o, o ∈ (runIdx H {} ops).opoutsByTerminals secrets ↔
      ∃ s ∈ secrets, o ∈ mset (runIdx H {} ops).terminals s := by
    intro o
    simp only [Index.opoutsByTerminals, OSet.mem_ofList, List.mem_flatMap, List.mem_filter, decide_eq_true_eq]
    constructor
    · rintro ⟨⟨s, set⟩, ⟨h1, h2⟩, h3⟩
      exact ⟨s, h2, by rw [mset, hinv.sortedT.get?_of_mem h1]; exact h3⟩
    · rintro ⟨s, h1, h2⟩
      cases hg : OMap.get? (runIdx H {} ops).terminals s with
      | none => simp [mset, hg] at h2
      | some set => exact ⟨(s, set), ⟨OMap.mem_of_get? hg, h1⟩, by simpa [mset, hg] using h2⟩
  constructor
  · intro o ho
    obtain ⟨s, hs, h⟩ := (hmem o).mp ho
    rcases run_term_sound H ops {} s o h with h | ⟨op, hop, h⟩
    · simp [mset, OMap.get?] at h
    · exact ⟨op, hop, s, hs, h⟩
  · intro hno op s o hop hs h
    exact (hmem o).mpr ⟨s, hs, run_term_complete H ops {} hno s o (.inr ⟨op, hop, h⟩)⟩

example : (∀ op, (op, some IdxErr.confinement) ∉ resultsIdx calcCommit {} exHistory) ∧
    (runIdx calcCommit {} exHistory).opoutsByTerminals [77, 78] = [⟨102, 4, 1⟩] := by
  refine ⟨?_, by decide +kernel⟩
  intro op h
  have : (resultsIdx calcCommit {} exHistory).map Prod.snd = [none, none] := by decide +kernel
  have h2 : some IdxErr.confinement ∈ (resultsIdx calcCommit {} exHistory).map Prod.snd := List.mem_map.mpr ⟨_, h, rfl⟩
  rw [this] at h2
  simp at h2

/-- **C22 is false for revealed seals**: an output assigned to a visible seal isn't found by the secret of that seal. -/
theorem C22_revealed_fails (H : Commit) :
    ∃ (ops : List IdxOp) (s : Seal), (∀ e ∈ resultsIdx H {} ops, e.2 = none) ∧
      (∃ d, ops = [.consignment d] ∧ ∃ t a, (4, t) ∈ d.genesis.assigns ∧ a ∈ t.items ∧ a.seal? = some s) ∧
      (runIdx H {} ops).opoutsByTerminals [H.sealHash s] = [] := by
  let g : Op := { kind := .genesis, assigns := [(4, ⟨.declarative, [.revealed ⟨.bitcoin, .opretFirst, some 50, 1, 7⟩ .void]⟩)] }
  refine ⟨[.consignment ⟨g, [], []⟩], ⟨.bitcoin, .opretFirst, some 50, 1, 7⟩, ?_,
    ⟨_, rfl, _, _, List.mem_singleton_self _, List.mem_singleton_self _, rfl⟩, ?_⟩
  · simp [resultsIdx, IdxOp.exec, Index.indexConsignment, Index.consignmentCalls, Index.opCalls, IdxCall.execAll, IdxCall.exec,
      Index.registerContract, OMap.contains, OMap.get?, tinyMax, g, Index.indexAssignments, Index.indexOuts, Assign.seal?,
      Index.outputSeal, Seal.toOutput, OMap.insert, Index.extendTerminals, Index.hidden?]
  · refine List.eq_nil_iff_forall_not_mem.mpr fun o ho => ?_
    obtain ⟨op, hop, s, hs, c, k, t, w, hc, ty, t', i, a, h1, h2, h3, h4⟩ := (C22_lookup_by_terminals_partial H _ _).1 o ho
    rw [List.mem_singleton] at hop
    subst hop
    cases hc with
    | genesis =>
      simp only [g, List.mem_singleton, Prod.mk.injEq] at h1
      obtain ⟨rfl, rfl⟩ := h1
      cases i with
      | zero => simp at h2; subst h2; simp at h3
      | succ i => simp at h2
    | extension _ e he => cases he
    | transition _ wb b _ _ hwb => cases hwb

/-- **C22 is false when a secret seal gets more than 255 outputs**: the failing operation also loses the outputs known before. -/
theorem C22_overflow_fails (H : Commit) (hH : H.Binding) : ∃ (op op' : IdxOp) (secret : Nat) (o : Opout),
    (op.exec H {}).2 = none ∧ o ∈ (op.exec H {}).1.opoutsByTerminals [secret] ∧
    (op'.exec H (op.exec H {}).1).2 = some .confinement ∧ (runIdx H {} [op, op']).opoutsByTerminals [secret] = [] := by
  let g : Op := { kind := .genesis, nonce := 1, assigns := [(4, ⟨.declarative, [.confidentialSeal 77 .void]⟩)] }
  let g' : Op := { kind := .genesis, nonce := 2, assigns := [(4, ⟨.declarative, List.replicate 255 (.confidentialSeal 77 .void)⟩)] }
  have hne : g.id H ≠ g'.id H := by
    intro h
    have : (1 : Nat) = 2 := congrArg Op.nonce (hH.op_inj _ _ h)
    cases this
  have e1 : IdxOp.exec H {} (.consignment ⟨g, [], []⟩) =
      ({ contracts := [(g.id H, {})], terminals := [(77, [⟨g.id H, 4, 0⟩])] }, none) := by
    simp [IdxOp.exec, Index.indexConsignment, Index.consignmentCalls, Index.opCalls, IdxCall.execAll, IdxCall.exec,
      Index.registerContract, OMap.contains, OMap.get?, tinyMax, g, Index.indexAssignments, Index.indexOuts, Assign.seal?,
      OMap.insert, Index.extendTerminals, Index.hidden?, Index.addTerminal, OMap.erase, Op.contractId]
  let x : Index := { contracts := [(g.id H, {})], terminals := [(77, [⟨g.id H, 4, 0⟩])] }
  obtain ⟨o1, o2⟩ := extendTerminals_overflow (opid := g'.id H) (ty := 4) (secret := 77) (st := .void) (n := 255) (no := 0)
    (m := x.terminals) (set := [⟨g.id H, 4, 0⟩]) (by simp [x, OMap.get?]) (by simpa using hne) (by simp) (by simp)
  have hio : ∀ n no m, Index.indexOuts none (g'.id H) 4 (List.replicate n (.confidentialSeal 77 .void)) no m = (m, none) := by
    intro n
    induction n with
    | zero => intro no m; rfl
    | succ n ih => intro no m; simp [List.replicate_succ, Index.indexOuts, Assign.seal?, ih]
  have e2 : ∀ r, IdxOp.exec H x (.consignment ⟨g', [], []⟩) = r →
      r.2 = some .confinement ∧ OMap.get? r.1.terminals 77 = none := by
    rintro r rfl
    have hreg : x.registerContract (g'.id H) = ({ x with contracts := OMap.insert x.contracts (g'.id H) {} }, none) := by
      simp [Index.registerContract, x, OMap.contains, OMap.get?, hne.symm, tinyMax]
    have hexec : IdxOp.exec H x (.consignment ⟨g', [], []⟩) = IdxCall.execAll
        { x with contracts := OMap.insert x.contracts (g'.id H) {} } [.assignments (g'.id H) none
          (List.replicate 255 (.confidentialSeal 77 .void)) (g'.id H) 4] := by
      show IdxCall.execAll x (.registerContract (g'.id H) :: [.assignments (g'.id H) none
          (List.replicate 255 (.confidentialSeal 77 .void)) (g'.id H) 4]) = _
      rw [IdxCall.execAll, IdxCall.exec, hreg]
    have hia : ∃ y : Index, Index.indexAssignments { x with contracts := OMap.insert x.contracts (g'.id H) {} } (g'.id H) none
        (List.replicate 255 (.confidentialSeal 77 .void)) (g'.id H) 4 = (y, some .confinement) ∧
        OMap.get? y.terminals 77 = none := by
      rw [Index.indexAssignments]
      simp only [OMap.get?_insert_self, hio]
      exact ⟨_, Prod.ext rfl o1, o2⟩
    obtain ⟨y, h1, h2⟩ := hia
    rw [hexec, IdxCall.execAll, IdxCall.exec, h1]
    exact ⟨rfl, h2⟩
  refine ⟨.consignment ⟨g, [], []⟩, .consignment ⟨g', [], []⟩, 77, ⟨g.id H, 4, 0⟩, by rw [e1], ?_, ?_, ?_⟩
  · rw [e1]; simp [Index.opoutsByTerminals, OSet.mem_ofList]
  · rw [e1]; exact (e2 _ rfl).1
  · have h2 := (e2 _ rfl).2
    have hinv : IdxInv (runIdx H {} [.consignment ⟨g, [], []⟩, .consignment ⟨g', [], []⟩]) := run_inv H _ {} idxInv_empty
    have hr : runIdx H {} [.consignment ⟨g, [], []⟩, .consignment ⟨g', [], []⟩] =
        (IdxOp.exec H x (.consignment ⟨g', [], []⟩)).1 := by
      rw [runIdx, runIdx, runIdx, e1]
    rw [hr] at hinv ⊢
    refine List.eq_nil_iff_forall_not_mem.mpr fun o ho => ?_
    simp only [Index.opoutsByTerminals, OSet.mem_ofList, List.mem_flatMap, List.mem_filter, decide_eq_true_eq,
      List.mem_singleton] at ho
    obtain ⟨⟨k, set⟩, ⟨hk, rfl⟩, -⟩ := ho
    rw [hinv.sortedT.get?_of_mem hk] at h2
    cases h2

end Rgb.Props
