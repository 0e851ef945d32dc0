import Verif.Lemmas.Recover
import Verif.Props.Usable

/-!
C79: state and index of a stock can be computed again from its stash.
-/

namespace Rgb.Props

open Rgb Stock Index MemStash

section
variable {H : Commit} {I : Ids} {M : Mpc} {G : SchemaDoc → SchemaGlobals} {C : WitnessId → CloseMethod → Nat → Nat → Prop} {k : Stock} {es : List StockEvent}

/-- **C79** (state). In a stock which got everything without errors, each bundle always with the same transitions: whatever assignment the state of a contract has is made by an operation
which the stash tells of, with the witness which the state has for it.
Missing: bundles which came first without and then with a transition, see `C79_state_fails`. -/
theorem C79_state_partial (hH : H.Binding) (hM : M.Lawful) (hG : ∀ d, OMap.Sorted (G d).maxItems) (hw : Whole H es) (hC : Commitments H M C es)
    (h : AllDone H I M G es .empty k) {c : Nat} {v : ContractView} (hv : k.state.contractState c = .ok v) {kd : StateKind} {a : OutAssign}
    (ha : a ∈ OMap.vals (v.unfiltered.kindSet kd)) : ∃ op, k.stash.Tells H c a.witness op ∧ op.Makes H a.witness kd a := by
  obtain ⟨ht, hs, hk⟩ := told_history hH hM hG hw hC h
  have he := entry_of_view hk hv ha
  obtain ⟨ses, h1, h2, h3⟩ := ht.state
  rw [runSt_entry h1 h2] at he
  simp only [entry, OMap.get?, Option.bind_none, Option.none_or] at he
  obtain ⟨call, h4, h5⟩ := List.exists_of_findSome?_eq_some he
  split at h5
  swap; · cases h5
  rename_i hc
  obtain ⟨hm, -⟩ := (assignedAt_iff H _ _ _ _ _).mp h5
  obtain ⟨op, h6, h7⟩ := (h3 call (mem_accepted h4)).tells hH hC.one hs
  have hwit : a.witness = call.witness? := hm.2.1
  rw [hwit, hc]
  exact ⟨op, h6, Makes.shown hH h7 hm⟩

/-- **C79** (global state). In the same histories each returned item of global state is of an operation which the stash tells of.
Missing: other histories, see `C79_state_fails`. -/
theorem C79_globals_partial (hH : H.Binding) (hM : M.Lawful) (hG : ∀ d, OMap.Sorted (G d).maxItems) (hw : Whole H es) (hC : Commitments H M C es)
    (h : AllDone H I M G es .empty k) {c : Nat} {v : ContractView} (hv : k.state.contractState c = .ok v) {ty : Nat} {items : List (GlobalOrd × Nat)}
    (hi : v.globalItems ty = some items) {it : GlobalOrd × Nat} (hit : it ∈ items) :
    ∃ w op i vals, k.stash.Tells H c w op ∧ OMap.get? op.globals ty = some vals ∧ vals[i]? = some it.2 ∧ (it.1 = .genesis i ∨ it.1.opid? = some (op.id H)) := by
  obtain ⟨ht, hs, hk⟩ := told_history hH hM hG hw hC h
  obtain ⟨ses, h1, h2, h3⟩ := ht.state
  obtain ⟨sch, g, -, -, -, h4⟩ := C27_global_state_partial H hH ses h1 k.state h2 c v hv ty
  obtain ⟨mx, -, -, h5, -⟩ := h4 items hi
  obtain ⟨call, h6, rfl, i, vals, h7, h8, h9⟩ := h5 it hit
  obtain ⟨op, h10, h11⟩ := (h3 call (mem_accepted h6)).tells hH hC.one hs
  refine ⟨call.witness?, op, i, vals, h10, by rw [(shown_fields hH h11).2.2]; exact h7, h8, ?_⟩
  cases call with
  | register sch g => exact .inl h9
  | transition c t w ord => obtain ⟨o, -, h9⟩ := h9; right; rw [h9, h11.id]; rfl
  | extension c t w ord => obtain ⟨o, -, h9⟩ := h9; right; rw [h9, h11.id]; rfl

theorem told_contains (hH : H.Binding) (hone : ∀ w m c i j, C w m c i → C w m c j → i = j) {s : MemStash} (hs : AnchorsAre C s) {op : IdxOp} (h : OpTold H C s op)
    {c i : Nat} {t : Op} {w : Option WitnessId} (hc : op.Contains H c i t w) : i = t.id H ∧ t.WF ∧ ∃ t', s.Tells H c w t' ∧ t.ShownBy H t' := by
  have tr : ∀ {c b w i t}, BundleTold H C s c b w → (i, t) ∈ b.known → i = t.id H ∧ t.WF ∧ ∃ t', s.Tells H c (some w) t' ∧ t.ShownBy H t' := by
    intro c b w i t hb hi
    have hi := hb.wf.sorted.get?_of_mem hi
    obtain ⟨h1, h2⟩ := hb.wf.keyed _ _ hi
    exact ⟨h1.symm, h2, TrTold.tells hH hone hs ⟨b, hb, by rw [h1]; exact hi⟩⟩
  cases hc with
  | genesis d => exact ⟨rfl, (h.genesis d rfl).1, (h.genesis d rfl).tells⟩
  | extension d _ he => exact ⟨rfl, (h.extensions d rfl _ he).1.1, (h.extensions d rfl _ he).tells hH⟩
  | transition d wb b _ _ hwb hb hk => exact tr (h.bundles _ _ _ (.inConsignment d wb b hwb hb)) hk
  | single _ b w _ _ hk => exact tr (h.bundles _ _ _ (.single _ b w)) hk

/-- **C79** (index of outputs). In the same histories the outputs found by outpoints are assigned by operations which the stash tells of to seals on these outpoints, and those
found by secret seals are assigned to these seals by such operations.
Missing: other histories, see `C79_state_fails`. -/
theorem C79_outputs_partial (hH : H.Binding) (hM : M.Lawful) (hG : ∀ d, OMap.Sorted (G d).maxItems) (hw : Whole H es) (hC : Commitments H M C es)
    (h : AllDone H I M G es .empty k) :
    (∀ c outpoints l, k.index.opoutsByOutputs c outpoints = .ok l → ∀ o ∈ l, ∃ w op s, k.stash.Tells H c w op ∧ op.AssignsOut (op.id H) w s o ∧ s.outpoint ∈ outpoints) ∧
    (∀ outpoints, ∀ c ∈ k.index.contractsAssigning outpoints, ∃ w op s o, k.stash.Tells H c w op ∧ op.AssignsOut (op.id H) w s o ∧ s.outpoint ∈ outpoints) ∧
    (∀ secrets, ∀ o ∈ k.index.opoutsByTerminals secrets, ∃ c w op, ∃ s ∈ secrets, k.stash.Tells H c w op ∧ op.HasSecret H s o) := by
  obtain ⟨ht, hs, hk⟩ := told_history hH hM hG hw hC h
  obtain ⟨ops, h1, -, h2⟩ := ht.index
  have out : ∀ {op : IdxOp} {c s o}, op ∈ ops → op.Out H c s o → ∃ w op, k.stash.Tells H c w op ∧ op.AssignsOut (op.id H) w s o := by
    rintro op c s o hop ⟨i, t, w, h3, h4⟩
    obtain ⟨rfl, hwf, t', h5, h6⟩ := told_contains hH hC.one hs (h2 op hop) h3
    exact ⟨w, t', h5, assignsOut_shown hwf h6 h4⟩
  refine ⟨fun c outpoints l hl o ho => ?_, fun outpoints c hc => ?_, fun secrets o ho => ?_⟩
  · rw [h1] at hl
    obtain ⟨op, hop, s, h3, h4⟩ := ((C21_lookup_by_outputs_partial H ops c outpoints).1 l hl).1 o ho
    obtain ⟨w, op', h5, h6⟩ := out hop h4
    exact ⟨w, op', s, h5, h6, h3⟩
  · rw [h1] at hc
    obtain ⟨op, hop, s, o, h3, h4⟩ := (C21_contracts_assigning H ops outpoints c).1 hc
    obtain ⟨w, op', h5, h6⟩ := out hop h4
    exact ⟨w, op', s, o, h5, h6, h3⟩
  · rw [h1] at ho
    obtain ⟨op, hop, s, h3, c, i, t, w, h4, h5⟩ := (C22_lookup_by_terminals_partial H ops secrets).1 o ho
    obtain ⟨rfl, hwf, t', h6, h7⟩ := told_contains hH hC.one hs (h2 op hop) h4
    exact ⟨c, w, t', s, h3, h6, secret_shown hH hwf h7 h5⟩

/-- **C79** (index of bundles). In the same histories: an operation is in the bundle which the index has for it, exactly when the stored bundle knows it; and a bundle has the contract and the witnesses in the index for which
the stored anchors of the witnesses have this bundle of this contract.
Missing: other histories, see `C79_state_fails`. -/
theorem C79_bundles_partial (hH : H.Binding) (hM : M.Lawful) (hG : ∀ d, OMap.Sorted (G d).maxItems) (hw : Whole H es) (hC : Commitments H M C es)
    (h : AllDone H I M G es .empty k) :
    (∀ o i, k.index.bundleIdForOp o = .ok i ↔ ∃ b t, k.stash.bundle i = some b ∧ OMap.get? b.known o = some t) ∧
    (∀ i, (∃ ws c, k.index.bundleInfo i = .ok (ws, c)) ↔ ∃ b, k.stash.bundle i = some b) ∧
    (∀ i ws c, k.index.bundleInfo i = .ok (ws, c) → ∀ w ∈ ws, ∃ b sw, k.stash.bundle i = some b ∧ k.stash.witness w = some sw ∧ sw.anchors.Commits b.closeMethod c i) := by
  obtain ⟨ht, hs, hk⟩ := told_history hH hM hG hw hC h
  obtain ⟨ops, h1, hok, h2⟩ := ht.index
  have back : ∀ i b, k.stash.bundle i = some b → ∃ e ∈ es, ∃ c b' w, StockEvent.Brings H e c b' w ∧ b'.id H = i ∧
      ∀ o, OMap.contains b.known o = true → OMap.contains b'.known o = true := brought hH hG hw.sound h
  have hhas := allDone_has hH hM hG es hw.sound (Stock.Reachable.hist hH ⟨I, M, G, [], hG, by simp, rfl⟩) h
  refine ⟨fun o i => ⟨fun ho => ?_, ?_⟩, fun i => ⟨?_, ?_⟩, fun i ws c hi w hws => ?_⟩
  · have ho' : OMap.get? k.index.opBundle o = some i := by
      simp only [bundleIdForOp] at ho
      split at ho
      · cases ho
      · rename_i x hx; cases ho; exact hx
    rw [h1] at ho'
    obtain ⟨op, hop, c, b, w, h3, rfl, h4⟩ := runIdx_op ops ho'
    obtain ⟨g, h5, h6⟩ := ((h2 op hop).bundles c b w h3).stored
    obtain ⟨t, ht'⟩ := OMap.contains_iff.mp h4
    obtain ⟨u, h7, -⟩ := h6.known _ _ ht'
    exact ⟨g, u, h5, h7⟩
  · rintro ⟨b, t, h3, h4⟩
    obtain ⟨e, he, c, b', w, h5, h6, h7⟩ := back i b h3
    obtain ⟨k₁, hf⟩ := hhas e he
    have := hf.idx.opC c i o ⟨b', w, h5, h6, h7 o (OMap.contains_iff.mpr ⟨t, h4⟩)⟩
    simp [bundleIdForOp, this]
  · rintro ⟨ws, c, hi⟩
    have hc := bundleInfo_contract hi
    rw [h1] at hc
    obtain ⟨op, hop, b, w, h3, rfl⟩ := runIdx_contract ops hc
    obtain ⟨g, h5, -⟩ := ((h2 op hop).bundles c b w h3).stored
    exact ⟨g, h5⟩
  · rintro ⟨b, h3⟩
    obtain ⟨e, he, c, b', w, h5, h6, -⟩ := back i b h3
    obtain ⟨k₁, hf⟩ := hhas e he
    obtain ⟨h7, h8⟩ := hf.idx.bC c i _ w ⟨b', h5, h6, rfl⟩
    cases hws : OMap.get? k.index.bundleWitness i with
    | none => simp [mset, hws] at h8
    | some ws => exact ⟨ws, c, by simp [bundleInfo, hws, h7]⟩
  · have hw' : w ∈ mset k.index.bundleWitness i := by
      simp only [bundleInfo] at hi
      split at hi
      · cases hi
      rename_i x hx
      split at hi <;> cases hi
      simpa [mset, hx] using hws
    rw [h1] at hw'
    rcases run_bw_sound H _ _ _ _ hw' with h3 | ⟨op, hop, c', b, h3, rfl⟩
    · simp [mset, OMap.get?] at h3
    obtain ⟨pre, post, rfl⟩ := List.append_of_mem hop
    obtain ⟨-, ws', h4, -⟩ := C19_indexed_ops_resolvable H pre post op c' b w h3 (okIdx_split pre hok)
    rw [h1, h4] at hi
    cases hi
    obtain ⟨wf, ⟨g, h5, h6⟩, ⟨sw, h7, h8⟩, h9⟩ := (h2 op hop).bundles _ _ _ h3
    obtain ⟨j, hj⟩ := knows_commits h8
    have := hC.one _ _ _ _ _ (hs w sw h7 _ _ _ hj) h9
    subst this
    exact ⟨g, sw, h5, h7, by rw [(hH.bundle_inj _ _ _ _ h6.id).1]; exact hj⟩

end

/-! ## Examples -/

/-- In the example world: transaction 61 commits to the bundle 0, and 62 to the bundle 2. -/
def exCommits (w : WitnessId) (m : CloseMethod) (c i : Nat) : Prop :=
  m = .opretFirst ∧ c = 0 ∧ ((w = ⟨.bitcoin, 61⟩ ∧ i = 0) ∨ (w = ⟨.bitcoin, 62⟩ ∧ i = 2))

theorem exCommits_one (w : WitnessId) (m : CloseMethod) (c i j : Nat) (h : exCommits w m c i) (h' : exCommits w m c j) : i = j := by
  obtain ⟨-, -, ⟨rfl, rfl⟩ | ⟨rfl, rfl⟩⟩ := h <;> obtain ⟨-, -, ⟨h1, rfl⟩ | ⟨h1, rfl⟩⟩ := h' <;> first | rfl | cases h1

theorem exWhole : Whole World.H World.events := ⟨exComplete.sound, exComplete.same⟩

theorem exCommitments_proofs (wb : WitnessBundle) (hw : wb ∈ World.con.data.bundles) (x : ClientBundle) (hx : x ∈ wb.anchored.list) (p : Nat × OMap Nat Nat)
    (hp : World.M.block x.mpc (World.con.data.genesis.contractId World.H) (x.bundle.id World.H) = some p) (c i : Nat) (hi : (c, i) ∈ p.2) :
    exCommits wb.id x.dbc.method c i := by
  simp only [World.con, World.conOf, List.mem_singleton] at hw
  subst hw
  simp only [World.wb, AnchoredBundles.list, List.mem_singleton] at hx
  subst hx
  cases hp
  simp only [List.mem_singleton] at hi
  have h0 : World.con.data.genesis.contractId World.H = 0 := by decide +kernel
  have h1 : World.b1.id World.H = 0 := by decide +kernel
  rw [h0] at hi
  obtain ⟨rfl, rfl⟩ := Prod.mk.inj hi
  exact ⟨rfl, rfl, .inl ⟨rfl, h1⟩⟩

theorem exCommitments_anchors (b : Bundle) (m : CloseMethod) (c i : Nat) (h : (World.fasciaOf 62 b).anchor.Commits m c i) :
    exCommits (World.fasciaOf 62 b).witness.id m c i := by
  cases m
  · obtain ⟨rfl, rfl⟩ := Prod.mk.inj (List.mem_singleton.mp h)
    exact ⟨rfl, rfl, .inr ⟨rfl, rfl⟩⟩
  · exact h.elim

theorem exCommitments : Commitments World.H World.M exCommits World.events where
  one := exCommits_one
  bundles e he c b w hb := by
    have h1 : World.b1.id World.H = 0 := by decide +kernel
    have h2 : World.b2.id World.H = 2 := by decide +kernel
    obtain ⟨rfl, ⟨rfl, rfl⟩ | ⟨rfl, rfl⟩⟩ := exBrings e he c b w hb
    · exact ⟨rfl, rfl, .inl ⟨rfl, h1⟩⟩
    · exact ⟨rfl, rfl, .inr ⟨rfl, h2⟩⟩
  proofs con r h := by
    simp only [World.events, List.mem_cons, StockEvent.consignment.injEq, reduceCtorEq, List.not_mem_nil, or_false] at h
    rw [h.1]
    exact exCommitments_proofs
  anchors f r h := by
    simp only [World.events, List.mem_cons, StockEvent.fascia.injEq, reduceCtorEq, List.not_mem_nil, or_false, false_or] at h
    rw [h.1]
    exact exCommitments_anchors World.b2
  extensions con r h := by
    simp only [World.events, List.mem_cons, StockEvent.consignment.injEq, reduceCtorEq, List.not_mem_nil, or_false] at h
    rw [h.1]
    intro e he
    cases he

/-- What is used above holds of the example world, whose state isn't empty. -/
example : World.H.Binding ∧ World.M.Lawful ∧ (∀ d, OMap.Sorted (World.G d).maxItems) ∧ Whole World.H World.events ∧
    Commitments World.H World.M exCommits World.events ∧ AllDone World.H World.I World.M World.G World.events .empty World.k ∧
    (∃ v, World.k.state.contractState 0 = .ok v ∧ (OMap.vals (v.unfiltered.kindSet .fungible)).length = 4 ∧ v.globalItems 5 = some [(.genesis 0, 77)]) ∧
    World.k.index.opoutsByOutputs 0 [⟨.bitcoin, 62, 1⟩] = .ok [⟨6, 1, 0⟩] ∧ World.k.index.opoutsByTerminals [6] = [⟨4, 1, 0⟩] ∧
    World.k.index.bundleIdForOp 6 = .ok 2 ∧ World.k.index.bundleInfo 2 = .ok ([⟨.bitcoin, 62⟩], 0) := by
  refine ⟨World.H_binding, exLaws.2.2.1, World.G_sorted, exWhole, exCommitments, exAllDone, ?_, by decide +kernel, by decide +kernel, by decide +kernel, by decide +kernel⟩
  have h : (World.k.state.contractState 0).toOption.any (fun v => decide ((OMap.vals (v.unfiltered.kindSet .fungible)).length = 4 ∧
      v.globalItems 5 = some [(.genesis 0, 77)])) = true := by decide +kernel
  cases e : World.k.state.contractState 0 with
  | error x => rw [e] at h; cases h
  | ok v => rw [e] at h; exact ⟨v, rfl, of_decide_eq_true h⟩

/-! ## What fails -/

/-- A history in which the second bundle comes as `B`, and then as `World.b2`. -/
def exTwice (B : Bundle) : List StockEvent := [.consignment World.con World.r, .fascia (World.fasciaOf 62 B) World.r, .fascia World.fascia World.r]

section
variable {B : Bundle} (hm : B.closeMethod = .opretFirst) (hi : B.id World.H = 2)
include hm hi

theorem exTwice_sound (hB : World.CheckB World.H B) (hn : B.known ≠ []) (e : StockEvent) (he : e ∈ exTwice B) : e.Sound World.H := by
  simp only [exTwice, List.mem_cons, List.not_mem_nil, or_false] at he
  rcases he with rfl | rfl | rfl
  · exact con_sound _
  · exact fasciaOf_sound _ _ hB hn hm _
  · exact fasciaOf_sound _ _ World.b2_check (by decide) rfl _

omit hm hi in
theorem exTwice_brings (e : StockEvent) (he : e ∈ exTwice B) (c : Nat) (b : Bundle) (w : WitnessId) (hb : e.Brings World.H c b w) :
    c = 0 ∧ ((b = World.b1 ∧ w = ⟨.bitcoin, 61⟩) ∨ ((b = B ∨ b = World.b2) ∧ w = ⟨.bitcoin, 62⟩)) := by
  simp only [exTwice, List.mem_cons, List.not_mem_nil, or_false] at he
  rcases he with rfl | rfl | rfl
  · obtain ⟨h1, h2 | h2⟩ := exBrings _ (.head _) c b w hb
    · exact ⟨h1, .inl h2⟩
    · exact ⟨h1, .inr ⟨.inr h2.1, h2.2⟩⟩
  · cases hb with
    | fascia _ _ _ _ hb =>
      simp only [World.fasciaOf, List.mem_singleton] at hb
      cases hb
      exact ⟨rfl, .inr ⟨.inl rfl, rfl⟩⟩
  · obtain ⟨h1, h2 | h2⟩ := exBrings _ (.tail _ (.head _)) c b w hb
    · exact ⟨h1, .inl h2⟩
    · exact ⟨h1, .inr ⟨.inr h2.1, h2.2⟩⟩

theorem exTwice_commitments : Commitments World.H World.M exCommits (exTwice B) where
  one := exCommits_one
  bundles e he c b w hb := by
    have h1 : World.b1.id World.H = 0 := by decide +kernel
    have h2 : World.b2.id World.H = 2 := by decide +kernel
    obtain ⟨rfl, ⟨rfl, rfl⟩ | ⟨rfl | rfl, rfl⟩⟩ := exTwice_brings e he c b w hb
    · exact ⟨rfl, rfl, .inl ⟨rfl, h1⟩⟩
    · exact ⟨hm, rfl, .inr ⟨rfl, hi⟩⟩
    · exact ⟨rfl, rfl, .inr ⟨rfl, h2⟩⟩
  proofs con r h := by
    simp only [exTwice, List.mem_cons, StockEvent.consignment.injEq, reduceCtorEq, List.not_mem_nil, or_false] at h
    rw [h.1]
    exact exCommitments_proofs
  anchors f r h := by
    simp only [exTwice, List.mem_cons, StockEvent.fascia.injEq, reduceCtorEq, List.not_mem_nil, or_false, false_or] at h
    rcases h with h | h <;> rw [h.1]
    · exact exCommitments_anchors B
    · exact exCommitments_anchors World.b2
  extensions con r h := by
    simp only [exTwice, List.mem_cons, StockEvent.consignment.injEq, reduceCtorEq, List.not_mem_nil, or_false] at h
    rw [h.1]
    intro e he
    cases he

end

/-- The stock after this history, if it satisfies `P`. -/
theorem exTwice_obtain (B : Bundle) (P : Stock → Prop) [DecidablePred P]
    (h : ((Stock.empty.consumeConsignment World.H World.I World.M World.G World.r World.con).bind (fun p =>
      (p.1.consumeFascia World.H World.r (World.fasciaOf 62 B)).bind (fun q =>
        (q.1.consumeFascia World.H World.r World.fascia).map (fun u => decide (p.2 = none ∧ q.2 = none ∧ u.2 = none ∧ P u.1))))) = some true) :
    ∃ k, AllDone World.H World.I World.M World.G (exTwice B) .empty k ∧ P k := by
  obtain ⟨⟨k₁, o₁⟩, h1, h⟩ := Option.bind_eq_some_iff.mp h
  obtain ⟨⟨k₂, o₂⟩, h2, h⟩ := Option.bind_eq_some_iff.mp h
  obtain ⟨⟨k₃, o₃⟩, h3, h⟩ := Option.map_eq_some_iff.mp h
  obtain ⟨rfl, rfl, rfl, hP⟩ := of_decide_eq_true h
  exact ⟨k₃, ⟨k₁, h1, k₂, h2, k₃, h3, rfl⟩, hP⟩

/-- The stash tells of no operation with the id `o`. -/
def exUntold (s : MemStash) (c o : Nat) : Prop :=
  (s.genesis c).all (fun g => decide (g.id World.H ≠ o)) = true ∧ s.extension o = none ∧ s.bundles.all (fun p => (OMap.get? p.2.known o).isNone) = true

noncomputable instance (s : MemStash) (c o : Nat) : Decidable (exUntold s c o) := by unfold exUntold; infer_instance

theorem exUntold_spec {s : MemStash} {c o : Nat} (h : exUntold s c o) {w : Option WitnessId} {op : Op} (ht : s.Tells World.H c w op) : op.id World.H ≠ o := by
  rintro rfl
  obtain ⟨h1, h2, h3⟩ := h
  cases ht with
  | genesis _ hg => rw [hg] at h1; exact of_decide_eq_true h1 rfl
  | transition i b _ w sw hb ht _ _ =>
    have := List.all_eq_true.mp h3 _ (OMap.mem_of_get? hb)
    simp only [ht] at this
    cases this
  | extension _ he _ => rw [he] at h2; cases h2
  | redeemed _ _ _ he _ _ _ => rw [he] at h2; cases h2

/-- **C79** fails for bundles which came with more transitions later: the stock, which got everything without an error, has an assignment in the state of the contract, of an operation
which its stash doesn't tell of. So after the loss of the state it can't be computed again. -/
theorem C79_state_fails : ∃ (es : List StockEvent) (k : Stock) (v : ContractView) (a : OutAssign), (∀ e ∈ es, e.Sound World.H) ∧ Commitments World.H World.M exCommits es ∧
    AllDone World.H World.I World.M World.G es .empty k ∧ k.state.contractState 0 = .ok v ∧ a ∈ OMap.vals (v.unfiltered.kindSet .fungible) ∧
    ¬ ∃ w op, k.stash.Tells World.H 0 w op ∧ op.id World.H = a.opout.op := by
  have hm : exPart.closeMethod = .opretFirst := rfl
  have hi : exPart.id World.H = 2 := by decide +kernel
  obtain ⟨k, hd, h1, h2⟩ := exTwice_obtain exPart (fun k => (k.state.contractState 0).toOption.any (fun v => decide (∃ a ∈ OMap.vals (v.unfiltered.kindSet .fungible), a.opout.op = 6)) = true ∧
    exUntold k.stash 0 6) (by decide +kernel)
  cases e : k.state.contractState 0 with
  | error x => rw [e] at h1; cases h1
  | ok v =>
    rw [e] at h1
    obtain ⟨a, h3, h4⟩ := of_decide_eq_true h1
    refine ⟨exTwice exPart, k, v, a, exTwice_sound hm hi exPart_check (by decide), exTwice_commitments hm hi, hd, e, h3, ?_⟩
    rintro ⟨w, op, h5, h6⟩
    exact exUntold_spec h2 h5 (h6.trans h4)

/-- The second bundle, where `t2` has its seal revealed and its state concealed; in `World.b2` it's the other way round. -/
def exSplit : Bundle :=
  { World.b2 with known := [(4, { World.t2 with assigns := [(1, ⟨.fungible, [.confidentialState World.sC 2]⟩)] }), (6, World.t3)] }

theorem exSplit_check : World.CheckB World.H exSplit := by decide +kernel

theorem exSplit_whole : Whole World.H (exTwice exSplit) where
  sound := exTwice_sound rfl (by decide +kernel) exSplit_check (by decide)
  same e he e' he' c b w c' b' w' hb hb' hid o ho := by
    have hne : World.b1.id World.H ≠ World.b2.id World.H := by decide +kernel
    have heq : exSplit.id World.H = World.b2.id World.H := by decide +kernel
    have hk : ∀ o, OMap.contains exSplit.known o = OMap.contains World.b2.known o := fun o => by
      simp [exSplit, World.b2, OMap.contains, OMap.get?]
      split <;> [rfl; (split <;> rfl)]
    obtain ⟨-, ⟨rfl, -⟩ | ⟨rfl | rfl, -⟩⟩ := exTwice_brings e he c b w hb <;>
      obtain ⟨-, ⟨rfl, -⟩ | ⟨rfl | rfl, -⟩⟩ := exTwice_brings e' he' c' b' w' hb'
    · exact ho
    · exact absurd (hid.trans heq) hne
    · exact absurd hid hne
    · exact absurd (hid.symm.trans heq) hne
    · exact ho
    · rw [← hk]; exact ho
    · exact absurd hid.symm hne
    · rw [hk]; exact ho
    · exact ho

/-- **C79**: the converse of `C79_state_partial` fails. An assignment was disclosed in two parts, first its seal and then its state: the stash tells of the operation with both, but the state of the
contract doesn't have it. The state computed again from the stash would have more. -/
theorem C79_converse_fails : ∃ (es : List StockEvent) (k : Stock) (v : ContractView) (w : WitnessId) (op : Op) (a : OutAssign), Whole World.H es ∧ Commitments World.H World.M exCommits es ∧
    AllDone World.H World.I World.M World.G es .empty k ∧ k.stash.Tells World.H 0 (some w) op ∧ op.Makes World.H (some w) .fungible a ∧
    k.state.contractState 0 = .ok v ∧ ∀ a' ∈ OMap.vals (v.unfiltered.kindSet .fungible), a'.opout ≠ a.opout := by
  have hm : exSplit.closeMethod = .opretFirst := rfl
  have hi : exSplit.id World.H = 2 := by decide +kernel
  obtain ⟨k, hd, h1, h2, h3⟩ := exTwice_obtain exSplit (fun k =>
    (k.state.contractState 0).toOption.any (fun v => decide (∀ a ∈ OMap.vals (v.unfiltered.kindSet .fungible), a.opout ≠ ⟨4, 1, 0⟩)) = true ∧
    k.stash.bundle 2 = some { World.b2 with known := [(4, exOpen), (6, World.t3)] } ∧
    (k.stash.witness ⟨.bitcoin, 62⟩).any (fun sw => decide (sw.anchors = .opret ⟨0, 8, [(0, 2)]⟩)) = true) (by decide +kernel)
  cases e : k.state.contractState 0 with
  | error x => rw [e] at h1; cases h1
  | ok v =>
    cases e' : k.stash.witness ⟨.bitcoin, 62⟩ with
    | none => rw [e'] at h3; cases h3
    | some sw =>
      rw [e] at h1
      rw [e'] at h3
      have h4 : exOpen.id World.H = 4 := by decide +kernel
      refine ⟨exTwice exSplit, k, v, ⟨.bitcoin, 62⟩, exOpen, ⟨⟨4, 1, 0⟩, ⟨.bitcoin, .opretFirst, 70, 0⟩, .fungible 4 0 0, some ⟨.bitcoin, 62⟩⟩, exSplit_whole,
        exTwice_commitments hm hi, hd, .transition 2 _ _ _ sw h2 (by rw [h4]; rfl) e' ?_, ⟨by decide +kernel, rfl, _, _, rfl, rfl, rfl, rfl⟩, e, of_decide_eq_true h1⟩
      rw [show sw.anchors = _ from of_decide_eq_true h3]
      exact .head _

end Rgb.Props
