import Verif.Lemmas.Shown
import Verif.Props.Blank
import Verif.Props.Usable

/-!
C78: what the state shows, the index finds.
-/

namespace Rgb.Props

open Rgb Stock Index PayWorld

section
variable {H : Commit} {I : Ids} {M : Mpc} {G : SchemaDoc → SchemaGlobals} {k : Stock} {es : List StockEvent}

/-- **C78.** In any history in which no consignment was refused (other operations may fail): whenever some state of a contract is assigned to an outpoint, the contract is
listed among those which assign to it.
Missing: histories in which consuming a consignment failed half-way, see `C78_listed_fails`. -/
theorem C78_listed_partial (hH : H.Binding) (hG : ∀ d, OMap.Sorted (G d).maxItems) (he : ∀ e ∈ es, e.Proper H) (h : Accepting H I M G es .empty k)
    {c : Nat} {p : Outpoint} (hp : k.HasStateAt c p) {outputs : List Outpoint} (ho : p ∈ outputs) : c ∈ k.index.contractsAssigning outputs := by
  obtain ⟨v, hv, kind, a, ha, rfl⟩ := hp
  have hk : Stock.Hist H k := Stock.Reachable.hist hH ⟨I, M, G, es, hG, he, accepting_run es h⟩
  have h1 := shown_run hH hG es he shown_empty h _ _ _ _ (entry_of_view hk hv ha)
  simp only [outSet] at h1
  cases hc : OMap.get? k.index.contracts c with
  | none => simp [hc] at h1
  | some ci =>
    simp only [hc, Option.map_some, Option.getD_some, mset] at h1
    cases hs : OMap.get? ci.outs a.sl with
    | none => simp [hs] at h1
    | some set =>
      simp only [contractsAssigning, List.mem_flatMap, List.mem_filterMap]
      refine ⟨(c, ci), OMap.mem_of_get? hc, a.sl.outpoint, ho, ?_⟩
      have : ((OMap.keys ci.outs).any fun s => decide (s.outpoint = a.sl.outpoint)) = true :=
        List.any_eq_true.mpr ⟨a.sl, List.mem_map.mpr ⟨_, OMap.mem_of_get? hs, rfl⟩, by simp⟩
      simp [this]

/-- **C78**, outputs. In the same histories the outputs of a contract are found by any outpoints at which the contract has state.
Missing: histories in which a consignment was refused half-way, see `C78_listed_fails`. -/
theorem C78_found_partial (hH : H.Binding) (hG : ∀ d, OMap.Sorted (G d).maxItems) (he : ∀ e ∈ es, e.Proper H) (h : Accepting H I M G es .empty k)
    {c : Nat} {outputs : List Outpoint} (hne : outputs ≠ []) (hp : ∀ p ∈ outputs, k.HasStateAt c p) : ∃ l, k.index.opoutsByOutputs c outputs = .ok l := by
  have hk : Stock.Hist H k := Stock.Reachable.hist hH ⟨I, M, G, es, hG, he, accepting_run es h⟩
  have key : ∀ p ∈ outputs, ∃ ci s set, OMap.get? k.index.contracts c = some ci ∧ OMap.get? ci.outs s = some set ∧ s.outpoint = p := by
    intro p hpm
    obtain ⟨v, hv, kind, a, ha, rfl⟩ := hp p hpm
    have h1 := shown_run hH hG es he shown_empty h _ _ _ _ (entry_of_view hk hv ha)
    simp only [outSet] at h1
    cases hc : OMap.get? k.index.contracts c with
    | none => simp [hc] at h1
    | some ci =>
      simp only [hc, Option.map_some, Option.getD_some, mset] at h1
      cases hs : OMap.get? ci.outs a.sl with
      | none => simp [hs] at h1
      | some set => exact ⟨ci, a.sl, set, rfl, hs, rfl⟩
  obtain ⟨p, rest, rfl⟩ := List.exists_cons_of_ne_nil hne
  obtain ⟨ci, -, -, hc, -⟩ := key p (by simp)
  simp only [opoutsByOutputs, hc]
  cases hl : byOutputsLoop ci.outs c (p :: rest) [] with
  | ok l => exact ⟨l, rfl⟩
  | error e =>
    obtain ⟨q, hq, -, hno⟩ := byOutputs_error hl
    obtain ⟨ci', s, set, hc', hs, hsq⟩ := key q hq
    rw [hc] at hc'
    cases hc'
    exact absurd hsq (hno _ (OMap.mem_of_get? hs))

/-- **C78**, payments. A batch composed with such a stock leaves nothing behind: each state, of any contract, which is at the spent outputs is spent by a transition
of its contract.
Missing: histories in which a consignment was refused half-way, see `C78_listed_fails`. -/
theorem C78_nothing_left_partial (hH : H.Binding) (hG : ∀ d, OMap.Sorted (G d).maxItems) (he : ∀ e ∈ es, e.Proper H) (h : Accepting H I M G es .empty k)
    {E : CEnv} {n : Nat} (hE : E.Lawful n) {W : Wallet} {inv : Inv.Invoice} {prevs : List OutSeal} {b : Batch} (hb : compose E W k inv prevs = .ok b)
    {c : Nat} {a : OutAssign} (ha : a ∈ k.stateAt c prevs) :
    ∃ t ∈ b.payments ++ b.blankTransitions, t.op.contract = c ∧ a.opout ∈ t.op.inputs := by
  obtain ⟨C⟩ := compose_ok hE hb
  cases hi : inv.contract with
  | none => rw [C.prepared.contract] at hi; cases hi
  | some c₀ =>
    by_cases hcc : c = c₀
    · subst hcc
      obtain ⟨h1, h2⟩ := C38_inputs hE hb hi
      obtain ⟨t, ht, hin⟩ := (h2 a.opout).mpr ⟨a, ha, rfl⟩
      exact ⟨t, List.mem_append_left _ ht, (h1 t ht).1, hin⟩
    · have hs : k.HasStateAt c a.sl.outpoint ∧ a.sl.outpoint ∈ prevs.map OutSeal.outpoint := by
        simp only [Stock.stateAt] at ha
        split at ha
        swap; · cases ha
        rename_i v hv
        simp only [ContractView.at_, List.mem_filter, List.mem_append, decide_eq_true_eq] at ha
        obtain ⟨hm, hp⟩ := ha
        refine ⟨⟨v, hv, ?_⟩, hp⟩
        rcases hm with ((hm | hm) | hm) | hm
        · exact ⟨.fungible, a, (List.mem_filter.mp hm).1, rfl⟩
        · exact ⟨.structured, a, (List.mem_filter.mp hm).1, rfl⟩
        · exact ⟨.declarative, a, (List.mem_filter.mp hm).1, rfl⟩
        · exact ⟨.attachment, a, (List.mem_filter.mp hm).1, rfl⟩
      have hl := C78_listed_partial hH hG he h hs.1 hs.2
      obtain ⟨t, ht, h1, h2⟩ := (C40_inputs hE hb hi c a.opout).mpr ⟨⟨hl, hcc⟩, a, ha, rfl⟩
      exact ⟨t, List.mem_append_right _ ht, h1, h2⟩

/-- **C38–C41, C56**, the condition on the outputs of operations. Whatever happened to the stock: if no operation has state with two (valid) witnesses at the
spent outputs, then no output of an operation is at two of them. -/
theorem C38_apart (hH : H.Binding) (hr : k.Reachable H) {c : Nat} {prevs : List OutSeal}
    (hw : ∀ a ∈ k.stateAt c prevs, ∀ a' ∈ k.stateAt c prevs, a.opout.op = a'.opout.op → a.witness = a'.witness) :
    ((k.stateAt c prevs).map (fun a => a.opout)).Nodup := by
  have hk := Stock.Reachable.hist hH hr
  revert hw
  simp only [Stock.stateAt]
  cases hv : k.state.contractState c with
  | error e => simp
  | ok v =>
    intro hw
    obtain ⟨ses, h3, h4⟩ := hk.state
    have hs := runSt_inv h3 stInv_empty h4
    have hin : ∀ {kd a}, a ∈ v.all kd → ∃ key, entry k.state c kd key = some a := fun h => ((mem_all_iff hs hv _ _).mp h).1
    have hnd : ∀ kd, (v.all kd).Nodup := by
      intro kd
      refine List.Nodup.filter _ ?_
      refine (List.pairwise_map.mpr ?_ : (OMap.vals _).Nodup)
      have hsort := (hs.cs _ _ (contractState_get? hv)).sets kd
      refine List.Pairwise.imp_of_mem ?_ (List.pairwise_map.mp hsort.nodup)
      intro x y hx hy hne he
      have ex : entry k.state c kd x.1 = some x.2 := by rw [entry_view hv]; exact hsort.get?_of_mem hx
      have ey : entry k.state c kd y.1 = some y.2 := by rw [entry_view hv]; exact hsort.get?_of_mem hy
      exact hne (by rw [entry_key hk ex, entry_key hk ey, he])
    have hsep : ∀ {kd kd' a}, a ∈ v.all kd → a ∈ v.all kd' → kd = kd' := by
      intro kd kd' a h h'
      obtain ⟨key, e⟩ := hin h
      obtain ⟨key', e'⟩ := hin h'
      exact (entry_unique hH hk e e' rfl rfl).1
    have hall : (v.all .fungible ++ v.all .structured ++ v.all .declarative ++ v.all .attachment).Nodup := by
      simp only [List.nodup_append, List.mem_append]
      refine ⟨⟨⟨hnd _, hnd _, ?_⟩, hnd _, ?_⟩, hnd _, ?_⟩
      · rintro a ha b hb rfl; cases hsep ha hb
      · rintro a (ha | ha) b hb rfl <;> cases hsep ha hb
      · rintro a ((ha | ha) | ha) b hb rfl <;> cases hsep ha hb
    refine List.pairwise_map.mpr (List.Pairwise.imp_of_mem ?_ (hall.filter _))
    intro a b ha hb hne he
    have mem : ∀ {a}, a ∈ v.at_ (prevs.map OutSeal.outpoint) → ∃ kd key, entry k.state c kd key = some a := by
      intro a ha
      simp only [ContractView.at_, List.mem_filter, List.mem_append] at ha
      rcases ha.1 with ((h | h) | h) | h <;> exact ⟨_, hin h⟩
    obtain ⟨kd, key, e1⟩ := mem ha
    obtain ⟨kd', key', e2⟩ := mem hb
    exact hne (entry_unique hH hk e1 e2 he (hw a ha b hb (congrArg Opout.op he))).2

/-- **C64** (transfers). For the stocks of `C64_transferable` and `C64_transferred`: the outputs at which the contract has state are found. -/
theorem C64_found (hH : H.Binding) (hG : ∀ d, OMap.Sorted (G d).maxItems) {E : Stock.Env} (hc : Complete H I E es) (h : AllDone H I M G es .empty k)
    {c : Nat} {outputs : List Outpoint} (hne : outputs ≠ []) (hp : ∀ p ∈ outputs, k.HasStateAt c p) : ∃ l, k.index.opoutsByOutputs c outputs = .ok l :=
  C78_found_partial hH hG (fun e he => (hc.sound e he).proper) (allDone_accepting es h) hne hp

end

/-! ## Examples -/

theorem exPayAccepting : Accepting PayWorld.H World.I World.M World.G PayWorld.events .empty PayWorld.k := by
  have h : ((Stock.empty.consumeConsignment PayWorld.H World.I World.M World.G World.r (PayWorld.con PayWorld.g0)).bind (fun p =>
      (p.1.consumeConsignment PayWorld.H World.I World.M World.G World.r (PayWorld.con PayWorld.g1)).map
        (fun q => decide (p.2 = none ∧ q.2 = none)))) = some true := by decide +kernel
  obtain ⟨⟨k₁, o₁⟩, h1, h⟩ := Option.bind_eq_some_iff.mp h
  obtain ⟨⟨k₂, o₂⟩, h2, h⟩ := Option.map_eq_some_iff.mp h
  obtain ⟨rfl, rfl⟩ := of_decide_eq_true h
  have e1 : StockEvent.exec PayWorld.H World.I World.M World.G .empty (.consignment (PayWorld.con PayWorld.g0) World.r) = some k₁ := by
    simp [StockEvent.exec, h1]
  have e2 : StockEvent.exec PayWorld.H World.I World.M World.G k₁ (.consignment (PayWorld.con PayWorld.g1) World.r) = some k₂ := by
    simp [StockEvent.exec, h2]
  refine ⟨k₁, e1, fun _ _ _ => h1, k₂, e2, fun _ _ _ => h2, ?_⟩
  have hk : runStock PayWorld.H World.I World.M World.G PayWorld.events .empty = some k₂ := by
    simp [PayWorld.events, runStock, e1, e2]
  simp [PayWorld.k, hk, Accepting]

/-- A consumed history with two contracts with state at one outpoint: both are listed, and a payment of the contract 0 spends the state of the contract 2, too. -/
example : Accepting PayWorld.H World.I World.M World.G PayWorld.events .empty PayWorld.k ∧
    PayWorld.k.HasStateAt 0 ⟨.bitcoin, 50, 0⟩ ∧ PayWorld.k.HasStateAt 2 ⟨.bitcoin, 50, 0⟩ ∧
    PayWorld.k.index.contractsAssigning [⟨.bitcoin, 50, 0⟩] = [0, 2] ∧
    (PayWorld.k.stateAt 2 PayWorld.prevs).map (fun a => a.opout) = [⟨2, 4000, 0⟩, ⟨2, 4000, 1⟩, ⟨2, 4001, 0⟩] ∧
    ∃ b, compose PayWorld.E PayWorld.W PayWorld.k (PayWorld.inv none (.amount 12)) PayWorld.prevs = .ok b := by
  have key : ∀ c ∈ [0, 2], PayWorld.k.HasStateAt c ⟨.bitcoin, 50, 0⟩ := by
    intro c hc
    have h : ∀ c ∈ [0, 2], (PayWorld.k.state.contractState c).toOption.any (fun v =>
        (OMap.vals (v.unfiltered.kindSet .fungible)).any (fun a => decide (a.sl.outpoint = ⟨.bitcoin, 50, 0⟩))) = true := by decide +kernel
    have h := h c hc
    cases hv : PayWorld.k.state.contractState c with
    | error e => rw [hv] at h; cases h
    | ok v =>
      rw [hv] at h
      obtain ⟨a, h1, h2⟩ := List.any_eq_true.mp h
      exact ⟨v, hv, .fungible, a, h1, by simpa using h2⟩
  refine ⟨exPayAccepting, key 0 (by simp), key 2 (by simp), by decide +kernel, by decide +kernel, ?_⟩
  obtain ⟨b, hb, -⟩ := ok_any (P := fun _ => True) (y := compose PayWorld.E PayWorld.W PayWorld.k (PayWorld.inv none (.amount 12)) PayWorld.prevs)
    (by decide +kernel)
  exact ⟨b, hb⟩

/-- In that stock no operation has two witnesses at the spent outputs. -/
example : PayWorld.k.Reachable PayWorld.H ∧ (PayWorld.k.stateAt 0 PayWorld.prevs).length = 5 ∧
    ∀ a ∈ PayWorld.k.stateAt 0 PayWorld.prevs, ∀ a' ∈ PayWorld.k.stateAt 0 PayWorld.prevs, a.opout.op = a'.opout.op → a.witness = a'.witness :=
  ⟨PayWorld.k_reachable, by decide +kernel, by decide +kernel⟩

/-- The contract 2 with the transition `t0`. -/
def exRefused : Consignment := { PayWorld.con PayWorld.g1 with data := ⟨PayWorld.g1, [], [World.wb (.tx ⟨61, 0⟩) PayWorld.b0]⟩ }

theorem exRefused_proper (r : Resolver) : StockEvent.Proper PayWorld.H (.consignment exRefused r) := by
  obtain ⟨⟨p1, p2, p3, -⟩, -, p4, p5, -⟩ := PayWorld.events_proper (.consignment (PayWorld.con PayWorld.g1) World.r) (by simp [PayWorld.events])
  have key : ∀ w ∈ exRefused.data.bundles, w = World.wb (.tx ⟨61, 0⟩) PayWorld.b0 := by
    intro w hw; simpa [exRefused] using hw
  have hb : ∀ b ∈ (World.wb (.tx ⟨61, 0⟩) PayWorld.b0).anchored.bundles, b = PayWorld.b0 := by
    intro b hb; simpa [World.wb, AnchoredBundles.bundles, AnchoredBundles.list] using hb
  refine ⟨⟨p1, p2, p3, ?_⟩, ?_, p4, p5, ?_⟩
  · intro w hw b hb'; cases key w hw; cases hb b hb'; exact PayWorld.b0_check.wf
  · intro w hw; cases key w hw; exact rfl
  · intro w hw b hb' t ht; cases key w hw; cases hb b hb'; exact PayWorld.b0_check.proper t ht

/-- **C78 is false after a consignment was refused half-way**: the stock, knowing the contract 0, gets a consignment of the contract 2 while the resolver can't find the
order of its witness, and returns an error. The state of the genesis of the contract 2 is there nevertheless, but the index doesn't list the contract; a payment from the
outpoint 50:0 is composed which moves the state of the contract 0 only: the 20 of the contract 2 at this outpoint are lost. -/
theorem C78_listed_fails : ∃ (k : Stock) (x : TxErr StockErr) (b : Batch), k.Reachable PayWorld.H ∧
    (∃ k₀ : Stock, k₀.Reachable PayWorld.H ∧
      k₀.consumeConsignment PayWorld.H World.I World.M World.G (fun _ => none) exRefused = some (k, some x)) ∧
    (k.stateAt 2 [PayWorld.out .opretFirst 50]).map (fun a => a.state) = [.fungible 20 5 1000, .void] ∧
    k.index.contractsAssigning [(PayWorld.out .opretFirst 50).outpoint] = [0] ∧
    compose PayWorld.E PayWorld.W k (PayWorld.inv none (.amount 4)) [PayWorld.out .opretFirst 50] = .ok b ∧
    (b.payments ++ b.blankTransitions).map (fun t => t.op.contract) = [0] := by
  have hp := PayWorld.events_proper (.consignment (PayWorld.con PayWorld.g0) World.r) (by simp [PayWorld.events])
  have h : (runStock PayWorld.H World.I World.M World.G [.consignment (PayWorld.con PayWorld.g0) World.r] .empty).any (fun k₀ =>
      (k₀.consumeConsignment PayWorld.H World.I World.M World.G (fun _ => none) exRefused).any (fun q => q.2.isSome &&
        decide ((q.1.stateAt 2 [PayWorld.out .opretFirst 50]).map (fun a => a.state) = [.fungible 20 5 1000, .void]) &&
        decide (q.1.index.contractsAssigning [(PayWorld.out .opretFirst 50).outpoint] = [0]) &&
        (compose PayWorld.E PayWorld.W q.1 (PayWorld.inv none (.amount 4)) [PayWorld.out .opretFirst 50]).toOption.any
          (fun b => decide ((b.payments ++ b.blankTransitions).map (fun t => t.op.contract) = [0])))) = true := by decide +kernel
  cases h0 : runStock PayWorld.H World.I World.M World.G [.consignment (PayWorld.con PayWorld.g0) World.r] .empty with
  | none => rw [h0] at h; cases h
  | some k₀ =>
  rw [h0] at h
  simp only [Option.any_some] at h
  cases h1 : k₀.consumeConsignment PayWorld.H World.I World.M World.G (fun _ => none) exRefused with
  | none => rw [h1] at h; cases h
  | some q =>
  rw [h1] at h
  obtain ⟨k, o⟩ := q
  simp only [Option.any_some, Bool.and_eq_true, decide_eq_true_eq] at h
  obtain ⟨⟨⟨e1, e2⟩, e3⟩, e4⟩ := h
  cases o with
  | none => cases e1
  | some x =>
  obtain ⟨b, e5, e6⟩ := ok_any (P := fun (b : Batch) => (b.payments ++ b.blankTransitions).map (fun t => t.op.contract) = [0]) e4
  have hrun : runStock PayWorld.H World.I World.M World.G [.consignment (PayWorld.con PayWorld.g0) World.r, .consignment exRefused (fun _ => none)] .empty = some k := by
    simp only [runStock] at h0 ⊢
    obtain ⟨k₁, h2, h3⟩ := Option.bind_eq_some_iff.mp h0
    cases h3
    rw [h2]
    simp [StockEvent.exec, h1]
  refine ⟨k, x, b, ⟨World.I, World.M, World.G, _, World.G_sorted, ?_, hrun⟩, ⟨k₀, ⟨World.I, World.M, World.G, _, World.G_sorted, ?_, h0⟩, h1⟩, e2, e3, e5, e6⟩
  · intro e he
    simp only [List.mem_cons, List.not_mem_nil, or_false] at he
    rcases he with rfl | rfl
    · exact hp
    · exact exRefused_proper _
  · intro e he
    simp only [List.mem_singleton] at he
    subst he
    exact hp

end Rgb.Props
