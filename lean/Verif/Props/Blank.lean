import Verif.Props.Compose

/-!
# Blank transitions: C40

Vocabulary: `Verif.Spec.Compose`. `contractsAssigning` is what the index answers; which contracts it lists is property C21.
-/

namespace Rgb.Props

open Rgb Rgb.Stock
open Rgb.PayWorld (ok_any)

/-- The transitions with the contract to which they belong. -/
theorem blank_mem {E : CEnv} {W : Wallet} {k : Stock} {inv : Inv.Invoice} {prevs : List OutSeal} {c : Nat} {b : Batch}
    (B : Blanks E W k inv prevs c b) {t : BuiltTransition} (ht : t ∈ b.blankTransitions) :
    ∃ e ∈ B.ds, ∃ D : BlankDone E W k inv.layer e.1.1 e.1.2 e.2, t ∈ D.tt ++ D.to := by
  unfold Batch.blankTransitions at ht
  rw [B.blanks] at ht
  obtain ⟨d, hd, ht⟩ := List.mem_flatMap.1 ht
  obtain ⟨e, he, rfl⟩ := List.mem_map.1 hd
  obtain ⟨D⟩ := B.done e he
  refine ⟨e, he, D, ?_⟩
  rw [← D.list]
  rw [toList_map, List.map_map] at ht
  exact ht

theorem blank_mem_of {E : CEnv} {W : Wallet} {k : Stock} {inv : Inv.Invoice} {prevs : List OutSeal} {c : Nat} {b : Batch}
    (B : Blanks E W k inv prevs c b) {e : (Nat × Spent) × Dichotomy TransitionInfo} (he : e ∈ B.ds)
    (D : BlankDone E W k inv.layer e.1.1 e.1.2 e.2) {t : BuiltTransition} (ht : t ∈ D.tt ++ D.to) : t ∈ b.blankTransitions := by
  unfold Batch.blankTransitions
  rw [B.blanks]
  refine List.mem_flatMap.2 ⟨_, List.mem_map_of_mem (f := fun e => e.2.map (TransitionInfo.setNonce W.priority)) he, ?_⟩
  rw [toList_map, List.map_map]
  rw [← D.list] at ht
  exact ht

theorem blank_side {E : CEnv} {W : Wallet} {k : Stock} {layer : Layer1} {id : Nat} {m : Spent} {d : Dichotomy TransitionInfo}
    (D : BlankDone E W k layer id m d) {t : BuiltTransition} (ht : t ∈ D.tt ++ D.to) :
    ∃ q : Item → Bool, (q = byTapret ∨ q = fun x => !byTapret x) ∧ ∃ ts, BSide E W k layer id ((visited E id (E.ordOuts id m)).filter q) ts ∧ t ∈ ts := by
  rcases List.mem_append.1 ht with ht | ht
  · exact ⟨_, .inl rfl, _, D.tapret, ht⟩
  · exact ⟨_, .inr rfl, _, D.opret, ht⟩

/-- **C40**, contracts: there are blank transitions exactly for the other contracts which have state at the spent outputs, according to the
index, and they are all transitions of the type for blank ones (`0xFFFF`). -/
theorem C40_contracts {E : CEnv} {n : Nat} (hE : E.Lawful n) {W : Wallet} {k : Stock} {inv : Inv.Invoice} {prevs : List OutSeal}
    {b : Batch} (h : compose E W k inv prevs = .ok b) {c : Nat} (hc : inv.contract = some c) :
    (∀ t ∈ b.blankTransitions, t.op.kind = .transition ∧ t.op.ty = 65535 ∧ t.op.inputs ≠ [] ∧ t.op.inputs.Nodup) ∧
      ∀ id, (∃ t ∈ b.blankTransitions, t.op.contract = id) ↔
        id ∈ k.index.contractsAssigning (prevs.map OutSeal.outpoint) ∧ id ≠ c := by
  obtain ⟨C⟩ := compose_ok hE h
  have hpc : c = C.p.contract := Option.some.inj (hc.symm.trans C.prepared.contract)
  subst hpc
  obtain ⟨B⟩ := C.toBlanks hE
  constructor
  · intro t ht
    obtain ⟨e, he, D, ht⟩ := blank_mem B ht
    obtain ⟨q, -, ts, hs, ht⟩ := blank_side D ht
    obtain ⟨-, h2, h3, h4, h5⟩ := hs.inputs ht
    refine ⟨h2, h3, ?_, h4⟩
    intro hnil
    rcases hs with ⟨-, rfl⟩ | ⟨hl, _⟩
    · cases ht
    · obtain ⟨x, hx⟩ := List.exists_mem_of_ne_nil _ hl
      have := (h5 x.2.1).2 (List.mem_map_of_mem (f := fun x : Item => x.2.1) hx)
      rw [hnil] at this
      cases this
  · intro id
    rw [← B.ids]
    constructor
    · rintro ⟨t, ht, rfl⟩
      obtain ⟨e, he, D, ht⟩ := blank_mem B ht
      obtain ⟨q, -, ts, hs, ht⟩ := blank_side D ht
      rw [(hs.inputs ht).1]
      exact List.mem_map_of_mem (f := fun e : (Nat × Spent) × Dichotomy TransitionInfo => e.1.1) he
    · intro hid
      obtain ⟨e, he, rfl⟩ := List.mem_map.1 hid
      obtain ⟨D⟩ := B.done e he
      obtain ⟨t, ht⟩ := List.exists_mem_of_ne_nil _ D.nonempty
      refine ⟨t, blank_mem_of B he D ht, ?_⟩
      obtain ⟨q, -, ts, hs, ht⟩ := blank_side D ht
      exact (hs.inputs ht).1

/-- **C40**, what is spent: the blank transitions of a contract spend exactly its state at the spent outputs. -/
theorem C40_inputs {E : CEnv} {n : Nat} (hE : E.Lawful n) {W : Wallet} {k : Stock} {inv : Inv.Invoice} {prevs : List OutSeal}
    {b : Batch} (h : compose E W k inv prevs = .ok b) {c : Nat} (hc : inv.contract = some c) (id : Nat) (o : Opout) :
    (∃ t ∈ b.blankTransitions, t.op.contract = id ∧ o ∈ t.op.inputs) ↔
      (id ∈ k.index.contractsAssigning (prevs.map OutSeal.outpoint) ∧ id ≠ c) ∧ ∃ a ∈ k.stateAt id prevs, a.opout = o := by
  obtain ⟨C⟩ := compose_ok hE h
  have hpc : c = C.p.contract := Option.some.inj (hc.symm.trans C.prepared.contract)
  subst hpc
  obtain ⟨B⟩ := C.toBlanks hE
  rw [← B.ids]
  constructor
  · rintro ⟨t, ht, rfl, ho⟩
    obtain ⟨e, he, D, ht⟩ := blank_mem B ht
    obtain ⟨q, -, ts, hs, ht⟩ := blank_side D ht
    obtain ⟨h1, -, -, -, h5⟩ := hs.inputs ht
    rw [h1]
    refine ⟨List.mem_map_of_mem (f := fun e : (Nat × Spent) × Dichotomy TransitionInfo => e.1.1) he, ?_⟩
    obtain ⟨⟨s, o', st⟩, hx, rfl⟩ := List.mem_map.1 ((h5 o).1 ho)
    obtain ⟨a, ha, -, hao⟩ := (own_mem hE (B.state e he) s o').1 ⟨st, (List.mem_filter.1 hx).1⟩
    exact ⟨a, ha, hao⟩
  · rintro ⟨hid, a, ha, rfl⟩
    obtain ⟨e, he, rfl⟩ := List.mem_map.1 hid
    obtain ⟨D⟩ := B.done e he
    obtain ⟨st, hst⟩ := (own_mem hE (B.state e he) a.sl a.opout).2 ⟨a, ha, rfl, rfl⟩
    have key : ∀ (q : Item → Bool) (ts : List BuiltTransition), BSide E W k inv.layer e.1.1 ((visited E e.1.1 (E.ordOuts e.1.1 e.1.2)).filter q) ts →
        q (a.sl, a.opout, st) = true → ∃ t ∈ ts, t.op.contract = e.1.1 ∧ a.opout ∈ t.op.inputs := by
      intro q ts hs hq
      have hm := List.mem_filter.2 ⟨hst, hq⟩
      rcases id hs with ⟨hl, -⟩ | ⟨-, t, I, dflt, rfl, -⟩
      · rw [hl] at hm; cases hm
      · obtain ⟨h1, -, -, -, h5⟩ := hs.inputs (List.mem_singleton.2 rfl)
        exact ⟨t, List.mem_singleton.2 rfl, h1, (h5 _).2 (List.mem_map_of_mem (f := fun x : Item => x.2.1) hm)⟩
    cases hq : byTapret (a.sl, a.opout, st) with
    | true =>
      obtain ⟨t, ht, h1, h2⟩ := key _ _ D.tapret hq
      exact ⟨t, blank_mem_of B he D (List.mem_append_left _ ht), h1, h2⟩
    | false =>
      obtain ⟨t, ht, h1, h2⟩ := key _ _ D.opret (by rw [hq]; rfl)
      exact ⟨t, blank_mem_of B he D (List.mem_append_right _ ht), h1, h2⟩

/-- **C40**, each state is spent once: if an output of an operation of the contract is at one transaction output only, then no two blank transitions spend the
same. -/
theorem C40_once {E : CEnv} {n : Nat} (hE : E.Lawful n) {W : Wallet} {k : Stock} {inv : Inv.Invoice} {prevs : List OutSeal}
    {b : Batch} (h : compose E W k inv prevs = .ok b) {c : Nat} (hc : inv.contract = some c) {id : Nat}
    (hid : id ∈ k.index.contractsAssigning (prevs.map OutSeal.outpoint)) (hne : id ≠ c) (hn : ((k.stateAt id prevs).map (fun a => a.opout)).Nodup) :
    ((b.blankTransitions.filter (fun t => decide (t.op.contract = id))).flatMap (fun t => t.op.inputs)).Perm ((k.stateAt id prevs).map (fun a => a.opout)) := by
  rw [List.perm_ext_iff_of_nodup ?_ hn]
  · intro o
    rw [List.mem_map]
    have := C40_inputs hE h hc id o
    simp only [hid, hne, ne_eq, not_false_eq_true, and_self, true_and] at this
    rw [← this]
    simp only [List.mem_flatMap, List.mem_filter, decide_eq_true_eq, and_assoc]
  · refine nodup_flatMap (fun t ht => ((C40_contracts hE h hc).1 t (List.mem_filter.1 ht).1).2.2.2) ?_
    obtain ⟨C⟩ := compose_ok hE h
    obtain ⟨B⟩ := C.toBlanks hE
    suffices hs : b.blankTransitions.Pairwise (fun t t' => t.op.contract = id → t'.op.contract = id → ∀ x ∈ t.op.inputs, x ∉ t'.op.inputs) by
      refine List.Pairwise.imp_of_mem ?_ (hs.filter _)
      intro t t' ht ht' hd
      exact hd (of_decide_eq_true (List.mem_filter.1 ht).2) (of_decide_eq_true (List.mem_filter.1 ht').2)
    have hown : ∀ e ∈ B.ds, ∀ t ∈ (e.2.map (TransitionInfo.setNonce W.priority)).toList.map (fun i => i.transition), t.op.contract = e.1.1 := by
      intro e he t ht
      obtain ⟨D⟩ := B.done e he
      rw [toList_map, List.map_map] at ht
      have ht' : t ∈ D.tt ++ D.to := by rw [← D.list]; exact ht
      obtain ⟨q, -, ts, hs, ht⟩ := blank_side D ht'
      exact (hs.inputs ht).1
    unfold Batch.blankTransitions
    rw [B.blanks, List.flatMap_map, List.flatMap, List.pairwise_flatten]
    constructor
    · intro l hl
      obtain ⟨e, he, rfl⟩ := List.mem_map.1 hl
      obtain ⟨D⟩ := B.done e he
      simp only [toList_map, List.map_map]
      show ((e.2.toList.map (fun i => (i.setNonce W.priority).transition)).Pairwise _)
      rw [D.list, List.pairwise_append]
      have hone : ∀ {l ts}, BSide E W k inv.layer e.1.1 l ts →
          ts.Pairwise (fun t t' => t.op.contract = id → t'.op.contract = id → ∀ x ∈ t.op.inputs, x ∉ t'.op.inputs) := by
        intro l ts hs
        rcases hs with ⟨-, rfl⟩ | ⟨-, t, _, _, rfl, -⟩
        · exact List.Pairwise.nil
        · exact List.pairwise_singleton _ _
      refine ⟨hone D.tapret, hone D.opret, ?_⟩
      intro t ht t' ht' hid' _ o ho ho'
      have hi : e.1.1 = id := (D.tapret.inputs ht).1.symm.trans hid'
      have hperm := own_perm hE (B.state e he) (by rw [hi]; exact hn)
      have hno : ((visited E e.1.1 (E.ordOuts e.1.1 e.1.2)).map (fun x => x.2.1)).Nodup := by
        refine (hperm.map _).nodup_iff.2 ?_
        rw [List.map_map, hi]
        exact hn
      rw [(D.tapret.inputs ht).2.2.2.2] at ho
      rw [(D.opret.inputs ht').2.2.2.2] at ho'
      obtain ⟨x, hx, hxo⟩ := List.mem_map.1 ho
      obtain ⟨y, hy, hyo⟩ := List.mem_map.1 ho'
      obtain ⟨hx1, hx2⟩ := List.mem_filter.1 hx
      obtain ⟨hy1, hy2⟩ := List.mem_filter.1 hy
      have hxy : x = y := by
        rw [List.Nodup, List.pairwise_map] at hno
        refine Decidable.byContradiction fun hne => ?_
        obtain ⟨i, hi, rfl⟩ := List.mem_iff_getElem.1 hx1
        obtain ⟨j, hj, rfl⟩ := List.mem_iff_getElem.1 hy1
        rw [List.pairwise_iff_getElem] at hno
        rcases Nat.lt_trichotomy i j with hij | hij | hij
        · exact hno i j hi hj hij (hxo.trans hyo.symm)
        · subst hij; exact hne rfl
        · exact hno j i hj hi hij (hyo.trans hxo.symm)
      subst hxy
      rw [hx2] at hy2
      cases hy2
    · rw [List.pairwise_map]
      refine List.Pairwise.imp_of_mem ?_ (List.pairwise_map.1 B.nodup)
      intro e e' he he' hee t ht t' ht' h1 h2
      exact absurd ((hown e he t ht).symm.trans (h1.trans (h2.symm.trans (hown e' he' t' ht')))) hee

/-- **C40**, what is assigned: each blank transition assigns exactly what it spends, state by state, with the same type and content, to the
outputs chosen by the wallet. Missing: if the wallet gives the same seal for two states of a type, only one of them is kept (see
`C40_collision_fails`). -/
theorem C40_moved_partial {E : CEnv} {n : Nat} (hE : E.Lawful n) {W : Wallet} {k : Stock} {inv : Inv.Invoice} {prevs : List OutSeal}
    {b : Batch} (h : compose E W k inv prevs = .ok b) {id : Nat} (hn : ((k.stateAt id prevs).map (fun a => a.opout)).Nodup) {aty : Nat}
    (hseals : ((ofType aty (k.stateAt id prevs)).map (W.movedSeal E k inv id)).Nodup) :
    ∀ t ∈ b.blankTransitions, t.op.contract = id → ((t.outs aty).map (fun e => (e.1, e.2.map RState.content))).Perm
      ((ofType aty (t.spends (k.stateAt id prevs))).map (fun a => (some (W.movedSeal E k inv id a), some a.state.content))) := by
  obtain ⟨C⟩ := compose_ok hE h
  obtain ⟨B⟩ := C.toBlanks hE
  rintro t ht rfl
  obtain ⟨e, he, D, ht⟩ := blank_mem B ht
  obtain ⟨q, -, ts, hs, ht⟩ := blank_side D ht
  obtain ⟨h1, -, -, -, h5⟩ := hs.inputs ht
  rw [h1] at hn hseals ⊢
  have hp := side_state q (own_perm hE (B.state e he) hn) hn h5
  have hmp := blankItems_perm (E := E) (W := W) (k := k) (layer := inv.layer) (id := e.1.1) (aty := aty) hp
  have hseq : ∀ a ∈ ofType aty (t.spends (k.stateAt e.1.1 prevs)),
      W.outSeal E k inv.layer (.moved e.1.1 a.sl a.opout) e.1.1 aty = W.movedSeal E k inv e.1.1 a := by
    intro a ha
    have := of_decide_eq_true (List.mem_filter.1 ha).2
    unfold Wallet.movedSeal
    rw [this]
  have hnod : ((blankItems E W k inv.layer e.1.1 aty ((visited E e.1.1 (E.ordOuts e.1.1 e.1.2)).filter q)).map Prod.fst).Nodup := by
    refine (hmp.map _).nodup_iff.2 ?_
    rw [List.map_map]
    have : (ofType aty (t.spends (k.stateAt e.1.1 prevs))).map
        (Prod.fst ∘ fun a => (W.outSeal E k inv.layer (.moved e.1.1 a.sl a.opout) e.1.1 aty, a.state)) =
        (ofType aty (t.spends (k.stateAt e.1.1 prevs))).map (W.movedSeal E k inv e.1.1) :=
      List.map_congr_left (fun a ha => hseq a ha)
    show ((ofType aty (t.spends (k.stateAt e.1.1 prevs))).map _).Nodup
    rw [this]
    have : ofType aty (t.spends (k.stateAt e.1.1 prevs)) = (ofType aty (k.stateAt e.1.1 prevs)).filter
        (fun a => decide (a.opout ∈ t.op.inputs)) := by
      unfold ofType BuiltTransition.spends
      rw [List.filter_filter, List.filter_filter]
      apply List.filter_congr
      intro a _
      rw [Bool.and_comm]
    rw [this]
    exact filter_sublist_nodup _ hseals
  refine (hs.moved hnod t ht).trans ((hmp.map _).trans (.of_eq ?_))
  rw [List.map_map]
  apply List.map_congr_left
  intro a ha
  have hq := hseq a ha
  simp only [Function.comp, hq]

/-- Along with the payment of 12 the amounts and the right of contract 2 are moved. -/
theorem exBlank : ∃ b, compose PayWorld.E PayWorld.W PayWorld.k (PayWorld.inv none (.amount 12)) PayWorld.prevs = .ok b ∧
    PayWorld.k.index.contractsAssigning (PayWorld.prevs.map OutSeal.outpoint) = [0, 0, 2, 2] ∧
    b.blankTransitions.map (fun t => (t.op.contract, t.op.inputs.map (fun o => (o.ty, o.no)))) = [(2, [(4000, 1)]), (2, [(4000, 0), (4001, 0)])] ∧
    b.blankTransitions.map (fun t => (t.outs 4000).map (fun e => e.2.map RState.amount)) = [[some 21], [some 20]] ∧
    b.blankTransitions.map (fun t => (t.outs 4001).map (fun e => e.2)) = [[], [some .void]] :=
  ok_any (by decide +kernel)

example : ((PayWorld.k.stateAt 2 PayWorld.prevs).map (fun a => a.opout)).Nodup ∧
    ((ofType 4000 (PayWorld.k.stateAt 2 PayWorld.prevs)).map (PayWorld.W.movedSeal PayWorld.E PayWorld.k (PayWorld.inv none (.amount 12)) 2)).Nodup := by
  decide +kernel

/-- **C40 is false if two states of a type get the same seal**: then one of the two rights of contract 2 is lost. -/
theorem C40_collision_fails : ∃ b, compose PayWorld.E PayWorld.W1 PayWorld.k (PayWorld.inv none (.amount 4))
      [PayWorld.out .opretFirst 50, PayWorld.out .opretFirst 54] = .ok b ∧
    (ofType 4001 (PayWorld.k.stateAt 2 [PayWorld.out .opretFirst 50, PayWorld.out .opretFirst 54])).length = 2 ∧
    (b.blankTransitions.flatMap (fun t => t.outs 4001)).length = 1 :=
  ok_any (by decide +kernel)

/-- **C40 fails**, it isn't possible to pay: if the only state of another contract at an output comes from a transaction which was replaced
later, then the index lists the contract but there is no state to move, and composing any payment which spends the output panics. -/
theorem C40_archived_fails : PayWorld.kA.Reachable PayWorld.H ∧
    2 ∈ PayWorld.kA.index.contractsAssigning [(PayWorld.out .opretFirst 55).outpoint] ∧ PayWorld.kA.stateAt 2 [PayWorld.out .opretFirst 55] = [] ∧
    compose PayWorld.E PayWorld.W PayWorld.kA (PayWorld.inv none (.amount 4)) [PayWorld.out .opretFirst 52, PayWorld.out .opretFirst 55] = .error .panic ∧
    (compose PayWorld.E PayWorld.W PayWorld.kA (PayWorld.inv none (.amount 4)) [PayWorld.out .opretFirst 52]).toBool = true :=
  ⟨PayWorld.kA_reachable, by decide +kernel, by decide +kernel, by decide +kernel, by decide +kernel⟩

end Rgb.Props
