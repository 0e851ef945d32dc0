import Verif.Lemmas.Agree
import Verif.Spec.Agree
import Verif.Spec.IssueWorld
import Verif.Props.Supply

/-! # C102: wallets of a network agree on the state -/

namespace Rgb.Props
open Rgb Stock

section
variable {E : CEnv} {n : Nat} {M : Mpc} {G : SchemaDoc → SchemaGlobals} {L : Ledger} {es es' : List StockEvent} {k k' : Stock}

/-- **C102** (allocations). If two wallets of a network (or one, at two times) have an allocation for the same output of an operation, whether they show it or not, then it's the same in all: kind,
state, seal and witness. Assumed: no bundle is committed to by two transactions. -/
theorem C102_allocations (hE : E.Lawful n) (hT : E.TagMaps) (hTC : E.TagsCommitted) (hH : E.H.Binding) (hM : M.Lawful) (hG : ∀ d, OMap.Sorted (G d).maxItems)
    (hI : Ids.Lawful E.H E.I) (hSR : E.S.Restores M) (hO : L.Once) (h : Honest E M G L es k) (h' : Honest E M G L es' k') {c : Nat} {v v' : ContractView}
    (hv : k.state.contractState c = .ok v) (hv' : k'.state.contractState c = .ok v') {kind kind' : StateKind} {a a' : OutAssign}
    (ha : a ∈ OMap.vals (v.unfiltered.kindSet kind)) (ha' : a' ∈ OMap.vals (v'.unfiltered.kindSet kind')) (ho : a.opout = a'.opout) : kind = kind' ∧ a = a' := by
  have hs := h.sane hE hT hTC hH hM hG hI
  have hs' := h'.sane hE hT hTC hH hM hG hI
  obtain ⟨t, w, h1, h2⟩ := C96_assignments hH hG (fun e he => (hs.furnished.sound e he).proper) (allDone_run _ hs.done) hv ha
  obtain ⟨t', w', h1', h2'⟩ := C96_assignments hH hG (fun e he => (hs'.furnished.sound e he).proper) (allDone_run _ hs'.done) hv' ha'
  have hid : t.id E.H = t'.id E.H := h2.1.symm.trans ((congrArg Opout.op ho).trans h2'.1)
  obtain rfl := one_witness hE hT hTC hH hM hG hI hSR hO h h' h1 h1' hid
  exact allots_unique hH hid h2 h2' ho

/-- **C102** (what was shown is there). Each allocation which an operation of the contract in a wallet's history makes, with visible seal and state, is in the wallet's contract state, with this witness; and it's
shown if and only if the wallet takes the witness for valid. -/
theorem C102_there (hE : E.Lawful n) (hT : E.TagMaps) (hTC : E.TagsCommitted) (hH : E.H.Binding) (hM : M.Lawful) (hG : ∀ d, OMap.Sorted (G d).maxItems)
    (hI : Ids.Lawful E.H E.I) (hSR : E.S.Restores M) (hO : L.Once) (h : Honest E M G L es k) {c : Nat} {t : Op} {w : Option WitnessId}
    (ht : Had E.H es c t w) {kind : StateKind} {a : OutAssign} (hm : t.Makes E.H w kind a) :
    ∃ v, k.state.contractState c = .ok v ∧ a ∈ OMap.vals (v.unfiltered.kindSet kind) ∧ (a ∈ v.all kind ↔ k.state.Valid w) := by
  have hs := h.sane hE hT hTC hH hM hG hI
  have hp : ∀ e ∈ es, e.Proper E.H := fun e he => (hs.furnished.sound e he).proper
  obtain ⟨e, he, hx⟩ : ∃ e ∈ es, (∃ b w o t, e.Brings E.H c b w ∧ OMap.get? b.known o = some t ∧ t.Makes E.H (some w) kind a) ∨
      (∃ con r, e = .consignment con r ∧ con.data.genesis.contractId E.H = c ∧ con.data.genesis.Makes E.H none kind a) := by
    cases ht with
    | genesis con r he => exact ⟨_, he, .inr ⟨con, r, rfl, rfl, hm⟩⟩
    | extension con r t wb he ht hw => rw [hs.furnished.noExtensions con r he] at ht; cases ht
    | transition e _ b w _ he hb htk =>
      obtain ⟨⟨i, y⟩, hi, hy⟩ := List.mem_map.1 htk
      obtain rfl : y = t := hy
      exact ⟨e, he, .inl ⟨b, w, i, y, hb, (brought_wf (hs.furnished.sound e he) hb).sorted.get?_of_mem hi, hm⟩⟩
  obtain ⟨pre, post, rfl⟩ := List.append_of_mem he
  obtain ⟨k₁, h1, k₂, h2, h3⟩ := allDone_split hs.done
  have hr : k₁.Reachable E.H := ⟨E.I, M, G, pre, hG, fun x hx => hp x (List.mem_append_left _ hx), allDone_run _ h1⟩
  obtain ⟨v, h4, a', h5, h6, -, -⟩ := C64_state_partial hH hM hG hr (hs.furnished.sound e he) h2
    (fun x hx => hp x (List.mem_append_right _ (List.mem_cons_of_mem _ hx))) (allDone_run _ h3) hx
  obtain ⟨t', w', g1, g2⟩ := C96_assignments hH hG hp (allDone_run _ hs.done) h4 h5
  have hid : t.id E.H = t'.id E.H := hm.1.symm.trans ((congrArg Opout.op h6.symm).trans g2.1)
  obtain rfl := one_witness hE hT hTC hH hM hG hI hSR hO h h ht g1 hid
  have hal : t.Allots E.H [] w kind a := by
    obtain ⟨m1, m2, ta, sl, m3, m4, m5, m6⟩ := hm
    exact ⟨m1, m2, ta, _, sl, m3, m4, m5, rfl, .inl rfl, m6⟩
  obtain ⟨-, rfl⟩ := allots_unique hH hid hal g2 h6.symm
  refine ⟨v, h4, h5, ?_⟩
  unfold ContractView.all
  rw [List.mem_filter, checkWitness_iff h4 h5, hm.2.1]
  exact ⟨fun x => x.2, fun x => ⟨h5, x⟩⟩

/-- **C102** (the same for all). What one wallet shows is shown, the same, by every wallet of the network which had the operation with visible seal and state there and takes the witness for valid. -/
theorem C102_same (hE : E.Lawful n) (hT : E.TagMaps) (hTC : E.TagsCommitted) (hH : E.H.Binding) (hM : M.Lawful) (hG : ∀ d, OMap.Sorted (G d).maxItems)
    (hI : Ids.Lawful E.H E.I) (hSR : E.S.Restores M) (hO : L.Once) (h : Honest E M G L es k) (h' : Honest E M G L es' k') {c : Nat} {v : ContractView}
    (hv : k.state.contractState c = .ok v) {kind : StateKind} {a : OutAssign} (ha : a ∈ v.all kind) {t : Op} {w : Option WitnessId} (ht : Had E.H es' c t w)
    (hid : t.id E.H = a.opout.op) {sl : Seal} {st : RState} (hseal : t.at? a.opout.ty a.opout.no = some (.revealed sl st)) (hval : k'.state.Valid w) :
    ∃ v', k'.state.contractState c = .ok v' ∧ a ∈ v'.all kind := by
  have hs := h.sane hE hT hTC hH hM hG hI
  have ha := (List.mem_filter.1 ha).1
  obtain ⟨t₁, w₁, h1, h2⟩ := C96_assignments hH hG (fun e he => (hs.furnished.sound e he).proper) (allDone_run _ hs.done) hv ha
  have hid' : t.id E.H = t₁.id E.H := hid.trans h2.1
  obtain rfl := one_witness hE hT hTC hH hM hG hI hSR hO h' h ht h1 hid'
  obtain ⟨g1, g2, ta, x, sl', g3, g4, g5, g6, g7, g8⟩ := h2
  have hm : t.Makes E.H w kind a := by
    have hc := Op.get_conceal (Op.conceal_assigns (Op.conceal_of_id hH hid')) a.opout.ty
    unfold Op.at? at hseal
    cases hta : OMap.get? t.assigns a.opout.ty with
    | none => rw [hta] at hseal; cases hseal
    | some tb =>
      rw [hta, Option.bind_some] at hseal
      rw [hta, g3, Option.map_some, Option.map_some, Option.some.injEq] at hc
      have hk := (typed_conceal_iff.mp hc).1
      have hx := congrArg (fun l => l[a.opout.no]?) (typed_conceal_iff.mp hc).2
      simp only [List.getElem?_map, hseal, g5, Option.map_some, Option.some.injEq] at hx
      have hst : st = a.state := Assign.state_agree hH hx rfl g6
      have hsl : sl = sl' := by
        refine hH.seal_inj _ _ ?_
        rcases g7 with g7 | ⟨g7, g9, -⟩
        · rw [Assign.seal_agree hH hx rfl g7]
        · rw [← g9]
          cases x <;> simp_all [Assign.conceal, Assign.secret]
      subst hst; subst hsl
      exact ⟨hid.symm, g2, tb, sl, hta, hk.trans g4, hseal, g8⟩
  obtain ⟨v', h3, -, h5⟩ := C102_there hE hT hTC hH hM hG hI hSR hO h' ht hm
  exact ⟨v', h3, h5.2 hval⟩

/-- **C102** (global state). Two wallets, with any histories at all, which show an item of global state of the same operation, type and number show the same value. -/
theorem C102_globals {H : Commit} {I I' : Ids} {M M' : Mpc} {G G' : SchemaDoc → SchemaGlobals} (hH : H.Binding) (hG : ∀ d, OMap.Sorted (G d).maxItems) (hG' : ∀ d, OMap.Sorted (G' d).maxItems)
    (he : ∀ e ∈ es, e.Proper H) (he' : ∀ e ∈ es', e.Proper H) (h : runStock H I M G es .empty = some k) (h' : runStock H I' M' G' es' .empty = some k')
    {c : Nat} {v v' : ContractView} (hv : k.state.contractState c = .ok v) (hv' : k'.state.contractState c = .ok v') {ty : Nat} {items items' : List (GlobalOrd × Nat)}
    (hi : v.globalItems ty = some items) (hi' : v'.globalItems ty = some items') {o o' : GlobalOrd} {d d' : Nat} (hd : (o, d) ∈ items) (hd' : (o', d') ∈ items')
    (hop : o.opid? = o'.opid?) (hno : o.no = o'.no) : d = d' := by
  have key : ∀ {I : Ids} {M : Mpc} {G : SchemaDoc → SchemaGlobals} {es : List StockEvent} {k : Stock} {v : ContractView} {items : List (GlobalOrd × Nat)} {o : GlobalOrd} {d : Nat},
      (∀ d, OMap.Sorted (G d).maxItems) → (∀ e ∈ es, e.Proper H) → runStock H I M G es .empty = some k → k.state.contractState c = .ok v → v.globalItems ty = some items →
      (o, d) ∈ items → ∃ (t : Op) (w : Option WitnessId) (key : GlobalOut), t.Declares H w ty key d ∧ key.index = o.no ∧ (o.opid? = some key.opid ∨ o.opid? = none ∧ key.opid = c) := by
    intro I M G es k v items o d hG he h hv hi hd
    simp only [ContractView.globalItems] at hi
    obtain ⟨gs, h1, rfl⟩ := Option.map_eq_some_iff.mp hi
    obtain ⟨⟨key, d'⟩, h2, h3⟩ := List.mem_filterMap.mp (List.mem_of_mem_take hd)
    obtain ⟨ses, h4, h5⟩ := (Stock.Reachable.hist hH ⟨I, M, G, es, hG, he, h⟩).state
    have hs := runSt_inv h4 stInv_empty h5
    have hsort := (hs.cs _ _ (contractState_get? hv)).glob.known _ _ h1
    have h6 : gentry k.state c ty key = some d' := by
      simp only [gentry, contractState_get? hv, Option.bind_some, gget, h1]
      exact hsort.get?_of_mem (List.mem_reverse.mp h2)
    obtain ⟨t, w, h7, h8⟩ := (source_run hH hG es (fun _ => id) he source_empty h).state.globals _ _ _ _ h6
    refine ⟨t, w, key, ?_⟩
    simp only [ContractView.globalItem] at h3
    cases e : key.opWitness with
    | genesis =>
      simp only [e] at h3
      cases h3
      refine ⟨h8, rfl, .inr ⟨rfl, ?_⟩⟩
      have hw : w = none := by rw [← h8.2.2.1, e]; rfl
      subst hw
      rw [h8.1]
      generalize hn : (none : Option WitnessId) = w at h7
      cases h7 with
      | genesis con r hm => rw [Op.contractId, (he _ hm).1.genesisKind]
      | extension _ _ _ _ _ _ _ => cases hn
      | transition _ _ _ _ _ _ _ _ => cases hn
    | transition w ty =>
      simp only [e] at h3
      obtain ⟨ord, -, e2⟩ := Option.map_eq_some_iff.mp h3
      cases e2
      exact ⟨h8, rfl, .inl rfl⟩
    | extension w ty =>
      simp only [e] at h3
      obtain ⟨ord, -, e2⟩ := Option.map_eq_some_iff.mp h3
      cases e2
      exact ⟨h8, rfl, .inl rfl⟩
  obtain ⟨t, w, x, h1, h2, h3⟩ := key hG he h hv hi hd
  obtain ⟨t', w', x', h1', h2', h3'⟩ := key hG' he' h' hv' hi' hd'
  refine declares_unique hH h1 h1' ?_ (h2.trans (hno.trans h2'.symm))
  rcases h3 with h3 | ⟨h3, h4⟩ <;> rcases h3' with h3' | ⟨h3', h4'⟩ <;> rw [hop, h3'] at h3
  · exact (Option.some.inj h3).symm
  · cases h3
  · cases h3
  · rw [h4, h4']

/-- **C27**, the actual order in full: items of global state are listed by decreasing id of their operation, the genesis having the id of the contract, and those of one operation
by decreasing number. Missing: the order by position, see `C27_most_recent_fails`. -/
theorem C27_listed_partial {H : Commit} {I : Ids} {M : Mpc} {G : SchemaDoc → SchemaGlobals} (hH : H.Binding) (hG : ∀ d, OMap.Sorted (G d).maxItems)
    (he : ∀ e ∈ es, e.Proper H) (h : runStock H I M G es .empty = some k) {c : Nat} {v : ContractView} (hv : k.state.contractState c = .ok v) {ty : Nat}
    {items : List (GlobalOrd × Nat)} (hi : v.globalItems ty = some items) :
    items.Pairwise (fun x y => y.1.opid?.getD c < x.1.opid?.getD c ∨ (y.1.opid?.getD c = x.1.opid?.getD c ∧ y.1.no ≤ x.1.no)) := by
  refine (items_ranked hH hG he h hv hi).imp ?_
  rintro ⟨x, d⟩ ⟨y, d'⟩ hxy
  simp only [GlobalOrd.rank, lexLt] at hxy
  grind

/-- **C102** (order of global state). Two wallets, with any histories at all, list items of global state which both list in the same order. -/
theorem C102_order {H : Commit} {I I' : Ids} {M M' : Mpc} {G G' : SchemaDoc → SchemaGlobals} (hH : H.Binding) (hG : ∀ d, OMap.Sorted (G d).maxItems) (hG' : ∀ d, OMap.Sorted (G' d).maxItems)
    (he : ∀ e ∈ es, e.Proper H) (he' : ∀ e ∈ es', e.Proper H) (h : runStock H I M G es .empty = some k) (h' : runStock H I' M' G' es' .empty = some k')
    {c : Nat} {v v' : ContractView} (hv : k.state.contractState c = .ok v) (hv' : k'.state.contractState c = .ok v') {ty : Nat} {items items' : List (GlobalOrd × Nat)}
    (hi : v.globalItems ty = some items) (hi' : v'.globalItems ty = some items') {i j i' j' : Nat} {x y x' y' : GlobalOrd × Nat}
    (hx : items[i]? = some x) (hy : items[j]? = some y) (hx' : items'[i']? = some x') (hy' : items'[j']? = some y')
    (hxx : x.1.opid? = x'.1.opid? ∧ x.1.no = x'.1.no) (hyy : y.1.opid? = y'.1.opid? ∧ y.1.no = y'.1.no)
    (hne : ¬ (x.1.opid? = y.1.opid? ∧ x.1.no = y.1.no)) (hij : i < j) : i' < j' := by
  have p := items_ranked hH hG he h hv hi
  have p' := items_ranked hH hG' he' h' hv' hi'
  have a := pairwise_at p hx hy hij
  refine Nat.lt_of_not_le fun hle => ?_
  rcases Nat.lt_or_eq_of_le hle with hlt | heq
  · have b := pairwise_at p' hy' hx' hlt
    have e := rank_eq a (by rw [rank_congr hyy, rank_congr hxx]; exact b)
    exact hne e
  · subst heq
    rw [hx'] at hy'
    cases hy'
    exact hne ⟨hxx.1.trans hyy.1.symm, hxx.2.trans hyy.2.symm⟩

end

/-! ### Examples -/

section
open PaidWorld

/-- The wallet of the payer before the payment, and after it: both have half of what was issued at output 2 of the genesis, and the genesis shows it. -/
example : ∃ k' v v' a, exLedger.Once ∧ Honest E World.M World.G exLedger PayWorld.events k ∧
    Honest E World.M World.G exLedger (PayWorld.events ++ [.fascia fascia World.r]) k' ∧ k.state.contractState 0 = .ok v ∧ k'.state.contractState 0 = .ok v' ∧
    a ∈ v.all .fungible ∧ a ∈ v'.all .fungible ∧ a.opout = ⟨0, 4000, 2⟩ ∧ a.state = .fungible PayWorld.half 3 1000 ∧
    Had H (PayWorld.events ++ [.fascia fascia World.r]) 0 PayWorld.g0 none ∧ PayWorld.g0.id H = a.opout.op ∧
    ∃ sl, PayWorld.g0.at? a.opout.ty a.opout.no = some (.revealed sl (.fungible PayWorld.half 3 1000)) := by
  obtain ⟨b, hb, hp⟩ := exComposed
  have hc : (k.state.contractState 0).toOption.bind (fun v => (k.consumeFascia H World.r fascia).bind (fun x => (x.1.state.contractState 0).toOption.bind (fun v' =>
      ((v.all .fungible).find? (fun a => decide (a.opout = ⟨0, 4000, 2⟩))).map (fun a => decide (x.2 = none ∧ a ∈ v'.all .fungible ∧ a.state = .fungible PayWorld.half 3 1000))))) =
      some true := by decide +kernel
  obtain ⟨v, h1, hc⟩ := Option.bind_eq_some_iff.mp hc
  obtain ⟨⟨k', o⟩, h2, hc⟩ := Option.bind_eq_some_iff.mp hc
  obtain ⟨v', h3, hc⟩ := Option.bind_eq_some_iff.mp hc
  obtain ⟨a, h4, hc⟩ := Option.map_eq_some_iff.mp hc
  obtain ⟨rfl, h5, h6⟩ := of_decide_eq_true hc
  have h7 : a.opout = ⟨0, 4000, 2⟩ := by simpa using List.find?_some h4
  have hid := ids.1
  simp only [List.map_cons, List.map_nil, List.cons.injEq, and_true] at hid
  refine ⟨k', v, v', a, exOnce, exHonest, .spent exHonest hb (exPacks hp).toMadeOf exPaidUnknown fascia_sound exOnLedger exAttested h2, ?_, ?_, List.mem_of_find?_eq_some h4, h5, h7, h6, ?_,
    by rw [h7]; exact hid.1, by rw [h7]; exact ⟨_, rfl⟩⟩
  · cases e : k.state.contractState 0 with
    | error _ => rw [e] at h1; cases h1
    | ok _ => rw [e] at h1; cases h1; rfl
  · cases e : k'.state.contractState 0 with
    | error _ => rw [e] at h3; cases h3
    | ok _ => rw [e] at h3; cases h3; rfl
  · have h : Op.contractId H PayWorld.g0 = 0 := hid.1
    rw [← h]
    exact .genesis (PayWorld.con PayWorld.g0) World.r (by simp [PayWorld.events])

end

/-- Two wallets, one of which got another contract before, list the two names of a contract in the same order. -/
example : ∃ es es' k k' v v' items items', es ≠ es' ∧ (∀ e ∈ es, StockEvent.Proper IssueWorld.H e) ∧ (∀ e ∈ es', StockEvent.Proper IssueWorld.H e) ∧
    runStock IssueWorld.H World.I World.M IssueWorld.G es .empty = some k ∧ runStock IssueWorld.H World.I World.M IssueWorld.G es' .empty = some k' ∧
    k.state.contractState 2 = .ok v ∧ k'.state.contractState 2 = .ok v' ∧ v.globalItems 2001 = some items ∧ v'.globalItems 2001 = some items' ∧
    items[0]? = some (.genesis 1, 2) ∧ items[1]? = some (.genesis 0, 1) ∧ items'[0]? = some (.genesis 1, 2) ∧ items'[1]? = some (.genesis 0, 1) := by
  have h1 : OMap.Sorted (IssueWorld.g.op IssueWorld.rest 10).assigns := by unfold OMap.Sorted; decide +kernel
  have h2 : OMap.Sorted (IssueWorld.g.op IssueWorld.rest 10).globals := by unfold OMap.Sorted; decide +kernel
  have p1 : StockEvent.Proper IssueWorld.H (.consignment (PayWorld.con (IssueWorld.g.op IssueWorld.rest 10)) World.r) := by
    refine ⟨⟨rfl, h1, ?_, ?_⟩, ?_, ⟨h1, h2⟩, ?_, ?_⟩ <;> intro x hx <;> cases hx
  have key : ∀ es : List StockEvent, (runStock IssueWorld.H World.I World.M IssueWorld.G es .empty).any (fun k => (k.state.contractState 2).toOption.any (fun v =>
      decide (v.globalItems 2001 = some [(.genesis 1, 2), (.genesis 0, 1)]))) = true →
      ∃ k v, runStock IssueWorld.H World.I World.M IssueWorld.G es .empty = some k ∧ k.state.contractState 2 = .ok v ∧
        v.globalItems 2001 = some [(.genesis 1, 2), (.genesis 0, 1)] := by
    intro es h
    cases e1 : runStock IssueWorld.H World.I World.M IssueWorld.G es .empty with
    | none => rw [e1] at h; cases h
    | some k =>
      rw [e1] at h
      simp only [Option.any_some] at h
      cases e2 : k.state.contractState 2 with
      | error e => rw [e2] at h; cases h
      | ok v => rw [e2] at h; exact ⟨k, v, rfl, e2, of_decide_eq_true h⟩
  obtain ⟨k, v, a1, a2, a3⟩ := key (IssueWorld.events ++ [.consignment (PayWorld.con (IssueWorld.g.op IssueWorld.rest 10)) World.r]) (by decide +kernel)
  obtain ⟨k', v', b1, b2, b3⟩ := key [.consignment (PayWorld.con (IssueWorld.g.op IssueWorld.rest 10)) World.r] (by decide +kernel)
  refine ⟨_, _, k, k', v, v', _, _, by simp [IssueWorld.events], ?_, ?_, a1, b1, a2, b2, a3, b3, rfl, rfl, rfl, rfl⟩
  · intro e he
    rcases List.mem_append.1 he with he | he
    · exact IssueWorld.events_proper e he
    · rw [List.mem_singleton.1 he]; exact p1
  · intro e he
    rw [List.mem_singleton.1 he]; exact p1

end Rgb.Props
