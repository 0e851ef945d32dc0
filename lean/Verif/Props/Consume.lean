import Verif.Lemmas.Consume
import Verif.Lemmas.Targets
import Verif.Props.Shown
import Verif.Spec.PaidWorld

/-! # C94: the fascia of a payment is accepted -/

namespace Rgb.Props
open Rgb Stock

section
variable {H : Commit} {I : Ids} {M : Mpc} {G : SchemaDoc → SchemaGlobals} {r : Resolver} {k : Stock} {es : List StockEvent} {f : Fascia}

/-- **C94**. Whatever happened to the stock: a fascia, which is coherent and doesn't contradict what the stock has, and for which the index has room, is accepted. -/
theorem C94_accepts (hH : H.Binding) (hk : k.Reachable H) (hp : StockEvent.Proper H (.fascia f r)) (hc : f.Coherent H r) (ha : k.Consistent H f)
    (hr : k.Holds H f) : ∃ k', consumeFascia H r f k = some (k', none) :=
  fascia_accepts hH (Stock.Reachable.hist hH hk).good hp hc ha hr

/-- **C94** (needed). No other fascia is accepted, except for the room. -/
theorem C94_needs (hH : H.Binding) (hk : k.Reachable H) (hp : StockEvent.Proper H (.fascia f r)) {k' : Stock} (h : consumeFascia H r f k = some (k', none)) :
    f.Coherent H r ∧ k.Consistent H f :=
  fascia_needs (Stock.Reachable.hist hH hk).good hp h

/-- **C94** (exactly). Where there is room, a fascia is accepted exactly if it is coherent and doesn't contradict what the stock has. -/
theorem C94_exact (hH : H.Binding) (hk : k.Reachable H) (hp : StockEvent.Proper H (.fascia f r)) (hr : k.Holds H f) :
    (∃ k', consumeFascia H r f k = some (k', none)) ↔ f.Coherent H r ∧ k.Consistent H f :=
  ⟨fun ⟨_, h⟩ => C94_needs hH hk hp h, fun ⟨h1, h2⟩ => C94_accepts hH hk hp h1 h2 hr⟩

/-- **C38**. Payments assign nothing to any seals but these: state of the invoiced type to the beneficiary and to the change, state of other types to those chosen for
the spent states. They have no global state. -/
theorem C38_targets {E : CEnv} {n : Nat} (hE : E.Lawful n) {W : Wallet} {inv : Inv.Invoice} {prevs : List OutSeal} {b : Batch}
    (h : compose E W k inv prevs = .ok b) {c ty : Nat} (hc : inv.contract = some c) (hty : k.invoiced E inv = some ty) {t : BuiltTransition}
    (ht : t ∈ b.payments) : t.op.globals = [] ∧ ∀ aty, ∀ e ∈ t.outs aty, ∃ sl, e.1 = some sl ∧
      ((aty = ty ∧ (sl = W.benSeal inv ∨ sl = W.changeSeal E k inv c ty)) ∨
        (aty ≠ ty ∧ ∃ a ∈ t.spends (k.stateAt c prevs), a.opout.ty = aty ∧ sl = W.movedSeal E k inv c a)) := by
  obtain ⟨C⟩ := compose_ok hE h
  obtain rfl : C.p.contract = c := Option.some.inj (C.prepared.contract.symm.trans hc)
  obtain rfl : C.p.ty = ty := Option.some.inj (C.prepared.ty.symm.trans hty)
  obtain ⟨-, h1, h2⟩ := payment_targets hE C ht
  refine ⟨h1, fun aty e he => ?_⟩
  obtain ⟨sl, g1, g2⟩ := h2 aty e he
  refine ⟨sl, g1, ?_⟩
  rcases g2 with g2 | ⟨g2, a, g3, g4, g5, g6⟩
  · exact .inl g2
  · exact .inr ⟨g2, a, List.mem_filter.2 ⟨g3, by simpa using g4⟩, g5, g6⟩

/-- **C40**. Blank transitions assign nothing to any seals but those chosen for the states which they spend. They have no global state. -/
theorem C40_targets {E : CEnv} {n : Nat} (hE : E.Lawful n) {W : Wallet} {inv : Inv.Invoice} {prevs : List OutSeal} {b : Batch}
    (h : compose E W k inv prevs = .ok b) {t : BuiltTransition} (ht : t ∈ b.blankTransitions) :
    t.op.globals = [] ∧ ∀ aty, ∀ e ∈ t.outs aty, ∃ a ∈ t.spends (k.stateAt t.op.contract prevs), a.opout.ty = aty ∧
      e.1 = some (W.movedSeal E k inv t.op.contract a) := by
  obtain ⟨C⟩ := compose_ok hE h
  obtain ⟨-, h1, h2⟩ := blank_targets hE C ht
  refine ⟨h1, fun aty e he => ?_⟩
  obtain ⟨sl, g1, a, g3, g4, g5, g6⟩ := h2 aty e he
  exact ⟨a, List.mem_filter.2 ⟨g3, by simpa using g4⟩, g5, by rw [g1, g6]⟩

theorem hasStateAt_of {c : Nat} {prevs : List OutSeal} {a : OutAssign} (ha : a ∈ k.stateAt c prevs) :
    k.HasStateAt c a.sl.outpoint ∧ a.sl.outpoint ∈ prevs.map OutSeal.outpoint := by
  simp only [Stock.stateAt] at ha
  split at ha
  swap; · cases ha
  rename_i v hv
  simp only [ContractView.at_, List.mem_filter, List.mem_append, decide_eq_true_eq] at ha
  obtain ⟨hm, hp⟩ := ha
  refine ⟨⟨v, hv, ?_⟩, hp⟩
  rcases hm with ((hm | hm) | hm) | hm
  · exact ⟨.fungible, a, (List.mem_filter.mp hm).1, rfl⟩
  · exact ⟨.structured, a, (List.mem_filter.mp hm).1, rfl⟩
  · exact ⟨.declarative, a, (List.mem_filter.mp hm).1, rfl⟩
  · exact ⟨.attachment, a, (List.mem_filter.mp hm).1, rfl⟩

theorem same_of_nodup {α β : Type} {g : α → β} {l : List α} (h : (l.map g).Nodup) {x y : α} (hx : x ∈ l) (hy : y ∈ l) (e : g x = g y) : x = y := by
  induction l with
  | nil => cases hx
  | cons z l ih =>
    rw [List.map_cons, List.nodup_cons] at h
    rcases List.mem_cons.1 hx with hx | hx <;> rcases List.mem_cons.1 hy with hy | hy
    · rw [hx, hy]
    · exact absurd (by rw [← hx, e]; exact List.mem_map_of_mem hy) h.1
    · exact absurd (by rw [← hy, ← e]; exact List.mem_map_of_mem hx) h.1
    · exact ih h.2 hx hy

theorem state_of_stateAt {c : Nat} {prevs : List OutSeal} {a : OutAssign} (ha : a ∈ k.stateAt c prevs) :
    ∃ cs, OMap.get? k.state.contracts c = some cs := by
  simp only [Stock.stateAt] at ha
  split at ha
  swap; · cases ha
  rename_i v hv
  unfold MemState.contractState at hv
  cases hg : OMap.get? k.state.contracts c with
  | none => rw [hg] at hv; cases hv
  | some cs => exact ⟨cs, rfl⟩

theorem mem_contractsAssigning {x : Index} {c : Nat} {os : List Outpoint} (h : c ∈ x.contractsAssigning os) : OMap.contains x.contracts c = true := by
  unfold Index.contractsAssigning at h
  obtain ⟨e, he, h⟩ := List.mem_flatMap.1 h
  obtain ⟨o, -, h⟩ := List.mem_filterMap.1 h
  split at h
  · cases h
    exact contains_of_mem he
  · cases h

/-- The transitions of a batch: some state is spent, there is no global state, and the visible seals are on outputs of the transaction to be made. -/
theorem batch_op {E : CEnv} {n : Nat} (hE : E.Lawful n) {W : Wallet} {inv : Inv.Invoice} {prevs : List OutSeal} {b : Batch}
    (h : compose E W k inv prevs = .ok b) {id : Nat} {t : BuiltTransition} (ht : t ∈ b.transitionsOf id) :
    (∃ a, a ∈ k.stateAt id prevs) ∧ t.op.globals = [] ∧ ∀ aty, ∀ e ∈ t.outs aty, ∀ s, e.1 = some (.revealed s) → s.txid = none ∧ s.chain = inv.layer := by
  obtain ⟨hm, hid⟩ := List.mem_filter.1 ht
  have hid : t.op.contract = id := by simpa using hid
  obtain ⟨C⟩ := compose_ok hE h
  rcases List.mem_append.1 hm with hm | hm
  · obtain ⟨h0, h1, h2⟩ := payment_targets hE C hm
    obtain ⟨g1, g2⟩ := C38_inputs hE h C.prepared.contract
    refine ⟨?_, h1, fun aty e he s hs => ?_⟩
    · obtain ⟨o, ho⟩ := List.exists_mem_of_ne_nil _ (g1 t hm).2.2.1
      obtain ⟨x, hx, -⟩ := (g2 o).1 ⟨t, hm, ho⟩
      rw [← hid, h0]
      exact ⟨x, hx⟩
    · obtain ⟨sl, e1, e2⟩ := h2 aty e he
      rw [hs] at e1
      have e1 := Option.some.inj e1
      subst e1
      rcases e2 with ⟨-, e2 | e2⟩ | ⟨-, a, -, -, -, e2⟩
      · unfold Wallet.benSeal at e2
        split at e2
        · cases e2
        · cases e2; exact ⟨rfl, rfl⟩
      · cases e2; exact ⟨rfl, rfl⟩
      · cases e2; exact ⟨rfl, rfl⟩
  · obtain ⟨h0, h1, h2⟩ := blank_targets hE C hm
    refine ⟨?_, h1, fun aty e he s hs => ?_⟩
    · obtain ⟨g1, -⟩ := C40_contracts hE h C.prepared.contract
      obtain ⟨o, ho⟩ := List.exists_mem_of_ne_nil _ (g1 t hm).2.2.1
      obtain ⟨-, x, hx, -⟩ := (C40_inputs hE h C.prepared.contract id o).1 ⟨t, hm, hid, ho⟩
      exact ⟨x, hx⟩
    · obtain ⟨sl, e1, a, -, -, -, e2⟩ := h2 aty e he
      rw [hs] at e1
      have e1 := Option.some.inj e1
      subst e1
      cases e2; exact ⟨rfl, rfl⟩

/-- **C94** (payments). A wallet, in the history of which no consignment was refused, composes any payment. The transitions get into bundles, with a transaction on the blockchain of the invoice;
none of them is known yet. Where there is room, the wallet accepts the fascia with them, if only the resolver knows the transaction. -/
theorem C94_payment {E : CEnv} {n : Nat} (hE : E.Lawful n) (hH : E.H.Binding) (hG : ∀ d, OMap.Sorted (G d).maxItems) (he : ∀ e ∈ es, e.Proper E.H)
    (hk : Accepting E.H I M G es .empty k) {W : Wallet} {inv : Inv.Invoice} {prevs : List OutSeal} {b : Batch} (h : compose E W k inv prevs = .ok b)
    (hp : StockEvent.Proper E.H (.fascia f r)) (hf : f.MadeOf E.H b) (hu : k.Unknown E.H f) (hr : k.Holds E.H f)
    (hch : f.witness.id.chain = inv.layer) (hres : (r f.witness.id).isSome = true) : ∃ k', consumeFascia E.H r f k = some (k', none) := by
  have hreach : k.Reachable E.H := ⟨I, M, G, es, hG, he, accepting_run es hk⟩
  refine C94_accepts hH hreach hp ⟨fun _ => hres, ?_, ?_, ?_⟩ ⟨?_, ?_, ?_, ?_⟩ hr
  · intro u hu a ha x hx
    obtain ⟨e, he', hu⟩ := List.mem_flatMap.1 hu
    obtain ⟨t, ht, rfl⟩ := (hf.batch e he').2 u hu
    obtain ⟨-, -, h3⟩ := batch_op hE h ht
    obtain ⟨y, hy, ha⟩ := List.mem_flatMap.1 ha
    have hs : OMap.Sorted t.op.assigns := ((hp e he').2 t.op hu).1.1
    have hout : (a.target, a.state?) ∈ t.outs y.1 := by
      unfold BuiltTransition.outs
      rw [hs.get?_of_mem hy]
      exact List.mem_map.2 ⟨a, ha, rfl⟩
    have htar : a.target = some (.revealed x) := by
      cases a <;> simp [Assign.seal?] at hx <;> simp [Assign.target, hx]
    obtain ⟨q1, q2⟩ := h3 y.1 _ hout x htar
    simp [Seal.toOutputWith, q1, q2, hch]
  · intro e he₁ e' he₂ hid
    rw [same_of_nodup hf.ids he₁ he₂ hid]
  · intro e he₁ e' he₂ o h1 h2
    rw [hf.once e he₁ e' he₂ o h1 h2]
  · intro e he'
    obtain ⟨hne, hb⟩ := hf.batch e he'
    obtain ⟨x, hx⟩ := List.exists_mem_of_ne_nil _ hne
    obtain ⟨t, ht, -⟩ := hb x.2 (List.mem_map.2 ⟨x, hx, rfl⟩)
    obtain ⟨⟨a, ha⟩, -, -⟩ := batch_op hE h ht
    obtain ⟨cs, hcs⟩ := state_of_stateAt ha
    refine ⟨cs, hcs, fun u hu g hg => ?_⟩
    obtain ⟨t', ht', rfl⟩ := hb u hu
    rw [(batch_op hE h ht').2.1] at hg
    cases hg
  · rintro e he' ⟨u, hu, -⟩
    obtain ⟨t, ht, -⟩ := (hf.batch e he').2 u hu
    obtain ⟨⟨a, ha⟩, -, -⟩ := batch_op hE h ht
    obtain ⟨g1, g2⟩ := hasStateAt_of ha
    exact mem_contractsAssigning (C78_listed_partial hH hG he hk g1 g2)
  · intro e he'
    refine ⟨fun c hc => ?_, fun o i ho hi => ?_⟩
    · rw [hu.bundles e he'] at hc; cases hc
    · rw [hu.ops e he' o ho] at hi; cases hi
  · intro sw hsw
    rw [hu.witness] at hsw
    cases hsw

end

/-! ### Examples -/

section
open PaidWorld

theorem exPaidAccepting : Accepting H World.I World.M World.G PayWorld.events .empty k := by
  have h : ((Stock.empty.consumeConsignment H World.I World.M World.G World.r (PayWorld.con PayWorld.g0)).bind (fun p =>
      (p.1.consumeConsignment H World.I World.M World.G World.r (PayWorld.con PayWorld.g1)).map
        (fun q => decide (p.2 = none ∧ q.2 = none)))) = some true := by decide +kernel
  obtain ⟨⟨k₁, o₁⟩, h1, h⟩ := Option.bind_eq_some_iff.mp h
  obtain ⟨⟨k₂, o₂⟩, h2, h⟩ := Option.map_eq_some_iff.mp h
  obtain ⟨rfl, rfl⟩ := of_decide_eq_true h
  have e1 : StockEvent.exec H World.I World.M World.G .empty (.consignment (PayWorld.con PayWorld.g0) World.r) = some k₁ := by
    simp [StockEvent.exec, h1]
  have e2 : StockEvent.exec H World.I World.M World.G k₁ (.consignment (PayWorld.con PayWorld.g1) World.r) = some k₂ := by
    simp [StockEvent.exec, h2]
  refine ⟨k₁, e1, fun _ _ _ => h1, k₂, e2, fun _ _ _ => h2, ?_⟩
  have hk : runStock H World.I World.M World.G PayWorld.events .empty = some k₂ := by
    simp [PayWorld.events, runStock, e1, e2]
  simp [k, hk, Accepting]

theorem sum_le {α : Type} {p q : α → Nat} {l : List α} (h : ∀ x ∈ l, p x ≤ q x) : (l.map p).sum ≤ (l.map q).sum := by
  induction l with
  | nil => exact Nat.le_refl _
  | cons x l ih =>
    rw [List.map_cons, List.map_cons, List.sum_cons, List.sum_cons]
    exact Nat.add_le_add (h x (by simp)) (ih (fun y hy => h y (by simp [hy])))

/-- There is room in a stock without bundles and terminals for any small fascia. -/
theorem exHolds {k : Stock} {f : Fascia} (h1 : k.index.bundleWitness = []) (h2 : k.index.terminals = []) (h3 : f.bundles.length ≤ 255)
    (h4 : (f.ops.map (fun t => t.assigned.length)).sum ≤ 255) : k.Holds H f := by
  constructor
  · intro b
    rw [h1]
    have : f.timesBundle H b ≤ f.bundles.length := List.length_filter_le _ _
    simp only [OMap.get?_nil, Option.getD_none, List.length_nil]
    omega
  · intro s
    rw [h2]
    have : f.hiddenTo H s ≤ (f.ops.map (fun t => t.assigned.length)).sum := sum_le (fun t _ => List.countP_le_length)
    simp only [OMap.get?_nil, Option.getD_none, List.length_nil]
    omega

theorem exPaidHolds : k.Holds H fascia := exHolds (by decide +kernel) (by decide +kernel) (by decide +kernel) (by decide +kernel)

theorem exPaidUnknown : k.Unknown H fascia where
  witness := by decide +kernel
  bundles := by decide +kernel
  ops := by
    have : k.index.opBundle = [] := by decide +kernel
    intro e _ o _
    rw [this]; rfl

/-- The fascia with both transitions of the payment of 12 is made of the batch, and it is accepted. -/
example : ∃ b, compose E PayWorld.W k inv PayWorld.prevs = .ok b ∧ fascia.MadeOf H b ∧ ∃ k', consumeFascia H World.r fascia k = some (k', none) := by
  obtain ⟨b, hb, hp⟩ := PayWorld.ok_any (y := compose E PayWorld.W k inv PayWorld.prevs) (P := fun b => b.payments.map (fun t => t.op) = [p0, p1]) (by decide +kernel)
  have hmade : fascia.MadeOf H b := by
    refine ⟨?_, by decide +kernel, ?_⟩
    · have h0 : ∀ u ∈ [p0, p1], ∃ t ∈ b.transitionsOf 0, t.op = u := by
        intro u hu
        rw [← hp] at hu
        obtain ⟨t, ht, rfl⟩ := List.mem_map.1 hu
        refine ⟨t, List.mem_filter.2 ⟨List.mem_append_left _ ht, ?_⟩, rfl⟩
        have : t.op ∈ [p0, p1] := by rw [← hp]; exact List.mem_map_of_mem (f := fun t : BuiltTransition => t.op) ht
        simp only [List.mem_cons, List.not_mem_nil, or_false] at this
        rcases this with h | h <;> rw [h] <;> rfl
      intro e he
      simp only [fascia, List.mem_cons, List.not_mem_nil, or_false] at he
      rcases he with rfl | rfl
      · refine ⟨by simp [b0], fun u hu => h0 u ?_⟩
        simp only [b0, OMap.vals, List.map_cons, List.map_nil, List.mem_singleton] at hu
        simp [hu]
      · refine ⟨by simp [b1], fun u hu => h0 u ?_⟩
        simp only [b1, OMap.vals, List.map_cons, List.map_nil, List.mem_singleton] at hu
        simp [hu]
    · intro e he e' he' o h1 h2
      simp only [fascia, List.mem_cons, List.not_mem_nil, or_false] at he he'
      rcases he with rfl | rfl <;> rcases he' with rfl | rfl
      · rfl
      · simp only [b0, b1, OMap.contains, OMap.get?_cons, OMap.get?_nil] at h1 h2
        split at h1 <;> split at h2 <;> simp_all
      · simp only [b0, b1, OMap.contains, OMap.get?_cons, OMap.get?_nil] at h1 h2
        split at h1 <;> split at h2 <;> simp_all
      · rfl
  exact ⟨b, hb, hmade, C94_payment (E := E) E_lawful H_binding World.G_sorted events_proper exPaidAccepting hb fascia_sound.proper hmade exPaidUnknown
    exPaidHolds rfl (by decide +kernel)⟩

/-- The payment of 12 assigns state of three types, and the blank transitions of another contract of two. -/
example : ∃ b, compose E PayWorld.W k inv PayWorld.prevs = .ok b ∧ b.payments.map (fun t => [4000, 4001, 4002, 4003, 4004].map (fun aty => (t.outs aty).length)) = [[1, 1, 1, 0, 0], [2, 0, 1, 0, 0]] ∧
    b.blankTransitions.map (fun t => [4000, 4001, 4002, 4003, 4004].map (fun aty => (t.outs aty).length)) = [[1, 0, 0, 0, 0], [1, 1, 0, 0, 0]] :=
  PayWorld.ok_any (by decide +kernel)

/-- And that the fascia is coherent and doesn't contradict what the stock has: both follow from its acceptance. -/
example : fascia.Coherent H World.r ∧ k.Consistent H fascia := by
  have h : (consumeFascia H World.r fascia k).map (fun x => decide (x.2 = none)) = some true := by decide +kernel
  obtain ⟨⟨k', o⟩, h1, h2⟩ := Option.map_eq_some_iff.1 h
  obtain rfl := of_decide_eq_true h2
  exact C94_needs H_binding ⟨_, _, _, _, World.G_sorted, events_proper, k_run⟩ fascia_sound.proper h1

/-- The same fascia for a contract which isn't known isn't accepted. -/
example : ¬ ∃ k', consumeFascia H World.r { fascia with bundles := [(5, b0)] } k = some (k', none) := by
  intro h
  have hp : StockEvent.Proper H (.fascia { fascia with bundles := [(5, b0)] } World.r) := by
    intro e he
    rw [List.mem_singleton.1 he]
    exact ⟨b0_check.wf, b0_check.proper⟩
  obtain ⟨-, h2⟩ := (C94_exact H_binding ⟨_, _, _, _, World.G_sorted, events_proper, k_run⟩ hp
    (exHolds (by decide +kernel) (by decide +kernel) (by decide +kernel) (by decide +kernel))).1 h
  obtain ⟨cs, hcs, -⟩ := h2.state (5, b0) (by simp)
  have : OMap.get? k.state.contracts 5 = none := by decide +kernel
  rw [this] at hcs
  cases hcs

end

end Rgb.Props
