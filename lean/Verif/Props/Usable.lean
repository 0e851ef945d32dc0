import Verif.Lemmas.UsableHist
import Verif.Lemmas.GlobalsKept
import Verif.Spec.Agree
import Verif.Spec.StockWorld
import Verif.Props.Stock

/-! # C64: what was consumed can be used -/

namespace Rgb.Props
open Rgb

variable {H : Commit} {I : Ids} {M : Mpc} {G : SchemaDoc → SchemaGlobals} {e : StockEvent} {later : List StockEvent} {k k' k'' : Stock}

/-- What a finished event left is there after any later history. -/
theorem has_later (hH : H.Binding) (hM : M.Lawful) (hG : ∀ d, OMap.Sorted (G d).maxItems) (hr : k.Reachable H) (he : e.Sound H)
    (hd : e.Done H I M G k k') (hl : ∀ x ∈ later, x.Proper H) (hk : runStock H I M G later k' = some k'') :
    Stock.Has H I (e.facts H k) k'' ∧ Stock.Hist H k'' := by
  have hist := Stock.Reachable.hist hH hr
  have hist' := Stock.event_hist hH hG e he.proper hist (done_exec hd)
  exact ⟨(has_event hH hM hG he hist hd).ext (Stock.runStock_ext hH hG later hl hist' hk), Stock.runStock_hist hH hG later hl hist' hk⟩

/-- **C64** (bundles). A consignment or a fascia is consumed by a stock with any history without an error, and then anything happens to the stock. For each
bundle `b` of a contract `c`, with the witness `w`, which it had: each of its transitions is found by its id, to be in this bundle; the bundle is found to be
of the contract and to have the witness; the stash has a bundle with this id, and the witness with an anchor for the contract with the closing method of the bundle;
the state knows the order of the witness. -/
theorem C64_bundles (hH : H.Binding) (hM : M.Lawful) (hG : ∀ d, OMap.Sorted (G d).maxItems) (hr : k.Reachable H) (he : e.Sound H)
    (hd : e.Done H I M G k k') (hl : ∀ x ∈ later, x.Proper H) (hk : runStock H I M G later k' = some k'')
    {c : Nat} {b : Bundle} {w : WitnessId} (hb : e.Brings H c b w) :
    (∀ o, OMap.contains b.known o = true → k''.index.bundleIdForOp o = .ok (b.id H)) ∧
    (∃ ws, k''.index.bundleInfo (b.id H) = .ok (ws, c) ∧ w ∈ ws) ∧
    (∃ b', k''.stash.bundle (b.id H) = some b' ∧ b'.id H = b.id H) ∧
    (∃ sw, k''.stash.witness w = some sw ∧ sw.id = w ∧ sw.anchors.knows b.closeMethod c) ∧
    (∃ v, k''.state.isValidWitness w = .ok v) := by
  obtain ⟨h, hist⟩ := has_later hH hM hG hr he hd hl hk
  have hf : (e.facts H k).b c (b.id H) b.closeMethod w := ⟨b, hb, rfl, rfl⟩
  refine ⟨fun o ho => ?_, ?_, ?_, ?_, ?_⟩
  · exact Stock.bundleIdForOp_ok.mpr (h.idx.opC c _ _ ⟨b, w, hb, rfl, ho⟩)
  · obtain ⟨h1, h2⟩ := h.idx.bC _ _ _ _ hf
    simp only [mset] at h2
    cases hw : OMap.get? k''.index.bundleWitness (b.id H) with
    | none => simp [hw] at h2
    | some ws => exact ⟨ws, Stock.bundleInfo_ok.mpr ⟨hw, h1⟩, by simpa [hw] using h2⟩
  · obtain ⟨b', h1⟩ := h.stash.bundle _ _ _ _ hf
    exact ⟨b', h1, (hist.good.bundle _ _ h1).1⟩
  · obtain ⟨sw, h1, h2⟩ := h.stash.wit _ _ _ _ hf
    exact ⟨sw, h1, hist.good.witness _ _ h1, h2⟩
  · obtain ⟨ord, ho⟩ := OMap.contains_iff.mp (h.st.wit _ _ _ _ hf)
    exact ⟨ord.isValid, by simp [MemState.isValidWitness, ho]⟩

/-- **C64** (transitions; the part which holds). The transition itself, with everything which was revealed of it, can be read, if the stock had no bundle with
the same id lacking it, and the consignment hasn't, either.
Missing: the transitions of a bundle which the stock had without them, see `C64_transition_fails`. -/
theorem C64_transitions_partial (hH : H.Binding) (hM : M.Lawful) (hG : ∀ d, OMap.Sorted (G d).maxItems) (hr : k.Reachable H) (he : e.Sound H)
    (hd : e.Done H I M G k k') (hl : ∀ x ∈ later, x.Proper H) (hk : runStock H I M G later k' = some k'')
    {c : Nat} {b : Bundle} {w : WitnessId} (hb : e.Brings H c b w)
    (had : ∀ b', k.stash.bundle (b.id H) = some b' → ∀ o, OMap.contains b.known o = true → OMap.contains b'.known o = true)
    (hall : ∀ c' b' w', e.Brings H c' b' w' → b'.id H = b.id H → ∀ o, OMap.contains b.known o = true → OMap.contains b'.known o = true)
    {o : Nat} {t : Op} (ht : OMap.get? b.known o = some t) : ∃ t', k''.transition o = .ok t' ∧ t.ShownBy H t' := by
  obtain ⟨h, hist⟩ := has_later hH hM hG hr he hd hl hk
  obtain ⟨b', h1, h2⟩ := h.stash.shown b ⟨c, w, hb, hall, had⟩
  obtain ⟨t', h3, h4⟩ := h2.known o t ht
  have h5 := (C64_bundles hH hM hG hr he hd hl hk hb).1 o (OMap.contains_iff.mpr ⟨t, ht⟩)
  exact ⟨t', by simp [Stock.transition, h5, h1, h3], h4⟩

/-- **C64** (order of the witness). Right after the event the state has for each its witness the order which the resolver given with it answered. -/
theorem C64_order (hH : H.Binding) (hG : ∀ d, OMap.Sorted (G d).maxItems) (hr : k.Reachable H) (he : e.Sound H)
    (hd : e.Done H I M G k k') {c : Nat} {b : Bundle} {w : WitnessId} (hb : e.Brings H c b w) :
    ∃ r ord, e.resolver? = some r ∧ r w = some ord ∧ OMap.get? k'.state.witnesses w = some ord ∧ k'.state.isValidWitness w = .ok ord.isValid := by
  obtain ⟨r, ord, h1, h2, h3⟩ := order_event hH hG he (Stock.Reachable.hist hH hr) hd hb
  exact ⟨r, ord, h1, h2, h3, by simp [MemState.isValidWitness, h3]⟩

/-- **C64** (state; the part which holds). Each assignment with visible seal and state, of a transition or of the genesis, is in the contract's state of its kind.
Missing: that it's with this witness, and so visible if this witness is valid: see `C64_state_fails`. -/
theorem C64_state_partial (hH : H.Binding) (hM : M.Lawful) (hG : ∀ d, OMap.Sorted (G d).maxItems) (hr : k.Reachable H) (he : e.Sound H)
    (hd : e.Done H I M G k k') (hl : ∀ x ∈ later, x.Proper H) (hk : runStock H I M G later k' = some k'') {c : Nat} {kind : StateKind} {a : OutAssign}
    (ha : (∃ b w o t, e.Brings H c b w ∧ OMap.get? b.known o = some t ∧ t.Makes H (some w) kind a) ∨
      (∃ con r, e = .consignment con r ∧ con.data.genesis.contractId H = c ∧ con.data.genesis.Makes H none kind a)) :
    ∃ v, k''.state.contractState c = .ok v ∧ ∃ a' ∈ OMap.vals (v.unfiltered.kindSet kind), a'.opout = a.opout ∧ a'.sl = a.sl ∧ a'.state = a.state := by
  obtain ⟨h, hist⟩ := has_later hH hM hG hr he hd hl hk
  have hf : (e.facts H k).e c kind ⟨a.opout, a.sl⟩ := by
    rcases ha with ⟨b, w, o, t, h1, h2, h3⟩ | ⟨con, r, h1, h2, h3⟩
    · exact .inl ⟨b, w, o, t, a, h1, h2, (assignedAt_iff H _ _ _ _ _).mpr ⟨h3, rfl⟩⟩
    · exact .inr ⟨con, r, a, h1, h2.symm, (assignedAt_iff H _ _ _ _ _).mpr ⟨h3, rfl⟩⟩
  obtain ⟨y, hy⟩ := h.st.ent _ _ _ hf
  obtain ⟨cs, h1, h2⟩ := Option.bind_eq_some_iff.mp hy
  refine ⟨_, by simp only [MemState.contractState, h1]; rfl, y, List.mem_map.mpr ⟨_, OMap.mem_of_get? h2, rfl⟩, ?_⟩
  obtain ⟨es, h3, h4⟩ := hist.state
  have h5 := runSt_entry h3 h4 c kind ⟨a.opout, a.sl⟩
  rw [hy] at h5
  simp only [entry, OMap.get?, Option.bind_none, Option.none_or] at h5
  obtain ⟨call, -, h6⟩ := List.exists_of_findSome?_eq_some h5.symm
  split at h6
  swap; · cases h6
  obtain ⟨m, hm⟩ := (assignedAt_iff H _ _ _ _ _).mp h6
  have m' : ∃ (op : Op) (w : Option WitnessId), op.Makes H w kind a := by
    rcases ha with ⟨b, w, o, t, h1, h2, h3⟩ | ⟨con, r, h1, h2, h3⟩
    · exact ⟨_, _, h3⟩
    · exact ⟨_, _, h3⟩
  obtain ⟨op, w, m'⟩ := m'
  have e1 : y.opout = a.opout := (congrArg OutKey.opout hm).symm
  exact ⟨e1, (congrArg OutKey.sl hm).symm, makes_agree_state hH m m' e1⟩

/-- **C64** (global state). Each item of global state of the genesis or of a transition is listed, with the operation, its number in it and the present order of the witness, unless the list has as many items as the schema allows. -/
theorem C64_globals (hH : H.Binding) (hM : M.Lawful) (hG : ∀ d, OMap.Sorted (G d).maxItems) (hr : k.Reachable H) (he : e.Sound H)
    (hd : e.Done H I M G k k') (hl : ∀ x ∈ later, x.Proper H) (hk : runStock H I M G later k' = some k'') {c : Nat} {t : Op} {w : Option WitnessId}
    (ht : (∃ b w' o, w = some w' ∧ e.Brings H c b w' ∧ OMap.get? b.known o = some t) ∨
      (w = none ∧ ∃ con r, e = .consignment con r ∧ con.data.genesis.contractId H = c ∧ con.data.genesis = t))
    {ty i d : Nat} {vals : List Nat} (hv : OMap.get? t.globals ty = some vals) (hi : vals[i]? = some d) :
    ∃ v items, k''.state.contractState c = .ok v ∧ v.globalItems ty = some items ∧
      ((∃ o, (o, d) ∈ items ∧ o.opid? = w.map (fun _ => t.id H) ∧ o.no = i ∧ o.ord? = w.bind (OMap.get? k''.state.witnesses)) ∨
        (OMap.get? v.unfiltered.global ty).map GlobalState.limit = some items.length) := by
  obtain ⟨h, hist⟩ := has_later hH hM hG hr he hd hl hk
  have hist' := Stock.event_hist hH hG e he.proper (Stock.Reachable.hist hH hr) (done_exec hd)
  obtain ⟨es₁, r1, r2⟩ := (Stock.runStock_ext hH hG later hl hist' hk).state
  obtain ⟨ow, how, hwit, hy⟩ : ∃ ow : OpWitness, (w = none → ow = .genesis) ∧ (∀ w', w = some w' → ow = .transition w' t.ty ∧ OMap.contains k''.state.witnesses w' = true) ∧
      ∃ y, gentry k''.state c ty ⟨t.id H, t.nonce, i, ow⟩ = some y := by
    have hev := fun key => gentry_event (ty := ty) (key := key) hH hG he (Stock.Reachable.hist hH hr) hd (c := c)
    have hat : ∀ ow, ∃ d, globalAt (t.id H) t.nonce ow t.globals ty ⟨t.id H, t.nonce, i, ow⟩ = some d := by
      intro ow
      exact ⟨d, by simp [globalAt, gitemAt, hv, hi]⟩
    rcases ht with ⟨b, w', o, rfl, hb, ho⟩ | ⟨rfl, con, r, h1, h2, rfl⟩
    · refine ⟨.transition w' t.ty, fun hn => (nomatch hn), fun w₁ hw₁ => ?_, gentry_run r1 r2 ((hev _).1 b w' o t hb ho (hat _))⟩
      cases hw₁
      exact ⟨rfl, h.st.wit _ _ _ _ ⟨b, hb, rfl, rfl⟩⟩
    · exact ⟨.genesis, fun _ => rfl, fun w' hn => (nomatch hn), gentry_run r1 r2 ((hev _).2 con r h1 h2 (hat _))⟩
  obtain ⟨y, hy⟩ := hy
  obtain rfl : y = d := by
    obtain ⟨es, h3, h4⟩ := hist.state
    have h5 := runSt_gentry h3 h4 c ty ⟨t.id H, t.nonce, i, ow⟩
    rw [hy] at h5
    simp only [gentry, OMap.get?, Option.bind_none, Option.or_none] at h5
    obtain ⟨call, -, h6⟩ := List.exists_of_findSome?_eq_some h5.symm
    split at h6
    swap; · cases h6
    obtain ⟨g1, -, -, vals', g2, g3⟩ := globalAt_some h6
    have g4 : t.globals = call.op.globals := by
      have := Op.conceal_of_id hH g1
      exact (congrArg (fun o : Op => o.globals) this : (t.conceal H).globals = (call.op.conceal H).globals)
    rw [g4, g2] at hv
    cases hv
    rw [hi] at g3
    exact (Option.some.inj g3).symm
  obtain ⟨cs, h1, h2⟩ := Option.bind_eq_some_iff.mp hy
  have hvw : k''.state.contractState c = .ok ⟨k''.state.witnesses.filter (fun e => cs.mentions e.1), cs⟩ := by simp only [MemState.contractState, h1]
  simp only [gget] at h2
  cases hgs : OMap.get? cs.global ty with
  | none => rw [hgs] at h2; cases h2
  | some gs =>
    rw [hgs] at h2
    have hmem : ((⟨t.id H, t.nonce, i, ow⟩ : GlobalOut), y) ∈ gs.known := OMap.mem_of_get? h2
    have hitem := globalItem_eq hvw hgs _ _ hmem
    refine ⟨_, _, hvw, by simp only [ContractView.globalItems, hgs]; rfl, ?_⟩
    obtain ⟨o, ho, hop, hno⟩ : ∃ o, ContractView.globalItem ⟨k''.state.witnesses.filter (fun e => cs.mentions e.1), cs⟩ (⟨t.id H, t.nonce, i, ow⟩, y) = some (o, y) ∧
        o.opid? = w.map (fun _ => t.id H) ∧ o.no = i ∧ o.ord? = w.bind (OMap.get? k''.state.witnesses) := by
      cases w with
      | none =>
        rw [how rfl] at hitem ⊢
        exact ⟨_, hitem, rfl, rfl, rfl⟩
      | some w' =>
        obtain ⟨rfl, hw⟩ := hwit w' rfl
        obtain ⟨ord, hord⟩ := OMap.contains_iff.mp hw
        simp only [hord, Option.map_some] at hitem
        exact ⟨_, hitem, rfl, rfl, hord.symm⟩
    have hin : (o, y) ∈ (gs.known.reverse).filterMap (ContractView.globalItem ⟨k''.state.witnesses.filter (fun e => cs.mentions e.1), cs⟩) :=
      List.mem_filterMap.mpr ⟨_, List.mem_reverse.mpr hmem, ho⟩
    by_cases hlen : gs.limit ≤ ((gs.known.reverse).filterMap (ContractView.globalItem ⟨k''.state.witnesses.filter (fun e => cs.mentions e.1), cs⟩)).length
    · right
      simp only [hgs, Option.map_some, List.length_take, Nat.min_eq_left hlen]
    · left
      exact ⟨o, by beta_reduce; rw [List.take_of_length_le (by omega)]; exact hin, hop, hno⟩

/-- **C64** (documents). After a consignment was consumed without an error, and after anything which happens then, the stock has its genesis with everything
revealed, knows the contract, and has its schema, types, libraries and interfaces. -/
theorem C64_documents (hH : H.Binding) (hM : M.Lawful) (hG : ∀ d, OMap.Sorted (G d).maxItems) (hr : k.Reachable H) {con : Consignment} {r : Resolver}
    (he : StockEvent.Sound H (.consignment con r))
    (hd : StockEvent.Done H I M G k k' (.consignment con r)) (hl : ∀ x ∈ later, x.Proper H) (hk : runStock H I M G later k' = some k'') :
    (∃ g, k''.stash.genesis (con.data.genesis.contractId H) = some g ∧ con.data.genesis.ShownBy H g) ∧
    OMap.contains k''.index.contracts (con.data.genesis.contractId H) = true ∧
    (∃ v, k''.state.contractState (con.data.genesis.contractId H) = .ok v) ∧
    (∃ s, k''.stash.schema (I.schema con.schema) = some s) ∧ (∀ ty ∈ con.types, ty ∈ k''.stash.types) ∧
    (∀ l ∈ con.scripts, ∃ x, k''.stash.lib (I.lib l) = some x) ∧ (∀ d ∈ con.ifaces, ∃ x, k''.stash.ifaceById (I.iface d.1) = some x) := by
  obtain ⟨h, hist⟩ := has_later hH hM hG hr he hd hl hk
  have hf : (StockEvent.facts H k (.consignment con r)).d con.data.genesis con.schema con.types con.scripts := ⟨con, r, rfl, rfl, rfl, rfl, rfl⟩
  have hc : (StockEvent.facts H k (.consignment con r)).c (con.data.genesis.contractId H) := ⟨con, r, rfl, rfl⟩
  refine ⟨h.stash.gen _ _ _ _ hf, h.idx.conC _ hc, ?_, Option.isSome_iff_exists.mp (h.stash.schema _ _ _ _ hf), h.stash.types _ _ _ _ hf,
    fun l hl => Option.isSome_iff_exists.mp (h.stash.libs _ _ _ _ hf l hl), fun d hdd => ?_⟩
  · obtain ⟨cs, h1⟩ := OMap.contains_iff.mp (h.st.con _ hc)
    exact ⟨_, by simp only [MemState.contractState, h1]; rfl⟩
  · have hist₀ := Stock.Reachable.hist hH hr
    obtain ⟨con', h1, h2⟩ := consignment_done hd
    obtain ⟨-, -, -, d4⟩ := resolve_docs h1
    have hp := (Stock.resolve_proper hH _ _ _ r he.proper h1).1
    obtain ⟨-, -, -, -, -, -, -, -, h9, -⟩ := MemStash.consumeConsignment_ok hH I M k.stash k'.stash () hist₀.good con' hp.1 (body_stash h2)
    obtain ⟨x, hx⟩ := Option.isSome_iff_exists.mp (h9 d (d4 ▸ hdd))
    have hist' := Stock.event_hist hH hG _ he.proper hist₀ (done_exec hd)
    exact ⟨x, (Stock.runStock_ext hH hG later hl hist' hk).stash.iface _ _ hx⟩

/-! ## Transferring what was received -/

section
variable {E : Stock.Env} {es : List StockEvent} {c : Nat} {outputs : List Outpoint} {l : OSet Opout} {secret : Option Nat}

/-- **C64** (transfers). A stock got its contents by events of which nothing was missing, without errors; the contract came with its genesis, each of its bundles has
a valid witness, and its schema doesn't have more than 126 interfaces. Then making a transfer of outputs which the stock finds, without a secret seal, never ends with an error. -/
theorem C64_transferable (hH : H.Binding) (hM : M.Lawful) (hG : ∀ d, OMap.Sorted (G d).maxItems) (hI : Ids.Lawful H I) (hE : E.Lawful)
    (hc : Complete H I E es) (h : AllDone H I M G es .empty k) (himp : Imported H es c) (hv : AllValid H es k c) (hu : OneCommitted H es c)
    (hfew : k.FewIfaces I c) (hl : k.index.opoutsByOutputs c outputs = .ok l) (fuel : Nat) (x : StockErr) : k.transfer H I E fuel c outputs none ≠ some (.error x) :=
  (transfer_complete hH hM hG hI hE hc h himp hv hu hl (by simp) hfew fuel).1 (by simp) x

/-- **C64** (transfers, with a secret seal). The same with a secret seal, all outputs assigned to which are of the contract: the transfer doesn't fail if no two requested
outputs are of transitions of one bundle with assignments to the seal; otherwise it panics. -/
theorem C64_transferable_secret (hH : H.Binding) (hM : M.Lawful) (hG : ∀ d, OMap.Sorted (G d).maxItems) (hI : Ids.Lawful H I) (hE : E.Lawful)
    (hc : Complete H I E es) (h : AllDone H I M G es .empty k) (himp : Imported H es c) (hv : AllValid H es k c) (hu : OneCommitted H es c)
    (hfew : k.FewIfaces I c) (hl : k.index.opoutsByOutputs c outputs = .ok l) {s : Nat} (ht : ∀ o ∈ k.index.opoutsByTerminals [s], o.op = c ∨ Came H es c o.op) (fuel : Nat) :
    (Stock.OncePerBundle H k c outputs s → ∀ x, k.transfer H I E fuel c outputs (some s) ≠ some (.error x)) ∧
    (¬ Stock.OncePerBundle H k c outputs s → k.transfer H I E fuel c outputs (some s) = some (.error .panic)) := by
  obtain ⟨h1, h2⟩ := transfer_complete hH hM hG hI hE hc h himp hv hu hl (secret := some s) (by rintro _ ⟨⟩; exact ht) hfew fuel
  exact ⟨fun hn => h1 (by rintro _ ⟨⟩; exact hn), fun hn => h2 (fun h3 => hn (h3 s rfl))⟩

/-- **C64** (transfers are made). If no operation is its own ancestor, the transfer is made. -/
theorem C64_transferred (hH : H.Binding) (hM : M.Lawful) (hG : ∀ d, OMap.Sorted (G d).maxItems) (hI : Ids.Lawful H I) (hE : E.Lawful)
    (hc : Complete H I E es) (h : AllDone H I M G es .empty k) (himp : Imported H es c) (hv : AllValid H es k c) (hu : OneCommitted H es c)
    (hfew : k.FewIfaces I c) (hl : k.index.opoutsByOutputs c outputs = .ok l) (hs : ∀ s, secret = some s → Stock.OncePerBundle H k c outputs s ∧
      ∀ o ∈ k.index.opoutsByTerminals [s], o.op = c ∨ Came H es c o.op)
    (rank : Nat → Nat) (hrank : ∀ o b t (i : Opout), Stock.Knows k o b t → i ∈ t.inputs → i.op ≠ c → rank i.op < rank o) :
    ∃ fuel con, ∀ fuel', fuel ≤ fuel' → k.transfer H I E fuel' c outputs secret = some (.ok con) := by
  obtain ⟨fuel, r, hr⟩ := C36_terminates (H := H) (I := I) (E := E) rank hrank outputs secret
  have := (transfer_complete hH hM hG hI hE hc h himp hv hu hl (secret := secret) (fun s hs' => (hs s hs').2) hfew fuel).1 (fun s hs' => (hs s hs').1)
  cases r with
  | error x => exact absurd (hr fuel (Nat.le_refl _)) (this x)
  | ok con => exact ⟨fuel, con, hr⟩

end

/-! ## Examples -/

theorem fasciaOf_sound (txid : Nat) (b : Bundle) (hb : World.CheckB World.H b) (hn : b.known ≠ []) (hm : b.closeMethod = .opretFirst) (r : Resolver) :
    StockEvent.Sound World.H (.fascia (World.fasciaOf txid b) r) where
  proper := World.fasciaOf_proper txid b hb
  nonempty c b' w h := by
    cases h with
    | fascia _ _ _ _ h => simp only [World.fasciaOf, List.mem_singleton] at h; cases h; exact hn
  methods con r h := by cases h
  anchored f r h := by
    cases h
    intro c b' h
    simp only [World.fasciaOf, List.mem_singleton] at h
    cases h
    rw [hm]
    show (0 : Nat) ∈ OMap.keys _
    decide

theorem con_sound (r : Resolver) : StockEvent.Sound World.H (.consignment World.con r) where
  proper := World.con_proper
  nonempty c b w h := by
    cases h with
    | consignment _ _ wb _ hw hb =>
      simp only [World.con, World.conOf, List.mem_singleton] at hw
      subst hw
      simp only [World.wb, AnchoredBundles.bundles, AnchoredBundles.list, List.map_cons, List.map_nil, List.mem_singleton] at hb
      subst hb
      simp [World.b1]
  methods con r h := by
    cases h
    intro wb hw x hx
    simp only [World.con, World.conOf, List.mem_singleton] at hw
    subst hw
    simp only [World.wb, AnchoredBundles.list, List.mem_singleton] at hx
    subst hx
    rfl
  anchored f r h := by cases h

/-- A stock which got a consignment, and then a fascia. -/
example : ∃ k k' : Stock, k.Reachable World.H ∧ StockEvent.Sound World.H (.fascia World.fascia World.r) ∧
    StockEvent.Done World.H World.I World.M World.G k k' (.fascia World.fascia World.r) ∧
    StockEvent.Brings World.H (.fascia World.fascia World.r) 0 World.b2 ⟨.bitcoin, 62⟩ ∧ OMap.get? World.b2.known 6 = some World.t3 ∧
    k.stash.bundle (World.b2.id World.H) = none ∧
    World.t3.Makes World.H (some ⟨.bitcoin, 62⟩) .fungible ⟨⟨6, 1, 0⟩, ⟨.bitcoin, .opretFirst, 62, 1⟩, .fungible 6 0 0, some ⟨.bitcoin, 62⟩⟩ ∧
    k'.transition 6 = .ok World.t3 := by
  obtain ⟨k, hr, h1, h2⟩ := World.obtain [.consignment World.con World.r] (by simpa using World.con_proper)
    (fun k => k.stash.bundle (World.b2.id World.H) = none ∧ (k.consumeFascia World.H World.r World.fascia).any (fun p => decide (p.2 = none ∧
      p.1.transition 6 = .ok World.t3)) = true) (by decide +kernel)
  cases e1 : k.consumeFascia World.H World.r World.fascia with
  | none => rw [e1] at h2; cases h2
  | some p =>
    rw [e1] at h2
    obtain ⟨h3, h4⟩ := of_decide_eq_true h2
    obtain ⟨k', o⟩ := p
    cases h3
    exact ⟨k, k', hr, fasciaOf_sound _ _ World.b2_check (by decide) rfl _, e1, .fascia World.fascia World.r 0 World.b2 (.head _), rfl, h1,
      ⟨by decide +kernel, rfl, _, _, rfl, rfl, rfl, rfl⟩, h4⟩

/-- A new stock which got a consignment, whose genesis declares global state. -/
example : ∃ k' : Stock, StockEvent.Sound World.H (.consignment World.con World.r) ∧
    StockEvent.Done World.H World.I World.M World.G .empty k' (.consignment World.con World.r) ∧ World.con.data.genesis.contractId World.H = 0 ∧
    OMap.get? World.con.data.genesis.globals 5 = some [77] ∧
    (k'.state.contractState 0).toOption.bind (fun v => v.globalItems 5) = some [(.genesis 0, 77)] := by
  have h : (Stock.empty.consumeConsignment World.H World.I World.M World.G World.r World.con).any (fun p => decide (p.2 = none ∧
      (p.1.state.contractState 0).toOption.bind (fun v => v.globalItems 5) = some [(.genesis 0, 77)])) = true := by decide +kernel
  cases e1 : Stock.empty.consumeConsignment World.H World.I World.M World.G World.r World.con with
  | none => rw [e1] at h; cases h
  | some p =>
    rw [e1] at h
    obtain ⟨h3, h4⟩ := of_decide_eq_true h
    obtain ⟨k', o⟩ := p
    cases h3
    exact ⟨k', con_sound _, e1, by decide +kernel, rfl, h4⟩

/-! The events of the example world are complete, and their outputs are transferred. -/

theorem exBrings (e : StockEvent) (he : e ∈ World.events) (c : Nat) (b : Bundle) (w : WitnessId) (hb : e.Brings World.H c b w) :
    c = 0 ∧ ((b = World.b1 ∧ w = ⟨.bitcoin, 61⟩) ∨ (b = World.b2 ∧ w = ⟨.bitcoin, 62⟩)) := by
  simp only [World.events, List.mem_cons, List.not_mem_nil, or_false] at he
  rcases he with rfl | rfl
  · cases hb with
    | consignment _ _ wb _ hw hb =>
      simp only [World.con, World.conOf, List.mem_singleton] at hw
      subst hw
      simp only [World.wb, AnchoredBundles.bundles, AnchoredBundles.list, List.map_cons, List.map_nil, List.mem_singleton] at hb
      exact ⟨by decide +kernel, .inl ⟨hb, rfl⟩⟩
  · cases hb with
    | fascia _ _ _ _ hb =>
      simp only [World.fascia, World.fasciaOf, List.mem_singleton] at hb
      cases hb
      exact ⟨rfl, .inr ⟨rfl, rfl⟩⟩

theorem exBrings1 : ∃ e ∈ World.events, StockEvent.Brings World.H e 0 World.b1 ⟨.bitcoin, 61⟩ := by
  have h0 : World.con.data.genesis.contractId World.H = 0 := by decide +kernel
  refine ⟨_, .head _, h0 ▸ .consignment World.con World.r (World.wb (.tx ⟨61, 0⟩) World.b1) World.b1 (.head _) (.head _)⟩

theorem exBrings2 : ∃ e ∈ World.events, StockEvent.Brings World.H e 0 World.b2 ⟨.bitcoin, 62⟩ :=
  ⟨_, .tail _ (.head _), .fascia World.fascia World.r 0 World.b2 (.head _)⟩

theorem exComplete : Complete World.H World.I World.E World.events where
  sound e he := by
    simp only [World.events, List.mem_cons, List.not_mem_nil, or_false] at he
    rcases he with rfl | rfl
    · exact con_sound _
    · exact fasciaOf_sound _ _ World.b2_check (by decide) rfl _
  same e he e' he' c b w c' b' w' hb hb' hid o ho := by
    have hne : World.b1.id World.H ≠ World.b2.id World.H := by decide +kernel
    obtain ⟨-, ⟨rfl, -⟩ | ⟨rfl, -⟩⟩ := exBrings e he c b w hb <;> obtain ⟨-, ⟨rfl, -⟩ | ⟨rfl, -⟩⟩ := exBrings e' he' c' b' w' hb'
    · exact ho
    · exact absurd hid hne
    · exact absurd hid.symm hne
    · exact ho
  closed e he c b w o t hb ht i hi := by
    obtain ⟨rfl, ⟨rfl, -⟩ | ⟨rfl, -⟩⟩ := exBrings e he c b w hb
    · left
      have hm := OMap.mem_of_get? ht
      simp only [World.b1, List.mem_singleton] at hm
      cases hm
      simp only [World.t1, List.mem_singleton] at hi
      subst hi; rfl
    · right
      obtain ⟨e₁, he₁, hb₁⟩ := exBrings1
      refine ⟨e₁, he₁, _, _, hb₁, ?_⟩
      have hm := OMap.mem_of_get? ht
      simp only [World.b2, List.mem_cons, List.not_mem_nil, or_false] at hm
      rcases hm with hm | hm <;> cases hm
      · simp only [World.t2, List.mem_singleton] at hi; subst hi; decide
      · simp only [World.t3, List.mem_singleton] at hi; subst hi; decide
  noExtensions con r h := by
    simp only [World.events, List.mem_cons, StockEvent.consignment.injEq, reduceCtorEq, List.not_mem_nil, or_false] at h
    rw [h.1]; rfl
  schema con r h := by
    simp only [World.events, List.mem_cons, StockEvent.consignment.injEq, reduceCtorEq, List.not_mem_nil, or_false] at h
    rw [h.1]; rfl
  types con r h ty hty := by
    simp only [World.events, List.mem_cons, StockEvent.consignment.injEq, reduceCtorEq, List.not_mem_nil, or_false] at h
    rw [h.1] at hty ⊢
    simp only [World.E, List.mem_singleton] at hty
    rcases hty with rfl | ⟨-, -, rfl⟩ <;> decide
  libs con r h l hl := by
    simp only [World.events, List.mem_cons, StockEvent.consignment.injEq, reduceCtorEq, List.not_mem_nil, or_false] at h
    rw [h.1]
    simp only [World.E, List.mem_singleton] at hl
    subst hl; decide
  kitTypes x h := by simp [World.events] at h

theorem exAllDone : AllDone World.H World.I World.M World.G World.events .empty World.k := by
  have h : ((Stock.empty.consumeConsignment World.H World.I World.M World.G World.r World.con).bind (fun p =>
      (p.1.consumeFascia World.H World.r World.fascia).map (fun q => decide (p.2 = none ∧ q.2 = none)))) = some true := by decide +kernel
  obtain ⟨⟨k₁, o₁⟩, h1, h⟩ := Option.bind_eq_some_iff.mp h
  obtain ⟨⟨k₂, o₂⟩, h2, h⟩ := Option.map_eq_some_iff.mp h
  obtain ⟨rfl, rfl⟩ := of_decide_eq_true h
  refine ⟨k₁, h1, k₂, h2, ?_⟩
  have hk : runStock World.H World.I World.M World.G World.events .empty = some k₂ := by
    simp [World.events, runStock, StockEvent.exec, h1, h2]
  simp [World.k, hk, AllDone]

theorem exValid : AllValid World.H World.events World.k 0 := by
  have h1 : World.k.state.isValidWitness ⟨.bitcoin, 61⟩ = .ok true := by decide +kernel
  have h2 : World.k.state.isValidWitness ⟨.bitcoin, 62⟩ = .ok true := by decide +kernel
  intro e he b w hb
  obtain ⟨-, ⟨rfl, rfl⟩ | ⟨rfl, rfl⟩⟩ := exBrings e he 0 b w hb
  · exact ⟨e, he, _, _, hb, rfl, h1⟩
  · exact ⟨e, he, _, _, hb, rfl, h2⟩

theorem exOne : OneCommitted World.H World.events 0 := by
  intro e he e' he' b b' w hb hb' hm
  obtain ⟨-, ⟨rfl, rfl⟩ | ⟨rfl, rfl⟩⟩ := exBrings e he 0 b w hb <;> obtain ⟨-, ⟨rfl, hw⟩ | ⟨rfl, hw⟩⟩ := exBrings e' he' 0 b' _ hb'
  · rfl
  · cases hw
  · cases hw
  · rfl

theorem exLaws : Ids.Lawful World.H World.I ∧ World.E.Lawful ∧ World.M.Lawful ∧ Imported World.H World.events 0 ∧
    (∃ l, World.k.index.opoutsByOutputs 0 [⟨.bitcoin, 62, 1⟩] = .ok l ∧ l ≠ []) ∧
    Stock.OncePerBundle World.H World.k 0 [] 6 ∧ (∀ o ∈ World.k.index.opoutsByTerminals [6], o.op = 0 ∨ Came World.H World.events 0 o.op) ∧
    World.k.index.opoutsByTerminals [6] ≠ [] ∧ World.k.FewIfaces World.I 0 := by
  have ht : World.k.index.opoutsByTerminals [6] = [⟨4, 1, 0⟩] := by decide +kernel
  have h0 : World.k.index.opoutsByOutputs 0 [] = .ok [] := by decide +kernel
  have hr : ∀ o, Stock.Requested World.k 0 [] (some 6) o → o = ⟨4, 1, 0⟩ := by
    rintro o (⟨l, h1, h2⟩ | ⟨s, h1, h2⟩)
    · rw [h0] at h1; cases h1; cases h2
    · cases h1; rw [ht] at h2; simpa using h2
  have hkn : Stock.Knows World.k 4 2 World.t2 := by decide +kernel
  refine ⟨⟨?_, fun _ _ _ => rfl⟩, ?_, ⟨?_⟩, ⟨World.con, World.r, .head _, by decide +kernel⟩, ⟨[⟨6, 1, 0⟩], by decide +kernel, by decide⟩, ⟨?_, ?_⟩, ?_, by rw [ht]; decide, ?_⟩
  rotate_right
  · intro g si _ h2
    have h3 : (World.k.stash.schema 10).any (fun si => decide (si.iimpls.length ≤ 126)) = true := by decide +kernel
    have h4 : World.k.stash.schema 10 = some si := h2
    rw [h4] at h3
    exact of_decide_eq_true h3
  · rintro ⟨a⟩ ⟨b⟩ h; simp only [World.I, Nat.add_left_cancel_iff] at h; rw [h]
  · intro root known c h; simp [World.E, OMap.mem_keys_iff.mp h]
  · intro p c b q h; cases h; simp [OMap.keys]
  · intro o b t h1 _ h2
    rw [hr o h1] at h2
    obtain ⟨rfl, rfl⟩ := hkn.unique h2
    decide
  · intro o o' b t t' h1 h2 hne
    rw [hr o h1, hr o' h2] at hne
    exact absurd rfl hne
  · intro o ho
    rw [ht, List.mem_singleton] at ho
    subst ho
    obtain ⟨e, he, hb⟩ := exBrings2
    exact .inr ⟨e, he, _, _, hb, by decide⟩

/-- The bundle with `t2` only. -/
def exPart : Bundle := { World.b2 with known := [(4, World.t2)] }

theorem exPart_check : World.CheckB World.H exPart := by decide +kernel

/-- **C64** fails for transitions: the stock got a bundle without one of its transitions, and later (without an error) with all of them; the
transition which was missing can't be read, and its output can't be transferred. -/
theorem C64_transition_fails : ∃ k k' : Stock, k.Reachable World.H ∧ StockEvent.Sound World.H (.fascia World.fascia World.r) ∧
    StockEvent.Done World.H World.I World.M World.G k k' (.fascia World.fascia World.r) ∧
    StockEvent.Brings World.H (.fascia World.fascia World.r) 0 World.b2 ⟨.bitcoin, 62⟩ ∧ OMap.get? World.b2.known 6 = some World.t3 ∧
    k'.transition 6 = .error (.concealed 2 6) ∧
    (k'.state.contractState 0).map (fun v => v.byOutpoint .fungible ⟨.bitcoin, 62, 1⟩ 1) = .ok [.fungible 6 0 0] ∧
    k'.transfer World.H World.I World.E 100 0 [⟨.bitcoin, 62, 1⟩] none = some (.error (.concealed 2 6)) := by
  obtain ⟨k, hr, h2⟩ := World.obtain [.consignment World.con World.r, .fascia (World.fasciaOf 62 exPart) World.r] (by
      intro e he
      simp only [List.mem_cons, List.not_mem_nil, or_false] at he
      rcases he with rfl | rfl
      · exact World.con_proper
      · exact World.fasciaOf_proper _ _ exPart_check)
    (fun k => (k.consumeFascia World.H World.r World.fascia).any (fun p => decide (p.2 = none ∧
      p.1.transition 6 = .error (.concealed 2 6) ∧
      (p.1.state.contractState 0).map (fun v => v.byOutpoint .fungible ⟨.bitcoin, 62, 1⟩ 1) = .ok [.fungible 6 0 0] ∧
      p.1.transfer World.H World.I World.E 100 0 [⟨.bitcoin, 62, 1⟩] none = some (.error (.concealed 2 6)))) = true) (by decide +kernel)
  cases e1 : k.consumeFascia World.H World.r World.fascia with
  | none => rw [e1] at h2; cases h2
  | some p =>
    rw [e1] at h2
    obtain ⟨h3, h4, h5, h6⟩ := of_decide_eq_true h2
    obtain ⟨k', o⟩ := p
    cases h3
    exact ⟨k, k', hr, fasciaOf_sound _ _ World.b2_check (by decide) rfl _, e1, .fascia World.fascia World.r 0 World.b2 (.head _), rfl, h4, h5, h6⟩

/-- `t2` with the seal revealed. -/
def exOpen : Op := { World.t2 with assigns := [(1, ⟨.fungible, [.revealed World.sC (.fungible 4 0 0)]⟩)] }
def exOpenB : Bundle := { World.b2 with known := [(4, exOpen)] }

theorem exOpenB_check : World.CheckB World.H exOpenB := by decide +kernel

/-- **C64** fails for state: the witness of a bundle was replaced, and the stock gets (without an error) the bundle with the new witness, which is valid; the
assignment, to an output of another transaction, isn't in the visible state. -/
theorem C64_state_fails : ∃ k k' : Stock, k.Reachable World.H ∧ StockEvent.Sound World.H (.fascia (World.fasciaOf 63 exOpenB) World.r) ∧
    StockEvent.Done World.H World.I World.M World.G k k' (.fascia (World.fasciaOf 63 exOpenB) World.r) ∧
    StockEvent.Brings World.H (.fascia (World.fasciaOf 63 exOpenB) World.r) 0 exOpenB ⟨.bitcoin, 63⟩ ∧ OMap.get? exOpenB.known 4 = some exOpen ∧
    exOpen.Makes World.H (some ⟨.bitcoin, 63⟩) .fungible ⟨⟨4, 1, 0⟩, ⟨.bitcoin, .opretFirst, 70, 0⟩, .fungible 4 0 0, some ⟨.bitcoin, 63⟩⟩ ∧
    k'.state.isValidWitness ⟨.bitcoin, 63⟩ = .ok true ∧
    (k'.state.contractState 0).map (fun v => v.byOutpoint .fungible ⟨.bitcoin, 70, 0⟩ 1) = .ok [] := by
  obtain ⟨k, hr, h2⟩ := World.obtain [.consignment World.con World.r, .fascia (World.fasciaOf 62 exOpenB) World.r,
      .update (fun w => some (if w.txid = 62 then .archived else .tentative)) 1] (by
      intro e he
      simp only [List.mem_cons, List.not_mem_nil, or_false] at he
      rcases he with rfl | rfl | rfl
      · exact World.con_proper
      · exact World.fasciaOf_proper _ _ exOpenB_check
      · trivial)
    (fun k => (k.consumeFascia World.H World.r (World.fasciaOf 63 exOpenB)).any (fun p => decide (p.2 = none ∧
      p.1.state.isValidWitness ⟨.bitcoin, 63⟩ = .ok true ∧
      (p.1.state.contractState 0).map (fun v => v.byOutpoint .fungible ⟨.bitcoin, 70, 0⟩ 1) = .ok [])) = true) (by decide +kernel)
  cases e1 : k.consumeFascia World.H World.r (World.fasciaOf 63 exOpenB) with
  | none => rw [e1] at h2; cases h2
  | some p =>
    rw [e1] at h2
    obtain ⟨h3, h4, h5⟩ := of_decide_eq_true h2
    obtain ⟨k', o⟩ := p
    cases h3
    exact ⟨k, k', hr, fasciaOf_sound _ _ exOpenB_check (by decide) rfl _, e1, .fascia _ World.r 0 _ (.head _), rfl,
      ⟨by decide +kernel, rfl, _, _, rfl, rfl, rfl, rfl⟩, h4, h5⟩

end Rgb.Props
