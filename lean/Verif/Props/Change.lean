import Verif.Lemmas.Change
import Verif.Props.Payment
import Verif.Spec.VoutWorld

/-! # C91: what is paid to outputs of the new transaction -/

namespace Rgb.Props
open Rgb

section
variable {H : Commit} {I : Ids} {M : Mpc} {G : SchemaDoc → SchemaGlobals} {S : Stock.Env} {r r' : Resolver} {con : Consignment} {k k' k'' : Stock}
  {e : StockEvent} {later : List StockEvent}

/-- **C91** (state). A consignment or a fascia is consumed by a stock with any history without an error, and then anything happens to the stock. Each assignment which a transition
in it makes, visible, to an output of its witness transaction is in the contract's state, with this witness, and it's in the visible state if and only if the witness is valid. -/
theorem C91_state (hH : H.Binding) (hM : M.Lawful) (hG : ∀ d, OMap.Sorted (G d).maxItems) (hr : k.Reachable H) (he : e.Sound H)
    (hd : e.Done H I M G k k') (hl : ∀ x ∈ later, x.Proper H) (hk : runStock H I M G later k' = some k'') {c : Nat} {b : Bundle} {w : WitnessId}
    (hb : e.Brings H c b w) {o : Nat} {t : Op} (ho : OMap.get? b.known o = some t) {kind : StateKind} {a : OutAssign} (hm : t.MakesHere H w kind a) :
    ∃ v, k''.state.contractState c = .ok v ∧ a ∈ OMap.vals (v.unfiltered.kindSet kind) ∧
      (a ∈ v.all kind ↔ k''.state.isValidWitness w = .ok true) := by
  obtain ⟨v, h1, a', h2, h3, h4, -⟩ := C64_state_partial hH hM hG hr he hd hl hk (.inl ⟨b, w, o, t, hb, ho, hm.1⟩)
  have hist := (has_later hH hM hG hr he hd hl hk).2
  have hy := entry_of_view hist h1 h2
  obtain ⟨op, hop⟩ := entry_makes hist hy
  have ee := makes_witness hH hm hop h3.symm h4.symm
  subst ee
  obtain ⟨es, g3, g4⟩ := hist.state
  have hinv : StInv k''.state := runSt_inv g3 stInv_empty g4
  refine ⟨v, h1, h2, ?_⟩
  rw [mem_all_iff hinv h1]
  have hw : a.witness = some w := hm.1.2.1
  simp only [hw, MemState.Valid, MemState.isValidWitness]
  constructor
  · rintro ⟨-, ord, q1, q2⟩
    rw [q1]
    cases ord <;> simp_all [WitnessOrd.isValid]
  · intro hv
    refine ⟨⟨_, hy⟩, ?_⟩
    split at hv
    · cases hv
    · rename_i ord q1
      refine ⟨ord, q1, ?_⟩
      rintro rfl
      cases hv

/-- **C91** (state, right after). It's visible right after it was consumed, unless the resolver said that the witness is archived. -/
theorem C91_state_now (hH : H.Binding) (hM : M.Lawful) (hG : ∀ d, OMap.Sorted (G d).maxItems) (hr : k.Reachable H) (he : e.Sound H)
    (hd : e.Done H I M G k k') {c : Nat} {b : Bundle} {w : WitnessId}
    (hb : e.Brings H c b w) {o : Nat} {t : Op} (ho : OMap.get? b.known o = some t) {kind : StateKind} {a : OutAssign} (hm : t.MakesHere H w kind a)
    (hn : ∀ r, e.resolver? = some r → r w ≠ some .archived) :
    ∃ v, k'.state.contractState c = .ok v ∧ a ∈ v.all kind ∧ a.state ∈ v.byOutpoint kind a.sl.outpoint a.opout.ty := by
  obtain ⟨v, h1, -, h3⟩ := C91_state hH hM hG hr he hd (later := []) (by simp) rfl hb ho hm
  obtain ⟨r, ord, g1, g2, -, g4⟩ := C64_order hH hG hr he hd hb
  have hv := h3.mpr (by
    rw [g4]
    cases ord <;> first | rfl | exact absurd g2 (hn r g1))
  refine ⟨v, h1, hv, ?_⟩
  obtain ⟨m1, m2⟩ := List.mem_filter.mp hv
  exact List.mem_map.mpr ⟨_, List.mem_filter.mpr ⟨List.mem_filter.mpr ⟨m1, by simp⟩, m2⟩, rfl⟩

theorem composed_contract {E : CEnv} {n : Nat} (hE : E.Lawful n) {W : Wallet} {inv : Inv.Invoice} {prevs : List OutSeal} {b : Batch}
    (h : Stock.compose E W k inv prevs = .ok b) {c : Nat} (hc : inv.contract = some c) : ∃ view, k.state.contractState c = .ok view := by
  obtain ⟨C⟩ := Stock.compose_ok hE h
  have hpc : c = C.p.contract := Option.some.inj (hc.symm.trans C.prepared.contract)
  have := C.own
  rw [← hpc] at this
  simp only [Stock.contractAssignmentsFor] at this
  cases hv : k.state.contractState c with
  | ok v => exact ⟨v, rfl⟩
  | error x => rw [hv] at this; cases this

theorem keeps_contract (hH : H.Binding) (hG : ∀ d, OMap.Sorted (G d).maxItems) (hr : k.Reachable H) (he : e.Proper H)
    (hd : e.exec H I M G k = some k') {c : Nat} (hc : ∃ view, k.state.contractState c = .ok view) : ∃ view, k'.state.contractState c = .ok view := by
  have hx := Stock.runStock_ext (I := I) (M := M) hH hG [e] (by simpa using he) (Stock.Reachable.hist hH hr) (k' := k') (by simp only [runStock, hd, Option.bind_some])
  obtain ⟨es, h1, h2⟩ := hx.state
  obtain ⟨v, hv⟩ := hc
  have h3 := ((runSt_contracts h1 h2).2.1 c (OMap.contains_iff.mpr ⟨_, contractState_get? hv⟩)).1
  obtain ⟨cs, h4⟩ := OMap.contains_iff.mp h3
  exact ⟨_, by simp only [MemState.contractState, h4]; rfl⟩

theorem payments_kinds {E : CEnv} {n : Nat} (hE : E.Lawful n) {W : Wallet} {inv : Inv.Invoice} {prevs : List OutSeal} {b : Batch}
    (h : Stock.compose E W k inv prevs = .ok b) :
    ∀ t ∈ b.payments, ∀ aty ta, OMap.get? t.op.assigns aty = some ta → ∀ a ∈ ta.items, ∃ st, a.state? = some st ∧ st.kind = ta.kind := by
  obtain ⟨C⟩ := Stock.compose_ok hE h
  intro t ht
  rw [C.payments] at ht
  have side : ∀ {l pays ts}, Stock.Side E W k C.p (inv.operation.map E.name) C.s l pays ts → t ∈ ts →
      ∀ aty ta, OMap.get? t.op.assigns aty = some ta → ∀ a ∈ ta.items, ∃ st, a.state? = some st ∧ st.kind = ta.kind := by
    intro l pays ts hs ht
    rcases hs with ⟨-, rfl⟩ | ⟨-, t', rfl, hb⟩
    · cases ht
    · cases List.mem_singleton.mp ht; exact hb.kinds
  rcases List.mem_append.mp ht with ht | ht
  · exact side C.main ht
  · exact side C.alt ht

theorem payments_ids {E : CEnv} {n : Nat} (hE : E.Lawful n) (hH : E.H.Binding) {W : Wallet} {inv : Inv.Invoice} {prevs : List OutSeal} {b : Batch}
    (h : Stock.compose E W k inv prevs = .ok b) {c : Nat} (hc : inv.contract = some c) (hn : ((k.stateAt c prevs).map (fun a => a.opout)).Nodup) :
    (b.payments.map (fun t => t.op.id E.H)).Nodup := by
  have h1 := (C38_once hE h hc hn).nodup_iff.mpr hn
  have h2 := (C38_inputs hE h hc).1
  rw [List.nodup_flatMap] at h1
  refine List.pairwise_map.mpr (List.Pairwise.imp_of_mem ?_ h1.2)
  intro t t' ht _ hdis hid
  obtain ⟨o, ho⟩ := List.exists_mem_of_ne_nil _ (h2 t ht).2.2.1
  have e := congrArg Op.inputs (hH.op_inj _ _ hid)
  simp only [Op.conceal] at e
  exact hdis ho (show o ∈ t'.op.inputs by rw [← e]; exact ho)

/-- **C91** (what the payer sees). A wallet with any history composes a payment of an amount; the transitions made for it get into a transaction which isn't archived, and the wallet consumes the fascia
with them. Let `s` be a seal on an output of the new transaction (as the wallet's seals for the change are). Then the wallet sees, at this output, the state assigned to it by these transitions: distinct assignments of the
invoiced type which together have exactly the amount that was assigned to `s`. -/
theorem C91_seen {E : CEnv} {n : Nat} (hE : E.Lawful n) (hH : E.H.Binding) (hM : M.Lawful) (hG : ∀ d, OMap.Sorted (G d).maxItems)
    (hr : k.Reachable E.H) {W : Wallet} {inv : Inv.Invoice} {prevs : List OutSeal} {b : Batch} (h : Stock.compose E W k inv prevs = .ok b)
    {c : Nat} (ty : Nat) (hc : inv.contract = some c) (hn : ((k.stateAt c prevs).map (fun a => a.opout)).Nodup)
    {f : Stock.Fascia} (hf : StockEvent.Sound E.H (.fascia f r)) (hcar : ∀ t ∈ b.payments, f.Carries E.H k c t.op)
    (hd : StockEvent.Done E.H I M G k k' (.fascia f r)) (hr' : r f.witness.id ≠ some .archived)
    {s : Seal} (hs : s.txid = none) {sl : OutSeal} (hsl : s.toOutputWith f.witness.id = some sl) :
    ∃ view, k'.state.contractState c = .ok view ∧ ∃ l : List OutAssign, (l.map (fun a => a.opout)).Nodup ∧
      (∀ a ∈ l, (a ∈ view.all .fungible ∧ a.sl = sl ∧ a.witness = some f.witness.id) ∧ a.opout.ty = ty ∧ ∃ t ∈ b.payments, t.op.id E.H = a.opout.op) ∧
      (l.map (fun a => a.state.amount)).sum = (b.payments.map (fun t => t.paidTo ty (.revealed s))).sum := by
  have hkinds := payments_kinds hE h
  have hview := keeps_contract hH hG hr hf.proper (done_exec hd) (composed_contract hE h hc)
  obtain ⟨view, hview⟩ := hview
  refine ⟨view, hview, gather _ (payments_ids hE hH h hc hn) ?_⟩
  intro t ht
  obtain ⟨q, q1, q2, q3⟩ := paid_here (hkinds t ht) ty s
  refine ⟨q, q1, ?_, q3⟩
  intro x hx
  obtain ⟨ta, p1, p2, p3⟩ := q2 x hx
  obtain ⟨bd, c1, c2, -⟩ := hcar t ht
  have hm : t.op.MakesHere E.H f.witness.id .fungible ⟨⟨t.op.id E.H, ty, x.1⟩, sl, x.2, some f.witness.id⟩ :=
    ⟨⟨rfl, rfl, ta, s, p1, p2, p3, hsl⟩, s, by simp [Op.sealAt?, Op.at?, p1, p3, Assign.seal?], hs⟩
  obtain ⟨v, v1, v2, -⟩ := C91_state_now hH hM hG hr hf hd (.fascia f r c bd c1) c2 hm (by
    intro r0 hr0
    cases hr0
    exact hr')
  rw [hview] at v1
  cases v1
  exact ⟨_, rfl, rfl, v2, rfl, rfl⟩

/-- **C91** (the payer). A wallet with any history composes a payment of an amount; the transitions made for it get into a transaction, on the blockchain of the invoice, which isn't archived, and the wallet consumes the fascia
with them. Then the wallet sees at the output for the change distinct assignments made by these transitions, of the invoiced type, which are exactly the rest of what it had of this type at the spent outputs. `hfit`, `hn`, `hne` are the conditions of C38. -/
theorem C91_change {E : CEnv} {n : Nat} (hE : E.Lawful n) (hH : E.H.Binding) (hM : M.Lawful) (hG : ∀ d, OMap.Sorted (G d).maxItems)
    (hr : k.Reachable E.H) {W : Wallet} {inv : Inv.Invoice} {prevs : List OutSeal} {b : Batch} (h : Stock.compose E W k inv prevs = .ok b)
    {c ty amt : Nat} (hc : inv.contract = some c) (hty : k.invoiced E inv = some ty) (hs : inv.ownedState = .amount amt)
    (hn : ((k.stateAt c prevs).map (fun a => a.opout)).Nodup) (hfit : E.B.debug = true ∨ sumOf ty (k.stateAt c prevs) < 18446744073709551616)
    (hne : W.benSeal inv ≠ W.changeSeal E k inv c ty)
    {f : Stock.Fascia} (hf : StockEvent.Sound E.H (.fascia f r)) (hcar : ∀ t ∈ b.payments, f.Carries E.H k c t.op)
    (hd : StockEvent.Done E.H I M G k k' (.fascia f r)) (hr' : r f.witness.id ≠ some .archived) (hch : inv.layer = f.witness.id.chain) :
    ∃ view vout, k'.state.contractState c = .ok view ∧ W.changeSeal E k inv c ty = .revealed ⟨inv.layer, W.method, none, vout, W.seals .change⟩ ∧
      ∃ l : List OutAssign, (l.map (fun a => a.opout)).Nodup ∧
      (∀ a ∈ l, (a ∈ view.all .fungible ∧ a.sl = ⟨inv.layer, W.method, f.witness.id.txid, vout⟩ ∧ a.witness = some f.witness.id) ∧ a.opout.ty = ty ∧
        ∃ t ∈ b.payments, t.op.id E.H = a.opout.op) ∧
      (l.map (fun a => a.state.amount)).sum = sumOf ty (k.stateAt c prevs) - amt := by
  obtain ⟨-, -, hchange, -⟩ := C38_conserved_partial hE h hc hty hs hn hfit hne
  obtain ⟨view, h1, h2⟩ := C91_seen hE hH hM hG hr h ty hc hn hf hcar hd hr'
    (s := ⟨inv.layer, W.method, none, (W.alloc .change c ty (E.velocity (k.stash.supplements (E.genesisRef c)).head? ty)).getD 0, W.seals .change⟩) rfl
    (sl := ⟨inv.layer, W.method, f.witness.id.txid, _⟩) (by simp [Seal.toOutputWith, hch]; rfl)
  rw [← hchange]
  exact ⟨view, _, h1, rfl, h2⟩

/-- **C91** (the payer sees the payment). The same for a payment to an output of the new transaction, with the invoiced amount. -/
theorem C91_given {E : CEnv} {n : Nat} (hE : E.Lawful n) (hH : E.H.Binding) (hM : M.Lawful) (hG : ∀ d, OMap.Sorted (G d).maxItems)
    (hr : k.Reachable E.H) {W : Wallet} {inv : Inv.Invoice} {prevs : List OutSeal} {b : Batch} (h : Stock.compose E W k inv prevs = .ok b)
    {c ty amt : Nat} (hc : inv.contract = some c) (hty : k.invoiced E inv = some ty) (hs : inv.ownedState = .amount amt)
    (hn : ((k.stateAt c prevs).map (fun a => a.opout)).Nodup) (hfit : E.B.debug = true ∨ sumOf ty (k.stateAt c prevs) < 18446744073709551616)
    (hne : W.benSeal inv ≠ W.changeSeal E k inv c ty) {s : Seal} (hb : W.benSeal inv = .revealed s)
    {f : Stock.Fascia} (hf : StockEvent.Sound E.H (.fascia f r)) (hcar : ∀ t ∈ b.payments, f.Carries E.H k c t.op)
    (hd : StockEvent.Done E.H I M G k k' (.fascia f r)) (hr' : r f.witness.id ≠ some .archived) (hch : inv.layer = f.witness.id.chain) :
    ∃ view sl, k'.state.contractState c = .ok view ∧ s.toOutputWith f.witness.id = some sl ∧ sl.txid = f.witness.id.txid ∧
      ∃ l : List OutAssign, (l.map (fun a => a.opout)).Nodup ∧
      (∀ a ∈ l, (a ∈ view.all .fungible ∧ a.sl = sl ∧ a.witness = some f.witness.id) ∧ a.opout.ty = ty ∧ ∃ t ∈ b.payments, t.op.id E.H = a.opout.op) ∧
      (l.map (fun a => a.state.amount)).sum = amt := by
  obtain ⟨-, hpaid, -, -⟩ := C38_conserved_partial hE h hc hty hs hn hfit hne
  have hs0 : s.txid = none ∧ s.chain = inv.layer := by
    simp only [Wallet.benSeal] at hb
    split at hb
    · cases hb
    · cases hb; exact ⟨rfl, rfl⟩
  have hsl : s.toOutputWith f.witness.id = some ⟨s.chain, s.method, f.witness.id.txid, s.vout⟩ := by
    simp [Seal.toOutputWith, hs0.1, hs0.2, hch]
  obtain ⟨view, h1, h2⟩ := C91_seen hE hH hM hG hr h ty hc hn hf hcar hd hr' hs0.1 hsl
  rw [← hpaid, hb]
  exact ⟨view, _, h1, hsl, rfl, h2⟩

/-- **C91** (sending). A wallet with any history consumes a fascia with a new bundle, a transition of which gives visible state to an output of the new transaction, and anything more is done. It makes a transfer of this output
(all assignments to which are of one closing method), which is accepted by any wallet, with any history. Then the transition is in it, in the bundle it's indexed with, and the state is visible there at this output of the witness transaction, unless the
witness is archived or on another blockchain. -/
theorem C91_sent (hH : H.Binding) (hM : M.Lawful) (hG : ∀ d, OMap.Sorted (G d).maxItems)
    {es : List StockEvent} (he : ∀ e ∈ es, StockEvent.Proper H e) (hes : runStock H I M G es .empty = some k) {f : Stock.Fascia}
    (hf : StockEvent.Sound H (.fascia f r)) (hd : StockEvent.Done H I M G k k' (.fascia f r)) {c : Nat} {t : Op} (hc : f.Carries H k c t)
    (hl : ∀ e ∈ later, e.Proper H) (hdl : AllDone H I M G later k' k'')
    {fuel : Nat} {outputs : List Outpoint} {secret : Option Nat} (htr : k''.transfer H I S fuel c outputs secret = some (.ok con))
    {kind : StateKind} {a : OutAssign} (hm : t.MakesHere H f.witness.id kind a) (hout : a.sl.outpoint ∈ outputs) (hone : k''.OneMethodAt c a.sl.outpoint)
    {k₁ k₂ : Stock} (hk₁ : k₁.Reachable H) (hacc : k₁.consumeConsignment H I M G r' con = some (k₂, none)) :
    ∃ wb ∈ con.data.bundles, (∃ i cb, k''.index.bundleIdForOp (t.id H) = .ok i ∧ Stock.Proves S k'' i cb wb ∧ OMap.contains cb.bundle.known (t.id H) = true) ∧
      (wb.id.chain = a.sl.chain → r' wb.id ≠ some .archived →
        ∃ view, k₂.state.contractState c = .ok view ∧ (⟨a.opout, ⟨a.sl.chain, a.sl.method, wb.id.txid, a.sl.vout⟩, a.state, some wb.id⟩ : OutAssign) ∈ view.all kind) := by
  have hk : k.Reachable H := ⟨I, M, G, es, hG, he, hes⟩
  have hrun : runStock H I M G (es ++ (.fascia f r :: later)) .empty = some k'' :=
    runStock_append es hes (by simp only [runStock, done_exec hd, Option.bind_some]; exact allDone_run _ hdl)
  have hpr : ∀ e ∈ es ++ (.fascia f r :: later), StockEvent.Proper H e := by
    intro e hm
    rcases List.mem_append.mp hm with hm | hm
    · exact he e hm
    · rcases List.mem_cons.mp hm with rfl | hm
      · exact hf.proper
      · exact hl e hm
  have hk'' : k''.Reachable H := ⟨I, M, G, _, hG, hpr, hrun⟩
  have kept := runStock_kept hH hG _ hpr kept_empty hrun
  have hsound := transfer_sound hH kept htr r'
  obtain ⟨g1, g2, -⟩ := consign_shape hH kept htr
  obtain ⟨view, hview⟩ := (C64_documents hH hM hG hk₁ hsound hacc (later := []) (by simp) rfl).2.2.1
  rw [g1] at hview
  obtain ⟨b', t', hkn, hsh⟩ := carried hH hM hG hk hf hd hc hl hdl
  obtain ⟨bd, c1, c2, -⟩ := hc
  have hne' : t.id H ≠ c := by
    intro hh
    have e1 : (con.data.genesis).id H = t.id H := by simp only [Op.contractId, g2] at g1; rw [hh]; exact g1
    have e2 := congrArg Op.kind (hH.op_inj _ _ e1)
    have e3 : t.kind = .transition := (hf.proper _ c1).2 _ (List.mem_map.mpr ⟨_, OMap.mem_of_get? c2, rfl⟩) |>.2
    simp only [Op.conceal, g2, e3] at e2
    cases e2
  obtain ⟨hmk, s₀, hs₀, hs1⟩ := hm
  obtain ⟨m1, m2, ta, s, p1, p2, p3, p4⟩ := id hmk
  have e0 : s₀ = s := by
    simp only [Op.sealAt?, Op.at?, p1, Option.bind_some, p3, Assign.seal?, Option.some.injEq] at hs₀
    exact hs₀.symm
  subst e0
  have hsl : a.sl = ⟨s₀.chain, s₀.method, f.witness.id.txid, s₀.vout⟩ := by
    simp only [Seal.toOutputWith, hs1] at p4
    split at p4
    · exact (Option.some.inj p4).symm
    · cases p4
  have ho : a.opout = ⟨t.id H, a.opout.ty, a.opout.no⟩ := by rw [← m1]
  have hset := allDone_outs _ hdl (fascia_outs hd c1 c2 rfl hmk)
  have inv₁ : IdxInv k''.index := by obtain ⟨ops, ho⟩ := kept.hist.index; exact ho ▸ run_inv _ ops _ idxInv_empty
  have hreq : Stock.Requested k'' c outputs secret ⟨t.id H, a.opout.ty, a.opout.no⟩ := by
    obtain ⟨l, hl'⟩ : ∃ l, k''.index.opoutsByOutputs c outputs = .ok l := by
      obtain ⟨ops, _, _, _, _, h1, -⟩ := Stock.consign_ok kept.hist.good (fun l => Stock.public_nil kept.hist.index c l) htr
      simp only [Stock.consignOps] at h1
      cases hh : k''.index.opoutsByOutputs c outputs with
      | ok l => exact ⟨l, rfl⟩
      | error x =>
        simp only [hh] at h1
        split at h1 <;> cases h1
    rw [← ho]
    exact .inl ⟨l, hl', outs_found inv₁ hl' hset hout hone⟩
  obtain ⟨-, -, hfull⟩ := C36_full_history_partial hH hk'' htr
  obtain ⟨b₂, t₂, wb, cb, n1, -, n3, n4, n5⟩ := hfull _ (.output hreq hne')
  have e1 : b₂ = b' := Option.some.inj (n1.1.symm.trans hkn.1)
  subst e1
  have e2 : t₂ = t' := by
    obtain ⟨-, bundle, m1, m2⟩ := hkn
    obtain ⟨-, bundle', m1', m2'⟩ := n1
    rw [m1] at m1'
    cases m1'
    exact Option.some.inj (m2'.symm.trans m2)
  subst e2
  refine ⟨wb, n3, ⟨_, cb, Stock.bundleIdForOp_ok.mpr n1.1, n5, OMap.contains_iff.mpr ⟨_, n4⟩⟩, fun w1 w2 => ?_⟩
  have hch : s₀.chain = wb.id.chain := by rw [w1, hsl]
  have hat : t₂.at? a.opout.ty a.opout.no = some (.revealed s₀ a.state) := shown_at hsh (by simp [Op.at?, p1, p3])
  have hm₀ : t.Makes H (some wb.id) kind ⟨a.opout, ⟨a.sl.chain, a.sl.method, wb.id.txid, a.sl.vout⟩, a.state, some wb.id⟩ :=
    ⟨m1, rfl, ta, s₀, p1, p2, p3, by simp [Seal.toOutputWith, hs1, hsl, hch]⟩
  have hm : t₂.MakesHere H wb.id kind ⟨a.opout, ⟨a.sl.chain, a.sl.method, wb.id.txid, a.sl.vout⟩, a.state, some wb.id⟩ :=
    ⟨Makes.shown hH hsh hm₀, s₀, by simp [Op.sealAt?, hat, Assign.seal?], hs1⟩
  obtain ⟨v, v1, v2, -⟩ := C91_state_now hH hM hG hk₁ hsound hacc
    (.consignment con r' wb cb.bundle n3 (List.mem_map.mpr ⟨cb, n5.listed, rfl⟩)) n4 hm (by
      intro r0 hr0
      cases hr0
      exact w2)
  rw [g1, hview] at v1
  cases v1
  exact ⟨view, hview, v2⟩

/-- **C91** (arrival). An invoice asks for an amount to be paid to an output of the payer's transaction. A wallet with any history composes the payment; the transitions made for it get into a transaction, the wallet consumes the fascia with
them, and does anything more. It makes a transfer of this output (all assignments to which are of one closing method), which is accepted by any wallet, with any history, and the witnesses aren't archived. Then the payee sees
distinct assignments made by the transitions, of the invoiced type, at the invoiced output of the witness transactions, of exactly the invoiced amount. `hfit`, `hn`, `hne` are the conditions of C38. -/
theorem C91_arrives {E : CEnv} {n : Nat} (hE : E.Lawful n) (hH : E.H.Binding) (hM : M.Lawful) (hG : ∀ d, OMap.Sorted (G d).maxItems)
    {es : List StockEvent} (he : ∀ e ∈ es, StockEvent.Proper E.H e) (hes : runStock E.H I M G es .empty = some k)
    {W : Wallet} {inv : Inv.Invoice} {prevs : List OutSeal} {b : Batch} (h : Stock.compose E W k inv prevs = .ok b)
    {c ty amt : Nat} (hc : inv.contract = some c) (hty : k.invoiced E inv = some ty) (hs : inv.ownedState = .amount amt)
    (hn : ((k.stateAt c prevs).map (fun a => a.opout)).Nodup) (hfit : E.B.debug = true ∨ sumOf ty (k.stateAt c prevs) < 18446744073709551616)
    (hne : W.benSeal inv ≠ W.changeSeal E k inv c ty) {s : Seal} (hb : W.benSeal inv = .revealed s)
    {f : Stock.Fascia} (hf : StockEvent.Sound E.H (.fascia f r)) (hcar : ∀ t ∈ b.payments, f.Carries E.H k c t.op)
    (hd : StockEvent.Done E.H I M G k k' (.fascia f r)) (hch : inv.layer = f.witness.id.chain)
    (hl : ∀ e ∈ later, e.Proper E.H) (hdl : AllDone E.H I M G later k' k'')
    {fuel : Nat} {outputs : List Outpoint} {secret : Option Nat} (htr : k''.transfer E.H I S fuel c outputs secret = some (.ok con))
    (hout : ⟨inv.layer, f.witness.id.txid, s.vout⟩ ∈ outputs) (hone : k''.OneMethodAt c ⟨inv.layer, f.witness.id.txid, s.vout⟩)
    {k₁ k₂ : Stock} (hk₁ : k₁.Reachable E.H) (hacc : k₁.consumeConsignment E.H I M G r' con = some (k₂, none))
    (hw : ∀ wb ∈ con.data.bundles, wb.id.chain = inv.layer ∧ r' wb.id ≠ some .archived) :
    ∃ view, k₂.state.contractState c = .ok view ∧ ∃ l : List OutAssign, (l.map (fun a => a.opout)).Nodup ∧
      (∀ a ∈ l, (a ∈ view.all .fungible ∧ ∃ w, a.witness = some w ∧ a.sl = ⟨inv.layer, s.method, w.txid, s.vout⟩) ∧ a.opout.ty = ty ∧
        ∃ t ∈ b.payments, t.op.id E.H = a.opout.op) ∧
      (l.map (fun a => a.state.amount)).sum = amt := by
  obtain ⟨-, hpaid, -, -⟩ := C38_conserved_partial hE h hc hty hs hn hfit hne
  have hs0 : s.txid = none ∧ s.chain = inv.layer := by
    simp only [Wallet.benSeal] at hb
    split at hb
    · cases hb
    · cases hb; exact ⟨rfl, rfl⟩
  have hk : k.Reachable E.H := ⟨I, M, G, es, hG, he, hes⟩
  have hrun : runStock E.H I M G (es ++ (.fascia f r :: later)) .empty = some k'' :=
    runStock_append es hes (by simp only [runStock, done_exec hd, Option.bind_some]; exact allDone_run _ hdl)
  have hpr : ∀ e ∈ es ++ (.fascia f r :: later), StockEvent.Proper E.H e := by
    intro e hm
    rcases List.mem_append.mp hm with hm | hm
    · exact he e hm
    · rcases List.mem_cons.mp hm with rfl | hm
      · exact hf.proper
      · exact hl e hm
  have kept := runStock_kept hH hG _ hpr kept_empty hrun
  have hsound := transfer_sound hH kept htr r'
  obtain ⟨g1, -⟩ := consign_shape hH kept htr
  obtain ⟨view, hview⟩ := (C64_documents hH hM hG hk₁ hsound hacc (later := []) (by simp) rfl).2.2.1
  rw [g1] at hview
  refine ⟨view, hview, ?_⟩
  rw [← hpaid, hb]
  refine gather _ (payments_ids hE hH h hc hn) ?_
  intro t ht
  obtain ⟨q, q1, q2, q3⟩ := paid_here (payments_kinds hE h t ht) ty s
  refine ⟨q, q1, ?_, q3⟩
  intro x hx
  obtain ⟨ta, p1, p2, p3⟩ := q2 x hx
  have hm : t.op.MakesHere E.H f.witness.id .fungible ⟨⟨t.op.id E.H, ty, x.1⟩, ⟨inv.layer, s.method, f.witness.id.txid, s.vout⟩, x.2, some f.witness.id⟩ :=
    ⟨⟨rfl, rfl, ta, s, p1, p2, p3, by simp [Seal.toOutputWith, hs0.1, hs0.2, hch]⟩, s, by simp [Op.sealAt?, Op.at?, p1, p3, Assign.seal?], hs0.1⟩
  obtain ⟨wb, n1, -, n2⟩ := C91_sent hH hM hG he hes hf hd (hcar t ht) hl hdl htr hm hout hone hk₁ hacc
  obtain ⟨v, v1, v2⟩ := n2 (hw wb n1).1 (hw wb n1).2
  rw [hview] at v1
  cases v1
  exact ⟨_, rfl, rfl, v2, wb.id, rfl, rfl⟩

end

/-! An invoice for 12, to be paid to an output of the new transaction: it's paid out of 10 and 7, by two transitions; the payer keeps 5, and the payee, who has nothing, gets 12. -/

section
open VoutWorld

theorem exVoutComposed : ∃ b, Stock.compose E W k inv PayWorld.prevs = .ok b ∧ b.payments.map (fun t => t.op) = [p0, p1] :=
  PayWorld.ok_any (by decide +kernel)

theorem exVoutDone : ∃ k', StockEvent.Done H World.I World.M World.G k k' (.fascia fascia World.r) ∧
    ((OMap.get? k'.index.contracts 0).map (fun ci => (OMap.keys ci.outs).filter (fun s => decide (s.outpoint = ⟨.bitcoin, 61, 0⟩))) = some [⟨.bitcoin, .opretFirst, 61, 0⟩] ∧
      (k'.state.contractState 0).map (fun v => (v.byOutpoint .fungible ⟨.bitcoin, 61, 0⟩ 4000, v.byOutpoint .fungible ⟨.bitcoin, 61, 1⟩ 4000)) =
        .ok ([.fungible 10 1 1000, .fungible 2 1 1000], [.fungible 5 1 1000])) ∧
    ∃ con, k'.transfer H World.I World.E 100 0 [⟨.bitcoin, 61, 0⟩] none = some (.ok con) ∧
      con.data.bundles.map WitnessBundle.id = [⟨.bitcoin, 61⟩] ∧
      ∃ k₂, Stock.empty.consumeConsignment H World.I World.M World.G World.r con = some (k₂, none) ∧
        (k₂.state.contractState 0).map (fun v => v.byOutpoint .fungible ⟨.bitcoin, 61, 0⟩ 4000) = .ok [.fungible 10 1 1000, .fungible 2 1 1000] := by
  have h : ((k.consumeFascia H World.r fascia).bind (fun x => if x.2 = none ∧
      ((OMap.get? x.1.index.contracts 0).map (fun ci => (OMap.keys ci.outs).filter (fun s => decide (s.outpoint = ⟨.bitcoin, 61, 0⟩))) = some [⟨.bitcoin, .opretFirst, 61, 0⟩] ∧
      (x.1.state.contractState 0).map (fun v => (v.byOutpoint .fungible ⟨.bitcoin, 61, 0⟩ 4000, v.byOutpoint .fungible ⟨.bitcoin, 61, 1⟩ 4000)) =
        .ok ([.fungible 10 1 1000, .fungible 2 1 1000], [.fungible 5 1 1000])) then
      (x.1.transfer H World.I World.E 100 0 [⟨.bitcoin, 61, 0⟩] none).bind (fun y => y.toOption.bind (fun con =>
        if con.data.bundles.map WitnessBundle.id = [⟨.bitcoin, 61⟩] then
        (Stock.empty.consumeConsignment H World.I World.M World.G World.r con).bind (fun z => if z.2 = none then
          some ((z.1.state.contractState 0).map (fun v => v.byOutpoint .fungible ⟨.bitcoin, 61, 0⟩ 4000)) else none) else none)) else none)) =
      some (.ok [.fungible 10 1 1000, .fungible 2 1 1000]) := by decide +kernel
  obtain ⟨⟨k', e⟩, h1, ha⟩ := Option.bind_eq_some_iff.mp h
  split at ha
  swap; · cases ha
  rename_i he
  obtain ⟨he, hidx⟩ := he
  simp only at he hidx
  subst he
  obtain ⟨y, h2, hb⟩ := Option.bind_eq_some_iff.mp ha
  obtain ⟨con, h3, hc⟩ := Option.bind_eq_some_iff.mp hb
  split at hc
  swap; · cases hc
  rename_i hcon
  obtain ⟨⟨k₂, e⟩, h4, hd⟩ := Option.bind_eq_some_iff.mp hc
  split at hd
  swap; · cases hd
  rename_i he
  simp only at he
  subst he
  cases y with
  | error _ => cases h3
  | ok con' =>
    simp only [Except.toOption, Option.some.injEq] at h3
    subst h3
    exact ⟨k', h1, hidx, _, h2, hcon, k₂, h4, Option.some.inj hd⟩

theorem exVoutCarried : ∀ t ∈ [p0, p1], fascia.Carries H k 0 t := by
  have hne : ¬ b0.id H = b1.id H := by decide +kernel
  intro t ht
  simp only [List.mem_cons, List.not_mem_nil, or_false] at ht
  rcases ht with rfl | rfl
  · refine ⟨b0, by simp [fascia], by decide +kernel, by decide +kernel, ?_⟩
    intro e he
    simp only [fascia, List.mem_cons, List.not_mem_nil, or_false] at he
    rcases he with rfl | rfl
    · intro _; rfl
    · intro h; exact absurd h.symm hne
  · refine ⟨b1, by simp [fascia], by decide +kernel, by decide +kernel, ?_⟩
    intro e he
    simp only [fascia, List.mem_cons, List.not_mem_nil, or_false] at he
    rcases he with rfl | rfl
    · intro h; exact absurd h hne
    · intro _; rfl

theorem exVoutOne {k' : Stock} (h : (OMap.get? k'.index.contracts 0).map (fun ci => (OMap.keys ci.outs).filter (fun s => decide (s.outpoint = ⟨.bitcoin, 61, 0⟩))) =
    some [⟨.bitcoin, .opretFirst, 61, 0⟩]) : k'.OneMethodAt 0 ⟨.bitcoin, 61, 0⟩ := by
  intro ci s s' hci hs hs' e e'
  rw [hci] at h
  have h' := Option.some.inj h
  simp only at h'
  have one : ∀ {s}, s ∈ OMap.keys ci.outs → s.outpoint = ⟨.bitcoin, 61, 0⟩ → s = ⟨.bitcoin, .opretFirst, 61, 0⟩ := by
    intro s hs e
    have : s ∈ (OMap.keys ci.outs).filter (fun s => decide (s.outpoint = ⟨.bitcoin, 61, 0⟩)) := List.mem_filter.mpr ⟨hs, by simp [e]⟩
    rw [h'] at this
    exact List.mem_singleton.mp this
  rw [one hs e, one hs' e']

example : ∃ (b : Batch) (k' : Stock) (view : ContractView), Stock.compose E W k inv PayWorld.prevs = .ok b ∧ StockEvent.Done H World.I World.M World.G k k' (.fascia fascia World.r) ∧
    k'.state.contractState 0 = .ok view ∧
    (∃ l : List OutAssign, (∀ a ∈ l, a ∈ view.all .fungible ∧ a.sl = ⟨.bitcoin, .opretFirst, 61, 1⟩) ∧ (l.map (fun a => a.state.amount)).sum = 5) ∧
    (∃ l : List OutAssign, (∀ a ∈ l, a ∈ view.all .fungible ∧ a.sl = ⟨.bitcoin, .opretFirst, 61, 0⟩) ∧ (l.map (fun a => a.state.amount)).sum = 12) := by
  obtain ⟨b, hb, hp⟩ := exVoutComposed
  obtain ⟨k', hd, -, con, -⟩ := exVoutDone
  have hne : W.benSeal inv ≠ W.changeSeal E k inv 0 4000 := by decide +kernel
  have hcar : ∀ t ∈ b.payments, fascia.Carries H k 0 t.op := fun t ht => exVoutCarried _ (by rw [← hp]; exact List.mem_map_of_mem ht)
  have hk : k.Reachable H := ⟨_, _, _, _, World.G_sorted, events_proper, k_run⟩
  obtain ⟨view, vout, h1, h2, l, -, h4, h5⟩ := C91_change (I := World.I) (M := World.M) (G := World.G) (r := World.r) (E := E) E_lawful H_binding
    exLaws.2.2.1 World.G_sorted hk hb (c := 0) (ty := 4000) (amt := 12) rfl (by decide +kernel) rfl (by decide +kernel) (.inl rfl) hne fascia_sound hcar hd
    (by decide +kernel) rfl
  obtain ⟨view', sl, g1, g2, -, l', -, g4, g5⟩ := C91_given (I := World.I) (M := World.M) (G := World.G) (r := World.r) (E := E) E_lawful H_binding
    exLaws.2.2.1 World.G_sorted hk hb (c := 0) (ty := 4000) (amt := 12) rfl (by decide +kernel) rfl (by decide +kernel) (.inl rfl) hne (s := sB) rfl fascia_sound hcar hd
    (by decide +kernel) rfl
  rw [h1] at g1
  cases g1
  have hv : vout = 1 := by cases h2; rfl
  subst hv
  have hsl : sl = ⟨.bitcoin, .opretFirst, 61, 0⟩ := Option.some.inj (g2.symm.trans rfl)
  subst hsl
  refine ⟨b, k', view, hb, hd, h1, ⟨l, fun a ha => ⟨(h4 a ha).1.1, (h4 a ha).1.2.1⟩, ?_⟩, ⟨l', fun a ha => ⟨(g4 a ha).1.1, (g4 a ha).1.2.1⟩, g5⟩⟩
  rw [h5]
  decide +kernel

example : ∃ (b : Batch) (k' : Stock) (con : Consignment) (k₂ : Stock) (view : ContractView),
    Stock.compose E W k inv PayWorld.prevs = .ok b ∧ StockEvent.Done H World.I World.M World.G k k' (.fascia fascia World.r) ∧
    k'.transfer H World.I World.E 100 0 [⟨.bitcoin, 61, 0⟩] none = some (.ok con) ∧
    Stock.empty.consumeConsignment H World.I World.M World.G World.r con = some (k₂, none) ∧
    k₂.state.contractState 0 = .ok view ∧ ∃ l : List OutAssign, (∀ a ∈ l, a ∈ view.all .fungible) ∧ (l.map (fun a => a.state.amount)).sum = 12 := by
  obtain ⟨b, hb, hp⟩ := exVoutComposed
  obtain ⟨k', hd, ⟨hidx, -⟩, con, htr, hw, k₂, hacc, -⟩ := exVoutDone
  have hne : W.benSeal inv ≠ W.changeSeal E k inv 0 4000 := by decide +kernel
  have hcar : ∀ t ∈ b.payments, fascia.Carries H k 0 t.op := fun t ht => exVoutCarried _ (by rw [← hp]; exact List.mem_map_of_mem ht)
  have hout : ∀ wb ∈ con.data.bundles, wb.id.chain = inv.layer ∧ World.r wb.id ≠ some .archived := by
    intro wb hwb
    have : wb.id ∈ con.data.bundles.map WitnessBundle.id := List.mem_map_of_mem hwb
    rw [hw] at this
    rw [List.mem_singleton.mp this]
    exact ⟨rfl, by decide +kernel⟩
  obtain ⟨view, h1, l, -, h3, h4⟩ := C91_arrives (S := World.E) (I := World.I) (M := World.M) (G := World.G) (r := World.r) (r' := World.r) (E := E) E_lawful H_binding
    exLaws.2.2.1 World.G_sorted events_proper k_run hb (c := 0) (ty := 4000) (amt := 12) rfl (by decide +kernel) rfl (by decide +kernel) (.inl rfl) hne (s := sB) rfl
    fascia_sound hcar hd rfl (later := []) (by simp) rfl (fuel := 100) (outputs := [⟨.bitcoin, 61, 0⟩]) (secret := none) htr (List.mem_singleton.mpr rfl) (exVoutOne hidx) (k₁ := Stock.empty)
    ⟨World.I, World.M, World.G, [], World.G_sorted, by simp, rfl⟩ hacc hout
  exact ⟨b, k', con, k₂, view, hb, hd, htr, hacc, h1, l, fun a ha => (h3 a ha).1.1, h4⟩

end
end Rgb.Props
