import Verif.Lemmas.Kept
import Verif.Props.Change
import Verif.Props.Shown
import Verif.Spec.TokenWorld

/-! # C92: what isn't paid is kept, and paid tokens arrive -/

namespace Rgb.Props
open Rgb

section
variable {H : Commit} {I : Ids} {M : Mpc} {G : SchemaDoc → SchemaGlobals} {S : Stock.Env} {r r' : Resolver} {con : Consignment} {k k' k'' : Stock}
  {es later : List StockEvent}

theorem blanks_kinds {E : CEnv} {n : Nat} (hE : E.Lawful n) {W : Wallet} {inv : Inv.Invoice} {prevs : List OutSeal} {b : Batch}
    (h : Stock.compose E W k inv prevs = .ok b) :
    ∀ t ∈ b.blankTransitions, ∀ aty ta, OMap.get? t.op.assigns aty = some ta → ∀ a ∈ ta.items, ∃ st, a.state? = some st ∧ st.kind = ta.kind := by
  obtain ⟨C⟩ := Stock.compose_ok hE h
  obtain ⟨B⟩ := C.toBlanks hE
  intro t ht
  obtain ⟨e, he, D, ht⟩ := blank_mem B ht
  obtain ⟨q, -, ts, hs, ht⟩ := blank_side D ht
  rcases hs with ⟨-, rfl⟩ | ⟨-, t', _, _, rfl, hb⟩
  · cases ht
  · cases List.mem_singleton.mp ht; exact hb.kinds

theorem transitionsOf_own {E : CEnv} {n : Nat} (hE : E.Lawful n) {W : Wallet} {inv : Inv.Invoice} {prevs : List OutSeal} {b : Batch}
    (h : Stock.compose E W k inv prevs = .ok b) {c : Nat} (hc : inv.contract = some c) : b.transitionsOf c = b.payments := by
  unfold Batch.transitionsOf
  rw [List.filter_append, List.filter_eq_self.mpr, List.filter_eq_nil_iff.mpr, List.append_nil]
  · intro t ht hh
    exact (((C40_contracts hE h hc).2 c).mp ⟨t, ht, of_decide_eq_true hh⟩).2 rfl
  · intro t ht
    simpa using ((C38_inputs hE h hc).1 t ht).1

theorem transitionsOf_other {E : CEnv} {n : Nat} (hE : E.Lawful n) {W : Wallet} {inv : Inv.Invoice} {prevs : List OutSeal} {b : Batch}
    (h : Stock.compose E W k inv prevs = .ok b) {c id : Nat} (hc : inv.contract = some c) (hid : id ≠ c) :
    b.transitionsOf id = b.blankTransitions.filter (fun t => decide (t.op.contract = id)) := by
  unfold Batch.transitionsOf
  rw [List.filter_append, List.filter_eq_nil_iff.mpr, List.nil_append]
  intro t ht hh
  exact hid ((of_decide_eq_true hh).symm.trans ((C38_inputs hE h hc).1 t ht).1)

/-- **C92** (spending). The transitions of a composed batch spend each state of a contract which is at the spent outputs, once, and have different ids. The wallet's history is one in which no
consignment was refused (see C78).
Missing: histories with refused consignments, see `C78_listed_fails`, and different state on one seal, see `C40_collision_fails`. -/
theorem C92_spent_partial {E : CEnv} {n : Nat} (hE : E.Lawful n) (hH : E.H.Binding) (hG : ∀ d, OMap.Sorted (G d).maxItems) (he : ∀ e ∈ es, e.Proper E.H)
    (hk : Accepting E.H I M G es .empty k) {W : Wallet} {inv : Inv.Invoice} {prevs : List OutSeal} {b : Batch} (h : Stock.compose E W k inv prevs = .ok b)
    {id : Nat} (hst : k.stateAt id prevs ≠ []) (hn : ((k.stateAt id prevs).map (fun a => a.opout)).Nodup) :
    ((b.transitionsOf id).flatMap (fun t => t.op.inputs)).Perm ((k.stateAt id prevs).map (fun a => a.opout)) ∧
      ((b.transitionsOf id).map (fun t => t.op.id E.H)).Nodup := by
  obtain ⟨C⟩ := Stock.compose_ok hE h
  have hc := C.prepared.contract
  have hperm : ((b.transitionsOf id).flatMap (fun t => t.op.inputs)).Perm ((k.stateAt id prevs).map (fun a => a.opout)) := by
    by_cases hid : id = C.p.contract
    · subst hid
      rw [transitionsOf_own hE h hc]
      exact C38_once hE h hc hn
    · rw [transitionsOf_other hE h hc hid]
      refine C40_once hE h hc ?_ hid hn
      obtain ⟨a, ha⟩ := List.exists_mem_of_ne_nil _ hst
      obtain ⟨t, ht, h1, h2⟩ := C78_nothing_left_partial hH hG he hk hE h ha
      rcases List.mem_append.mp ht with ht | ht
      · exact absurd (h1.symm.trans ((C38_inputs hE h hc).1 t ht).1) hid
      · exact (((C40_contracts hE h hc).2 id).mp ⟨t, ht, h1⟩).1
  refine ⟨hperm, ?_⟩
  have h1 := hperm.nodup_iff.mpr hn
  rw [List.nodup_flatMap] at h1
  refine List.pairwise_map.mpr (List.Pairwise.imp_of_mem ?_ h1.2)
  intro t t' ht _ hdis hid
  have hne : t.op.inputs ≠ [] := by
    rcases List.mem_append.mp (List.mem_filter.mp ht).1 with ht | ht
    · exact ((C38_inputs hE h hc).1 t ht).2.2.1
    · exact ((C40_contracts hE h hc).1 t ht).2.2.1
  obtain ⟨o, ho⟩ := List.exists_mem_of_ne_nil _ hne
  have e := congrArg Op.inputs (hH.op_inj _ _ hid)
  simp only [Op.conceal] at e
  exact hdis ho (show o ∈ t'.op.inputs by rw [← e]; exact ho)

/-- **C92** (kept). A wallet, in the history of which no consignment was refused, composes any payment; the transitions made for it get into a transaction, on the blockchain of the invoice, which isn't archived, and the wallet
consumes the fascia with them. Take any contract with state at the spent outputs and any type of state but the invoiced one. Then the wallet sees at the outputs chosen for the new transaction distinct assignments, which the
transitions of the contract made, of this type, and they are state by state what was at the spent outputs.
Missing: `hn` is the condition of C38 and C40 on the known state (C38_apart says when it holds), and the wallet has to choose different seals for states of one type (`C38_moved_fails`, `C40_collision_fails`). -/
theorem C92_kept_partial {E : CEnv} {n : Nat} (hE : E.Lawful n) (hH : E.H.Binding) (hM : M.Lawful) (hG : ∀ d, OMap.Sorted (G d).maxItems) (he : ∀ e ∈ es, e.Proper E.H)
    (hk : Accepting E.H I M G es .empty k) {W : Wallet} {inv : Inv.Invoice} {prevs : List OutSeal} {b : Batch} (h : Stock.compose E W k inv prevs = .ok b)
    {id aty : Nat} (hother : ¬ (inv.contract = some id ∧ k.invoiced E inv = some aty)) (hst : k.stateAt id prevs ≠ [])
    (hn : ((k.stateAt id prevs).map (fun a => a.opout)).Nodup) (hseals : ((ofType aty (k.stateAt id prevs)).map (W.movedSeal E k inv id)).Nodup)
    {f : Stock.Fascia} (hf : StockEvent.Sound E.H (.fascia f r)) (hcar : ∀ t ∈ b.transitionsOf id, f.Carries E.H k id t.op)
    (hd : StockEvent.Done E.H I M G k k' (.fascia f r)) (hr' : r f.witness.id ≠ some .archived) (hch : inv.layer = f.witness.id.chain) :
    ∃ view, k'.state.contractState id = .ok view ∧ ∃ l : List OutAssign, (l.map (fun a => a.opout)).Nodup ∧
      (∀ a ∈ l, a ∈ view.all a.state.kind ∧ a.opout.ty = aty ∧ a.witness = some f.witness.id ∧ ∃ t ∈ b.transitionsOf id, t.op.id E.H = a.opout.op) ∧
      (l.map (fun a => (some a.sl, some a.state.content))).Perm
        ((ofType aty (k.stateAt id prevs)).map (fun a => ((W.movedSeal E k inv id a).output f.witness.id, some a.state.content))) := by
  obtain ⟨C⟩ := Stock.compose_ok hE h
  have hc := C.prepared.contract
  have hr : k.Reachable E.H := ⟨I, M, G, es, hG, he, accepting_run es hk⟩
  obtain ⟨hperm, hnd⟩ := C92_spent_partial hE hH hG he hk h hst hn
  have hmoved : ∀ t ∈ b.transitionsOf id, ((t.outs aty).map (fun e => (e.1, e.2.map RState.content))).Perm
      ((ofType aty (t.spends (k.stateAt id prevs))).map (fun a => (some (W.movedSeal E k inv id a), some a.state.content))) := by
    intro t ht
    by_cases hid : id = C.p.contract
    · subst hid
      rw [transitionsOf_own hE h hc] at ht
      exact C38_moved_partial hE h hc C.prepared.ty (fun e => hother ⟨hc, by rw [C.prepared.ty, e]⟩) hn hseals t ht
    · rw [transitionsOf_other hE h hc hid] at ht
      exact C40_moved_partial hE h hn hseals t (List.mem_filter.mp ht).1 (of_decide_eq_true (List.mem_filter.mp ht).2)
  have hkinds : ∀ t ∈ b.transitionsOf id, ∀ aty ta, OMap.get? t.op.assigns aty = some ta → ∀ a ∈ ta.items, ∃ st, a.state? = some st ∧ st.kind = ta.kind := by
    intro t ht
    rcases List.mem_append.mp (List.mem_filter.mp ht).1 with ht | ht
    · exact payments_kinds hE h t ht
    · exact blanks_kinds hE h t ht
  obtain ⟨l, l1, l2, l3⟩ := all_made (H := E.H) f.witness.id aty (b.transitionsOf id) hnd hkinds (by
    intro t ht e hx
    have hm := (hmoved t ht).mem_iff.mp (List.mem_map_of_mem hx)
    obtain ⟨a, -, ha⟩ := List.mem_map.mp hm
    have ha1 := congrArg Prod.fst ha
    exact ⟨_, ha1.symm, rfl, hch⟩)
  have hview : ∃ view, k.state.contractState id = .ok view := by
    unfold Stock.stateAt at hst
    cases hv : k.state.contractState id with
    | ok v => exact ⟨v, rfl⟩
    | error x => rw [hv] at hst; exact absurd rfl hst
  obtain ⟨view, hview⟩ := keeps_contract hH hG hr hf.proper (done_exec hd) hview
  refine ⟨view, hview, l, l1, ?_, ?_⟩
  · intro a ha
    obtain ⟨m1, t, ht, m2⟩ := l2 a ha
    obtain ⟨bd, c1, c2, -⟩ := hcar t ht
    obtain ⟨v, v1, v2, -⟩ := C91_state_now hH hM hG hr hf hd (.fascia f r id bd c1) c2 m2 (by
      intro r0 hr0
      cases hr0
      exact hr')
    rw [hview] at v1
    cases v1
    exact ⟨v2, m1, m2.1.2.1, t, ht, m2.1.1.symm⟩
  · rw [l3]
    refine List.Perm.trans ?_ ((spends_all hn hperm aty).map _)
    rw [List.map_flatMap]
    refine List.Perm.flatMap_left _ (fun t ht => ?_)
    have := (hmoved t ht).map (fun e => (e.1.bind (BSeal.output f.witness.id), e.2))
    rw [List.map_map, List.map_map] at this
    exact this

/-- The item of a transition which pays a token. -/
theorem token_item {E : CEnv} {n : Nat} (hE : E.Lawful n) {W : Wallet} {inv : Inv.Invoice} {prevs : List OutSeal}
    {b : Batch} (h : Stock.compose E W k inv prevs = .ok b) {c ty : Nat} {al : Inv.Allocation} (hc : inv.contract = some c)
    (hty : k.invoiced E inv = some ty) (hs : inv.ownedState = .data al) (hn : ((k.stateAt c prevs).map (fun a => a.opout)).Nodup) :
    ∃ t ∈ b.payments, ∃ ta x, OMap.get? t.op.assigns ty = some ta ∧ ta.kind = .structured ∧ ta.items[0]? = some x ∧
      x.target = some (W.benSeal inv) ∧ x.state? = some (.data (E.dataOf al) (W.seals .token)) := by
  obtain ⟨t, ht, -, h1, -⟩ := C41_token_partial hE h hc hty hs hn
  refine ⟨t, ht, ?_⟩
  cases hg : OMap.get? t.op.assigns ty with
  | none => simp [BuiltTransition.outs, hg] at h1
  | some ta =>
    simp only [BuiltTransition.outs, hg, Option.map_some, Option.getD_some, List.map_map] at h1
    match hi : ta.items with
    | [] => rw [hi] at h1; simp at h1
    | x :: rest =>
      rw [hi] at h1
      simp only [List.map_cons, Function.comp, List.cons.injEq, Prod.mk.injEq] at h1
      obtain ⟨⟨h2, h3⟩, -⟩ := h1
      obtain ⟨st, k1, k2⟩ := payments_kinds hE h t ht ty ta hg x (by simp [hi])
      rw [k1, Option.map_some, Option.some.injEq] at h3
      have hst : st = .data (E.dataOf al) (W.seals .token) := by
        cases st <;> simp_all [RState.content]
      subst hst
      exact ⟨ta, x, rfl, k2.symm, by rw [hi]; rfl, h2, k1⟩

/-- The token is assigned to an output of the new transaction. -/
theorem token_made {E : CEnv} {n : Nat} (hE : E.Lawful n) {W : Wallet} {inv : Inv.Invoice} {prevs : List OutSeal}
    {b : Batch} (h : Stock.compose E W k inv prevs = .ok b) {c ty : Nat} {al : Inv.Allocation} (hc : inv.contract = some c)
    (hty : k.invoiced E inv = some ty) (hs : inv.ownedState = .data al) (hn : ((k.stateAt c prevs).map (fun a => a.opout)).Nodup)
    {s : Seal} (hb : W.benSeal inv = .revealed s) {w : WitnessId} (hch : inv.layer = w.chain) :
    ∃ t ∈ b.payments, ∃ a : OutAssign, t.op.MakesHere E.H w .structured a ∧ a.opout.ty = ty ∧ a.state.data? = some (E.dataOf al) ∧
      a.sl = ⟨inv.layer, s.method, w.txid, s.vout⟩ := by
  obtain ⟨t, ht, ta, y, p1, p2, p3, p4, p5⟩ := token_item hE h hc hty hs hn
  have hs0 : s.txid = none ∧ s.chain = inv.layer := by
    simp only [Wallet.benSeal] at hb
    split at hb
    · cases hb
    · cases hb; exact ⟨rfl, rfl⟩
  have hy : y = .revealed s (.data (E.dataOf al) (W.seals .token)) := by
    rw [hb] at p4
    cases y with
    | revealed s' v =>
      simp only [Assign.target, Option.some.injEq, BSeal.revealed.injEq] at p4
      simp only [Assign.state?, Option.some.injEq] at p5
      rw [p4, p5]
    | confidentialState s' v => simp [Assign.state?] at p5
    | confidential s' v => simp [Assign.state?] at p5
    | confidentialSeal s' v => simp [Assign.target] at p4
  subst hy
  refine ⟨t, ht, ⟨⟨t.op.id E.H, ty, 0⟩, ⟨inv.layer, s.method, w.txid, s.vout⟩, _, some w⟩, ⟨⟨rfl, rfl, ta, s, p1, p2, p3, ?_⟩, s, ?_, hs0.1⟩, rfl, rfl, rfl⟩
  · simp [Seal.toOutputWith, hs0.1, hs0.2, hch]
  · simp [Op.sealAt?, Op.at?, p1, p3, Assign.seal?]

/-- **C92** (tokens, secret seals). An invoice asks for a token to be paid to a secret seal. A wallet with any history composes the payment; the transitions made for it get into a transaction, the wallet consumes the fascia with
them, and does anything more. It makes a transfer with this seal, which is accepted by a wallet with any history which has the seal and hasn't seen outputs of these transitions. The witnesses aren't archived. Then the payee sees the token, as state of
the invoiced type, at the output which the seal defines. `hn` is the condition of C38. -/
theorem C92_token_arrives {E : CEnv} {n : Nat} (hE : E.Lawful n) (hH : E.H.Binding) (hM : M.Lawful) (hG : ∀ d, OMap.Sorted (G d).maxItems)
    (he : ∀ e ∈ es, StockEvent.Proper E.H e) (hes : runStock E.H I M G es .empty = some k)
    {W : Wallet} {inv : Inv.Invoice} {prevs : List OutSeal} {b : Batch} (h : Stock.compose E W k inv prevs = .ok b)
    {c ty : Nat} {al : Inv.Allocation} (hc : inv.contract = some c) (hty : k.invoiced E inv = some ty) (hs : inv.ownedState = .data al)
    (hn : ((k.stateAt c prevs).map (fun a => a.opout)).Nodup) {x : Seal} (hsec : inv.secret = some (E.H.sealHash x))
    {f : Stock.Fascia} (hf : StockEvent.Sound E.H (.fascia f r)) (hcar : ∀ t ∈ b.payments, f.Carries E.H k c t.op)
    (hd : StockEvent.Done E.H I M G k k' (.fascia f r))
    (hl : ∀ e ∈ later, e.Proper E.H) (hdl : AllDone E.H I M G later k' k'')
    {fuel : Nat} {outputs : List Outpoint} (htr : k''.transfer E.H I S fuel c outputs (some (E.H.sealHash x)) = some (.ok con))
    {k₁ k₂ : Stock} (hk₁ : k₁.Reachable E.H) (hx : x ∈ k₁.stash.secretSeals)
    (hnew : ∀ t ∈ b.payments, ∀ no, k₁.Unseen c .structured ⟨t.op.id E.H, ty, no⟩)
    (hacc : k₁.consumeConsignment E.H I M G r' con = some (k₂, none))
    (hout : ∀ wb ∈ con.data.bundles, (x.toOutputWith wb.id).isSome = true ∧ r' wb.id ≠ some .archived) :
    ∃ view, k₂.state.contractState c = .ok view ∧ ∃ a ∈ view.all .structured, a.opout.ty = ty ∧ a.state.data? = some (E.dataOf al) ∧
      (∃ t ∈ b.payments, t.op.id E.H = a.opout.op) ∧ ∃ w, a.witness = some w ∧ x.toOutputWith w = some a.sl := by
  obtain ⟨t, ht, ta, y, p1, p2, p3, p4, p5⟩ := token_item hE h hc hty hs hn
  have hsend : t.op.SendsTo .structured ty 0 (E.H.sealHash x) (.data (E.dataOf al) (W.seals .token)) := by
    refine ⟨ta, p1, p2, ?_⟩
    simp only [Inv.Invoice.secret] at hsec
    simp only [Wallet.benSeal] at p4
    split at hsec
    swap; · cases hsec
    rename_i m hm
    rw [hm] at p4
    simp only at p4
    rw [p3, ← Option.some.inj hsec]
    cases y with
    | confidentialSeal s' v =>
      simp only [Assign.state?, Option.some.injEq] at p5
      simp only [Assign.target, Option.some.injEq, BSeal.concealed.injEq] at p4
      rw [p5]
      obtain ⟨q1, q2⟩ := p4
      congr 2
      cases hl : inv.layer <;> rw [hl] at q1 <;> simp only [Layer1.num] <;> split at q1 <;> first | omega | cases q1
    | confidentialState s' v => simp [Assign.state?] at p5
    | confidential s' v => simp [Assign.state?] at p5
    | revealed s' v => simp [Assign.target] at p4
  obtain ⟨wb, n1, -, n2⟩ := C89_sent hH hM hG he hes hf hd (hcar t ht) hl hdl htr hsend hk₁ hx (hnew t ht 0) hacc
  obtain ⟨o1, o2⟩ := hout wb n1
  obtain ⟨sl, hsl⟩ := Option.isSome_iff_exists.mp o1
  obtain ⟨view, v1, v2, -⟩ := n2 sl hsl o2
  exact ⟨view, v1, _, v2, rfl, rfl, ⟨t, ht, rfl⟩, wb.id, rfl, hsl⟩

/-- **C92** (tokens, outputs). The same for an invoice which asks for a token to be paid to an output of the new transaction: the payer sees it there. -/
theorem C92_token_given {E : CEnv} {n : Nat} (hE : E.Lawful n) (hH : E.H.Binding) (hM : M.Lawful) (hG : ∀ d, OMap.Sorted (G d).maxItems)
    (hr : k.Reachable E.H) {W : Wallet} {inv : Inv.Invoice} {prevs : List OutSeal} {b : Batch} (h : Stock.compose E W k inv prevs = .ok b)
    {c ty : Nat} {al : Inv.Allocation} (hc : inv.contract = some c) (hty : k.invoiced E inv = some ty) (hs : inv.ownedState = .data al)
    (hn : ((k.stateAt c prevs).map (fun a => a.opout)).Nodup) {s : Seal} (hb : W.benSeal inv = .revealed s)
    {f : Stock.Fascia} (hf : StockEvent.Sound E.H (.fascia f r)) (hcar : ∀ t ∈ b.payments, f.Carries E.H k c t.op)
    (hd : StockEvent.Done E.H I M G k k' (.fascia f r)) (hr' : r f.witness.id ≠ some .archived) (hch : inv.layer = f.witness.id.chain) :
    ∃ view, k'.state.contractState c = .ok view ∧ ∃ a ∈ view.all .structured, a.opout.ty = ty ∧ a.state.data? = some (E.dataOf al) ∧
      (∃ t ∈ b.payments, t.op.id E.H = a.opout.op) ∧ a.witness = some f.witness.id ∧ a.sl = ⟨inv.layer, s.method, f.witness.id.txid, s.vout⟩ := by
  obtain ⟨t, ht, a, m1, m2, m3, m4⟩ := token_made hE h hc hty hs hn hb hch
  obtain ⟨bd, c1, c2, -⟩ := hcar t ht
  obtain ⟨v, v1, v2, -⟩ := C91_state_now hH hM hG hr hf hd (.fascia f r c bd c1) c2 m1 (by
    intro r0 hr0
    cases hr0
    exact hr')
  exact ⟨v, v1, a, v2, m2, m3, ⟨t, ht, m1.1.1.symm⟩, m1.1.2.1, m4⟩

/-- **C92** (tokens, arrival at outputs). And a wallet, with any history, which accepts a transfer of this output sees the token there. -/
theorem C92_token_taken {E : CEnv} {n : Nat} (hE : E.Lawful n) (hH : E.H.Binding) (hM : M.Lawful) (hG : ∀ d, OMap.Sorted (G d).maxItems)
    (he : ∀ e ∈ es, StockEvent.Proper E.H e) (hes : runStock E.H I M G es .empty = some k)
    {W : Wallet} {inv : Inv.Invoice} {prevs : List OutSeal} {b : Batch} (h : Stock.compose E W k inv prevs = .ok b)
    {c ty : Nat} {al : Inv.Allocation} (hc : inv.contract = some c) (hty : k.invoiced E inv = some ty) (hs : inv.ownedState = .data al)
    (hn : ((k.stateAt c prevs).map (fun a => a.opout)).Nodup) {s : Seal} (hb : W.benSeal inv = .revealed s)
    {f : Stock.Fascia} (hf : StockEvent.Sound E.H (.fascia f r)) (hcar : ∀ t ∈ b.payments, f.Carries E.H k c t.op)
    (hd : StockEvent.Done E.H I M G k k' (.fascia f r)) (hch : inv.layer = f.witness.id.chain)
    (hl : ∀ e ∈ later, e.Proper E.H) (hdl : AllDone E.H I M G later k' k'')
    {fuel : Nat} {outputs : List Outpoint} {secret : Option Nat} (htr : k''.transfer E.H I S fuel c outputs secret = some (.ok con))
    (hout : ⟨inv.layer, f.witness.id.txid, s.vout⟩ ∈ outputs) (hone : k''.OneMethodAt c ⟨inv.layer, f.witness.id.txid, s.vout⟩)
    {k₁ k₂ : Stock} (hk₁ : k₁.Reachable E.H) (hacc : k₁.consumeConsignment E.H I M G r' con = some (k₂, none))
    (hw : ∀ wb ∈ con.data.bundles, wb.id.chain = inv.layer ∧ r' wb.id ≠ some .archived) :
    ∃ view, k₂.state.contractState c = .ok view ∧ ∃ a ∈ view.all .structured, a.opout.ty = ty ∧ a.state.data? = some (E.dataOf al) ∧
      (∃ t ∈ b.payments, t.op.id E.H = a.opout.op) ∧ ∃ w, a.witness = some w ∧ a.sl = ⟨inv.layer, s.method, w.txid, s.vout⟩ := by
  obtain ⟨t, ht, a, m1, m2, m3, m4⟩ := token_made hE h hc hty hs hn hb hch
  obtain ⟨wb, n1, -, n2⟩ := C91_sent hH hM hG he hes hf hd (hcar t ht) hl hdl htr m1 (by rw [m4]; exact hout) (by rw [m4]; exact hone) hk₁ hacc
  obtain ⟨view, v1, v2⟩ := n2 (by rw [m4]; exact (hw wb n1).1) (hw wb n1).2
  refine ⟨view, v1, _, v2, m2, m3, ⟨t, ht, m1.1.1.symm⟩, wb.id, rfl, ?_⟩
  simp only [m4]

end

/-! The token 5 is paid to a secret seal; 10 of the contract and 20 of another contract, which were at the same output, are still there. -/

section
open TokenWorld

theorem exTokenComposed : ∃ b, Stock.compose E PayWorld.W k invS TokenWorld.prevs = .ok b ∧
    b.payments.map (fun t => t.op) = [tS] ∧ (b.transitionsOf 2).map (fun t => t.op) = [q] ∧ (b.transitionsOf 0).map (fun t => t.op) = [tS] :=
  PayWorld.ok_any (by decide +kernel)

theorem exTokenComposedA : ∃ b, Stock.compose E WA k invA TokenWorld.prevs = .ok b ∧ b.payments.map (fun t => t.op) = [tA] :=
  PayWorld.ok_any (by decide +kernel)

theorem exTokenDone : ∃ k', StockEvent.Done H World.I World.M World.G k k' (.fascia fS World.r) ∧
    ∃ con, k'.transfer H World.I World.E 100 0 [] (some 12) = some (.ok con) ∧
      con.data.bundles.map WitnessBundle.id = [⟨.bitcoin, 61⟩] ∧
      ∃ k₂, (Stock.fresh [PaidWorld.sX]).consumeConsignment H World.I World.M World.G World.r con = some (k₂, none) := by
  have h : ((k.consumeFascia H World.r fS).bind (fun x => if x.2 = none then
      (x.1.transfer H World.I World.E 100 0 [] (some 12)).bind (fun y => y.toOption.bind (fun con =>
        if con.data.bundles.map WitnessBundle.id = [⟨.bitcoin, 61⟩] then
        ((Stock.fresh [PaidWorld.sX]).consumeConsignment H World.I World.M World.G World.r con).bind (fun z => if z.2 = none then some true else none) else none)) else none)) =
      some true := by decide +kernel
  obtain ⟨⟨k', e⟩, h1, ha⟩ := Option.bind_eq_some_iff.mp h
  split at ha
  swap; · cases ha
  rename_i he
  simp only at he
  subst he
  obtain ⟨y, h2, hb⟩ := Option.bind_eq_some_iff.mp ha
  obtain ⟨con, h3, hc⟩ := Option.bind_eq_some_iff.mp hb
  split at hc
  swap; · cases hc
  rename_i hcon
  obtain ⟨⟨k₂, e⟩, h4, hd⟩ := Option.bind_eq_some_iff.mp hc
  split at hd
  swap; · cases hd
  rename_i he
  simp only at he
  subst he
  cases y with
  | error _ => cases h3
  | ok con' =>
    simp only [Except.toOption, Option.some.injEq] at h3
    subst h3
    exact ⟨k', h1, _, h2, hcon, k₂, h4⟩

theorem exTokenCarries {f : Stock.Fascia} {b : Bundle} {t : Op} {o : Nat} (hf : f.bundles = [(0, b), (2, bQ)]) (hb : OMap.get? b.known o = some t) (ho : t.id H = o)
    (hn : k.stash.bundle (b.id H) = none) (hne : ¬ b.id H = bQ.id H) : f.Carries H k 0 t ∧ f.Carries H k 2 q := by
  refine ⟨⟨b, by simp [hf], by rw [ho]; exact hb, hn, ?_⟩, ⟨bQ, by simp [hf], by decide +kernel, by decide +kernel, ?_⟩⟩
  · intro e he
    rw [hf] at he
    simp only [List.mem_cons, List.not_mem_nil, or_false] at he
    rcases he with rfl | rfl
    · intro _; rfl
    · intro h; exact absurd h.symm hne
  · intro e he
    rw [hf] at he
    simp only [List.mem_cons, List.not_mem_nil, or_false] at he
    rcases he with rfl | rfl
    · intro h; exact absurd h hne
    · intro _; rfl

theorem exTokenEvents : AllDone H World.I World.M World.G PayWorld.events .empty k := by
  have h : ((Stock.empty.consumeConsignment H World.I World.M World.G World.r (PayWorld.con PayWorld.g0)).bind (fun p =>
      (p.1.consumeConsignment H World.I World.M World.G World.r (PayWorld.con PayWorld.g1)).map (fun q => decide (p.2 = none ∧ q.2 = none)))) = some true := by decide +kernel
  obtain ⟨⟨k₁, o₁⟩, h1, h⟩ := Option.bind_eq_some_iff.mp h
  obtain ⟨⟨k₂, o₂⟩, h2, h⟩ := Option.map_eq_some_iff.mp h
  obtain ⟨rfl, rfl⟩ := of_decide_eq_true h
  refine ⟨k₁, h1, k₂, h2, ?_⟩
  have hk : runStock H World.I World.M World.G PayWorld.events .empty = some k₂ := by
    simp [PayWorld.events, runStock, StockEvent.exec, h1, h2]
  rw [k_run] at hk
  exact Option.some.inj hk

example : ∃ (b : Batch) (k' : Stock) (con : Consignment) (k₂ : Stock), Stock.compose E PayWorld.W k invS TokenWorld.prevs = .ok b ∧
    StockEvent.Done H World.I World.M World.G k k' (.fascia fS World.r) ∧
    k'.transfer H World.I World.E 100 0 [] (some 12) = some (.ok con) ∧
    (Stock.fresh [PaidWorld.sX]).consumeConsignment H World.I World.M World.G World.r con = some (k₂, none) ∧
    (∃ view, k₂.state.contractState 0 = .ok view ∧ ∃ a ∈ view.all .structured, a.opout.ty = 4002 ∧ a.state.data? = some 5) ∧
    (∃ view, k'.state.contractState 2 = .ok view ∧ ∃ a ∈ view.all .fungible, a.sl = ⟨.bitcoin, .opretFirst, 61, 1⟩ ∧ a.state.amount = 20) ∧
    ∃ view, k'.state.contractState 0 = .ok view ∧ ∃ a ∈ view.all .fungible, a.sl = ⟨.bitcoin, .opretFirst, 61, 1⟩ ∧ a.state.amount = 10 := by
  obtain ⟨b, hb, hp, hp2, hp0⟩ := exTokenComposed
  obtain ⟨k', hd, con, htr, hw, k₂, hacc⟩ := exTokenDone
  have hs : H.sealHash PaidWorld.sX = 12 := by decide +kernel
  obtain ⟨hc0, hc2⟩ := exTokenCarries (f := fS) (b := bS) (t := tS) (o := 4) rfl rfl (by decide +kernel) (by decide +kernel) (by decide +kernel)
  have hout : ∀ wb ∈ con.data.bundles, (PaidWorld.sX.toOutputWith wb.id).isSome = true ∧ World.r wb.id ≠ some .archived := by
    intro wb hwb
    have : wb.id ∈ con.data.bundles.map WitnessBundle.id := List.mem_map_of_mem hwb
    rw [hw] at this
    rw [List.mem_singleton.mp this]
    exact ⟨by decide +kernel, by decide +kernel⟩
  obtain ⟨view, h1, a, h2, h3, h4, -⟩ := C92_token_arrives (S := World.E) (I := World.I) (M := World.M) (G := World.G) (r := World.r) (r' := World.r) (E := E) E_lawful H_binding
    exLaws.2.2.1 World.G_sorted events_proper k_run hb (c := 0) (ty := 4002) (al := ⟨5, 0⟩) rfl (by decide +kernel) rfl (by decide +kernel)
    (x := PaidWorld.sX) (by show some 12 = some (H.sealHash PaidWorld.sX); rw [hs]) fS_sound
    (fun t ht => by
      have : t.op ∈ b.payments.map (fun t => t.op) := List.mem_map_of_mem ht
      rw [hp] at this
      rw [List.mem_singleton.mp this]; exact hc0) hd (later := []) (by simp) rfl (fuel := 100) (outputs := [])
    (by show k'.transfer H _ _ _ _ _ (some (H.sealHash PaidWorld.sX)) = _; rw [hs]; exact htr) (k₁ := Stock.fresh [PaidWorld.sX])
    ⟨World.I, World.M, World.G, [.secretSeal PaidWorld.sX], World.G_sorted, by simp [StockEvent.Proper], rfl⟩ (by simp [Stock.fresh])
    (by intro t _ no v hv; cases hv) hacc hout
  have kept : ∀ {id : Nat} {t : Op} {x : Nat}, fS.Carries H k id t → (b.transitionsOf id).map (fun t => t.op) = [t] → k.stateAt id TokenWorld.prevs ≠ [] →
      ((k.stateAt id TokenWorld.prevs).map (fun a => a.opout)).Nodup → ((ofType 4000 (k.stateAt id TokenWorld.prevs)).map (PayWorld.W.movedSeal E k invS id)).Nodup →
      (ofType 4000 (k.stateAt id TokenWorld.prevs)).map (fun a => ((PayWorld.W.movedSeal E k invS id a).output ⟨.bitcoin, 61⟩, some a.state.content)) =
        [(some ⟨.bitcoin, .opretFirst, 61, 1⟩, some (.fungible x 0 0))] →
      ∃ view, k'.state.contractState id = .ok view ∧ ∃ a ∈ view.all .fungible, a.sl = ⟨.bitcoin, .opretFirst, 61, 1⟩ ∧ a.state.amount = x := by
    intro id t x hc ht hst hn hseals hx
    obtain ⟨view, g1, l, -, g2, g3⟩ := C92_kept_partial (I := World.I) (M := World.M) (G := World.G) (r := World.r) (E := E) E_lawful H_binding exLaws.2.2.1 World.G_sorted
      events_proper (allDone_accepting _ exTokenEvents) hb (id := id) (aty := 4000) (by
        rintro ⟨-, h⟩
        have : k.invoiced E invS = some 4002 := by decide +kernel
        rw [this] at h
        cases h) hst hn hseals fS_sound
      (fun y hy => by
        have : y.op ∈ (b.transitionsOf id).map (fun t => t.op) := List.mem_map_of_mem hy
        rw [ht] at this
        rw [List.mem_singleton.mp this]; exact hc) hd (by decide +kernel) rfl
    refine ⟨view, g1, ?_⟩
    rw [show (fS.witness.id : WitnessId) = ⟨.bitcoin, 61⟩ from rfl, hx] at g3
    have g4 := List.perm_singleton.mp g3
    match l with
    | [] => simp at g4
    | _ :: _ :: _ => simp at g4
    | [y] =>
      simp only [List.map_cons, List.map_nil, List.cons.injEq, Prod.mk.injEq, Option.some.injEq, and_true] at g4
      obtain ⟨g5, -⟩ := g2 y (by simp)
      obtain ⟨m1, m2⟩ := g4
      have hk : y.state.kind = .fungible ∧ y.state.amount = x := by
        cases hy : y.state <;> rw [hy] at m2 <;> simp_all [RState.content, RState.kind, RState.amount]
      rw [hk.1] at g5
      exact ⟨y, g5, m1, hk.2⟩
  exact ⟨b, k', con, k₂, hb, hd, htr, hacc, ⟨view, h1, a, h2, h3, h4⟩,
    kept (x := 20) hc2 hp2 (by decide +kernel) (by decide +kernel) (by decide +kernel) (by decide +kernel),
    kept (x := 10) hc0 hp0 (by decide +kernel) (by decide +kernel) (by decide +kernel) (by decide +kernel)⟩

/-! The same token is paid to an address, for which the wallet uses the output 0. -/

theorem exTokenDoneA : ∃ k', StockEvent.Done H World.I World.M World.G k k' (.fascia fA World.r) ∧
    (OMap.get? k'.index.contracts 0).map (fun ci => (OMap.keys ci.outs).filter (fun s => decide (s.outpoint = ⟨.bitcoin, 61, 0⟩))) = some [⟨.bitcoin, .opretFirst, 61, 0⟩] ∧
    ∃ con, k'.transfer H World.I World.E 100 0 [⟨.bitcoin, 61, 0⟩] none = some (.ok con) ∧
      con.data.bundles.map WitnessBundle.id = [⟨.bitcoin, 61⟩] ∧
      ∃ k₂, Stock.empty.consumeConsignment H World.I World.M World.G World.r con = some (k₂, none) := by
  have h : ((k.consumeFascia H World.r fA).bind (fun x => if x.2 = none ∧
      (OMap.get? x.1.index.contracts 0).map (fun ci => (OMap.keys ci.outs).filter (fun s => decide (s.outpoint = ⟨.bitcoin, 61, 0⟩))) = some [⟨.bitcoin, .opretFirst, 61, 0⟩] then
      (x.1.transfer H World.I World.E 100 0 [⟨.bitcoin, 61, 0⟩] none).bind (fun y => y.toOption.bind (fun con =>
        if con.data.bundles.map WitnessBundle.id = [⟨.bitcoin, 61⟩] then
        (Stock.empty.consumeConsignment H World.I World.M World.G World.r con).bind (fun z => if z.2 = none then some true else none) else none)) else none)) =
      some true := by decide +kernel
  obtain ⟨⟨k', e⟩, h1, ha⟩ := Option.bind_eq_some_iff.mp h
  split at ha
  swap; · cases ha
  rename_i he
  obtain ⟨he, hidx⟩ := he
  simp only at he hidx
  subst he
  obtain ⟨y, h2, hb⟩ := Option.bind_eq_some_iff.mp ha
  obtain ⟨con, h3, hc⟩ := Option.bind_eq_some_iff.mp hb
  split at hc
  swap; · cases hc
  rename_i hcon
  obtain ⟨⟨k₂, e⟩, h4, hd⟩ := Option.bind_eq_some_iff.mp hc
  split at hd
  swap; · cases hd
  rename_i he
  simp only at he
  subst he
  cases y with
  | error _ => cases h3
  | ok con' =>
    simp only [Except.toOption, Option.some.injEq] at h3
    subst h3
    exact ⟨k', h1, hidx, _, h2, hcon, k₂, h4⟩

example : ∃ (b : Batch) (k' : Stock) (con : Consignment) (k₂ : Stock), Stock.compose E WA k invA TokenWorld.prevs = .ok b ∧
    StockEvent.Done H World.I World.M World.G k k' (.fascia fA World.r) ∧
    k'.transfer H World.I World.E 100 0 [⟨.bitcoin, 61, 0⟩] none = some (.ok con) ∧
    Stock.empty.consumeConsignment H World.I World.M World.G World.r con = some (k₂, none) ∧
    (∃ view, k'.state.contractState 0 = .ok view ∧ ∃ a ∈ view.all .structured, a.state.data? = some 5 ∧ a.sl = ⟨.bitcoin, .opretFirst, 61, 0⟩) ∧
    ∃ view, k₂.state.contractState 0 = .ok view ∧ ∃ a ∈ view.all .structured, a.state.data? = some 5 ∧ ∃ w, a.witness = some w ∧ a.sl = ⟨.bitcoin, .opretFirst, w.txid, 0⟩ := by
  obtain ⟨b, hb, hp⟩ := exTokenComposedA
  obtain ⟨k', hd, hidx, con, htr, hw, k₂, hacc⟩ := exTokenDoneA
  obtain ⟨hc0, -⟩ := exTokenCarries (f := fA) (b := bA) (t := tA) (o := 6) rfl rfl (by decide +kernel) (by decide +kernel) (by decide +kernel)
  have hcar : ∀ t ∈ b.payments, fA.Carries H k 0 t.op := fun t ht => by
    have : t.op ∈ b.payments.map (fun t => t.op) := List.mem_map_of_mem ht
    rw [hp] at this
    rw [List.mem_singleton.mp this]; exact hc0
  have hout : ∀ wb ∈ con.data.bundles, wb.id.chain = .bitcoin ∧ World.r wb.id ≠ some .archived := by
    intro wb hwb
    have : wb.id ∈ con.data.bundles.map WitnessBundle.id := List.mem_map_of_mem hwb
    rw [hw] at this
    rw [List.mem_singleton.mp this]
    exact ⟨rfl, by decide +kernel⟩
  obtain ⟨v1, h1, a1, h2, -, h3, -, -, h4⟩ := C92_token_given (I := World.I) (M := World.M) (G := World.G) (r := World.r) (E := E) E_lawful H_binding exLaws.2.2.1 World.G_sorted
    ⟨World.I, World.M, World.G, PayWorld.events, World.G_sorted, events_proper, k_run⟩ hb (c := 0) (ty := 4002) (al := ⟨5, 0⟩) rfl (by decide +kernel) rfl (by decide +kernel)
    (s := TokenWorld.sB) rfl fA_sound hcar hd (by decide +kernel) rfl
  obtain ⟨v2, g1, a2, g2, -, g3, -, w, g4, g5⟩ := C92_token_taken (S := World.E) (I := World.I) (M := World.M) (G := World.G) (r := World.r) (r' := World.r) (E := E) E_lawful H_binding
    exLaws.2.2.1 World.G_sorted events_proper k_run hb (c := 0) (ty := 4002) (al := ⟨5, 0⟩) rfl (by decide +kernel) rfl (by decide +kernel)
    (s := TokenWorld.sB) rfl fA_sound hcar hd rfl (later := []) (by simp) rfl (fuel := 100) (outputs := [⟨.bitcoin, 61, 0⟩]) htr (by simp [fA, TokenWorld.sB, invA]; decide)
    (exVoutOne hidx) (k₁ := .empty) ⟨World.I, World.M, World.G, [], World.G_sorted, by simp, rfl⟩ hacc hout
  exact ⟨b, k', con, k₂, hb, hd, htr, hacc, ⟨v1, h1, a1, h2, h3, h4⟩, v2, g1, a2, g2, g3, w, g4, g5⟩

end

end Rgb.Props
