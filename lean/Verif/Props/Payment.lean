import Verif.Lemmas.Payment
import Verif.Props.Arrive
import Verif.Props.Usable
import Verif.Props.Onward
import Verif.Props.Shown
import Verif.Props.Compose
import Verif.Spec.PaidWorld

/-! # C89: from an invoice to the money -/

namespace Rgb.Props
open Rgb

section
variable {H : Commit} {I : Ids} {M : Mpc} {G : SchemaDoc → SchemaGlobals} {S : Stock.Env} {r r' : Resolver} {con : Consignment} {k k' k'' : Stock}

/-- The transition of a fascia is known to the payer later. -/
theorem carried (hH : H.Binding) (hM : M.Lawful) (hG : ∀ d, OMap.Sorted (G d).maxItems) (hk : k.Reachable H) {f : Stock.Fascia}
    (hf : StockEvent.Sound H (.fascia f r)) (hd : StockEvent.Done H I M G k k' (.fascia f r)) {c : Nat} {t : Op} (hc : f.Carries H k c t)
    {later : List StockEvent} (hl : ∀ e ∈ later, e.Proper H) (hdl : AllDone H I M G later k' k'') :
    ∃ b t', Stock.Knows k'' (t.id H) b t' ∧ t.ShownBy H t' := by
  obtain ⟨b, h1, h2, h3, h4⟩ := hc
  have hb : StockEvent.Brings H (.fascia f r) c b f.witness.id := .fascia f r c b h1
  have hrun := allDone_run _ hdl
  obtain ⟨t', h5, h6⟩ := C64_transitions_partial hH hM hG hk hf hd hl hrun hb (by simp [h3]) (by
    intro c' b' w' hb' he o ho
    cases hb' with
    | fascia _ _ _ _ hm => have := h4 _ hm he; simp only at this; rw [this]; exact ho) h2
  have h7 := (C64_bundles hH hM hG hk hf hd hl hrun hb).1 _ (OMap.contains_iff.mpr ⟨t, h2⟩)
  refine ⟨b.id H, t', ?_, h6⟩
  simp only [Stock.transition, h7] at h5
  refine ⟨Stock.bundleIdForOp_ok.mp h7, ?_⟩
  split at h5
  · cases h5
  rename_i bundle hbd
  split at h5
  · cases h5
  rename_i t2 ht2
  cases h5
  exact ⟨bundle, hbd, ht2⟩

/-- **C89** (sending). A wallet with any history consumes a fascia with a new bundle, a transition of which gives state to a secret seal, and anything more is done. It makes a transfer
with this seal, which is accepted by a wallet with any history which has the seal and hasn't got the state before. Then the state is visible there at the output which the seal defines, unless the witness is archived. -/
theorem C89_sent (hH : H.Binding) (hM : M.Lawful) (hG : ∀ d, OMap.Sorted (G d).maxItems)
    {es : List StockEvent} (he : ∀ e ∈ es, StockEvent.Proper H e) (hes : runStock H I M G es .empty = some k) {f : Stock.Fascia}
    (hf : StockEvent.Sound H (.fascia f r)) (hd : StockEvent.Done H I M G k k' (.fascia f r)) {c : Nat} {t : Op} (hc : f.Carries H k c t)
    {later : List StockEvent} (hl : ∀ e ∈ later, e.Proper H) (hdl : AllDone H I M G later k' k'')
    {fuel : Nat} {outputs : List Outpoint} {x : Seal} (htr : k''.transfer H I S fuel c outputs (some (H.sealHash x)) = some (.ok con))
    {kind : StateKind} {ty no : Nat} {v : RState} (hs : t.SendsTo kind ty no (H.sealHash x) v)
    {k₁ k₂ : Stock} (hk₁ : k₁.Reachable H) (hx : x ∈ k₁.stash.secretSeals) (hnew : k₁.Unseen c kind ⟨t.id H, ty, no⟩)
    (hacc : k₁.consumeConsignment H I M G r' con = some (k₂, none)) :
    ∃ wb ∈ con.data.bundles, (∃ y ∈ wb.anchored.bundles, OMap.contains y.known (t.id H) = true) ∧
      ∀ sl, x.toOutputWith wb.id = some sl → r' wb.id ≠ some .archived →
        ∃ view, k₂.state.contractState c = .ok view ∧ (⟨⟨t.id H, ty, no⟩, sl, v, some wb.id⟩ : OutAssign) ∈ view.all kind ∧
          v ∈ view.byOutpoint kind sl.outpoint ty := by
  have hk : k.Reachable H := ⟨I, M, G, es, hG, he, hes⟩
  obtain ⟨b, t', hkn, hsh⟩ := carried hH hM hG hk hf hd hc hl hdl
  obtain ⟨bd, c1, c2, c3, c4⟩ := hc
  have hrun : runStock H I M G (es ++ (.fascia f r :: later)) .empty = some k'' :=
    runStock_append es hes (by simp only [runStock, done_exec hd, Option.bind_some]; exact allDone_run _ hdl)
  have hpr : ∀ e ∈ es ++ (.fascia f r :: later), StockEvent.Proper H e := by
    intro e hm
    rcases List.mem_append.mp hm with hm | hm
    · exact he e hm
    · rcases List.mem_cons.mp hm with rfl | hm
      · exact hf.proper
      · exact hl e hm
  have kept := runStock_kept hH hG _ hpr kept_empty hrun
  obtain ⟨g1, g2, -, -, -, g3, -⟩ := consign_shape hH kept htr
  have hne : t.id H ≠ c := by
    intro hh
    have e1 : (con.data.genesis).id H = t.id H := by simp only [Op.contractId, g2] at g1; rw [hh]; exact g1
    have e2 := congrArg Op.kind (hH.op_inj _ _ e1)
    have e3 : t.kind = .transition := (hf.proper _ c1).2 _ (List.mem_map.mpr ⟨_, OMap.mem_of_get? c2, rfl⟩) |>.2
    simp only [Op.conceal, g2, e3] at e2
    cases e2
  have hterm := allDone_terminals _ hdl (fascia_terminals hd c1 c2 hs)
  have hreq : Stock.Requested k'' c outputs (some (H.sealHash x)) ⟨t.id H, ty, no⟩ := .inr ⟨_, rfl, by
    obtain ⟨ops, ho⟩ := kept.hist.index
    exact (mem_terminals (ho ▸ run_inv _ ops _ idxInv_empty)).mpr hterm⟩
  obtain ⟨wb, h1, ⟨y, h2, h3⟩, h4⟩ := C74_payment_partial hH hG hpr hrun htr hreq hne hkn (pays_shown hH hsh (sendsTo_pays hs)) hk₁ hx hnew hacc
  refine ⟨wb, h1, ⟨y, h2, ?_⟩, h4⟩
  obtain ⟨cb, hcb, rfl⟩ := List.mem_map.mp h2
  have s1 := (Stock.clientBundle_ok (g3 wb h1 cb hcb).1).1
  obtain ⟨-, bundle, s2, s3⟩ := hkn
  rw [h3, s2] at s1
  cases s1
  exact OMap.contains_iff.mpr ⟨_, s3⟩

/-- **C89** (payment). An invoice asks for an amount of a contract, to be paid to a secret seal. A wallet with any history composes the payment; the transitions made for it get into a transaction, and
the wallet consumes the fascia with them, and does anything more. It makes a transfer with this seal, which is accepted by a wallet with any history which has the seal and hasn't seen outputs of these transitions. The
witnesses aren't archived. Then the payee has visible state of the invoiced type, at the outputs which the seal defines, which the transitions made for the payment assigned, of exactly the invoiced amount.
`hfit`, `hn` are the conditions of C38 on the payer's side. -/
theorem C89_arrives {E : CEnv} {n : Nat} (hE : E.Lawful n) (hH : E.H.Binding) (hM : M.Lawful) (hG : ∀ d, OMap.Sorted (G d).maxItems)
    {es : List StockEvent} (he : ∀ e ∈ es, StockEvent.Proper E.H e) (hes : runStock E.H I M G es .empty = some k)
    {W : Wallet} {inv : Inv.Invoice} {prevs : List OutSeal} {b : Batch} (h : Stock.compose E W k inv prevs = .ok b)
    {c ty amt : Nat} (hc : inv.contract = some c) (hty : k.invoiced E inv = some ty) (hs : inv.ownedState = .amount amt)
    (hn : ((k.stateAt c prevs).map (fun a => a.opout)).Nodup) (hfit : E.B.debug = true ∨ sumOf ty (k.stateAt c prevs) < 18446744073709551616)
    {x : Seal} (hsec : inv.secret = some (E.H.sealHash x))
    {f : Stock.Fascia} (hf : StockEvent.Sound E.H (.fascia f r)) (hcar : ∀ t ∈ b.payments, f.Carries E.H k c t.op)
    (hd : StockEvent.Done E.H I M G k k' (.fascia f r))
    {later : List StockEvent} (hl : ∀ e ∈ later, e.Proper E.H) (hdl : AllDone E.H I M G later k' k'')
    {fuel : Nat} {outputs : List Outpoint} (htr : k''.transfer E.H I S fuel c outputs (some (E.H.sealHash x)) = some (.ok con))
    {k₁ k₂ : Stock} (hk₁ : k₁.Reachable E.H) (hx : x ∈ k₁.stash.secretSeals)
    (hnew : ∀ t ∈ b.payments, ∀ no, k₁.Unseen c .fungible ⟨t.op.id E.H, ty, no⟩)
    (hacc : k₁.consumeConsignment E.H I M G r' con = some (k₂, none))
    (hout : ∀ wb ∈ con.data.bundles, (x.toOutputWith wb.id).isSome = true ∧ r' wb.id ≠ some .archived) :
    ∃ view, k₂.state.contractState c = .ok view ∧ ∃ l : List OutAssign, (l.map (fun a => a.opout)).Nodup ∧
      (∀ a ∈ l, a ∈ view.all .fungible ∧ a.opout.ty = ty ∧ (∃ t ∈ b.payments, t.op.id E.H = a.opout.op) ∧
        ∃ w, a.witness = some w ∧ x.toOutputWith w = some a.sl) ∧
      (l.map (fun a => a.state.amount)).sum = amt := by
  obtain ⟨m, hm, hmx⟩ : ∃ m, inv.beneficiary.intoInner = .blindedSeal m ∧ 2 * m + inv.layer.num = E.H.sealHash x := by
    simp only [Inv.Invoice.secret] at hsec
    split at hsec
    · rename_i m hm; exact ⟨m, hm, Option.some.inj hsec⟩
    · cases hsec
  have hben : W.benSeal inv = .concealed inv.layer m := by simp only [Wallet.benSeal, hm]
  obtain ⟨-, hpaid, -, -⟩ := C38_conserved_partial hE h hc hty hs hn hfit (by rw [hben]; simp [Wallet.changeSeal, Wallet.outSeal])
  rw [hben] at hpaid
  have hrun : runStock E.H I M G (es ++ (.fascia f r :: later)) .empty = some k'' :=
    runStock_append es hes (by simp only [runStock, done_exec hd, Option.bind_some]; exact allDone_run _ hdl)
  have hpr : ∀ e ∈ es ++ (.fascia f r :: later), StockEvent.Proper E.H e := by
    intro e hm
    rcases List.mem_append.mp hm with hm | hm
    · exact he e hm
    · rcases List.mem_cons.mp hm with rfl | hm
      · exact hf.proper
      · exact hl e hm
  have kept := runStock_kept hH hG _ hpr kept_empty hrun
  obtain ⟨g1, -⟩ := consign_shape hH kept htr
  obtain ⟨view, hview⟩ := (C64_documents hH hM hG hk₁ (transfer_sound hH kept htr r') hacc (later := []) (by simp) rfl).2.2.1
  rw [g1] at hview
  have hkinds : ∀ t ∈ b.payments, ∀ aty ta, OMap.get? t.op.assigns aty = some ta → ∀ a ∈ ta.items, ∃ st, a.state? = some st ∧ st.kind = ta.kind := by
    obtain ⟨C⟩ := Stock.compose_ok hE h
    intro t ht
    rw [C.payments] at ht
    have side : ∀ {l pays ts}, Stock.Side E W k C.p (inv.operation.map E.name) C.s l pays ts → t ∈ ts →
        ∀ aty ta, OMap.get? t.op.assigns aty = some ta → ∀ a ∈ ta.items, ∃ st, a.state? = some st ∧ st.kind = ta.kind := by
      intro l pays ts hs ht
      rcases hs with ⟨-, rfl⟩ | ⟨-, t', rfl, hb⟩
      · cases ht
      · cases List.mem_singleton.mp ht; exact hb.kinds
    rcases List.mem_append.mp ht with ht | ht
    · exact side C.main ht
    · exact side C.alt ht
  have hids : (b.payments.map (fun t => t.op.id E.H)).Nodup := by
    have h1 := (C38_once hE h hc hn).nodup_iff.mpr hn
    have h2 := (C38_inputs hE h hc).1
    rw [List.nodup_flatMap] at h1
    refine List.pairwise_map.mpr (List.Pairwise.imp_of_mem ?_ h1.2)
    intro t t' ht _ hdis hid
    obtain ⟨o, ho⟩ := List.exists_mem_of_ne_nil _ (h2 t ht).2.2.1
    have e := congrArg Op.inputs (hH.op_inj _ _ hid)
    simp only [Op.conceal] at e
    exact hdis ho (show o ∈ t'.op.inputs by rw [← e]; exact ho)
  refine ⟨view, hview, ?_⟩
  rw [← hpaid]
  have key : ∀ ts : List BuiltTransition, (∀ t ∈ ts, t ∈ b.payments) → (ts.map (fun t => t.op.id E.H)).Nodup →
      ∃ l : List OutAssign, (l.map (fun a => a.opout)).Nodup ∧
      (∀ a ∈ l, a ∈ view.all .fungible ∧ a.opout.ty = ty ∧ (∃ t ∈ ts, t.op.id E.H = a.opout.op) ∧
        ∃ w, a.witness = some w ∧ x.toOutputWith w = some a.sl) ∧
      (l.map (fun a => a.state.amount)).sum = (ts.map (fun t => t.paidTo ty (.concealed inv.layer m))).sum := by
    intro ts
    induction ts with
    | nil => intro _ _; exact ⟨[], List.Pairwise.nil, by simp, rfl⟩
    | cons t ts ih =>
      intro hin hnd
      rw [List.map_cons, List.nodup_cons] at hnd
      obtain ⟨l, l1, l2, l3⟩ := ih (fun t ht => hin t (by simp [ht])) hnd.2
      have ht : t ∈ b.payments := hin t (by simp)
      obtain ⟨q, q1, q2, q3⟩ := paid_list (hkinds t ht) ty inv.layer m
      have one : ∀ e ∈ q, ∃ a : OutAssign, a.opout = ⟨t.op.id E.H, ty, e.1⟩ ∧ a.state = e.2 ∧ a ∈ view.all .fungible ∧
          ∃ w, a.witness = some w ∧ x.toOutputWith w = some a.sl := by
        intro e heq
        have hsend := q2 e heq
        rw [hmx] at hsend
        obtain ⟨wb, w1, -, w3⟩ := C89_sent hH hM hG he hes hf hd (hcar t ht) hl hdl htr hsend hk₁ hx (hnew t ht e.1) hacc
        obtain ⟨o1, o2⟩ := hout wb w1
        obtain ⟨sl, hsl⟩ := Option.isSome_iff_exists.mp o1
        obtain ⟨view', v1, v2, -⟩ := w3 sl hsl o2
        rw [hview] at v1
        cases v1
        exact ⟨_, rfl, rfl, v2, wb.id, rfl, hsl⟩
      have many : ∀ q : List (Nat × RState), (q.map Prod.fst).Nodup → (∀ e ∈ q, ∃ a : OutAssign, a.opout = ⟨t.op.id E.H, ty, e.1⟩ ∧ a.state = e.2 ∧
          a ∈ view.all .fungible ∧ ∃ w, a.witness = some w ∧ x.toOutputWith w = some a.sl) →
          ∃ l : List OutAssign, l.map (fun a => a.opout) = q.map (fun e => ⟨t.op.id E.H, ty, e.1⟩) ∧ l.map (fun a => a.state) = q.map Prod.snd ∧
            ∀ a ∈ l, a ∈ view.all .fungible ∧ ∃ w, a.witness = some w ∧ x.toOutputWith w = some a.sl := by
        intro q
        induction q with
        | nil => intro _ _; exact ⟨[], rfl, rfl, by simp⟩
        | cons e q ih =>
          intro hq ho
          rw [List.map_cons, List.nodup_cons] at hq
          obtain ⟨l, m1, m2, m3⟩ := ih hq.2 (fun e he => ho e (by simp [he]))
          obtain ⟨a, a1, a2, a3⟩ := ho e (by simp)
          refine ⟨a :: l, by simp [a1, m1], by simp [a2, m2], ?_⟩
          intro y hy
          rcases List.mem_cons.mp hy with rfl | hy
          · exact a3
          · exact m3 y hy
      obtain ⟨l', m1, m2, m3⟩ := many q q1 one
      have hmem : ∀ a ∈ l', a.opout.op = t.op.id E.H ∧ a.opout.ty = ty := by
        intro a ha
        have : a.opout ∈ l'.map (fun a => a.opout) := List.mem_map_of_mem ha
        rw [m1] at this
        obtain ⟨e, -, he⟩ := List.mem_map.mp this
        rw [← he]; exact ⟨rfl, rfl⟩
      refine ⟨l' ++ l, ?_, ?_, ?_⟩
      · rw [List.map_append, List.nodup_append]
        refine ⟨?_, l1, ?_⟩
        · rw [m1]
          refine List.pairwise_map.mpr ((List.pairwise_map.mp q1).imp ?_)
          intro a b hab he
          exact hab (congrArg Opout.no he)
        · intro o ho o' ho' hoo
          obtain ⟨a, ha, rfl⟩ := List.mem_map.mp ho
          obtain ⟨a', ha', rfl⟩ := List.mem_map.mp ho'
          obtain ⟨t', ht', hid⟩ := (l2 a' ha').2.2.1
          refine hnd.1 (List.mem_map.mpr ⟨t', ht', ?_⟩)
          rw [hid, ← hoo]; exact (hmem a ha).1
      · intro a ha
        rcases List.mem_append.mp ha with ha | ha
        · exact ⟨(m3 a ha).1, (hmem a ha).2, ⟨t, by simp, (hmem a ha).1.symm⟩, (m3 a ha).2⟩
        · obtain ⟨p1, p2, ⟨t', p3, p4⟩, p5⟩ := l2 a ha
          exact ⟨p1, p2, ⟨t', by simp [p3], p4⟩, p5⟩
      · have e1 : l'.map (fun a => a.state.amount) = q.map (fun e => e.2.amount) := by
          have := congrArg (List.map RState.amount) m2
          simpa [List.map_map, Function.comp_def] using this
        rw [List.map_append, List.sum_append, e1, q3, l3, List.map_cons, List.sum_cons]
  exact key b.payments (fun _ h => h) hids


/-- **C89** (the transfer can be made). A wallet, the history of which is complete and without errors, composes a payment to a secret seal which is new to it, of state which came with its history back to the genesis in bundles
with valid witnesses. The transitions get into a fascia, with a valid witness, each of them in its own bundle, and assign once to the seal; nothing else there assigns to it. Then a transfer with this seal is made. -/
theorem C89_made {E : CEnv} {n : Nat} (hE : E.Lawful n) (hH : E.H.Binding) (hM : M.Lawful) (hG : ∀ d, OMap.Sorted (G d).maxItems) (hI : Ids.Lawful E.H I) (hS : S.Lawful)
    {es : List StockEvent} (h : AllDone E.H I M G es .empty k)
    {W : Wallet} {inv : Inv.Invoice} {prevs : List OutSeal} {b : Batch} (hb : Stock.compose E W k inv prevs = .ok b) {c : Nat} (hc : inv.contract = some c)
    (hspent : ∀ a ∈ k.stateAt c prevs, a.opout.op = c ∨ Traced E.H es k'.Valid c a.opout.op)
    {s : Nat} (hnew : k.index.opoutsByTerminals [s] = [])
    {f : Stock.Fascia} (hcar : ∀ t ∈ b.payments, f.Carries E.H k c t.op) (honly : f.PaysOnly E.H c (b.payments.map (fun t => t.op)) s)
    (hd : StockEvent.Done E.H I M G k k' (.fascia f r)) (hv : ∃ ord, r f.witness.id = some ord ∧ ord.isValid = true)
    (hfur : Furnished E.H I S (es ++ [.fascia f r])) (himp : Imported E.H es c) (hu : OneCommitted E.H (es ++ [.fascia f r]) c) (hfew : k'.FewIfaces I c) :
    ∃ fuel con, ∀ fuel', fuel ≤ fuel' → k'.transfer E.H I S fuel' c [] (some s) = some (.ok con) := by
  have hs : ∀ e ∈ es, e.Sound E.H := fun e he => hfur.sound e (List.mem_append_left _ he)
  have hf : StockEvent.Sound E.H (.fascia f r) := hfur.sound _ (List.mem_append_right _ (.head _))
  have hk := allDone_reachable hG hs h
  have hdone : AllDone E.H I M G (es ++ [.fascia f r]) .empty k' := allDone_append h ⟨k', hd, rfl⟩
  have hk' := allDone_reachable hG hfur.sound hdone
  have hist := Stock.Reachable.hist hH hk
  have hist' := Stock.Reachable.hist hH hk'
  have inv₀ : IdxInv k.index := by obtain ⟨ops, ho⟩ := hist.index; exact ho ▸ run_inv _ ops _ idxInv_empty
  have inv₁ : IdxInv k'.index := by obtain ⟨ops, ho⟩ := hist'.index; exact ho ▸ run_inv _ ops _ idxInv_empty
  obtain ⟨con₀, r₀, hm₀, hg₀⟩ := himp
  have himp' : Imported E.H (es ++ [.fascia f r]) c := ⟨con₀, r₀, List.mem_append_left _ hm₀, hg₀⟩
  have req : ∀ o, Stock.Requested k' c [] (some s) o → ∃ e ∈ f.bundles, ∃ t, OMap.get? e.2.known o.op = some t ∧ t.AssignsSecret o.op s o ∧ t.id E.H = o.op := by
    rintro o (⟨l, h1, h2⟩ | ⟨s', h1, h2⟩)
    · simp only [Index.opoutsByOutputs] at h1
      split at h1
      · cases h1
      · simp only [Index.byOutputsLoop] at h1; cases h1; cases h2
    · cases h1
      rcases fascia_from hd ((mem_terminals inv₁).mp h2) with h3 | ⟨e, he, i, t, h3, h4⟩
      · have := (mem_terminals inv₀).mpr h3
        rw [hnew] at this
        cases this
      · have hi : o.op = i := by obtain ⟨_, _, _, _, _, _, _, g⟩ := h4; rw [g]
        subst hi
        have hwf := (hf.proper _ he).1
        have hg := OMap.Sorted.get?_of_mem hwf.sorted h3
        exact ⟨e, he, t, hg, h4, (hwf.keyed _ _ hg).1⟩
  have vals : ∀ {e : Nat × Bundle} {i t}, OMap.get? e.2.known i = some t → t ∈ OMap.vals e.2.known := fun h => List.mem_map.mpr ⟨_, OMap.mem_of_get? h, rfl⟩
  have found : ∀ {e : Nat × Bundle} {i t}, e ∈ f.bundles → OMap.get? e.2.known i = some t → OMap.get? k'.index.opBundle i = some (e.2.id E.H) := fun he hg =>
    Stock.bundleIdForOp_ok.mp ((C64_bundles hH hM hG hk hf hd (later := []) (by simp) rfl (.fascia f r _ _ he)).1 _ (OMap.contains_iff.mpr ⟨_, hg⟩))
  have same : ∀ {o b} {t t' : Op}, Stock.Knows k' o b t → t'.id E.H = o → t.timesTo E.H s = t'.timesTo E.H s := by
    rintro o b t t' ⟨-, bundle, h2, h3⟩ h4
    exact timesTo_same hH ((((hist'.good.bundle _ _ h2).2.keyed _ _ h3).1).trans h4.symm) s
  have hl : ∃ l, k'.index.opoutsByOutputs c [] = .ok l := by
    have hcon : OMap.contains k'.index.contracts c = true := by
      obtain ⟨k₀, hh⟩ := (complete_facts hH hM hG hfur hdone).has _ (List.mem_append_left _ hm₀)
      exact hh.idx.conC _ ⟨con₀, r₀, rfl, hg₀.symm⟩
    obtain ⟨ci, hci⟩ := OMap.contains_iff.mp hcon
    exact ⟨[], by simp [Index.opoutsByOutputs, hci, Index.byOutputsLoop]⟩
  obtain ⟨l, hl⟩ := hl
  refine C85_transferable hH hM hG hI hS hfur hdone himp' hu hfew hl ?_ ?_
  · intro o ho
    obtain ⟨⟨c', bd⟩, he, t, h1, h2, h3⟩ := req o ho
    obtain ⟨rfl, h5, -⟩ := honly _ he t (vals h1) (secret_assigns h2)
    refine .inr (C85_spent hH hG hs h hf hd hv he h1 ?_).2.1
    intro i hi
    obtain ⟨t', ht', rfl⟩ := List.mem_map.mp h5
    obtain ⟨a, ha, rfl⟩ := ((C38_inputs hE hb hc).2 i).mp ⟨t', ht', hi⟩
    exact hspent a ha
  · intro s' hs'
    cases hs'
    constructor
    · intro o b' t' ho _ hkn
      obtain ⟨e, he, t, h1, h2, h3⟩ := req o ho
      rw [same hkn h3, (honly _ he t (vals h1) (secret_assigns h2)).2.2.1]
    · intro o o' b' t₁ t₁' ho ho' hne _ _ hkn hkn' _
      obtain ⟨e, he, t, h1, h2, h3⟩ := req o ho
      obtain ⟨e', he', t', h1', h2', h3'⟩ := req o' ho'
      obtain ⟨-, g2, g3, g4⟩ := honly _ he t (vals h1) (secret_assigns h2)
      obtain ⟨p, hp, rfl⟩ := List.mem_map.mp g2
      obtain ⟨bd, q1, q2, -, q4⟩ := hcar p hp
      rw [h3] at q2
      have i1 : e.2.id E.H = bd.id E.H := Option.some.inj ((found he h1).symm.trans (found q1 q2))
      have i2 : e'.2.id E.H = bd.id E.H := by
        have a1 := (found he' h1').symm.trans hkn'.1
        have a2 := (found he h1).symm.trans hkn.1
        rw [Option.some.inj a1, ← Option.some.inj a2, i1]
      have e1 := q4 _ he i1
      have e2 := q4 _ he' i2
      rw [e2, ← e1] at h1'
      have := g4 _ (vals h1') (secret_assigns h2')
      subst this
      have : o.op = o'.op := h3.symm.trans h3'
      rw [← this] at h2'
      exact hne (assigns_once h2 h2' (Nat.le_of_eq g3))

end

/-! The invoice for 12 is paid out of 10 and 7, by two transitions, and the payee, who has nothing but the seal, sees them. -/

section
open PaidWorld

theorem exComposed : ∃ b, Stock.compose E PayWorld.W k inv PayWorld.prevs = .ok b ∧ b.payments.map (fun t => t.op) = [p0, p1] :=
  PayWorld.ok_any (by decide +kernel)

theorem exFasciaDone : ∃ k', StockEvent.Done H World.I World.M World.G k k' (.fascia fascia World.r) ∧
    ∃ con, k'.transfer H World.I World.E 100 0 [] (some 12) = some (.ok con) ∧
      (con.data.bundles.map WitnessBundle.id = [⟨.bitcoin, 61⟩] ∧ con.terminals = [(0, 12), (2, 12)]) ∧
      ∃ k₂, (Stock.fresh [sX]).consumeConsignment H World.I World.M World.G World.r con = some (k₂, none) ∧
        (k₂.state.contractState 0).map (fun v => v.byOutpoint .fungible ⟨.bitcoin, 56, 0⟩ 4000) = .ok [.fungible 10 1 1000, .fungible 2 0 1000] := by
  have h : ((k.consumeFascia H World.r fascia).bind (fun x => if x.2 = none then
      (x.1.transfer H World.I World.E 100 0 [] (some 12)).bind (fun y => y.toOption.bind (fun con =>
        if con.data.bundles.map WitnessBundle.id = [⟨.bitcoin, 61⟩] ∧ con.terminals = [(0, 12), (2, 12)] then
        ((Stock.fresh [sX]).consumeConsignment H World.I World.M World.G World.r con).bind (fun z => if z.2 = none then
          some ((z.1.state.contractState 0).map (fun v => v.byOutpoint .fungible ⟨.bitcoin, 56, 0⟩ 4000)) else none) else none)) else none)) =
      some (.ok [.fungible 10 1 1000, .fungible 2 0 1000]) := by decide +kernel
  obtain ⟨⟨k', e⟩, h1, ha⟩ := Option.bind_eq_some_iff.mp h
  split at ha
  swap; · cases ha
  rename_i he
  simp only at he
  subst he
  obtain ⟨y, h2, hb⟩ := Option.bind_eq_some_iff.mp ha
  obtain ⟨con, h3, hc⟩ := Option.bind_eq_some_iff.mp hb
  split at hc
  swap; · cases hc
  rename_i hcon
  obtain ⟨⟨k₂, e⟩, h4, hd⟩ := Option.bind_eq_some_iff.mp hc
  split at hd
  swap; · cases hd
  rename_i he
  simp only at he
  subst he
  cases y with
  | error _ => cases h3
  | ok con' =>
    simp only [Except.toOption, Option.some.injEq] at h3
    subst h3
    exact ⟨k', h1, _, h2, hcon, k₂, h4, Option.some.inj hd⟩

theorem exCarried : ∀ t ∈ [p0, p1], fascia.Carries H k 0 t := by
  intro t ht
  simp only [List.mem_cons, List.not_mem_nil, or_false] at ht
  rcases ht with rfl | rfl
  · refine ⟨b0, by simp [fascia], by decide +kernel, by decide +kernel, ?_⟩
    intro e he
    simp only [fascia, List.mem_cons, List.not_mem_nil, or_false] at he
    rcases he with rfl | rfl
    · intro _; rfl
    · intro h
      have : ¬ b1.id H = b0.id H := by decide +kernel
      exact absurd h this
  · refine ⟨b1, by simp [fascia], by decide +kernel, by decide +kernel, ?_⟩
    intro e he
    simp only [fascia, List.mem_cons, List.not_mem_nil, or_false] at he
    rcases he with rfl | rfl
    · intro h
      have : ¬ b0.id H = b1.id H := by decide +kernel
      exact absurd h this
    · intro _; rfl

example : ∃ (b : Batch) (k' : Stock) (con : Consignment) (k₂ : Stock) (view : ContractView),
    Stock.compose E PayWorld.W k inv PayWorld.prevs = .ok b ∧ StockEvent.Done H World.I World.M World.G k k' (.fascia fascia World.r) ∧
    k'.transfer H World.I World.E 100 0 [] (some 12) = some (.ok con) ∧
    (Stock.fresh [sX]).consumeConsignment H World.I World.M World.G World.r con = some (k₂, none) ∧
    k₂.state.contractState 0 = .ok view ∧ ∃ l : List OutAssign, (∀ a ∈ l, a ∈ view.all .fungible) ∧ (l.map (fun a => a.state.amount)).sum = 12 := by
  obtain ⟨b, hb, hp⟩ := exComposed
  obtain ⟨k', hd, con, htr, ⟨hw, -⟩, k₂, hacc, -⟩ := exFasciaDone
  have hs : H.sealHash sX = 12 := by decide +kernel
  have hout : ∀ wb ∈ con.data.bundles, (sX.toOutputWith wb.id).isSome = true ∧ World.r wb.id ≠ some .archived := by
    intro wb hwb
    have : wb.id ∈ con.data.bundles.map WitnessBundle.id := List.mem_map_of_mem hwb
    rw [hw] at this
    rw [List.mem_singleton.mp this]
    exact ⟨by decide +kernel, by decide +kernel⟩
  obtain ⟨view, h1, l, -, h3, h4⟩ := C89_arrives (S := World.E) (I := World.I) (M := World.M) (G := World.G) (r := World.r) (r' := World.r) (E := E) E_lawful H_binding
    exLaws.2.2.1 World.G_sorted events_proper k_run hb (c := 0) (ty := 4000) (amt := 12) rfl (by decide +kernel) rfl (by decide +kernel) (.inl rfl)
    (x := sX) (by show some 12 = some (H.sealHash sX); rw [hs]) fascia_sound
    (fun t ht => exCarried _ (by rw [← hp]; exact List.mem_map_of_mem ht)) hd (later := []) (by simp) rfl (fuel := 100) (outputs := [])
    (by show k'.transfer H _ _ _ _ _ (some (H.sealHash sX)) = _; rw [hs]; exact htr) (k₁ := Stock.fresh [sX])
    ⟨World.I, World.M, World.G, [.secretSeal sX], World.G_sorted, by simp [StockEvent.Proper], rfl⟩ (by simp [Stock.fresh])
    (by intro t _ no v hv; cases hv) hacc hout
  exact ⟨b, k', con, k₂, view, hb, hd, htr, hacc, h1, l, fun a ha => (h3 a ha).1, h4⟩

/-! The transfer of the example is one of which `C89_made` says that it is made. -/

theorem exPaidBrings (e : StockEvent) (he : e ∈ PayWorld.events ++ [.fascia fascia World.r]) (c : Nat) (b : Bundle) (w : WitnessId) (hb : e.Brings H c b w) :
    c = 0 ∧ (b = b0 ∨ b = b1) := by
  simp only [PayWorld.events, List.cons_append, List.nil_append, List.mem_cons, List.not_mem_nil, or_false] at he
  rcases he with rfl | rfl | rfl
  · cases hb with | consignment _ _ wb _ hw _ => cases hw
  · cases hb with | consignment _ _ wb _ hw _ => cases hw
  · cases hb with
    | fascia _ _ _ _ hb =>
      simp only [fascia, List.mem_cons, List.not_mem_nil, or_false, Prod.mk.injEq] at hb
      rcases hb with ⟨rfl, rfl⟩ | ⟨rfl, rfl⟩
      · exact ⟨rfl, .inl rfl⟩
      · exact ⟨rfl, .inr rfl⟩

theorem exPaidCon (g : Op) (r : Resolver) (h : StockEvent.Proper H (.consignment (PayWorld.con g) r)) : StockEvent.Sound H (.consignment (PayWorld.con g) r) where
  proper := h
  nonempty c b w h := by cases h with | consignment _ _ wb _ hw _ => cases hw
  methods con r h := by cases h; intro wb hw; cases hw
  anchored f r h := by cases h

theorem exPaidCons {con : Consignment} {r : Resolver} (h : StockEvent.consignment con r ∈ PayWorld.events ++ [.fascia fascia World.r]) : ∃ g, con = PayWorld.con g := by
  simp only [PayWorld.events, List.cons_append, List.nil_append, List.mem_cons, StockEvent.consignment.injEq, reduceCtorEq, List.not_mem_nil, or_false] at h
  rcases h with ⟨rfl, -⟩ | ⟨rfl, -⟩ <;> exact ⟨_, rfl⟩

theorem exPaidFurnished : Furnished H World.I World.E (PayWorld.events ++ [.fascia fascia World.r]) where
  sound e he := by
    simp only [PayWorld.events, List.cons_append, List.nil_append, List.mem_cons, List.not_mem_nil, or_false] at he
    rcases he with rfl | rfl | rfl
    · exact exPaidCon _ _ (events_proper _ (.head _))
    · exact exPaidCon _ _ (events_proper _ (.tail _ (.head _)))
    · exact fascia_sound
  same e he e' he' c b w c' b' w' hb hb' hid o ho := by
    have hne : b0.id H ≠ b1.id H := by decide +kernel
    obtain ⟨-, rfl | rfl⟩ := exPaidBrings e he c b w hb <;> obtain ⟨-, rfl | rfl⟩ := exPaidBrings e' he' c' b' w' hb'
    · exact ho
    · exact absurd hid hne
    · exact absurd hid.symm hne
    · exact ho
  noExtensions con r h := by obtain ⟨g, rfl⟩ := exPaidCons h; rfl
  schema con r h := by obtain ⟨g, rfl⟩ := exPaidCons h; rfl
  types con r h ty hty := by
    obtain ⟨g, rfl⟩ := exPaidCons h
    simp only [World.E, List.mem_singleton] at hty
    rcases hty with rfl | ⟨-, -, rfl⟩ <;> simp [PayWorld.con]
  libs con r h l hl := by
    obtain ⟨g, rfl⟩ := exPaidCons h
    simp only [World.E, List.mem_singleton] at hl
    subst hl; simp [PayWorld.con, World.I]
  kitTypes x h := by simp [PayWorld.events] at h

theorem exPaidDone : AllDone H World.I World.M World.G PayWorld.events .empty k := by
  have h : ((Stock.empty.consumeConsignment H World.I World.M World.G World.r (PayWorld.con PayWorld.g0)).bind (fun p =>
      (p.1.consumeConsignment H World.I World.M World.G World.r (PayWorld.con PayWorld.g1)).map (fun q => decide (p.2 = none ∧ q.2 = none)))) = some true := by decide +kernel
  obtain ⟨⟨k₁, o₁⟩, h1, h⟩ := Option.bind_eq_some_iff.mp h
  obtain ⟨⟨k₂, o₂⟩, h2, h⟩ := Option.map_eq_some_iff.mp h
  obtain ⟨rfl, rfl⟩ := of_decide_eq_true h
  refine ⟨k₁, h1, k₂, h2, ?_⟩
  have hk : runStock H World.I World.M World.G PayWorld.events .empty = some k₂ := by
    simp [PayWorld.events, runStock, StockEvent.exec, h1, h2]
  rw [k_run] at hk
  exact Option.some.inj hk

theorem exPaysOnly : fascia.PaysOnly H 0 [p0, p1] 12 := by
  intro e he u hu _
  have h0 : p0.timesTo H 12 = 1 ∧ p1.timesTo H 12 = 1 := by decide +kernel
  simp only [fascia, List.mem_cons, List.not_mem_nil, or_false] at he
  rcases he with rfl | rfl
  · simp only [b0, OMap.vals, List.map_cons, List.map_nil, List.mem_singleton] at hu ⊢
    subst hu
    exact ⟨trivial, by simp, h0.1, fun _ h _ => h⟩
  · simp only [b1, OMap.vals, List.map_cons, List.map_nil, List.mem_singleton] at hu ⊢
    subst hu
    exact ⟨trivial, by simp, h0.2, fun _ h _ => h⟩

example : ∃ k', StockEvent.Done H World.I World.M World.G k k' (.fascia fascia World.r) ∧
    ∃ fuel con, ∀ fuel', fuel ≤ fuel' → k'.transfer H World.I World.E fuel' 0 [] (some 12) = some (.ok con) := by
  obtain ⟨b, hb, hp⟩ := exComposed
  have hd : ((k.consumeFascia H World.r fascia).map (fun p => decide (p.2 = none ∧ (p.1.stash.schema 10).any (fun si => decide (si.iimpls.length ≤ 126)) = true))) = some true := by
    decide +kernel
  obtain ⟨⟨k', o⟩, h1, h2⟩ := Option.map_eq_some_iff.mp hd
  obtain ⟨h3, h4⟩ := of_decide_eq_true h2
  simp only at h3 h4
  subst h3
  refine ⟨k', h1, ?_⟩
  have hsp : (k.stateAt 0 PayWorld.prevs).all (fun a => decide (a.opout.op = 0)) = true := by decide +kernel
  refine C89_made (S := World.E) (I := World.I) (M := World.M) (G := World.G) (r := World.r) (E := E) E_lawful H_binding exLaws.2.2.1 World.G_sorted
    ⟨exLaws.1.schema_inj, fun _ _ _ => rfl⟩ exLaws.2.1 exPaidDone hb (c := 0) rfl
    (fun a ha => .inl (of_decide_eq_true (List.all_eq_true.mp hsp a ha))) (s := 12) (by decide +kernel)
    (f := fascia) (fun t ht => exCarried _ (by rw [← hp]; exact List.mem_map_of_mem ht)) (by rw [hp]; exact exPaysOnly) h1 ⟨_, rfl, rfl⟩ exPaidFurnished
    ⟨_, _, .head _, by decide +kernel⟩ ?_ ?_
  · intro e he e' he' b b' w hb hb' hm
    obtain ⟨-, rfl | rfl⟩ := exPaidBrings e he 0 b w hb <;> obtain ⟨-, rfl | rfl⟩ := exPaidBrings e' he' 0 b' _ hb'
    · rfl
    · cases hm
    · cases hm
    · rfl
  · intro g si _ hsi
    have h5 : k'.stash.schema 10 = some si := hsi
    rw [h5] at h4
    exact of_decide_eq_true h4

end

end Rgb.Props
