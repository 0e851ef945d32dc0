import Verif.Lemmas.Settle
import Verif.Props.Consume
import Verif.Props.Payable
import Verif.Props.Payment
import Verif.Props.Pass
import Verif.Props.Kept

/-! # C95: an invoice is paid, from composing the payment to the view of the payee -/

namespace Rgb.Props
open Rgb Stock

section
variable {I : Ids} {M : Mpc} {G : SchemaDoc → SchemaGlobals} {S : Stock.Env} {r r' : Resolver} {k k' : Stock} {es : List StockEvent} {f : Fascia}

/-- **C38** (single). A payment assigns to each seal at most once in each type. -/
theorem C38_single {E : CEnv} {n : Nat} (hE : E.Lawful n) {W : Wallet} {inv : Inv.Invoice} {prevs : List OutSeal} {b : Batch}
    (h : compose E W k inv prevs = .ok b) {t : BuiltTransition} (ht : t ∈ b.payments) (aty : Nat) : ((t.outs aty).map Prod.fst).Nodup := by
  obtain ⟨C⟩ := compose_ok hE h
  exact payment_apart C ht aty

/-- The outputs which are transferred to the seal are those of the payments, with complete histories. -/
theorem paid_requested {E : CEnv} {n : Nat} (hE : E.Lawful n) (hH : E.H.Binding) (hG : ∀ d, OMap.Sorted (G d).maxItems)
    (hs : ∀ e ∈ es, e.Sound E.H) (h : AllDone E.H I M G es .empty k)
    {W : Wallet} {inv : Inv.Invoice} {prevs : List OutSeal} {b : Batch} (hb : compose E W k inv prevs = .ok b) {c : Nat} (hc : inv.contract = some c)
    (hspent : ∀ a ∈ k.stateAt c prevs, a.opout.op = c ∨ Traced E.H es k'.Valid c a.opout.op)
    {s : Nat} (hnew : k.index.opoutsByTerminals [s] = []) (hf : StockEvent.Sound E.H (.fascia f r))
    (honly : f.PaysOnly E.H c (b.payments.map (fun t => t.op)) s)
    (hd : StockEvent.Done E.H I M G k k' (.fascia f r)) (hv : ∃ ord, r f.witness.id = some ord ∧ ord.isValid = true)
    {o : Opout} (ho : Requested k' c [] (some s) o) : Traced E.H (es ++ [.fascia f r]) k'.Valid c o.op := by
  have hdone : AllDone E.H I M G (es ++ [.fascia f r]) .empty k' := allDone_append h ⟨k', hd, rfl⟩
  have hist := Stock.Reachable.hist hH (allDone_reachable hG hs h)
  have hist' := Stock.Reachable.hist hH (allDone_reachable hG (by
    intro e he
    rcases List.mem_append.mp he with he | he
    · exact hs e he
    · rw [List.mem_singleton] at he; exact he ▸ hf) hdone)
  have inv₀ : IdxInv k.index := by obtain ⟨ops, ho⟩ := hist.index; exact ho ▸ run_inv _ ops _ idxInv_empty
  have inv₁ : IdxInv k'.index := by obtain ⟨ops, ho⟩ := hist'.index; exact ho ▸ run_inv _ ops _ idxInv_empty
  rcases ho with ⟨l, h1, h2⟩ | ⟨s', h1, h2⟩
  · simp only [Index.opoutsByOutputs] at h1
    split at h1
    · cases h1
    · simp only [Index.byOutputsLoop] at h1; cases h1; cases h2
  · cases h1
    rcases fascia_from hd ((mem_terminals inv₁).mp h2) with h3 | ⟨⟨c', bd⟩, he, i, t, h3, h4⟩
    · have := (mem_terminals inv₀).mpr h3
      rw [hnew] at this
      cases this
    · have hi : o.op = i := by obtain ⟨_, _, _, _, _, _, _, g⟩ := h4; rw [g]
      subst hi
      obtain ⟨rfl, h5, -⟩ := honly _ he t (List.mem_map.mpr ⟨_, h3, rfl⟩) (secret_assigns h4)
      refine (C85_spent hH hG hs h hf hd hv he (OMap.Sorted.get?_of_mem (hf.proper _ he).1.sorted h3) ?_).2.1
      intro i hi
      obtain ⟨t', ht', rfl⟩ := List.mem_map.mp h5
      obtain ⟨a, ha, rfl⟩ := ((C38_inputs hE hb hc).2 i).mp ⟨t', ht', hi⟩
      exact hspent a ha

/-- **C95** (payer). A wallet, the history of which is complete and without errors, pays an invoice within its means to a secret seal which is new to it, of state which came with its history back to the
genesis in bundles with valid witnesses. The payment is composed. Whatever fascia is made of it, with all payments, in new bundles and with a new valid transaction on the chain of the invoice: the wallet accepts it
if there is room, and then makes a transfer with the seal, of operations of the contract only. -/
theorem C95_transferred {E : CEnv} {n : Nat} (hE : E.Lawful n) (hT : E.TagMaps) (hH : E.H.Binding) (hM : M.Lawful) (hG : ∀ d, OMap.Sorted (G d).maxItems)
    (hI : Ids.Lawful E.H I) (hS : S.Lawful) (h : AllDone E.H I M G es .empty k) (hfur : Furnished E.H I S es)
    {W : Wallet} {inv : Inv.Invoice} {prevs : List OutSeal} {c iface ty : Nat} (hp : k.Payable E W inv prevs c iface ty)
    (himp : Imported E.H es c) (hu : OneCommitted E.H es c) (hfew : k.FewIfaces I c)
    (hspent : ∀ a ∈ k.stateAt c prevs, a.opout.op = c ∨ Traced E.H es k.Valid c a.opout.op)
    {x : Seal} (hx : x.txid.isSome = true) (hnew : k.index.opoutsByTerminals [E.H.sealHash x] = []) :
    ∃ b, compose E W k inv prevs = .ok b ∧
      ∀ f r, StockEvent.Sound E.H (.fascia f r) → f.Packs E.H b → k.Unknown E.H f → k.Holds E.H f → f.witness.id.chain = inv.layer →
        (∃ ord, r f.witness.id = some ord ∧ ord.isValid = true) →
        ∃ k', consumeFascia E.H r f k = some (k', none) ∧ k'.OfContract c [] (some (E.H.sealHash x)) ∧
          ∃ fuel con, ∀ fuel', fuel ≤ fuel' → k'.transfer E.H I S fuel' c [] (some (E.H.sealHash x)) = some (.ok con) := by
  obtain ⟨b, hb⟩ := C93_composed hE hT hp
  refine ⟨b, hb, fun f r hf hpk hun hr hch hv => ?_⟩
  have hsnd : ∀ e ∈ es, e.Sound E.H := hfur.sound
  have hprop : ∀ e ∈ es, e.Proper E.H := fun e he => (hsnd e he).proper
  obtain ⟨ord, hv1, hv2⟩ := hv
  obtain ⟨k', hd⟩ := C94_payment hE hH hG hprop (allDone_accepting _ h) hb hf.proper hpk.toMadeOf hun hr hch (by rw [hv1]; rfl)
  have hd' : StockEvent.Done E.H I M G k k' (.fascia f r) := hd
  have hk := allDone_reachable hG hsnd h
  have hcar : ∀ t ∈ b.payments, f.Carries E.H k c t.op := by
    intro t ht
    have := ((C38_inputs hE hb hp.contract).1 t ht).1
    rw [← this]
    exact packs_carries hH hM hG hfur h hun hf.proper hpk ht
  have honly := packs_only hE hH hb hp.contract hx hf.proper hpk
  have hspent' : ∀ a ∈ k.stateAt c prevs, a.opout.op = c ∨ Traced E.H es k'.Valid c a.opout.op := by
    intro a ha
    refine (hspent a ha).imp_right (fun ht => ?_)
    obtain ⟨t, ht', -⟩ := ((C38_inputs hE hb hp.contract).2 a.opout).2 ⟨a, ha, rfl⟩
    obtain ⟨e, he, -⟩ := hpk.all t ht'
    have hbr : StockEvent.Brings E.H (.fascia f r) e.1 e.2 f.witness.id := .fascia f r _ _ he
    obtain ⟨r₁, ord', h4, h5, -, h7⟩ := C64_order hH hG hk hf hd' hbr
    cases h4
    rw [hv1] at h5
    cases h5
    have hvalid : k'.Valid f.witness.id := by rw [Stock.Valid, h7, hv2]
    exact ht.mono hH hsnd (fun _ h => h) (fun w hw => fascia_valid hf.proper hd' hvalid hw)
  have hfur' := furnished_fascia (r := r) hH hM hG hfur h hun hf hpk.ids
  have hu' := oneCommitted_fascia (r := r) hH hM hG hfur h hun hu hpk.methods
  obtain ⟨d1, d2, d3⟩ := fascia_docs hd'
  refine ⟨k', hd, ?_, ?_⟩
  · exact traced_of hH hM hG hfur' (allDone_append h ⟨k', hd', rfl⟩) (V := k'.Valid)
      (fun o ho => .inr (paid_requested hE hH hG hsnd h hb hp.contract hspent' hnew hf honly hd' ⟨ord, hv1, hv2⟩ ho))
  · refine C89_made hE hH hM hG hI hS h hb hp.contract hspent' hnew hcar honly hd' ⟨ord, hv1, hv2⟩ hfur' himp hu' ?_
    intro g si h1 h2
    refine hfew g si ?_ ?_
    · simpa only [MemStash.genesis, d3] using h1
    · simpa only [MemStash.schema, d1] using h2

theorem output_some {x : Seal} (hx : x.txid.isSome = true) (w : WitnessId) : (x.toOutputWith w).isSome = true := by
  cases ht : x.txid with
  | none => rw [ht] at hx; cases hx
  | some t => simp [Seal.toOutputWith, ht]

/-- What the payee has to know about the transfer. -/
theorem paid_settled {E : CEnv} {n : Nat} (hE : E.Lawful n) (hT : E.TagMaps) (hH : E.H.Binding) (hM : M.Lawful) (hG : ∀ d, OMap.Sorted (G d).maxItems)
    (hI : Ids.Lawful E.H I) (hS : S.Lawful) (h : AllDone E.H I M G es .empty k) (hfur : Furnished E.H I S es)
    {W : Wallet} {inv : Inv.Invoice} {prevs : List OutSeal} {c iface ty : Nat} (hp : k.Payable E W inv prevs c iface ty)
    (himp : Imported E.H es c) (hu : OneCommitted E.H es c) (hfew : k.FewIfaces I c) (hnd : k.stash.NamesDiffer)
    (hspent : ∀ a ∈ k.stateAt c prevs, a.opout.op = c ∨ Traced E.H es k.Valid c a.opout.op)
    {x : Seal} (hx : x.txid.isSome = true) (hnew : k.index.opoutsByTerminals [E.H.sealHash x] = []) :
    ∃ b, compose E W k inv prevs = .ok b ∧
      ∀ f r, StockEvent.Sound E.H (.fascia f r) → f.Packs E.H b → k.Unknown E.H f → k.Holds E.H f → f.witness.id.chain = inv.layer →
        (∃ ord, r f.witness.id = some ord ∧ ord.isValid = true) →
        ∃ k', consumeFascia E.H r f k = some (k', none) ∧
          ∃ fuel con, (∀ fuel', fuel ≤ fuel' → k'.transfer E.H I S fuel' c [] (some (E.H.sealHash x)) = some (.ok con)) ∧
          (∃ es', (∀ e ∈ es', e.Proper E.H) ∧ runStock E.H I M G es' .empty = some k') ∧ k'.OfContract c [] (some (E.H.sealHash x)) ∧ k'.stash.NamesDiffer ∧
          ∀ t ∈ b.payments, f.Carries E.H k c t.op := by
  obtain ⟨b, hb, hall⟩ := C95_transferred hE hT hH hM hG hI hS h hfur hp himp hu hfew hspent hx hnew
  refine ⟨b, hb, fun f r hf hpk hun hr hch hv => ?_⟩
  obtain ⟨k', hd, hoc, fuel, con, htr⟩ := hall f r hf hpk hun hr hch hv
  have hd' : StockEvent.Done E.H I M G k k' (.fascia f r) := hd
  refine ⟨k', hd, fuel, con, htr, ⟨es ++ [.fascia f r], ?_, allDone_run _ (allDone_append (es₂ := [.fascia f r]) h ⟨k', hd', rfl⟩)⟩, hoc, ?_, ?_⟩
  · intro e he
    rcases List.mem_append.mp he with he | he
    · exact (hfur.sound e he).proper
    · rw [List.mem_singleton] at he; exact he ▸ hf.proper
  · obtain ⟨-, d2, -⟩ := fascia_docs hd'
    intro i j d d' h1 h2
    simp only [MemStash.ifaceById, d2] at h1 h2
    exact hnd i j d d' h1 h2
  · intro t ht
    have := ((C38_inputs hE hb hp.contract).1 t ht).1
    rw [← this]
    exact packs_carries hH hM hG hfur h hun hf.proper hpk ht

/-- **C95**. And any wallet which has the seal, has nothing contradicting the transfer and hasn't seen outputs of the payments accepts it, if its contents are valid and there is room. If the witnesses aren't
archived, the payee has visible allocations of the invoiced type, at the outputs which the seal defines, of the payments, which sum up to exactly the invoiced amount. (`hnd`: with two
interfaces of the same name accepting may panic, see `C73_same_name_fails`.) -/
theorem C95_paid {E : CEnv} {n : Nat} (hE : E.Lawful n) (hT : E.TagMaps) (hH : E.H.Binding) (hM : M.Lawful) (hG : ∀ d, OMap.Sorted (G d).maxItems)
    (hI : Ids.Lawful E.H I) (hS : S.Lawful) (hSP : S.ProvesFor M) (h : AllDone E.H I M G es .empty k) (hfur : Furnished E.H I S es)
    {W : Wallet} {inv : Inv.Invoice} {prevs : List OutSeal} {c iface ty amt : Nat} (hp : k.Payable E W inv prevs c iface ty)
    (hamt : inv.ownedState = .amount amt) (himp : Imported E.H es c) (hu : OneCommitted E.H es c) (hfew : k.FewIfaces I c) (hnd : k.stash.NamesDiffer)
    (hspent : ∀ a ∈ k.stateAt c prevs, a.opout.op = c ∨ Traced E.H es k.Valid c a.opout.op)
    {x : Seal} (hx : x.txid.isSome = true) (hsec : inv.secret = some (E.H.sealHash x)) (hnew : k.index.opoutsByTerminals [E.H.sealHash x] = []) :
    ∃ b, compose E W k inv prevs = .ok b ∧
      ∀ f r, StockEvent.Sound E.H (.fascia f r) → f.Packs E.H b → k.Unknown E.H f → k.Holds E.H f → f.witness.id.chain = inv.layer →
        (∃ ord, r f.witness.id = some ord ∧ ord.isValid = true) →
        ∃ k', consumeFascia E.H r f k = some (k', none) ∧
          ∃ fuel con, (∀ fuel', fuel ≤ fuel' → k'.transfer E.H I S fuel' c [] (some (E.H.sealHash x)) = some (.ok con)) ∧
          ∀ r', con.Checked G r' → (∀ wb ∈ con.data.bundles, r' wb.id ≠ some .archived) →
          ∀ k₁ : Stock, k₁.Reachable E.H → x ∈ k₁.stash.secretSeals → k₁.Agrees E.H M con → k₁.Room E.H I con →
            (∀ t ∈ b.payments, ∀ no, k₁.Unseen c .fungible ⟨t.op.id E.H, ty, no⟩) →
          ∃ k₂, k₁.consumeConsignment E.H I M G r' con = some (k₂, none) ∧
            ∃ view, k₂.state.contractState c = .ok view ∧ ∃ l : List OutAssign, (l.map (fun a => a.opout)).Nodup ∧
              (∀ a ∈ l, a ∈ view.all .fungible ∧ a.opout.ty = ty ∧ (∃ t ∈ b.payments, t.op.id E.H = a.opout.op) ∧
                ∃ w, a.witness = some w ∧ x.toOutputWith w = some a.sl) ∧
              (l.map (fun a => a.state.amount)).sum = amt := by
  obtain ⟨b, hb, hall⟩ := paid_settled hE hT hH hM hG hI hS h hfur hp himp hu hfew hnd hspent hx hnew
  refine ⟨b, hb, fun f r hf hpk hun hr hch hv => ?_⟩
  obtain ⟨k', hd, fuel, con, htr, ⟨es', hprop', hrun⟩, hoc, hnd', hcar⟩ := hall f r hf hpk hun hr hch hv
  refine ⟨k', hd, fuel, con, htr, fun r' hck hna k₁ hk₁ hx₁ hag hrm hus => ?_⟩
  obtain ⟨k₂, hacc⟩ := C73_accepted_partial hH hG hSP hprop' hrun (htr fuel (Nat.le_refl _)) hnd' hoc hck hk₁ hag hrm
  exact ⟨k₂, hacc, C89_arrives (k'' := k') (later := []) hE hH hM hG (fun e he => (hfur.sound e he).proper) (allDone_run _ h) hb hp.contract hp.typed hamt hp.own.once
    (.inr (by have hsuf := hp.enough; rw [hamt] at hsuf; exact hsuf.2)) hsec hf hcar hd
    (by simp) rfl (htr fuel (Nat.le_refl _)) hk₁ hx₁ hus hacc (fun wb hwb => ⟨output_some hx _, hna wb hwb⟩)⟩

/-- **C95** (new wallet). In particular a wallet which has nothing but the seal, if at most 255 outputs in the transfer are assigned to any one secret seal. -/
theorem C95_new_wallet {E : CEnv} {n : Nat} (hE : E.Lawful n) (hT : E.TagMaps) (hH : E.H.Binding) (hM : M.Lawful) (hG : ∀ d, OMap.Sorted (G d).maxItems)
    (hI : Ids.Lawful E.H I) (hS : S.Lawful) (hSP : S.ProvesFor M) (h : AllDone E.H I M G es .empty k) (hfur : Furnished E.H I S es)
    {W : Wallet} {inv : Inv.Invoice} {prevs : List OutSeal} {c iface ty amt : Nat} (hp : k.Payable E W inv prevs c iface ty)
    (hamt : inv.ownedState = .amount amt) (himp : Imported E.H es c) (hu : OneCommitted E.H es c) (hfew : k.FewIfaces I c) (hnd : k.stash.NamesDiffer)
    (hspent : ∀ a ∈ k.stateAt c prevs, a.opout.op = c ∨ Traced E.H es k.Valid c a.opout.op)
    {x : Seal} (hx : x.txid.isSome = true) (hsec : inv.secret = some (E.H.sealHash x)) (hnew : k.index.opoutsByTerminals [E.H.sealHash x] = []) :
    ∃ b, compose E W k inv prevs = .ok b ∧
      ∀ f r, StockEvent.Sound E.H (.fascia f r) → f.Packs E.H b → k.Unknown E.H f → k.Holds E.H f → f.witness.id.chain = inv.layer →
        (∃ ord, r f.witness.id = some ord ∧ ord.isValid = true) →
        ∃ k', consumeFascia E.H r f k = some (k', none) ∧
          ∃ fuel con, (∀ fuel', fuel ≤ fuel' → k'.transfer E.H I S fuel' c [] (some (E.H.sealHash x)) = some (.ok con)) ∧
          ∀ r', con.Checked G r' → (∀ wb ∈ con.data.bundles, r' wb.id ≠ some .archived) → (∀ s, con.data.hiddenTo E.H s ≤ 255) →
          ∃ k₂, (Stock.fresh [x]).consumeConsignment E.H I M G r' con = some (k₂, none) ∧
            ∃ view, k₂.state.contractState c = .ok view ∧ ∃ l : List OutAssign, (l.map (fun a => a.opout)).Nodup ∧
              (∀ a ∈ l, a ∈ view.all .fungible ∧ a.opout.ty = ty ∧ (∃ t ∈ b.payments, t.op.id E.H = a.opout.op) ∧
                ∃ w, a.witness = some w ∧ x.toOutputWith w = some a.sl) ∧
              (l.map (fun a => a.state.amount)).sum = amt := by
  obtain ⟨b, hb, hall⟩ := paid_settled hE hT hH hM hG hI hS h hfur hp himp hu hfew hnd hspent hx hnew
  refine ⟨b, hb, fun f r hf hpk hun hr hch hv => ?_⟩
  obtain ⟨k', hd, fuel, con, htr, ⟨es', hprop', hrun⟩, hoc, hnd', hcar⟩ := hall f r hf hpk hun hr hch hv
  refine ⟨k', hd, fuel, con, htr, fun r' hck hna hhid => ?_⟩
  obtain ⟨k₂, hacc⟩ := C73_new_wallet_partial hH hG hSP hprop' hrun (htr fuel (Nat.le_refl _)) hnd' hoc hck (seals := [x])
    (by intro y hy wb _; rw [List.mem_singleton.1 hy]; exact output_some hx _) hhid
  exact ⟨k₂, hacc, C89_arrives (k'' := k') (later := []) hE hH hM hG (fun e he => (hfur.sound e he).proper) (allDone_run _ h) hb hp.contract hp.typed hamt hp.own.once
    (.inr (by have hsuf := hp.enough; rw [hamt] at hsuf; exact hsuf.2)) hsec hf hcar hd
    (by simp) rfl (htr fuel (Nat.le_refl _)) (k₁ := Stock.fresh [x]) ⟨I, M, G, [.secretSeal x], hG, by simp [StockEvent.Proper], rfl⟩ (by simp [Stock.fresh])
    (by intro t _ no v hv; cases hv) hacc (fun wb hwb => ⟨output_some hx _, hna wb hwb⟩)⟩

/-- **C95** (tokens). The same for an invoice for a token: the payee sees this very token. -/
theorem C95_token {E : CEnv} {n : Nat} (hE : E.Lawful n) (hT : E.TagMaps) (hH : E.H.Binding) (hM : M.Lawful) (hG : ∀ d, OMap.Sorted (G d).maxItems)
    (hI : Ids.Lawful E.H I) (hS : S.Lawful) (hSP : S.ProvesFor M) (h : AllDone E.H I M G es .empty k) (hfur : Furnished E.H I S es)
    {W : Wallet} {inv : Inv.Invoice} {prevs : List OutSeal} {c iface ty : Nat} {al : Inv.Allocation} (hp : k.Payable E W inv prevs c iface ty)
    (hal : inv.ownedState = .data al) (himp : Imported E.H es c) (hu : OneCommitted E.H es c) (hfew : k.FewIfaces I c) (hnd : k.stash.NamesDiffer)
    (hspent : ∀ a ∈ k.stateAt c prevs, a.opout.op = c ∨ Traced E.H es k.Valid c a.opout.op)
    {x : Seal} (hx : x.txid.isSome = true) (hsec : inv.secret = some (E.H.sealHash x)) (hnew : k.index.opoutsByTerminals [E.H.sealHash x] = []) :
    ∃ b, compose E W k inv prevs = .ok b ∧
      ∀ f r, StockEvent.Sound E.H (.fascia f r) → f.Packs E.H b → k.Unknown E.H f → k.Holds E.H f → f.witness.id.chain = inv.layer →
        (∃ ord, r f.witness.id = some ord ∧ ord.isValid = true) →
        ∃ k', consumeFascia E.H r f k = some (k', none) ∧
          ∃ fuel con, (∀ fuel', fuel ≤ fuel' → k'.transfer E.H I S fuel' c [] (some (E.H.sealHash x)) = some (.ok con)) ∧
          ∀ r', con.Checked G r' → (∀ wb ∈ con.data.bundles, r' wb.id ≠ some .archived) →
          ∀ k₁ : Stock, k₁.Reachable E.H → x ∈ k₁.stash.secretSeals → k₁.Agrees E.H M con → k₁.Room E.H I con →
            (∀ t ∈ b.payments, ∀ no, k₁.Unseen c .structured ⟨t.op.id E.H, ty, no⟩) →
          ∃ k₂, k₁.consumeConsignment E.H I M G r' con = some (k₂, none) ∧
            ∃ view, k₂.state.contractState c = .ok view ∧ ∃ a ∈ view.all .structured, a.opout.ty = ty ∧ a.state.data? = some (E.dataOf al) ∧
              (∃ t ∈ b.payments, t.op.id E.H = a.opout.op) ∧ ∃ w, a.witness = some w ∧ x.toOutputWith w = some a.sl := by
  obtain ⟨b, hb, hall⟩ := paid_settled hE hT hH hM hG hI hS h hfur hp himp hu hfew hnd hspent hx hnew
  refine ⟨b, hb, fun f r hf hpk hun hr hch hv => ?_⟩
  obtain ⟨k', hd, fuel, con, htr, ⟨es', hprop', hrun⟩, hoc, hnd', hcar⟩ := hall f r hf hpk hun hr hch hv
  refine ⟨k', hd, fuel, con, htr, fun r' hck hna k₁ hk₁ hx₁ hag hrm hus => ?_⟩
  obtain ⟨k₂, hacc⟩ := C73_accepted_partial hH hG hSP hprop' hrun (htr fuel (Nat.le_refl _)) hnd' hoc hck hk₁ hag hrm
  exact ⟨k₂, hacc, C92_token_arrives (k'' := k') (later := []) hE hH hM hG (fun e he => (hfur.sound e he).proper) (allDone_run _ h) hb hp.contract hp.typed hal hp.own.once
    hsec hf hcar hd (by simp) rfl (htr fuel (Nat.le_refl _)) hk₁ hx₁ hus hacc (fun wb hwb => ⟨output_some hx _, hna wb hwb⟩)⟩

/-- **C95** (tokens, new wallet). -/
theorem C95_token_new_wallet {E : CEnv} {n : Nat} (hE : E.Lawful n) (hT : E.TagMaps) (hH : E.H.Binding) (hM : M.Lawful) (hG : ∀ d, OMap.Sorted (G d).maxItems)
    (hI : Ids.Lawful E.H I) (hS : S.Lawful) (hSP : S.ProvesFor M) (h : AllDone E.H I M G es .empty k) (hfur : Furnished E.H I S es)
    {W : Wallet} {inv : Inv.Invoice} {prevs : List OutSeal} {c iface ty : Nat} {al : Inv.Allocation} (hp : k.Payable E W inv prevs c iface ty)
    (hal : inv.ownedState = .data al) (himp : Imported E.H es c) (hu : OneCommitted E.H es c) (hfew : k.FewIfaces I c) (hnd : k.stash.NamesDiffer)
    (hspent : ∀ a ∈ k.stateAt c prevs, a.opout.op = c ∨ Traced E.H es k.Valid c a.opout.op)
    {x : Seal} (hx : x.txid.isSome = true) (hsec : inv.secret = some (E.H.sealHash x)) (hnew : k.index.opoutsByTerminals [E.H.sealHash x] = []) :
    ∃ b, compose E W k inv prevs = .ok b ∧
      ∀ f r, StockEvent.Sound E.H (.fascia f r) → f.Packs E.H b → k.Unknown E.H f → k.Holds E.H f → f.witness.id.chain = inv.layer →
        (∃ ord, r f.witness.id = some ord ∧ ord.isValid = true) →
        ∃ k', consumeFascia E.H r f k = some (k', none) ∧
          ∃ fuel con, (∀ fuel', fuel ≤ fuel' → k'.transfer E.H I S fuel' c [] (some (E.H.sealHash x)) = some (.ok con)) ∧
          ∀ r', con.Checked G r' → (∀ wb ∈ con.data.bundles, r' wb.id ≠ some .archived) → (∀ s, con.data.hiddenTo E.H s ≤ 255) →
          ∃ k₂, (Stock.fresh [x]).consumeConsignment E.H I M G r' con = some (k₂, none) ∧
            ∃ view, k₂.state.contractState c = .ok view ∧ ∃ a ∈ view.all .structured, a.opout.ty = ty ∧ a.state.data? = some (E.dataOf al) ∧
              (∃ t ∈ b.payments, t.op.id E.H = a.opout.op) ∧ ∃ w, a.witness = some w ∧ x.toOutputWith w = some a.sl := by
  obtain ⟨b, hb, hall⟩ := paid_settled hE hT hH hM hG hI hS h hfur hp himp hu hfew hnd hspent hx hnew
  refine ⟨b, hb, fun f r hf hpk hun hr hch hv => ?_⟩
  obtain ⟨k', hd, fuel, con, htr, ⟨es', hprop', hrun⟩, hoc, hnd', hcar⟩ := hall f r hf hpk hun hr hch hv
  refine ⟨k', hd, fuel, con, htr, fun r' hck hna hhid => ?_⟩
  obtain ⟨k₂, hacc⟩ := C73_new_wallet_partial hH hG hSP hprop' hrun (htr fuel (Nat.le_refl _)) hnd' hoc hck (seals := [x])
    (by intro y hy wb _; rw [List.mem_singleton.1 hy]; exact output_some hx _) hhid
  exact ⟨k₂, hacc, C92_token_arrives (k'' := k') (later := []) hE hH hM hG (fun e he => (hfur.sound e he).proper) (allDone_run _ h) hb hp.contract hp.typed hal hp.own.once
    hsec hf hcar hd (by simp) rfl (htr fuel (Nat.le_refl _)) (k₁ := Stock.fresh [x]) ⟨I, M, G, [.secretSeal x], hG, by simp [StockEvent.Proper], rfl⟩ (by simp [Stock.fresh])
    (by intro t _ no v hv; cases hv) hacc (fun wb hwb => ⟨output_some hx _, hna wb hwb⟩)⟩

end

/-! ### Examples -/

section
open PaidWorld

theorem exPaidSpendable {c : Nat} {prevs : List OutSeal} (h : k.Spendable PayWorld.E c prevs) : k.Spendable E c prevs :=
  ⟨h.nonempty, h.few, h.defined, h.once⟩

theorem exPaidPayable : k.Payable E PayWorld.W inv PayWorld.prevs 0 7 4000 where
  contract := rfl
  named := ⟨_, rfl, by decide⟩
  fresh := by intro e he; cases he; decide
  builder := exGood (by decide +kernel)
  typed := by decide +kernel
  vout := ⟨fun h => (by cases h), fun ⟨p, hp⟩ => (by cases hp)⟩
  alloc := fun _ _ _ _ => rfl
  own := exPaidSpendable (exSpendable (by decide +kernel) (by decide +kernel) (by decide +kernel) (by decide +kernel) (by decide +kernel))
  enough := by show 12 ≤ sumOf 4000 (k.stateAt 0 PayWorld.prevs) ∧ sumOf 4000 (k.stateAt 0 PayWorld.prevs) < 18446744073709551616; decide +kernel
  blank := by
    have h : ∀ id ∈ k.index.contractsAssigning (PayWorld.prevs.map OutSeal.outpoint), id ≠ 0 →
        (blankBuilder E k.stash id (.name 7)).toBool = true := by decide +kernel
    exact fun id hid hne => exGood (h id hid hne)
  others := by
    have h : ∀ id ∈ k.index.contractsAssigning (PayWorld.prevs.map OutSeal.outpoint), id ≠ 0 → id = 2 := by decide +kernel
    intro id hid hne
    rw [h id hid hne]
    exact exPaidSpendable (exSpendable (by decide +kernel) (by decide +kernel) (by decide +kernel) (by decide +kernel) (by decide +kernel))
  count := by decide +kernel
  balance := by intro ins outs h; cases h

theorem exPacks {b : Batch} (hp : b.payments.map (fun t => t.op) = [p0, p1]) : fascia.Packs H b := by
  have hc : ∀ t ∈ b.payments, t.op = p0 ∨ t.op = p1 := by
    intro t ht
    have : t.op ∈ [p0, p1] := by rw [← hp]; exact List.mem_map_of_mem (f := fun t : BuiltTransition => t.op) ht
    simpa using this
  have h0 : ∀ u ∈ [p0, p1], ∃ t ∈ b.transitionsOf 0, t.op = u := by
    intro u hu
    rw [← hp] at hu
    obtain ⟨t, ht, rfl⟩ := List.mem_map.1 hu
    refine ⟨t, List.mem_filter.2 ⟨List.mem_append_left _ ht, ?_⟩, rfl⟩
    rcases hc t ht with h | h <;> rw [h] <;> rfl
  refine ⟨⟨?_, by decide +kernel, ?_⟩, ?_, ?_, ?_⟩
  · intro e he
    simp only [fascia, List.mem_cons, List.not_mem_nil, or_false] at he
    rcases he with rfl | rfl
    · refine ⟨by simp [b0], fun u hu => h0 u ?_⟩
      simp only [b0, OMap.vals, List.map_cons, List.map_nil, List.mem_singleton] at hu
      simp [hu]
    · refine ⟨by simp [b1], fun u hu => h0 u ?_⟩
      simp only [b1, OMap.vals, List.map_cons, List.map_nil, List.mem_singleton] at hu
      simp [hu]
  · intro e he e' he' o h1 h2
    simp only [fascia, List.mem_cons, List.not_mem_nil, or_false] at he he'
    rcases he with rfl | rfl <;> rcases he' with rfl | rfl
    · rfl
    · simp only [b0, b1, OMap.contains, OMap.get?_cons, OMap.get?_nil] at h1 h2
      split at h1 <;> split at h2 <;> simp_all
    · simp only [b0, b1, OMap.contains, OMap.get?_cons, OMap.get?_nil] at h1 h2
      split at h1 <;> split at h2 <;> simp_all
    · rfl
  · intro t ht
    rcases hc t ht with h | h <;> rw [h]
    · exact ⟨(0, b0), by simp [fascia], rfl, by simp [b0, OMap.vals]⟩
    · exact ⟨(0, b1), by simp [fascia], rfl, by simp [b1, OMap.vals]⟩
  · intro e he t _ t' _ h1 h2
    simp only [fascia, List.mem_cons, List.not_mem_nil, or_false] at he
    rcases he with rfl | rfl
    · simp only [b0, OMap.vals, List.map_cons, List.map_nil, List.mem_singleton] at h1 h2
      rw [h1, h2]
    · simp only [b1, OMap.vals, List.map_cons, List.map_nil, List.mem_singleton] at h1 h2
      rw [h1, h2]
  · intro e he e' he' _ h
    simp only [fascia, List.mem_cons, List.not_mem_nil, or_false] at he he'
    rcases he with rfl | rfl <;> rcases he' with rfl | rfl
    · rfl
    · cases h
    · cases h
    · rfl

theorem exPaidNone (e : StockEvent) (he : e ∈ PayWorld.events) (c : Nat) (b : Bundle) (w : WitnessId) : ¬ e.Brings H c b w := by
  intro hb
  simp only [PayWorld.events, List.mem_cons, List.not_mem_nil, or_false] at he
  rcases he with rfl | rfl
  · cases hb with | consignment _ _ wb _ hw _ => cases hw
  · cases hb with | consignment _ _ wb _ hw _ => cases hw

theorem exPaidFurnished₀ : Furnished H World.I World.E PayWorld.events := by
  have h := exPaidFurnished
  have hm : ∀ e ∈ PayWorld.events, e ∈ PayWorld.events ++ [.fascia fascia World.r] := fun e he => List.mem_append_left _ he
  exact ⟨fun e he => h.sound e (hm e he), fun e he e' he' => h.same e (hm e he) e' (hm e' he'), fun c r he => h.noExtensions c r (hm _ he),
    fun c r he => h.schema c r (hm _ he), fun c r he => h.types c r (hm _ he), fun c r he => h.libs c r (hm _ he), fun x he => h.kitTypes x (hm _ he)⟩

example : ∃ b, compose E PayWorld.W k inv PayWorld.prevs = .ok b ∧ b.payments.map (fun t => ((t.outs 4000).map Prod.fst).length) = [1, 2] := PayWorld.ok_any (by decide +kernel)

/-- The payment of 12 in the small world, out of 10 and 7: all conditions of C95 are met, and the fascia is one which it speaks about. The new wallet accepts the transfer and sees 12. -/
example : ∃ b k' con k₂ view, compose E PayWorld.W k inv PayWorld.prevs = .ok b ∧ fascia.Packs H b ∧ consumeFascia H World.r fascia k = some (k', none) ∧
    (∃ fuel, ∀ fuel', fuel ≤ fuel' → k'.transfer H World.I World.E fuel' 0 [] (some (H.sealHash sX)) = some (.ok con)) ∧
    (Stock.fresh [sX]).consumeConsignment H World.I World.M World.G World.r con = some (k₂, none) ∧ k₂.state.contractState 0 = .ok view ∧
    ∃ l : List OutAssign, (∀ a ∈ l, a ∈ view.all .fungible) ∧ (l.map (fun a => a.state.amount)).sum = 12 := by
  obtain ⟨b, hb, hp⟩ := exComposed
  have hsp : (k.stateAt 0 PayWorld.prevs).all (fun a => decide (a.opout.op = 0)) = true := by decide +kernel
  have hfew : (k.stash.schema 10).all (fun si => decide (si.iimpls.length ≤ 126)) = true := by decide +kernel
  have hs : H.sealHash sX = 12 := by decide +kernel
  have hnd : k.stash.NamesDiffer := by
    have h : ∀ e ∈ k.stash.ifaces, ∀ e' ∈ k.stash.ifaces, e.2.name = e'.2.name → e.1 = e'.1 := by decide +kernel
    exact fun i j d d' hi hj he => h (i, d) (OMap.mem_of_get? hi) (j, d') (OMap.mem_of_get? hj) he
  obtain ⟨b', hb', hall⟩ := C95_new_wallet (S := World.E) (I := World.I) (M := World.M) (G := World.G) (E := E) (x := sX) (amt := 12)
    E_lawful exTagMaps H_binding exLaws.2.2.1 World.G_sorted ⟨exLaws.1.schema_inj, fun _ _ _ => rfl⟩ exLaws.2.1 exPass_proves exPaidDone exPaidFurnished₀ exPaidPayable rfl
    ⟨_, _, .head _, by decide +kernel⟩
    (by
      intro e he _ _ b _ w hb
      exact absurd hb (exPaidNone e he _ b w))
    (by
      intro g si _ hsi
      have h5 : k.stash.schema 10 = some si := hsi
      rw [h5] at hfew
      exact of_decide_eq_true hfew) hnd
    (fun a ha => .inl (of_decide_eq_true (List.all_eq_true.mp hsp a ha))) rfl (by show some 12 = some (H.sealHash sX); rw [hs])
    (by show k.index.opoutsByTerminals [H.sealHash sX] = []; rw [hs]; decide +kernel)
  rw [hb] at hb'
  cases hb'
  obtain ⟨k', h1, fuel, con, h2, h3⟩ := hall fascia World.r fascia_sound (exPacks hp) exPaidUnknown exPaidHolds rfl ⟨_, rfl, rfl⟩
  have hc : ((k.consumeFascia H World.r fascia).bind (fun x => (x.1.transfer H World.I World.E 100 0 [] (some 12)).bind (fun y =>
      y.toOption.map (fun con => decide (exPassOk con))))) = some true := by decide +kernel
  have h1' : consumeFascia H World.r fascia k = some (k', none) := h1
  rw [h1', Option.bind_some] at hc
  obtain ⟨y, hy, hc⟩ := Option.bind_eq_some_iff.mp hc
  obtain ⟨con', hcon, hc⟩ := Option.map_eq_some_iff.mp hc
  have g1 := transfer_mono hy (Nat.le_max_right fuel 100)
  have g2 := h2 _ (Nat.le_max_left fuel 100)
  have g2' : k'.transfer H World.I World.E (max fuel 100) 0 [] (some (H.sealHash sX)) = some (.ok con) := g2
  rw [hs, g1] at g2'
  cases Option.some.inj g2'
  cases hcon
  have hok := of_decide_eq_true hc
  obtain ⟨k₂, h4, view, h5, l, -, h6, h7⟩ := h3 World.r (exPass_checked hok) (fun _ _ h => by cases h) (exPass_hidden hok)
  exact ⟨b, k', con, k₂, view, hb, exPacks hp, h1, ⟨fuel, h2⟩, h4, h5, l, fun a ha => (h6 a ha).1, h7⟩

end

section
open TokenWorld

theorem exTokenSpendable {c : Nat} {prevs : List OutSeal} (h : k.Spendable PayWorld.E c prevs) : k.Spendable E c prevs :=
  ⟨h.nonempty, h.few, h.defined, h.once⟩

theorem exTokenPayable : k.Payable E PayWorld.W invS TokenWorld.prevs 0 7 4002 where
  contract := rfl
  named := ⟨_, rfl, by decide⟩
  fresh := by intro e he; cases he; decide
  builder := exGood (by decide +kernel)
  typed := by decide +kernel
  vout := ⟨fun h => (by cases h), fun ⟨p, hp⟩ => (by cases hp)⟩
  alloc := fun _ _ _ _ => rfl
  own := exTokenSpendable (exSpendable (by decide +kernel) (by decide +kernel) (by decide +kernel) (by decide +kernel) (by decide +kernel))
  enough := by show (∃ a ∈ k.stateAt 0 TokenWorld.prevs, a.opout.ty = 4002 ∧ a.state.data? = some 5) ∧ sumOf 4002 (k.stateAt 0 TokenWorld.prevs) < 18446744073709551616; decide +kernel
  blank := by
    have h : ∀ id ∈ k.index.contractsAssigning (TokenWorld.prevs.map OutSeal.outpoint), id ≠ 0 →
        (blankBuilder E k.stash id (.name 7)).toBool = true := by decide +kernel
    exact fun id hid hne => exGood (h id hid hne)
  others := by
    have h : ∀ id ∈ k.index.contractsAssigning (TokenWorld.prevs.map OutSeal.outpoint), id ≠ 0 → id = 2 := by decide +kernel
    intro id hid hne
    rw [h id hid hne]
    exact exTokenSpendable (exSpendable (by decide +kernel) (by decide +kernel) (by decide +kernel) (by decide +kernel) (by decide +kernel))
  count := by decide +kernel
  balance := by intro ins outs h; cases h

theorem exTokenPacks {b : Batch} (hp : b.payments.map (fun t => t.op) = [tS]) (h2 : (b.transitionsOf 2).map (fun t => t.op) = [q])
    (h0 : (b.transitionsOf 0).map (fun t => t.op) = [tS]) : fS.Packs H b := by
  have hc : ∀ t ∈ b.payments, t.op = tS := by
    intro t ht
    have : t.op ∈ [tS] := by rw [← hp]; exact List.mem_map_of_mem (f := fun t : BuiltTransition => t.op) ht
    simpa using this
  have one : ∀ {l : List BuiltTransition} {u : Op}, l.map (fun t => t.op) = [u] → ∃ t ∈ l, t.op = u := by
    intro l u hl
    have : u ∈ l.map (fun t => t.op) := by rw [hl]; exact .head _
    exact List.mem_map.1 this
  refine ⟨⟨?_, by decide +kernel, ?_⟩, ?_, ?_, ?_⟩
  · intro e he
    simp only [fS, List.mem_cons, List.not_mem_nil, or_false] at he
    rcases he with rfl | rfl
    · refine ⟨by simp [bS], fun u hu => ?_⟩
      simp only [bS, OMap.vals, List.map_cons, List.map_nil, List.mem_singleton] at hu
      rw [hu]; exact one h0
    · refine ⟨by simp [bQ], fun u hu => ?_⟩
      simp only [bQ, OMap.vals, List.map_cons, List.map_nil, List.mem_singleton] at hu
      rw [hu]; exact one h2
  · intro e he e' he' o h1 h2
    simp only [fS, List.mem_cons, List.not_mem_nil, or_false] at he he'
    rcases he with rfl | rfl <;> rcases he' with rfl | rfl
    · rfl
    · simp only [bS, bQ, OMap.contains, OMap.get?_cons, OMap.get?_nil] at h1 h2
      split at h1 <;> split at h2 <;> simp_all
    · simp only [bS, bQ, OMap.contains, OMap.get?_cons, OMap.get?_nil] at h1 h2
      split at h1 <;> split at h2 <;> simp_all
    · rfl
  · intro t ht
    rw [hc t ht]
    exact ⟨(0, bS), by simp [fS], rfl, by simp [bS, OMap.vals]⟩
  · intro e _ t ht t' ht' _ _
    rw [hc t ht, hc t' ht']
  · intro e he e' he' h _
    simp only [fS, List.mem_cons, List.not_mem_nil, or_false] at he he'
    rcases he with rfl | rfl <;> rcases he' with rfl | rfl
    · rfl
    · cases h
    · cases h
    · rfl

theorem exTokenNone (e : StockEvent) (he : e ∈ PayWorld.events) (c : Nat) (b : Bundle) (w : WitnessId) : ¬ e.Brings H c b w := by
  intro hb
  simp only [PayWorld.events, List.mem_cons, List.not_mem_nil, or_false] at he
  rcases he with rfl | rfl
  · cases hb with | consignment _ _ wb _ hw _ => cases hw
  · cases hb with | consignment _ _ wb _ hw _ => cases hw

theorem exTokenFurnished : Furnished H World.I World.E PayWorld.events where
  sound e he := by
    have hp := events_proper e he
    refine ⟨hp, fun c b w h => absurd h (exTokenNone e he c b w), ?_, ?_⟩
    · intro con r hc wb hw
      subst hc
      obtain ⟨g, rfl⟩ := exPaidCons (List.mem_append_left _ he)
      cases hw
    · intro f r hc
      subst hc
      simp [PayWorld.events] at he
  same e he _ _ c b w _ _ _ hb := absurd hb (exTokenNone e he c b w)
  noExtensions con r h := exPaidFurnished₀.noExtensions con r h
  schema con r h := exPaidFurnished₀.schema con r h
  types con r h := exPaidFurnished₀.types con r h
  libs con r h := exPaidFurnished₀.libs con r h
  kitTypes x h := exPaidFurnished₀.kitTypes x h

theorem exTokenUnknown : k.Unknown H fS where
  witness := by decide +kernel
  bundles := by decide +kernel
  ops := by
    have : k.index.opBundle = [] := by decide +kernel
    intro e _ o _
    rw [this]; rfl

theorem exTokenHolds : k.Holds H fS := by
  constructor
  · intro b
    have h1 : k.index.bundleWitness = [] := by decide +kernel
    have : fS.timesBundle H b ≤ fS.bundles.length := List.length_filter_le _ _
    have h3 : fS.bundles.length = 2 := rfl
    rw [h1]
    simp only [OMap.get?_nil, Option.getD_none, List.length_nil]
    omega
  · intro s
    have h2 : k.index.terminals = [] := by decide +kernel
    have : fS.hiddenTo H s ≤ (fS.ops.map (fun t => t.assigned.length)).sum := sum_le (fun t _ => List.countP_le_length)
    have h4 : (fS.ops.map (fun t => t.assigned.length)).sum ≤ 255 := by decide +kernel
    rw [h2]
    simp only [OMap.get?_nil, Option.getD_none, List.length_nil]
    omega

/-- The payment of the token 5, with 10 and a right given on, and 20 and a right of another contract given on by a blank transition: the new wallet accepts the transfer and sees the token. -/
example : ∃ b k' con k₂ view, compose E PayWorld.W k invS TokenWorld.prevs = .ok b ∧ fS.Packs H b ∧ consumeFascia H World.r fS k = some (k', none) ∧
    (∃ fuel, ∀ fuel', fuel ≤ fuel' → k'.transfer H World.I World.E fuel' 0 [] (some (H.sealHash PaidWorld.sX)) = some (.ok con)) ∧
    (Stock.fresh [PaidWorld.sX]).consumeConsignment H World.I World.M World.G World.r con = some (k₂, none) ∧ k₂.state.contractState 0 = .ok view ∧
    ∃ a ∈ view.all .structured, a.state.data? = some 5 ∧ a.sl.outpoint = ⟨.bitcoin, 56, 0⟩ := by
  obtain ⟨b, hb, hp1, hp2, hp0⟩ := exTokenComposed
  have hsp : (k.stateAt 0 TokenWorld.prevs).all (fun a => decide (a.opout.op = 0)) = true := by decide +kernel
  have hfew : (k.stash.schema 10).all (fun si => decide (si.iimpls.length ≤ 126)) = true := by decide +kernel
  have hs : H.sealHash PaidWorld.sX = 12 := by decide +kernel
  have hnd : k.stash.NamesDiffer := by
    have h : ∀ e ∈ k.stash.ifaces, ∀ e' ∈ k.stash.ifaces, e.2.name = e'.2.name → e.1 = e'.1 := by decide +kernel
    exact fun i j d d' hi hj he => h (i, d) (OMap.mem_of_get? hi) (j, d') (OMap.mem_of_get? hj) he
  obtain ⟨b', hb', hall⟩ := C95_token_new_wallet (S := World.E) (I := World.I) (M := World.M) (G := World.G) (E := E) (x := PaidWorld.sX) (al := ⟨5, 0⟩)
    E_lawful exTagMaps H_binding exLaws.2.2.1 World.G_sorted ⟨exLaws.1.schema_inj, fun _ _ _ => rfl⟩ exLaws.2.1 exPass_proves exTokenEvents exTokenFurnished exTokenPayable rfl
    ⟨_, _, .head _, by decide +kernel⟩
    (by
      intro e he _ _ b _ w hb
      exact absurd hb (exTokenNone e he _ b w))
    (by
      intro g si _ hsi
      have h5 : k.stash.schema 10 = some si := hsi
      rw [h5] at hfew
      exact of_decide_eq_true hfew) hnd
    (fun a ha => .inl (of_decide_eq_true (List.all_eq_true.mp hsp a ha))) rfl (by show some 12 = some (H.sealHash PaidWorld.sX); rw [hs])
    (by show k.index.opoutsByTerminals [H.sealHash PaidWorld.sX] = []; rw [hs]; decide +kernel)
  rw [hb] at hb'
  cases hb'
  obtain ⟨k', h1, fuel, con, h2, h3⟩ := hall fS World.r fS_sound (exTokenPacks hp1 hp2 hp0) exTokenUnknown exTokenHolds rfl ⟨_, rfl, rfl⟩
  have hc : ((k.consumeFascia H World.r fS).bind (fun x => (x.1.transfer H World.I World.E 100 0 [] (some 12)).bind (fun y =>
      y.toOption.map (fun con => decide (exPassOk con))))) = some true := by decide +kernel
  have h1' : consumeFascia H World.r fS k = some (k', none) := h1
  rw [h1', Option.bind_some] at hc
  obtain ⟨y, hy, hc⟩ := Option.bind_eq_some_iff.mp hc
  obtain ⟨con', hcon, hc⟩ := Option.map_eq_some_iff.mp hc
  have g1 := transfer_mono hy (Nat.le_max_right fuel 100)
  have g2 := h2 _ (Nat.le_max_left fuel 100)
  have g2' : k'.transfer H World.I World.E (max fuel 100) 0 [] (some (H.sealHash PaidWorld.sX)) = some (.ok con) := g2
  rw [hs, g1] at g2'
  cases Option.some.inj g2'
  cases hcon
  have hok := of_decide_eq_true hc
  obtain ⟨k₂, h4, view, h5, a, h6, -, h7, -, w, -, h8⟩ := h3 World.r (exPass_checked hok) (fun _ _ h => by cases h) (exPass_hidden hok)
  refine ⟨b, k', con, k₂, view, hb, exTokenPacks hp1 hp2 hp0, h1, ⟨fuel, h2⟩, h4, h5, a, h6, h7, ?_⟩
  have h9 := Option.some.inj h8
  rw [← h9]
  rfl

end

end Rgb.Props
