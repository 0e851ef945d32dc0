import Verif.Lemmas.SettleOut
import Verif.Props.Settle
import Verif.Props.Change

/-! # C95: an invoice with an address is paid, from composing the payment to the view of the payee -/

namespace Rgb.Props
open Rgb Stock

section
variable {I : Ids} {M : Mpc} {G : SchemaDoc → SchemaGlobals} {S : Stock.Env} {r r' : Resolver} {k k' : Stock} {es : List StockEvent} {f : Fascia}

theorem ben_vout {W : Wallet} {inv : Inv.Invoice} {s : Seal} (hb : W.benSeal inv = .revealed s) : s.txid = none ∧ s.chain = inv.layer := by
  simp only [Wallet.benSeal] at hb
  split at hb
  · cases hb
  · cases hb; exact ⟨rfl, rfl⟩

/-- Something is paid to the output of the payee. -/
theorem paid_some {E : CEnv} {n : Nat} (hE : E.Lawful n) {W : Wallet} {inv : Inv.Invoice} {prevs : List OutSeal} {c iface ty : Nat}
    (hp : k.Payable E W inv prevs c iface ty) {b : Batch} (h : compose E W k inv prevs = .ok b) {s : Seal} (hb : W.benSeal inv = .revealed s)
    (hask : (∃ amt, inv.ownedState = .amount amt ∧ 0 < amt ∧ W.benSeal inv ≠ W.changeSeal E k inv c ty) ∨ ∃ al, inv.ownedState = .data al)
    {w : WitnessId} (hch : inv.layer = w.chain) :
    ∃ t ∈ b.payments, ∃ kind a, t.op.MakesHere E.H w kind a ∧ a.sl = ⟨inv.layer, s.method, w.txid, s.vout⟩ := by
  obtain ⟨hs0, hs1⟩ := ben_vout hb
  rcases hask with ⟨amt, hamt, hpos, hne⟩ | ⟨al, hal⟩
  · obtain ⟨-, hpaid, -, -⟩ := C38_conserved_partial hE h hp.contract hp.typed hamt hp.own.once
      (.inr (by have hsuf := hp.enough; rw [hamt] at hsuf; exact hsuf.2)) hne
    rw [hb] at hpaid
    have : ∃ t ∈ b.payments, 0 < t.paidTo ty (.revealed s) := by
      apply Classical.byContradiction
      intro hno
      have hz : ∀ l : List BuiltTransition, (∀ t ∈ l, t ∈ b.payments) → (l.map (fun t => t.paidTo ty (.revealed s))).sum = 0 := by
        intro l hl
        induction l with
        | nil => rfl
        | cons t l ih =>
          rw [List.map_cons, List.sum_cons, ih (fun t ht => hl t (by simp [ht]))]
          have : ¬ 0 < t.paidTo ty (.revealed s) := fun h0 => hno ⟨t, hl t (by simp), h0⟩
          omega
      rw [hz _ (fun _ h => h)] at hpaid
      omega
    obtain ⟨t, ht, h0⟩ := this
    obtain ⟨q, -, q2, q3⟩ := paid_here (payments_kinds hE h t ht) ty s
    rw [← q3] at h0
    cases q with
    | nil => simp at h0
    | cons x q =>
      obtain ⟨ta, p1, p2, p3⟩ := q2 x (by simp)
      exact ⟨t, ht, .fungible, ⟨⟨t.op.id E.H, ty, x.1⟩, ⟨inv.layer, s.method, w.txid, s.vout⟩, x.2, some w⟩,
        ⟨⟨rfl, rfl, ta, s, p1, p2, p3, by simp [Seal.toOutputWith, hs0, hs1, hch]⟩, s, by simp [Op.sealAt?, Op.at?, p1, p3, Assign.seal?], hs0⟩, rfl⟩
  · obtain ⟨t, ht, a, h1, -, -, h4⟩ := token_made hE h hp.contract hp.typed hal hp.own.once hb hch
    exact ⟨t, ht, _, a, h1, h4⟩

/-- **C95** (payer, address). The same as `C95_transferred` for a payment, of a token or of a positive amount, to an output of the new transaction, of which the wallet knows nothing before. Then the wallet makes a transfer of this
output, everything at which is of one closing method. (`hm`: with two closing methods at one output a part would not be found.) -/
theorem C95_output {E : CEnv} {n : Nat} (hE : E.Lawful n) (hT : E.TagMaps) (hH : E.H.Binding) (hM : M.Lawful) (hG : ∀ d, OMap.Sorted (G d).maxItems)
    (hI : Ids.Lawful E.H I) (hS : S.Lawful) (h : AllDone E.H I M G es .empty k) (hfur : Furnished E.H I S es)
    {W : Wallet} {inv : Inv.Invoice} {prevs : List OutSeal} {c iface ty : Nat} (hp : k.Payable E W inv prevs c iface ty)
    (hask : (∃ amt, inv.ownedState = .amount amt ∧ 0 < amt ∧ W.benSeal inv ≠ W.changeSeal E k inv c ty) ∨ ∃ al, inv.ownedState = .data al)
    (himp : Imported E.H es c) (hu : OneCommitted E.H es c) (hfew : k.FewIfaces I c)
    (hspent : ∀ a ∈ k.stateAt c prevs, a.opout.op = c ∨ Traced E.H es k.Valid c a.opout.op)
    {s : Seal} (hb : W.benSeal inv = .revealed s) (hm : s.method = W.method ∨ ∀ site c ty v, W.alloc site c ty v ≠ some s.vout) :
    ∃ b, compose E W k inv prevs = .ok b ∧
      ∀ f r, StockEvent.Sound E.H (.fascia f r) → f.Packs E.H b → k.Unknown E.H f → k.Holds E.H f → f.witness.id.chain = inv.layer →
        (∃ ord, r f.witness.id = some ord ∧ ord.isValid = true) → (∀ l, k.index.opoutsByOutputs c [⟨inv.layer, f.witness.id.txid, s.vout⟩] ≠ .ok l) →
        ∃ k', consumeFascia E.H r f k = some (k', none) ∧ k'.OneMethodAt c ⟨inv.layer, f.witness.id.txid, s.vout⟩ ∧
          k'.OfContract c [⟨inv.layer, f.witness.id.txid, s.vout⟩] none ∧
          ∃ fuel con, ∀ fuel', fuel ≤ fuel' → k'.transfer E.H I S fuel' c [⟨inv.layer, f.witness.id.txid, s.vout⟩] none = some (.ok con) := by
  obtain ⟨b, hcomp⟩ := C93_composed hE hT hp
  refine ⟨b, hcomp, fun f r hf hpk hun hr hch hv hfree => ?_⟩
  obtain ⟨C⟩ := compose_ok hE hcomp
  obtain rfl : C.p.contract = c := Option.some.inj (C.prepared.contract.symm.trans hp.contract)
  have hsnd : ∀ e ∈ es, e.Sound E.H := hfur.sound
  have hprop : ∀ e ∈ es, e.Proper E.H := fun e he => (hsnd e he).proper
  obtain ⟨ord, hv1, hv2⟩ := hv
  obtain ⟨k', hd⟩ := C94_payment hE hH hG hprop (allDone_accepting _ h) hcomp hf.proper hpk.toMadeOf hun hr hch (by rw [hv1]; rfl)
  have hd' : StockEvent.Done E.H I M G k k' (.fascia f r) := hd
  have hk := allDone_reachable hG hsnd h
  have hspent' : ∀ a ∈ k.stateAt C.p.contract prevs, a.opout.op = C.p.contract ∨ Traced E.H es k'.Valid C.p.contract a.opout.op := by
    intro a ha
    refine (hspent a ha).imp_right (fun ht => ?_)
    obtain ⟨t, ht', -⟩ := ((C38_inputs hE hcomp hp.contract).2 a.opout).2 ⟨a, ha, rfl⟩
    obtain ⟨e, he, -⟩ := hpk.all t ht'
    have hbr : StockEvent.Brings E.H (.fascia f r) e.1 e.2 f.witness.id := .fascia f r _ _ he
    obtain ⟨r₁, ord', h4, h5, -, h7⟩ := C64_order hH hG hk hf hd' hbr
    cases h4
    rw [hv1] at h5
    cases h5
    have hvalid : k'.Valid f.witness.id := by rw [Stock.Valid, h7, hv2]
    exact ht.mono hH hsnd (fun _ h => h) (fun w hw => fascia_valid hf.proper hd' hvalid hw)
  have hfur' := furnished_fascia (r := r) hH hM hG hfur h hun hf hpk.ids
  have hu' := oneCommitted_fascia (r := r) hH hM hG hfur h hun hu hpk.methods
  have hdone : AllDone E.H I M G (es ++ [.fascia f r]) .empty k' := allDone_append h ⟨k', hd', rfl⟩
  have hist' := Stock.Reachable.hist hH (allDone_reachable hG hfur'.sound hdone)
  have inv₁ : IdxInv k'.index := by obtain ⟨ops, ho⟩ := hist'.index; exact ho ▸ run_inv _ ops _ idxInv_empty
  -- what is at the output is made by the payments
  have made : ∀ {sl : OutSeal} {o : Opout}, sl.outpoint = ⟨inv.layer, f.witness.id.txid, s.vout⟩ → o ∈ outSet k'.index C.p.contract sl →
      ∃ bd, (C.p.contract, bd) ∈ f.bundles ∧ ∃ t ∈ b.payments, OMap.get? bd.known o.op = some t.op ∧ t.op.AssignsOut o.op (some f.witness.id) sl o ∧
        OMap.Sorted t.op.assigns := by
    intro sl o hsl ho
    rcases outs_from hd' ho with ho | ⟨bd, hbd, i, u, hu1, hu2⟩
    · exact absurd ho (free_outs hfree hsl)
    · have hi : o.op = i := by obtain ⟨_, _, _, _, _, _, _, _, _, g⟩ := hu2; rw [g]
      subst hi
      have huv : u ∈ OMap.vals bd.known := List.mem_map.mpr ⟨_, hu1, rfl⟩
      obtain ⟨t, ht, rfl⟩ := (hpk.batch _ hbd).2 u huv
      obtain ⟨hm1, hm2⟩ := List.mem_filter.1 ht
      have hcc : t.op.contract = C.p.contract := by simpa using hm2
      have htp : t ∈ b.payments := by
        rcases List.mem_append.1 hm1 with hm1 | hm1
        · exact hm1
        · exact absurd hcc (blank_targets hE C hm1).1.2
      exact ⟨bd, hbd, t, htp, OMap.Sorted.get?_of_mem (hf.proper _ hbd).1.sorted hu1, hu2, ((hf.proper _ hbd).2 _ huv).1.1⟩
  have hone : k'.OneMethodAt C.p.contract ⟨inv.layer, f.witness.id.txid, s.vout⟩ := by
    have one : ∀ ci sl, OMap.get? k'.index.contracts C.p.contract = some ci → sl ∈ OMap.keys ci.outs → sl.outpoint = ⟨inv.layer, f.witness.id.txid, s.vout⟩ →
        sl = ⟨inv.layer, s.method, f.witness.id.txid, s.vout⟩ := by
      intro ci sl hci hsl hpt
      obtain ⟨⟨_, set⟩, hmem, rfl⟩ := List.mem_map.mp hsl
      have hg := (inv₁.sorted _ _ hci).get?_of_mem hmem
      obtain ⟨o, ho⟩ := List.exists_mem_of_ne_nil _ (inv₁.nonempty _ _ hci _ _ hg)
      obtain ⟨bd, -, t, ht, -, h4, h5⟩ := made hpt (show o ∈ outSet k'.index C.p.contract _ by simp only [outSet, hci, Option.map_some, Option.getD_some, mset, hg]; exact ho)
      exact seal_at hE C hb hp.alloc hm ht h5 h4 hpt
    intro ci sl sl' hci h1 h2 e1 e2
    rw [one ci sl hci h1 e1, one ci sl' hci h2 e2]
  have hreq : ∀ o, Requested k' C.p.contract [⟨inv.layer, f.witness.id.txid, s.vout⟩] none o → o.op = C.p.contract ∨
      Traced E.H (es ++ [.fascia f r]) k'.Valid C.p.contract o.op := by
    rintro o (⟨l, h1, h2⟩ | ⟨_, h1, -⟩)
    swap; · cases h1
    obtain ⟨sl, g1, g2⟩ := found_at inv₁ h1 h2
    obtain ⟨bd, hbd, t, ht, h3, -, -⟩ := made g1 g2
    refine .inr (C85_spent hH hG hsnd h hf hd' ⟨ord, hv1, hv2⟩ hbd h3 ?_).2.1
    intro i hi
    obtain ⟨a, ha, rfl⟩ := ((C38_inputs hE hcomp hp.contract).2 i).mp ⟨t, ht, hi⟩
    exact hspent' a ha
  have hthere : ∃ l, k'.index.opoutsByOutputs C.p.contract [⟨inv.layer, f.witness.id.txid, s.vout⟩] = .ok l := by
    obtain ⟨t, ht, kind, a, m1, m2⟩ := paid_some hE hp hcomp hb hask hch.symm
    have hcar := packs_carries hH hM hG hfur h hun hf.proper hpk ht
    rw [((C38_inputs hE hcomp hp.contract).1 t ht).1] at hcar
    obtain ⟨bd, c1, c2, -⟩ := hcar
    exact found_one (fascia_outs hd' c1 c2 rfl m1.1) (by rw [m2]; rfl)
  obtain ⟨d1, d2, d3⟩ := fascia_docs hd'
  refine ⟨k', hd, hone, traced_of hH hM hG hfur' hdone hreq, ?_⟩
  obtain ⟨l, hl⟩ := hthere
  obtain ⟨con₀, r₀, hm₀, hg₀⟩ := himp
  refine C85_transferable hH hM hG hI hS hfur' hdone ⟨con₀, r₀, List.mem_append_left _ hm₀, hg₀⟩ hu' ?_ hl hreq (fun s hs => by cases hs)
  intro g si h1 h2
  refine hfew g si ?_ ?_
  · simpa only [MemStash.genesis, d3] using h1
  · simpa only [MemStash.schema, d1] using h2

/-- What the payee has to know about the transfer. -/
theorem output_settled {E : CEnv} {n : Nat} (hE : E.Lawful n) (hT : E.TagMaps) (hH : E.H.Binding) (hM : M.Lawful) (hG : ∀ d, OMap.Sorted (G d).maxItems)
    (hI : Ids.Lawful E.H I) (hS : S.Lawful) (h : AllDone E.H I M G es .empty k) (hfur : Furnished E.H I S es)
    {W : Wallet} {inv : Inv.Invoice} {prevs : List OutSeal} {c iface ty : Nat} (hp : k.Payable E W inv prevs c iface ty)
    (hask : (∃ amt, inv.ownedState = .amount amt ∧ 0 < amt ∧ W.benSeal inv ≠ W.changeSeal E k inv c ty) ∨ ∃ al, inv.ownedState = .data al) (himp : Imported E.H es c) (hu : OneCommitted E.H es c) (hfew : k.FewIfaces I c) (hnd : k.stash.NamesDiffer)
    (hspent : ∀ a ∈ k.stateAt c prevs, a.opout.op = c ∨ Traced E.H es k.Valid c a.opout.op)
    {s : Seal} (hb : W.benSeal inv = .revealed s) (hm : s.method = W.method ∨ ∀ site c ty v, W.alloc site c ty v ≠ some s.vout) :
    ∃ b, compose E W k inv prevs = .ok b ∧
      ∀ f r, StockEvent.Sound E.H (.fascia f r) → f.Packs E.H b → k.Unknown E.H f → k.Holds E.H f → f.witness.id.chain = inv.layer →
        (∃ ord, r f.witness.id = some ord ∧ ord.isValid = true) → (∀ l, k.index.opoutsByOutputs c [⟨inv.layer, f.witness.id.txid, s.vout⟩] ≠ .ok l) →
        ∃ k', consumeFascia E.H r f k = some (k', none) ∧
          ∃ fuel con, (∀ fuel', fuel ≤ fuel' → k'.transfer E.H I S fuel' c [⟨inv.layer, f.witness.id.txid, s.vout⟩] none = some (.ok con)) ∧
          (∃ es', (∀ e ∈ es', e.Proper E.H) ∧ runStock E.H I M G es' .empty = some k') ∧ k'.OfContract c [⟨inv.layer, f.witness.id.txid, s.vout⟩] none ∧ k'.stash.NamesDiffer ∧
          ∀ t ∈ b.payments, ∀ kind a, t.op.MakesHere E.H f.witness.id kind a → a.sl = ⟨inv.layer, s.method, f.witness.id.txid, s.vout⟩ →
            ∀ (r' : Resolver) (k₁ k₂ : Stock), k₁.Reachable E.H → k₁.consumeConsignment E.H I M G r' con = some (k₂, none) → r' f.witness.id ≠ some .archived →
              ∃ view, k₂.state.contractState c = .ok view ∧ a ∈ view.all kind := by
  obtain ⟨b, hcomp, hall⟩ := C95_output hE hT hH hM hG hI hS h hfur hp hask himp hu hfew hspent hb hm
  refine ⟨b, hcomp, fun f r hf hpk hun hr hch hv hfree => ?_⟩
  obtain ⟨k', hd, hone, hoc, fuel, con, htr⟩ := hall f r hf hpk hun hr hch hv hfree
  have hd' : StockEvent.Done E.H I M G k k' (.fascia f r) := hd
  refine ⟨k', hd, fuel, con, htr, ⟨es ++ [.fascia f r], ?_, allDone_run _ (allDone_append (es₂ := [.fascia f r]) h ⟨k', hd', rfl⟩)⟩, hoc, ?_, ?_⟩
  · intro e he
    rcases List.mem_append.mp he with he | he
    · exact (hfur.sound e he).proper
    · rw [List.mem_singleton] at he; exact he ▸ hf.proper
  · obtain ⟨-, d2, -⟩ := fascia_docs hd'
    intro i j d d' h1 h2
    simp only [MemStash.ifaceById, d2] at h1 h2
    exact hnd i j d d' h1 h2
  · intro t ht kind a ha hsl r' k₁ k₂ hk₁ hacc hna
    have hcar := packs_carries hH hM hG hfur h hun hf.proper hpk ht
    rw [((C38_inputs hE hcomp hp.contract).1 t ht).1] at hcar
    obtain ⟨wb, -, ⟨i, cb, n1, n2, -⟩, n3⟩ := C91_sent (k'' := k') (later := []) hH hM hG (fun e he => (hfur.sound e he).proper) (allDone_run _ h) hf hd' hcar (by simp) rfl
      (htr fuel (Nat.le_refl _)) ha (by rw [hsl]; exact .head _) (by rw [hsl]; exact hone) hk₁ hacc
    have hw := carried_witness hH hM hG hfur h hun hf hpk.ids hd' hcar n1 n2
    obtain ⟨view, v1, v2⟩ := n3 (by rw [hw, hsl]; exact hch) (by rw [hw]; exact hna)
    refine ⟨view, v1, ?_⟩
    have : a = ⟨a.opout, ⟨a.sl.chain, a.sl.method, wb.id.txid, a.sl.vout⟩, a.state, some wb.id⟩ := by
      have hwit := ha.1.2.1
      obtain ⟨o, sl, st, w⟩ := a
      simp only at hsl hwit
      rw [hw, hsl, hwit]
    rw [this]
    exact v2

theorem amount_seen {E : CEnv} {n : Nat} (hE : E.Lawful n) (hH : E.H.Binding) {W : Wallet} {inv : Inv.Invoice} {prevs : List OutSeal} {b : Batch}
    (h : compose E W k inv prevs = .ok b) {c iface ty amt : Nat} (hp : k.Payable E W inv prevs c iface ty)
    (hamt : inv.ownedState = .amount amt) (hpos : 0 < amt) (hne : W.benSeal inv ≠ W.changeSeal E k inv c ty)
    {s : Seal} (hb : W.benSeal inv = .revealed s) {w : WitnessId} (hch : inv.layer = w.chain) {k₂ : Stock}
    (hsee : ∀ t ∈ b.payments, ∀ kind a, t.op.MakesHere E.H w kind a → a.sl = ⟨inv.layer, s.method, w.txid, s.vout⟩ →
      ∃ view, k₂.state.contractState c = .ok view ∧ a ∈ view.all kind) :
    ∃ view, k₂.state.contractState c = .ok view ∧ ∃ l : List OutAssign, (l.map (fun a => a.opout)).Nodup ∧
      (∀ a ∈ l, (a ∈ view.all .fungible ∧ a.sl = ⟨inv.layer, s.method, w.txid, s.vout⟩ ∧ a.witness = some w) ∧ a.opout.ty = ty ∧
        ∃ t ∈ b.payments, t.op.id E.H = a.opout.op) ∧
      (l.map (fun a => a.state.amount)).sum = amt := by
  obtain ⟨hs0, hs1⟩ := ben_vout hb
  obtain ⟨t₀, ht₀, kind₀, a₀, m1, m2⟩ := paid_some hE hp h hb (.inl ⟨amt, hamt, hpos, hne⟩) hch
  obtain ⟨view, hview, -⟩ := hsee t₀ ht₀ kind₀ a₀ m1 m2
  obtain ⟨-, hpaid, -, -⟩ := C38_conserved_partial hE h hp.contract hp.typed hamt hp.own.once
    (.inr (by have hsuf := hp.enough; rw [hamt] at hsuf; exact hsuf.2)) hne
  refine ⟨view, hview, ?_⟩
  rw [← hpaid, hb]
  refine gather _ (payments_ids hE hH h hp.contract hp.own.once) ?_
  intro t ht
  obtain ⟨q, q1, q2, q3⟩ := paid_here (payments_kinds hE h t ht) ty s
  refine ⟨q, q1, ?_, q3⟩
  intro x hx
  obtain ⟨ta, p1, p2, p3⟩ := q2 x hx
  obtain ⟨v, v1, v2⟩ := hsee t ht .fungible ⟨⟨t.op.id E.H, ty, x.1⟩, ⟨inv.layer, s.method, w.txid, s.vout⟩, x.2, some w⟩
    ⟨⟨rfl, rfl, ta, s, p1, p2, p3, by simp [Seal.toOutputWith, hs0, hs1, hch]⟩, s, by simp [Op.sealAt?, Op.at?, p1, p3, Assign.seal?], hs0⟩ rfl
  rw [hview] at v1
  cases v1
  exact ⟨_, rfl, rfl, v2, rfl, rfl⟩

/-- **C95** (address). An invoice asks for a positive amount to be paid to an output of the payer's transaction. It's paid by a wallet as in `C95_output`. Any wallet which has nothing contradicting the transfer accepts it,
if its contents are valid and there is room; if the transaction isn't archived, the payee has visible allocations of the invoiced type, at the output of this transaction, of the payments, which sum up to exactly the
invoiced amount. (`hnd`: with two interfaces of the same name accepting may panic, see `C73_same_name_fails`.) -/
theorem C95_output_paid {E : CEnv} {n : Nat} (hE : E.Lawful n) (hT : E.TagMaps) (hH : E.H.Binding) (hM : M.Lawful) (hG : ∀ d, OMap.Sorted (G d).maxItems)
    (hI : Ids.Lawful E.H I) (hS : S.Lawful) (hSP : S.ProvesFor M) (h : AllDone E.H I M G es .empty k) (hfur : Furnished E.H I S es)
    {W : Wallet} {inv : Inv.Invoice} {prevs : List OutSeal} {c iface ty amt : Nat} (hp : k.Payable E W inv prevs c iface ty)
    (hamt : inv.ownedState = .amount amt) (hpos : 0 < amt) (hne : W.benSeal inv ≠ W.changeSeal E k inv c ty) (himp : Imported E.H es c) (hu : OneCommitted E.H es c) (hfew : k.FewIfaces I c) (hnd : k.stash.NamesDiffer)
    (hspent : ∀ a ∈ k.stateAt c prevs, a.opout.op = c ∨ Traced E.H es k.Valid c a.opout.op)
    {s : Seal} (hb : W.benSeal inv = .revealed s) (hm : s.method = W.method ∨ ∀ site c ty v, W.alloc site c ty v ≠ some s.vout) :
    ∃ b, compose E W k inv prevs = .ok b ∧
      ∀ f r, StockEvent.Sound E.H (.fascia f r) → f.Packs E.H b → k.Unknown E.H f → k.Holds E.H f → f.witness.id.chain = inv.layer →
        (∃ ord, r f.witness.id = some ord ∧ ord.isValid = true) → (∀ l, k.index.opoutsByOutputs c [⟨inv.layer, f.witness.id.txid, s.vout⟩] ≠ .ok l) →
        ∃ k', consumeFascia E.H r f k = some (k', none) ∧
          ∃ fuel con, (∀ fuel', fuel ≤ fuel' → k'.transfer E.H I S fuel' c [⟨inv.layer, f.witness.id.txid, s.vout⟩] none = some (.ok con)) ∧
          ∀ r', con.Checked G r' → r' f.witness.id ≠ some .archived →
          ∀ k₁ : Stock, k₁.Reachable E.H → k₁.Agrees E.H M con → k₁.Room E.H I con →
          ∃ k₂, k₁.consumeConsignment E.H I M G r' con = some (k₂, none) ∧
            ∃ view, k₂.state.contractState c = .ok view ∧ ∃ l : List OutAssign, (l.map (fun a => a.opout)).Nodup ∧
              (∀ a ∈ l, (a ∈ view.all .fungible ∧ a.sl = ⟨inv.layer, s.method, f.witness.id.txid, s.vout⟩ ∧ a.witness = some f.witness.id) ∧ a.opout.ty = ty ∧
                ∃ t ∈ b.payments, t.op.id E.H = a.opout.op) ∧
              (l.map (fun a => a.state.amount)).sum = amt := by
  obtain ⟨b, hcomp, hall⟩ := output_settled hE hT hH hM hG hI hS h hfur hp (.inl ⟨amt, hamt, hpos, hne⟩) himp hu hfew hnd hspent hb hm
  refine ⟨b, hcomp, fun f r hf hpk hun hr hch hv hfree => ?_⟩
  obtain ⟨k', hd, fuel, con, htr, ⟨es', hprop', hrun⟩, hoc, hnd', hsee⟩ := hall f r hf hpk hun hr hch hv hfree
  refine ⟨k', hd, fuel, con, htr, fun r' hck hna k₁ hk₁ hag hrm => ?_⟩
  obtain ⟨k₂, hacc⟩ := C73_accepted_partial hH hG hSP hprop' hrun (htr fuel (Nat.le_refl _)) hnd' hoc hck hk₁ hag hrm
  refine ⟨k₂, hacc, ?_⟩
  exact amount_seen hE hH hcomp hp hamt hpos hne hb hch.symm (fun t ht kind a m1 m2 => hsee t ht kind a m1 m2 r' _ k₂ hk₁ hacc hna)

/-- **C95** (address, new wallet). In particular an empty wallet, if at most 255 outputs in the transfer are assigned to any one secret seal. -/
theorem C95_output_new_wallet {E : CEnv} {n : Nat} (hE : E.Lawful n) (hT : E.TagMaps) (hH : E.H.Binding) (hM : M.Lawful) (hG : ∀ d, OMap.Sorted (G d).maxItems)
    (hI : Ids.Lawful E.H I) (hS : S.Lawful) (hSP : S.ProvesFor M) (h : AllDone E.H I M G es .empty k) (hfur : Furnished E.H I S es)
    {W : Wallet} {inv : Inv.Invoice} {prevs : List OutSeal} {c iface ty amt : Nat} (hp : k.Payable E W inv prevs c iface ty)
    (hamt : inv.ownedState = .amount amt) (hpos : 0 < amt) (hne : W.benSeal inv ≠ W.changeSeal E k inv c ty) (himp : Imported E.H es c) (hu : OneCommitted E.H es c) (hfew : k.FewIfaces I c) (hnd : k.stash.NamesDiffer)
    (hspent : ∀ a ∈ k.stateAt c prevs, a.opout.op = c ∨ Traced E.H es k.Valid c a.opout.op)
    {s : Seal} (hb : W.benSeal inv = .revealed s) (hm : s.method = W.method ∨ ∀ site c ty v, W.alloc site c ty v ≠ some s.vout) :
    ∃ b, compose E W k inv prevs = .ok b ∧
      ∀ f r, StockEvent.Sound E.H (.fascia f r) → f.Packs E.H b → k.Unknown E.H f → k.Holds E.H f → f.witness.id.chain = inv.layer →
        (∃ ord, r f.witness.id = some ord ∧ ord.isValid = true) → (∀ l, k.index.opoutsByOutputs c [⟨inv.layer, f.witness.id.txid, s.vout⟩] ≠ .ok l) →
        ∃ k', consumeFascia E.H r f k = some (k', none) ∧
          ∃ fuel con, (∀ fuel', fuel ≤ fuel' → k'.transfer E.H I S fuel' c [⟨inv.layer, f.witness.id.txid, s.vout⟩] none = some (.ok con)) ∧
          ∀ r', con.Checked G r' → r' f.witness.id ≠ some .archived → (∀ s, con.data.hiddenTo E.H s ≤ 255) →
          ∃ k₂, Stock.empty.consumeConsignment E.H I M G r' con = some (k₂, none) ∧
            ∃ view, k₂.state.contractState c = .ok view ∧ ∃ l : List OutAssign, (l.map (fun a => a.opout)).Nodup ∧
              (∀ a ∈ l, (a ∈ view.all .fungible ∧ a.sl = ⟨inv.layer, s.method, f.witness.id.txid, s.vout⟩ ∧ a.witness = some f.witness.id) ∧ a.opout.ty = ty ∧
                ∃ t ∈ b.payments, t.op.id E.H = a.opout.op) ∧
              (l.map (fun a => a.state.amount)).sum = amt := by
  obtain ⟨b, hcomp, hall⟩ := output_settled hE hT hH hM hG hI hS h hfur hp (.inl ⟨amt, hamt, hpos, hne⟩) himp hu hfew hnd hspent hb hm
  refine ⟨b, hcomp, fun f r hf hpk hun hr hch hv hfree => ?_⟩
  obtain ⟨k', hd, fuel, con, htr, ⟨es', hprop', hrun⟩, hoc, hnd', hsee⟩ := hall f r hf hpk hun hr hch hv hfree
  refine ⟨k', hd, fuel, con, htr, fun r' hck hna hhid => ?_⟩
  obtain ⟨k₂, hacc⟩ := C73_new_wallet_partial hH hG hSP hprop' hrun (htr fuel (Nat.le_refl _)) hnd' hoc hck (seals := []) (by simp) hhid
  refine ⟨k₂, hacc, ?_⟩
  exact amount_seen hE hH hcomp hp hamt hpos hne hb hch.symm (fun t ht kind a m1 m2 => hsee t ht kind a m1 m2 r' _ k₂ (⟨I, M, G, [], hG, by simp, rfl⟩ : Stock.empty.Reachable E.H) hacc hna)

/-- **C95** (tokens, address). The same for an invoice for a token: the payee sees this very token. -/
theorem C95_output_token {E : CEnv} {n : Nat} (hE : E.Lawful n) (hT : E.TagMaps) (hH : E.H.Binding) (hM : M.Lawful) (hG : ∀ d, OMap.Sorted (G d).maxItems)
    (hI : Ids.Lawful E.H I) (hS : S.Lawful) (hSP : S.ProvesFor M) (h : AllDone E.H I M G es .empty k) (hfur : Furnished E.H I S es)
    {W : Wallet} {inv : Inv.Invoice} {prevs : List OutSeal} {c iface ty : Nat} {al : Inv.Allocation} (hp : k.Payable E W inv prevs c iface ty)
    (hal : inv.ownedState = .data al) (himp : Imported E.H es c) (hu : OneCommitted E.H es c) (hfew : k.FewIfaces I c) (hnd : k.stash.NamesDiffer)
    (hspent : ∀ a ∈ k.stateAt c prevs, a.opout.op = c ∨ Traced E.H es k.Valid c a.opout.op)
    {s : Seal} (hb : W.benSeal inv = .revealed s) (hm : s.method = W.method ∨ ∀ site c ty v, W.alloc site c ty v ≠ some s.vout) :
    ∃ b, compose E W k inv prevs = .ok b ∧
      ∀ f r, StockEvent.Sound E.H (.fascia f r) → f.Packs E.H b → k.Unknown E.H f → k.Holds E.H f → f.witness.id.chain = inv.layer →
        (∃ ord, r f.witness.id = some ord ∧ ord.isValid = true) → (∀ l, k.index.opoutsByOutputs c [⟨inv.layer, f.witness.id.txid, s.vout⟩] ≠ .ok l) →
        ∃ k', consumeFascia E.H r f k = some (k', none) ∧
          ∃ fuel con, (∀ fuel', fuel ≤ fuel' → k'.transfer E.H I S fuel' c [⟨inv.layer, f.witness.id.txid, s.vout⟩] none = some (.ok con)) ∧
          ∀ r', con.Checked G r' → r' f.witness.id ≠ some .archived →
          ∀ k₁ : Stock, k₁.Reachable E.H → k₁.Agrees E.H M con → k₁.Room E.H I con →
          ∃ k₂, k₁.consumeConsignment E.H I M G r' con = some (k₂, none) ∧
            ∃ view, k₂.state.contractState c = .ok view ∧ ∃ a ∈ view.all .structured, a.opout.ty = ty ∧ a.state.data? = some (E.dataOf al) ∧
              a.sl = ⟨inv.layer, s.method, f.witness.id.txid, s.vout⟩ ∧ a.witness = some f.witness.id ∧ ∃ t ∈ b.payments, t.op.id E.H = a.opout.op := by
  obtain ⟨b, hcomp, hall⟩ := output_settled hE hT hH hM hG hI hS h hfur hp (.inr ⟨al, hal⟩) himp hu hfew hnd hspent hb hm
  refine ⟨b, hcomp, fun f r hf hpk hun hr hch hv hfree => ?_⟩
  obtain ⟨k', hd, fuel, con, htr, ⟨es', hprop', hrun⟩, hoc, hnd', hsee⟩ := hall f r hf hpk hun hr hch hv hfree
  refine ⟨k', hd, fuel, con, htr, fun r' hck hna k₁ hk₁ hag hrm => ?_⟩
  obtain ⟨k₂, hacc⟩ := C73_accepted_partial hH hG hSP hprop' hrun (htr fuel (Nat.le_refl _)) hnd' hoc hck hk₁ hag hrm
  refine ⟨k₂, hacc, ?_⟩
  obtain ⟨t, ht, a, m1, m2, m3, m4⟩ := token_made hE hcomp hp.contract hp.typed hal hp.own.once hb hch.symm
  obtain ⟨view, v1, v2⟩ := hsee t ht _ a m1 m4 r' _ k₂ hk₁ hacc hna
  exact ⟨view, v1, a, v2, m2, m3, m4, m1.1.2.1, t, ht, m1.1.1.symm⟩

/-- **C95** (tokens, address, new wallet). -/
theorem C95_output_token_new_wallet {E : CEnv} {n : Nat} (hE : E.Lawful n) (hT : E.TagMaps) (hH : E.H.Binding) (hM : M.Lawful) (hG : ∀ d, OMap.Sorted (G d).maxItems)
    (hI : Ids.Lawful E.H I) (hS : S.Lawful) (hSP : S.ProvesFor M) (h : AllDone E.H I M G es .empty k) (hfur : Furnished E.H I S es)
    {W : Wallet} {inv : Inv.Invoice} {prevs : List OutSeal} {c iface ty : Nat} {al : Inv.Allocation} (hp : k.Payable E W inv prevs c iface ty)
    (hal : inv.ownedState = .data al) (himp : Imported E.H es c) (hu : OneCommitted E.H es c) (hfew : k.FewIfaces I c) (hnd : k.stash.NamesDiffer)
    (hspent : ∀ a ∈ k.stateAt c prevs, a.opout.op = c ∨ Traced E.H es k.Valid c a.opout.op)
    {s : Seal} (hb : W.benSeal inv = .revealed s) (hm : s.method = W.method ∨ ∀ site c ty v, W.alloc site c ty v ≠ some s.vout) :
    ∃ b, compose E W k inv prevs = .ok b ∧
      ∀ f r, StockEvent.Sound E.H (.fascia f r) → f.Packs E.H b → k.Unknown E.H f → k.Holds E.H f → f.witness.id.chain = inv.layer →
        (∃ ord, r f.witness.id = some ord ∧ ord.isValid = true) → (∀ l, k.index.opoutsByOutputs c [⟨inv.layer, f.witness.id.txid, s.vout⟩] ≠ .ok l) →
        ∃ k', consumeFascia E.H r f k = some (k', none) ∧
          ∃ fuel con, (∀ fuel', fuel ≤ fuel' → k'.transfer E.H I S fuel' c [⟨inv.layer, f.witness.id.txid, s.vout⟩] none = some (.ok con)) ∧
          ∀ r', con.Checked G r' → r' f.witness.id ≠ some .archived → (∀ s, con.data.hiddenTo E.H s ≤ 255) →
          ∃ k₂, Stock.empty.consumeConsignment E.H I M G r' con = some (k₂, none) ∧
            ∃ view, k₂.state.contractState c = .ok view ∧ ∃ a ∈ view.all .structured, a.opout.ty = ty ∧ a.state.data? = some (E.dataOf al) ∧
              a.sl = ⟨inv.layer, s.method, f.witness.id.txid, s.vout⟩ ∧ a.witness = some f.witness.id ∧ ∃ t ∈ b.payments, t.op.id E.H = a.opout.op := by
  obtain ⟨b, hcomp, hall⟩ := output_settled hE hT hH hM hG hI hS h hfur hp (.inr ⟨al, hal⟩) himp hu hfew hnd hspent hb hm
  refine ⟨b, hcomp, fun f r hf hpk hun hr hch hv hfree => ?_⟩
  obtain ⟨k', hd, fuel, con, htr, ⟨es', hprop', hrun⟩, hoc, hnd', hsee⟩ := hall f r hf hpk hun hr hch hv hfree
  refine ⟨k', hd, fuel, con, htr, fun r' hck hna hhid => ?_⟩
  obtain ⟨k₂, hacc⟩ := C73_new_wallet_partial hH hG hSP hprop' hrun (htr fuel (Nat.le_refl _)) hnd' hoc hck (seals := []) (by simp) hhid
  refine ⟨k₂, hacc, ?_⟩
  obtain ⟨t, ht, a, m1, m2, m3, m4⟩ := token_made hE hcomp hp.contract hp.typed hal hp.own.once hb hch.symm
  obtain ⟨view, v1, v2⟩ := hsee t ht _ a m1 m4 r' _ k₂ (⟨I, M, G, [], hG, by simp, rfl⟩ : Stock.empty.Reachable E.H) hacc hna
  exact ⟨view, v1, a, v2, m2, m3, m4, m1.1.2.1, t, ht, m1.1.1.symm⟩

end

/-! ### Examples -/

section
open VoutWorld

theorem exVoutSpendable {c : Nat} {prevs : List OutSeal} (h : k.Spendable PayWorld.E c prevs) : k.Spendable E c prevs :=
  ⟨h.nonempty, h.few, h.defined, h.once⟩

theorem exVoutPayable : k.Payable E W inv PayWorld.prevs 0 7 4000 where
  contract := rfl
  named := ⟨_, rfl, by decide⟩
  fresh := by intro e he; cases he; decide
  builder := exGood (by decide +kernel)
  typed := by decide +kernel
  vout := ⟨fun _ => ⟨_, rfl⟩, fun _ => rfl⟩
  alloc := fun _ _ _ _ => rfl
  own := exVoutSpendable (exSpendable (by decide +kernel) (by decide +kernel) (by decide +kernel) (by decide +kernel) (by decide +kernel))
  enough := by show 12 ≤ sumOf 4000 (k.stateAt 0 PayWorld.prevs) ∧ sumOf 4000 (k.stateAt 0 PayWorld.prevs) < 18446744073709551616; decide +kernel
  blank := by
    have h : ∀ id ∈ k.index.contractsAssigning (PayWorld.prevs.map OutSeal.outpoint), id ≠ 0 →
        (blankBuilder E k.stash id (.name 7)).toBool = true := by decide +kernel
    exact fun id hid hne => exGood (h id hid hne)
  others := by
    have h : ∀ id ∈ k.index.contractsAssigning (PayWorld.prevs.map OutSeal.outpoint), id ≠ 0 → id = 2 := by decide +kernel
    intro id hid hne
    rw [h id hid hne]
    exact exVoutSpendable (exSpendable (by decide +kernel) (by decide +kernel) (by decide +kernel) (by decide +kernel) (by decide +kernel))
  count := by decide +kernel
  balance := by intro ins outs h; cases h

theorem exVoutPacks {b : Batch} (hp : b.payments.map (fun t => t.op) = [p0, p1]) : fascia.Packs H b := by
  have hc : ∀ t ∈ b.payments, t.op = p0 ∨ t.op = p1 := by
    intro t ht
    have : t.op ∈ [p0, p1] := by rw [← hp]; exact List.mem_map_of_mem (f := fun t : BuiltTransition => t.op) ht
    simpa using this
  have h0 : ∀ u ∈ [p0, p1], ∃ t ∈ b.transitionsOf 0, t.op = u := by
    intro u hu
    rw [← hp] at hu
    obtain ⟨t, ht, rfl⟩ := List.mem_map.1 hu
    refine ⟨t, List.mem_filter.2 ⟨List.mem_append_left _ ht, ?_⟩, rfl⟩
    rcases hc t ht with h | h <;> rw [h] <;> rfl
  refine ⟨⟨?_, by decide +kernel, ?_⟩, ?_, ?_, ?_⟩
  · intro e he
    simp only [fascia, List.mem_cons, List.not_mem_nil, or_false] at he
    rcases he with rfl | rfl
    · refine ⟨by simp [b0], fun u hu => h0 u ?_⟩
      simp only [b0, OMap.vals, List.map_cons, List.map_nil, List.mem_singleton] at hu
      simp [hu]
    · refine ⟨by simp [b1], fun u hu => h0 u ?_⟩
      simp only [b1, OMap.vals, List.map_cons, List.map_nil, List.mem_singleton] at hu
      simp [hu]
  · intro e he e' he' o h1 h2
    simp only [fascia, List.mem_cons, List.not_mem_nil, or_false] at he he'
    rcases he with rfl | rfl <;> rcases he' with rfl | rfl
    · rfl
    · simp only [b0, b1, OMap.contains, OMap.get?_cons, OMap.get?_nil] at h1 h2
      split at h1 <;> split at h2 <;> simp_all
    · simp only [b0, b1, OMap.contains, OMap.get?_cons, OMap.get?_nil] at h1 h2
      split at h1 <;> split at h2 <;> simp_all
    · rfl
  · intro t ht
    rcases hc t ht with h | h <;> rw [h]
    · exact ⟨(0, b0), by simp [fascia], rfl, by simp [b0, OMap.vals]⟩
    · exact ⟨(0, b1), by simp [fascia], rfl, by simp [b1, OMap.vals]⟩
  · intro e he t _ t' _ h1 h2
    simp only [fascia, List.mem_cons, List.not_mem_nil, or_false] at he
    rcases he with rfl | rfl
    · simp only [b0, OMap.vals, List.map_cons, List.map_nil, List.mem_singleton] at h1 h2
      rw [h1, h2]
    · simp only [b1, OMap.vals, List.map_cons, List.map_nil, List.mem_singleton] at h1 h2
      rw [h1, h2]
  · intro e he e' he' _ h
    simp only [fascia, List.mem_cons, List.not_mem_nil, or_false] at he he'
    rcases he with rfl | rfl <;> rcases he' with rfl | rfl
    · rfl
    · cases h
    · cases h
    · rfl

theorem exVoutNone (e : StockEvent) (he : e ∈ PayWorld.events) (c : Nat) (b : Bundle) (w : WitnessId) : ¬ e.Brings H c b w := by
  intro hb
  simp only [PayWorld.events, List.mem_cons, List.not_mem_nil, or_false] at he
  rcases he with rfl | rfl
  · cases hb with | consignment _ _ wb _ hw _ => cases hw
  · cases hb with | consignment _ _ wb _ hw _ => cases hw

theorem exVoutFurnished : Furnished H World.I World.E PayWorld.events where
  sound e he := by
    have hp := events_proper e he
    refine ⟨hp, fun c b w h => absurd h (exVoutNone e he c b w), ?_, ?_⟩
    · intro con r hc wb hw
      subst hc
      obtain ⟨g, rfl⟩ := exPaidCons (List.mem_append_left _ he)
      cases hw
    · intro f r hc
      subst hc
      simp [PayWorld.events] at he
  same e he _ _ c b w _ _ _ hb := absurd hb (exVoutNone e he c b w)
  noExtensions con r h := exPaidFurnished₀.noExtensions con r h
  schema con r h := exPaidFurnished₀.schema con r h
  types con r h := exPaidFurnished₀.types con r h
  libs con r h := exPaidFurnished₀.libs con r h
  kitTypes x h := exPaidFurnished₀.kitTypes x h

theorem exVoutEvents : AllDone H World.I World.M World.G PayWorld.events .empty k := by
  have h : ((Stock.empty.consumeConsignment H World.I World.M World.G World.r (PayWorld.con PayWorld.g0)).bind (fun p =>
      (p.1.consumeConsignment H World.I World.M World.G World.r (PayWorld.con PayWorld.g1)).map (fun q => decide (p.2 = none ∧ q.2 = none)))) = some true := by decide +kernel
  obtain ⟨⟨k₁, o₁⟩, h1, h⟩ := Option.bind_eq_some_iff.mp h
  obtain ⟨⟨k₂, o₂⟩, h2, h⟩ := Option.map_eq_some_iff.mp h
  obtain ⟨rfl, rfl⟩ := of_decide_eq_true h
  refine ⟨k₁, h1, k₂, h2, ?_⟩
  have hk : runStock H World.I World.M World.G PayWorld.events .empty = some k₂ := by
    simp [PayWorld.events, runStock, StockEvent.exec, h1, h2]
  rw [k_run] at hk
  exact Option.some.inj hk

theorem exVoutUnknown : k.Unknown H fascia where
  witness := by decide +kernel
  bundles := by decide +kernel
  ops := by
    have : k.index.opBundle = [] := by decide +kernel
    intro e _ o _
    rw [this]; rfl

theorem exVoutHolds : k.Holds H fascia := by
  constructor
  · intro b
    have h1 : k.index.bundleWitness = [] := by decide +kernel
    have : fascia.timesBundle H b ≤ fascia.bundles.length := List.length_filter_le _ _
    have h3 : fascia.bundles.length = 2 := rfl
    rw [h1]
    simp only [OMap.get?_nil, Option.getD_none, List.length_nil]
    omega
  · intro s
    have h2 : k.index.terminals = [] := by decide +kernel
    have : fascia.hiddenTo H s ≤ (fascia.ops.map (fun t => t.assigned.length)).sum := sum_le (fun t _ => List.countP_le_length)
    have h4 : (fascia.ops.map (fun t => t.assigned.length)).sum ≤ 255 := by decide +kernel
    rw [h2]
    simp only [OMap.get?_nil, Option.getD_none, List.length_nil]
    omega

/-- The payment of 12 to the output 0, out of 10 and 7, with a change of 5 at the output 1: all conditions of C95 are met; an empty wallet accepts the transfer of the output and sees 12 there. -/
example : ∃ b k' con k₂ view, compose E W k inv PayWorld.prevs = .ok b ∧ fascia.Packs H b ∧ consumeFascia H World.r fascia k = some (k', none) ∧
    (∃ fuel, ∀ fuel', fuel ≤ fuel' → k'.transfer H World.I World.E fuel' 0 [⟨.bitcoin, 61, 0⟩] none = some (.ok con)) ∧
    Stock.empty.consumeConsignment H World.I World.M World.G World.r con = some (k₂, none) ∧ k₂.state.contractState 0 = .ok view ∧
    ∃ l : List OutAssign, (∀ a ∈ l, a ∈ view.all .fungible ∧ a.sl.outpoint = ⟨.bitcoin, 61, 0⟩) ∧ (l.map (fun a => a.state.amount)).sum = 12 := by
  obtain ⟨b, hb, hp⟩ := exVoutComposed
  have hsp : (k.stateAt 0 PayWorld.prevs).all (fun a => decide (a.opout.op = 0)) = true := by decide +kernel
  have hfew : (k.stash.schema 10).all (fun si => decide (si.iimpls.length ≤ 126)) = true := by decide +kernel
  have hnd : k.stash.NamesDiffer := by
    have h : ∀ e ∈ k.stash.ifaces, ∀ e' ∈ k.stash.ifaces, e.2.name = e'.2.name → e.1 = e'.1 := by decide +kernel
    exact fun i j d d' hi hj he => h (i, d) (OMap.mem_of_get? hi) (j, d') (OMap.mem_of_get? hj) he
  obtain ⟨b', hb', hall⟩ := C95_output_new_wallet (S := World.E) (I := World.I) (M := World.M) (G := World.G) (E := E) (s := sB) (amt := 12)
    E_lawful exTagMaps H_binding exLaws.2.2.1 World.G_sorted ⟨exLaws.1.schema_inj, fun _ _ _ => rfl⟩ exLaws.2.1 exPass_proves exVoutEvents exVoutFurnished exVoutPayable rfl (by decide) (by decide +kernel)
    ⟨_, _, .head _, by decide +kernel⟩
    (by
      intro e he _ _ b _ w hb
      exact absurd hb (exVoutNone e he _ b w))
    (by
      intro g si _ hsi
      have h5 : k.stash.schema 10 = some si := hsi
      rw [h5] at hfew
      exact of_decide_eq_true hfew) hnd
    (fun a ha => .inl (of_decide_eq_true (List.all_eq_true.mp hsp a ha))) rfl (.inl rfl)
  rw [hb] at hb'
  cases hb'
  have hfree : (k.index.opoutsByOutputs 0 [⟨.bitcoin, 61, 0⟩]).toBool = false := by decide +kernel
  obtain ⟨k', h1, fuel, con, h2, h3⟩ := hall fascia World.r fascia_sound (exVoutPacks hp) exVoutUnknown exVoutHolds rfl ⟨_, rfl, rfl⟩ (by
    intro l hl
    have hl' : k.index.opoutsByOutputs 0 [⟨.bitcoin, 61, 0⟩] = .ok l := hl
    rw [hl'] at hfree
    cases hfree)
  have hc : ((k.consumeFascia H World.r fascia).bind (fun x => (x.1.transfer H World.I World.E 100 0 [⟨.bitcoin, 61, 0⟩] none).bind (fun y =>
      y.toOption.map (fun con => decide (exPassOk con))))) = some true := by decide +kernel
  have h1' : consumeFascia H World.r fascia k = some (k', none) := h1
  rw [h1', Option.bind_some] at hc
  obtain ⟨y, hy, hc⟩ := Option.bind_eq_some_iff.mp hc
  obtain ⟨con', hcon, hc⟩ := Option.map_eq_some_iff.mp hc
  have g1 := transfer_mono hy (Nat.le_max_right fuel 100)
  have g2 := h2 _ (Nat.le_max_left fuel 100)
  have g2' : k'.transfer H World.I World.E (max fuel 100) 0 [⟨.bitcoin, 61, 0⟩] none = some (.ok con) := g2
  rw [g1] at g2'
  cases Option.some.inj g2'
  cases hcon
  have hok := of_decide_eq_true hc
  obtain ⟨k₂, h4, view, h5, l, -, h6, h7⟩ := h3 World.r (exPass_checked hok) (fun h => by cases h) (exPass_hidden hok)
  exact ⟨b, k', con, k₂, view, hb, exVoutPacks hp, h1, ⟨fuel, h2⟩, h4, h5, l, fun a ha => ⟨(h6 a ha).1.1, by rw [(h6 a ha).1.2.1]; rfl⟩, h7⟩

end

section
open TokenWorld

theorem exTokenPayableA : k.Payable E WA invA TokenWorld.prevs 0 7 4002 where
  contract := rfl
  named := ⟨_, rfl, by decide⟩
  fresh := by intro e he; cases he; decide
  builder := exGood (by decide +kernel)
  typed := by decide +kernel
  vout := ⟨fun _ => ⟨_, rfl⟩, fun _ => rfl⟩
  alloc := fun _ _ _ _ => rfl
  own := exTokenSpendable (exSpendable (by decide +kernel) (by decide +kernel) (by decide +kernel) (by decide +kernel) (by decide +kernel))
  enough := by show (∃ a ∈ k.stateAt 0 TokenWorld.prevs, a.opout.ty = 4002 ∧ a.state.data? = some 5) ∧ sumOf 4002 (k.stateAt 0 TokenWorld.prevs) < 18446744073709551616; decide +kernel
  blank := by
    have h : ∀ id ∈ k.index.contractsAssigning (TokenWorld.prevs.map OutSeal.outpoint), id ≠ 0 →
        (blankBuilder E k.stash id (.name 7)).toBool = true := by decide +kernel
    exact fun id hid hne => exGood (h id hid hne)
  others := by
    have h : ∀ id ∈ k.index.contractsAssigning (TokenWorld.prevs.map OutSeal.outpoint), id ≠ 0 → id = 2 := by decide +kernel
    intro id hid hne
    rw [h id hid hne]
    exact exTokenSpendable (exSpendable (by decide +kernel) (by decide +kernel) (by decide +kernel) (by decide +kernel) (by decide +kernel))
  count := by decide +kernel
  balance := by intro ins outs h; cases h

theorem exTokenPacksA {b : Batch} (hp : b.payments.map (fun t => t.op) = [tA]) (h2 : (b.transitionsOf 2).map (fun t => t.op) = [q])
    (h0 : (b.transitionsOf 0).map (fun t => t.op) = [tA]) : fA.Packs H b := by
  have hc : ∀ t ∈ b.payments, t.op = tA := by
    intro t ht
    have : t.op ∈ [tA] := by rw [← hp]; exact List.mem_map_of_mem (f := fun t : BuiltTransition => t.op) ht
    simpa using this
  have one : ∀ {l : List BuiltTransition} {u : Op}, l.map (fun t => t.op) = [u] → ∃ t ∈ l, t.op = u := by
    intro l u hl
    have : u ∈ l.map (fun t => t.op) := by rw [hl]; exact .head _
    exact List.mem_map.1 this
  refine ⟨⟨?_, by decide +kernel, ?_⟩, ?_, ?_, ?_⟩
  · intro e he
    simp only [fA, List.mem_cons, List.not_mem_nil, or_false] at he
    rcases he with rfl | rfl
    · refine ⟨by simp [bA], fun u hu => ?_⟩
      simp only [bA, OMap.vals, List.map_cons, List.map_nil, List.mem_singleton] at hu
      rw [hu]; exact one h0
    · refine ⟨by simp [bQ], fun u hu => ?_⟩
      simp only [bQ, OMap.vals, List.map_cons, List.map_nil, List.mem_singleton] at hu
      rw [hu]; exact one h2
  · intro e he e' he' o h1 h2
    simp only [fA, List.mem_cons, List.not_mem_nil, or_false] at he he'
    rcases he with rfl | rfl <;> rcases he' with rfl | rfl
    · rfl
    · simp only [bA, bQ, OMap.contains, OMap.get?_cons, OMap.get?_nil] at h1 h2
      split at h1 <;> split at h2 <;> simp_all
    · simp only [bA, bQ, OMap.contains, OMap.get?_cons, OMap.get?_nil] at h1 h2
      split at h1 <;> split at h2 <;> simp_all
    · rfl
  · intro t ht
    rw [hc t ht]
    exact ⟨(0, bA), by simp [fA], rfl, by simp [bA, OMap.vals]⟩
  · intro e _ t ht t' ht' _ _
    rw [hc t ht, hc t' ht']
  · intro e he e' he' h _
    simp only [fA, List.mem_cons, List.not_mem_nil, or_false] at he he'
    rcases he with rfl | rfl <;> rcases he' with rfl | rfl
    · rfl
    · cases h
    · cases h
    · rfl

theorem exTokenUnknownA : k.Unknown H fA where
  witness := by decide +kernel
  bundles := by decide +kernel
  ops := by
    have : k.index.opBundle = [] := by decide +kernel
    intro e _ o _
    rw [this]; rfl

theorem exTokenHoldsA : k.Holds H fA := by
  constructor
  · intro b
    have h1 : k.index.bundleWitness = [] := by decide +kernel
    have : fA.timesBundle H b ≤ fA.bundles.length := List.length_filter_le _ _
    have h3 : fA.bundles.length = 2 := rfl
    rw [h1]
    simp only [OMap.get?_nil, Option.getD_none, List.length_nil]
    omega
  · intro s
    have h2 : k.index.terminals = [] := by decide +kernel
    have : fA.hiddenTo H s ≤ (fA.ops.map (fun t => t.assigned.length)).sum := sum_le (fun t _ => List.countP_le_length)
    have h4 : (fA.ops.map (fun t => t.assigned.length)).sum ≤ 255 := by decide +kernel
    rw [h2]
    simp only [OMap.get?_nil, Option.getD_none, List.length_nil]
    omega

/-- The payment of the token 5 to the output 0: an empty wallet accepts the transfer of the output and sees the token. -/
example : ∃ b k' con k₂ view, compose E WA k invA TokenWorld.prevs = .ok b ∧ fA.Packs H b ∧ consumeFascia H World.r fA k = some (k', none) ∧
    (∃ fuel, ∀ fuel', fuel ≤ fuel' → k'.transfer H World.I World.E fuel' 0 [⟨.bitcoin, 61, 0⟩] none = some (.ok con)) ∧
    Stock.empty.consumeConsignment H World.I World.M World.G World.r con = some (k₂, none) ∧ k₂.state.contractState 0 = .ok view ∧
    ∃ a ∈ view.all .structured, a.state.data? = some 5 ∧ a.sl.outpoint = ⟨.bitcoin, 61, 0⟩ := by
  obtain ⟨b, hb, hp1, hp2, hp0⟩ := PayWorld.ok_any (y := compose E WA k invA TokenWorld.prevs)
    (P := fun b => b.payments.map (fun t => t.op) = [tA] ∧ (b.transitionsOf 2).map (fun t => t.op) = [q] ∧ (b.transitionsOf 0).map (fun t => t.op) = [tA]) (by decide +kernel)
  have hsp : (k.stateAt 0 TokenWorld.prevs).all (fun a => decide (a.opout.op = 0)) = true := by decide +kernel
  have hfew : (k.stash.schema 10).all (fun si => decide (si.iimpls.length ≤ 126)) = true := by decide +kernel
  have hnd : k.stash.NamesDiffer := by
    have h : ∀ e ∈ k.stash.ifaces, ∀ e' ∈ k.stash.ifaces, e.2.name = e'.2.name → e.1 = e'.1 := by decide +kernel
    exact fun i j d d' hi hj he => h (i, d) (OMap.mem_of_get? hi) (j, d') (OMap.mem_of_get? hj) he
  obtain ⟨b', hb', hall⟩ := C95_output_token_new_wallet (S := World.E) (I := World.I) (M := World.M) (G := World.G) (E := E) (s := sB) (al := ⟨5, 0⟩)
    E_lawful exTagMaps H_binding exLaws.2.2.1 World.G_sorted ⟨exLaws.1.schema_inj, fun _ _ _ => rfl⟩ exLaws.2.1 exPass_proves exTokenEvents exTokenFurnished exTokenPayableA rfl 
    ⟨_, _, .head _, by decide +kernel⟩
    (by
      intro e he _ _ b _ w hb
      exact absurd hb (exTokenNone e he _ b w))
    (by
      intro g si _ hsi
      have h5 : k.stash.schema 10 = some si := hsi
      rw [h5] at hfew
      exact of_decide_eq_true hfew) hnd
    (fun a ha => .inl (of_decide_eq_true (List.all_eq_true.mp hsp a ha))) rfl (.inl rfl)
  rw [hb] at hb'
  cases hb'
  have hfree : (k.index.opoutsByOutputs 0 [⟨.bitcoin, 61, 0⟩]).toBool = false := by decide +kernel
  obtain ⟨k', h1, fuel, con, h2, h3⟩ := hall fA World.r fA_sound (exTokenPacksA hp1 hp2 hp0) exTokenUnknownA exTokenHoldsA rfl ⟨_, rfl, rfl⟩ (by
    intro l hl
    have hl' : k.index.opoutsByOutputs 0 [⟨.bitcoin, 61, 0⟩] = .ok l := hl
    rw [hl'] at hfree
    cases hfree)
  have hc : ((k.consumeFascia H World.r fA).bind (fun x => (x.1.transfer H World.I World.E 100 0 [⟨.bitcoin, 61, 0⟩] none).bind (fun y =>
      y.toOption.map (fun con => decide (exPassOk con))))) = some true := by decide +kernel
  have h1' : consumeFascia H World.r fA k = some (k', none) := h1
  rw [h1', Option.bind_some] at hc
  obtain ⟨y, hy, hc⟩ := Option.bind_eq_some_iff.mp hc
  obtain ⟨con', hcon, hc⟩ := Option.map_eq_some_iff.mp hc
  have g1 := transfer_mono hy (Nat.le_max_right fuel 100)
  have g2 := h2 _ (Nat.le_max_left fuel 100)
  have g2' : k'.transfer H World.I World.E (max fuel 100) 0 [⟨.bitcoin, 61, 0⟩] none = some (.ok con) := g2
  rw [g1] at g2'
  cases Option.some.inj g2'
  cases hcon
  have hok := of_decide_eq_true hc
  obtain ⟨k₂, h4, view, h5, a, h6, -, h7, h8, -⟩ := h3 World.r (exPass_checked hok) (fun h => by cases h) (exPass_hidden hok)
  exact ⟨b, k', con, k₂, view, hb, exTokenPacksA hp1 hp2 hp0, h1, ⟨fuel, h2⟩, h4, h5, a, h6, h7, by rw [h8]; rfl⟩

end

end Rgb.Props
