import Verif.Lemmas.Honest
import Verif.Props.Settle

/-! # C97: what a wallet received it can spend again -/

namespace Rgb.Props
open Rgb Stock

section
variable {E : CEnv} {n : Nat} {M : Mpc} {G : SchemaDoc → SchemaGlobals} {L : Ledger} {es es₁ : List StockEvent} {k k₁ : Stock}

/-- **C97** (state). In a network in which contracts are issued, invoices are paid and payments are transferred by this library, whatever state a wallet has at whatever outputs: the wallet has the documents by which its
type and asset tag are defined, the contract was imported, and the operation which made it came with its history back to the genesis. -/
theorem C97_state (hE : E.Lawful n) (hT : E.TagMaps) (hTC : E.TagsCommitted) (hH : E.H.Binding) (hM : M.Lawful) (hG : ∀ d, OMap.Sorted (G d).maxItems) (hI : Ids.Lawful E.H E.I)
    (h : Honest E M G L es k) {c : Nat} {prevs : List OutSeal} {a : OutAssign} (ha : a ∈ k.stateAt c prevs) :
    k.Defines E c a ∧ Imported E.H es c ∧ (a.opout.op = c ∨ Traced E.H es (fun _ => True) c a.opout.op) := by
  have hs := h.sane hE hT hTC hH hM hG hI
  exact ⟨defines_of hH hM hG hI hTC hs.furnished hs.done hs.conforming ha,
    imported_of_state hH hG (fun e he => (hs.furnished.sound e he).proper) (allDone_run _ hs.done) ha, hs.spendable hH hG ha⟩

/-- **C97** (operations). Such a wallet can make a transfer of any of the outputs which its index finds for a contract, while the witnesses of the contract are valid. -/
theorem C97_transferable (hE : E.Lawful n) (hT : E.TagMaps) (hTC : E.TagsCommitted) (hH : E.H.Binding) (hM : M.Lawful) (hG : ∀ d, OMap.Sorted (G d).maxItems) (hI : Ids.Lawful E.H E.I)
    (hS : E.S.Lawful) (h : Honest E M G L es k) {c : Nat} (himp : Imported E.H es c) (hfew : k.FewIfaces E.I c)
    (hval : ∀ e ∈ es, ∀ b w, e.Brings E.H c b w → k.Valid w) {outputs : List Outpoint} {l : OSet Opout} (hl : k.index.opoutsByOutputs c outputs = .ok l) :
    k.OfContract c outputs none ∧ ∃ fuel con, ∀ fuel', fuel ≤ fuel' → k.transfer E.H E.I E.S fuel' c outputs none = some (.ok con) := by
  have hs := h.sane hE hT hTC hH hM hG hI
  have hreq : ∀ o, Requested k c outputs none o → o.op = c ∨ Traced E.H es k.Valid c o.op := by
    intro o ho
    exact (hs.requested hH hM hG ho).imp_right (fun ht => ht.valid hval)
  exact ⟨traced_of hH hM hG hs.furnished hs.done hreq,
    C85_transferable hH hM hG hI hS hs.furnished hs.done himp (hs.committed c) hfew hl hreq (fun s hs => by cases hs)⟩

/-- **C97** (payable). An invoice which the owner of such a wallet can afford is payable (and so is composed, by C93): it isn't the wallet which lacks something. -/
theorem C97_payable (hE : E.Lawful n) (hT : E.TagMaps) (hTC : E.TagsCommitted) (hH : E.H.Binding) (hM : M.Lawful) (hG : ∀ d, OMap.Sorted (G d).maxItems) (hI : Ids.Lawful E.H E.I)
    (h : Honest E M G L es k) (hnd : k.stash.NamesDiffer) {W : Wallet} {inv : Inv.Invoice} {prevs : List OutSeal} {c iface ty : Nat}
    (ha : k.Affords E W inv prevs c iface ty) : k.Payable E W inv prevs c iface ty ∧ ∃ b, compose E W k inv prevs = .ok b := by
  have hs := h.sane hE hT hTC hH hM hG hI
  have hp := payable_of hT hTC hH hM hG hI hs.done hs.furnished hs.conforming hnd ha
  exact ⟨hp, C93_composed hE hT hp⟩

theorem affords_ready (hE : E.Lawful n) (hT : E.TagMaps) (hTC : E.TagsCommitted) (hH : E.H.Binding) (hM : M.Lawful) (hG : ∀ d, OMap.Sorted (G d).maxItems) (hI : Ids.Lawful E.H E.I)
    (h : Honest E M G L es k) (hnd : k.stash.NamesDiffer) {W : Wallet} {inv : Inv.Invoice} {prevs : List OutSeal} {c iface ty : Nat}
    (ha : k.Affords E W inv prevs c iface ty) (hval : ∀ e ∈ es, ∀ b w, e.Brings E.H c b w → k.Valid w) :
    k.Payable E W inv prevs c iface ty ∧ Imported E.H es c ∧ ∀ a ∈ k.stateAt c prevs, a.opout.op = c ∨ Traced E.H es k.Valid c a.opout.op := by
  obtain ⟨hp, -⟩ := C97_payable hE hT hTC hH hM hG hI h hnd ha
  obtain ⟨a, l, hl⟩ := List.exists_cons_of_ne_nil (ha.few c (.inl rfl)).1
  have hst := fun a ha => C97_state hE hT hTC hH hM hG hI h (c := c) (prevs := prevs) (a := a) ha
  exact ⟨hp, (hst a (by rw [hl]; exact .head _)).2.1, fun a ha => (hst a ha).2.2.imp_right (fun ht => ht.valid hval)⟩

/-- **C97** (paid). A wallet of the network, of which the witnesses of the contract are valid, pays an invoice which its owner can afford to a new secret seal. The payment is composed. Whatever fascia is made of it, with a new
valid transaction: the wallet accepts it if there is room, stays a wallet of the network, and makes a transfer. Any wallet of the network which has the seal, has nothing contradicting the
transfer and hasn't seen outputs of the payments accepts it if its contents are valid and there is room, and sees exactly the invoiced amount. And it is a wallet of the network again: what it got it can pay on, under the same conditions, without
end. -/
theorem C97_paid (hE : E.Lawful n) (hT : E.TagMaps) (hTC : E.TagsCommitted) (hH : E.H.Binding) (hM : M.Lawful) (hG : ∀ d, OMap.Sorted (G d).maxItems) (hI : Ids.Lawful E.H E.I)
    (hS : E.S.Lawful) (hSP : E.S.ProvesFor M) (h : Honest E M G L es k) (hnd : k.stash.NamesDiffer) {W : Wallet} {inv : Inv.Invoice} {prevs : List OutSeal} {c iface ty amt : Nat}
    (ha : k.Affords E W inv prevs c iface ty) (hamt : inv.ownedState = .amount amt) (hfew : k.FewIfaces E.I c) (hval : ∀ e ∈ es, ∀ b w, e.Brings E.H c b w → k.Valid w)
    {x : Seal} (hx : x.txid.isSome = true) (hsec : inv.secret = some (E.H.sealHash x)) (hnew : k.index.opoutsByTerminals [E.H.sealHash x] = []) :
    ∃ b, compose E W k inv prevs = .ok b ∧
      ∀ f r, StockEvent.Sound E.H (.fascia f r) → StockEvent.OnLedger E.H L (.fascia f r) → f.Attested E.H L → f.Packs E.H b → k.Unknown E.H f → k.Holds E.H f → f.witness.id.chain = inv.layer →
        (∃ ord, r f.witness.id = some ord ∧ ord.isValid = true) →
        ∃ k', consumeFascia E.H r f k = some (k', none) ∧ Honest E M G L (es ++ [.fascia f r]) k' ∧
          ∃ fuel con, (∀ fuel', fuel ≤ fuel' → k'.transfer E.H E.I E.S fuel' c [] (some (E.H.sealHash x)) = some (.ok con)) ∧
          ∀ r', con.Checked G r' → (∀ wb ∈ con.data.bundles, r' wb.id ≠ some .archived) →
          ∀ es₁ k₁, Honest E M G L es₁ k₁ → x ∈ k₁.stash.secretSeals → k₁.Agrees E.H M con → k₁.Room E.H E.I con →
            (∀ t ∈ b.payments, ∀ no, k₁.Unseen c .fungible ⟨t.op.id E.H, ty, no⟩) →
          ∃ k₂, k₁.consumeConsignment E.H E.I M G r' con = some (k₂, none) ∧ Honest E M G L (es₁ ++ [.consignment con r']) k₂ ∧
            ∃ view, k₂.state.contractState c = .ok view ∧ ∃ l : List OutAssign, (l.map (fun a => a.opout)).Nodup ∧
              (∀ a ∈ l, a ∈ view.all .fungible ∧ a.opout.ty = ty ∧ (∃ t ∈ b.payments, t.op.id E.H = a.opout.op) ∧
                ∃ w, a.witness = some w ∧ x.toOutputWith w = some a.sl) ∧
              (l.map (fun a => a.state.amount)).sum = amt := by
  have hs := h.sane hE hT hTC hH hM hG hI
  obtain ⟨hp, himp, hsp⟩ := affords_ready hE hT hTC hH hM hG hI h hnd ha hval
  obtain ⟨b, hb, hall⟩ := C95_paid hE hT hH hM hG hI hS hSP hs.done hs.furnished hp hamt himp (hs.committed c) hfew hnd hsp hx hsec hnew
  refine ⟨b, hb, fun f r hf hl hat hpk hun hr hch hv => ?_⟩
  obtain ⟨k', hd, fuel, con, htr, hacc⟩ := hall f r hf hpk hun hr hch hv
  obtain ⟨b', hb', hall'⟩ := C95_transferred hE hT hH hM hG hI hS hs.done hs.furnished hp himp (hs.committed c) hfew hsp hx hnew
  cases Except.ok.inj (hb.symm.trans hb')
  obtain ⟨k'', hd', hoc, -⟩ := hall' f r hf hpk hun hr hch hv
  cases Option.some.inj (hd.symm.trans hd')
  have hk' : Honest E M G L (es ++ [.fascia f r]) k' := .spent h hb hpk.toMadeOf hun hf hl hat hd
  refine ⟨k', hd, hk', fuel, con, htr, fun r' hck hna es₁ k₁ h₁ hx₁ hag hrm hus => ?_⟩
  obtain ⟨k₂, hacc₂, hview⟩ := hacc r' hck hna k₁ ((h₁.sane hE hT hTC hH hM hG hI).reachable hG) hx₁ hag hrm hus
  exact ⟨k₂, hacc₂, .received hk' (htr fuel (Nat.le_refl _)) hoc h₁ hacc₂, hview⟩

/-- **C97** (new wallet). In particular a wallet which has nothing but the seal, if at most 255 outputs in the transfer are assigned to any one secret seal. -/
theorem C97_new_wallet (hE : E.Lawful n) (hT : E.TagMaps) (hTC : E.TagsCommitted) (hH : E.H.Binding) (hM : M.Lawful) (hG : ∀ d, OMap.Sorted (G d).maxItems) (hI : Ids.Lawful E.H E.I)
    (hS : E.S.Lawful) (hSP : E.S.ProvesFor M) (h : Honest E M G L es k) (hnd : k.stash.NamesDiffer) {W : Wallet} {inv : Inv.Invoice} {prevs : List OutSeal} {c iface ty amt : Nat}
    (ha : k.Affords E W inv prevs c iface ty) (hamt : inv.ownedState = .amount amt) (hfew : k.FewIfaces E.I c) (hval : ∀ e ∈ es, ∀ b w, e.Brings E.H c b w → k.Valid w)
    {x : Seal} (hx : x.txid.isSome = true) (hsec : inv.secret = some (E.H.sealHash x)) (hnew : k.index.opoutsByTerminals [E.H.sealHash x] = []) :
    ∃ b, compose E W k inv prevs = .ok b ∧
      ∀ f r, StockEvent.Sound E.H (.fascia f r) → StockEvent.OnLedger E.H L (.fascia f r) → f.Attested E.H L → f.Packs E.H b → k.Unknown E.H f → k.Holds E.H f → f.witness.id.chain = inv.layer →
        (∃ ord, r f.witness.id = some ord ∧ ord.isValid = true) →
        ∃ k', consumeFascia E.H r f k = some (k', none) ∧ Honest E M G L (es ++ [.fascia f r]) k' ∧
          ∃ fuel con, (∀ fuel', fuel ≤ fuel' → k'.transfer E.H E.I E.S fuel' c [] (some (E.H.sealHash x)) = some (.ok con)) ∧
          ∀ r', con.Checked G r' → (∀ wb ∈ con.data.bundles, r' wb.id ≠ some .archived) →
          (∀ s, con.data.hiddenTo E.H s ≤ 255) →
          ∃ k₂, (Stock.fresh [x]).consumeConsignment E.H E.I M G r' con = some (k₂, none) ∧ Honest E M G L [.secretSeal x, .consignment con r'] k₂ ∧
            ∃ view, k₂.state.contractState c = .ok view ∧ ∃ l : List OutAssign, (l.map (fun a => a.opout)).Nodup ∧
              (∀ a ∈ l, a ∈ view.all .fungible ∧ a.opout.ty = ty ∧ (∃ t ∈ b.payments, t.op.id E.H = a.opout.op) ∧
                ∃ w, a.witness = some w ∧ x.toOutputWith w = some a.sl) ∧
              (l.map (fun a => a.state.amount)).sum = amt := by
  have hs := h.sane hE hT hTC hH hM hG hI
  obtain ⟨hp, himp, hsp⟩ := affords_ready hE hT hTC hH hM hG hI h hnd ha hval
  obtain ⟨b, hb, hall⟩ := C95_new_wallet hE hT hH hM hG hI hS hSP hs.done hs.furnished hp hamt himp (hs.committed c) hfew hnd hsp hx hsec hnew
  refine ⟨b, hb, fun f r hf hl hat hpk hun hr hch hv => ?_⟩
  obtain ⟨k', hd, fuel, con, htr, hacc⟩ := hall f r hf hpk hun hr hch hv
  obtain ⟨b', hb', hall'⟩ := C95_transferred hE hT hH hM hG hI hS hs.done hs.furnished hp himp (hs.committed c) hfew hsp hx hnew
  cases Except.ok.inj (hb.symm.trans hb')
  obtain ⟨k'', hd', hoc, -⟩ := hall' f r hf hpk hun hr hch hv
  cases Option.some.inj (hd.symm.trans hd')
  have hk' : Honest E M G L (es ++ [.fascia f r]) k' := .spent h hb hpk.toMadeOf hun hf hl hat hd
  refine ⟨k', hd, hk', fuel, con, htr, fun r' hck hna hhid => ?_⟩
  obtain ⟨k₂, hacc₂, hview⟩ := hacc r' hck hna hhid
  exact ⟨k₂, hacc₂, .received hk' (htr fuel (Nat.le_refl _)) hoc (.own .new (e := .secretSeal x) trivial rfl) hacc₂, hview⟩

/-- **C97** (tokens). The same for an invoice for a token. -/
theorem C97_token (hE : E.Lawful n) (hT : E.TagMaps) (hTC : E.TagsCommitted) (hH : E.H.Binding) (hM : M.Lawful) (hG : ∀ d, OMap.Sorted (G d).maxItems) (hI : Ids.Lawful E.H E.I)
    (hS : E.S.Lawful) (hSP : E.S.ProvesFor M) (h : Honest E M G L es k) (hnd : k.stash.NamesDiffer) {W : Wallet} {inv : Inv.Invoice} {prevs : List OutSeal} {c iface ty : Nat} {al : Inv.Allocation}
    (ha : k.Affords E W inv prevs c iface ty) (hal : inv.ownedState = .data al) (hfew : k.FewIfaces E.I c) (hval : ∀ e ∈ es, ∀ b w, e.Brings E.H c b w → k.Valid w)
    {x : Seal} (hx : x.txid.isSome = true) (hsec : inv.secret = some (E.H.sealHash x)) (hnew : k.index.opoutsByTerminals [E.H.sealHash x] = []) :
    ∃ b, compose E W k inv prevs = .ok b ∧
      ∀ f r, StockEvent.Sound E.H (.fascia f r) → StockEvent.OnLedger E.H L (.fascia f r) → f.Attested E.H L → f.Packs E.H b → k.Unknown E.H f → k.Holds E.H f → f.witness.id.chain = inv.layer →
        (∃ ord, r f.witness.id = some ord ∧ ord.isValid = true) →
        ∃ k', consumeFascia E.H r f k = some (k', none) ∧ Honest E M G L (es ++ [.fascia f r]) k' ∧
          ∃ fuel con, (∀ fuel', fuel ≤ fuel' → k'.transfer E.H E.I E.S fuel' c [] (some (E.H.sealHash x)) = some (.ok con)) ∧
          ∀ r', con.Checked G r' → (∀ wb ∈ con.data.bundles, r' wb.id ≠ some .archived) →
          ∀ es₁ k₁, Honest E M G L es₁ k₁ → x ∈ k₁.stash.secretSeals → k₁.Agrees E.H M con → k₁.Room E.H E.I con →
            (∀ t ∈ b.payments, ∀ no, k₁.Unseen c .structured ⟨t.op.id E.H, ty, no⟩) →
          ∃ k₂, k₁.consumeConsignment E.H E.I M G r' con = some (k₂, none) ∧ Honest E M G L (es₁ ++ [.consignment con r']) k₂ ∧
            ∃ view, k₂.state.contractState c = .ok view ∧ ∃ a ∈ view.all .structured, a.opout.ty = ty ∧ a.state.data? = some (E.dataOf al) ∧
              (∃ t ∈ b.payments, t.op.id E.H = a.opout.op) ∧ ∃ w, a.witness = some w ∧ x.toOutputWith w = some a.sl := by
  have hs := h.sane hE hT hTC hH hM hG hI
  obtain ⟨hp, himp, hsp⟩ := affords_ready hE hT hTC hH hM hG hI h hnd ha hval
  obtain ⟨b, hb, hall⟩ := C95_token hE hT hH hM hG hI hS hSP hs.done hs.furnished hp hal himp (hs.committed c) hfew hnd hsp hx hsec hnew
  refine ⟨b, hb, fun f r hf hl hat hpk hun hr hch hv => ?_⟩
  obtain ⟨k', hd, fuel, con, htr, hacc⟩ := hall f r hf hpk hun hr hch hv
  obtain ⟨b', hb', hall'⟩ := C95_transferred hE hT hH hM hG hI hS hs.done hs.furnished hp himp (hs.committed c) hfew hsp hx hnew
  cases Except.ok.inj (hb.symm.trans hb')
  obtain ⟨k'', hd', hoc, -⟩ := hall' f r hf hpk hun hr hch hv
  cases Option.some.inj (hd.symm.trans hd')
  have hk' : Honest E M G L (es ++ [.fascia f r]) k' := .spent h hb hpk.toMadeOf hun hf hl hat hd
  refine ⟨k', hd, hk', fuel, con, htr, fun r' hck hna es₁ k₁ h₁ hx₁ hag hrm hus => ?_⟩
  obtain ⟨k₂, hacc₂, hview⟩ := hacc r' hck hna k₁ ((h₁.sane hE hT hTC hH hM hG hI).reachable hG) hx₁ hag hrm hus
  exact ⟨k₂, hacc₂, .received hk' (htr fuel (Nat.le_refl _)) hoc h₁ hacc₂, hview⟩

/-- **C97** (tokens, new wallet). -/
theorem C97_token_new_wallet (hE : E.Lawful n) (hT : E.TagMaps) (hTC : E.TagsCommitted) (hH : E.H.Binding) (hM : M.Lawful) (hG : ∀ d, OMap.Sorted (G d).maxItems) (hI : Ids.Lawful E.H E.I)
    (hS : E.S.Lawful) (hSP : E.S.ProvesFor M) (h : Honest E M G L es k) (hnd : k.stash.NamesDiffer) {W : Wallet} {inv : Inv.Invoice} {prevs : List OutSeal} {c iface ty : Nat} {al : Inv.Allocation}
    (ha : k.Affords E W inv prevs c iface ty) (hal : inv.ownedState = .data al) (hfew : k.FewIfaces E.I c) (hval : ∀ e ∈ es, ∀ b w, e.Brings E.H c b w → k.Valid w)
    {x : Seal} (hx : x.txid.isSome = true) (hsec : inv.secret = some (E.H.sealHash x)) (hnew : k.index.opoutsByTerminals [E.H.sealHash x] = []) :
    ∃ b, compose E W k inv prevs = .ok b ∧
      ∀ f r, StockEvent.Sound E.H (.fascia f r) → StockEvent.OnLedger E.H L (.fascia f r) → f.Attested E.H L → f.Packs E.H b → k.Unknown E.H f → k.Holds E.H f → f.witness.id.chain = inv.layer →
        (∃ ord, r f.witness.id = some ord ∧ ord.isValid = true) →
        ∃ k', consumeFascia E.H r f k = some (k', none) ∧ Honest E M G L (es ++ [.fascia f r]) k' ∧
          ∃ fuel con, (∀ fuel', fuel ≤ fuel' → k'.transfer E.H E.I E.S fuel' c [] (some (E.H.sealHash x)) = some (.ok con)) ∧
          ∀ r', con.Checked G r' → (∀ wb ∈ con.data.bundles, r' wb.id ≠ some .archived) →
          (∀ s, con.data.hiddenTo E.H s ≤ 255) →
          ∃ k₂, (Stock.fresh [x]).consumeConsignment E.H E.I M G r' con = some (k₂, none) ∧ Honest E M G L [.secretSeal x, .consignment con r'] k₂ ∧
            ∃ view, k₂.state.contractState c = .ok view ∧ ∃ a ∈ view.all .structured, a.opout.ty = ty ∧ a.state.data? = some (E.dataOf al) ∧
              (∃ t ∈ b.payments, t.op.id E.H = a.opout.op) ∧ ∃ w, a.witness = some w ∧ x.toOutputWith w = some a.sl := by
  have hs := h.sane hE hT hTC hH hM hG hI
  obtain ⟨hp, himp, hsp⟩ := affords_ready hE hT hTC hH hM hG hI h hnd ha hval
  obtain ⟨b, hb, hall⟩ := C95_token_new_wallet hE hT hH hM hG hI hS hSP hs.done hs.furnished hp hal himp (hs.committed c) hfew hnd hsp hx hsec hnew
  refine ⟨b, hb, fun f r hf hl hat hpk hun hr hch hv => ?_⟩
  obtain ⟨k', hd, fuel, con, htr, hacc⟩ := hall f r hf hpk hun hr hch hv
  obtain ⟨b', hb', hall'⟩ := C95_transferred hE hT hH hM hG hI hS hs.done hs.furnished hp himp (hs.committed c) hfew hsp hx hnew
  cases Except.ok.inj (hb.symm.trans hb')
  obtain ⟨k'', hd', hoc, -⟩ := hall' f r hf hpk hun hr hch hv
  cases Option.some.inj (hd.symm.trans hd')
  have hk' : Honest E M G L (es ++ [.fascia f r]) k' := .spent h hb hpk.toMadeOf hun hf hl hat hd
  refine ⟨k', hd, hk', fuel, con, htr, fun r' hck hna hhid => ?_⟩
  obtain ⟨k₂, hacc₂, hview⟩ := hacc r' hck hna hhid
  exact ⟨k₂, hacc₂, .received hk' (htr fuel (Nat.le_refl _)) hoc (.own .new (e := .secretSeal x) trivial rfl) hacc₂, hview⟩

end

/-! ### Examples -/

section
open PaidWorld

theorem exFits {t : Op} (h : t.assigns.all (fun e => e.2.items.all (fun x => x.state?.all (exOwns e.1))) = true) (d : SchemaDoc) (g : Op) : t.Fits E d g := by
  intro ty ta x st h1 h2 h3
  have ho := List.all_eq_true.1 (List.all_eq_true.1 h _ (OMap.mem_of_get? h1)) x h2
  rw [h3] at ho
  simp only [Option.all_some] at ho
  refine ⟨?_, ?_⟩
  · show mixedSchema.Owns _ _
    unfold Schema.Owns
    cases st <;> simp only [exOwns] at ho ⊢
    · simpa using ho
    · simp only [Bool.and_eq_true] at ho; simpa using ho.1
    · split at ho
      · rename_i sem e; exact ⟨sem, e⟩
      · cases ho
    · cases ho
  · rintro v bl t rfl
    simp only [exOwns, Bool.and_eq_true] at ho
    have h4 := ho.2
    simp only [beq_iff_eq] at h4
    exact h4

/-- What the transaction 61 commits to; each other one commits to something else. -/
def exLedger : Ledger where
  bundle w _ m := if w = fascia.witness.id then (if m = .opretFirst then 0 else 2) else 3 + (2 * w.txid + if w.chain = .bitcoin then 0 else 1)
  anchor _ m := if m = .opretFirst then (0, 9) else (0, 8)
  home o := (0, if OMap.contains b0.known o = true then 0 else 2)

/-- The payer in the small world: two contracts were issued. -/
theorem exHonest : Honest E World.M World.G exLedger PayWorld.events k := by
  obtain ⟨k₁, h1, k₂, h2, rfl⟩ := exPaidDone
  have f := exPaidFurnished₀
  have one : ∀ e ∈ PayWorld.events, Furnished H World.I World.E [e] := by
    intro e he
    have hm : ∀ x ∈ [e], x ∈ PayWorld.events := by intro x hx; rw [List.mem_singleton] at hx; exact hx ▸ he
    exact ⟨fun x hx => f.sound x (hm x hx), fun x hx x' hx' => f.same x (hm x hx) x' (hm x' hx'), fun c r hx => f.noExtensions c r (hm _ hx),
      fun c r hx => f.schema c r (hm _ hx), fun c r hx => f.types c r (hm _ hx), fun c r hx => f.libs c r (hm _ hx), fun x hx => f.kitTypes x (hm _ hx)⟩
  have fits : ∀ g : Op, (∀ d g', g.Fits E d g') → (PayWorld.con g).Fits E := by
    intro g hg
    exact ⟨hg _ _, (fun t ht => by cases ht), fun wb hw => by cases hw⟩
  exact .issued (.issued .new rfl (one _ (.head _)) (fits _ (exFits (by decide +kernel))) h1) rfl (one _ (.tail _ (.head _))) (fits _ (exFits (by decide +kernel))) h2

theorem exAffords : k.Affords E PayWorld.W inv PayWorld.prevs 0 7 4000 where
  contract := exPaidPayable.contract
  named := exPaidPayable.named
  fresh := exPaidPayable.fresh
  typed := exPaidPayable.typed
  vout := exPaidPayable.vout
  alloc := exPaidPayable.alloc
  few := by
    have h : ∀ id ∈ k.index.contractsAssigning (PayWorld.prevs.map OutSeal.outpoint), id = 0 ∨ id = 2 := by decide +kernel
    have h' : ∀ id ∈ [0, 2], k.stateAt id PayWorld.prevs ≠ [] ∧ (k.stateAt id PayWorld.prevs).length ≤ 255 ∧
        ∀ a ∈ k.stateAt id PayWorld.prevs, ∀ a' ∈ k.stateAt id PayWorld.prevs, a.opout.op = a'.opout.op → a.witness = a'.witness := by decide +kernel
    rintro id (rfl | hid)
    · exact h' 0 (by simp)
    · exact h' id (by simpa using h id hid)
  enough := exPaidPayable.enough
  faced := by
    have h : ∀ id ∈ k.index.contractsAssigning (PayWorld.prevs.map OutSeal.outpoint), ((k.stash.genesis id).bind (fun g => k.stash.schema (World.I.genesisSchema g))).all
        (fun si => decide (si.iimpls ≠ [])) = true := by decide +kernel
    intro id hid _ g si h1 h2
    have := h id hid
    rw [h1, Option.bind_some, show k.stash.schema (World.I.genesisSchema g) = some si from h2] at this
    simpa using this
  count := exPaidPayable.count
  balance := exPaidPayable.balance

theorem exOnLedger : StockEvent.OnLedger H exLedger (.fascia fascia World.r) := by
  intro c b w hb
  cases hb with
  | fascia _ _ _ _ hm =>
    simp only [fascia, List.mem_cons, List.not_mem_nil, or_false, Prod.mk.injEq] at hm
    rcases hm with ⟨-, rfl⟩ | ⟨-, rfl⟩
    · exact ⟨by rw [ids.2.1]; rfl, by decide⟩
    · exact ⟨by rw [ids.2.2.1]; rfl, by decide⟩

theorem exAttested : fascia.Attested H exLedger where
  tx := rfl
  anchors := by
    intro m a h
    cases m <;> simp only [fascia, anchorOf, Option.some.injEq] at h <;> subst h <;>
      refine ⟨rfl, fun c b hb => ?_⟩ <;> simp only [List.mem_singleton, Prod.mk.injEq] at hb <;> rw [hb.2] <;> rfl
  homes := by
    intro c b hm o ho
    simp only [fascia, List.mem_cons, List.not_mem_nil, or_false, Prod.mk.injEq] at hm
    rcases hm with ⟨rfl, rfl⟩ | ⟨rfl, rfl⟩
    · rw [ids.2.1]; simp only [exLedger, ho, if_true]
    · have h : ∀ o ∈ OMap.keys b1.known, OMap.contains b0.known o = false := by decide
      obtain ⟨t, ht⟩ := OMap.contains_iff.mp ho
      rw [ids.2.2.1]; simp only [exLedger, h o (List.mem_map.mpr ⟨_, OMap.mem_of_get? ht, rfl⟩)]; rfl

/-- The payment of 12 in the small world. The wallet of the payer, after the payment, and a new wallet, after the transfer, are wallets of the network; the new one has 12, and state with which it can go on. -/
example : ∃ k' con k₂ view, Honest E World.M World.G exLedger (PayWorld.events ++ [.fascia fascia World.r]) k' ∧
    Honest E World.M World.G exLedger [.secretSeal sX, .consignment con World.r] k₂ ∧ k₂.state.contractState 0 = .ok view ∧
    ∃ l : List OutAssign, (∀ a ∈ l, a ∈ view.all .fungible) ∧ (l.map (fun a => a.state.amount)).sum = 12 := by
  obtain ⟨b, hb, hp⟩ := exComposed
  have hfew : (k.stash.schema 10).all (fun si => decide (si.iimpls.length ≤ 126)) = true := by decide +kernel
  have hs : H.sealHash sX = 12 := by decide +kernel
  have hnd : k.stash.NamesDiffer := by
    have h : ∀ e ∈ k.stash.ifaces, ∀ e' ∈ k.stash.ifaces, e.2.name = e'.2.name → e.1 = e'.1 := by decide +kernel
    exact fun i j d d' hi hj he => h (i, d) (OMap.mem_of_get? hi) (j, d') (OMap.mem_of_get? hj) he
  obtain ⟨b', hb', hall⟩ := C97_new_wallet (E := E) (M := World.M) (G := World.G) (L := exLedger) (x := sX) (amt := 12)
    E_lawful exTagMaps (fun _ _ _ => rfl) H_binding exLaws.2.2.1 World.G_sorted ⟨exLaws.1.schema_inj, fun _ _ _ => rfl⟩ exLaws.2.1 exPass_proves exHonest hnd exAffords rfl
    (by
      intro g si _ hsi
      have h5 : k.stash.schema 10 = some si := hsi
      rw [h5] at hfew
      exact of_decide_eq_true hfew)
    (fun e he b w hb => absurd hb (exPaidNone e he _ b w)) rfl (by show some 12 = some (H.sealHash sX); rw [hs])
    (by show k.index.opoutsByTerminals [H.sealHash sX] = []; rw [hs]; decide +kernel)
  rw [hb] at hb'
  cases hb'
  obtain ⟨k', h1, hk', fuel, con, h2, h3⟩ := hall fascia World.r fascia_sound exOnLedger exAttested (exPacks hp) exPaidUnknown exPaidHolds rfl ⟨_, rfl, rfl⟩
  have hc : ((k.consumeFascia H World.r fascia).bind (fun x => (x.1.transfer H World.I World.E 100 0 [] (some 12)).bind (fun y =>
      y.toOption.map (fun con => decide (exPassOk con))))) = some true := by decide +kernel
  have h1' : consumeFascia H World.r fascia k = some (k', none) := h1
  rw [h1', Option.bind_some] at hc
  obtain ⟨y, hy, hc⟩ := Option.bind_eq_some_iff.mp hc
  obtain ⟨con', hcon, hc⟩ := Option.map_eq_some_iff.mp hc
  have g1 := transfer_mono hy (Nat.le_max_right fuel 100)
  have g2 := h2 _ (Nat.le_max_left fuel 100)
  have g2' : k'.transfer H World.I World.E (max fuel 100) 0 [] (some (H.sealHash sX)) = some (.ok con) := g2
  rw [hs, g1] at g2'
  cases Option.some.inj g2'
  cases hcon
  have hok := of_decide_eq_true hc
  obtain ⟨k₂, -, hk₂, view, h5, l, -, h6, h7⟩ := h3 World.r (exPass_checked hok) (fun _ _ h => by cases h) (exPass_hidden hok)
  exact ⟨k', con, k₂, view, hk', hk₂, h5, l, fun a ha => (h6 a ha).1, h7⟩

end

end Rgb.Props
