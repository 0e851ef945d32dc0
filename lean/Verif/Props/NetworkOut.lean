import Verif.Props.Network
import Verif.Props.SettleOut

/-! # C98, payments to outputs of the new transaction -/

namespace Rgb.Props
open Rgb Stock

section
variable {E : CEnv} {n : Nat} {M : Mpc} {G : SchemaDoc → SchemaGlobals} {L : Ledger} {es : List StockEvent} {k : Stock}

/-- **C98** (address). A wallet of the network, of which the witnesses of the contract are valid, pays an invoice with an address which its owner can afford: to an output of the new transaction. Whatever fascia is made of it, for outputs of which
nothing is known: the wallet accepts it if there is room, stays a wallet of the network, and makes a transfer of the output. Each wallet of the network, whatever it has done before, accepts the transfer if its contents are valid, its secret
seals can be on the chains of the witnesses and there is room, stays a wallet of the network, and sees exactly the invoiced amount at the output. -/
theorem C98_output_paid (hE : E.Lawful n) (hT : E.TagMaps) (hTC : E.TagsCommitted) (hH : E.H.Binding) (hM : M.Lawful) (hG : ∀ d, OMap.Sorted (G d).maxItems) (hI : Ids.Lawful E.H E.I)
    (hS : E.S.Lawful) (hSP : E.S.ProvesFor M) (hSR : E.S.Restores M) (h : Honest E M G L es k) (hnd : k.stash.NamesDiffer) {W : Wallet} {inv : Inv.Invoice} {prevs : List OutSeal} {c iface ty amt : Nat}
    (ha : k.Affords E W inv prevs c iface ty) (hamt : inv.ownedState = .amount amt) (hpos : 0 < amt) (hne : W.benSeal inv ≠ W.changeSeal E k inv c ty) (hfew : k.FewIfaces E.I c)
    (hval : ∀ e ∈ es, ∀ b w, e.Brings E.H c b w → k.Valid w)
    {s : Seal} (hb : W.benSeal inv = .revealed s) (hm : s.method = W.method ∨ ∀ site c ty v, W.alloc site c ty v ≠ some s.vout) :
    ∃ b, compose E W k inv prevs = .ok b ∧
      ∀ f r, StockEvent.Sound E.H (.fascia f r) → StockEvent.OnLedger E.H L (.fascia f r) → f.Attested E.H L → f.Packs E.H b → k.Unknown E.H f → k.Holds E.H f → f.witness.id.chain = inv.layer →
        (∃ ord, r f.witness.id = some ord ∧ ord.isValid = true) → (∀ l, k.index.opoutsByOutputs c [⟨inv.layer, f.witness.id.txid, s.vout⟩] ≠ .ok l) →
        ∃ k', consumeFascia E.H r f k = some (k', none) ∧ Honest E M G L (es ++ [.fascia f r]) k' ∧
          ∃ fuel con, (∀ fuel', fuel ≤ fuel' → k'.transfer E.H E.I E.S fuel' c [⟨inv.layer, f.witness.id.txid, s.vout⟩] none = some (.ok con)) ∧
          ∀ r', con.Checked G r' → r' f.witness.id ≠ some .archived →
          ∀ es₁ k₁, Honest E M G L es₁ k₁ → (∀ y ∈ k₁.stash.secretSeals, ∀ wb ∈ con.data.bundles, (y.toOutputWith wb.id).isSome = true) → k₁.Room E.H E.I con →
          ∃ k₂, k₁.consumeConsignment E.H E.I M G r' con = some (k₂, none) ∧ Honest E M G L (es₁ ++ [.consignment con r']) k₂ ∧
            ∃ view, k₂.state.contractState c = .ok view ∧ ∃ l : List OutAssign, (l.map (fun a => a.opout)).Nodup ∧
              (∀ a ∈ l, (a ∈ view.all .fungible ∧ a.sl = ⟨inv.layer, s.method, f.witness.id.txid, s.vout⟩ ∧ a.witness = some f.witness.id) ∧ a.opout.ty = ty ∧
                ∃ t ∈ b.payments, t.op.id E.H = a.opout.op) ∧
              (l.map (fun a => a.state.amount)).sum = amt := by
  have hs := h.sane hE hT hTC hH hM hG hI
  obtain ⟨hp, himp, hsp⟩ := affords_ready hE hT hTC hH hM hG hI h hnd ha hval
  obtain ⟨b, hcomp, hall⟩ := C95_output_paid hE hT hH hM hG hI hS hSP hs.done hs.furnished hp hamt hpos hne himp (hs.committed c) hfew hnd hsp hb hm
  refine ⟨b, hcomp, fun f r hf hl hat hpk hun hr hch hv hfree => ?_⟩
  obtain ⟨k', hd, fuel, con, htr, hacc⟩ := hall f r hf hpk hun hr hch hv hfree
  have hk' : Honest E M G L (es ++ [.fascia f r]) k' := .spent h hcomp hpk.toMadeOf hun hf hl hat hd
  refine ⟨k', hd, hk', fuel, con, htr, fun r' hck hna es₁ k₁ h₁ hseals hrm => ?_⟩
  obtain ⟨b', hb', hall'⟩ := C95_output hE hT hH hM hG hI hS hs.done hs.furnished hp (.inl ⟨amt, hamt, hpos, hne⟩) himp (hs.committed c) hfew hsp hb hm
  cases Except.ok.inj (hcomp.symm.trans hb')
  obtain ⟨k'', hd', -, hoc, -⟩ := hall' f r hf hpk hun hr hch hv hfree
  cases Option.some.inj (hd.symm.trans hd')
  have hag := C98_agrees hE hT hTC hH hM hG hI hSR hk' h₁ (htr fuel (Nat.le_refl _)) hoc hck hseals
  obtain ⟨k₂, hacc₂, hview⟩ := hacc r' hck hna k₁ ((h₁.sane hE hT hTC hH hM hG hI).reachable hG) hag hrm
  exact ⟨k₂, hacc₂, .received hk' (htr fuel (Nat.le_refl _)) hoc h₁ hacc₂, hview⟩

/-- **C98** (address, tokens). The same for an invoice for a token. -/
theorem C98_output_token (hE : E.Lawful n) (hT : E.TagMaps) (hTC : E.TagsCommitted) (hH : E.H.Binding) (hM : M.Lawful) (hG : ∀ d, OMap.Sorted (G d).maxItems) (hI : Ids.Lawful E.H E.I)
    (hS : E.S.Lawful) (hSP : E.S.ProvesFor M) (hSR : E.S.Restores M) (h : Honest E M G L es k) (hnd : k.stash.NamesDiffer) {W : Wallet} {inv : Inv.Invoice} {prevs : List OutSeal} {c iface ty : Nat}
    {al : Inv.Allocation} (ha : k.Affords E W inv prevs c iface ty) (hal : inv.ownedState = .data al) (hfew : k.FewIfaces E.I c)
    (hval : ∀ e ∈ es, ∀ b w, e.Brings E.H c b w → k.Valid w)
    {s : Seal} (hb : W.benSeal inv = .revealed s) (hm : s.method = W.method ∨ ∀ site c ty v, W.alloc site c ty v ≠ some s.vout) :
    ∃ b, compose E W k inv prevs = .ok b ∧
      ∀ f r, StockEvent.Sound E.H (.fascia f r) → StockEvent.OnLedger E.H L (.fascia f r) → f.Attested E.H L → f.Packs E.H b → k.Unknown E.H f → k.Holds E.H f → f.witness.id.chain = inv.layer →
        (∃ ord, r f.witness.id = some ord ∧ ord.isValid = true) → (∀ l, k.index.opoutsByOutputs c [⟨inv.layer, f.witness.id.txid, s.vout⟩] ≠ .ok l) →
        ∃ k', consumeFascia E.H r f k = some (k', none) ∧ Honest E M G L (es ++ [.fascia f r]) k' ∧
          ∃ fuel con, (∀ fuel', fuel ≤ fuel' → k'.transfer E.H E.I E.S fuel' c [⟨inv.layer, f.witness.id.txid, s.vout⟩] none = some (.ok con)) ∧
          ∀ r', con.Checked G r' → r' f.witness.id ≠ some .archived →
          ∀ es₁ k₁, Honest E M G L es₁ k₁ → (∀ y ∈ k₁.stash.secretSeals, ∀ wb ∈ con.data.bundles, (y.toOutputWith wb.id).isSome = true) → k₁.Room E.H E.I con →
          ∃ k₂, k₁.consumeConsignment E.H E.I M G r' con = some (k₂, none) ∧ Honest E M G L (es₁ ++ [.consignment con r']) k₂ ∧
            ∃ view, k₂.state.contractState c = .ok view ∧ ∃ a ∈ view.all .structured, a.opout.ty = ty ∧ a.state.data? = some (E.dataOf al) ∧
              a.sl = ⟨inv.layer, s.method, f.witness.id.txid, s.vout⟩ ∧ a.witness = some f.witness.id ∧ ∃ t ∈ b.payments, t.op.id E.H = a.opout.op := by
  have hs := h.sane hE hT hTC hH hM hG hI
  obtain ⟨hp, himp, hsp⟩ := affords_ready hE hT hTC hH hM hG hI h hnd ha hval
  obtain ⟨b, hcomp, hall⟩ := C95_output_token hE hT hH hM hG hI hS hSP hs.done hs.furnished hp hal himp (hs.committed c) hfew hnd hsp hb hm
  refine ⟨b, hcomp, fun f r hf hl hat hpk hun hr hch hv hfree => ?_⟩
  obtain ⟨k', hd, fuel, con, htr, hacc⟩ := hall f r hf hpk hun hr hch hv hfree
  have hk' : Honest E M G L (es ++ [.fascia f r]) k' := .spent h hcomp hpk.toMadeOf hun hf hl hat hd
  refine ⟨k', hd, hk', fuel, con, htr, fun r' hck hna es₁ k₁ h₁ hseals hrm => ?_⟩
  obtain ⟨b', hb', hall'⟩ := C95_output hE hT hH hM hG hI hS hs.done hs.furnished hp (.inr ⟨al, hal⟩) himp (hs.committed c) hfew hsp hb hm
  cases Except.ok.inj (hcomp.symm.trans hb')
  obtain ⟨k'', hd', -, hoc, -⟩ := hall' f r hf hpk hun hr hch hv hfree
  cases Option.some.inj (hd.symm.trans hd')
  have hag := C98_agrees hE hT hTC hH hM hG hI hSR hk' h₁ (htr fuel (Nat.le_refl _)) hoc hck hseals
  obtain ⟨k₂, hacc₂, hview⟩ := hacc r' hck hna k₁ ((h₁.sane hE hT hTC hH hM hG hI).reachable hG) hag hrm
  exact ⟨k₂, hacc₂, .received hk' (htr fuel (Nat.le_refl _)) hoc h₁ hacc₂, hview⟩

end

/-! ### Examples -/

section
open VoutWorld

/-- What the transaction 61 commits to. -/
def exVoutLedger : Ledger where
  bundle _ _ m := if m = .opretFirst then 0 else 2
  anchor _ m := if m = .opretFirst then (0, 9) else (0, 8)
  home o := (0, if OMap.contains b0.known o = true then 0 else 2)

theorem exVoutHonest : Honest E World.M World.G exVoutLedger PayWorld.events k := by
  obtain ⟨k₁, h1, k₂, h2, rfl⟩ := exVoutEvents
  have f := exVoutFurnished
  have one : ∀ e ∈ PayWorld.events, Furnished H World.I World.E [e] := by
    intro e he
    have hm : ∀ x ∈ [e], x ∈ PayWorld.events := by intro x hx; rw [List.mem_singleton] at hx; exact hx ▸ he
    exact ⟨fun x hx => f.sound x (hm x hx), fun x hx x' hx' => f.same x (hm x hx) x' (hm x' hx'), fun c r hx => f.noExtensions c r (hm _ hx),
      fun c r hx => f.schema c r (hm _ hx), fun c r hx => f.types c r (hm _ hx), fun c r hx => f.libs c r (hm _ hx), fun x hx => f.kitTypes x (hm _ hx)⟩
  have fits : ∀ g : Op, (∀ d g', g.Fits PaidWorld.E d g') → (PayWorld.con g).Fits E := by
    intro g hg
    exact ⟨hg _ _, (fun t ht => by cases ht), fun wb hw => by cases hw⟩
  exact .issued (.issued .new rfl (one _ (.head _)) (fits _ (exFits (by decide +kernel))) h1) rfl (one _ (.tail _ (.head _))) (fits _ (exFits (by decide +kernel))) h2

theorem exVoutAffords : k.Affords E W inv PayWorld.prevs 0 7 4000 where
  contract := exVoutPayable.contract
  named := exVoutPayable.named
  fresh := exVoutPayable.fresh
  typed := exVoutPayable.typed
  vout := exVoutPayable.vout
  alloc := exVoutPayable.alloc
  few := by
    have h : ∀ id ∈ k.index.contractsAssigning (PayWorld.prevs.map OutSeal.outpoint), id = 0 ∨ id = 2 := by decide +kernel
    have h' : ∀ id ∈ [0, 2], k.stateAt id PayWorld.prevs ≠ [] ∧ (k.stateAt id PayWorld.prevs).length ≤ 255 ∧
        ∀ a ∈ k.stateAt id PayWorld.prevs, ∀ a' ∈ k.stateAt id PayWorld.prevs, a.opout.op = a'.opout.op → a.witness = a'.witness := by decide +kernel
    rintro id (rfl | hid)
    · exact h' 0 (by simp)
    · exact h' id (by simpa using h id hid)
  enough := exVoutPayable.enough
  faced := by
    have h : ∀ id ∈ k.index.contractsAssigning (PayWorld.prevs.map OutSeal.outpoint), ((k.stash.genesis id).bind (fun g => k.stash.schema (World.I.genesisSchema g))).all
        (fun si => decide (si.iimpls ≠ [])) = true := by decide +kernel
    intro id hid _ g si h1 h2
    have := h id hid
    rw [h1, Option.bind_some, show k.stash.schema (World.I.genesisSchema g) = some si from h2] at this
    simpa using this
  count := exVoutPayable.count
  balance := exVoutPayable.balance

theorem exVoutOnLedger : StockEvent.OnLedger H exVoutLedger (.fascia fascia World.r) := by
  have h : ∀ e ∈ fascia.bundles, exVoutLedger.bundle fascia.witness.id e.1 e.2.closeMethod = e.2.id H ∧ ∀ i ∈ OMap.vals e.2.inputMap, ∀ j ∈ OMap.vals e.2.inputMap, i = j := by
    decide +kernel
  intro c b w hb
  cases hb with
  | fascia _ _ _ _ hm => exact h _ hm

theorem exVoutAttested : fascia.Attested H exVoutLedger where
  tx := rfl
  anchors := by
    intro m a h
    cases m <;> simp only [fascia, anchorOf, Option.some.injEq] at h <;> subst h <;>
      refine ⟨rfl, fun c b hb => ?_⟩ <;> simp only [List.mem_singleton, Prod.mk.injEq] at hb <;> rw [hb.2] <;> rfl
  homes := by
    have h : ∀ e ∈ fascia.bundles, ∀ o ∈ OMap.keys e.2.known, exVoutLedger.home o = (e.1, e.2.id H) := by decide +kernel
    exact fun c b hm o ho => h (c, b) hm o (OMap.mem_keys_iff.mpr ho)

/-- The payment of 12 to the output 0 in the small world. The payer, knowing it already, accepts its own transfer, and an empty wallet accepts it; both are wallets of the network and see 12 at the output. -/
example : ∃ k' con k₁ k₂, consumeFascia H World.r fascia k = some (k', none) ∧
    k'.consumeConsignment H World.I World.M World.G World.r con = some (k₁, none) ∧ Stock.empty.consumeConsignment H World.I World.M World.G World.r con = some (k₂, none) ∧
    Honest E World.M World.G exVoutLedger (PayWorld.events ++ [.fascia fascia World.r] ++ [.consignment con World.r]) k₁ ∧
    Honest E World.M World.G exVoutLedger [.consignment con World.r] k₂ ∧
    ∀ x ∈ [k₁, k₂], ∃ view, x.state.contractState 0 = .ok view ∧
      ∃ l : List OutAssign, (∀ a ∈ l, a ∈ view.all .fungible ∧ a.sl.outpoint = ⟨.bitcoin, 61, 0⟩) ∧ (l.map (fun a => a.state.amount)).sum = 12 := by
  obtain ⟨b, hb, hp⟩ := exVoutComposed
  have hfew : (k.stash.schema 10).all (fun si => decide (si.iimpls.length ≤ 126)) = true := by decide +kernel
  have hnd : k.stash.NamesDiffer := by
    have h : ∀ e ∈ k.stash.ifaces, ∀ e' ∈ k.stash.ifaces, e.2.name = e'.2.name → e.1 = e'.1 := by decide +kernel
    exact fun i j d d' hi hj he => h (i, d) (OMap.mem_of_get? hi) (j, d') (OMap.mem_of_get? hj) he
  obtain ⟨b', hb', hall⟩ := C98_output_paid (E := E) (M := World.M) (G := World.G) (L := exVoutLedger) (s := sB) (amt := 12)
    E_lawful exTagMaps (fun _ _ _ => rfl) H_binding exLaws.2.2.1 World.G_sorted ⟨exLaws.1.schema_inj, fun _ _ _ => rfl⟩ exLaws.2.1 exPass_proves exRestores exVoutHonest hnd exVoutAffords rfl (by decide)
    (by decide +kernel)
    (by
      intro g si _ hsi
      have h5 : k.stash.schema 10 = some si := hsi
      rw [h5] at hfew
      exact of_decide_eq_true hfew)
    (fun e he b w hb => absurd hb (exVoutNone e he _ b w)) rfl (.inl rfl)
  rw [hb] at hb'
  cases hb'
  have hfree : (k.index.opoutsByOutputs 0 [⟨.bitcoin, 61, 0⟩]).toBool = false := by decide +kernel
  obtain ⟨k', h1, hk', fuel, con, h2, h3⟩ := hall fascia World.r fascia_sound exVoutOnLedger exVoutAttested (exVoutPacks hp) exVoutUnknown exVoutHolds rfl ⟨_, rfl, rfl⟩ (by
    intro l hl
    have hl' : k.index.opoutsByOutputs 0 [⟨.bitcoin, 61, 0⟩] = .ok l := hl
    rw [hl'] at hfree
    cases hfree)
  have hc : ((k.consumeFascia H World.r fascia).bind (fun x => (x.1.transfer H World.I World.E 100 0 [⟨.bitcoin, 61, 0⟩] none).bind (fun y =>
      y.toOption.map (fun con => decide (exPassOk con ∧ exNetRoomOk x.1 con ∧ exNetRoomOk .empty con ∧
        ∀ y ∈ x.1.stash.secretSeals, ∀ wb ∈ con.data.bundles, (y.toOutputWith wb.id).isSome = true))))) = some true := by decide +kernel
  have h1' : consumeFascia H World.r fascia k = some (k', none) := h1
  rw [h1', Option.bind_some] at hc
  obtain ⟨y, hy, hc⟩ := Option.bind_eq_some_iff.mp hc
  obtain ⟨con', hcon, hc⟩ := Option.map_eq_some_iff.mp hc
  have g1 := transfer_mono hy (Nat.le_max_right fuel 100)
  have g2 := h2 _ (Nat.le_max_left fuel 100)
  have g2' : k'.transfer H World.I World.E (max fuel 100) 0 [⟨.bitcoin, 61, 0⟩] none = some (.ok con) := g2
  rw [g1] at g2'
  cases Option.some.inj g2'
  cases hcon
  obtain ⟨hok, r1, r2, hs⟩ := of_decide_eq_true hc
  obtain ⟨k₁, a1, a2, v1, a3, l1, -, a4, a5⟩ := h3 World.r (exPass_checked hok) (fun h => by cases h) _ k' hk' hs (exNetRoom r1)
  obtain ⟨k₂, c1, c2, v2, c3, l2, -, c4, c5⟩ := h3 World.r (exPass_checked hok) (fun h => by cases h) _ _ .new (fun y hy => by cases hy) (exNetRoom r2)
  refine ⟨k', con, k₁, k₂, h1, a1, c1, a2, c2, fun x hx => ?_⟩
  simp only [List.mem_cons, List.not_mem_nil, or_false] at hx
  rcases hx with rfl | rfl
  · exact ⟨v1, a3, l1, fun a ha => ⟨(a4 a ha).1.1, by rw [(a4 a ha).1.2.1]; rfl⟩, a5⟩
  · exact ⟨v2, c3, l2, fun a ha => ⟨(c4 a ha).1.1, by rw [(c4 a ha).1.2.1]; rfl⟩, c5⟩

end

end Rgb.Props
