import Verif.Lemmas.Network
import Verif.Props.Honest
import Verif.Props.Pass

/-! # C98: wallets which make and accept payments never contradict each other -/

namespace Rgb.Props
open Rgb Stock

section
variable {E : CEnv} {n : Nat} {M : Mpc} {G : SchemaDoc → SchemaGlobals} {L : Ledger} {es es₀ : List StockEvent} {k k₀ : Stock}

/-- **C98** (the same everywhere). Whatever two wallets of the network know of a bundle, a transition or a witness they know alike: of which contract the bundle is, in which bundle the transition
is, and what the transaction commits to with each closing method. -/
theorem C98_same (hE : E.Lawful n) (hT : E.TagMaps) (hTC : E.TagsCommitted) (hH : E.H.Binding) (hM : M.Lawful) (hG : ∀ d, OMap.Sorted (G d).maxItems) (hI : Ids.Lawful E.H E.I)
    (hSR : E.S.Restores M) (h₀ : Honest E M G L es₀ k₀) (h : Honest E M G L es k) :
    (∀ i c c', OMap.get? k₀.index.bundleContract i = some c → OMap.get? k.index.bundleContract i = some c' → c = c') ∧
    (∀ o i i', OMap.get? k₀.index.opBundle o = some i → OMap.get? k.index.opBundle o = some i' → i = i') ∧
    (∀ w sw sw' m a a', k₀.stash.witness w = some sw → k.stash.witness w = some sw' → anchorOf sw.anchors m = some a → anchorOf sw'.anchors m = some a' →
      a.proof = a'.proof ∧ a.root = a'.root) := by
  have s₀ := h₀.sane hE hT hTC hH hM hG hI
  have s := h.sane hE hT hTC hH hM hG hI
  have t₀ := h₀.attd hE hT hTC hH hM hG hI hSR
  have t := h.attd hE hT hTC hH hM hG hI hSR
  refine ⟨fun i c c' hc hc' => ?_, fun o i i' hi hi' => ?_, fun w sw sw' m a a' hw hw' ha ha' => ?_⟩
  · obtain ⟨e, he, b, w, hb, hid⟩ := s₀.contract hH hM hG hc
    obtain ⟨e', he', b', w', hb', hid'⟩ := s.contract hH hM hG hc'
    obtain ⟨-, m2⟩ := hH.bundle_inj _ _ _ _ (show E.H.bundleHash b.closeMethod b.inputMap = E.H.bundleHash b'.closeMethod b'.inputMap from hid.trans hid'.symm)
    have hs := single_known (brought_wf (s₀.furnished.sound e he) hb) (brought_wf (s.furnished.sound e' he') hb') ((s₀.furnished.sound e he).nonempty _ _ _ hb)
      ((s.furnished.sound e' he').nonempty _ _ _ hb') m2 (s₀.onLedger e he c b w hb).2
    obtain ⟨p, l, hl⟩ := List.exists_cons_of_ne_nil ((s₀.furnished.sound e he).nonempty _ _ _ hb)
    have ho : OMap.contains b.known p.1 = true := OMap.mem_keys_iff.mp (by rw [OMap.keys, hl]; simp)
    have h1 := t₀.homes e he c b w hb p.1 ho
    have h2 := t.homes e' he' c' b' w' hb' p.1 ((hs p.1).symm.trans ho)
    rw [h1] at h2
    exact congrArg Prod.fst h2
  · obtain ⟨c, e, he, b, w, hb, rfl, ho⟩ := (complete_facts hH hM hG s₀.furnished s₀.done).only.idx.opS o i hi
    obtain ⟨c', e', he', b', w', hb', rfl, ho'⟩ := (complete_facts hH hM hG s.furnished s.done).only.idx.opS o i' hi'
    have h1 := t₀.homes e he c b w hb o ho
    have h2 := t.homes e' he' c' b' w' hb' o ho'
    rw [h1] at h2
    exact congrArg Prod.snd h2
  · have h1 := ((t₀.wits _ _ hw).2 _ _ ha).anchor
    have h2 := ((t.wits _ _ hw').2 _ _ ha').anchor
    rw [h1] at h2
    exact ⟨congrArg Prod.fst h2, congrArg Prod.snd h2⟩

/-- **C98** (no contradiction). A wallet of the network has nothing contradicting a transfer which another one makes, if the contents of the transfer are valid, and its secret seals can be on the chains of the witnesses. -/
theorem C98_agrees (hE : E.Lawful n) (hT : E.TagMaps) (hTC : E.TagsCommitted) (hH : E.H.Binding) (hM : M.Lawful) (hG : ∀ d, OMap.Sorted (G d).maxItems) (hI : Ids.Lawful E.H E.I)
    (hSR : E.S.Restores M) (h₀ : Honest E M G L es₀ k₀) (h : Honest E M G L es k)
    {fuel c : Nat} {outputs : List Outpoint} {secret : Option Nat} {con : Consignment} (ht : k₀.transfer E.H E.I E.S fuel c outputs secret = some (.ok con))
    (hoc : k₀.OfContract c outputs secret) {r : Resolver} (hck : con.Checked G r)
    (hseals : ∀ x ∈ k.stash.secretSeals, ∀ wb ∈ con.data.bundles, (x.toOutputWith wb.id).isSome = true) : k.Agrees E.H M con :=
  agrees_of hH hM hG hI hSR (h₀.sane hE hT hTC hH hM hG hI) (h₀.attd hE hT hTC hH hM hG hI hSR) (h.sane hE hT hTC hH hM hG hI) (h.attd hE hT hTC hH hM hG hI hSR) ht hoc hck hseals

/-- **C98** (accepted). So each wallet of the network accepts each such transfer, if there is room, whatever both have done before. -/
theorem C98_accepted (hE : E.Lawful n) (hT : E.TagMaps) (hTC : E.TagsCommitted) (hH : E.H.Binding) (hM : M.Lawful) (hG : ∀ d, OMap.Sorted (G d).maxItems) (hI : Ids.Lawful E.H E.I)
    (hSP : E.S.ProvesFor M) (hSR : E.S.Restores M) (h₀ : Honest E M G L es₀ k₀) (hnd : k₀.stash.NamesDiffer) (h : Honest E M G L es k)
    {fuel c : Nat} {outputs : List Outpoint} {secret : Option Nat} {con : Consignment} (ht : k₀.transfer E.H E.I E.S fuel c outputs secret = some (.ok con))
    (hoc : k₀.OfContract c outputs secret) {r : Resolver} (hck : con.Checked G r)
    (hseals : ∀ x ∈ k.stash.secretSeals, ∀ wb ∈ con.data.bundles, (x.toOutputWith wb.id).isSome = true) (hr : k.Room E.H E.I con) :
    ∃ k', k.consumeConsignment E.H E.I M G r con = some (k', none) ∧ Honest E M G L (es ++ [.consignment con r]) k' := by
  have s₀ := h₀.sane hE hT hTC hH hM hG hI
  have s := h.sane hE hT hTC hH hM hG hI
  obtain ⟨k', hk'⟩ := C73_accepted_partial hH hG hSP (fun e he => (s₀.furnished.sound e he).proper) (allDone_run _ s₀.done) ht hnd hoc hck (s.reachable hG)
    (C98_agrees hE hT hTC hH hM hG hI hSR h₀ h ht hoc hck hseals) hr
  exact ⟨k', hk', .received h₀ ht hoc h hk'⟩

/-- **C98** (paid). C97 with this: the payee is any wallet of the network whose secret seals can be on the chains of the witnesses, which has room, and which hasn't seen outputs of the payments. -/
theorem C98_paid (hE : E.Lawful n) (hT : E.TagMaps) (hTC : E.TagsCommitted) (hH : E.H.Binding) (hM : M.Lawful) (hG : ∀ d, OMap.Sorted (G d).maxItems) (hI : Ids.Lawful E.H E.I)
    (hS : E.S.Lawful) (hSP : E.S.ProvesFor M) (hSR : E.S.Restores M) (h : Honest E M G L es k) (hnd : k.stash.NamesDiffer) {W : Wallet} {inv : Inv.Invoice} {prevs : List OutSeal} {c iface ty amt : Nat}
    (ha : k.Affords E W inv prevs c iface ty) (hamt : inv.ownedState = .amount amt) (hfew : k.FewIfaces E.I c) (hval : ∀ e ∈ es, ∀ b w, e.Brings E.H c b w → k.Valid w)
    {x : Seal} (hx : x.txid.isSome = true) (hsec : inv.secret = some (E.H.sealHash x)) (hnew : k.index.opoutsByTerminals [E.H.sealHash x] = []) :
    ∃ b, compose E W k inv prevs = .ok b ∧
      ∀ f r, StockEvent.Sound E.H (.fascia f r) → StockEvent.OnLedger E.H L (.fascia f r) → f.Attested E.H L → f.Packs E.H b → k.Unknown E.H f → k.Holds E.H f → f.witness.id.chain = inv.layer →
        (∃ ord, r f.witness.id = some ord ∧ ord.isValid = true) →
        ∃ k', consumeFascia E.H r f k = some (k', none) ∧ Honest E M G L (es ++ [.fascia f r]) k' ∧
          ∃ fuel con, (∀ fuel', fuel ≤ fuel' → k'.transfer E.H E.I E.S fuel' c [] (some (E.H.sealHash x)) = some (.ok con)) ∧
          ∀ r', con.Checked G r' → (∀ wb ∈ con.data.bundles, r' wb.id ≠ some .archived) →
          ∀ es₁ k₁, Honest E M G L es₁ k₁ → x ∈ k₁.stash.secretSeals →
            (∀ y ∈ k₁.stash.secretSeals, ∀ wb ∈ con.data.bundles, (y.toOutputWith wb.id).isSome = true) → k₁.Room E.H E.I con →
            (∀ t ∈ b.payments, ∀ no, k₁.Unseen c .fungible ⟨t.op.id E.H, ty, no⟩) →
          ∃ k₂, k₁.consumeConsignment E.H E.I M G r' con = some (k₂, none) ∧ Honest E M G L (es₁ ++ [.consignment con r']) k₂ ∧
            ∃ view, k₂.state.contractState c = .ok view ∧ ∃ l : List OutAssign, (l.map (fun a => a.opout)).Nodup ∧
              (∀ a ∈ l, a ∈ view.all .fungible ∧ a.opout.ty = ty ∧ (∃ t ∈ b.payments, t.op.id E.H = a.opout.op) ∧
                ∃ w, a.witness = some w ∧ x.toOutputWith w = some a.sl) ∧
              (l.map (fun a => a.state.amount)).sum = amt := by
  obtain ⟨b, hb, hall⟩ := C97_paid hE hT hTC hH hM hG hI hS hSP h hnd ha hamt hfew hval hx hsec hnew
  refine ⟨b, hb, fun f r hf hl hat hpk hun hr hch hv => ?_⟩
  obtain ⟨k', hd, hk', fuel, con, htr, hacc⟩ := hall f r hf hl hat hpk hun hr hch hv
  refine ⟨k', hd, hk', fuel, con, htr, fun r' hck hna es₁ k₁ h₁ hx₁ hseals hrm hus => ?_⟩
  have hoc : k'.OfContract c [] (some (E.H.sealHash x)) := by
    have hs := h.sane hE hT hTC hH hM hG hI
    obtain ⟨hp, himp, hsp⟩ := affords_ready hE hT hTC hH hM hG hI h hnd ha hval
    obtain ⟨b', hb', hall'⟩ := C95_transferred hE hT hH hM hG hI hS hs.done hs.furnished hp himp (hs.committed c) hfew hsp hx hnew
    cases Except.ok.inj (hb.symm.trans hb')
    obtain ⟨k'', hd', hoc, -⟩ := hall' f r hf hpk hun hr hch hv
    cases Option.some.inj (hd.symm.trans hd')
    exact hoc
  exact hacc r' hck hna es₁ k₁ h₁ hx₁ (C98_agrees hE hT hTC hH hM hG hI hSR hk' h₁ (htr fuel (Nat.le_refl _)) hoc hck hseals) hrm hus

/-- **C98** (tokens). The same for a token. -/
theorem C98_token (hE : E.Lawful n) (hT : E.TagMaps) (hTC : E.TagsCommitted) (hH : E.H.Binding) (hM : M.Lawful) (hG : ∀ d, OMap.Sorted (G d).maxItems) (hI : Ids.Lawful E.H E.I)
    (hS : E.S.Lawful) (hSP : E.S.ProvesFor M) (hSR : E.S.Restores M) (h : Honest E M G L es k) (hnd : k.stash.NamesDiffer) {W : Wallet} {inv : Inv.Invoice} {prevs : List OutSeal} {c iface ty : Nat}
    {al : Inv.Allocation} (ha : k.Affords E W inv prevs c iface ty) (hal : inv.ownedState = .data al) (hfew : k.FewIfaces E.I c) (hval : ∀ e ∈ es, ∀ b w, e.Brings E.H c b w → k.Valid w)
    {x : Seal} (hx : x.txid.isSome = true) (hsec : inv.secret = some (E.H.sealHash x)) (hnew : k.index.opoutsByTerminals [E.H.sealHash x] = []) :
    ∃ b, compose E W k inv prevs = .ok b ∧
      ∀ f r, StockEvent.Sound E.H (.fascia f r) → StockEvent.OnLedger E.H L (.fascia f r) → f.Attested E.H L → f.Packs E.H b → k.Unknown E.H f → k.Holds E.H f → f.witness.id.chain = inv.layer →
        (∃ ord, r f.witness.id = some ord ∧ ord.isValid = true) →
        ∃ k', consumeFascia E.H r f k = some (k', none) ∧ Honest E M G L (es ++ [.fascia f r]) k' ∧
          ∃ fuel con, (∀ fuel', fuel ≤ fuel' → k'.transfer E.H E.I E.S fuel' c [] (some (E.H.sealHash x)) = some (.ok con)) ∧
          ∀ r', con.Checked G r' → (∀ wb ∈ con.data.bundles, r' wb.id ≠ some .archived) →
          ∀ es₁ k₁, Honest E M G L es₁ k₁ → x ∈ k₁.stash.secretSeals →
            (∀ y ∈ k₁.stash.secretSeals, ∀ wb ∈ con.data.bundles, (y.toOutputWith wb.id).isSome = true) → k₁.Room E.H E.I con →
            (∀ t ∈ b.payments, ∀ no, k₁.Unseen c .structured ⟨t.op.id E.H, ty, no⟩) →
          ∃ k₂, k₁.consumeConsignment E.H E.I M G r' con = some (k₂, none) ∧ Honest E M G L (es₁ ++ [.consignment con r']) k₂ ∧
            ∃ view, k₂.state.contractState c = .ok view ∧ ∃ a ∈ view.all .structured, a.opout.ty = ty ∧ a.state.data? = some (E.dataOf al) ∧
              (∃ t ∈ b.payments, t.op.id E.H = a.opout.op) ∧ ∃ w, a.witness = some w ∧ x.toOutputWith w = some a.sl := by
  obtain ⟨b, hb, hall⟩ := C97_token hE hT hTC hH hM hG hI hS hSP h hnd ha hal hfew hval hx hsec hnew
  refine ⟨b, hb, fun f r hf hl hat hpk hun hr hch hv => ?_⟩
  obtain ⟨k', hd, hk', fuel, con, htr, hacc⟩ := hall f r hf hl hat hpk hun hr hch hv
  refine ⟨k', hd, hk', fuel, con, htr, fun r' hck hna es₁ k₁ h₁ hx₁ hseals hrm hus => ?_⟩
  have hoc : k'.OfContract c [] (some (E.H.sealHash x)) := by
    have hs := h.sane hE hT hTC hH hM hG hI
    obtain ⟨hp, himp, hsp⟩ := affords_ready hE hT hTC hH hM hG hI h hnd ha hval
    obtain ⟨b', hb', hall'⟩ := C95_transferred hE hT hH hM hG hI hS hs.done hs.furnished hp himp (hs.committed c) hfew hsp hx hnew
    cases Except.ok.inj (hb.symm.trans hb')
    obtain ⟨k'', hd', hoc, -⟩ := hall' f r hf hpk hun hr hch hv
    cases Option.some.inj (hd.symm.trans hd')
    exact hoc
  exact hacc r' hck hna es₁ k₁ h₁ hx₁ (C98_agrees hE hT hTC hH hM hG hI hSR hk' h₁ (htr fuel (Nat.le_refl _)) hoc hck hseals) hrm hus

end

/-! ### Examples -/

section
open PaidWorld

theorem exRestores : World.E.Restores World.M := by
  intro root known c p h
  simp only [World.E] at h
  split at h
  · rename_i hc
    obtain ⟨b, hb⟩ := OMap.contains_iff.mp hc
    cases h
    exact ⟨b, hb, rfl⟩
  · cases h

/-- There is room for a consignment in a stock. -/
def exNetRoomOk (k : Stock) (con : Consignment) : Prop :=
  k.state.contracts.length < 255 ∧ k.index.contracts.length < 255 ∧ k.stash.geneses.length < 255 ∧
  (∀ e ∈ k.index.bundleWitness, e.2.length ≤ 200) ∧ (∀ e ∈ k.index.terminals, e.2.length ≤ 200) ∧
  k.stash.schemata.length < 255 ∧ k.stash.ifaces.length ≤ 200 ∧ (∀ e ∈ k.stash.schemata, e.2.iimpls.length ≤ 200) ∧
  k.stash.suppl.length ≤ 200 ∧ (∀ e ∈ k.stash.suppl, e.2.length ≤ 200) ∧
  (con.data.ops.map (fun op => op.assigned.length)).sum ≤ 50 ∧ (con.data.bundles.flatMap (fun wb => wb.anchored.bundles)).length ≤ 50 ∧ con.ifaces.length ≤ 50 ∧ con.supplements.length ≤ 50

instance (k : Stock) (con : Consignment) : Decidable (exNetRoomOk k con) := by unfold exNetRoomOk; infer_instance

theorem exNetRoom {H : Commit} {k : Stock} {con : Consignment} (h : exNetRoomOk k con) : k.Room H World.I con := by
  obtain ⟨a1, a2, a3, a4, a5, a6, a7, a8, a9, a10, a11, a12, a13, a14⟩ := h
  constructor
  · exact .inr a1
  · exact .inr a2
  · exact a3
  · intro b
    have := getD_le a4 b
    have : con.data.timesBundle H b ≤ 50 := Nat.le_trans (List.length_filter_le _ _) a12
    omega
  · intro s
    have := getD_le a5 s
    have : con.data.hiddenTo H s ≤ 50 := by
      refine Nat.le_trans ?_ a11
      simp only [ConsignmentData.hiddenTo]
      generalize con.data.ops = l
      induction l with
      | nil => simp
      | cons op l ih =>
        simp only [List.map_cons, List.sum_cons]
        exact Nat.add_le_add List.countP_le_length ih
    omega
  · exact .inr a6
  · omega
  · intro si h
    have h8 : si.iimpls.length ≤ 200 := a8 _ (OMap.mem_of_get? h)
    omega
  · omega
  · intro i
    have := getD_le a10 i
    simp only [MemStash.supplements]
    omega

/-- The payer of 12 in the small world, which knows the witness 61 and both bundles of it, accepts the transfer which it made itself. -/
example : ∃ k' con k₂, Honest E World.M World.G exLedger (PayWorld.events ++ [.fascia fascia World.r]) k' ∧ k'.transfer H World.I World.E 100 0 [] (some 12) = some (.ok con) ∧
    con.data.bundles.length = 1 ∧ k'.consumeConsignment H World.I World.M World.G World.r con = some (k₂, none) ∧
    Honest E World.M World.G exLedger (PayWorld.events ++ [.fascia fascia World.r] ++ [.consignment con World.r]) k₂ := by
  obtain ⟨b, hb, hp⟩ := exComposed
  have hc : (k.consumeFascia H World.r fascia).bind (fun x => (x.1.transfer H World.I World.E 100 0 [] (some 12)).bind (fun y =>
      y.toOption.map (fun con => decide (x.2 = none ∧ exPassOk con ∧ exNetRoomOk x.1 con ∧ con.data.bundles.length = 1 ∧
        (∀ y ∈ x.1.stash.secretSeals, ∀ wb ∈ con.data.bundles, (y.toOutputWith wb.id).isSome = true) ∧
        (∀ e ∈ x.1.stash.ifaces, ∀ e' ∈ x.1.stash.ifaces, e.2.name = e'.2.name → e.1 = e'.1) ∧
        (∀ e ∈ x.1.index.opBundle, OMap.get? x.1.index.bundleContract e.2 = some 0))))) = some true := by decide +kernel
  obtain ⟨⟨k', o⟩, h1, hc⟩ := Option.bind_eq_some_iff.mp hc
  obtain ⟨y, h2, hc⟩ := Option.bind_eq_some_iff.mp hc
  obtain ⟨con, h3, hc⟩ := Option.map_eq_some_iff.mp hc
  obtain ⟨rfl, c1, c2, c3, c4, c5, c6⟩ := of_decide_eq_true hc
  cases y with
  | error _ => cases h3
  | ok con' =>
    cases h3
    have hk' : Honest E World.M World.G exLedger (PayWorld.events ++ [.fascia fascia World.r]) k' :=
      .spent exHonest hb (exPacks hp).toMadeOf exPaidUnknown fascia_sound exOnLedger exAttested h1
    obtain ⟨k₂, h4, h5⟩ := C98_accepted (E := E) (M := World.M) (G := World.G) (L := exLedger) (r := World.r) E_lawful exTagMaps (fun _ _ _ => rfl) H_binding exLaws.2.2.1 World.G_sorted
      ⟨exLaws.1.schema_inj, fun _ _ _ => rfl⟩ exPass_proves exRestores hk'
      (fun i j d d' hi hj he => c5 (i, d) (OMap.mem_of_get? hi) (j, d') (OMap.mem_of_get? hj) he) hk' h2
      (fun o i t _ ht => c6 (o, i) (OMap.mem_of_get? ht.1)) (exPass_checked c1) c4 (exNetRoom c2)
    exact ⟨k', con, k₂, hk', h2, c3, h4, h5⟩

end

end Rgb.Props
