import Verif.Lemmas.Supply
import Verif.Props.Network

/-! # C100: nobody gets more than was issued -/

namespace Rgb.Props
open Rgb Stock

section
variable {E : CEnv} {n : Nat} {M : Mpc} {G : SchemaDoc → SchemaGlobals} {L : Ledger} {es : List StockEvent} {k : Stock}

/-- **C100** (a payment). Whatever happened to the stock, whatever is invoiced, whatever outputs are spent, and whether or not sums overflow or seals coincide: each transition which `compose` makes
of a contract, for the invoice or for other contracts at the spent outputs, assigns of each type no more than it spends, be it amounts, allocations of a token, rights or files; if
no operation has state with two (valid) witnesses at the spent outputs. -/
theorem C100_transition (hE : E.Lawful n) (hH : E.H.Binding) (hr : k.Reachable E.H) {W : Wallet} {inv : Inv.Invoice} {prevs : List OutSeal} {b : Batch}
    (h : compose E W k inv prevs = .ok b) {c : Nat}
    (hw : ∀ a ∈ k.stateAt c prevs, ∀ a' ∈ k.stateAt c prevs, a.opout.op = a'.opout.op → a.witness = a'.witness)
    {t : BuiltTransition} (ht : t ∈ b.transitionsOf c) (q : Quantity) (ty : Nat) :
    t.op.issues q ty ≤ ((ofType ty (t.spends (k.stateAt c prevs))).map (fun a => q.of a.state)).sum :=
  compose_sub hE h (C38_apart hH hr hw) ht q ty

/-- **C100** (one witness). The condition on the network in `C100_supply` holds if no bundle is committed to by two transactions. -/
theorem C100_once (hE : E.Lawful n) (hT : E.TagMaps) (hTC : E.TagsCommitted) (hH : E.H.Binding) (hM : M.Lawful) (hG : ∀ d, OMap.Sorted (G d).maxItems)
    (hI : Ids.Lawful E.H E.I) (hSR : E.S.Restores M) (hO : L.Once) : OneWitness E M G L :=
  oneWitness_of hE hT hTC hH hM hG hI hSR hO

/-- **C100** (supply). Take any wallets of a network, whatever they and others did, any contract and type of state, and any distinct outputs of operations, each with a state which an operation of one of
the wallets shows there. If none of these outputs is spent by a transition which one of the wallets has, and no output is spent by two such transitions, then there is no more at the outputs,
taken together over all the wallets, than the genesis issued: neither amounts, nor allocations of any one token, nor rights, nor files. -/
theorem C100_supply (hE : E.Lawful n) (hT : E.TagMaps) (hTC : E.TagsCommitted) (hH : E.H.Binding) (hM : M.Lawful) (hG : ∀ d, OMap.Sorted (G d).maxItems)
    (hI : Ids.Lawful E.H E.I) (hO : OneWitness E M G L) {ess : List (List StockEvent)} (hess : ∀ es ∈ ess, ∃ k, Honest E M G L es k) {c : Nat}
    (hd : NoDoubleSpend E.H ess c) {ty : Nat} {g : Op} (hg : g.id E.H = c)
    (hgs : ∀ ta, OMap.get? g.assigns ty = some ta → ∀ a ∈ ta.items, ∃ st, a.state? = some st) {l : List (Opout × RState)}
    (hl : Unspent E.H ess c ty l) (q : Quantity) : (l.map (fun e => q.of e.2)).sum ≤ g.issues q ty := by
  refine supply hE hT hTC hH hM hG hI hO hess hd hg ?_ hl q
  intro a ha
  unfold Op.itemsAt at ha
  cases hta : OMap.get? g.assigns ty with
  | none => rw [hta] at ha; cases ha
  | some ta => rw [hta] at ha; exact hgs ta hta a ha

/-- **C100** (what is shown). In particular for the allocations which the wallets' contract states show. -/
theorem C100_shown (hE : E.Lawful n) (hT : E.TagMaps) (hTC : E.TagsCommitted) (hH : E.H.Binding) (hM : M.Lawful) (hG : ∀ d, OMap.Sorted (G d).maxItems)
    (hI : Ids.Lawful E.H E.I) (hO : OneWitness E M G L) {ws : List (List StockEvent × Stock)} (hws : ∀ e ∈ ws, Honest E M G L e.1 e.2) {c : Nat}
    (hd : NoDoubleSpend E.H (ws.map Prod.fst) c) {ty : Nat} {g : Op} (hg : g.id E.H = c)
    (hgs : ∀ ta, OMap.get? g.assigns ty = some ta → ∀ a ∈ ta.items, ∃ st, a.state? = some st) {l : List OutAssign} (hn : (l.map (fun a => a.opout)).Nodup)
    (hl : ∀ a ∈ l, a.opout.ty = ty ∧ (∃ e ∈ ws, ∃ v kind, e.2.state.contractState c = .ok v ∧ a ∈ v.all kind) ∧
      ∀ e ∈ ws, ∀ t, ¬ SpentBy E.H e.1 c a.opout t) (q : Quantity) :
    (l.map (fun a => q.of a.state)).sum ≤ g.issues q ty := by
  have := C100_supply hE hT hTC hH hM hG hI hO (ess := ws.map Prod.fst) (by
    intro es hes
    obtain ⟨e, he, rfl⟩ := List.mem_map.1 hes
    exact ⟨_, hws e he⟩) hd hg hgs (l := l.map (fun a => (a.opout, a.state))) (by
    refine ⟨?_, ?_, ?_, ?_⟩
    · rw [List.map_map]; exact hn
    · intro e he
      obtain ⟨a, ha, rfl⟩ := List.mem_map.1 he
      exact (hl a ha).1
    · intro e he
      obtain ⟨a, ha, rfl⟩ := List.mem_map.1 he
      obtain ⟨-, ⟨x, hx, v, kind, hv, hm⟩, -⟩ := hl a ha
      have hs := (hws x hx).sane hE hT hTC hH hM hG hI
      obtain ⟨t, w, ht, h3, -, ta, y, sl, h5, -, h7, h8, -⟩ :=
        C96_assignments hH hG (fun e he => (hs.furnished.sound e he).proper) (allDone_run _ hs.done) hv (List.mem_filter.1 hm).1
      exact ⟨x.1, List.mem_map_of_mem hx, t, w, ht, h3.symm, by simp only [Op.stateAt?, Op.at?, h5, Option.bind_some, h7, h8]⟩
    · intro e he es hes t
      obtain ⟨a, ha, rfl⟩ := List.mem_map.1 he
      obtain ⟨x, hx, rfl⟩ := List.mem_map.1 hes
      exact (hl a ha).2.2 x hx t) q
  rw [List.map_map] at this
  exact this

end

/-! ### Examples -/

section
open PaidWorld

theorem exOnce : exLedger.Once := by
  intro w w' c m m' h
  have small : ∀ m : CloseMethod, (if m = .opretFirst then 0 else 2) < 3 := by intro m; split <;> omega
  have s1 := small m
  have s2 := small m'
  simp only [exLedger] at h
  by_cases h1 : w = fascia.witness.id <;> by_cases h2 : w' = fascia.witness.id
  · rw [h1, h2]
  · rw [if_pos h1, if_neg h2] at h
    omega
  · rw [if_neg h1, if_pos h2] at h
    omega
  · rw [if_neg h1, if_neg h2] at h
    obtain ⟨ch, tx⟩ := w
    obtain ⟨ch', tx'⟩ := w'
    have h : 3 + (2 * tx + if ch = .bitcoin then 0 else 1) = 3 + (2 * tx' + if ch' = .bitcoin then 0 else 1) := h
    cases ch <;> cases ch' <;> simp only [reduceCtorEq, if_true, if_false] at h
    · rw [show tx = tx' by omega]
    · omega
    · omega
    · rw [show tx = tx' by omega]

/-- The outputs of contract 0 after the payment of 12: 10 and 2 for the payee, the change of 5, and what wasn't touched. -/
def exUnspent : List (Opout × RState) :=
  [(⟨4, 4000, 0⟩, .fungible 10 1 1000), (⟨6, 4000, 1⟩, .fungible 2 0 1000), (⟨6, 4000, 0⟩, .fungible 5 2 1000),
    (⟨0, 4000, 2⟩, .fungible PayWorld.half 3 1000), (⟨0, 4000, 3⟩, .fungible PayWorld.half 4 1000)]

/-- The transitions of a transfer are those of the payment. -/
def exOfPayment (con : Consignment) : Prop :=
  con.data.extensions = [] ∧ ∀ wb ∈ con.data.bundles, ∀ b ∈ wb.anchored.bundles, ∀ t ∈ OMap.vals b.known, t.inputs = p0.inputs ∧ t.id H = 4 ∨ t.inputs = p1.inputs ∧ t.id H = 6

noncomputable instance (con : Consignment) : Decidable (exOfPayment con) := by unfold exOfPayment; infer_instance

/-- After the payment of 12 in the small world, take the wallet of the payer and the same wallet after it accepted its own transfer. There are 12 for the payee, and in all as much as the genesis issued. -/
example : ∃ k' con k₂, Honest E World.M World.G exLedger (PayWorld.events ++ [.fascia fascia World.r]) k' ∧
    Honest E World.M World.G exLedger (PayWorld.events ++ [.fascia fascia World.r] ++ [.consignment con World.r]) k₂ ∧ OneWitness E World.M World.G exLedger ∧
    NoDoubleSpend H [PayWorld.events ++ [.fascia fascia World.r], PayWorld.events ++ [.fascia fascia World.r] ++ [.consignment con World.r]] 0 ∧
    Unspent H [PayWorld.events ++ [.fascia fascia World.r], PayWorld.events ++ [.fascia fascia World.r] ++ [.consignment con World.r]] 0 4000 exUnspent ∧
    (exUnspent.map (fun e => Quantity.of .amount e.2)).sum = PayWorld.g0.issues .amount 4000 := by
  obtain ⟨b, hb, hp⟩ := exComposed
  have hc : (k.consumeFascia H World.r fascia).bind (fun x => (x.1.transfer H World.I World.E 100 0 [] (some 12)).bind (fun y =>
      y.toOption.map (fun con => decide (x.2 = none ∧ exPassOk con ∧ exNetRoomOk x.1 con ∧ exOfPayment con ∧
        (∀ y ∈ x.1.stash.secretSeals, ∀ wb ∈ con.data.bundles, (y.toOutputWith wb.id).isSome = true) ∧
        (∀ e ∈ x.1.stash.ifaces, ∀ e' ∈ x.1.stash.ifaces, e.2.name = e'.2.name → e.1 = e'.1) ∧
        (∀ e ∈ x.1.index.opBundle, OMap.get? x.1.index.bundleContract e.2 = some 0))))) = some true := by decide +kernel
  obtain ⟨⟨k', o⟩, h1, hc⟩ := Option.bind_eq_some_iff.mp hc
  obtain ⟨y, h2, hc⟩ := Option.bind_eq_some_iff.mp hc
  obtain ⟨con, h3, hc⟩ := Option.map_eq_some_iff.mp hc
  obtain ⟨rfl, c1, c2, c3, c4, c5, c6⟩ := of_decide_eq_true hc
  cases y with
  | error _ => cases h3
  | ok con' =>
    cases h3
    have hk' : Honest E World.M World.G exLedger (PayWorld.events ++ [.fascia fascia World.r]) k' :=
      .spent exHonest hb (exPacks hp).toMadeOf exPaidUnknown fascia_sound exOnLedger exAttested h1
    obtain ⟨k₂, h4, h5⟩ := C98_accepted (E := E) (M := World.M) (G := World.G) (L := exLedger) (r := World.r) E_lawful exTagMaps (fun _ _ _ => rfl) H_binding exLaws.2.2.1 World.G_sorted
      ⟨exLaws.1.schema_inj, fun _ _ _ => rfl⟩ exPass_proves exRestores hk'
      (fun i j d d' hi hj he => c5 (i, d) (OMap.mem_of_get? hi) (j, d') (OMap.mem_of_get? hj) he) hk' h2
      (fun o i t _ ht => c6 (o, i) (OMap.mem_of_get? ht.1)) (exPass_checked c1) c4 (exNetRoom c2)
    have hid := ids.1
    simp only [List.map_cons, List.map_nil, List.cons.injEq, and_true] at hid
    have tr : ∀ es ∈ [PayWorld.events ++ [.fascia fascia World.r], PayWorld.events ++ [.fascia fascia World.r] ++ [.consignment con World.r]], ∀ c t w,
        Had H es c t (some w) → t.inputs = p0.inputs ∧ t.id H = 4 ∨ t.inputs = p1.inputs ∧ t.id H = 6 := by
      have ev : ∀ e ∈ PayWorld.events, ∃ g, e = .consignment (PayWorld.con g) World.r := by
        intro e he
        simp only [PayWorld.events, List.mem_cons, List.not_mem_nil, or_false] at he
        rcases he with rfl | rfl
        exacts [⟨_, rfl⟩, ⟨_, rfl⟩]
      have mem : ∀ es ∈ [PayWorld.events ++ [.fascia fascia World.r], PayWorld.events ++ [.fascia fascia World.r] ++ [.consignment con World.r]], ∀ e ∈ es,
          (∃ g, e = .consignment (PayWorld.con g) World.r) ∨ e = .fascia fascia World.r ∨ e = .consignment con World.r := by
        intro es hes e he
        simp only [List.mem_cons, List.not_mem_nil, or_false] at hes
        rcases hes with rfl | rfl <;> simp only [List.mem_append, List.mem_singleton] at he
        · rcases he with he | he
          exacts [.inl (ev e he), .inr (.inl he)]
        · rcases he with (he | he) | he
          exacts [.inl (ev e he), .inr (.inl he), .inr (.inr he)]
      intro es hes c t w ht
      cases ht with
      | extension x r _ wb he ht =>
        rcases mem es hes _ he with ⟨g, h⟩ | h | h
        · cases h; cases ht
        · cases h
        · cases h; rw [c3.1] at ht; cases ht
      | transition e _ b _ _ he hb ht =>
        rcases mem es hes _ he with ⟨g, rfl⟩ | rfl | rfl
        · cases hb with | consignment _ _ wb _ hw _ => cases hw
        · cases hb with
          | fascia _ _ _ _ hm =>
            simp only [fascia, List.mem_cons, List.not_mem_nil, or_false, Prod.mk.injEq] at hm
            rcases hm with ⟨-, rfl⟩ | ⟨-, rfl⟩
            · simp only [b0, OMap.vals, List.map_cons, List.map_nil, List.mem_singleton] at ht
              subst ht
              exact .inl ⟨rfl, hid.2.2.1⟩
            · simp only [b1, OMap.vals, List.map_cons, List.map_nil, List.mem_singleton] at ht
              subst ht
              exact .inr ⟨rfl, hid.2.2.2⟩
        · cases hb with | consignment _ _ wb _ hw hm => exact c3.2 wb hw b hm t ht
    refine ⟨k', con, k₂, hk', h5, C100_once E_lawful exTagMaps (fun _ _ _ => rfl) H_binding exLaws.2.2.1 World.G_sorted
      ⟨exLaws.1.schema_inj, fun _ _ _ => rfl⟩ exRestores exOnce, ?_, ⟨by decide, by decide, ?_, ?_⟩, by decide +kernel⟩
    · rintro es hes es' hes' o t t' ⟨⟨w, ht⟩, ho⟩ ⟨⟨w', ht'⟩, ho'⟩
      have hx : ∀ o ∈ p0.inputs, o ∉ p1.inputs := by decide
      rcases tr es hes _ t w ht with ⟨e1, e2⟩ | ⟨e1, e2⟩ <;> rcases tr es' hes' _ t' w' ht' with ⟨f1, f2⟩ | ⟨f1, f2⟩ <;> rw [e1] at ho <;> rw [f1] at ho'
      · rw [e2, f2]
      · exact absurd ho' (hx o ho)
      · exact absurd ho (hx o ho')
      · rw [e2, f2]
    · have hg : Had H (PayWorld.events ++ [.fascia fascia World.r]) 0 PayWorld.g0 none := by
        have h : Op.contractId H PayWorld.g0 = 0 := hid.1
        rw [← h]
        exact .genesis (PayWorld.con PayWorld.g0) World.r (by simp [PayWorld.events])
      have h0 : Had H (PayWorld.events ++ [.fascia fascia World.r]) 0 p0 (some fascia.witness.id) :=
        .transition (.fascia fascia World.r) 0 b0 _ p0 (by simp) (.fascia fascia World.r 0 b0 (by simp [fascia])) (by simp [b0, OMap.vals])
      have h1 : Had H (PayWorld.events ++ [.fascia fascia World.r]) 0 p1 (some fascia.witness.id) :=
        .transition (.fascia fascia World.r) 0 b1 _ p1 (by simp) (.fascia fascia World.r 0 b1 (by simp [fascia])) (by simp [b1, OMap.vals])
      intro e he
      refine ⟨_, .head _, ?_⟩
      simp only [exUnspent, List.mem_cons, List.not_mem_nil, or_false] at he
      rcases he with rfl | rfl | rfl | rfl | rfl
      · exact ⟨p0, _, h0, hid.2.2.1, by decide⟩
      · exact ⟨p1, _, h1, hid.2.2.2, by decide⟩
      · exact ⟨p1, _, h1, hid.2.2.2, by decide⟩
      · exact ⟨PayWorld.g0, _, hg, hid.1, by decide⟩
      · exact ⟨PayWorld.g0, _, hg, hid.1, by decide⟩
    · rintro e he es hes t ⟨⟨w, ht⟩, ho⟩
      have hx : ∀ e ∈ exUnspent, e.1 ∉ p0.inputs ∧ e.1 ∉ p1.inputs := by decide
      rcases tr es hes _ t w ht with ⟨e1, -⟩ | ⟨e1, -⟩ <;> rw [e1] at ho
      · exact (hx e he).1 ho
      · exact (hx e he).2 ho

end

end Rgb.Props
