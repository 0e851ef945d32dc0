import Verif.Lemmas.Single
import Verif.Props.Conserve

/-! # C103: transactions which spend no output twice let no state be spent twice -/

namespace Rgb.Props
open Rgb Stock

section
variable {E : CEnv} {n : Nat} {M : Mpc} {G : SchemaDoc → SchemaGlobals} {L : Ledger} {closer : Outpoint → Option WitnessId} {es : List StockEvent} {k : Stock}

/-- **C103** (closing seals). Take any wallets of a network in which each payment is made by the transaction and closing methods which the composed batch asks for. Wherever any wallet shows
state at an output which a transition brought to one of these wallets spends, however it got there, the output is spent by the transaction which the transition came with, and the seal there
has the closing method of its bundle. -/
theorem C103_closed (hE : E.Lawful n) (hT : E.TagMaps) (hTC : E.TagsCommitted) (hH : E.H.Binding) (hM : M.Lawful) (hG : ∀ d, OMap.Sorted (G d).maxItems)
    (hI : Ids.Lawful E.H E.I) (hSR : E.S.Restores M) (hO : L.Once) (h : Settled E M G L closer es k) {e : StockEvent} (he : e ∈ es) {c : Nat} {b : Bundle} {w : WitnessId}
    (hb : e.Brings E.H c b w) : b.Closes E M G L closer c w :=
  h.closes hE hT hTC hH hM hG hI hSR hO e he c b w hb

/-- **C103** (no double spending). Between such wallets, no output of an operation is spent by two transitions: since no output of a transaction is spent by two transactions, and a transaction
commits with each closing method to one bundle of a contract only. -/
theorem C103_single (hE : E.Lawful n) (hT : E.TagMaps) (hTC : E.TagsCommitted) (hH : E.H.Binding) (hM : M.Lawful) (hG : ∀ d, OMap.Sorted (G d).maxItems)
    (hI : Ids.Lawful E.H E.I) (hSR : E.S.Restores M) (hO : L.Once) {ess : List (List StockEvent)} (hess : ∀ es ∈ ess, ∃ k, Settled E M G L closer es k) (c : Nat) :
    NoDoubleSpend E.H ess c :=
  Settled.single hE hT hTC hH hM hG hI hSR hO hess c

/-- **C103** (supply). Any allocations of a type which the wallets' contract states show at outputs which no transaction spends come, taken together over all the wallets, to no more than the
genesis issued. -/
theorem C103_supply (hE : E.Lawful n) (hT : E.TagMaps) (hTC : E.TagsCommitted) (hH : E.H.Binding) (hM : M.Lawful) (hG : ∀ d, OMap.Sorted (G d).maxItems)
    (hI : Ids.Lawful E.H E.I) (hSR : E.S.Restores M) (hO : L.Once) {ws : List (List StockEvent × Stock)} (hws : ∀ e ∈ ws, Settled E M G L closer e.1 e.2) {c ty : Nat} {g : Op}
    (hg : g.id E.H = c) (hgs : ∀ ta, OMap.get? g.assigns ty = some ta → ∀ a ∈ ta.items, ∃ st, a.state? = some st) {l : List OutAssign}
    (hn : (l.map (fun a => a.opout)).Nodup)
    (hl : ∀ a ∈ l, a.opout.ty = ty ∧ closer a.sl.outpoint = none ∧ ∃ e ∈ ws, ∃ v kind, e.2.state.contractState c = .ok v ∧ a ∈ v.all kind) (q : Quantity) :
    (l.map (fun a => q.of a.state)).sum ≤ g.issues q ty := by
  refine C100_shown hE hT hTC hH hM hG hI (C100_once hE hT hTC hH hM hG hI hSR hO) (fun e he => (hws e he).honest) ?_ hg hgs hn ?_ q
  · refine C103_single hE hT hTC hH hM hG hI hSR hO (closer := closer) ?_ c
    intro es hes
    obtain ⟨e, he, rfl⟩ := List.mem_map.1 hes
    exact ⟨_, hws e he⟩
  · intro a ha
    obtain ⟨h1, h2, e, he, v, kind, hv, hm⟩ := hl a ha
    refine ⟨h1, ⟨e, he, v, kind, hv, hm⟩, ?_⟩
    rintro e' he' t ⟨⟨w, ht⟩, ho⟩
    have hs := (hws e' he').honest.sane hE hT hTC hH hM hG hI
    cases ht with
    | extension con r _ wb hc ht hw => rw [hs.furnished.noExtensions con r hc] at ht; cases ht
    | transition x _ b _ _ hx hb htk =>
      have := (C103_closed hE hT hTC hH hM hG hI hSR hO (hws e' he') hx hb t htk _ _ (hws e he).honest v kind a hv hm ho).1
      rw [h2] at this
      cases this

/-- **C103** (the balance). If the payments were made with care too, and somebody of the wallets sees the state at each output of an operation which none of their transitions spends, there is at
these outputs exactly as much as the genesis issued. -/
theorem C103_balance (hE : E.Lawful n) (hT : E.TagMaps) (hTC : E.TagsCommitted) (hH : E.H.Binding) (hM : M.Lawful) (hG : ∀ d, OMap.Sorted (G d).maxItems)
    (hI : Ids.Lawful E.H E.I) (hSR : E.S.Restores M) (hO : L.Once) {ess : List (List StockEvent)} (hess : ∀ es ∈ ess, ∃ k, Settled E M G L closer es k) {c ty : Nat} {q : Quantity}
    (hp : ∀ es ∈ ess, ∀ t w, Had E.H es c t (some w) → CarefullyPaid E M G L c ty q t) {g : Op}
    (hg : ∃ es ∈ ess, Had E.H es c g none) (hgs : ∀ ta, OMap.get? g.assigns ty = some ta → ∀ a ∈ ta.items, ∃ st, a.state? = some st) {l : List (Opout × RState)}
    (hl : AllUnspent E.H ess c ty l) : (l.map (fun e => q.of e.2)).sum = g.issues q ty :=
  C101_balance hE hT hTC hH hM hG hI (C100_once hE hT hTC hH hM hG hI hSR hO) (fun es hes => (hess es hes).imp fun _ h => h.honest)
    (C103_single hE hT hTC hH hM hG hI hSR hO hess c) hp hg hgs hl

end

/-! ### Examples -/

section
open PaidWorld

/-- The two spent outputs are spent by the transaction 61, no other output is spent. -/
def exCloser (p : Outpoint) : Option WitnessId := if p ∈ PayWorld.prevs.map OutSeal.outpoint then some fascia.witness.id else none

theorem exSettled : Settled E World.M World.G exLedger exCloser PayWorld.events k := by
  obtain ⟨k₁, h1, k₂, h2, rfl⟩ := exPaidDone
  have f := exPaidFurnished₀
  have one : ∀ e ∈ PayWorld.events, Furnished H World.I World.E [e] := by
    intro e he
    have hm : ∀ x ∈ [e], x ∈ PayWorld.events := by intro x hx; rw [List.mem_singleton] at hx; exact hx ▸ he
    exact ⟨fun x hx => f.sound x (hm x hx), fun x hx x' hx' => f.same x (hm x hx) x' (hm x' hx'), fun c r hx => f.noExtensions c r (hm _ hx),
      fun c r hx => f.schema c r (hm _ hx), fun c r hx => f.types c r (hm _ hx), fun c r hx => f.libs c r (hm _ hx), fun x hx => f.kitTypes x (hm _ hx)⟩
  have fits : ∀ g : Op, (∀ d g', g.Fits E d g') → (PayWorld.con g).Fits E := by
    intro g hg
    exact ⟨hg _ _, (fun t ht => by cases ht), fun wb hw => by cases hw⟩
  exact .issued (.issued .new rfl (one _ (.head _)) (fits _ (exFits (by decide +kernel))) h1) rfl (one _ (.tail _ (.head _))) (fits _ (exFits (by decide +kernel))) h2

/-- The payment of 12 spends both outputs, each with its own closing method, and is made as composed. -/
theorem exSpends : ∃ b, Stock.compose E PayWorld.W k inv PayWorld.prevs = .ok b ∧ b.payments.map (fun t => t.op) = [p0, p1] ∧ fascia.Spends exCloser b ∧
    ∀ i ∈ b.toList, i.transition.op.contract = 0 → i.inputs ≠ [] ∧ ∃ e ∈ fascia.bundles, i.transition.op ∈ OMap.vals e.2.known := by
  unfold Stock.Fascia.Spends
  exact PayWorld.ok_any (by decide +kernel)

/-- After the payment the payer's wallet shows, at outputs which no transaction spends, 5 of change and what wasn't touched. -/
example : ∃ k', ∃ l : List OutAssign, Settled E World.M World.G exLedger exCloser (PayWorld.events ++ [.fascia fascia World.r]) k' ∧
    (l.map (fun a => a.opout)).Nodup ∧
    (∀ a ∈ l, a.opout.ty = 4000 ∧ exCloser a.sl.outpoint = none ∧ ∃ v kind, k'.state.contractState 0 = .ok v ∧ a ∈ v.all kind) ∧
    l.map (fun a => a.state) = [.fungible PayWorld.half 3 1000, .fungible PayWorld.half 4 1000, .fungible 5 2 1000] := by
  obtain ⟨b, hb, hp, hcl, -⟩ := exSpends
  have hc : (k.consumeFascia H World.r fascia).bind (fun x => (x.1.state.contractState 0).toOption.map (fun v =>
      decide (x.2 = none ∧ ((v.all .fungible).map (fun a => a.opout)).Nodup ∧ (∀ a ∈ v.all .fungible, a.opout.ty = 4000) ∧
        ((v.all .fungible).filter (fun a => decide (exCloser a.sl.outpoint = none))).map (fun a => a.state) =
          [.fungible PayWorld.half 3 1000, .fungible PayWorld.half 4 1000, .fungible 5 2 1000]))) = some true := by decide +kernel
  obtain ⟨⟨k', o⟩, h1, hc⟩ := Option.bind_eq_some_iff.mp hc
  obtain ⟨v, h2, hc⟩ := Option.map_eq_some_iff.mp hc
  obtain ⟨rfl, c1, c2, c3⟩ := of_decide_eq_true hc
  refine ⟨k', (v.all .fungible).filter (fun a => decide (exCloser a.sl.outpoint = none)),
    .spent exSettled hb (exPacks hp).toMadeOf hcl exPaidUnknown fascia_sound exOnLedger exAttested h1, c1.sublist (List.filter_sublist.map _), ?_, c3⟩
  intro a ha
  obtain ⟨h3, h4⟩ := List.mem_filter.1 ha
  refine ⟨c2 a h3, of_decide_eq_true h4, v, .fungible, ?_, h3⟩
  cases hv : k'.state.contractState 0 with
  | error e => rw [show (k'.state.contractState 0) = _ from hv] at h2; cases h2
  | ok v' => rw [show (k'.state.contractState 0) = _ from hv] at h2; cases h2; rfl

end

end Rgb.Props
