import Verif.Lemmas.ComposeErr
import Verif.Spec.PayWorld

/-!
# Composing payments: C38 – C42

Vocabulary: `Verif.Spec.Compose`. In all theorems `hE` are assumptions about dependencies: iteration over hash maps visits each entry
once, blinding factors can be balanced.
-/

namespace Rgb.Props

open Rgb Rgb.Stock
open Rgb.PayWorld (ok_any)

/-! ## C38: payments conserve value -/

/-- **C38**, amounts: the beneficiary gets exactly the invoiced amount, the wallet gets the rest, and each of the transitions (there are
two, if the spent outputs have different closing methods) assigns exactly what it spends. Missing: this holds if the spent amounts
don't overflow `u64` (in release builds, see `C38_overflow_fails`) and if the seal of the beneficiary isn't the one for the change (see
`C38_collision_fails`). The third hypothesis: an output of an operation is at one transaction output only. -/
theorem C38_conserved_partial {E : CEnv} {n : Nat} (hE : E.Lawful n) {W : Wallet} {k : Stock} {inv : Inv.Invoice} {prevs : List OutSeal}
    {b : Batch} (h : compose E W k inv prevs = .ok b) {c ty amt : Nat} (hc : inv.contract = some c) (hty : k.invoiced E inv = some ty)
    (hs : inv.ownedState = .amount amt) (hn : ((k.stateAt c prevs).map (fun a => a.opout)).Nodup)
    (hfit : E.B.debug = true ∨ sumOf ty (k.stateAt c prevs) < 18446744073709551616)
    (hne : W.benSeal inv ≠ W.changeSeal E k inv c ty) :
    amt ≤ sumOf ty (k.stateAt c prevs) ∧
      (b.payments.map (fun t => t.paidTo ty (W.benSeal inv))).sum = amt ∧
      (b.payments.map (fun t => t.paidTo ty (W.changeSeal E k inv c ty))).sum = sumOf ty (k.stateAt c prevs) - amt ∧
      ∀ t ∈ b.payments, t.total ty = sumOf ty (t.spends (k.stateAt c prevs)) ∧
        ∀ e ∈ t.outs ty, e.1 = some (W.benSeal inv) ∨ e.1 = some (W.changeSeal E k inv c ty) := by
  obtain ⟨C⟩ := compose_ok hE h
  have hpc : c = C.p.contract := Option.some.inj (hc.symm.trans C.prepared.contract)
  have hpt : ty = C.p.ty := Option.some.inj (hty.symm.trans C.prepared.ty)
  subst hpc
  have hpays := C.pays
  rw [hs] at hpays
  obtain ⟨hle, sm, hsub, hpm, hpa⟩ := hpays
  have hperm := own_perm hE C.own hn
  have hsum := sumItems_perm (ty := ty) hperm
  rw [sumItems_items] at hsum
  have hsplit := sumItems_split W ty (visited E C.p.contract (E.ordOuts C.p.contract C.spent))
  obtain ⟨x1, x2⟩ := C.spending.exact (by rw [← hpt, hsum]; exact hfit)
  rw [← hpt] at x1 x2
  have hsm : sm = sumItems ty ((visited E C.p.contract (E.ordOuts C.p.contract C.spent)).filter (onMain W)) := by
    rw [subU_ok hsub (by omega)]; omega
  have hb := C.prepared.beneficiary
  have hch : W.outSeal E k C.p.layer .change C.p.contract C.p.ty = W.changeSeal E k inv C.p.contract ty := by
    rw [C.prepared.layer, hpt]; rfl
  have hm := C.main
  have ha := C.alt
  rw [hpm, hb, hch] at hm
  rw [hpa, hb, hch] at ha
  have hsp : (Stock.split sm amt).1 + (Stock.split sm amt).2 = amt ∧ (Stock.split sm amt).1 ≤ sm ∧ (Stock.split sm amt).2 ≤ C.a.sumAlt := by
    unfold Stock.split
    split
    · refine ⟨?_, ?_, ?_⟩ <;> simp only <;> omega
    · refine ⟨?_, ?_, ?_⟩ <;> simp only <;> omega
  obtain ⟨m1, m2, m3⟩ := hm.amounts hne (by rw [← hpt]; omega)
  obtain ⟨a1, a2, a3⟩ := ha.amounts hne (by rw [← hpt]; omega)
  rw [← hpt] at m1 m2 m3 a1 a2 a3
  refine ⟨by omega, ?_, ?_, ?_⟩
  · rw [C.payments, List.map_append, List.sum_append, m1, a1]; exact hsp.1
  · rw [C.payments, List.map_append, List.sum_append, m2, a2]; omega
  · intro t ht
    obtain ⟨q, hq, hqp⟩ := C.sides hE hn ht
    have hqs := sumItems_perm (ty := ty) hqp
    rw [sumItems_items] at hqs
    rcases hq with ⟨rfl, ht⟩ | ⟨rfl, ht⟩
    · rw [← hqs]; exact m3 t ht
    · rw [← hqs]; exact a3 t ht

/-- The payment of 12 out of 10 (closed with opret) and 7 (closed with tapret). -/
theorem exPay : ∃ b, compose PayWorld.E PayWorld.W PayWorld.k (PayWorld.inv none (.amount 12)) PayWorld.prevs = .ok b ∧
    b.payments.map (fun t => (t.outs 4000).map (fun e => (e.1, e.2.map RState.amount))) =
      [[(some (.concealed .bitcoin 77), some 10)],
        [(some (.revealed ⟨.bitcoin, .opretFirst, none, 1, 2⟩), some 5), (some (.concealed .bitcoin 77), some 2)]] :=
  ok_any (by decide +kernel)

theorem exPay_nodup : ((PayWorld.k.stateAt 0 PayWorld.prevs).map (fun a => a.opout)).Nodup := by decide +kernel

example : PayWorld.k.Reachable PayWorld.H ∧ PayWorld.E.Lawful 97 ∧
    ∃ b, compose PayWorld.E PayWorld.W PayWorld.k (PayWorld.inv none (.amount 12)) PayWorld.prevs = .ok b ∧
      PayWorld.k.invoiced PayWorld.E (PayWorld.inv none (.amount 12)) = some 4000 ∧
      ((PayWorld.k.stateAt 0 PayWorld.prevs).map (fun a => a.opout)).Nodup ∧ sumOf 4000 (PayWorld.k.stateAt 0 PayWorld.prevs) = 17 ∧
      PayWorld.W.benSeal (PayWorld.inv none (.amount 12)) ≠ PayWorld.W.changeSeal PayWorld.E PayWorld.k (PayWorld.inv none (.amount 12)) 0 4000 := by
  obtain ⟨b, hb, -⟩ := exPay
  exact ⟨PayWorld.k_reachable, PayWorld.E_lawful, b, hb, by decide +kernel, exPay_nodup, by decide +kernel, by decide +kernel⟩

/-- **C38 is false for sums over `u64`** in release builds: 2⁶⁴ + 10 are spent to pay 10, and nothing is left. -/
theorem C38_overflow_fails : ∃ b, compose PayWorld.R PayWorld.W PayWorld.k (PayWorld.inv none (.amount 10))
      [PayWorld.out .opretFirst 50, PayWorld.out .opretFirst 52, PayWorld.out .opretFirst 53] = .ok b ∧
    sumOf 4000 (PayWorld.k.stateAt 0 [PayWorld.out .opretFirst 50, PayWorld.out .opretFirst 52, PayWorld.out .opretFirst 53]) =
      18446744073709551626 ∧
    (b.payments.map (fun t => t.total 4000)).sum = 10 :=
  ok_any (by decide +kernel)

/-- **C38 is false if the beneficiary and the change get the same seal**: then 10 are spent to pay 4, and there is only the change of 6. -/
theorem C38_collision_fails : ∃ b, compose PayWorld.E PayWorld.W2 PayWorld.k (PayWorld.invA none (.amount 4)) [PayWorld.out .opretFirst 50] = .ok b ∧
    sumOf 4000 (PayWorld.k.stateAt 0 [PayWorld.out .opretFirst 50]) = 10 ∧ (b.payments.map (fun t => t.total 4000)).sum = 6 :=
  ok_any (by decide +kernel)

/-- **C38**, what is spent: the transitions belong to the contract of the invoice and spend exactly the state of the contract at the
given outputs. -/
theorem C38_inputs {E : CEnv} {n : Nat} (hE : E.Lawful n) {W : Wallet} {k : Stock} {inv : Inv.Invoice} {prevs : List OutSeal}
    {b : Batch} (h : compose E W k inv prevs = .ok b) {c : Nat} (hc : inv.contract = some c) :
    (∀ t ∈ b.payments, t.op.contract = c ∧ t.op.kind = .transition ∧ t.op.inputs ≠ [] ∧ t.op.inputs.Nodup) ∧
      ∀ o, (∃ t ∈ b.payments, o ∈ t.op.inputs) ↔ ∃ a ∈ k.stateAt c prevs, a.opout = o := by
  obtain ⟨C⟩ := compose_ok hE h
  have hpc : c = C.p.contract := Option.some.inj (hc.symm.trans C.prepared.contract)
  subst hpc
  obtain ⟨hpm, hpa⟩ := C.pays.input
  have hmem : ∀ o, (∃ a ∈ k.stateAt C.p.contract prevs, a.opout = o) ↔
      ∃ x ∈ visited E C.p.contract (E.ordOuts C.p.contract C.spent), x.2.1 = o := by
    intro o
    constructor
    · rintro ⟨a, ha, rfl⟩
      obtain ⟨st, hst⟩ := (own_mem hE C.own a.sl a.opout).2 ⟨a, ha, rfl, rfl⟩
      exact ⟨_, hst, rfl⟩
    · rintro ⟨⟨s, o', st⟩, hx, rfl⟩
      obtain ⟨a, ha, -, ho⟩ := (own_mem hE C.own s o').1 ⟨st, hx⟩
      exact ⟨a, ha, ho⟩
  have hside : ∀ (q : Item → Bool) (pays : List TCall) (ts : List BuiltTransition),
      Side E W k C.p (inv.operation.map E.name) C.s ((visited E C.p.contract (E.ordOuts C.p.contract C.spent)).filter q) pays ts →
      pays.filterMap TCall.input = [] → (∀ t ∈ ts, t.op.contract = C.p.contract ∧ t.op.kind = .transition ∧ t.op.inputs ≠ [] ∧ t.op.inputs.Nodup) ∧
        ∀ o, (∃ t ∈ ts, o ∈ t.op.inputs) ↔ ∃ x ∈ visited E C.p.contract (E.ordOuts C.p.contract C.spent), q x = true ∧ x.2.1 = o := by
    intro q pays ts hs hp
    constructor
    · intro t ht
      obtain ⟨h1, h2, -, h3, h4⟩ := hs.inputs hp ht
      refine ⟨h1, h2, ?_, h3⟩
      intro he
      rcases hs with ⟨-, rfl⟩ | ⟨hl, _⟩
      · cases ht
      · obtain ⟨x, hx⟩ := List.exists_mem_of_ne_nil _ hl
        have := (h4 x.2.1).2 (List.mem_map_of_mem (f := fun x : Item => x.2.1) hx)
        rw [he] at this
        cases this
    · intro o
      constructor
      · rintro ⟨t, ht, ho⟩
        obtain ⟨-, -, -, -, h4⟩ := hs.inputs hp ht
        obtain ⟨x, hx, hxo⟩ := List.mem_map.1 ((h4 o).1 ho)
        obtain ⟨hx1, hx2⟩ := List.mem_filter.1 hx
        exact ⟨x, hx1, hx2, hxo⟩
      · rintro ⟨x, hx, hq, rfl⟩
        have hxm := List.mem_filter.2 ⟨hx, hq⟩
        rcases id hs with ⟨hl, -⟩ | ⟨-, t, rfl, -⟩
        · rw [hl] at hxm; cases hxm
        · have hin := (hs.inputs hp (List.mem_singleton.2 rfl)).2.2.2.2
          exact ⟨t, List.mem_singleton.2 rfl, (hin _).2 (List.mem_map_of_mem (f := fun x : Item => x.2.1) hxm)⟩
  obtain ⟨m1, m2⟩ := hside _ _ _ C.main hpm
  obtain ⟨a1, a2⟩ := hside _ _ _ C.alt hpa
  rw [C.payments]
  constructor
  · intro t ht
    rcases List.mem_append.1 ht with ht | ht
    · exact m1 t ht
    · exact a1 t ht
  · intro o
    rw [hmem]
    constructor
    · rintro ⟨t, ht, ho⟩
      rcases List.mem_append.1 ht with ht | ht
      · obtain ⟨x, hx, -, hxo⟩ := (m2 o).1 ⟨t, ht, ho⟩; exact ⟨x, hx, hxo⟩
      · obtain ⟨x, hx, -, hxo⟩ := (a2 o).1 ⟨t, ht, ho⟩; exact ⟨x, hx, hxo⟩
    · rintro ⟨x, hx, hxo⟩
      cases hq : onMain W x with
      | true =>
        obtain ⟨t, ht, ho⟩ := (m2 o).2 ⟨x, hx, hq, hxo⟩
        exact ⟨t, List.mem_append_left _ ht, ho⟩
      | false =>
        obtain ⟨t, ht, ho⟩ := (a2 o).2 ⟨x, hx, by rw [hq]; rfl, hxo⟩
        exact ⟨t, List.mem_append_right _ ht, ho⟩

/-- **C38**, each state is spent once: if an output of an operation is at one transaction output only, then no two transitions spend the
same. -/
theorem C38_once {E : CEnv} {n : Nat} (hE : E.Lawful n) {W : Wallet} {k : Stock} {inv : Inv.Invoice} {prevs : List OutSeal}
    {b : Batch} (h : compose E W k inv prevs = .ok b) {c : Nat} (hc : inv.contract = some c)
    (hn : ((k.stateAt c prevs).map (fun a => a.opout)).Nodup) :
    (b.payments.flatMap (fun t => t.op.inputs)).Perm ((k.stateAt c prevs).map (fun a => a.opout)) := by
  obtain ⟨h1, h2⟩ := C38_inputs hE h hc
  rw [List.perm_ext_iff_of_nodup ?_ hn]
  · intro o
    rw [List.mem_flatMap, h2, List.mem_map]
  · obtain ⟨C⟩ := compose_ok hE h
    have hpc : c = C.p.contract := Option.some.inj (hc.symm.trans C.prepared.contract)
    subst hpc
    have hperm := own_perm hE C.own hn
    have hno : ((visited E C.p.contract (E.ordOuts C.p.contract C.spent)).map (fun x => x.2.1)).Nodup := by
      refine (hperm.map _).nodup_iff.2 ?_
      rw [List.map_map]
      exact hn
    obtain ⟨hpm, hpa⟩ := C.pays.input
    refine nodup_flatMap (fun t ht => (h1 t ht).2.2.2) ?_
    rw [C.payments]
    have hone : ∀ {l pays ts}, Side E W k C.p (inv.operation.map E.name) C.s l pays ts → ts.Pairwise (fun a b => ∀ x ∈ a.op.inputs, x ∉ b.op.inputs) := by
      intro l pays ts hs
      rcases hs with ⟨-, rfl⟩ | ⟨-, t, rfl, -⟩
      · exact List.Pairwise.nil
      · exact List.pairwise_singleton _ _
    rw [List.pairwise_append]
    refine ⟨hone C.main, hone C.alt, ?_⟩
    intro t ht t' ht' o ho ho'
    rw [(C.main.inputs hpm ht).2.2.2.2] at ho
    rw [(C.alt.inputs hpa ht').2.2.2.2] at ho'
    obtain ⟨x, hx, hxo⟩ := List.mem_map.1 ho
    obtain ⟨y, hy, hyo⟩ := List.mem_map.1 ho'
    obtain ⟨hx1, hx2⟩ := List.mem_filter.1 hx
    obtain ⟨hy1, hy2⟩ := List.mem_filter.1 hy
    have hxy : x = y := by
      rw [List.Nodup, List.pairwise_map] at hno
      refine Decidable.byContradiction fun hne => ?_
      obtain ⟨i, hi, rfl⟩ := List.mem_iff_getElem.1 hx1
      obtain ⟨j, hj, rfl⟩ := List.mem_iff_getElem.1 hy1
      rw [List.pairwise_iff_getElem] at hno
      rcases Nat.lt_trichotomy i j with hij | hij | hij
      · exact hno i j hi hj hij (hxo.trans hyo.symm)
      · subst hij; exact hne rfl
      · exact hno j i hj hi hij (hyo.trans hxo.symm)
    subst hxy
    rw [hx2] at hy2
    cases hy2

example : ∃ b, compose PayWorld.E PayWorld.W PayWorld.k (PayWorld.inv none (.amount 12)) PayWorld.prevs = .ok b ∧
    b.payments.map (fun t => t.op.inputs.map (fun o => (o.ty, o.no))) = [[(4000, 0), (4001, 0), (4002, 0)], [(4000, 1), (4002, 2)]] :=
  ok_any (by decide +kernel)

/-- **C38**, other state: whatever the invoice asks for, state of other types which is spent is assigned back to the wallet, with the same
content. Missing: if the wallet gives the same seal for two such states of a type, only one of them is kept (see `C38_moved_fails`). -/
theorem C38_moved_partial {E : CEnv} {n : Nat} (hE : E.Lawful n) {W : Wallet} {k : Stock} {inv : Inv.Invoice} {prevs : List OutSeal}
    {b : Batch} (h : compose E W k inv prevs = .ok b) {c ty aty : Nat} (hc : inv.contract = some c) (hty : k.invoiced E inv = some ty)
    (hne : aty ≠ ty) (hn : ((k.stateAt c prevs).map (fun a => a.opout)).Nodup)
    (hseals : ((ofType aty (k.stateAt c prevs)).map (W.movedSeal E k inv c)).Nodup) :
    ∀ t ∈ b.payments, ((t.outs aty).map (fun e => (e.1, e.2.map RState.content))).Perm
      ((ofType aty (t.spends (k.stateAt c prevs))).map (fun a => (some (W.movedSeal E k inv c a), some a.state.content))) := by
  obtain ⟨C⟩ := compose_ok hE h
  have hpc : c = C.p.contract := Option.some.inj (hc.symm.trans C.prepared.contract)
  have hpt : ty = C.p.ty := Option.some.inj (hty.symm.trans C.prepared.ty)
  subst hpc
  intro t ht
  obtain ⟨q, hq, hqp⟩ := C.sides hE hn ht
  have hmp := movedItems_perm (E := E) (W := W) (k := k) (layer := C.p.layer) (c := C.p.contract) (aty := aty) hqp
  have hseq : ∀ a ∈ ofType aty (t.spends (k.stateAt C.p.contract prevs)),
      W.outSeal E k C.p.layer (.moved C.p.contract a.sl a.opout) C.p.contract aty = W.movedSeal E k inv C.p.contract a := by
    intro a ha
    have := (List.mem_filter.1 ha).2
    simp only [decide_eq_true_eq] at this
    unfold Wallet.movedSeal
    rw [C.prepared.layer, this]
  have hnod : ((movedItems E W k C.p.layer C.p.contract aty ((visited E C.p.contract (E.ordOuts C.p.contract C.spent)).filter q)).map Prod.fst).Nodup := by
    refine (hmp.map _).nodup_iff.2 ?_
    rw [List.map_map]
    have : (ofType aty (t.spends (k.stateAt C.p.contract prevs))).map
        (Prod.fst ∘ fun a => (W.outSeal E k C.p.layer (.moved C.p.contract a.sl a.opout) C.p.contract aty,
          OpBuilder.setBlinding (W.factors (.moved C.p.contract a.sl a.opout)) a.state)) =
        (ofType aty (t.spends (k.stateAt C.p.contract prevs))).map (W.movedSeal E k inv C.p.contract) :=
      List.map_congr_left (fun a ha => hseq a ha)
    rw [this]
    have : ofType aty (t.spends (k.stateAt C.p.contract prevs)) = (ofType aty (k.stateAt C.p.contract prevs)).filter
        (fun a => decide (a.opout ∈ t.op.inputs)) := by
      unfold ofType BuiltTransition.spends
      rw [List.filter_filter, List.filter_filter]
      apply List.filter_congr
      intro a _
      rw [Bool.and_comm]
    rw [this]
    exact filter_sublist_nodup _ hseals
  have key : ∀ {pays ts}, Side E W k C.p (inv.operation.map E.name) C.s ((visited E C.p.contract (E.ordOuts C.p.contract C.spent)).filter q) pays ts →
      (∀ I dflt, addsOf I dflt aty pays = []) → t ∈ ts → ((t.outs aty).map (fun e => (e.1, e.2.map RState.content))).Perm
      ((ofType aty (t.spends (k.stateAt C.p.contract prevs))).map (fun a => (some (W.movedSeal E k inv C.p.contract a), some a.state.content))) := by
    intro pays ts hs hp htt
    refine (hs.moved (by rw [← hpt]; exact hne) hp hnod t htt).trans ((hmp.map _).trans (.of_eq ?_))
    rw [List.map_map]
    apply List.map_congr_left
    intro a ha
    simp only [Function.comp, setBlinding_content, hseq a ha]
  have hnt : aty ≠ C.p.ty := by rw [← hpt]; exact hne
  rcases hq with ⟨rfl, htt⟩ | ⟨rfl, htt⟩
  · exact key C.main (fun I dflt => (C.pays.adds I dflt hnt).1) htt
  · exact key C.alt (fun I dflt => (C.pays.adds I dflt hnt).2) htt

example : ∃ b, compose PayWorld.E PayWorld.W PayWorld.k (PayWorld.inv none (.amount 12)) PayWorld.prevs = .ok b ∧
    ((ofType 4002 (PayWorld.k.stateAt 0 PayWorld.prevs)).map (PayWorld.W.movedSeal PayWorld.E PayWorld.k (PayWorld.inv none (.amount 12)) 0)).Nodup ∧
    b.payments.map (fun t => (t.outs 4002).map (fun e => e.2)) = [[some (.data 5 0)], [some (.data 8 0)]] :=
  ok_any (by decide +kernel)

/-- **C38 is false if two states of a type which aren't paid get the same seal**: then one of the two rights is lost. -/
theorem C38_moved_fails : ∃ b, compose PayWorld.E PayWorld.W1 PayWorld.k (PayWorld.inv none (.amount 4))
      [PayWorld.out .opretFirst 50, PayWorld.out .opretFirst 54] = .ok b ∧
    (ofType 4001 (PayWorld.k.stateAt 0 [PayWorld.out .opretFirst 50, PayWorld.out .opretFirst 54])).length = 2 ∧
    (b.payments.flatMap (fun t => t.outs 4001)).length = 1 :=
  ok_any (by decide +kernel)

/-! ## C39: not enough state -/

/-- **C39**: a payment is made only if the state at the outputs covers it. -/
theorem C39_covered {E : CEnv} {n : Nat} (hE : E.Lawful n) {W : Wallet} {k : Stock} {inv : Inv.Invoice} {prevs : List OutSeal}
    {b : Batch} (h : compose E W k inv prevs = .ok b) {c ty amt : Nat} (hc : inv.contract = some c) (hty : k.invoiced E inv = some ty)
    (hs : inv.ownedState = .amount amt) (hn : ((k.stateAt c prevs).map (fun a => a.opout)).Nodup) :
    amt ≤ sumOf ty (k.stateAt c prevs) := by
  obtain ⟨C⟩ := compose_ok hE h
  have hpc : c = C.p.contract := Option.some.inj (hc.symm.trans C.prepared.contract)
  have hpt : ty = C.p.ty := Option.some.inj (hty.symm.trans C.prepared.ty)
  subst hpc
  have hpays := C.pays
  rw [hs] at hpays
  obtain ⟨hle, -⟩ := hpays
  have hsum := sumItems_perm (ty := ty) (own_perm hE C.own hn)
  rw [sumItems_items] at hsum
  have h1 := C.spending.sum
  have h2 := C.spending.sumLt (show 0 < w64 by decide)
  simp only [Nat.zero_add] at h1
  rw [Nat.mod_eq_of_lt h2, ← hpt, hsum] at h1
  have := Nat.mod_le (sumOf ty (k.stateAt C.p.contract prevs)) w64
  omega

/-- **C39**: the error *not enough state* has exactly these reasons: nothing is at the outputs, the amounts at the outputs are less than the
invoiced one, or the invoiced token isn't at the outputs. (In release builds if amounts don't overflow `u64`.) -/
theorem C39_reason {E : CEnv} {n : Nat} (hE : E.Lawful n) {W : Wallet} {k : Stock} {inv : Inv.Invoice} {prevs : List OutSeal}
    (h : compose E W k inv prevs = .error .insufficientState)
    (hn : ∀ c, inv.contract = some c → ((k.stateAt c prevs).map (fun a => a.opout)).Nodup)
    (hfit : E.B.debug = true ∨ ∀ c ty, inv.contract = some c → sumOf ty (k.stateAt c prevs) < 18446744073709551616) :
    ∃ c ty, inv.contract = some c ∧ k.invoiced E inv = some ty ∧ (k.stateAt c prevs = [] ∨
      (∃ amt, inv.ownedState = .amount amt ∧ sumOf ty (k.stateAt c prevs) < amt) ∨
      ∃ al, inv.ownedState = .data al ∧ ∀ a ∈ ofType ty (k.stateAt c prevs), a.state.data? ≠ some (E.dataOf al)) := by
  rcases compose_err h rfl with h | ⟨-, p, spent, a, h1, h2, h3, h4⟩
  · rcases prepare_err h rfl with ⟨h, -⟩ | ⟨h, -⟩ | ⟨h, -⟩ <;> cases h
  · have hp := prepare_ok h1
    obtain ⟨sp, -, -⟩ := spendAll_ok h3
    have hperm := own_perm hE h2 (hn _ hp.contract)
    have hsum := sumItems_perm (ty := p.ty) hperm
    rw [sumItems_items] at hsum
    refine ⟨p.contract, p.ty, hp.contract, hp.ty, ?_⟩
    rcases h4 with ⟨amt, hs, hlt⟩ | ⟨t, hs, ht⟩ | ⟨a', hpay, i1, i2⟩
    · right; left
      obtain ⟨x1, -⟩ := sp.exact (by
        rcases hfit with hd | hf
        · exact .inl hd
        · right; rw [hsum]; exact hf _ _ hp.contract)
      exact ⟨amt, hs, by rw [← hsum, ← x1]; exact hlt⟩
    · right; right
      refine ⟨t, hs, fun x hx hd => ht ?_⟩
      rw [sp.data]
      obtain ⟨hx1, hx2⟩ := List.mem_filter.1 hx
      refine List.mem_append_right _ (dataItems_mem.2 ⟨x.item, hperm.mem_iff.2 (List.mem_map_of_mem hx1), of_decide_eq_true hx2, hd⟩)
    · left
      have hv := no_inputs h1 h3 hpay i1 i2
      rw [hv] at hperm
      have := hperm.symm.eq_nil
      simpa using this

/-- **C39**, exactly: if some amount can be paid by an invoice, then the same invoice for another amount fails with *not enough state* if and
only if the amounts at the outputs are less than the invoiced one. -/
theorem C39_exact {E : CEnv} {n : Nat} (hE : E.Lawful n) {W : Wallet} {k : Stock} {inv : Inv.Invoice} {prevs : List OutSeal}
    {b : Batch} (h : compose E W k inv prevs = .ok b) {c ty amt : Nat} (hc : inv.contract = some c) (hty : k.invoiced E inv = some ty)
    (hs : inv.ownedState = .amount amt) (hn : ((k.stateAt c prevs).map (fun a => a.opout)).Nodup)
    (hfit : E.B.debug = true ∨ ∀ ty, sumOf ty (k.stateAt c prevs) < 18446744073709551616) (amt' : Nat) :
    compose E W k { inv with ownedState := .amount amt' } prevs = .error .insufficientState ↔ sumOf ty (k.stateAt c prevs) < amt' := by
  constructor
  · intro he
    obtain ⟨c', ty', e1, e2, e3⟩ := C39_reason hE he (fun c' h' => by rw [show c' = c from Option.some.inj (h'.symm.trans hc)]; exact hn)
      (hfit.imp id (fun hf c' ty' h' => by rw [show c' = c from Option.some.inj (h'.symm.trans hc)]; exact hf ty'))
    have e1 : c' = c := Option.some.inj (e1.symm.trans hc)
    have e2 : ty' = ty := Option.some.inj (e2.symm.trans hty)
    subst e1 e2
    rcases e3 with e3 | ⟨a, ha, hlt⟩ | ⟨al, hal, -⟩
    · obtain ⟨C⟩ := compose_ok hE h
      obtain ⟨p1, p2⟩ := C38_inputs hE h hc
      rw [e3] at p2
      have hne : b.payments ≠ [] := by
        unfold Batch.payments Dichotomy.toList
        cases b.main.second <;> simp
      obtain ⟨t, ht⟩ := List.exists_mem_of_ne_nil _ hne
      obtain ⟨o, ho⟩ := List.exists_mem_of_ne_nil _ (p1 t ht).2.2.1
      obtain ⟨_, hx, _⟩ := (p2 o).1 ⟨t, ht, ho⟩
      cases hx
    · cases ha; exact hlt
    · cases hal
  · intro hlt
    unfold compose at h ⊢
    obtain ⟨p, h1, h⟩ := except_bind_ok.1 h
    obtain ⟨spent, h2, h⟩ := except_bind_ok.1 h
    obtain ⟨a, h3, -⟩ := except_bind_ok.1 h
    have hp := prepare_ok h1
    have hpc : c = p.contract := Option.some.inj (hc.symm.trans hp.contract)
    have hpt : ty = p.ty := Option.some.inj (hty.symm.trans hp.ty)
    subst hpc
    have h1' : prepare E W k { inv with ownedState := .amount amt' } = .ok p := h1
    rw [hs] at h3
    have h3' : spendAll E W k p (wanted E (.amount amt')) (E.ordOuts p.contract spent) { main := p.main, alt := p.alt } = .ok a := h3
    obtain ⟨sp, -, -⟩ := spendAll_ok h3
    have hsum := sumItems_perm (ty := p.ty) (own_perm hE h2 hn)
    rw [sumItems_items] at hsum
    obtain ⟨x1, -⟩ := sp.exact (by
      rcases hfit with hd | hf
      · exact .inl hd
      · right; rw [hsum]; exact hf _)
    have hpay : payInvoice E W k p a (.amount amt') = .error .insufficientState := by
      simp only [payInvoice, payAmount]
      have : failIf CErr.insufficientState (decide (a.sum < amt')) = .error .insufficientState := by
        rw [failIf_error]; exact ⟨by rw [x1, hsum, ← hpt]; simpa using hlt, rfl⟩
      rw [this]; rfl
    rw [h1']
    show (contractAssignmentsFor k p.contract (prevs.map OutSeal.outpoint) >>= _) = _
    rw [h2]
    show (spendAll E W k p (wanted E (.amount amt')) (E.ordOuts p.contract spent) { main := p.main, alt := p.alt } >>= _) = _
    rw [h3']
    show (payInvoice E W k p a (.amount amt') >>= _) = _
    rw [hpay]
    rfl

example : compose PayWorld.E PayWorld.W PayWorld.k (PayWorld.inv none (.amount 18)) PayWorld.prevs = .error .insufficientState :=
  (by
    obtain ⟨b, hb, -⟩ := exPay
    refine (C39_exact PayWorld.E_lawful hb (c := 0) (ty := 4000) rfl (by decide +kernel) rfl exPay_nodup (.inl rfl) 18).2 ?_
    decide +kernel)

example : compose PayWorld.E PayWorld.W PayWorld.k (PayWorld.inv (some "abc".toList) (.data ⟨6, 0⟩)) PayWorld.prevs = .error .insufficientState := by
  decide +kernel

/-! ## C41: tokens -/

/-- **C41**, the invoiced token: it is at the given outputs, the beneficiary gets it, once, from a transition which spends it, and nothing
else of its type is assigned. So it stays whole; but other tokens of the type are lost (see `C41_other_tokens_fails`). State of other
types is kept: `C38_moved_partial`. -/
theorem C41_token_partial {E : CEnv} {n : Nat} (hE : E.Lawful n) {W : Wallet} {k : Stock} {inv : Inv.Invoice} {prevs : List OutSeal}
    {b : Batch} (h : compose E W k inv prevs = .ok b) {c ty : Nat} {al : Inv.Allocation} (hc : inv.contract = some c)
    (hty : k.invoiced E inv = some ty) (hs : inv.ownedState = .data al) (hn : ((k.stateAt c prevs).map (fun a => a.opout)).Nodup) :
    ∃ t ∈ b.payments, (∃ a ∈ ofType ty (t.spends (k.stateAt c prevs)), a.state.data? = some (E.dataOf al)) ∧
      (t.outs ty).map (fun e => (e.1, e.2.map RState.content)) = [(some (W.benSeal inv), some (RState.data (E.dataOf al) (W.seals .token)))] ∧
      (b.payments.flatMap (fun t => t.outs ty)) = t.outs ty := by
  obtain ⟨C⟩ := compose_ok hE h
  have hpc : c = C.p.contract := Option.some.inj (hc.symm.trans C.prepared.contract)
  have hpt : ty = C.p.ty := Option.some.inj (hty.symm.trans C.prepared.ty)
  subst hpc
  have hpays := C.pays
  rw [hs] at hpays
  obtain ⟨hin, hpm, hpa⟩ := hpays
  rw [C.spending.data] at hin
  obtain ⟨x, hx, hxt, hxd⟩ := dataItems_mem.1 (by simpa using hin)
  have hdm := C.spending.dataMain
  rw [hs] at hdm
  simp only [Bool.true_and, wanted] at hdm
  -- a transition which gets no token assigns nothing of the type, one which gets it assigns just it
  have none_ : ∀ {l ts}, Side E W k C.p (inv.operation.map E.name) C.s l [] ts → ∀ t ∈ ts, t.outs C.p.ty = [] := by
    intro l ts hsd t ht
    rcases hsd with ⟨-, rfl⟩ | ⟨-, t', rfl, hb⟩
    · cases ht
    · simp only [List.mem_singleton] at ht
      subst ht
      have ho := hb.outs C.p.ty
      have : ∀ (I : IfaceImpl) (dflt : Option Nat), addsOf I dflt C.p.ty (l.flatMap (itemCalls E W k C.p) ++ []) = [] := by
        intro I dflt
        rw [List.append_nil, items_adds, if_pos rfl]
      rw [this] at ho
      have := (ho List.nodup_nil).eq_nil
      simpa using this
  have one_ : ∀ {l ts}, l ≠ [] → Side E W k C.p (inv.operation.map E.name) C.s l
      [.addDataRaw C.p.ty C.p.beneficiary (E.dataOf al) (W.seals .token)] ts →
      ∃ t, ts = [t] ∧ (t.outs C.p.ty).map (fun e => (e.1, e.2.map RState.content)) = [(some C.p.beneficiary, some (RState.data (E.dataOf al) (W.seals .token)))] := by
    intro l ts hl hsd
    rcases hsd with ⟨rfl, -⟩ | ⟨-, t, rfl, hb⟩
    · exact absurd rfl hl
    · refine ⟨t, rfl, ?_⟩
      have ho := hb.outs C.p.ty
      have : ∀ (I : IfaceImpl) (dflt : Option Nat), addsOf I dflt C.p.ty (l.flatMap (itemCalls E W k C.p) ++
          [.addDataRaw C.p.ty C.p.beneficiary (E.dataOf al) (W.seals .token)]) = [(C.p.beneficiary, .data (E.dataOf al) (W.seals .token))] := by
        intro I dflt
        rw [addsOf_append, items_adds, if_pos rfl]
        simp [addsOf, TCall.assigned]
      rw [this] at ho
      exact (ho (by simp)).symm.singleton_eq.symm
  have hm := C.main
  have ha := C.alt
  rw [hpm] at hm
  rw [hpa] at ha
  have fin : ∀ (q : Item → Bool) (t : BuiltTransition), t ∈ b.payments → q x = true →
      ((visited E C.p.contract (E.ordOuts C.p.contract C.spent)).filter q).Perm ((t.spends (k.stateAt C.p.contract prevs)).map OutAssign.item) →
      ∃ a ∈ ofType ty (t.spends (k.stateAt C.p.contract prevs)), a.state.data? = some (E.dataOf al) := by
    intro q t _ hq hp
    obtain ⟨a, ha, rfl⟩ := List.mem_map.1 (hp.mem_iff.1 (List.mem_filter.2 ⟨hx, hq⟩))
    exact ⟨a, List.mem_filter.2 ⟨ha, by rw [hpt]; exact decide_eq_true hxt⟩, hxd⟩
  cases hd : C.a.dataMain with
  | true =>
    rw [hd] at hm ha
    simp only [if_true] at hm ha
    have hxm : onMain W x = true := by
      cases hq : onMain W x with
      | true => rfl
      | false =>
        rw [hd] at hdm
        have hall : (visited E C.p.contract (E.ordOuts C.p.contract C.spent)).any (isAltData W (some (E.dataOf al)) C.p.ty) = false := by
          cases hz : (visited E C.p.contract (E.ordOuts C.p.contract C.spent)).any (isAltData W (some (E.dataOf al)) C.p.ty) with
          | false => rfl
          | true => rw [hz] at hdm; cases hdm
        rw [List.any_eq_false] at hall
        exact absurd (by simp [isAltData, hxt, hq, hxd]) (hall x hx)
    obtain ⟨t, ht, hto⟩ := one_ (by intro hl; have := List.mem_filter.2 ⟨hx, hxm⟩; rw [hl] at this; cases this) hm
    have htm : t ∈ C.tm := by rw [ht]; exact List.mem_singleton.2 rfl
    have htp : t ∈ b.payments := by rw [C.payments]; exact List.mem_append_left _ htm
    refine ⟨t, htp, ?_, ?_, ?_⟩
    · exact fin _ t htp hxm (side_state _ (own_perm hE C.own hn) hn (C.main.inputs C.pays.input.1 htm).2.2.2.2)
    · rw [hpt, hto, C.prepared.beneficiary]
    · rw [C.payments, List.flatMap_append, ht]
      have : C.ta.flatMap (fun t => t.outs ty) = [] := by
        rw [List.flatMap_eq_nil_iff, hpt]; exact none_ ha
      rw [this]; simp
  | false =>
    rw [hd] at hm ha
    simp only [Bool.false_eq_true, if_false] at hm ha
    rw [hd] at hdm
    have hall : (visited E C.p.contract (E.ordOuts C.p.contract C.spent)).any (isAltData W (some (E.dataOf al)) C.p.ty) = true := by
      cases hz : (visited E C.p.contract (E.ordOuts C.p.contract C.spent)).any (isAltData W (some (E.dataOf al)) C.p.ty) with
      | true => rfl
      | false => rw [hz] at hdm; cases hdm
    obtain ⟨y, hy, hyq⟩ := List.any_eq_true.1 hall
    simp only [isAltData, Bool.and_eq_true, decide_eq_true_eq] at hyq
    obtain ⟨⟨hy1, hy2⟩, -, hy3⟩ := hyq
    have hyf := List.mem_filter (p := fun x => !onMain W x).2 ⟨hy, hy2⟩
    obtain ⟨t, ht, hto⟩ := one_ (by intro hl; rw [hl] at hyf; cases hyf) ha
    have htm : t ∈ C.ta := by rw [ht]; exact List.mem_singleton.2 rfl
    have htp : t ∈ b.payments := by rw [C.payments]; exact List.mem_append_right _ htm
    refine ⟨t, htp, ?_, ?_, ?_⟩
    · have hp := side_state _ (own_perm hE C.own hn) hn (C.alt.inputs C.pays.input.2 htm).2.2.2.2
      obtain ⟨a, ha, hay⟩ := List.mem_map.1 (hp.mem_iff.1 hyf)
      subst hay
      exact ⟨a, List.mem_filter.2 ⟨ha, by rw [hpt]; exact decide_eq_true hy1⟩, hy3.symm⟩
    · rw [hpt, hto, C.prepared.beneficiary]
    · rw [C.payments, List.flatMap_append, ht]
      have : C.tm.flatMap (fun t => t.outs ty) = [] := by
        rw [List.flatMap_eq_nil_iff, hpt]; exact none_ hm
      rw [this]; simp

example : ∃ b, compose PayWorld.E PayWorld.W PayWorld.k (PayWorld.inv (some "abc".toList) (.data ⟨8, 0⟩)) PayWorld.prevs = .ok b ∧
    PayWorld.k.invoiced PayWorld.E (PayWorld.inv (some "abc".toList) (.data ⟨8, 0⟩)) = some 4002 ∧
    b.payments.map (fun t => (t.outs 4002).map (fun e => e.2)) = [[], [some (.data 8 3)]] :=
  ok_any (by decide +kernel)

/-- **C41 is false**: paying the token 5 loses the token 6, which is at one of the spent outputs. -/
theorem C41_other_tokens_fails : ∃ b, compose PayWorld.E PayWorld.W PayWorld.k (PayWorld.inv (some "abc".toList) (.data ⟨5, 0⟩))
      [PayWorld.out .opretFirst 50, PayWorld.out .opretFirst 54] = .ok b ∧
    (ofType 4002 (PayWorld.k.stateAt 0 [PayWorld.out .opretFirst 50, PayWorld.out .opretFirst 54])).map (fun a => a.state.data?) = [some 5, some 6] ∧
    (∀ a ∈ PayWorld.k.stateAt 0 [PayWorld.out .opretFirst 50, PayWorld.out .opretFirst 54], ∃ t ∈ b.payments, a.opout ∈ t.op.inputs) ∧
    (b.payments.flatMap (fun t => t.outs 4002)).map (fun e => e.2.bind RState.data?) = [some 5] :=
  ok_any (by decide +kernel)

/-- **C41 is false**: an invoice for the amount of zero of a type of tokens loses all tokens at the spent outputs. -/
theorem C41_zero_amount_fails : ∃ b, compose PayWorld.E PayWorld.W PayWorld.k (PayWorld.inv (some "abc".toList) (.amount 0))
      [PayWorld.out .opretFirst 50, PayWorld.out .opretFirst 54] = .ok b ∧
    (ofType 4002 (PayWorld.k.stateAt 0 [PayWorld.out .opretFirst 50, PayWorld.out .opretFirst 54])).map (fun a => a.state.data?) = [some 5, some 6] ∧
    (∀ a ∈ PayWorld.k.stateAt 0 [PayWorld.out .opretFirst 50, PayWorld.out .opretFirst 54], ∃ t ∈ b.payments, a.opout ∈ t.op.inputs) ∧
    b.payments.flatMap (fun t => t.outs 4002) = [] :=
  ok_any (by decide +kernel)

/-! ## C42: refused invoices -/

/-- **C42**: an invoice is refused as expired if and only if its expiry is before the present. -/
theorem C42_expired {E : CEnv} {W : Wallet} {k : Stock} {inv : Inv.Invoice} {prevs : List OutSeal} :
    compose E W k inv prevs = .error .invoiceExpired ↔ ∃ e, inv.expiry = some e ∧ e < E.now := by
  rw [← expired_iff]
  constructor
  · intro h
    rcases compose_err h rfl with h | ⟨h, -⟩
    · rcases prepare_err h rfl with ⟨-, h⟩ | ⟨h, -⟩ | ⟨h, -⟩
      · exact h
      · cases h
      · cases h
    · cases h
  · intro h
    unfold compose
    rw [prepare_eq, h]
    rfl

/-- **C42**: an invoice is refused for not naming the contract if and only if it doesn't name it (and hasn't expired). -/
theorem C42_no_contract {E : CEnv} {W : Wallet} {k : Stock} {inv : Inv.Invoice} {prevs : List OutSeal} :
    compose E W k inv prevs = .error .noContract ↔ (∀ e, inv.expiry = some e → E.now ≤ e) ∧ inv.contract = none := by
  have hx : expired E inv = false ↔ ∀ e, inv.expiry = some e → E.now ≤ e := by
    unfold expired; cases inv.expiry <;> simp
  rw [← hx]
  constructor
  · intro h
    rcases compose_err h rfl with h | ⟨h, -⟩
    · rcases prepare_err h rfl with ⟨h, -⟩ | ⟨-, h⟩ | ⟨h, -⟩
      · cases h
      · exact h
      · cases h
    · cases h
  · rintro ⟨h1, h2⟩
    unfold compose
    rw [prepare_eq, h1, h2]
    rfl

/-- **C42**: an invoice is refused for not naming the interface if and only if it doesn't name it (and names the contract, and hasn't
expired). -/
theorem C42_no_iface {E : CEnv} {W : Wallet} {k : Stock} {inv : Inv.Invoice} {prevs : List OutSeal} :
    compose E W k inv prevs = .error .noIface ↔
      (∀ e, inv.expiry = some e → E.now ≤ e) ∧ inv.contract ≠ none ∧ inv.iface = none := by
  have hx : expired E inv = false ↔ ∀ e, inv.expiry = some e → E.now ≤ e := by
    unfold expired; cases inv.expiry <;> simp
  rw [← hx]
  constructor
  · intro h
    rcases compose_err h rfl with h | ⟨h, -⟩
    · rcases prepare_err h rfl with ⟨h, -⟩ | ⟨h, -⟩ | ⟨-, h⟩
      · cases h
      · cases h
      · exact h
    · cases h
  · rintro ⟨h1, h2, h3⟩
    unfold compose
    cases hc : inv.contract with
    | none => exact absurd hc h2
    | some c =>
      rw [prepare_eq, h1, h3, hc]
      rfl

/-- **C42**: whenever a payment is composed, the invoice hasn't expired, names a contract and an interface, the documents needed for them
are in the stash, and it asks for an amount or a token. -/
theorem C42_accepted {E : CEnv} {n : Nat} (hE : E.Lawful n) {W : Wallet} {k : Stock} {inv : Inv.Invoice} {prevs : List OutSeal} {b : Batch}
    (h : compose E W k inv prevs = .ok b) :
    (∀ e, inv.expiry = some e → E.now ≤ e) ∧ inv.contract ≠ none ∧ inv.iface ≠ none ∧ k.invoiced E inv ≠ none ∧
      ((∃ amt, inv.ownedState = .amount amt) ∨ ∃ al, inv.ownedState = .data al) := by
  obtain ⟨C⟩ := compose_ok hE h
  obtain ⟨i, hi, -⟩ := C.prepared.iface
  refine ⟨C.prepared.fresh, by rw [C.prepared.contract]; simp, by rw [hi]; simp, by rw [C.prepared.ty]; simp, ?_⟩
  have hp := C.pays
  cases hs : inv.ownedState with
  | void => rw [hs] at hp; exact hp.elim
  | attach x => rw [hs] at hp; exact hp.elim
  | amount a => exact .inl ⟨a, rfl⟩
  | data a => exact .inr ⟨a, rfl⟩

/-- The same invoice expires and is refused when it lacks the contract or the interface. -/
example : compose { PayWorld.E with now := 2001 } PayWorld.W PayWorld.k (PayWorld.inv none (.amount 12)) PayWorld.prevs = .error .invoiceExpired ∧
    (compose { PayWorld.E with now := 2000 } PayWorld.W PayWorld.k (PayWorld.inv none (.amount 12)) PayWorld.prevs).toBool = true ∧
    compose PayWorld.E PayWorld.W PayWorld.k { PayWorld.inv none (.amount 12) with contract := none } PayWorld.prevs = .error .noContract ∧
    compose PayWorld.E PayWorld.W PayWorld.k { PayWorld.inv none (.amount 12) with iface := none } PayWorld.prevs = .error .noIface := by
  decide +kernel

end Rgb.Props
