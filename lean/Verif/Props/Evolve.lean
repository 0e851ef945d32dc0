import Verif.Lemmas.Evolve
import Verif.Props.State
import Verif.Spec.StockWorld

/-! # C80: the state seen by validation -/

namespace Rgb.Props
open Rgb ContractState

/-- **C80**, in the order of storing. Take any history of writes to the state – of any contracts, failing calls and updates of witnesses included –
after which the contract is known, always registered with the schema `sch`. Give to the state used by validation, one by one, the operations which were
stored for the contract, in the order of storing, with the positions of their witnesses which the store has in the end. This doesn't panic, and all
reads of the contract give the same as the reads of the stored contract.

Missing from the full property: the position of a witness, see `C80_witness_fails`. -/
theorem C80_validation_reads_partial (H : Commit) (es : List StEvent) (hp : EventsProper es) (s : MemState) (hrun : runSt H {} es = some s) (c : Nat)
    (stored : ContractView) (hv : s.contractState c = .ok stored) (sch : SchemaGlobals)
    (hsch : ∀ sch' g, StCall.register sch' g ∈ accepted H {} es → g.contractId H = c → sch' = sch) (ops : List OrdOp)
    (hops : List.Forall₂ (OrdOp.StoredBy H c) ops ((accepted H {} es).filter (fun call => decide (c = call.contract H))))
    (hord : ∀ x ∈ ops, ∀ w ord, x.witnessOrd? = some (w, ord) → OMap.get? s.witnesses w = some ord) :
    ∃ evolved, (ContractView.init sch c).evolveAll H ops = some evolved ∧ evolved.SameReads stored := by
  have hstrip : (aboutCalls H c es).map (StCall.strip sch) = ops.map (OrdOp.call sch c) := by
    unfold aboutCalls
    generalize (accepted H {} es).filter (fun call => decide (c = call.contract H)) = l at hops
    induction hops with
    | nil => rfl
    | cons h _ ih => rw [List.map_cons, List.map_cons, (h.strip sch).1, ih fun x hx => hord x (List.mem_cons_of_mem _ hx)]
  refine evolve_core hp hrun hv hsch ?_ ?_ hord ?_ ?_
  · intro x hx
    obtain ⟨call, hm, hst⟩ := forall₂_left hops x hx
    exact ⟨call, (List.mem_filter.mp hm).1, hst⟩
  · intro call hm hc
    obtain ⟨x, hx, hst⟩ := forall₂_right hops call (List.mem_filter.mpr ⟨hm, by simp [hc]⟩)
    exact ⟨x, hx, hst⟩
  · intro k key
    rw [← hstrip]
    exact (findSome?_strip _ _ _ fun call => StCall.strip_assigned H sch call k key).symm
  · intro ty key
    rw [← hstrip, ← List.map_reverse]
    exact (findSome?_strip _ _ _ fun call => StCall.strip_globals H sch call ty key).symm

/-- **C80**, in any order. The same with the operations given in any order, any number of times, provided that the commitments are collision free
and that each operation was stored with one witness only (as `C26_order_fails` shows, otherwise what is stored itself depends on the order). -/
theorem C80_any_order_partial (H : Commit) (hH : H.Binding) (es : List StEvent) (hp : EventsProper es) (s : MemState) (hrun : runSt H {} es = some s)
    (c : Nat) (stored : ContractView) (hv : s.contractState c = .ok stored) (sch : SchemaGlobals)
    (hsch : ∀ sch' g, StCall.register sch' g ∈ accepted H {} es → g.contractId H = c → sch' = sch)
    (hone : ∀ a ∈ accepted H {} es, ∀ b ∈ accepted H {} es, a.contract H = c → b.contract H = c → a.op.id H = b.op.id H → a.witness? = b.witness?)
    (ops : List OrdOp) (h1 : ∀ x ∈ ops, ∃ call ∈ accepted H {} es, x.StoredBy H c call)
    (h2 : ∀ call ∈ accepted H {} es, call.contract H = c → ∃ x ∈ ops, x.StoredBy H c call)
    (hord : ∀ x ∈ ops, ∀ w ord, x.witnessOrd? = some (w, ord) → OMap.get? s.witnesses w = some ord) :
    ∃ evolved, (ContractView.init sch c).evolveAll H ops = some evolved ∧ evolved.SameReads stored := by
  have hmem : ∀ y, y ∈ ops.map (OrdOp.call sch c) ↔ y ∈ (aboutCalls H c es).map (StCall.strip sch) := by
    intro y
    simp only [List.mem_map, aboutCalls, List.mem_filter, decide_eq_true_eq]
    constructor
    · rintro ⟨x, hx, rfl⟩
      obtain ⟨call, hm, hst⟩ := h1 x hx
      exact ⟨call, ⟨hm, (hst.strip sch).2.1.symm⟩, (hst.strip sch).1⟩
    · rintro ⟨call, ⟨hm, hc⟩, rfl⟩
      obtain ⟨x, hx, hst⟩ := h2 call hm hc.symm
      exact ⟨x, hx, (hst.strip sch).1.symm⟩
  have hfrom : ∀ y ∈ ops.map (OrdOp.call sch c), ∃ call ∈ accepted H {} es, call.contract H = c ∧ call.op = y.op ∧ call.witness? = y.witness? := by
    intro y hy
    obtain ⟨call, hm, rfl⟩ := List.mem_map.mp ((hmem y).mp hy)
    obtain ⟨hm1, hm2⟩ := List.mem_filter.mp hm
    exact ⟨call, hm1, (of_decide_eq_true hm2).symm, by cases call <;> rfl, by cases call <;> rfl⟩
  refine evolve_core hp hrun hv hsch h1 h2 hord ?_ ?_
  · intro k key
    rw [findSome?_strip (aboutCalls H c es) _ _ fun call => StCall.strip_assigned H sch call k key]
    refine findSome?_congr hmem fun a ha b hb x y hx hy => assigned_agree hH (fun hid => ?_) hx hy
    obtain ⟨a', ma, ca, oa, wa⟩ := hfrom a ha
    obtain ⟨b', mb, cb, ob, wb⟩ := hfrom b hb
    rw [← wa, ← wb]
    exact hone a' ma b' mb ca cb (by rw [oa, ob]; exact hid)
  · intro ty key
    rw [findSome?_strip (aboutCalls H c es).reverse _ _ fun call => StCall.strip_globals H sch call ty key, List.map_reverse]
    exact findSome?_congr (by simpa using hmem) fun a _ b _ x y hx hy => globals_agree hH hx hy

/-! Data for the examples: `t1` and `t3` of the small world are stored between operations of another contract, which archive and restore a witness. -/

/-- The genesis of another contract (its id is 1 and more). -/
def exOther : Op := { kind := .genesis, nonce := 77 }

def exWa : WitnessId := ⟨.bitcoin, 61⟩
def exWb : WitnessId := ⟨.bitcoin, 62⟩

def exMixed : List StEvent :=
  [.call (.transition 0 World.t1 exWa .tentative), .call (.register (World.G ⟨0⟩) World.g), .call (.register ⟨3, []⟩ exOther),
    .call (.transition 0 World.t1 exWa .tentative), .update (fun _ => some (.mined 7 0)) 5, .call (.transition 0 World.t3 exWb .archived),
    .call (.transition 0 World.t3 exWb .tentative)]

/-- The calls which succeed; the first one doesn't. -/
def exMixedAccepted : List StCall :=
  [.register (World.G ⟨0⟩) World.g, .register ⟨3, []⟩ exOther, .transition 0 World.t1 exWa .tentative, .transition 0 World.t3 exWb .archived,
    .transition 0 World.t3 exWb .tentative]

theorem exMixed_proper : EventsProper exMixed := by
  intro c hc
  simp only [exMixed, List.mem_cons, StEvent.call.injEq, List.not_mem_nil, or_false, reduceCtorEq, false_or] at hc
  rcases hc with rfl | rfl | rfl | rfl | rfl | rfl <;> (simp only [StCall.Proper, Op.Proper, OMap.Sorted]; decide +kernel)

theorem exMixed_accepted : accepted World.H {} exMixed = exMixedAccepted := by decide +kernel

theorem exMixed_other : exOther.contractId World.H ≠ 0 := by decide +kernel

theorem exMixed_run : (runSt World.H {} exMixed).isSome = true := by decide +kernel

theorem exMixed_about : exMixedAccepted.filter (fun call => decide (0 = call.contract World.H)) =
    [.register (World.G ⟨0⟩) World.g, .transition 0 World.t1 exWa .tentative, .transition 0 World.t3 exWb .archived,
      .transition 0 World.t3 exWb .tentative] := by decide +kernel

/-- The hypotheses of `C80_validation_reads_partial` are met by a history with failures, another contract, a reorganisation and repetition; the contract
has state of both operations. -/
example : ∃ (s : MemState) (stored : ContractView) (ops : List OrdOp),
    EventsProper exMixed ∧ runSt World.H {} exMixed = some s ∧ s.contractState 0 = .ok stored ∧
    (∀ sch' g, StCall.register sch' g ∈ accepted World.H {} exMixed → g.contractId World.H = 0 → sch' = World.G ⟨0⟩) ∧
    List.Forall₂ (OrdOp.StoredBy World.H 0) ops ((accepted World.H {} exMixed).filter (fun call => decide (0 = call.contract World.H))) ∧
    (∀ x ∈ ops, ∀ w ord, x.witnessOrd? = some (w, ord) → OMap.get? s.witnesses w = some ord) ∧
    (stored.all .fungible).length = 4 := by
  obtain ⟨s, hs⟩ := Option.isSome_iff_exists.mp exMixed_run
  have hw : OMap.get? s.witnesses exWa = some (.mined 7 0) ∧ OMap.get? s.witnesses exWb = some .tentative := by
    have : (runSt World.H {} exMixed).any (fun s => decide (OMap.get? s.witnesses exWa = some (.mined 7 0) ∧
      OMap.get? s.witnesses exWb = some .tentative)) = true := by decide +kernel
    rw [hs] at this; simpa using this
  have hlen : (runSt World.H {} exMixed).any (fun s => (s.contractState 0).toOption.any (fun v => decide ((v.all .fungible).length = 4))) = true := by
    decide +kernel
  rw [hs, Option.any_some] at hlen
  cases hv : s.contractState 0 with
  | error e => rw [hv] at hlen; cases hlen
  | ok stored =>
    rw [hv] at hlen
    refine ⟨s, stored, [.genesis World.g, .transition World.t1 exWa (.mined 7 0), .transition World.t3 exWb .tentative,
      .transition World.t3 exWb .tentative], exMixed_proper, hs, hv, ?_, ?_, ?_, ?_⟩
    · rw [exMixed_accepted]
      intro sch' g hm hg
      simp only [exMixedAccepted, List.mem_cons, StCall.register.injEq, List.not_mem_nil, or_false, reduceCtorEq] at hm
      rcases hm with ⟨rfl, -⟩ | ⟨-, rfl⟩
      · rfl
      · exact absurd hg exMixed_other
    · rw [exMixed_accepted, exMixed_about]
      refine .cons ⟨rfl, by decide +kernel⟩ (.cons ⟨rfl, rfl, rfl⟩ (.cons ⟨rfl, rfl, rfl⟩ (.cons ⟨rfl, rfl, rfl⟩ .nil)))
    · intro x hx w ord hxo
      simp only [List.mem_cons, List.not_mem_nil, or_false] at hx
      rcases hx with rfl | rfl | rfl | rfl <;> simp only [OrdOp.witnessOrd?, reduceCtorEq, Option.some.injEq, Prod.mk.injEq] at hxo
      · obtain ⟨rfl, rfl⟩ := hxo; exact hw.1
      · obtain ⟨rfl, rfl⟩ := hxo; exact hw.2
      · obtain ⟨rfl, rfl⟩ := hxo; exact hw.2
    · simpa [Except.toOption] using hlen

/-- The additional hypotheses of `C80_any_order_partial` are met by it with the operations in the reverse order. -/
example : World.H.Binding ∧
    (∀ a ∈ accepted World.H {} exMixed, ∀ b ∈ accepted World.H {} exMixed, a.contract World.H = 0 → b.contract World.H = 0 →
      a.op.id World.H = b.op.id World.H → a.witness? = b.witness?) ∧
    (∀ x ∈ [OrdOp.transition World.t3 exWb .tentative, .transition World.t1 exWa (.mined 7 0), .genesis World.g],
      ∃ call ∈ accepted World.H {} exMixed, x.StoredBy World.H 0 call) ∧
    (∀ call ∈ accepted World.H {} exMixed, call.contract World.H = 0 →
      ∃ x ∈ [OrdOp.transition World.t3 exWb .tentative, .transition World.t1 exWa (.mined 7 0), .genesis World.g], x.StoredBy World.H 0 call) := by
  rw [exMixed_accepted]
  refine ⟨World.H_binding, by decide +kernel, ?_, ?_⟩
  · intro x hx
    simp only [List.mem_cons, List.not_mem_nil, or_false] at hx
    rcases hx with rfl | rfl | rfl
    · exact ⟨.transition 0 World.t3 exWb .tentative, by decide, rfl, rfl, rfl⟩
    · exact ⟨.transition 0 World.t1 exWa .tentative, by decide, rfl, rfl, rfl⟩
    · exact ⟨.register (World.G ⟨0⟩) World.g, by decide, rfl, by decide +kernel⟩
  · intro call hm hc
    simp only [exMixedAccepted, List.mem_cons, List.not_mem_nil, or_false] at hm
    rcases hm with rfl | rfl | rfl | rfl | rfl
    · exact ⟨.genesis World.g, by simp, rfl, hc⟩
    · exact absurd hc exMixed_other
    · exact ⟨.transition World.t1 exWa (.mined 7 0), by simp, rfl, rfl, rfl⟩
    · exact ⟨.transition World.t3 exWb .tentative, by simp, rfl, rfl, rfl⟩
    · exact ⟨.transition World.t3 exWb .tentative, by simp, rfl, rfl, rfl⟩

/-- **C80 is false for positions of witnesses**: the state used by validation answers the position of the witness of any operation, the stored one doesn't know
a witness whose operations have neither visible owned state nor global state. -/
theorem C80_witness_fails : ∃ (es : List StEvent) (s : MemState) (stored evolved : ContractView) (w : WitnessId),
    EventsProper es ∧ runSt World.H {} es = some s ∧ accepted World.H {} es = [.register (World.G ⟨0⟩) World.g, .transition 0 World.t2 w .tentative] ∧
    s.contractState 0 = .ok stored ∧
    (ContractView.init (World.G ⟨0⟩) 0).evolveAll World.H [.genesis World.g, .transition World.t2 w .tentative] = some evolved ∧
    evolved.witnessOrd w = some .tentative ∧ stored.witnessOrd w = none := by
  have h : (runSt World.H {} [.call (.register (World.G ⟨0⟩) World.g), .call (.transition 0 World.t2 exWb .tentative)]).any (fun s =>
      (s.contractState 0).toOption.any (fun v => decide (v.witnessOrd exWb = none))) = true := by decide +kernel
  have h' : ((ContractView.init (World.G ⟨0⟩) 0).evolveAll World.H [.genesis World.g, .transition World.t2 exWb .tentative]).any
      (fun v => decide (v.witnessOrd exWb = some .tentative)) = true := by decide +kernel
  obtain ⟨s, hs, h⟩ := (Option.any_eq_true _ _).mp h
  obtain ⟨stored, hst, h⟩ := (Option.any_eq_true _ _).mp h
  obtain ⟨evolved, hev, h'⟩ := (Option.any_eq_true _ _).mp h'
  refine ⟨_, s, stored, evolved, exWb, ?_, hs, by decide +kernel, ?_, hev, by simpa using h', by simpa using h⟩
  · intro c hc
    simp only [List.mem_cons, StEvent.call.injEq, List.not_mem_nil, or_false] at hc
    rcases hc with rfl | rfl <;> (simp only [StCall.Proper, Op.Proper, OMap.Sorted]; decide +kernel)
  · cases hv : s.contractState 0 with
    | error e => rw [hv] at hst; cases hst
    | ok v => rw [hv] at hst; cases hst; rfl

end Rgb.Props
