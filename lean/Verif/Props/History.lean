import Verif.Lemmas.History
import Verif.Props.State

/-! # C54 (filters) and C55 (contract history) -/

namespace Rgb.Props
open Rgb ContractState

/-! Data for the examples: a wallet owning three outpoints, and the witness transaction 60. -/

def histGenesis : Op :=
  { kind := .genesis, contract := 0, nonce := 1,
    assigns := [(4, ⟨.fungible, [.revealed ⟨.bitcoin, .opretFirst, some 50, 1, 7⟩ (.fungible 10 0 0),
                                 .revealed ⟨.bitcoin, .opretFirst, some 51, 0, 7⟩ (.fungible 5 0 0)]⟩),
                (6, ⟨.structured, [.revealed ⟨.bitcoin, .opretFirst, some 50, 1, 7⟩ (.data 33 1)]⟩)] }

/-- Made by the wallet: 3 as a change, 4 and 2 to others, and 1 to a concealed seal. -/
def histPay : Op :=
  { kind := .transition, contract := 101, nonce := 2, inputs := [⟨101, 4, 0⟩],
    assigns := [(4, ⟨.fungible, [.revealed ⟨.bitcoin, .opretFirst, none, 2, 8⟩ (.fungible 3 0 0),
                                 .revealed ⟨.bitcoin, .opretFirst, none, 3, 8⟩ (.fungible 4 0 0),
                                 .revealed ⟨.bitcoin, .opretFirst, none, 4, 8⟩ (.fungible 2 0 0),
                                 .confidentialSeal 77 (.fungible 1 0 0)]⟩),
                (6, ⟨.structured, [.revealed ⟨.bitcoin, .opretFirst, none, 3, 8⟩ (.data 33 1),
                                   .revealed ⟨.bitcoin, .opretFirst, none, 4, 8⟩ (.data 34 1)]⟩)] }

/-- Made by somebody else: pays 6 to the wallet and 5 to others. -/
def histIn : Op :=
  { kind := .transition, contract := 101, nonce := 3, inputs := [⟨101, 4, 1⟩],
    assigns := [(4, ⟨.fungible, [.revealed ⟨.bitcoin, .opretFirst, some 70, 0, 9⟩ (.fungible 6 0 0),
                                 .revealed ⟨.bitcoin, .opretFirst, some 71, 0, 9⟩ (.fungible 5 0 0)]⟩)] }

def histEvents : List StEvent :=
  [.call (.register exSchema histGenesis), .call (.transition 101 histPay exW .tentative),
   .call (.transition 101 histIn exW2 (.mined 5 0))]

def histState : MemState := (runSt calcCommit {} histEvents).getD {}
def histView : ContractView := ⟨histState.witnesses, (OMap.get? histState.contracts 101).getD ⟨0, 0, [], [], [], [], []⟩⟩

/-- Outpoints of the wallet. -/
def histOurs : AFilter := .outpoints [⟨.bitcoin, 50, 1⟩, ⟨.bitcoin, 60, 2⟩, ⟨.bitcoin, 70, 0⟩]
/-- Witness transactions of the wallet. -/
def histWits : AFilter := .custom (fun _ w => decide (w = some exW))

theorem histEvents_proper : EventsProper histEvents := by
  intro c hc
  simp only [histEvents, List.mem_cons, StEvent.call.injEq, List.not_mem_nil, or_false] at hc
  rcases hc with rfl | rfl | rfl <;> (simp only [StCall.Proper, Op.Proper, OMap.Sorted]; decide +kernel)

theorem histState_run : runSt calcCommit {} histEvents = some histState := by decide +kernel
theorem histView_ok : histState.contractState 101 = .ok histView := by decide +kernel

/-! ### C54 -/

/-- **C54**: listing outpoints selects exactly the allocations at these outpoints, whatever their witness is, in all the forms of listing. -/
theorem C54_include (os : List Outpoint) (m : List (Outpoint × Nat)) (p o : Outpoint) (w : Option WitnessId) :
    ((AFilter.outpoints os).includes o w = true ↔ o ∈ os) ∧
    ((AFilter.keys m).includes o w = true ↔ o ∈ m.map Prod.fst) ∧
    ((AFilter.outpoint p).includes o w = true ↔ o = p) := by
  refine ⟨AFilter.includes_iff _ _ _, ?_, AFilter.includes_iff _ _ _⟩
  rw [AFilter.includes_iff]
  simp [AFilter.Selects, List.mem_map]

example : (AFilter.outpoints [⟨.bitcoin, 50, 1⟩]).includes ⟨.bitcoin, 50, 1⟩ none = true ∧
    (AFilter.outpoints [⟨.bitcoin, 50, 1⟩]).includes ⟨.liquid, 50, 1⟩ none = false := by decide

/-- **C54**: excluding selects exactly what the filter doesn't, so excluding twice is the filter again; an absent filter and the one
including all select everything, and a present one is the filter itself. -/
theorem C54_exclude (f : AFilter) (o : Outpoint) (w : Option WitnessId) :
    ((AFilter.exclude f).includes o w = true ↔ ¬ f.includes o w = true) ∧
    (AFilter.exclude (.exclude f)).includes o w = f.includes o w ∧
    AFilter.absent.includes o w = true ∧ AFilter.all.includes o w = true ∧ (AFilter.present f).includes o w = f.includes o w := by
  refine ⟨by simp [AFilter.includes], by simp [AFilter.includes], rfl, rfl, rfl⟩

/-- **C54**: reading a named state with a filter returns exactly the allocations of valid state of that type which the filter selects, each once and in the
order of the state; an unknown name is an error. -/
theorem C54_by_name (c : ContractIface) (k : StateKind) (name : Nat) (f : AFilter) :
    (typeByName c.impl.assignments name = none → c.byName k name f = .error name) ∧
    ∀ ty, typeByName c.impl.assignments name = some ty → ∃ as : List OutAssign, c.byName k name f = .ok (as.map Alloc.of) ∧
      as.Sublist (c.state.all k) ∧
      ∀ a ∈ c.state.all k, a ∈ as ↔ a.opout.ty = ty ∧ f.Selects a.sl.outpoint a.witness := by
  constructor
  · intro h; simp [ContractIface.byName, h]
  · intro ty h
    refine ⟨((c.state.all k).filter (fun a => decide (a.opout.ty = ty))).filter f.takes, by simp [ContractIface.byName, h],
      List.filter_sublist.trans List.filter_sublist, fun a ha => ?_⟩
    simp only [List.mem_filter, ha, true_and, decide_eq_true_eq, AFilter.takes, AFilter.includes_iff]

def histIface : ContractIface := ⟨histView, { schemaId := 9, ifaceId := 1, assignments := [⟨4, 40, 0⟩, ⟨6, 60, 0⟩] }⟩

example : typeByName histIface.impl.assignments 40 = some 4 ∧ (histIface.byName .fungible 40 histOurs).toOption.map List.length = some 3 ∧
    (histIface.byName .fungible 40 (.exclude histOurs)).toOption.map List.length = some 4 ∧
    histIface.byName .fungible 41 histOurs = .error 41 := by decide +kernel

/-- **C54**: all allocations of a contract read with a filter, and with its complement, are together everything there is; and they are exactly
those selected. -/
theorem C54_allocations (c : ContractIface) (f : AFilter) :
    (c.allocations f ++ c.allocations (.exclude f)).Perm (c.allocations .absent) ∧
    ∀ x : Alloc, x ∈ c.allocations f ↔ ∃ k a, a ∈ c.state.all k ∧ x = Alloc.of a ∧ f.Selects a.sl.outpoint a.witness := by
  constructor
  · have h : ∀ l : List OutAssign, ((l.filter f.takes).map Alloc.of ++ (l.filter (AFilter.exclude f).takes).map Alloc.of).Perm
        ((l.filter AFilter.absent.takes).map Alloc.of) := by
      intro l
      rw [← List.map_append]
      apply List.Perm.map
      have e : l.filter AFilter.absent.takes = l := List.filter_eq_self.mpr (fun a _ => rfl)
      rw [e]
      exact List.filter_append_perm f.takes l
    unfold ContractIface.allocations
    have hp := ((h (c.state.all .declarative)).append (h (c.state.all .fungible))).append
      ((h (c.state.all .structured)).append (h (c.state.all .attachment)))
    refine List.Perm.trans ?_ (hp.trans (List.Perm.of_eq (by simp only [List.append_assoc])))
    rw [List.perm_iff_count]
    intro x
    simp only [List.count_append]
    omega
  · intro x
    have h1 : ∀ k : StateKind, (x ∈ ((c.state.all k).filter f.takes).map Alloc.of) ↔
        ∃ a, a ∈ c.state.all k ∧ x = Alloc.of a ∧ f.Selects a.sl.outpoint a.witness := by
      intro k
      simp only [List.mem_map, List.mem_filter, AFilter.takes, AFilter.includes_iff]
      constructor
      · rintro ⟨a, ⟨ha, hs⟩, rfl⟩; exact ⟨a, ha, rfl, hs⟩
      · rintro ⟨a, ha, rfl, hs⟩; exact ⟨a, ⟨ha, hs⟩, rfl⟩
    unfold ContractIface.allocations
    simp only [List.mem_append, h1]
    constructor
    · rintro (((⟨a, h⟩ | ⟨a, h⟩) | ⟨a, h⟩) | ⟨a, h⟩)
      · exact ⟨_, a, h⟩
      · exact ⟨_, a, h⟩
      · exact ⟨_, a, h⟩
      · exact ⟨_, a, h⟩
    · rintro ⟨k, a, h⟩
      cases k
      · exact Or.inl (Or.inl (Or.inl ⟨a, h⟩))
      · exact Or.inl (Or.inl (Or.inr ⟨a, h⟩))
      · exact Or.inl (Or.inr ⟨a, h⟩)
      · exact Or.inr ⟨a, h⟩

example : (histIface.allocations histOurs).length = 4 ∧ (histIface.allocations (.exclude histOurs)).length = 6 ∧
    (histIface.outpointAllocations ⟨.bitcoin, 50, 1⟩).length = 2 := by decide +kernel

/-! ### C55 -/

/-- **C55** for rights, data and attachments. Whatever the history of the stock and the filters of the wallet are (no selected witness may be empty), the
records are exactly: issued ones, for the allocations of genesis at outpoints of the wallet; for each witness transaction the wallet has
made, sent ones for the allocations by it at outpoints of others; for each other witness, received ones for the allocations by it at outpoints of the wallet.
There is one record for each such allocation; issued ones come first, and witnesses follow in order. -/
theorem C55_items (H : Commit) (es : List StEvent) (hp : EventsProper es) (s : MemState) (hr : runSt H {} es = some s)
    (c : Nat) (v : ContractView) (hv : s.contractState c = .ok v) (k : StateKind) (hk : k ≠ .fungible) (fo fw : AFilter)
    (ord : List Alloc → List Alloc) (hord : HashOrder ord)
    (hw : ∀ a ∈ v.all k, fw.Selects a.sl.outpoint a.witness → a.witness ≠ none) :
    ∃ ws ops, HistoryWitnesses v k fo fw ws ∧ v.operations ord k fo fw = .ok ops ∧
      ops.Perm ((historyGroups v k fo fw ws).flatMap HistGroup.records) ∧
      ops.map (fun o => (o.direction, o.witness)) =
        (historyGroups v k fo fw ws).flatMap (fun g => g.allocs.map (fun _ => (g.direction, g.witness))) := by
  obtain ⟨ws, h1, h2⟩ := operations_eq ord (view_distinct hp hr hv k) fo fw
  have hf : k.isFungible = false := by cases k <;> first | rfl | exact absurd rfl hk
  have hall : ((v.all k).filter fw.takes).all (fun a => a.witness.isSome) = true := by
    rw [List.all_eq_true]
    intro a ha
    have ha' := List.mem_filter.mp ha
    have := hw a ha'.1 ((AFilter.includes_iff _ _ _).mp ha'.2)
    cases hx : a.witness with
    | none => exact absurd hx this
    | some w => rfl
  rw [if_pos hall, hf, concat_items ord hord] at h2
  refine ⟨ws, _, h1, h2, ?_, ?_⟩
  · unfold historyGroups
    generalize (⟨.issued, none, ownedBy v k fo none⟩ :: ws.map (witnessGroup v k fo fw)) = gs
    induction gs with
    | nil => exact List.Perm.refl _
    | cons g gs ih =>
      simp only [List.flatMap_cons, List.filter_cons]
      cases he : g.allocs.isEmpty with
      | true =>
        have := (hord []).eq_nil
        rw [List.isEmpty_iff.mp he]
        simp only [List.map_nil, this, List.nil_append, Bool.not_true, Bool.false_eq_true, if_false]
        exact ih
      | false =>
        simp only [Bool.not_false, if_true, List.flatMap_cons]
        refine List.Perm.append ?_ ih
        refine ((hord _).map _).trans ?_
        rw [List.map_map]
        exact List.Perm.refl _
  · unfold historyGroups
    generalize (⟨.issued, none, ownedBy v k fo none⟩ :: ws.map (witnessGroup v k fo fw)) = gs
    induction gs with
    | nil => rfl
    | cons g gs ih =>
      simp only [List.flatMap_cons, List.filter_cons, List.map_append]
      have hg : ((ord (g.allocs.map Alloc.of)).map (ContractOp.single g.direction g.witness)).map (fun o => (o.direction, o.witness)) =
          g.allocs.map (fun _ => (g.direction, g.witness)) := by
        rw [List.map_map]
        have hlen := (hord (g.allocs.map Alloc.of)).length_eq
        rw [List.length_map] at hlen
        simp only [Function.comp_def, ContractOp.single]
        rw [List.map_const', List.map_const', hlen]
      rw [hg, ih]
      cases he : g.allocs.isEmpty with
      | true => rw [List.isEmpty_iff.mp he]; simp
      | false => simp

example : ∃ ws ops, HistoryWitnesses histView .structured histOurs histWits ws ∧
    histView.operations (fun l => l) .structured histOurs histWits = .ok ops ∧ ops.map (fun o => (o.direction, o.state)) =
      [(.issued, .data 33), (.sent, .data 33), (.sent, .data 34)] := by
  obtain ⟨ws, ops, h1, h2, -⟩ := C55_items calcCommit histEvents histEvents_proper _ histState_run 101 histView histView_ok .structured
    (by simp) histOurs histWits (fun l => l) (fun _ => List.Perm.refl _) (fun a _ h hn => by
      simp only [histWits, AFilter.Selects, decide_eq_true_eq] at h
      rw [hn] at h; cases h)
  refine ⟨ws, ops, h1, h2, ?_⟩
  have h3 : ((histView.operations (fun l => l) .structured histOurs histWits).map
      (fun ops => ops.map (fun o => (o.direction, o.state)))) = .ok [(.issued, .data 33), (.sent, .data 33), (.sent, .data 34)] := by decide +kernel
  rw [h2] at h3
  simpa [Except.map] using h3

/-- **C55** for fungible state: the same as for the others, but allocations of each kind are in one record for genesis and for each
witness, with the amounts added up. Composing a history panics exactly if the filter of witnesses selects state having no witness, or one record would have
allocations of two types. What is missing from the property: see `C55_two_types_fails`, `C55_change_fails`, `C55_concealed_fails`. -/
theorem C55_fungible_partial (H : Commit) (es : List StEvent) (hp : EventsProper es) (s : MemState) (hr : runSt H {} es = some s)
    (c : Nat) (v : ContractView) (hv : s.contractState c = .ok v) (hf : ∀ a ∈ v.all .fungible, ∃ x b t, a.state = .fungible x b t)
    (fo fw : AFilter) (ord : List Alloc → List Alloc) (hord : HashOrder ord) :
    ∃ ws, HistoryWitnesses v .fungible fo fw ws ∧
      ((∃ a ∈ v.all .fungible, fw.Selects a.sl.outpoint a.witness ∧ a.witness = none) →
        v.operations ord .fungible fo fw = .error .noWitness) ∧
      ((∀ a ∈ v.all .fungible, fw.Selects a.sl.outpoint a.witness → a.witness ≠ none) →
        (¬ ∀ g ∈ historyGroups v .fungible fo fw ws, g.OneType) → v.operations ord .fungible fo fw = .error .mixedTypes) ∧
      ((∀ a ∈ v.all .fungible, fw.Selects a.sl.outpoint a.witness → a.witness ≠ none) →
        (∀ g ∈ historyGroups v .fungible fo fw ws, g.OneType) →
          v.operations ord .fungible fo fw = .ok ((historyGroups v .fungible fo fw ws).map HistGroup.record)) := by
  obtain ⟨ws, h1, h2⟩ := operations_eq ord (view_distinct hp hr hv .fungible) fo fw
  have hall : (∀ a ∈ v.all .fungible, fw.Selects a.sl.outpoint a.witness → a.witness ≠ none) →
      ((v.all .fungible).filter fw.takes).all (fun a => a.witness.isSome) = true := by
    intro hw
    rw [List.all_eq_true]
    intro a ha
    have ha' := List.mem_filter.mp ha
    have := hw a ha'.1 ((AFilter.includes_iff _ _ _).mp ha'.2)
    cases hx : a.witness with
    | none => exact absurd hx this
    | some w => rfl
  have hgs : ∀ g ∈ (⟨.issued, none, ownedBy v .fungible fo none⟩ :: ws.map (witnessGroup v .fungible fo fw) : List HistGroup),
      ∀ a ∈ g.allocs, a ∈ v.all .fungible := by
    intro g hg a ha
    rcases List.mem_cons.mp hg with rfl | hg
    · exact (List.mem_filter.mp ha).1
    · obtain ⟨w, _, rfl⟩ := List.mem_map.mp hg
      unfold witnessGroup at ha
      split at ha <;> exact (List.mem_filter.mp ha).1
  obtain ⟨t1, t2⟩ := concat_totals ord hord _ (fun g hg a ha => hf a (hgs g hg a ha))
  have hone : (∀ g ∈ (⟨.issued, none, ownedBy v .fungible fo none⟩ :: ws.map (witnessGroup v .fungible fo fw) : List HistGroup), g.OneType) ↔
      ∀ g ∈ historyGroups v .fungible fo fw ws, g.OneType := by
    unfold historyGroups
    constructor
    · intro h g hg; exact h g (List.mem_filter.mp hg).1
    · intro h g hg
      cases he : g.allocs.isEmpty with
      | true => intro a ha; rw [List.isEmpty_iff.mp he] at ha; cases ha
      | false => exact h g (List.mem_filter.mpr ⟨hg, by simp [he]⟩)
  refine ⟨ws, h1, ?_, ?_, ?_⟩
  · rintro ⟨a, ha, hs, hn⟩
    rw [h2, if_neg]
    intro h
    rw [List.all_eq_true] at h
    have := h a (List.mem_filter.mpr ⟨ha, (AFilter.includes_iff _ _ _).mpr hs⟩)
    rw [hn] at this; cases this
  · intro hw ho
    rw [h2, if_pos (hall hw)]
    exact t2 (fun h => ho (hone.mp h))
  · intro hw ho
    rw [h2, if_pos (hall hw)]
    exact t1 (hone.mpr ho)

/-- The history of the example: 10 issued (5 of others aren't in it), 6 sent with the witness 60, 6 received with the witness 61. -/
theorem hist_fungible : (histView.operations (fun l => l) .fungible histOurs histWits).map
    (fun ops => ops.map (fun o => (o.direction, o.state, o.witness.map (fun i => i.id)))) =
      .ok [(.issued, .amount 10, none), (.sent, .amount 6, some exW), (.received, .amount 6, some exW2)] := by decide +kernel

example : (∀ a ∈ histView.all .fungible, ∃ x b t, a.state = .fungible x b t) ∧
    (∀ a ∈ histView.all .fungible, histWits.Selects a.sl.outpoint a.witness → a.witness ≠ none) ∧
    ∀ g ∈ historyGroups histView .fungible histOurs histWits [exW, exW2], ∀ a ∈ g.allocs, ∀ b ∈ g.allocs, a.opout.ty = b.opout.ty := by
  refine ⟨?_, ?_, by decide +kernel⟩
  · have h : (histView.all .fungible).all (fun a => match a.state with | .fungible _ _ _ => true | _ => false) = true := by decide +kernel
    intro a ha
    have := List.all_eq_true.mp h a ha
    cases hs : a.state with
    | fungible x b t => exact ⟨x, b, t, rfl⟩
    | void => rw [hs] at this; cases this
    | data _ _ => rw [hs] at this; cases this
    | attach _ _ _ => rw [hs] at this; cases this
  · intro a _ h hn
    simp only [histWits, AFilter.Selects, decide_eq_true_eq] at h
    rw [hn] at h; cases h

theorem filter_map_single {α β : Type} [DecidableEq α] {l : List α} (hn : l.Nodup) (f : α → β) (p : β → Bool) (w : α)
    (h : ∀ x ∈ l, p (f x) = true → x = w) : (l.map f).filter p = if w ∈ l ∧ p (f w) = true then [f w] else [] := by
  induction l with
  | nil => simp
  | cons x l ih =>
    simp only [List.nodup_cons] at hn
    have ih' := ih hn.2 (fun y hy => h y (by simp [hy]))
    simp only [List.map_cons, List.filter_cons, ih']
    by_cases hp : p (f x) = true
    · have hx := h x (by simp) hp
      subst hx
      simp [hp, hn.1]
    · simp only [hp, Bool.false_eq_true, if_false, List.mem_cons]
      by_cases hx : w = x
      · subst hx; simp [hp, hn.1]
      · simp [hx]

/-- **C55**, which record an allocation is counted in. Allocations of genesis at the outpoints of the wallet are in the issued record and in no other; those at
outpoints of the wallet by a foreign witness are in the received record of the witness and in no other; those by a witness of the wallet at outpoints of others
are in the sent record of the witness and in no other. Changes (at outpoints of the wallet by a witness of the wallet) and state which is neither at an outpoint
of the wallet nor made by its witness are in no record. -/
theorem C55_once (v : ContractView) (k : StateKind) (fo fw : AFilter) (ws : List WitnessId) (hws : HistoryWitnesses v k fo fw ws)
    (a : OutAssign) (ha : a ∈ v.all k) :
    (a.witness = none → (historyGroups v k fo fw ws).filter (fun g => decide (a ∈ g.allocs)) =
      if fo.includes a.sl.outpoint a.witness then [⟨.issued, none, ownedBy v k fo none⟩] else []) ∧
    ∀ w, a.witness = some w → (historyGroups v k fo fw ws).filter (fun g => decide (a ∈ g.allocs)) =
      if madeByWallet v k fw w then
        (if fw.includes a.sl.outpoint a.witness && !fo.includes a.sl.outpoint a.witness then [⟨.sent, v.info? w, sentBy v k fo fw w⟩] else [])
      else if fo.includes a.sl.outpoint a.witness then [⟨.received, v.info? w, ownedBy v k fo (some w)⟩] else [] := by
  have hn : ws.Nodup := hws.1.imp (fun h => Key.lt_ne h)
  have hmem : ∀ w, a ∈ (witnessGroup v k fo fw w).allocs → a.witness = some w := by
    intro w h
    unfold witnessGroup at h
    split at h
    · have := (List.mem_filter.mp h).2
      simp only [Bool.and_eq_true, decide_eq_true_eq] at this
      exact this.1.1
    · have := (List.mem_filter.mp h).2
      simp only [Bool.and_eq_true, decide_eq_true_eq] at this
      exact this.1
  have hown : ∀ w, a ∈ ownedBy v k fo w ↔ a.witness = w ∧ fo.includes a.sl.outpoint a.witness = true := by
    intro w
    unfold ownedBy
    rw [List.mem_filter]
    simp only [ha, true_and, Bool.and_eq_true, decide_eq_true_eq]
  have hsent : ∀ w, a ∈ sentBy v k fo fw w ↔ a.witness = some w ∧ (fw.includes a.sl.outpoint a.witness &&
      !fo.includes a.sl.outpoint a.witness) = true := by
    intro w
    unfold sentBy
    rw [List.mem_filter]
    simp only [ha, true_and, Bool.and_eq_true, decide_eq_true_eq, and_assoc]
  have hfil : (historyGroups v k fo fw ws).filter (fun g => decide (a ∈ g.allocs)) =
      ((⟨.issued, none, ownedBy v k fo none⟩ :: ws.map (witnessGroup v k fo fw)) : List HistGroup).filter (fun g => decide (a ∈ g.allocs)) := by
    unfold historyGroups
    rw [List.filter_filter]
    apply List.filter_congr
    intro g _
    cases he : g.allocs.isEmpty with
    | true => rw [List.isEmpty_iff.mp he]; simp
    | false => simp
  constructor
  · intro hw
    rw [hfil, List.filter_cons]
    have hrest : (ws.map (witnessGroup v k fo fw)).filter (fun g => decide (a ∈ g.allocs)) = [] := by
      rw [List.filter_eq_nil_iff]
      intro g hg
      obtain ⟨w, _, rfl⟩ := List.mem_map.mp hg
      simp only [decide_eq_true_eq]
      intro h
      rw [hmem w h] at hw; cases hw
    rw [hrest]
    simp only [decide_eq_true_eq, hown, hw, true_and]
  · intro w hw
    rw [hfil, List.filter_cons]
    have h0 : ¬ a ∈ ownedBy v k fo none := by rw [hown, hw]; rintro ⟨h, _⟩; cases h
    simp only [h0, decide_false, Bool.false_eq_true, if_false]
    rw [filter_map_single hn _ _ w (fun x _ hx => by
      have := hmem x (of_decide_eq_true hx)
      rw [hw] at this
      exact (Option.some.inj this).symm)]
    have hin : (fo.includes a.sl.outpoint a.witness = true ∨ fw.includes a.sl.outpoint a.witness = true) → w ∈ ws := by
      intro h
      rw [hws.2 w]
      refine ⟨a, ha, hw, ?_⟩
      rw [← AFilter.includes_iff, ← AFilter.includes_iff]
      exact h
    unfold witnessGroup
    cases hm : madeByWallet v k fw w with
    | true =>
      simp only [if_true, decide_eq_true_eq, hsent, hw, true_and]
      rw [hw] at hin
      by_cases hc : (fw.includes a.sl.outpoint (some w) && !fo.includes a.sl.outpoint (some w)) = true
      · have : w ∈ ws := hin (Or.inr (by simp only [Bool.and_eq_true] at hc; exact hc.1))
        simp [this]
      · simp [hc]
    | false =>
      simp only [Bool.false_eq_true, if_false, decide_eq_true_eq, hown, hw, true_and]
      rw [hw] at hin
      by_cases hc : fo.includes a.sl.outpoint (some w) = true
      · have : w ∈ ws := hin (Or.inl hc)
        simp [this, hc]
      · simp [hc]

example : HistoryWitnesses histView .fungible histOurs histWits [exW, exW2] ∧ (histView.all .fungible).length = 7 := by
  refine ⟨⟨?_, ?_⟩, by decide +kernel⟩
  · simp only [OSet.Sorted]; decide +kernel
  · obtain ⟨ws, h1, -⟩ := C55_fungible_partial calcCommit histEvents histEvents_proper _ histState_run 101 histView histView_ok
      (by
        have h : (histView.all .fungible).all (fun a => match a.state with | .fungible _ _ _ => true | _ => false) = true := by decide +kernel
        intro a ha
        have := List.all_eq_true.mp h a ha
        cases hs : a.state with
        | fungible x b t => exact ⟨x, b, t, rfl⟩
        | void => rw [hs] at this; cases this
        | data _ _ => rw [hs] at this; cases this
        | attach _ _ _ => rw [hs] at this; cases this) histOurs histWits (fun l => l) (fun _ => List.Perm.refl _)
    have hsplit : ∀ w : WitnessId, (∃ a ∈ histView.all .fungible, a.witness = some w ∧ (histOurs.Selects a.sl.outpoint a.witness ∨
        histWits.Selects a.sl.outpoint a.witness)) ↔ some w ∈ ((histView.all .fungible).filter
          (fun a => histOurs.takes a || histWits.takes a)).map (fun a => a.witness) := by
      intro w
      simp only [List.mem_map, List.mem_filter, Bool.or_eq_true, AFilter.takes, AFilter.includes_iff]
      constructor
      · rintro ⟨a, h1, h2, h3⟩; exact ⟨a, ⟨h1, h3⟩, h2⟩
      · rintro ⟨a, ⟨h1, h3⟩, h2⟩; exact ⟨a, h1, h2, h3⟩
    have hval : ((histView.all .fungible).filter (fun a => histOurs.takes a || histWits.takes a)).map (fun a => a.witness) =
        [none, some exW, some exW, some exW, some exW2] := by decide +kernel
    intro w
    rw [hsplit, hval]
    simp

/-- **C55** for the whole history: it is the histories of fungible state, rights, data and attachments one after another. -/
theorem C55_history (ord : List Alloc → List Alloc) (v : ContractView) (fo fw : AFilter) (ops : List ContractOp) :
    v.history ord fo fw = .ok ops ↔ ∃ f r d a, v.operations ord .fungible fo fw = .ok f ∧ v.operations ord .declarative fo fw = .ok r ∧
      v.operations ord .structured fo fw = .ok d ∧ v.operations ord .attachment fo fw = .ok a ∧ ops = f ++ r ++ d ++ a := by
  unfold ContractView.history
  constructor
  · intro h
    split at h
    · cases h
    · rename_i f hf
      split at h
      · cases h
      · rename_i r hr
        split at h
        · cases h
        · rename_i d hd
          split at h
          · cases h
          · rename_i a ha
            exact ⟨f, r, d, a, hf, hr, hd, ha, (Except.ok.inj h).symm⟩
  · rintro ⟨f, r, d, a, hf, hr, hd, ha, rfl⟩
    simp only [hf, hr, hd, ha]

example : ∃ ops, histView.history (fun l => l) histOurs histWits = .ok ops ∧ ops.length = 6 := ⟨_, rfl, by decide +kernel⟩

/-- **C55 fails** for changes: an allocation at an outpoint of the wallet can be in no record at all. Here 3 at the outpoint 60:2. -/
theorem C55_change_fails : ∃ a ∈ histView.all .fungible, histOurs.Selects a.sl.outpoint a.witness ∧
    (histView.history (fun l => l) histOurs histWits).map (fun ops => ops.any (fun o => o.to.contains a.sl)) = .ok false := by
  refine ⟨⟨⟨102, 4, 0⟩, ⟨.bitcoin, .opretFirst, 60, 2⟩, .fungible 3 0 0, some exW⟩, by decide +kernel, ?_, by decide +kernel⟩
  rw [← AFilter.includes_iff]; decide

/-- **C55 fails** for payments to concealed seals: what is paid to them isn't in the history. The transition spends the 10 the wallet had, keeps 3,
and just 6 are reported as sent. -/
theorem C55_concealed_fails :
    histPay.inputs = [⟨101, 4, 0⟩] ∧
    (∃ a ∈ histView.all .fungible, a.opout = ⟨101, 4, 0⟩ ∧ a.state = .fungible 10 0 0) ∧
    ((ownedBy histView .fungible histOurs (some exW)).map (fun a => a.state.amountOf)).sum = 3 ∧
    (histView.operations (fun l => l) .fungible histOurs histWits).map
      (fun ops => (ops.filter (fun o => decide (o.direction = .sent))).map (fun o => o.state)) = .ok [.amount 6] := by
  refine ⟨rfl, ⟨⟨⟨101, 4, 0⟩, ⟨.bitcoin, .opretFirst, 50, 1⟩, .fungible 10 0 0, none⟩, by decide +kernel, rfl, rfl⟩, by decide +kernel,
    by decide +kernel⟩

/-- Moves fungible state of two types. -/
def histMixed : Op :=
  { kind := .transition, contract := 101, nonce := 2, inputs := [⟨101, 4, 0⟩],
    assigns := [(4, ⟨.fungible, [.revealed ⟨.bitcoin, .opretFirst, none, 2, 8⟩ (.fungible 10 0 0)]⟩),
                (5, ⟨.fungible, [.revealed ⟨.bitcoin, .opretFirst, none, 2, 8⟩ (.fungible 20 0 0)]⟩)] }

def histMixedEvents : List StEvent :=
  [.call (.register exSchema histGenesis), .call (.transition 101 histMixed exW .tentative)]

/-- **C55 fails** for contracts with two types of fungible state: if both are received with one witness (or both are issued to the wallet, or sent),
asking for the history panics. -/
theorem C55_two_types_fails : ∃ s v, EventsProper histMixedEvents ∧ runSt calcCommit {} histMixedEvents = some s ∧ s.contractState 101 = .ok v ∧
    v.history (fun l => l) histOurs (.outpoints []) = .error .mixedTypes := by
  refine ⟨(runSt calcCommit {} histMixedEvents).getD {}, ⟨[(exW, .tentative)], (OMap.get? ((runSt calcCommit {} histMixedEvents).getD {}).contracts 101).getD
    ⟨0, 0, [], [], [], [], []⟩⟩, ?_, by decide +kernel, by decide +kernel, by decide +kernel⟩
  intro c hc
  simp only [histMixedEvents, List.mem_cons, StEvent.call.injEq, List.not_mem_nil, or_false] at hc
  rcases hc with rfl | rfl <;> (simp only [StCall.Proper, Op.Proper, OMap.Sorted]; decide +kernel)

/-- **C55 fails** with filters which select state of genesis for the witnesses, such as the one including all: asking for the history panics. -/
theorem C55_include_all_fails : histView.history (fun l => l) histOurs .all = .error .noWitness := by decide +kernel

end Rgb.Props
