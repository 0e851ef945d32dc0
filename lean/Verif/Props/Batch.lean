import Verif.Lemmas.Batch
import Verif.Props.Blank

/-!
# C56: batches contain every transition once
-/

namespace Rgb.Props

open Rgb Rgb.Stock
open Rgb.PayWorld (ok_any)

/-- **C56.** Iterating a batch yields the transitions of the invoice and of each other contract, each once. -/
theorem C56_iterates (b : Batch) :
    b.toList.Perm (b.main.first :: b.main.second.toList ++ b.blanks.map (fun d => d.first) ++ b.blanks.filterMap (fun d => d.second)) := by
  have key : ∀ l : List (Dichotomy TransitionInfo),
      (l.flatMap Dichotomy.toList).Perm (l.map (fun d => d.first) ++ l.filterMap (fun d => d.second)) := by
    intro l
    induction l with
    | nil => exact .refl _
    | cons d l ih =>
      rw [List.flatMap_cons, List.map_cons, List.filterMap_cons]
      unfold Dichotomy.toList
      cases d.second with
      | none => exact ih.cons _
      | some y =>
        refine List.Perm.cons _ ?_
        exact (ih.cons y).trans List.perm_middle.symm
  unfold Batch.toList
  rw [List.flatMap_append, List.append_assoc]
  refine List.perm_append_comm.trans ((List.Perm.of_eq ?_).append (key _))
  rw [List.flatMap_cons, List.flatMap_nil, List.append_nil]
  unfold Dichotomy.toList
  cases b.main.second <;> rfl

/-- **C56.** A pair made from a list has exactly its elements; that is possible for one or two of them. -/
theorem C56_pairs {α : Type} (l : List α) : (∀ d, Dichotomy.ofList l = some d ↔ d.toList = l) ∧
    ((Dichotomy.ofList l).isSome ↔ l.length = 1 ∨ l.length = 2) := by
  match l with
  | [] =>
    refine ⟨fun d => ⟨fun h => by simp [Dichotomy.ofList] at h, fun h => ?_⟩, by simp [Dichotomy.ofList]⟩
    unfold Dichotomy.toList at h
    split at h <;> cases h
  | [a] =>
    refine ⟨fun ⟨x, y⟩ => ?_, by simp [Dichotomy.ofList]⟩
    cases y <;> simp [Dichotomy.ofList, Dichotomy.toList, eq_comm]
  | [a, b] =>
    refine ⟨fun ⟨x, y⟩ => ?_, by simp [Dichotomy.ofList]⟩
    cases y <;> simp [Dichotomy.ofList, Dichotomy.toList, eq_comm]
  | _ :: _ :: _ :: _ =>
    refine ⟨fun ⟨x, y⟩ => ?_, by simp [Dichotomy.ofList]⟩
    cases y <;> simp [Dichotomy.ofList, Dichotomy.toList]

theorem hasTapret_or (a b : CloseMethodSet) : (a.or b).hasTapretFirst = (a.hasTapretFirst || b.hasTapretFirst) := by
  cases a <;> cases b <;> rfl

theorem hasOpret_or (a b : CloseMethodSet) : (a.or b).hasOpretFirst = (a.hasOpretFirst || b.hasOpretFirst) := by
  cases a <;> cases b <;> rfl

theorem hasTapret_foldl {α : Type} (f : α → CloseMethod) (l : List α) (m : CloseMethodSet) :
    (l.foldl (fun m x => m.or (.ofMethod (f x))) m).hasTapretFirst = true ↔ m.hasTapretFirst = true ∨ ∃ x ∈ l, f x = .tapretFirst := by
  induction l generalizing m with
  | nil => simp
  | cons x l ih =>
    rw [List.foldl_cons, ih, hasTapret_or]
    have : (CloseMethodSet.ofMethod (f x)).hasTapretFirst = true ↔ f x = .tapretFirst := by cases f x <;> decide
    rw [Bool.or_eq_true, this]
    simp [or_assoc]

theorem hasOpret_foldl {α : Type} (f : α → CloseMethod) (l : List α) (m : CloseMethodSet) :
    (l.foldl (fun m x => m.or (.ofMethod (f x))) m).hasOpretFirst = true ↔ m.hasOpretFirst = true ∨ ∃ x ∈ l, f x = .opretFirst := by
  induction l generalizing m with
  | nil => simp
  | cons x l ih =>
    rw [List.foldl_cons, ih, hasOpret_or]
    have : (CloseMethodSet.ofMethod (f x)).hasOpretFirst = true ↔ f x = .opretFirst := by cases f x <;> decide
    rw [Bool.or_eq_true, this]
    simp [or_assoc]

/-- **C56.** The set of closing methods of a batch has exactly the methods of its transitions. -/
theorem C56_methods (b : Batch) :
    (b.closeMethodSet.hasTapretFirst = true ↔ ∃ i ∈ b.toList, i.method = .tapretFirst) ∧
    (b.closeMethodSet.hasOpretFirst = true ↔ ∃ i ∈ b.toList, i.method = .opretFirst) := by
  have hm : ∀ i, i ∈ b.toList ↔ i = b.main.first ∨ b.main.second = some i ∨ (∃ d ∈ b.blanks, d.first = i) ∨ ∃ d ∈ b.blanks, d.second = some i := by
    intro i
    rw [(C56_iterates b).mem_iff]
    simp [Option.mem_toList, or_assoc]
  have h1 : ∀ m, (CloseMethodSet.ofMethod m).hasTapretFirst = true ↔ m = .tapretFirst := by intro m; cases m <;> decide
  have h2 : ∀ m, (CloseMethodSet.ofMethod m).hasOpretFirst = true ↔ m = .opretFirst := by intro m; cases m <;> decide
  unfold Batch.closeMethodSet
  constructor
  · rw [hasTapret_foldl, hasTapret_foldl]
    simp only [hm]
    cases b.main.second with
    | none =>
      simp only [h1, List.mem_filterMap]
      constructor
      · rintro ((h | ⟨d, hd, h⟩) | ⟨i, ⟨d, hd, hi⟩, h⟩)
        · exact ⟨_, .inl rfl, h⟩
        · exact ⟨_, .inr (.inr (.inl ⟨d, hd, rfl⟩)), h⟩
        · exact ⟨_, .inr (.inr (.inr ⟨d, hd, hi⟩)), h⟩
      · rintro ⟨i, rfl | h | ⟨d, hd, rfl⟩ | ⟨d, hd, hi⟩, h3⟩
        · exact .inl (.inl h3)
        · cases h
        · exact .inl (.inr ⟨d, hd, h3⟩)
        · exact .inr ⟨i, ⟨d, hd, hi⟩, h3⟩
    | some j =>
      simp only [hasTapret_or, Bool.or_eq_true, h1, List.mem_filterMap]
      constructor
      · rintro (((h | h) | ⟨d, hd, h⟩) | ⟨i, ⟨d, hd, hi⟩, h⟩)
        · exact ⟨_, .inl rfl, h⟩
        · exact ⟨_, .inr (.inl rfl), h⟩
        · exact ⟨_, .inr (.inr (.inl ⟨d, hd, rfl⟩)), h⟩
        · exact ⟨_, .inr (.inr (.inr ⟨d, hd, hi⟩)), h⟩
      · rintro ⟨i, rfl | h | ⟨d, hd, rfl⟩ | ⟨d, hd, hi⟩, h3⟩
        · exact .inl (.inl (.inl h3))
        · cases h; exact .inl (.inl (.inr h3))
        · exact .inl (.inr ⟨d, hd, h3⟩)
        · exact .inr ⟨i, ⟨d, hd, hi⟩, h3⟩
  · rw [hasOpret_foldl, hasOpret_foldl]
    simp only [hm]
    cases b.main.second with
    | none =>
      simp only [h2, List.mem_filterMap]
      constructor
      · rintro ((h | ⟨d, hd, h⟩) | ⟨i, ⟨d, hd, hi⟩, h⟩)
        · exact ⟨_, .inl rfl, h⟩
        · exact ⟨_, .inr (.inr (.inl ⟨d, hd, rfl⟩)), h⟩
        · exact ⟨_, .inr (.inr (.inr ⟨d, hd, hi⟩)), h⟩
      · rintro ⟨i, rfl | h | ⟨d, hd, rfl⟩ | ⟨d, hd, hi⟩, h3⟩
        · exact .inl (.inl h3)
        · cases h
        · exact .inl (.inr ⟨d, hd, h3⟩)
        · exact .inr ⟨i, ⟨d, hd, hi⟩, h3⟩
    | some j =>
      simp only [hasOpret_or, Bool.or_eq_true, h2, List.mem_filterMap]
      constructor
      · rintro (((h | h) | ⟨d, hd, h⟩) | ⟨i, ⟨d, hd, hi⟩, h⟩)
        · exact ⟨_, .inl rfl, h⟩
        · exact ⟨_, .inr (.inl rfl), h⟩
        · exact ⟨_, .inr (.inr (.inl ⟨d, hd, rfl⟩)), h⟩
        · exact ⟨_, .inr (.inr (.inr ⟨d, hd, hi⟩)), h⟩
      · rintro ⟨i, rfl | h | ⟨d, hd, rfl⟩ | ⟨d, hd, hi⟩, h3⟩
        · exact .inl (.inl (.inl h3))
        · cases h; exact .inl (.inl (.inr h3))
        · exact .inl (.inr ⟨d, hd, h3⟩)
        · exact .inr ⟨i, ⟨d, hd, hi⟩, h3⟩

/-- **C56.** Setting the priority gives the nonce to each transition of the batch and changes nothing else, in particular not the ids. -/
theorem C56_priority (n : Nat) (b : Batch) :
    (b.setPriority n).toList =
      b.toList.map (fun i => { i with transition := { i.transition with op := { i.transition.op with nonce := n } } }) := by
  unfold Batch.toList Batch.setPriority
  simp only [List.flatMap_append, List.map_append, List.flatMap_map, List.map_flatMap, List.flatMap_cons, List.flatMap_nil, List.append_nil,
    toList_map]
  rfl

/-- **C56.** What is listed with a transition is its id, the outputs it was made with, and their method; making it needs outputs, all of one
method, with less than 2²⁴ − 1 different ones before the last. -/
theorem C56_info {H : Commit} {t : BuiltTransition} {outs : List OutSeal} {i : TransitionInfo} :
    TransitionInfo.new H t outs = .ok i ↔
      (i.transition = t ∧ i.id = t.op.id H ∧ (∀ p, p ∈ i.inputs ↔ ∃ s ∈ outs, s.outpoint = p) ∧ OSet.Sorted i.inputs) ∧
      outs ≠ [] ∧ (∀ s ∈ outs, s.method = i.method) ∧ (OSet.ofList (outs.map OutSeal.outpoint).dropLast).length < 16777215 := by
  rw [TransitionInfo.new_ok]
  have hs : OSet.Sorted (OSet.ofList (outs.map OutSeal.outpoint)) := OSet.Sorted.extend List.Pairwise.nil _
  have hmem : ∀ p, p ∈ OSet.ofList (outs.map OutSeal.outpoint) ↔ ∃ s ∈ outs, s.outpoint = p := by
    intro p; rw [OSet.mem_ofList]; simp
  constructor
  · rintro ⟨h1, h2, h3, h4⟩
    refine ⟨⟨by rw [h4], by rw [h4], ?_, by rw [h4]; exact hs⟩, h1, h3, h2⟩
    intro p; rw [h4]; exact hmem p
  · rintro ⟨⟨h1, h2, h3, h4⟩, h5, h6, h7⟩
    refine ⟨h5, h7, h6, ?_⟩
    have : i.inputs = OSet.ofList (outs.map OutSeal.outpoint) := OSet.Sorted.ext h4 hs (fun p => by rw [h3, hmem])
    cases i
    simp only at h1 h2 this
    rw [h1, h2, this]

/-- **C56**, ids: each transition of a composed batch has the requested priority as its nonce, and is listed with the id which it would have
with the greatest priority. -/
theorem C56_composed_ids {E : CEnv} {n : Nat} (hE : E.Lawful n) {W : Wallet} {k : Stock} {inv : Inv.Invoice} {prevs : List OutSeal} {b : Batch}
    (h : compose E W k inv prevs = .ok b) : ∀ i ∈ b.toList,
      i.transition.op.nonce = W.priority ∧ i.id = ({ i.transition.op with nonce := 18446744073709551615 } : Op).id E.H := by
  obtain ⟨l, hl, hi⟩ := compose_infos hE h
  intro i him
  rw [hl] at him
  obtain ⟨j, hj, rfl⟩ := List.mem_map.1 him
  obtain ⟨c, m, q, -, hinfo⟩ := hi j hj
  refine ⟨rfl, ?_⟩
  have h1 := (C56_info.1 hinfo.info).1.2.1
  have h2 := hinfo.nonce
  show j.id = _
  rw [h1]
  congr 1
  show j.transition.op = { j.transition.op with nonce := 18446744073709551615 }
  rw [← h2]

/-- **C56**, ids: with the greatest priority (which `compose` uses) each transition is listed with its id. Missing: other priorities, where no
transition is listed with its id (see `C56_ids_fails`). -/
theorem C56_ids_partial {E : CEnv} {n : Nat} (hE : E.Lawful n) {W : Wallet} {k : Stock} {inv : Inv.Invoice} {prevs : List OutSeal} {b : Batch}
    (h : compose E W k inv prevs = .ok b) (hp : W.priority = 18446744073709551615) : ∀ i ∈ b.toList, i.id = i.transition.op.id E.H := by
  intro i hi
  obtain ⟨h1, h2⟩ := C56_composed_ids hE h i hi
  rw [h2, ← hp, ← h1]

/-- **C56 is false for `compose_deterministic`** with any priority which isn't the greatest: no transition of the batch is listed with its
id. -/
theorem C56_ids_fails {E : CEnv} {n : Nat} (hE : E.Lawful n) (hb : E.H.Binding) {W : Wallet} {k : Stock} {inv : Inv.Invoice} {prevs : List OutSeal}
    {b : Batch} (h : compose E W k inv prevs = .ok b) (hp : W.priority ≠ 18446744073709551615) :
    ∀ i ∈ b.toList, i.id ≠ i.transition.op.id E.H := by
  intro i hi he
  obtain ⟨h1, h2⟩ := C56_composed_ids hE h i hi
  rw [h2] at he
  have := hb.op_inj _ _ he
  have h3 := congrArg Op.nonce this
  simp only [Op.conceal] at h3
  rw [h1] at h3
  exact hp h3.symm

/-- A composed batch with two payments and two blank transitions, and with another priority. -/
example : PayWorld.E.H.Binding ∧ PayWorld.E.Lawful 97 ∧ (∃ b, compose PayWorld.E PayWorld.W PayWorld.k (PayWorld.inv none (.amount 12)) PayWorld.prevs = .ok b ∧
      b.toList.length = 4 ∧ b.closeMethodSet = .both) ∧
    ∃ b, compose PayWorld.E { PayWorld.W with priority := 3 } PayWorld.k (PayWorld.inv none (.amount 12)) PayWorld.prevs = .ok b ∧
      b.toList.map (fun i => i.transition.op.nonce) = [3, 3, 3, 3] :=
  ⟨PayWorld.H_binding, PayWorld.E_lawful, ok_any (by decide +kernel), ok_any (by decide +kernel)⟩

/-- **C56**, outputs: with each transition of a composed batch the outputs are listed at which the state it spends is, and all of them are
closed with the listed method. -/
theorem C56_outputs {E : CEnv} {n : Nat} (hE : E.Lawful n) {W : Wallet} {k : Stock} {inv : Inv.Invoice} {prevs : List OutSeal} {b : Batch}
    (h : compose E W k inv prevs = .ok b) : ∀ i ∈ b.toList,
      ((k.stateAt i.transition.op.contract prevs).map (fun a => a.opout)).Nodup →
      (∀ p, p ∈ i.inputs ↔ ∃ a ∈ k.stateAt i.transition.op.contract prevs, a.opout ∈ i.transition.op.inputs ∧ a.sl.outpoint = p) ∧
      ∀ a ∈ k.stateAt i.transition.op.contract prevs, a.opout ∈ i.transition.op.inputs → a.sl.method = i.method := by
  obtain ⟨l, hl, hi⟩ := compose_infos hE h
  intro i him
  rw [hl] at him
  obtain ⟨j, hj, rfl⟩ := List.mem_map.1 him
  obtain ⟨c, m, q, hst, hinfo⟩ := hi j hj
  show ((k.stateAt j.transition.op.contract prevs).map (fun a => a.opout)).Nodup →
      (∀ p, p ∈ j.inputs ↔ ∃ a ∈ k.stateAt j.transition.op.contract prevs, a.opout ∈ j.transition.op.inputs ∧ a.sl.outpoint = p) ∧
      ∀ a ∈ k.stateAt j.transition.op.contract prevs, a.opout ∈ j.transition.op.inputs → a.sl.method = j.method
  rw [hinfo.contract]
  intro hn
  have hp := own_perm hE hst hn
  obtain ⟨⟨-, -, hin, -⟩, -, hmeth, -⟩ := C56_info.1 hinfo.info
  have hss := side_state (fun x => q x.1) hp hn hinfo.inputs
  have hsel : ∀ a ∈ k.stateAt c prevs, a.opout ∈ j.transition.op.inputs →
      a.sl ∈ ((E.ordOuts c m).map Prod.fst).filter q := by
    intro a ha ho
    have : a.item ∈ (visited E c (E.ordOuts c m)).filter (fun x => q x.1) := by
      rw [hss.mem_iff]
      exact List.mem_map_of_mem (List.mem_filter.2 ⟨ha, decide_eq_true ho⟩)
    obtain ⟨hv, hq⟩ := List.mem_filter.1 this
    refine List.mem_filter.2 ⟨?_, hq⟩
    obtain ⟨e, he, hx⟩ := List.mem_flatMap.1 hv
    obtain ⟨y, -, hy⟩ := List.mem_map.1 hx
    have : e.1 = a.sl := congrArg Prod.fst hy
    rw [← this]
    exact List.mem_map_of_mem he
  refine ⟨fun p => ?_, fun a ha ho => hmeth _ (hsel a ha ho)⟩
  rw [hin]
  constructor
  · rintro ⟨s, hs, rfl⟩
    obtain ⟨hs, hq⟩ := List.mem_filter.1 hs
    obtain ⟨e, he, rfl⟩ := List.mem_map.1 hs
    obtain ⟨v, hv, hwf, -⟩ := contractAssignmentsFor_ok hst
    have hg := hwf.sorted.get?_of_mem ((hE.outs c m).mem_iff.1 he)
    obtain ⟨y, hy⟩ := List.exists_mem_of_ne_nil _ (hwf.inner _ _ hg).2
    have hvis : (e.1, y.1, y.2) ∈ (visited E c (E.ordOuts c m)).filter (fun x => q x.1) := by
      refine List.mem_filter.2 ⟨?_, hq⟩
      exact List.mem_flatMap.2 ⟨e, he, List.mem_map.2 ⟨y, (hE.opouts c e.1 e.2).mem_iff.2 hy, rfl⟩⟩
    rw [hss.mem_iff] at hvis
    obtain ⟨a, ha, hae⟩ := List.mem_map.1 hvis
    obtain ⟨ha, ho⟩ := List.mem_filter.1 ha
    refine ⟨a, ha, of_decide_eq_true ho, ?_⟩
    have : a.sl = e.1 := congrArg Prod.fst hae
    rw [this]
  · rintro ⟨a, ha, ho, rfl⟩
    exact ⟨_, hsel a ha ho, rfl⟩

example : ∃ b, compose PayWorld.E PayWorld.W PayWorld.k (PayWorld.inv none (.amount 12)) PayWorld.prevs = .ok b ∧
    b.toList.map (fun i => (i.inputs.map (fun p => p.txid), i.method)) =
      [([51], .tapretFirst), ([50], .opretFirst), ([50], .opretFirst), ([51], .tapretFirst)] :=
  ok_any (by decide +kernel)

end Rgb.Props
