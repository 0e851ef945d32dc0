import Verif.Spec.Container
import Verif.Spec.StockWorld
import Verif.Props.Indexed
import Verif.Spec.CalcCommit

/-!
# C68: validation of containers
-/

namespace Rgb

theorem warnTargets_eq (I : Ids) (D : CIds) (l : List (IfaceDoc × IimplDoc)) (s : VStatus) :
    warnTargets I D l s = { s with warnings := s.warnings ++
      (l.filter (fun e => decide (I.iface e.1 ≠ e.2.ifaceId))).map (fun e => .target (D.impl e.2) e.2.ifaceId (I.iface e.1)) } := by
  induction l generalizing s with
  | nil => simp [warnTargets]
  | cons e l ih =>
    obtain ⟨i, impl⟩ := e
    rw [warnTargets, ih]
    by_cases h : I.iface i = impl.ifaceId
    · simp [h]
    · simp [h, VStatus.warn]

theorem warnTerminals_eq (x : Indexed) (l : List Nat) (s : VStatus) :
    warnTerminals x l s = { s with warnings := s.warnings ++ (l.filter (fun b => decide (b ∉ x.bundleIds))).map .terminal } := by
  induction l generalizing s with
  | nil => simp [warnTerminals]
  | cons b l ih =>
    rw [warnTerminals, ih]
    by_cases h : b ∈ x.bundleIds
    · have : x.bundleIds.any (fun id => decide (id = b)) = true := by simpa using h
      simp [this, h]
    · have : x.bundleIds.any (fun id => decide (id = b)) = false := by
        simp only [List.any_eq_false, decide_eq_true_eq]; rintro y hy rfl; exact h hy
      simp [this, h, VStatus.warn]

theorem validate_eq (H : Commit) (I : Ids) (D : CIds) (V : Validator) (kind testnet : Bool) (c : ConsignmentFile) :
    ∃ s : VStatus, s = warnTerminals (Indexed.new H I c.body) (c.body.terminals.map Prod.fst) (warnTargets I D c.body.ifaces
      (if c.transfer ≠ kind then (coreStatus H I V testnet c).warn .kind else coreStatus H I V testnet c)) ∧
    c.validate H I D V kind testnet = if V.valid (coreStatus H I V testnet c) then .ok (s, c) else .error (s, c) := ⟨_, rfl, rfl⟩

end Rgb

namespace Rgb.Props
open Rgb

/-- A consignment is accepted exactly if the core validator says so, for lookups in this consignment under its schema and contract. It is returned
unchanged in both cases. -/
theorem C68_verdict (H : Commit) (I : Ids) (D : CIds) (V : Validator) (kind testnet : Bool) (c : ConsignmentFile) :
    ((∃ s : VStatus, c.validate H I D V kind testnet = .ok (s, c)) ↔ V.valid (coreStatus H I V testnet c) = true) ∧
    ((∃ s : VStatus, c.validate H I D V kind testnet = .error (s, c)) ↔ V.valid (coreStatus H I V testnet c) = false) := by
  obtain ⟨s, _, e⟩ := validate_eq H I D V kind testnet c
  rw [e]
  cases V.valid (coreStatus H I V testnet c) <;> simp

/-- The report keeps what the core validator reported, in its order, and adds exactly the warnings due: for a wrong kind, for an implementation listed
with another interface, for a terminal whose bundle isn't in the consignment. -/
theorem C68_report (H : Commit) (I : Ids) (D : CIds) (V : Validator) (kind testnet : Bool) (c : ConsignmentFile) (s : VStatus) (d : ConsignmentFile)
    (h : c.validate H I D V kind testnet = .ok (s, d) ∨ c.validate H I D V kind testnet = .error (s, d)) :
    d = c ∧ s.failures = (coreStatus H I V testnet c).failures ∧ s.info = (coreStatus H I V testnet c).info ∧
    ∃ added : List VWarning, s.warnings = (coreStatus H I V testnet c).warnings ++ added ∧ ∀ w : VWarning, w ∈ added ↔ c.Suspect H I D kind w := by
  have hs : d = c ∧ s = warnTerminals (Indexed.new H I c.body) (c.body.terminals.map Prod.fst) (warnTargets I D c.body.ifaces
      (if c.transfer ≠ kind then (coreStatus H I V testnet c).warn .kind else coreStatus H I V testnet c)) := by
    obtain ⟨t, rfl, e⟩ := validate_eq H I D V kind testnet c
    rw [e] at h
    cases hv : V.valid (coreStatus H I V testnet c) <;> simp only [hv, Bool.false_eq_true, if_false, if_true, reduceCtorEq, false_or, or_false,
      Except.ok.injEq, Except.error.injEq, Prod.mk.injEq] at h <;> exact ⟨h.2.symm, h.1.symm⟩
  obtain ⟨rfl, rfl⟩ := hs
  rw [warnTerminals_eq, warnTargets_eq]
  refine ⟨rfl, by split <;> rfl, by split <;> rfl, (if d.transfer ≠ kind then [.kind] else []) ++
    (d.body.ifaces.filter (fun e => decide (I.iface e.1 ≠ e.2.ifaceId))).map (fun e => .target (D.impl e.2) e.2.ifaceId (I.iface e.1)) ++
    ((d.body.terminals.map Prod.fst).filter (fun b => decide (b ∉ (Indexed.new H I d.body).bundleIds))).map .terminal, ?_, ?_⟩
  · split <;> simp [VStatus.warn]
  · intro w
    simp only [List.mem_append, List.mem_map, List.mem_filter, decide_eq_true_eq]
    constructor
    · rintro ((h | ⟨e, ⟨he, hne⟩, rfl⟩) | ⟨b, ⟨⟨t, ht, rfl⟩, hb⟩, rfl⟩)
      · split at h
        · rename_i hk; simp only [List.mem_singleton] at h; subst h; exact .kind hk
        · simp at h
      · exact .target e.1 e.2 he (Ne.symm hne)
      · exact .terminal t.1 t.2 ht (fun hh => hb ((C58_bundle H I d.body t.1).1.2 hh))
    · intro h
      cases h with
      | kind h => exact .inl (.inl (by simp [h]))
      | target i impl hm h => exact .inl (.inr ⟨(i, impl), ⟨hm, Ne.symm h⟩, rfl⟩)
      | terminal bid secret hm h => exact .inr ⟨bid, ⟨⟨(bid, secret), hm, rfl⟩, fun hh => h ((C58_bundle H I d.body bid).1.1 hh)⟩, rfl⟩

/-- Kits are always accepted, unchanged and with nothing reported: nothing of them is checked. -/
theorem C68_kit (k : KitFile) : k.validate = .ok ({}, k) := rfl

/-! ## Counterexamples and examples -/

/-- Everything is accepted by this validator, with a warning. -/
def easyValidator : Validator := ⟨fun _ _ _ _ => ⟨[], [.core 1], [2]⟩, fun s => s.failures.isEmpty⟩
/-- Nothing is accepted by this one. -/
def hardValidator : Validator := ⟨fun _ _ _ _ => ⟨[3], [], []⟩, fun s => s.failures.isEmpty⟩

/-- A transfer with an implementation under a wrong interface and a terminal out of nowhere. -/
def badCon : ConsignmentFile := ⟨2, true, { World.con with ifaces := [(⟨7, [], 0⟩, ⟨0, 3, 0⟩)], terminals := [(2, 5), (9, 6)] }⟩
def badIds : Ids := ⟨fun s => s.body, fun i => i.name, id, fun _ => 0⟩
def badCIds : CIds := ⟨fun i => i.body, fun s => s.body, List.length, fun _ => 0, fun _ => 0⟩

/-- What the warnings are about doesn't prevent acceptance, although a validator which counts warnings would refuse: a transfer is accepted as a
contract, an implementation under a wrong interface and a terminal out of nowhere are accepted. -/
theorem C68_accepted_fails : ¬ ∀ (H : Commit) (I : Ids) (D : CIds) (V : Validator) (kind testnet : Bool) (c d : ConsignmentFile) (s : VStatus),
    c.validate H I D V kind testnet = .ok (s, d) → V.valid s = true := by
  intro h
  have := h calcCommit badIds badCIds ⟨fun _ _ _ _ => {}, fun s => s.failures.isEmpty && s.warnings.isEmpty⟩ false false badCon badCon
    ⟨[], [.kind, .target 0 3 7, .terminal 2, .terminal 9], []⟩ (by decide +kernel)
  exact absurd this (by decide)

example : (∃ s : VStatus, badCon.validate calcCommit badIds badCIds easyValidator false true = .ok (s, badCon)) ∧
    (∃ s : VStatus, badCon.validate calcCommit badIds badCIds hardValidator false true = .error (s, badCon)) :=
  ⟨(C68_verdict _ _ _ _ _ _ _).1.2 rfl, (C68_verdict _ _ _ _ _ _ _).2.2 rfl⟩

/-- A consignment with a terminal of its own bundle: no warning for it. -/
noncomputable def goodCon : ConsignmentFile := ⟨2, true, { World.con with ifaces := [(⟨3, [], 0⟩, ⟨0, 3, 0⟩)], terminals := [(World.b1.id World.H, 5)] }⟩

example : ∃ s : VStatus, goodCon.validate World.H badIds badCIds easyValidator true true = .ok (s, goodCon) ∧ s.warnings = [.core 1] := by
  refine ⟨_, rfl, ?_⟩
  decide +kernel

end Rgb.Props
