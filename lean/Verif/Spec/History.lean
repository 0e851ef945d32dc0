import Verif.Model.History

/-!
Vocabulary for C54 and C55: which allocations a filter selects, and which records a wallet history must have.
-/

namespace Rgb

/-- The filter selects the assignment: its outpoint is one of the listed, for the filters which list outpoints; everything is selected if there is
no filter. -/
def AFilter.Selects : AFilter → Outpoint → Option WitnessId → Prop
  | .all, _, _ => True
  | .exclude f, o, w => ¬ f.Selects o w
  | .absent, _, _ => True
  | .present f, o, w => f.Selects o w
  | .outpoint p, o, _ => o = p
  | .outpoints ps, o, _ => o ∈ ps
  | .keys m, o, _ => ∃ x, (o, x) ∈ m
  | .custom f, o, w => f o w = true

/-- The witness transaction and its position, as known to the contract state. -/
def ContractView.info? (v : ContractView) (w : WitnessId) : Option WitnessInfo :=
  (OMap.get? v.filter w).map (fun o => ⟨w, o⟩)

/-- Allocations which a record of a history is about. -/
structure HistGroup where
  direction : OpDirection
  witness : Option WitnessInfo
  allocs : List OutAssign
  deriving DecidableEq, Repr

/-- Allocations at outpoints of the wallet (`fo`) made by the witness `w`; by genesis for `none`. -/
def ownedBy (v : ContractView) (k : StateKind) (fo : AFilter) (w : Option WitnessId) : List OutAssign :=
  (v.all k).filter (fun a => decide (a.witness = w) && fo.includes a.sl.outpoint a.witness)

/-- Allocations made by the witness `w` of the wallet (`fw`) at outpoints of others. -/
def sentBy (v : ContractView) (k : StateKind) (fo fw : AFilter) (w : WitnessId) : List OutAssign :=
  (v.all k).filter (fun a => decide (a.witness = some w) && fw.includes a.sl.outpoint a.witness && !fo.includes a.sl.outpoint a.witness)

/-- The witness `w` is one of those the wallet has made. -/
def madeByWallet (v : ContractView) (k : StateKind) (fw : AFilter) (w : WitnessId) : Bool :=
  (v.all k).any (fun a => decide (a.witness = some w) && fw.includes a.sl.outpoint a.witness)

/-- What a witness means to the wallet: a payment to others if the wallet has made it, an incoming payment otherwise. -/
def witnessGroup (v : ContractView) (k : StateKind) (fo fw : AFilter) (w : WitnessId) : HistGroup :=
  if madeByWallet v k fw w then ⟨.sent, v.info? w, sentBy v k fo fw w⟩ else ⟨.received, v.info? w, ownedBy v k fo (some w)⟩

/-- The records of a history over the witnesses `ws`: issued to the wallet, then those of each witness; only those about some allocation. -/
def historyGroups (v : ContractView) (k : StateKind) (fo fw : AFilter) (ws : List WitnessId) : List HistGroup :=
  (⟨.issued, none, ownedBy v k fo none⟩ :: ws.map (witnessGroup v k fo fw)).filter (fun g => !g.allocs.isEmpty)

/-- Amount of fungible state. -/
def RState.amountOf : RState → Nat
  | .fungible v _ _ => v
  | _ => 0

/-- A record of fungible state: the amounts are added up, not exceeding `u64::MAX`. -/
def HistGroup.record (g : HistGroup) : ContractOp :=
  { direction := g.direction, witness := g.witness, ty := (g.allocs.head?.map (fun a => a.opout.ty)).getD 0,
    opids := OSet.ofList (g.allocs.map (fun a => a.opout.op)), to := OSet.ofList (g.allocs.map (fun a => a.sl)),
    state := .amount (min (g.allocs.map (fun a => a.state.amountOf)).sum (2 ^ 64 - 1)) }

/-- Records of other state: one for each allocation. -/
def HistGroup.records (g : HistGroup) : List ContractOp :=
  g.allocs.map (fun a =>
    { direction := g.direction, witness := g.witness, ty := a.opout.ty, opids := [a.opout.op], to := [a.sl], state := .of a.state })

/-- All the allocations are of one type. -/
def HistGroup.OneType (g : HistGroup) : Prop := ∀ a ∈ g.allocs, ∀ b ∈ g.allocs, a.opout.ty = b.opout.ty

/-- `ws` are the witnesses of everything the wallet owns or has made, in order. -/
def HistoryWitnesses (v : ContractView) (k : StateKind) (fo fw : AFilter) (ws : List WitnessId) : Prop :=
  OSet.Sorted ws ∧ ∀ w, w ∈ ws ↔ ∃ a ∈ v.all k, a.witness = some w ∧ (fo.Selects a.sl.outpoint a.witness ∨ fw.Selects a.sl.outpoint a.witness)

/-- Iteration orders of hash sets. -/
def HashOrder (ord : List Alloc → List Alloc) : Prop := ∀ l, (ord l).Perm l

end Rgb
