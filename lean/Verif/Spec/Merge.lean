import Verif.Model.Merge

/-!
Vocabulary for C12–C18: what is visible at each position of an operation, independent of merging code.
-/

namespace Rgb

/-- The assignment with number `i` of assignment type `ty`. -/
def Op.at? (o : Op) (ty i : Nat) : Option Assign := (OMap.get? o.assigns ty).bind (fun t => t.items[i]?)

/-- The seal disclosed by the operation at the position, if it is disclosed. -/
def Op.sealAt? (o : Op) (ty i : Nat) : Option Seal := (o.at? ty i).bind Assign.seal?

/-- The state disclosed by the operation at the position, if it is disclosed. -/
def Op.stateAt? (o : Op) (ty i : Nat) : Option RState := (o.at? ty i).bind Assign.state?

/-- The assignments are a valid `BTreeMap` value (keys in order); true of every value of the Rust type. -/
def Op.WF (o : Op) : Prop := OMap.Sorted o.assigns

/-- Merging a sequence of further disclosures into the first, from left to right. -/
def Op.mergeAll (H : Commit) : Op → List Op → Except MergeErr Op
  | a, [] => .ok a
  | a, b :: rest =>
    match a.merge H b with
    | .error e => .error e
    | .ok r => mergeAll H r rest

end Rgb

namespace Rgb

/-- What a well-formed bundle is: known transitions are stored under their ids, and each of them spends an
input of the bundle (checked by consensus validation; `ClientBundle::reveal_transition` keeps it). -/
structure Bundle.WF (H : Commit) (b : Bundle) : Prop where
  sorted : OMap.Sorted b.known
  keyed : ∀ k t, OMap.get? b.known k = some t → t.id H = k ∧ t.WF
  spent : ∀ k t, OMap.get? b.known k = some t → k ∈ OMap.vals b.inputMap

/-- `y` is `x` with exactly the disclosure allowed by `g`: the state data and the commitment are the same,
disclosed seals stay, and a hidden seal becomes visible iff `g` knows the seal for its secret. -/
def Assign.Disclosed (H : Commit) (g : Nat → Option Seal) (x y : Assign) : Prop :=
  y.state? = x.state? ∧ y.conceal H = x.conceal H ∧ y.seal? = x.seal?.or (g (x.secret H))

/-- The same for all positions of an operation; nothing but assignments may change, neither does the id. -/
def Op.Disclosed (H : Commit) (g : Nat → Option Seal) (o p : Op) : Prop :=
  p = { o with assigns := p.assigns } ∧ p.id H = o.id H ∧
  (∀ ty i, o.at? ty i = none → p.at? ty i = none) ∧
  (∀ ty i x, o.at? ty i = some x → ∃ y, p.at? ty i = some y ∧ Assign.Disclosed H g x y)

/-- The same for all known transitions of a bundle with its proofs; the bundle id and proofs don't change. -/
def ClientBundle.Disclosed (H : Commit) (g : Nat → Option Seal) (c d : ClientBundle) : Prop :=
  d.mpc = c.mpc ∧ d.dbc = c.dbc ∧ d.bundle.closeMethod = c.bundle.closeMethod ∧
  d.bundle.inputMap = c.bundle.inputMap ∧ d.bundle.id H = c.bundle.id H ∧
  (∀ k, OMap.get? c.bundle.known k = none → OMap.get? d.bundle.known k = none) ∧
  (∀ k o, OMap.get? c.bundle.known k = some o →
    ∃ p, OMap.get? d.bundle.known k = some p ∧ Op.Disclosed H g o p)

/-- Tapret and opret bundles of a witness bundle are of their own closing methods
(asserted by `ClientBundle::new`). -/
def WitnessBundle.WF (w : WitnessBundle) : Prop :=
  match w.anchored with
  | .tapret t => t.bundle.closeMethod = .tapretFirst
  | .opret o => o.bundle.closeMethod = .opretFirst
  | .double t o => t.bundle.closeMethod = .tapretFirst ∧ o.bundle.closeMethod = .opretFirst

/-- The seal which a resolver returns for a secret, if it returns one. -/
def resolved {ε : Type} (f : Nat → Except ε (Option Seal)) (secret : Nat) : Option Seal :=
  match f secret with
  | .ok o => o
  | .error _ => none

end Rgb
