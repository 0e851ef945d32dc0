import Verif.Spec.Usable

/-!
Vocabulary for C96: what a history had for a contract.
-/

namespace Rgb

/-- The history had the operation for the contract, with this witness (none for a genesis): as the genesis or an extension of a consignment (the witness
of an extension is one of the consignment), or as a transition in a bundle of a consignment or a fascia. -/
inductive Had (H : Commit) (es : List StockEvent) : Nat → Op → Option WitnessId → Prop
  | genesis (con : Consignment) (r : Resolver) (he : .consignment con r ∈ es) : Had H es (con.data.genesis.contractId H) con.data.genesis none
  | extension (con : Consignment) (r : Resolver) (t : Op) (wb : WitnessBundle) (he : .consignment con r ∈ es) (ht : t ∈ con.data.extensions)
      (hw : wb ∈ con.data.bundles) : Had H es (con.data.genesis.contractId H) t (some wb.id)
  | transition (e : StockEvent) (c : Nat) (b : Bundle) (w : WitnessId) (t : Op) (he : e ∈ es) (hb : e.Brings H c b w)
      (ht : t ∈ OMap.vals b.known) : Had H es c t (some w)

/-- The assignment is made by the operation: its state is visible there; its seal is visible there or is a hidden one, of which the seal `sl` in the list `own` is
known; and the seal is at the output, of the witness transaction if it doesn't name one. -/
def Op.Allots (H : Commit) (own : List Seal) (t : Op) (w : Option WitnessId) (kind : StateKind) (a : OutAssign) : Prop :=
  a.opout.op = t.id H ∧ a.witness = w ∧ ∃ ta x sl, OMap.get? t.assigns a.opout.ty = some ta ∧ ta.kind = kind ∧ ta.items[a.opout.no]? = some x ∧
    x.state? = some a.state ∧ (x.seal? = some sl ∨ x.seal? = none ∧ x.secret H = H.sealHash sl ∧ sl ∈ own) ∧
    (match w with | none => sl.toOutput | some w => sl.toOutputWith w) = some a.sl

/-- The global state item is declared by the operation. -/
def Op.Declares (H : Commit) (t : Op) (w : Option WitnessId) (ty : Nat) (key : GlobalOut) (d : Nat) : Prop :=
  key.opid = t.id H ∧ key.nonce = t.nonce ∧ key.opWitness.witness? = w ∧ ∃ vals, OMap.get? t.globals ty = some vals ∧ vals[key.index]? = some d

/-- The secret seals made in a history. -/
def ownSeals (es : List StockEvent) : List Seal := es.filterMap (fun e => match e with | .secretSeal x => some x | _ => none)

/-- The genesis of the contract in a consignment of the history. -/
def GenesisOf (H : Commit) (es : List StockEvent) (c : Nat) (g : Op) : Prop :=
  ∃ con r, .consignment con r ∈ es ∧ con.data.genesis.contractId H = c ∧ con.data.genesis = g

/-- A transition in a bundle with the id in the history. -/
def TransitionIn (H : Commit) (es : List StockEvent) (i : Nat) (t : Op) : Prop :=
  ∃ e ∈ es, ∃ c b w, StockEvent.Brings H e c b w ∧ b.id H = i ∧ t ∈ OMap.vals b.known

/-- Each state which the operation shows is shown, at the same place, by one of the operations `Src` with the same id, and so is each seal, or else it is hidden there and is one of the seals `own`. -/
def Op.ShownIn (H : Commit) (own : List Seal) (Src : Op → Prop) (t : Op) : Prop :=
  (∀ ty i st, t.stateAt? ty i = some st → ∃ u, Src u ∧ u.id H = t.id H ∧ u.stateAt? ty i = some st) ∧
  ∀ ty i sl, t.sealAt? ty i = some sl → ∃ u x, Src u ∧ u.id H = t.id H ∧ u.at? ty i = some x ∧
    (x.seal? = some sl ∨ x.seal? = none ∧ x.secret H = H.sealHash sl ∧ sl ∈ own)

end Rgb
