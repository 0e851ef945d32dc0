import Verif.Model.State
import Verif.Spec.Merge

/-!
Vocabulary for C23–C28: histories of writes to the state, and what an operation tells about outputs and global state.
-/

namespace Rgb

/-- The operation is a valid value of its Rust type: assignments and globals are ordered maps. -/
def Op.Proper (o : Op) : Prop := OMap.Sorted o.assigns ∧ OMap.Sorted o.globals

/-- Operation `op`, seen with the witness `w`, makes the assignment `a` of state kind `k`, with the seal and the state visible. -/
def Op.Makes (H : Commit) (op : Op) (w : Option WitnessId) (k : StateKind) (a : OutAssign) : Prop :=
  a.opout.op = op.id H ∧ a.witness = w ∧ ∃ t sl, OMap.get? op.assigns a.opout.ty = some t ∧ t.kind = k ∧
    t.items[a.opout.no]? = some (.revealed sl a.state) ∧
    (match w with | none => sl.toOutput | some w => sl.toOutputWith w) = some a.sl

/-- An event in the life of the state. -/
inductive StEvent where
  | call (c : StCall)
  | update (r : Resolver) (after : Nat)

/-- State after the events; `none` if some of them panics. A failed call is followed by the next event. -/
def runSt (H : Commit) (s : MemState) : List StEvent → Option MemState
  | [] => some s
  | .call c :: rest =>
    match c.exec H s with
    | none => none
    | some (s', _) => runSt H s' rest
  | .update r after :: rest => runSt H (s.updateWitnesses r after).1 rest

/-- The calls of the history which succeed. -/
def accepted (H : Commit) (s : MemState) : List StEvent → List StCall
  | [] => []
  | .call c :: rest =>
    match c.exec H s with
    | none => []
    | some (s', none) => c :: accepted H s' rest
    | some (s', some _) => accepted H s' rest
  | .update r after :: rest => accepted H (s.updateWitnesses r after).1 rest

/-- Valid values of the Rust types: the maps are ordered, and the operation is a genesis, a transition or an extension. -/
def StCall.Proper : StCall → Prop
  | .register sch g => OMap.Sorted sch.maxItems ∧ g.Proper ∧ g.kind = .genesis
  | .transition _ op _ _ => op.Proper ∧ op.kind = .transition
  | .extension _ op _ _ => op.Proper ∧ op.kind = .extension

def EventsProper (es : List StEvent) : Prop := ∀ c, StEvent.call c ∈ es → c.Proper

/-- Contract of the call. -/
def StCall.contract (H : Commit) : StCall → Nat
  | .register _ g => g.contractId H
  | .transition c _ _ _ => c
  | .extension c _ _ _ => c

def StCall.op : StCall → Op
  | .register _ g => g
  | .transition _ op _ _ => op
  | .extension _ op _ _ => op

def StCall.isRegister : StCall → Bool
  | .register _ _ => true
  | _ => false

/-- The same call with another position of the witness. -/
def StCall.withOrd : StCall → WitnessOrd → StCall
  | .register sch g, _ => .register sch g
  | .transition c op w _, o => .transition c op w o
  | .extension c op w _, o => .extension c op w o

/-- Witness and its position given with the call. -/
def StCall.witnessOrd? : StCall → Option (WitnessId × WitnessOrd)
  | .register _ _ => none
  | .transition _ _ w o => some (w, o)
  | .extension _ _ w o => some (w, o)

def StCall.witness? (c : StCall) : Option WitnessId := c.witnessOrd?.map Prod.fst

def StCall.opWitness : StCall → OpWitness
  | .register _ _ => .genesis
  | .transition _ op w _ => .transition w op.ty
  | .extension _ op w _ => .extension w op.ty

/-- The witness transaction is known to the state and isn't archived; state without a witness is always valid. -/
def MemState.Valid (s : MemState) : Option WitnessId → Prop
  | none => True
  | some w => ∃ ord, OMap.get? s.witnesses w = some ord ∧ ord ≠ .archived

/-- Operation id within a position, for other than a genesis. -/
def GlobalOrd.opid? : GlobalOrd → Option Nat
  | .genesis _ => none
  | .transition o _ _ _ _ => some o
  | .extension o _ _ _ _ => some o

/-- `ord` is the position in the state `s` of the item `i` of the operation of the call; there is none if the witness is unknown. -/
def MemState.PositionOf (H : Commit) (s : MemState) (i : Nat) : StCall → GlobalOrd → Prop
  | .register _ _, p => p = .genesis i
  | .transition _ op w _, p => ∃ ord, OMap.get? s.witnesses w = some ord ∧ p = .transition (op.id H) i op.ty op.nonce ord
  | .extension _ op w _, p => ∃ ord, OMap.get? s.witnesses w = some ord ∧ p = .extension (op.id H) i op.ty op.nonce ord

/-- Any number of witness updates. -/
def reorgs (s : MemState) : List (Resolver × Nat) → MemState
  | [] => s
  | (r, after) :: rest => reorgs (s.updateWitnesses r after).1 rest

/-- The witness is known, and isn't mined or is mined at or above the height. -/
def MemState.Outdated (s : MemState) (after : Nat) (w : WitnessId) : Prop :=
  ∃ ord, OMap.get? s.witnesses w = some ord ∧ ∀ h rest, ord = .mined h rest → after ≤ h

end Rgb
