import Verif.Model.Indexed

/-!
# What a consignment contains

Vocabulary for the properties of consignment lookups, written without the indexes.
-/

namespace Rgb

/-- The consignment has an anchored bundle `a` under the witness bundle `w`. -/
structure Consignment.Holds (c : Consignment) (w : WitnessBundle) (a : ClientBundle) : Prop where
  witness : w ∈ c.data.bundles
  bundle : a ∈ w.anchored.list

/-- The consignment has the transition `op` in its list of known transitions for `opid`. -/
def Consignment.Knows (c : Consignment) (opid : Nat) (op : Op) : Prop :=
  ∃ (w : WitnessBundle) (a : ClientBundle), c.Holds w a ∧ (opid, op) ∈ a.bundle.known

/-- The consignment contains the operation. -/
inductive Consignment.HasOp (c : Consignment) (op : Op) : Prop
  | genesis (h : op = c.data.genesis)
  | extension (h : op ∈ c.data.extensions)
  | transition (opid : Nat) (h : c.Knows opid op)

/-- Known transitions are listed under their own ids, once each. The first is checked for nothing read from a file, see
`C58_miskeyed_fails`. -/
structure Consignment.Keyed (H : Commit) (c : Consignment) : Prop where
  own : ∀ (opid : Nat) (op : Op), c.Knows opid op → op.id H = opid
  sorted : ∀ (w : WitnessBundle) (a : ClientBundle), c.Holds w a → OMap.Sorted a.bundle.known

/-- Bundles with the same id disclose the same transitions. -/
def Consignment.SameDisclosure (H : Commit) (c : Consignment) : Prop :=
  ∀ (w w' : WitnessBundle) (a a' : ClientBundle), c.Holds w a → c.Holds w' a' → a.bundle.id H = a'.bundle.id H →
    OMap.keys a.bundle.known = OMap.keys a'.bundle.known

end Rgb
