import Verif.Model.Contractum
import Verif.Spec.Info

/-! What it means that two interfaces declare the same, and what the texts printed by dependencies look like. -/

namespace Rgb.Contractum

/-- The counts which occurrences admit. -/
def Occurrences.Admits : Occurrences → Nat → Prop
  | .once, k => k = 1
  | .noneOrOnce, k => k ≤ 1
  | .noneOrMore, _ => True
  | .onceOrMore, k => 1 ≤ k
  | .noneOrUpTo n, k => k ≤ n
  | .onceOrUpTo n, k => 1 ≤ k ∧ k ≤ n
  | .exactly n, k => k = n
  | .range a b, k => a ≤ k ∧ k ≤ b

/-- Characters of identifiers. -/
def IdChar (c : Char) : Prop := c.isAlphanum = true ∨ c = '_'

/-- How names, ids and the rest are printed by dependencies. Nothing is said about the id of the interface itself but that it is in one line: what follows
from the text doesn't follow from the id being a hash. -/
structure Env.Lawful (N : Env) : Prop where
  name_inj : ∀ a b, N.name a = N.name b → a = b
  name_char : ∀ a, ∀ c ∈ N.name a, IdChar c
  name_ne : ∀ a, N.name a ≠ []
  version_inj : ∀ a b, N.version a = N.version b → a = b
  version_line : ∀ a, '\n' ∉ N.version a
  developer_inj : ∀ a b, N.developer a = N.developer b → a = b
  developer_line : ∀ a, '\n' ∉ N.developer a
  /-- there is one anonymous identity -/
  anonymous : ∀ a b, N.anonymous a = true → N.anonymous b = true → a = b
  ifaceId_line : ∀ x, '\n' ∉ N.ifaceId x
  refText_inj : ∀ a b, N.refText a = N.refText b → a = b
  refText_char : ∀ a, ',' ∉ N.refText a ∧ '\n' ∉ N.refText a
  refText_name : ∀ a n, N.refText a ≠ N.name n
  /-- a full name of a type has a dot, and it belongs to one type -/
  lookup_inj : ∀ a b t, N.lookup a = some t → N.lookup b = some t → a = b
  lookup_char : ∀ a t, N.lookup a = some t → '.' ∈ t ∧ ' ' ∉ t ∧ '\n' ∉ t
  semFull_inj : ∀ a b, N.semFull a = N.semFull b → a = b
  semFull_line : ∀ a, '\n' ∉ N.semFull a
  semShort_inj : ∀ a b, N.semShort a = N.semShort b → a = b
  semShort_line : ∀ a, '\n' ∉ N.semShort a

/-- The caller doesn't give the same name to two interfaces. -/
def Env.DistinctExternals (N : Env) : Prop := ∀ a b n, N.external a = some n → N.external b = some n → a = b

/-- The environment where every interface has the given id. A text printed in it is the text of the interface where its own id isn't looked at. -/
def Env.hideId (N : Env) (t : Text) : Env := { N with ifaceId := fun _ => t }

/-- Descriptions of errors have no line breaks. -/
def OneLineErrors (N : Env) (x : Iface) : Prop := ∀ e ∈ x.errors, '\n' ∉ N.descr e.2

/-- The default operation is one of the operations. -/
def DefaultDeclared (x : Iface) : Prop := ∀ n, x.defaultOperation = some n → n ∈ OMap.keys x.transitions ∨ n ∈ OMap.keys x.extensions

/-- Same arguments with the same counts. -/
def SameArgs (N : Env) : OMap Nat Occ → OMap Nat Occ → Prop :=
  Pointwise (fun e e' => e.1 = e'.1 ∧ ∀ k, (N.occ e.2).Admits k ↔ (N.occ e'.2).Admits k)

/-- What every operation declares is the same. -/
structure SameOp (N : Env) (s t : OpIface) : Prop where
  modifier : s.modifier = t.modifier
  errors : s.errors = t.errors
  metadata : s.metadata = t.metadata
  globals : SameArgs N s.globals t.globals
  valencies : s.valencies = t.valencies
  assignments : SameArgs N s.assignments t.assignments

/-- The declarations of two transitions are the same. -/
structure SameTransition (N : Env) (s t : OpIface) : Prop extends SameOp N s t where
  optional : s.optional = t.optional
  defaultAssignment : s.defaultAssignment = t.defaultAssignment
  inputs : SameArgs N s.inputs t.inputs

/-- The declarations of two extensions are the same. -/
structure SameExtension (N : Env) (s t : OpIface) : Prop extends SameOp N s t where
  optional : s.optional = t.optional
  defaultAssignment : s.defaultAssignment = t.defaultAssignment
  redeems : s.redeems = t.redeems

/-- Errors with the same names and descriptions. -/
def SameErrors (N : Env) : OMap Nat Nat → OMap Nat Nat → Prop := Pointwise (fun e e' => e.1 = e'.1 ∧ N.descr e.2 = N.descr e'.2)

/-- Two interfaces declare the same, but possibly for the default operation. -/
structure SameDeclarations (N : Env) (x y : Iface) : Prop where
  version : x.version = y.version
  developer : x.developer = y.developer
  timestamp : x.timestamp = y.timestamp
  name : x.name = y.name
  inherits : x.inherits = y.inherits
  metadata : x.metadata = y.metadata
  globalState : x.globalState = y.globalState
  assignments : x.assignments = y.assignments
  valencies : x.valencies = y.valencies
  errors : SameErrors N x.errors y.errors
  genesis : SameOp N x.genesis y.genesis
  transitions : Pointwise (fun e e' => e.1 = e'.1 ∧ SameTransition N e.2 e'.2) x.transitions y.transitions
  extensions : Pointwise (fun e e' => e.1 = e'.1 ∧ SameExtension N e.2 e'.2) x.extensions y.extensions

/-- The words which describe an operation: whether it is required, whether it is the default one, and its modifier. -/
structure Words (t : OpIface) (isDefault : Prop) (ws : List Text) : Prop where
  required : "required".toList ∈ ws ↔ t.optional = false
  default : "default".toList ∈ ws ↔ isDefault
  final : "final".toList ∈ ws ↔ t.modifier = .final
  abstract : "abstract".toList ∈ ws ↔ t.modifier = .abstract
  override : "override".toList ∈ ws ↔ t.modifier = .override

end Rgb.Contractum
