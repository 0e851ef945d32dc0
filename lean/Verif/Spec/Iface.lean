import Verif.Model.Iface

/-!
# What interfaces promise

Vocabulary of the theorems on interfaces: which owned states an interface type allows, what it means that one interface keeps the
guarantees of another, and what makes an interface or its implementation faulty.
-/

namespace Rgb

/-- Actual types of owned state of a contract. -/
inductive OwnedKind where
  | rights
  | amount
  | attach
  | data (sem : Nat)
  deriving DecidableEq, Repr

/-- Which owned states an interface type allows. -/
def OwnedIface.Allows : OwnedIface → OwnedKind → Prop
  | .any, _ => True
  | .rights, k => k = .rights
  | .amount, k => k = .amount
  | .anyData, k => ∃ s, k = .data s
  | .anyAttach, k => k = .attach
  | .data s, k => k = .data s

/-- Each argument of the parent is present and at least as many of it are demanded. -/
def ArgsKept (child parent : OMap Nat Occ) : Prop :=
  ∀ (n : Nat) (o : Occ), OMap.get? parent n = some o → ∃ o', OMap.get? child n = some o' ∧ o.minValue ≤ o'.minValue

/-- An operation keeps the guarantees of that of a parent: all what is used in it is used, demanded items are demanded. -/
structure OpIface.Keeps (child parent : OpIface) : Prop where
  metadata : ∀ n ∈ parent.metadata, n ∈ child.metadata
  globals : ArgsKept child.globals parent.globals
  inputs : ArgsKept child.inputs parent.inputs
  assignments : ArgsKept child.assignments parent.assignments
  redeems : ∀ n ∈ parent.redeems, n ∈ child.redeems
  valencies : ∀ n ∈ parent.valencies, n ∈ child.valencies
  errors : ∀ n ∈ parent.errors, n ∈ child.errors
  default : ∀ n, parent.defaultAssignment = some n → child.defaultAssignment = some n

/-- An interface keeps the guarantees of a parent: each global, assignment, valency and error is present, what is required stays
required, what is public stays public, a type isn't relaxed. -/
structure Iface.Keeps (child parent : Iface) : Prop where
  globals : ∀ (n : Nat) (g : GlobalIface), OMap.get? parent.globalState n = some g →
    ∃ g', OMap.get? child.globalState n = some g' ∧ (g.required = true → g'.required = true) ∧
      (∀ s, g.semId = some s → g'.semId = some s)
  assignments : ∀ (n : Nat) (a : AssignIface), OMap.get? parent.assignments n = some a →
    ∃ a', OMap.get? child.assignments n = some a' ∧ (a.required = true → a'.required = true) ∧ (a.pub = true → a'.pub = true) ∧
      (∀ k, a'.ownedState.Allows k → a.ownedState.Allows k)
  valencies : ∀ (n : Nat) (r : Bool), OMap.get? parent.valencies n = some r →
    ∃ r', OMap.get? child.valencies n = some r' ∧ (r = true → r' = true)
  errors : ∀ n ∈ OMap.keys parent.errors, n ∈ OMap.keys child.errors
  metadata : ∀ n ∈ OMap.keys parent.metadata, n ∈ OMap.keys child.metadata
  genesis : child.genesis.Keeps parent.genesis
  default : ∀ n, parent.defaultOperation = some n → child.defaultOperation = some n

/-- The maps and sets of an operation have no repeated keys, as is always the case for `BTreeMap`. -/
structure OpIface.WF (o : OpIface) : Prop where
  globals : OMap.Sorted o.globals
  inputs : OMap.Sorted o.inputs
  assignments : OMap.Sorted o.assignments

structure Iface.WF (i : Iface) : Prop where
  globals : OMap.Sorted i.globalState
  assignments : OMap.Sorted i.assignments
  valencies : OMap.Sorted i.valencies
  genesis : i.genesis.WF
  transitions : OMap.Sorted i.transitions
  extensions : OMap.Sorted i.extensions
  transitionOps : ∀ e ∈ i.transitions, e.2.WF
  extensionOps : ∀ e ∈ i.extensions, e.2.WF

instance {ν : Type} (m : OMap Nat ν) : Decidable (OMap.Sorted m) := by unfold OMap.Sorted; infer_instance

instance (o : OpIface) : Decidable o.WF :=
  decidable_of_iff (OMap.Sorted o.globals ∧ OMap.Sorted o.inputs ∧ OMap.Sorted o.assignments)
    ⟨fun h => ⟨h.1, h.2.1, h.2.2⟩, fun h => ⟨h.1, h.2, h.3⟩⟩

theorem Iface.wf_of {i : Iface} (h : OMap.Sorted i.globalState ∧ OMap.Sorted i.assignments ∧ OMap.Sorted i.valencies ∧ i.genesis.WF ∧
    OMap.Sorted i.transitions ∧ OMap.Sorted i.extensions ∧ (∀ e ∈ i.transitions, e.2.WF) ∧ ∀ e ∈ i.extensions, e.2.WF) : i.WF :=
  ⟨h.1, h.2.1, h.2.2.1, h.2.2.2.1, h.2.2.2.2.1, h.2.2.2.2.2.1, h.2.2.2.2.2.2.1, h.2.2.2.2.2.2.2⟩

instance {ε α : Type} [DecidableEq ε] [DecidableEq α] : DecidableEq (Except ε α)
  | .ok a, .ok b => decidable_of_iff (a = b) ⟨fun h => h ▸ rfl, fun h => by injection h⟩
  | .error a, .error b => decidable_of_iff (a = b) ⟨fun h => h ▸ rfl, fun h => by injection h⟩
  | .ok _, .error _ => isFalse (by simp)
  | .error _, .ok _ => isFalse (by simp)

/-- `c` is derived from `p`: `p`, or something derived from it, took part in an extension which gave `c`, on either side of it. -/
inductive Iface.Derived (hid : Iface → Nat) : Iface → Iface → Prop where
  | base {p e c : Iface} {name : Nat} : p.WF → e.WF → Iface.extended hid p e name = .ok c → Derived hid c p
  | ext {p e c : Iface} {name : Nat} : p.WF → e.WF → Iface.extended hid e p name = .ok c → Derived hid c p
  | baseTrans {q p e c : Iface} {name : Nat} : Derived hid q p → e.WF → Iface.extended hid q e name = .ok c → Derived hid c p
  | extTrans {q p e c : Iface} {name : Nat} : Derived hid q p → e.WF → Iface.extended hid e q name = .ok c → Derived hid c p

/-- `c` is made out of `p` by any number of extensions of it with other interfaces. -/
inductive Iface.Extends (hid : Iface → Nat) (p : Iface) : Iface → Prop where
  | self : Extends hid p p
  | step {q e c : Iface} {name : Nat} : Extends hid p q → Iface.extended hid q e name = .ok c → Extends hid p c

/-- An operation may be overridden by another one: it isn't final, the other is not abstract and demands at least as much. -/
structure OpIface.Overridable (a b : OpIface) : Prop where
  notFinal : a.modifier ≠ .final
  notAbstract : b.modifier ≠ .abstract
  globals : ∀ (n : Nat) (x y : Occ), OMap.get? a.globals n = some x → OMap.get? b.globals n = some y → x.minValue ≤ y.minValue
  inputs : ∀ (n : Nat) (x y : Occ), OMap.get? a.inputs n = some x → OMap.get? b.inputs n = some y → x.minValue ≤ y.minValue
  assignments : ∀ (n : Nat) (x y : Occ), OMap.get? a.assignments n = some x → OMap.get? b.assignments n = some y → x.minValue ≤ y.minValue
  default : ∀ n m, a.defaultAssignment = some n → b.defaultAssignment = some m → n = m

/-- An interface is compatible with another one which extends it. -/
structure Iface.Compatible (a b : Iface) : Prop where
  globals : ∀ (n : Nat) (x y : GlobalIface), OMap.get? a.globalState n = some x → OMap.get? b.globalState n = some y →
    (∀ s, x.semId = some s → y.semId = some s) ∧ (x.required = true → y.required = true)
  assignments : ∀ (n : Nat) (x y : AssignIface), OMap.get? a.assignments n = some x → OMap.get? b.assignments n = some y →
    (∀ k, y.ownedState.Allows k → x.ownedState.Allows k) ∧ (x.required = true → y.required = true) ∧ (x.pub = true → y.pub = true)
  valencies : ∀ n : Nat, OMap.get? a.valencies n = some true → OMap.get? b.valencies n ≠ some false
  genesis : a.genesis.Overridable b.genesis
  transitions : ∀ (n : Nat) (x y : OpIface), OMap.get? a.transitions n = some x → OMap.get? b.transitions n = some y → x.Overridable y
  extensions : ∀ (n : Nat) (x y : OpIface), OMap.get? a.extensions n = some x → OMap.get? b.extensions n = some y → x.Overridable y
  default : ∀ n m, a.defaultOperation = some n → b.defaultOperation = some m → n = m

/-- The entries of both operations fit the collections, which hold up to 255. -/
structure OpIface.Fit (a b : OpIface) : Prop where
  metadata : a.metadata.length + b.metadata.length ≤ tinyMax
  globals : a.globals.length + b.globals.length ≤ tinyMax
  inputs : a.inputs.length + b.inputs.length ≤ tinyMax
  assignments : a.assignments.length + b.assignments.length ≤ tinyMax
  redeems : a.redeems.length + b.redeems.length ≤ tinyMax
  valencies : a.valencies.length + b.valencies.length ≤ tinyMax
  errors : a.errors.length + b.errors.length ≤ tinyMax

structure Iface.Fit (a b : Iface) : Prop where
  metadata : a.metadata.length + b.metadata.length ≤ tinyMax
  globals : a.globalState.length + b.globalState.length ≤ tinyMax
  assignments : a.assignments.length + b.assignments.length ≤ tinyMax
  valencies : a.valencies.length + b.valencies.length ≤ tinyMax
  errors : a.errors.length + b.errors.length ≤ tinyMax
  transitions : a.transitions.length + b.transitions.length ≤ tinyMax
  extensions : a.extensions.length + b.extensions.length ≤ tinyMax
  genesis : a.genesis.Fit b.genesis
  transitionOps : ∀ (n : Nat) (x y : OpIface), OMap.get? a.transitions n = some x → OMap.get? b.transitions n = some y → x.Fit y
  extensionOps : ∀ (n : Nat) (x y : OpIface), OMap.get? a.extensions n = some x → OMap.get? b.extensions n = some y → x.Fit y
  inherits : a.inherits.length + b.inherits.length + 2 ≤ tinyMax

/-- The operation of an interface with this name. -/
def Iface.HasOp (i : Iface) : OpName → OpIface → Prop
  | .genesis, t => t = i.genesis
  | .transition n, t => OMap.get? i.transitions n = some t
  | .extension n, t => OMap.get? i.extensions n = some t

/-- The global state `n` is declared as a single item. -/
def Iface.UniqueGlobal (i : Iface) (n : Nat) : Prop := ∃ g, OMap.get? i.globalState n = some g ∧ g.multiple = false

/-- The assignment `n` is declared as a single one. -/
def Iface.UniqueAssign (i : Iface) (n : Nat) : Prop := ∃ a, OMap.get? i.assignments n = some a ∧ a.multiple = false

/-- When an interface has the given fault. -/
def Iface.Faulty (i : Iface) (validTs : Int → Bool) (now : Int) : IfaceErr → Prop
  | .invalidTimestamp t => t = i.timestamp ∧ validTs t = false
  | .futureTimestamp t => t = i.timestamp ∧ validTs t = true ∧ now < t
  | .unknownGlobal op n => ∃ t, i.HasOp op t ∧ n ∈ OMap.keys t.globals ∧ n ∉ OMap.keys i.globalState
  | .unknownAssignment op n => ∃ t, i.HasOp op t ∧ n ∈ OMap.keys t.assignments ∧ n ∉ OMap.keys i.assignments
  | .unknownValency op n => ∃ t, i.HasOp op t ∧ n ∈ t.valencies ∧ n ∉ OMap.keys i.valencies
  | .unknownError op n => ∃ t, i.HasOp op t ∧ n ∈ t.errors ∧ n ∉ OMap.keys i.errors
  | .unknownMetadata op n => ∃ t, i.HasOp op t ∧ n ∈ t.metadata ∧ n ∉ OMap.keys i.metadata
  | .unknownInput op n => ∃ nm t, op = .transition nm ∧ i.HasOp op t ∧ n ∈ OMap.keys t.inputs ∧ n ∉ OMap.keys i.assignments
  | .unknownRedeem op n => ∃ nm t, op = .extension nm ∧ i.HasOp op t ∧ n ∈ t.redeems ∧ n ∉ OMap.keys i.valencies
  | .unknownDefaultAssignment op n =>
    op ≠ .genesis ∧ ∃ t, i.HasOp op t ∧ t.defaultAssignment = some n ∧ n ∉ OMap.keys t.assignments
  | .unknownDefaultOp n => i.defaultOperation = some n ∧ n ∉ OMap.keys i.transitions ∧ n ∉ OMap.keys i.extensions
  | .multipleGlobal op n =>
    ∃ t o, i.HasOp op t ∧ OMap.get? t.globals n = some o ∧ 1 < o.minValue ∧ i.UniqueGlobal n
  | .multipleAssignment op n =>
    ∃ t o, i.HasOp op t ∧ OMap.get? t.assignments n = some o ∧ 1 < o.minValue ∧ i.UniqueAssign n
  | .multipleInputs op n =>
    ∃ nm t o, op = .transition nm ∧ i.HasOp op t ∧ OMap.get? t.inputs n = some o ∧ 1 < o.minValue ∧ i.UniqueAssign n
  | .repeatedOperationName n => n ∈ OMap.keys i.transitions ∧ n ∈ OMap.keys i.extensions
  | .requiredGlobalAbsent n =>
    ∃ g, OMap.get? i.globalState n = some g ∧ g.required = true ∧ n ∉ OMap.keys i.genesis.globals
  | .requiredAssignmentAbsent n =>
    ∃ a, OMap.get? i.assignments n = some a ∧ a.required = true ∧ n ∉ OMap.keys i.genesis.assignments
  | .requiredValencyAbsent n => OMap.get? i.valencies n = some true ∧ n ∉ i.genesis.valencies

/-- All what an operation of a schema uses is used, in the same way, in that of the parent. -/
structure OpSchema.Within (x root : OpSchema) : Prop where
  globals : ∀ (n : Nat) (o : Occ), OMap.get? x.globals n = some o → OMap.get? root.globals n = some o
  inputs : ∀ m, x.inputs = some m → ∀ (n : Nat) (o : Occ), OMap.get? m n = some o → OMap.get? (root.inputs.getD []) n = some o
  assignments : ∀ (n : Nat) (o : Occ), OMap.get? x.assignments n = some o → OMap.get? root.assignments n = some o
  redeems : ∀ s, x.redeems = some s → ∀ n ∈ s, n ∈ root.redeems.getD []
  valencies : ∀ n ∈ x.valencies, n ∈ root.valencies

/-- Each type of the schema has the same definition in the parent, each operation is within that of the parent. -/
structure Schema.Within (x root : Schema) : Prop where
  globals : ∀ (n : Nat) (v : Nat × Nat), OMap.get? x.globalTypes n = some v → OMap.get? root.globalTypes n = some v
  owned : ∀ (n : Nat) (v : OwnedSchema), OMap.get? x.ownedTypes n = some v → OMap.get? root.ownedTypes n = some v
  valencies : ∀ n ∈ x.valencyTypes, n ∈ root.valencyTypes
  genesis : x.genesis.Within root.genesis
  transitions : ∀ (n : Nat) (t : OpSchema), OMap.get? x.transitions n = some t →
    ∃ t', OMap.get? root.transitions n = some t' ∧ t.Within t'
  extensions : ∀ (n : Nat) (t : OpSchema), OMap.get? x.extensions n = some t →
    ∃ t', OMap.get? root.extensions n = some t' ∧ t.Within t'

structure OpSchema.WF (o : OpSchema) : Prop where
  globals : OMap.Sorted o.globals
  inputs : ∀ m, o.inputs = some m → OMap.Sorted m
  assignments : OMap.Sorted o.assignments

structure Schema.WF (s : Schema) : Prop where
  globals : OMap.Sorted s.globalTypes
  owned : OMap.Sorted s.ownedTypes
  genesis : s.genesis.WF
  transitions : OMap.Sorted s.transitions
  extensions : OMap.Sorted s.extensions
  transitionOps : ∀ e ∈ s.transitions, e.2.WF
  extensionOps : ∀ e ∈ s.extensions, e.2.WF

/-- The fields of an implementation of one kind. -/
def IfaceImpl.fields (x : IfaceImpl) : FieldKind → OSet NamedField
  | .metadata => x.metadata
  | .global => x.globalState
  | .assignment => x.assignments
  | .valency => x.valencies
  | .transition => x.transitions
  | .extension => x.extensions

/-- The names of one kind an interface declares. -/
def Iface.names (i : Iface) : FieldKind → List Nat
  | .metadata => OMap.keys i.metadata
  | .global => OMap.keys i.globalState
  | .assignment => OMap.keys i.assignments
  | .valency => OMap.keys i.valencies
  | .transition => OMap.keys i.transitions
  | .extension => OMap.keys i.extensions

/-- The types of one kind a schema declares. -/
def Schema.types (s : Schema) : FieldKind → List Nat
  | .metadata => OMap.keys s.metaTypes
  | .global => OMap.keys s.globalTypes
  | .assignment => OMap.keys s.ownedTypes
  | .valency => s.valencyTypes
  | .transition => OMap.keys s.transitions
  | .extension => OMap.keys s.extensions

/-- How many times a name is bound. -/
def bindings (fields : OSet NamedField) (name : Nat) : Nat := fields.countP (fun f => f.name = name)

end Rgb
