import Verif.Model.Index

/-!
# Interfaces, their implementations and inheritance

Models /repo/src/interface/iface.rs (structures, `Req`, `Iface::check`, `find_abstractable_impl`), /repo/src/interface/inheritance.rs
(schema inheritance check, interface extension, abstracting of implementations) and /repo/src/interface/iimpl.rs (lookups by names
and numbers, `IfaceImpl::check`).

Names (`FieldName`, `VariantName`, `TypeName`) are numbers, in the order of the strings. Identifiers of interfaces are hashes: a
function. The limit of 255 entries of `Tiny…` collections is modelled; `Confined::insert` and `push` of the amplify crate fail when
the collection is full, even if the key is present.
-/

namespace Rgb

/-- `Req`, /repo/src/interface/iface.rs:115-121. -/
inductive Req where
  | optional
  | required
  | noneOrMore
  | oneOrMore
  deriving DecidableEq, Repr

/-- /repo/src/interface/iface.rs:124 -/
def Req.isRequired (r : Req) : Bool := r = .required || r = .oneOrMore

/-- /repo/src/interface/iface.rs:125 -/
def Req.isMultiple (r : Req) : Bool := r = .noneOrMore || r = .oneOrMore

/-- `Occurrences` of rgb-core: its `min_value()`, used in /repo/src/interface/inheritance.rs:541, and all the rest as a number. -/
structure Occ where
  minValue : Nat
  rest : Nat := 0
  deriving DecidableEq, Repr

/-- `GlobalIface`, /repo/src/interface/iface.rs:147-151. -/
structure GlobalIface where
  semId : Option Nat
  required : Bool
  multiple : Bool
  deriving DecidableEq, Repr

/-- `OwnedIface`, /repo/src/interface/iface.rs:236-244. -/
inductive OwnedIface where
  | any
  | rights
  | amount
  | anyData
  | anyAttach
  | data (sem : Nat)
  deriving DecidableEq, Repr

/-- `AssignIface`, /repo/src/interface/iface.rs:198-203. -/
structure AssignIface where
  ownedState : OwnedIface
  pub : Bool
  required : Bool
  multiple : Bool
  deriving DecidableEq, Repr

/-- `AssignIface::public` and `private`, /repo/src/interface/iface.rs:206-222. -/
def AssignIface.mk' (pub : Bool) (o : OwnedIface) (r : Req) : AssignIface := ⟨o, pub, r.isRequired, r.isMultiple⟩

/-- `GlobalIface::any`, `optional`, `required`, `none_or_many`, `one_or_many`, /repo/src/interface/iface.rs:154-188: a type (if any) and a
requirement. -/
def GlobalIface.mk' (sem : Option Nat) (r : Req) : GlobalIface := ⟨sem, r.isRequired, r.isMultiple⟩

/-- `Modifier`, /repo/src/interface/iface.rs:268-273. -/
inductive Modifier where
  | abstract
  | override
  | final
  deriving DecidableEq, Repr

/-- `OpName`, /repo/src/interface/iface.rs:641-648. -/
inductive OpName where
  | genesis
  | transition (name : Nat)
  | extension (name : Nat)
  deriving DecidableEq, Repr

/-- `GenesisIface`, `ExtensionIface`, `TransitionIface`, /repo/src/interface/iface.rs:283-335, in one structure: `inputs` is empty for
a genesis and an extension, `redeems` for a genesis and a transition, and a genesis has neither `optional` nor `default_assignment`. -/
structure OpIface where
  modifier : Modifier := .final
  optional : Bool := false
  metadata : OSet Nat := []
  globals : OMap Nat Occ := []
  inputs : OMap Nat Occ := []
  assignments : OMap Nat Occ := []
  redeems : OSet Nat := []
  valencies : OSet Nat := []
  errors : OSet Nat := []
  defaultAssignment : Option Nat := none
  deriving DecidableEq, Repr

/-- `Iface`, /repo/src/interface/iface.rs:384-399. `valencies`: the `required` flag of `ValencyIface` (135-137). -/
structure Iface where
  version : Nat := 0
  name : Nat
  inherits : List Nat := []
  timestamp : Int := 0
  metadata : OMap Nat Nat := []
  globalState : OMap Nat GlobalIface := []
  assignments : OMap Nat AssignIface := []
  valencies : OMap Nat Bool := []
  genesis : OpIface := {}
  transitions : OMap Nat OpIface := []
  extensions : OMap Nat OpIface := []
  defaultOperation : Option Nat := none
  errors : OMap Nat Nat := []
  developer : Nat := 0
  deriving DecidableEq, Repr

/-! ### Iface::check -/

/-- `IfaceInconsistency`, /repo/src/interface/iface.rs:652-694. -/
inductive IfaceErr where
  | invalidTimestamp (t : Int)
  | futureTimestamp (t : Int)
  | unknownGlobal (op : OpName) (name : Nat)
  | unknownValency (op : OpName) (name : Nat)
  | unknownRedeem (op : OpName) (name : Nat)
  | unknownAssignment (op : OpName) (name : Nat)
  | unknownInput (op : OpName) (name : Nat)
  | unknownError (op : OpName) (name : Nat)
  | unknownDefaultAssignment (op : OpName) (name : Nat)
  | unknownDefaultOp (name : Nat)
  | unknownMetadata (op : OpName) (name : Nat)
  | multipleGlobal (op : OpName) (name : Nat)
  | multipleAssignment (op : OpName) (name : Nat)
  | multipleInputs (op : OpName) (name : Nat)
  | repeatedOperationName (name : Nat)
  | requiredGlobalAbsent (name : Nat)
  | requiredAssignmentAbsent (name : Nat)
  | requiredValencyAbsent (name : Nat)
  deriving DecidableEq, Repr

namespace Iface

/-- `proc_globals`, /repo/src/interface/iface.rs:457-472. -/
def procGlobals (i : Iface) (op : OpName) (globals : OMap Nat Occ) : List IfaceErr :=
  globals.flatMap (fun e =>
    match OMap.get? i.globalState e.1 with
    | some g => if e.2.minValue > 1 && !g.multiple then [.multipleGlobal op e.1] else []
    | none => [.unknownGlobal op e.1])

/-- `proc_assignments`, /repo/src/interface/iface.rs:473-491. -/
def procAssignments (i : Iface) (op : OpName) (assignments : OMap Nat Occ) : List IfaceErr :=
  assignments.flatMap (fun e =>
    match OMap.get? i.assignments e.1 with
    | some a => if e.2.minValue > 1 && !a.multiple then [.multipleAssignment op e.1] else []
    | none => [.unknownAssignment op e.1])

/-- `proc_valencies`, /repo/src/interface/iface.rs:492-500. -/
def procValencies (i : Iface) (op : OpName) (valencies : OSet Nat) : List IfaceErr :=
  valencies.flatMap (fun n => if (OMap.get? i.valencies n).isNone then [.unknownValency op n] else [])

/-- `proc_errors`, /repo/src/interface/iface.rs:501-509. -/
def procErrors (i : Iface) (op : OpName) (errs : OSet Nat) : List IfaceErr :=
  errs.flatMap (fun n => if !OMap.contains i.errors n then [.unknownError op n] else [])

/-- The loops over metadata, /repo/src/interface/iface.rs:520-524, 533-537, 569-573. -/
def procMetadata (i : Iface) (op : OpName) (names : OSet Nat) : List IfaceErr :=
  names.flatMap (fun n => if !OMap.contains i.metadata n then [.unknownMetadata op n] else [])

/-- What is done for each operation, /repo/src/interface/iface.rs:520-528, 533-541, 569-577. -/
def procOp (i : Iface) (op : OpName) (t : OpIface) : List IfaceErr :=
  i.procMetadata op t.metadata ++ i.procGlobals op t.globals ++ i.procAssignments op t.assignments ++
    i.procValencies op t.valencies ++ i.procErrors op t.errors

/-- /repo/src/interface/iface.rs:558-563, 584-589 -/
def procDefault (op : OpName) (t : OpIface) : List IfaceErr :=
  match t.defaultAssignment with
  | some n => if (OMap.get? t.assignments n).isNone then [.unknownDefaultAssignment op n] else []
  | none => []

/-- /repo/src/interface/iface.rs:530-564 -/
def procTransition (i : Iface) (name : Nat) (t : OpIface) : List IfaceErr :=
  let op := OpName.transition name
  i.procOp op t ++
    t.inputs.flatMap (fun e =>
      match OMap.get? i.assignments e.1 with
      | some a => if e.2.minValue > 1 && !a.multiple then [.multipleInputs op e.1] else []
      | none => [.unknownInput op e.1]) ++
    procDefault op t

/-- /repo/src/interface/iface.rs:566-590 -/
def procExtension (i : Iface) (name : Nat) (e : OpIface) : List IfaceErr :=
  let op := OpName.extension name
  i.procOp op e ++
    e.redeems.flatMap (fun n => if (OMap.get? i.valencies n).isNone then [.unknownRedeem op n] else []) ++
    procDefault op e

/-- `check`, /repo/src/interface/iface.rs:456-621: the errors. `validTs` is what chrono accepts as a timestamp, `now` the present
moment in seconds (a fraction of a second doesn't matter for `ts > now`, as `ts` is whole). -/
def check (i : Iface) (validTs : Int → Bool) (now : Int) : List IfaceErr :=
  (if !validTs i.timestamp then [.invalidTimestamp i.timestamp]
   else if i.timestamp > now then [.futureTimestamp i.timestamp] else []) ++
  i.procOp .genesis i.genesis ++
  i.transitions.flatMap (fun e => i.procTransition e.1 e.2) ++
  i.extensions.flatMap (fun e => i.procExtension e.1 e.2) ++
  (OMap.keys i.transitions).flatMap (fun n => if OMap.contains i.extensions n then [.repeatedOperationName n] else []) ++
  (match i.defaultOperation with
   | some n => if (OMap.get? i.transitions n).isNone && (OMap.get? i.extensions n).isNone then [.unknownDefaultOp n] else []
   | none => []) ++
  i.globalState.flatMap (fun e =>
    if e.2.required && (OMap.get? i.genesis.globals e.1).isNone then [.requiredGlobalAbsent e.1] else []) ++
  i.assignments.flatMap (fun e =>
    if e.2.required && (OMap.get? i.genesis.assignments e.1).isNone then [.requiredAssignmentAbsent e.1] else []) ++
  i.valencies.flatMap (fun e => if e.2 && !i.genesis.valencies.contains e.1 then [.requiredValencyAbsent e.1] else [])

end Iface

/-! ### Extension of interfaces -/

/-- `OwnedIface::is_superset`, /repo/src/interface/inheritance.rs:276-286. -/
def OwnedIface.isSuperset (self other : OwnedIface) : Bool :=
  if self = .any then true
  else if self = .anyData && (match other with | .data _ => true | _ => false) then true
  else self = other

/-- `Modifier::is_final`, /repo/src/interface/inheritance.rs:289. -/
def Modifier.isFinal (m : Modifier) : Bool := m = .final

/-- `Modifier::can_be_overridden_by`, /repo/src/interface/inheritance.rs:290-292. -/
def Modifier.canBeOverriddenBy : Modifier → Modifier → Bool
  | .abstract, .override => true
  | .abstract, .final => true
  | .override, .override => true
  | .override, .final => true
  | _, _ => false

/-- The `&'static str` of `OpOverflow` and `OpOcc` in /repo/src/interface/inheritance.rs:565-678. -/
inductive ArgKind where
  | metadata
  | global
  | assignment
  | input
  | valency
  | error
  deriving DecidableEq, Repr

/-- `ExtensionError`, /repo/src/interface/inheritance.rs:228-274. -/
inductive ExtErr where
  | metaOverflow
  | globalOverflow
  | globalType (name : Nat)
  | globalOcc (name : Nat)
  | assignmentOverflow
  | assignmentType (name : Nat)
  | assignmentOcc (name : Nat)
  | assignmentPublic (name : Nat)
  | valencyOverflow
  | valencyOcc (name : Nat)
  | transitionOverflow
  | errorOverflow
  | defaultOverride
  | opFinal (op : OpName)
  | opNoOverride (op : OpName)
  | opOverflow (op : OpName) (k : ArgKind)
  | opDefaultOverride (op : OpName)
  | opOcc (op : OpName) (k : ArgKind) (name : Nat)
  | inheritanceOverflow
  deriving DecidableEq, Repr

/-- The loops which merge entries of the extending interface into a `TinyOrdMap`: `check_occs` (/repo/src/interface/inheritance.rs:522-549) and
those over global state (368-390), assignments (392-416) and valencies (418-438). `conflict` is the error for an entry which is present;
without one it is replaced. A full map ends the loop. -/
def mergeLoop {ν : Type} (conflict : Nat → ν → ν → Option ExtErr) (overflow : ExtErr) :
    OMap Nat ν → List (Nat × ν) → OMap Nat ν × List ExtErr
  | m, [] => (m, [])
  | m, (n, e) :: rest =>
    match OMap.get? m n with
    | none => if m.length ≥ tinyMax then (m, [overflow]) else mergeLoop conflict overflow (OMap.insert m n e) rest
    | some orig =>
      match conflict n orig e with
      | some err =>
        let (m', es) := mergeLoop conflict overflow m rest
        (m', err :: es)
      | none => mergeLoop conflict overflow (OMap.insert m n e) rest

/-- `Confined::extend` of a `TinyOrdMap`, used in /repo/src/interface/inheritance.rs:362-366, 494-498. -/
def tinyExtend {ν : Type} (err : ExtErr) : OMap Nat ν → List (Nat × ν) → OMap Nat ν × List ExtErr
  | m, [] => (m, [])
  | m, (n, e) :: rest => if m.length ≥ tinyMax then (m, [err]) else tinyExtend err (OMap.insert m n e) rest

/-- `check_presence`, /repo/src/interface/inheritance.rs:551-567, and `Confined::extend` of a `TinyOrdSet` (580-583). -/
def presenceLoop (err : ExtErr) : OSet Nat → List Nat → OSet Nat × List ExtErr
  | s, [] => (s, [])
  | s, n :: rest => if s.length ≥ tinyMax then (s, [err]) else presenceLoop err (OSet.insert s n) rest

/-- The comparison in `check_occs`, /repo/src/interface/inheritance.rs:541-543. -/
def occConflict (op : OpName) (k : ArgKind) (n : Nat) (orig e : Occ) : Option ExtErr :=
  if orig.minValue > e.minValue then some (.opOcc op k n) else none

/-- Errors of the extension of an operation, /repo/src/interface/inheritance.rs:569-678: see `OpIface.extended`. -/
def OpIface.extErrors (self ext : OpIface) (op : OpName) : List ExtErr :=
  (if self.modifier.isFinal then [.opFinal op]
   else if !self.modifier.canBeOverriddenBy ext.modifier then [.opNoOverride op] else []) ++
  (presenceLoop (.opOverflow op .metadata) self.metadata ext.metadata).2 ++
  (mergeLoop (occConflict op .global) (.opOverflow op .global) self.globals ext.globals).2 ++
  (mergeLoop (occConflict op .assignment) (.opOverflow op .assignment) self.assignments ext.assignments).2 ++
  (mergeLoop (occConflict op .input) (.opOverflow op .input) self.inputs ext.inputs).2 ++
  (presenceLoop (.opOverflow op .valency) self.valencies ext.valencies).2 ++
  (presenceLoop (.opOverflow op .input) self.redeems ext.redeems).2 ++
  (presenceLoop (.opOverflow op .error) self.errors ext.errors).2 ++
  (if ext.defaultAssignment.isSome && self.defaultAssignment.isSome && self.defaultAssignment ≠ ext.defaultAssignment
   then [.opDefaultOverride op] else [])

/-- `GenesisIface::extended`, `TransitionIface::extended`, `ExtensionIface::extended`, /repo/src/interface/inheritance.rs:569-678, in one
function (see `OpIface`): steps on fields which the kind of operation doesn't have change nothing. -/
def OpIface.extended (self ext : OpIface) (op : OpName) : Except (List ExtErr) OpIface :=
  let errs := self.extErrors ext op
  if errs = [] then
    .ok { self with
      optional := self.optional || ext.optional
      metadata := (presenceLoop (.opOverflow op .metadata) self.metadata ext.metadata).1
      globals := (mergeLoop (occConflict op .global) (.opOverflow op .global) self.globals ext.globals).1
      assignments := (mergeLoop (occConflict op .assignment) (.opOverflow op .assignment) self.assignments ext.assignments).1
      inputs := (mergeLoop (occConflict op .input) (.opOverflow op .input) self.inputs ext.inputs).1
      valencies := (presenceLoop (.opOverflow op .valency) self.valencies ext.valencies).1
      redeems := (presenceLoop (.opOverflow op .input) self.redeems ext.redeems).1
      errors := (presenceLoop (.opOverflow op .error) self.errors ext.errors).1
      defaultAssignment := if ext.defaultAssignment.isSome then ext.defaultAssignment else self.defaultAssignment }
  else .error errs

/-- The comparison of global state, /repo/src/interface/inheritance.rs:381-387. -/
def globalConflict (n : Nat) (orig e : GlobalIface) : Option ExtErr :=
  if orig.semId.isSome && e.semId ≠ orig.semId then some (.globalType n)
  else if orig.required && !e.required then some (.globalOcc n) else none

/-- The comparison of assignments, /repo/src/interface/inheritance.rs:405-413. -/
def assignConflict (n : Nat) (orig e : AssignIface) : Option ExtErr :=
  if !orig.ownedState.isSuperset e.ownedState then some (.assignmentType n)
  else if orig.required && !e.required then some (.assignmentOcc n)
  else if orig.pub && !e.pub then some (.assignmentPublic n) else none

/-- The comparison of valencies, /repo/src/interface/inheritance.rs:431-435. -/
def valencyConflict (n : Nat) (orig e : Bool) : Option ExtErr := if orig && !e then some (.valencyOcc n) else none

/-- The loops over operations, /repo/src/interface/inheritance.rs:446-468 and 470-491. Both name operations as transitions in the errors, as
`ExtensionIface::extended` does (642), and report the same overflow error. -/
def opsLoop : OMap Nat OpIface → List (Nat × OpIface) → OMap Nat OpIface × List ExtErr
  | m, [] => (m, [])
  | m, (n, op) :: rest =>
    match OMap.get? m n with
    | none =>
      if op.optional then opsLoop m rest
      else if m.length ≥ tinyMax then (m, [.transitionOverflow])
      else opsLoop (OMap.insert m n op) rest
    | some orig =>
      match orig.extended op (.transition n) with
      | .ok op' => opsLoop (OMap.insert (OMap.erase m n) n op') rest
      | .error es =>
        let (m', es') := opsLoop (OMap.erase m n) rest
        (m', es ++ es')

/-- `TinyVec::push`, `extend` on the list of parents, /repo/src/interface/inheritance.rs:509-514. -/
def tinyAppend (l : List Nat) (more : List Nat) : Option (List Nat) :=
  if l.length + more.length > tinyMax then none else some (l ++ more)

/-- Errors of the extension, /repo/src/interface/inheritance.rs:360-514. -/
def Iface.extErrors (hid : Iface → Nat) (self ext : Iface) : List ExtErr :=
  (tinyExtend .metaOverflow self.metadata ext.metadata).2 ++
  (mergeLoop globalConflict .globalOverflow self.globalState ext.globalState).2 ++
  (mergeLoop assignConflict .assignmentOverflow self.assignments ext.assignments).2 ++
  (mergeLoop valencyConflict .valencyOverflow self.valencies ext.valencies).2 ++
  self.genesis.extErrors ext.genesis .genesis ++
  (opsLoop self.transitions ext.transitions).2 ++
  (opsLoop self.extensions ext.extensions).2 ++
  (tinyExtend .errorOverflow self.errors ext.errors).2 ++
  (if ext.defaultOperation.isSome && self.defaultOperation.isSome && self.defaultOperation ≠ ext.defaultOperation
   then [.defaultOverride] else []) ++
  (if (tinyAppend self.inherits ([hid self] ++ ext.inherits ++ [hid ext])).isNone then [.inheritanceOverflow] else [])

/-- `Iface::extended`, /repo/src/interface/inheritance.rs:351-519. `hid` is `iface_id()`. -/
def Iface.extended (hid : Iface → Nat) (self ext : Iface) (name : Nat) : Except (List ExtErr) Iface :=
  let errs := self.extErrors hid ext
  match self.genesis.extended ext.genesis .genesis, tinyAppend self.inherits ([hid self] ++ ext.inherits ++ [hid ext]) with
  | .ok genesis, some inherits =>
    if errs = [] then
      .ok { self with
        name := name
        metadata := (tinyExtend .metaOverflow self.metadata ext.metadata).1
        globalState := (mergeLoop globalConflict .globalOverflow self.globalState ext.globalState).1
        assignments := (mergeLoop assignConflict .assignmentOverflow self.assignments ext.assignments).1
        valencies := (mergeLoop valencyConflict .valencyOverflow self.valencies ext.valencies).1
        genesis := genesis
        transitions := (opsLoop self.transitions ext.transitions).1
        extensions := (opsLoop self.extensions ext.extensions).1
        errors := (tinyExtend .errorOverflow self.errors ext.errors).1
        defaultOperation := if ext.defaultOperation.isSome then ext.defaultOperation else self.defaultOperation
        inherits := inherits }
    else .error errs
  | _, _ => .error errs

/-- The loop of `Iface::inherit`, /repo/src/interface/inheritance.rs:322-332; the error names the interface it comes from. -/
def Iface.inheritLoop (hid : Iface → Nat) (name : Nat) : Iface → List Iface → Except (Nat × List ExtErr) Iface
  | i, [] => .ok i
  | i, ext :: rest =>
    match i.extended hid ext name with
    | .ok i' => inheritLoop hid name i' rest
    | .error es => .error (ext.name, es)

/-- `Iface::inherit`, /repo/src/interface/inheritance.rs:313-334. `none`: the panic for no interfaces. -/
def Iface.inherit (hid : Iface → Nat) (name : Nat) : List Iface → Option (Except (Nat × List ExtErr) Iface)
  | [] => none
  | i :: rest => some (Iface.inheritLoop hid name i rest)

/-! ### Schemata -/

/-- `OwnedStateSchema` of rgb-core, as matched in /repo/src/interface/builder.rs:1109, 1174, 1242, 1310. -/
inductive OwnedSchema where
  | declarative
  | fungible (ty : Nat)
  | structured (sem : Nat)
  | attachment (media : Nat)
  deriving DecidableEq, Repr

/-- An `OpSchema` of rgb-core with the accessors used in /repo/src/interface/inheritance.rs:170-214: `inputs` is `none` unless a transition,
`redeems` unless an extension. `rest`: metadata and validator. -/
structure OpSchema where
  globals : OMap Nat Occ := []
  inputs : Option (OMap Nat Occ) := none
  assignments : OMap Nat Occ := []
  redeems : Option (OSet Nat) := none
  valencies : OSet Nat := []
  rest : Nat := 0
  deriving DecidableEq, Repr

/-- `Schema` of rgb-core: what is read in /repo/src/interface/inheritance.rs:78-146, /repo/src/interface/iimpl.rs:399-562 and
/repo/src/interface/builder.rs:901-924. `globalTypes`: semantic id and maximal number of items. -/
structure Schema where
  metaTypes : OMap Nat Nat := []
  globalTypes : OMap Nat (Nat × Nat) := []
  ownedTypes : OMap Nat OwnedSchema := []
  valencyTypes : OSet Nat := []
  genesis : OpSchema := {}
  transitions : OMap Nat OpSchema := []
  extensions : OMap Nat OpSchema := []
  rest : Nat := 0
  deriving DecidableEq, Repr

/-- `OpFullType` of rgb-core, /repo/src/interface/inheritance.rs:110-134. -/
inductive OpFullType where
  | genesis
  | transition (ty : Nat)
  | extension (ty : Nat)
  deriving DecidableEq, Repr

/-- `InheritanceFailure`, /repo/src/interface/inheritance.rs:40-70. -/
inductive InhFailure where
  | globalMismatch (ty : Nat)
  | assignmentMismatch (ty : Nat)
  | valencyMismatch (ty : Nat)
  | transitionMismatch (ty : Nat)
  | extensionMismatch (ty : Nat)
  | opGlobalMismatch (op : OpFullType) (ty : Nat)
  | opInputMismatch (op : OpFullType) (ty : Nat)
  | opRedeemMismatch (op : OpFullType) (ty : Nat)
  | opAssignmentMismatch (op : OpFullType) (ty : Nat)
  | opValencyMismatch (op : OpFullType) (ty : Nat)
  deriving DecidableEq, Repr

/-- The loops comparing entries of a map with those of the root, /repo/src/interface/inheritance.rs:82-100, 168-197. -/
def mapMismatch {ν : Type} [DecidableEq ν] (f : Nat → InhFailure) (m root : OMap Nat ν) : List InhFailure :=
  m.flatMap (fun e =>
    match OMap.get? root e.1 with
    | none => [f e.1]
    | some v => if v ≠ e.2 then [f e.1] else [])

/-- The loops over sets, /repo/src/interface/inheritance.rs:102-106, 199-213. -/
def setMismatch (f : Nat → InhFailure) (s root : OSet Nat) : List InhFailure :=
  s.flatMap (fun n => if !root.contains n then [f n] else [])

/-- `check_schema_op_inheritance`, /repo/src/interface/inheritance.rs:157-221. `inputs` (`redeems`) of both are present at the same
time: "generic guarantees". -/
def OpSchema.checkInheritance (self : OpSchema) (op : OpFullType) (root : OpSchema) : List InhFailure :=
  mapMismatch (.opGlobalMismatch op) self.globals root.globals ++
  (match self.inputs with
   | some inputs => mapMismatch (.opInputMismatch op) inputs (root.inputs.getD [])
   | none => []) ++
  mapMismatch (.opAssignmentMismatch op) self.assignments root.assignments ++
  (match self.redeems with
   | some redeems => setMismatch (.opRedeemMismatch op) redeems (root.redeems.getD [])
   | none => []) ++
  setMismatch (.opValencyMismatch op) self.valencies root.valencies

/-- The loops over transitions and extensions, /repo/src/interface/inheritance.rs:113-138. -/
def opsMismatch (f : Nat → InhFailure) (full : Nat → OpFullType) (m root : OMap Nat OpSchema) : List InhFailure :=
  m.flatMap (fun e =>
    match OMap.get? root e.1 with
    | some r => e.2.checkInheritance (full e.1) r
    | none => [f e.1])

/-- `Schema::check_inheritance`, /repo/src/interface/inheritance.rs:78-146: the failures. -/
def Schema.checkInheritance (self root : Schema) : List InhFailure :=
  mapMismatch .globalMismatch self.globalTypes root.globalTypes ++
  mapMismatch .assignmentMismatch self.ownedTypes root.ownedTypes ++
  setMismatch .valencyMismatch self.valencyTypes root.valencyTypes ++
  self.genesis.checkInheritance .genesis root.genesis ++
  opsMismatch .transitionMismatch .transition self.transitions root.transitions ++
  opsMismatch .extensionMismatch .extension self.extensions root.extensions

/-! ### Implementations -/

/-- `NamedField`, `NamedVariant`, /repo/src/interface/iimpl.rs:108-156. In the `TinyOrdSet`s they are ordered by number, name and
reserved bytes (derived `Ord`), so the same name may be bound to several numbers. -/
structure NamedField where
  id : Nat
  name : Nat
  reserved : Nat := 0
  deriving DecidableEq, Repr

instance : Key NamedField where
  enc f := [f.id, f.name, f.reserved]
  enc_inj := by intro a b h; cases a; cases b; simp at h; simp [h]

/-- `IfaceImpl`, /repo/src/interface/iimpl.rs:218-235. -/
structure IfaceImpl where
  version : Nat := 0
  schemaId : Nat
  ifaceId : Nat
  timestamp : Int := 0
  metadata : OSet NamedField := []
  globalState : OSet NamedField := []
  assignments : OSet NamedField := []
  valencies : OSet NamedField := []
  transitions : OSet NamedField := []
  extensions : OSet NamedField := []
  errors : OSet NamedField := []
  developer : Nat := 0
  deriving DecidableEq, Repr

/-- `meta_type`, `global_type`, `assignments_type`, `transition_type`, `extension_type`, `valency_type`,
/repo/src/interface/iimpl.rs:247-302: the first one found. -/
def typeByName (s : OSet NamedField) (name : Nat) : Option Nat := (s.find? (fun f => f.name = name)).map (fun f => f.id)

/-- `meta_name`, `extension_name`, `valency_name`, `global_name`, `assignment_name`, `transition_name`, `error_name`,
/repo/src/interface/iimpl.rs:240-330. -/
def nameByType (s : OSet NamedField) (id : Nat) : Option Nat := (s.find? (fun f => f.id = id)).map (fun f => f.name)

/-- The kinds of fields of an implementation. -/
inductive FieldKind where
  | metadata
  | global
  | assignment
  | valency
  | transition
  | extension
  deriving DecidableEq, Repr

/-- `ImplInconsistency`, /repo/src/interface/iimpl.rs:334-397, with the kind of the field as an argument. -/
inductive ImplErr where
  | invalidTimestamp (t : Int)
  | futureTimestamp (t : Int)
  | ifaceAbsent (k : FieldKind) (name : Nat)
  | schemaAbsent (k : FieldKind) (name id : Nat)
  | ifaceErrorAbsent (name : Nat)
  | repeated (k : FieldKind) (name : Nat) (count : Nat)
  deriving DecidableEq, Repr

/-- The counters `dup_*`: `entry(name).and_modify(|c| *c += 1).or_insert(0)`, for instance /repo/src/interface/iimpl.rs:419-423. The order of
iteration over the `HashMap` isn't defined; here it is that of first occurrences. -/
def bump (m : List (Nat × Nat)) (n : Nat) : List (Nat × Nat) :=
  match m with
  | [] => [(n, 0)]
  | (n', c) :: m' => if n' = n then (n', c + 1) :: m' else (n', c) :: bump m' n

/-- One of the six parts of `check`, for instance /repo/src/interface/iimpl.rs:413-434. -/
def checkFields (k : FieldKind) (names : List Nat) (fields : OSet NamedField) (known : Nat → Bool) : List ImplErr :=
  names.flatMap (fun n => if fields.all (fun f => f.name ≠ n) then [.ifaceAbsent k n] else []) ++
  fields.flatMap (fun f => if !known f.id then [.schemaAbsent k f.name f.id] else []) ++
  ((fields.foldl (fun m f => bump m f.name) []).filter (fun e => e.2 > 1)).map (fun e => .repeated k e.1 e.2)

namespace IfaceImpl

/-- `IfaceImpl::check`, /repo/src/interface/iimpl.rs:399-562: the errors. -/
def check (x : IfaceImpl) (i : Iface) (s : Schema) (validTs : Int → Bool) (now : Int) : List ImplErr :=
  (if !validTs x.timestamp then [.invalidTimestamp x.timestamp]
   else if x.timestamp > now then [.futureTimestamp x.timestamp] else []) ++
  checkFields .metadata (OMap.keys i.metadata) x.metadata (OMap.contains s.metaTypes) ++
  checkFields .global (OMap.keys i.globalState) x.globalState (OMap.contains s.globalTypes) ++
  checkFields .assignment (OMap.keys i.assignments) x.assignments (OMap.contains s.ownedTypes) ++
  checkFields .valency (OMap.keys i.valencies) x.valencies (fun n => s.valencyTypes.contains n) ++
  checkFields .transition (OMap.keys i.transitions) x.transitions (OMap.contains s.transitions) ++
  checkFields .extension (OMap.keys i.extensions) x.extensions (OMap.contains s.extensions) ++
  x.errors.flatMap (fun v => if (OMap.keys i.errors).all (fun n => n ≠ v.name) then [.ifaceErrorAbsent v.name] else [])

/-- The closures of `abstracted`, for instance /repo/src/interface/inheritance.rs:689-694. -/
def pick (keys : List Nat) (inParent : Nat → Bool) (fields : OSet NamedField) : OSet NamedField :=
  OSet.ofList (keys.filterMap (fun n => fields.find? (fun f => inParent n && f.name = n)))

/-- `IfaceImpl::abstracted`, /repo/src/interface/inheritance.rs:682-736. Outer `none`: the panic of `assert_eq!`. -/
def abstracted (hid : Iface → Nat) (x : IfaceImpl) (base parent : Iface) : Option (Option IfaceImpl) :=
  if x.ifaceId ≠ hid base then none
  else if !base.inherits.contains (hid parent) then some none
  else some (some { x with
    metadata := pick (OMap.keys base.metadata) (OMap.contains parent.metadata) x.metadata
    globalState := pick (OMap.keys base.globalState) (OMap.contains parent.globalState) x.globalState
    assignments := pick (OMap.keys base.assignments) (OMap.contains parent.assignments) x.assignments
    valencies := pick (OMap.keys base.assignments) (OMap.contains parent.valencies) x.valencies
    transitions := pick (OMap.keys base.transitions) (OMap.contains parent.transitions) x.transitions
    extensions := pick (OMap.keys base.extensions) (OMap.contains parent.extensions) x.extensions
    ifaceId := hid parent })

end IfaceImpl

end Rgb
