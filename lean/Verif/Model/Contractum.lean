import Verif.Model.Iface
import Verif.Model.Text

/-!
# The text of an interface

Models `IfaceDisplay` with `ArgMapDisplay` and `OpIfaceDisplay`, /repo/src/interface/contractum.rs:35-352, which `Iface::display`
(/repo/src/interface/iface.rs:424-430) prints. Texts are lists of characters. What is written up to a `writeln!` is a line; a text is made of lines with a line
break after each. Only the inherited interfaces are different: one without a known name is followed by a line break in the middle of the list.
-/

namespace Rgb.Contractum

/-- `Occurrences` of rgb-core, as used in /repo/src/interface/contractum.rs:44-53. -/
inductive Occurrences where
  | once
  | noneOrOnce
  | noneOrMore
  | onceOrMore
  | noneOrUpTo (n : Nat)
  | onceOrUpTo (n : Nat)
  | exactly (n : Nat)
  | range (a b : Nat)
  deriving DecidableEq, Repr

/-- Texts of what is a number in the model of interfaces, and what is printed by dependencies:
* `name`, `descr`, `version`, `developer` – names (of fields, variants and types), descriptions of errors, the version (`{:#}`) and the developer; `anonymous` –
  `Identity::is_anonymous`;
* `occ` – the occurrences;
* `ifaceId`, `refText` – the id of the interface (`{}`), and of an inherited one (`{:-}`); `external` – the names of interfaces which the caller gives;
* `lookup`, `semFull`, `semShort` – the symbolic name of a type, and its id printed with `{}` and with `{:-}`. -/
structure Env where
  name : Nat → Text
  descr : Nat → Text
  version : Nat → Text
  developer : Nat → Text
  anonymous : Nat → Bool
  occ : Occ → Occurrences
  ifaceId : Iface → Text
  refText : Nat → Text
  external : Nat → Option Nat
  lookup : Nat → Option Text
  semFull : Nat → Text
  semShort : Nat → Text

/-- Members with `, ` between them: the loops with `if i > 0`, /repo/src/interface/contractum.rs:39-42, 103-108, 114-119, 127-132, 206-211, 342-347. -/
def commaSep : List Text → Text
  | [] => []
  | [p] => p
  | p :: q :: ps => p ++ ", ".toList ++ commaSep (q :: ps)

/-- /repo/src/interface/contractum.rs:44-53 -/
def occText : Occurrences → Text
  | .once => []
  | .noneOrOnce => "(?)".toList
  | .noneOrMore => "(*)".toList
  | .onceOrMore => "(+)".toList
  | .noneOrUpTo n => "(..".toList ++ showNat n ++ ")".toList
  | .onceOrUpTo n => "(1..".toList ++ showNat n ++ ")".toList
  | .exactly n => "(".toList ++ showNat n ++ ")".toList
  | .range a b => "(".toList ++ showNat a ++ "..".toList ++ showNat b ++ ")".toList

variable (N : Env)

/-- `ArgMapDisplay`, /repo/src/interface/contractum.rs:37-57. -/
def argMap (m : OMap Nat Occ) : Text := commaSep (m.map (fun e => N.name e.1 ++ occText (N.occ e.2)))

/-- Names with `, ` between them. -/
def namesText (s : List Nat) : Text := commaSep (s.map N.name)

/-- A line which is there if there is something to show. -/
def lineIf (nonEmpty : Bool) (l : Text) : List Text := if nonEmpty then [l] else []

/-- `OpIfaceDisplay`, /repo/src/interface/contractum.rs:99-140. -/
def opLines (t : OpIface) : List Text :=
  lineIf (!t.errors.isEmpty) ("\t\terrors: ".toList ++ namesText N t.errors) ++
  lineIf (!t.metadata.isEmpty) ("\t\tmeta: ".toList ++ namesText N t.metadata) ++
  lineIf (!t.globals.isEmpty) ("\t\tglobals: ".toList ++ argMap N t.globals) ++
  lineIf (!t.valencies.isEmpty) ("\t\tvalencies: ".toList ++ namesText N t.valencies) ++
  lineIf (!t.assignments.isEmpty) ("\t\tassigns: ".toList ++ argMap N t.assignments)

/-- `sugar`, /repo/src/interface/contractum.rs:164-171. -/
def sugar : Bool → Bool → Text
  | true, true => "(+)".toList
  | false, false => "(?)".toList
  | false, true => "(*)".toList
  | true, false => []

/-- `resolve`, /repo/src/interface/contractum.rs:172-177. -/
def resolve (sem : Nat) : Text :=
  match N.lookup sem with
  | some fqn => fqn
  | none => N.semShort sem ++ " -- type name unknown".toList

def modifierText : Modifier → Text
  | .final => "final".toList
  | .abstract => "abstract".toList
  | .override => "override".toList

/-- `opsugar`, /repo/src/interface/contractum.rs:178-213. -/
def opsugar (pred : Text) (name : Option Nat) (m : Modifier) (optional dflt : Bool) : Text :=
  '\t' :: pred ++ (match name with | some n => ' ' :: N.name n | none => []) ++
    ": ".toList ++ commaSep ((if optional then [] else ["required".toList]) ++ (if dflt then ["default".toList] else []) ++ [modifierText m])

/-- The list of inherited interfaces, /repo/src/interface/contractum.rs:224-232. -/
def refOne (i : Nat) : Text :=
  match N.external i with
  | some n => N.name n
  | none => N.refText i ++ ['\n']

/-- /repo/src/interface/contractum.rs:221-234 -/
def headText (x : Iface) : Text :=
  "interface ".toList ++ N.name x.name ++ (if x.inherits.isEmpty then [] else ": ".toList ++ commaSep (x.inherits.map (refOne N)))

/-- /repo/src/interface/contractum.rs:236-246 -/
def metaLines (x : Iface) : List Text :=
  x.metadata.map (fun e => "\tmeta ".toList ++ N.name e.1 ++ ": ".toList ++
    (match N.lookup e.2 with | some fqn => fqn | none => N.semFull e.2 ++ " -- type name is unknown".toList)) ++
  lineIf (!x.metadata.isEmpty) []

/-- /repo/src/interface/contractum.rs:248-258 -/
def globalLines (x : Iface) : List Text :=
  x.globalState.map (fun e => "\tglobal ".toList ++ N.name e.1 ++ sugar e.2.required e.2.multiple ++ ": ".toList ++
    (match e.2.semId with | some i => resolve N i | none => "Any".toList)) ++ [[]]

/-- /repo/src/interface/contractum.rs:269-276 -/
def ownedText : OwnedIface → Text
  | .any => "AnyType".toList
  | .amount => "Zk64".toList
  | .anyData => "Any".toList
  | .anyAttach => "AnyAttachment".toList
  | .rights => "Rights".toList
  | .data i => resolve N i

/-- /repo/src/interface/contractum.rs:260-281 -/
def assignLines (x : Iface) : List Text :=
  x.assignments.map (fun e => '\t' :: (if e.2.pub then "public ".toList else "owned ".toList) ++ N.name e.1 ++ sugar e.2.required e.2.multiple ++ ": ".toList ++
    ownedText N e.2.ownedState) ++
  lineIf (!x.assignments.isEmpty) []

/-- /repo/src/interface/contractum.rs:283-292 -/
def valencyLines (x : Iface) : List Text :=
  x.valencies.map (fun e => "\tvalency ".toList ++ N.name e.1 ++ (if e.2 then [] else "(?)".toList)) ++ lineIf (!x.valencies.isEmpty) []

/-- /repo/src/interface/contractum.rs:294-300. The description is printed as it is. -/
def errorLines (x : Iface) : List Text :=
  x.errors.flatMap (fun e => ["\terror ".toList ++ N.name e.1, "\t\t\"".toList ++ N.descr e.2 ++ "\"".toList]) ++ lineIf (!x.errors.isEmpty) []

/-- /repo/src/interface/contractum.rs:302-304 -/
def genesisLines (x : Iface) : List Text :=
  opsugar N "genesis".toList none x.genesis.modifier true false :: opLines N x.genesis ++ [[]]

/-- The default assignment, /repo/src/interface/contractum.rs:313-315, 336-338. -/
def defaultLine : Option Nat → List Text
  | some d => ["\t\tdefault: ".toList ++ N.name d]
  | none => []

/-- /repo/src/interface/contractum.rs:306-320 -/
def transitionLines (x : Iface) (n : Nat) (t : OpIface) : List Text :=
  opsugar N "transition".toList (some n) t.modifier t.optional (x.defaultOperation = some n) :: opLines N t ++ defaultLine N t.defaultAssignment ++
    ["\t\tinputs: ".toList ++ argMap N t.inputs, []]

/-- /repo/src/interface/contractum.rs:322-350 -/
def extensionLines (x : Iface) (n : Nat) (t : OpIface) : List Text :=
  opsugar N "extension".toList (some n) t.modifier t.optional (x.defaultOperation = some n) :: opLines N t ++ defaultLine N t.defaultAssignment ++
    ["\t\tredeems: ".toList ++ namesText N t.redeems, []]

/-- The lines before the name, /repo/src/interface/contractum.rs:215-220. -/
def annotationLines (x : Iface) : List Text :=
  ["@version(".toList ++ N.version x.version ++ ")".toList, "@id(".toList ++ N.ifaceId x ++ ")".toList] ++
  lineIf (!N.anonymous x.developer) ("@developer(\"".toList ++ N.developer x.developer ++ "\")".toList) ++
  ["@timestamp(".toList ++ showInt x.timestamp ++ ")".toList]

/-- The lines after the name, /repo/src/interface/contractum.rs:236-350. -/
def bodyLines (x : Iface) : List Text :=
  metaLines N x ++ (globalLines N x ++ (assignLines N x ++ (valencyLines N x ++ (errorLines N x ++ (genesisLines N x ++
    (x.transitions.flatMap (fun e => transitionLines N x e.1 e.2) ++ x.extensions.flatMap (fun e => extensionLines N x e.1 e.2)))))))

/-- Lines with a line break after each. -/
def unlines : List Text → Text
  | [] => []
  | l :: ls => l ++ '\n' :: unlines ls

/-- `IfaceDisplay`, /repo/src/interface/contractum.rs:162-352. -/
def text (x : Iface) : Text := unlines (annotationLines N x) ++ headText N x ++ '\n' :: unlines (bodyLines N x)

end Rgb.Contractum
