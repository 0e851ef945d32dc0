import Verif.Model.Builder

/-!
# Batches of transitions

Models /repo/src/containers/partials.rs (without `Fascia`, which is in `Verif.Model.Stock`).
-/

namespace Rgb

/-- `CloseMethodSet`, /repo/src/containers/partials.rs:50-56. -/
inductive CloseMethodSet where
  | tapretFirst
  | opretFirst
  | both
  deriving DecidableEq, Repr

namespace CloseMethodSet

/-- `From<CloseMethod>`, /repo/src/containers/partials.rs:109-116; `From<XOutputSeal>` (105-107) is the same of its method. -/
def ofMethod : CloseMethod → CloseMethodSet
  | .opretFirst => .opretFirst
  | .tapretFirst => .tapretFirst

/-- `BitOr`, /repo/src/containers/partials.rs:90-99. -/
def or (a b : CloseMethodSet) : CloseMethodSet := if a = b then a else .both

/-- `has_tapret_first`, /repo/src/containers/partials.rs:119. -/
def hasTapretFirst (s : CloseMethodSet) : Bool := decide (s = .tapretFirst) || decide (s = .both)

/-- `has_opret_first`, /repo/src/containers/partials.rs:120. -/
def hasOpretFirst (s : CloseMethodSet) : Bool := decide (s = .opretFirst) || decide (s = .both)

/-- `BitOr<Option<CloseMethodSet>>`, /repo/src/containers/partials.rs:58-66. -/
def orOpt (a : CloseMethodSet) : Option CloseMethodSet → CloseMethodSet
  | none => a
  | some b => a.or b

/-- `BitOr<CloseMethodSet> for Option<CloseMethodSet>`, /repo/src/containers/partials.rs:76-84. -/
def optOr (a : Option CloseMethodSet) (b : CloseMethodSet) : CloseMethodSet := b.orOpt a

end CloseMethodSet

/-- `TransitionInfo`, /repo/src/containers/partials.rs:131-136. -/
structure TransitionInfo where
  id : Nat
  inputs : OSet Outpoint
  transition : BuiltTransition
  method : CloseMethod
  deriving DecidableEq, Repr

/-- `TransitionInfoError`, /repo/src/containers/partials.rs:188-196, and the failed assertion. -/
inductive TInfoErr where
  | tooMany
  | divergence
  | panic
  deriving DecidableEq, Repr

/-- `U24`: the limit on the number of inputs. -/
def u24Max : Nat := 16777215

/-- `Confined::<BTreeSet<_>, 1, U24>::try_from_iter` of amplify: elements are added one by one, each needs room. -/
def outpointSet (max : Nat) : List Outpoint → OSet Outpoint → Except TInfoErr (OSet Outpoint)
  | [], s => .ok s
  | o :: rest, s => if s.length ≥ max then .error .tooMany else outpointSet max rest (OSet.insert s o)

/-- `TransitionInfo::new`, /repo/src/containers/partials.rs:162-183. -/
def TransitionInfo.new (H : Commit) (t : BuiltTransition) : List OutSeal → Except TInfoErr TransitionInfo
  | [] => .error .panic
  | s :: rest => do
    let inputs ← outpointSet u24Max ((s :: rest).map OutSeal.outpoint) []
    if (s :: rest).any (fun x => decide (x.method ≠ s.method)) then .error .divergence
    else .ok { id := t.op.id H, inputs := inputs, transition := t, method := s.method }

/-- `Dichotomy`, /repo/src/containers/partials.rs:271-274. -/
structure Dichotomy (α : Type) where
  first : α
  second : Option α := none
  deriving DecidableEq, Repr

namespace Dichotomy
variable {α : Type}

/-- `FromIterator`, /repo/src/containers/partials.rs:310-318; `none` is a panic. -/
def ofList : List α → Option (Dichotomy α)
  | [a] => some ⟨a, none⟩
  | [a, b] => some ⟨a, some b⟩
  | _ => none

/-- `IntoIterator` and `iter`, /repo/src/containers/partials.rs:320-333, 352-359. -/
def toList (d : Dichotomy α) : List α :=
  match d.second with
  | none => [d.first]
  | some b => [d.first, b]

/-- Changing both parts in place. -/
def map {β : Type} (f : α → β) (d : Dichotomy α) : Dichotomy β := ⟨f d.first, d.second.map f⟩

end Dichotomy

/-- `Batch`, /repo/src/containers/partials.rs:209-212. -/
structure Batch where
  main : Dichotomy TransitionInfo
  blanks : List (Dichotomy TransitionInfo)
  deriving DecidableEq, Repr

/-- `info.transition.nonce = priority`, /repo/src/containers/partials.rs:247-254: the id isn't computed anew. -/
def TransitionInfo.setNonce (n : Nat) (i : TransitionInfo) : TransitionInfo :=
  { i with transition := { i.transition with op := { i.transition.op with nonce := n } } }

namespace Batch

/-- `IntoIterator`, /repo/src/containers/partials.rs:217-230. -/
def toList (b : Batch) : List TransitionInfo := (b.blanks ++ [b.main]).flatMap Dichotomy.toList

/-- `close_method_set`, /repo/src/containers/partials.rs:233-244. -/
def closeMethodSet (b : Batch) : CloseMethodSet :=
  let m := CloseMethodSet.ofMethod b.main.first.method
  let m := match b.main.second with
    | none => m
    | some i => m.or (.ofMethod i.method)
  let m := b.blanks.foldl (fun m d => m.or (.ofMethod d.first.method)) m
  (b.blanks.filterMap (fun d => d.second)).foldl (fun m i => m.or (.ofMethod i.method)) m

/-- `set_priority`, /repo/src/containers/partials.rs:246-257. -/
def setPriority (n : Nat) (b : Batch) : Batch where
  main := b.main.map (TransitionInfo.setNonce n)
  blanks := b.blanks.map (Dichotomy.map (TransitionInfo.setNonce n))

end Batch

end Rgb
