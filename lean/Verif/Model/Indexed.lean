import Verif.Model.Stash

/-!
# Indexed consignments

Models `IndexedConsignment` with its `ConsignmentApi` (/repo/src/containers/indexed.rs), which is what a consignment is validated through
(/repo/src/containers/consignment.rs:332-338).
-/

namespace Rgb

/-- `EAnchor` of rgb-core, made in `AnchoredBundles::iter`, /repo/src/containers/anchors.rs:386-406. -/
structure EAnchor where
  mpc : Nat
  dbc : DbcProof
  deriving DecidableEq, Repr

def ClientBundle.anchor (c : ClientBundle) : EAnchor := ⟨c.mpc, c.dbc⟩

/-- `IndexedConsignment`, /repo/src/containers/indexed.rs:35-44. -/
structure Indexed where
  genesis : Op
  scripts : OMap Nat Nat := []
  anchorIdx : OMap Nat (WitnessId × EAnchor) := []
  bundleIdx : OMap Nat Bundle := []
  opWitnessIdx : OMap Nat WitnessId := []
  opBundleIdx : OMap Nat Nat := []
  extensionIdx : OMap Nat Op := []
  witnessIdx : OMap WitnessId XPubWitness := []
  deriving DecidableEq, Repr

namespace Indexed

/-- The innermost loop of `new`, /repo/src/containers/indexed.rs:69-72. -/
def addOps (w : WitnessId) (bid : Nat) : List Nat → Indexed → Indexed
  | [], x => x
  | opid :: rest, x =>
    addOps w bid rest { x with opWitnessIdx := OMap.insert x.opWitnessIdx opid w, opBundleIdx := OMap.insert x.opBundleIdx opid bid }

/-- The middle loop of `new`, /repo/src/containers/indexed.rs:65-73. -/
def addBundles (H : Commit) (w : WitnessId) : List ClientBundle → Indexed → Indexed
  | [], x => x
  | c :: rest, x =>
    let bid := c.bundle.id H
    addBundles H w rest (addOps w bid (OMap.keys c.bundle.known)
      { x with bundleIdx := OMap.insert x.bundleIdx bid c.bundle, anchorIdx := OMap.insert x.anchorIdx bid (w, c.anchor) })

/-- The outer loop of `new`, /repo/src/containers/indexed.rs:61-74. -/
def addWitnesses (H : Commit) : List WitnessBundle → Indexed → Indexed
  | [], x => x
  | wb :: rest, x =>
    addWitnesses H rest (addBundles H wb.id wb.anchored.list { x with witnessIdx := OMap.insert x.witnessIdx wb.pub.id wb.pub })

/-- The loop of `new` over extensions, /repo/src/containers/indexed.rs:75-77. -/
def addExtensions (H : Commit) : List Op → Indexed → Indexed
  | [], x => x
  | e :: rest, x => addExtensions H rest { x with extensionIdx := OMap.insert x.extensionIdx (e.id H) e }

/-- `new`, /repo/src/containers/indexed.rs:54-94. `from_iter_checked` (78-83) panics for more libraries than a map of them can hold; a consignment
can't have as many. -/
def new (H : Commit) (I : Ids) (c : Consignment) : Indexed :=
  let x := addExtensions H c.data.extensions (addWitnesses H c.data.bundles { genesis := c.data.genesis })
  { x with scripts := OMap.ofList (c.scripts.map (fun l => (I.lib l, l))) }

/-- `extension`, /repo/src/containers/indexed.rs:96. -/
def extension (x : Indexed) (opid : Nat) : Option Op := OMap.get? x.extensionIdx opid

/-- `transition`, /repo/src/containers/indexed.rs:98-103. -/
def transition (x : Indexed) (opid : Nat) : Option Op :=
  (OMap.get? x.opBundleIdx opid).bind fun bid => (OMap.get? x.bundleIdx bid).bind fun b => OMap.get? b.known opid

/-- `pub_witness`, /repo/src/containers/indexed.rs:105-107. -/
def pubWitness (x : Indexed) (w : WitnessId) : Option XPubWitness := OMap.get? x.witnessIdx w

/-- `operation`, /repo/src/containers/indexed.rs:117-124. -/
def operation (H : Commit) (x : Indexed) (opid : Nat) : Option Op :=
  if opid = x.genesis.id H then some x.genesis else (x.transition opid).or (x.extension opid)

/-- `bundle_ids`, /repo/src/containers/indexed.rs:128-134. -/
def bundleIds (x : Indexed) : List Nat := OMap.keys x.bundleIdx

/-- `bundle`, /repo/src/containers/indexed.rs:136-138. -/
def bundle (x : Indexed) (bid : Nat) : Option Bundle := OMap.get? x.bundleIdx bid

/-- `anchor`, /repo/src/containers/indexed.rs:140-142. -/
def anchor (x : Indexed) (bid : Nat) : Option (WitnessId × EAnchor) := OMap.get? x.anchorIdx bid

/-- `op_witness_id`, /repo/src/containers/indexed.rs:144-146. -/
def opWitnessId (x : Indexed) (opid : Nat) : Option WitnessId := OMap.get? x.opWitnessIdx opid

/-- `scripts().get(id)`, /repo/src/containers/indexed.rs:115. -/
def script (x : Indexed) (id : Nat) : Option Nat := OMap.get? x.scripts id

end Indexed
end Rgb
