import Verif.Model.Core

/-!
# Merging disclosures and revealing seals

Models /repo/src/contract/merge_reveal.rs, /repo/src/contract/assignments.rs:198-254,
/repo/src/containers/anchors.rs:88-168, 190-260, 285-325, 334-504 and
/repo/src/containers/consignment.rs:289-305.
`debug_assert!`s are dropped (release build).
-/

namespace Rgb

/-- `MergeRevealError`, /repo/src/contract/merge_reveal.rs:33-60, plus the panics (`unreachable!` in
line 194). -/
inductive MergeErr where
  | operationMismatch (a b : Nat)
  | chainMismatch (bitcoin liquid : Nat)
  | txidMismatch (a b : Nat)
  | insufficientInputs
  | panic
  deriving DecidableEq, Repr

/-- `MergeReveal for Assign`, /repo/src/contract/merge_reveal.rs:93-148. Never fails. -/
def Assign.merge : Assign → Assign → Assign
  | _, .revealed s st => .revealed s st
  | .revealed s st, _ => .revealed s st
  | .confidentialSeal _ st, .confidentialState s _ => .revealed s st
  | .confidentialState s _, .confidentialSeal _ st => .revealed s st
  | .confidentialState s t, .confidentialState _ _ => .confidentialState s t
  | .confidentialSeal s t, .confidentialSeal _ _ => .confidentialSeal s t
  | a, .confidential _ _ => a
  | .confidential _ _, b => b

/-- `MergeReveal for TypedAssigns`, /repo/src/contract/merge_reveal.rs:150-198: the two vectors are
zipped; different state kinds panic. -/
def TypedAssigns.merge (a b : TypedAssigns) : Except MergeErr TypedAssigns :=
  if a.kind = b.kind then .ok ⟨a.kind, List.zipWith Assign.merge a.items b.items⟩ else .error .panic

/-- The loop of `MergeReveal for Assignments`, /repo/src/contract/merge_reveal.rs:203-210, over the zipped
entries of both maps; the key comes from the first. -/
def Assignments.mergeLoop : List ((Nat × TypedAssigns) × (Nat × TypedAssigns)) → Assignments →
    Except MergeErr Assignments
  | [], acc => .ok acc
  | ((k, a), (_, b)) :: rest, acc =>
    match TypedAssigns.merge a b with
    | .error e => .error e
    | .ok t => mergeLoop rest (OMap.insert acc k t)

/-- `MergeReveal for Assignments`, /repo/src/contract/merge_reveal.rs:200-215. -/
def Assignments.merge (a b : Assignments) : Except MergeErr Assignments :=
  Assignments.mergeLoop (List.zip a b) []

/-- `MergeReveal for Genesis` / `Transition` / `Extension`, /repo/src/contract/merge_reveal.rs:257-294
(three copies of the same code). -/
def Op.merge (H : Commit) (a b : Op) : Except MergeErr Op :=
  if a.id H ≠ b.id H then .error (.operationMismatch (a.id H) (b.id H))
  else
    match Assignments.merge a.assigns b.assigns with
    | .error e => .error e
    | .ok as => .ok { a with assigns := as }

/-- The loop of `MergeReveal for TransitionBundle`, /repo/src/contract/merge_reveal.rs:222-227. -/
def Bundle.mergeLoop (H : Commit) : List (Nat × Op) → OMap Nat Op → Except MergeErr (OMap Nat Op)
  | [], acc => .ok acc
  | (opid, other) :: rest, acc =>
    match OMap.get? acc opid with
    | none => mergeLoop H rest acc
    | some t =>
      match t.merge H other with
      | .error e => .error e
      | .ok t' => mergeLoop H rest (OMap.insert (OMap.erase acc opid) opid t')

/-- `MergeReveal for TransitionBundle`, /repo/src/contract/merge_reveal.rs:217-235. -/
def Bundle.merge (H : Commit) (a b : Bundle) : Except MergeErr Bundle :=
  match Bundle.mergeLoop H b.known a.known with
  | .error e => .error e
  | .ok known =>
    if a.inputMap.length < known.length then .error .insufficientInputs
    else .ok { a with known := known }

/-- A transaction: its txid and everything the txid doesn't commit to (signatures). -/
structure Tx where
  txid : Nat
  wit : Nat
  deriving DecidableEq, Repr

/-- `PubWitness`, /repo/src/containers/anchors.rs:115-121. -/
inductive PubWitness where
  | txid (t : Nat)
  | tx (t : Tx)
  deriving DecidableEq, Repr

/-- `PubWitness::txid`, /repo/src/containers/anchors.rs:140-145. -/
def PubWitness.id : PubWitness → Nat
  | .txid t => t
  | .tx t => t.txid

/-- `PubWitness::tx`, /repo/src/containers/anchors.rs:147-152. -/
def PubWitness.tx? : PubWitness → Option Tx
  | .txid _ => none
  | .tx t => some t

/-- `PubWitness::merge_reveal`, /repo/src/containers/anchors.rs:154-168. The pattern
`(Txid, Tx) | (Txid, Tx)` of line 157 repeats the same alternative, so `(Tx, Txid)` falls to the error. -/
def PubWitness.merge : PubWitness → PubWitness → Except MergeErr PubWitness
  | .txid a, .txid b => if a = b then .ok (.txid a) else .error (.txidMismatch a b)
  | .txid a, .tx t => if a = t.txid then .ok (.tx t) else .error (.txidMismatch a t.txid)
  | .tx a, .tx b => if a.txid = b.txid then .ok (.tx a) else .error (.txidMismatch a.txid b.txid)
  | .tx a, .txid b => .error (.txidMismatch a.txid b)

/-- `XPubWitness = XChain<PubWitness>`, /repo/src/containers/anchors.rs:78. -/
structure XPubWitness where
  chain : Layer1
  pub : PubWitness
  deriving DecidableEq, Repr

/-- `to_witness_id`, /repo/src/containers/anchors.rs:84-86. -/
def XPubWitness.id (w : XPubWitness) : WitnessId := ⟨w.chain, w.pub.id⟩

/-- `MergeReveal for XPubWitness`, /repo/src/containers/anchors.rs:88-105. -/
def XPubWitness.merge (a b : XPubWitness) : Except MergeErr XPubWitness :=
  match a.chain, b.chain with
  | .bitcoin, .liquid => .error (.chainMismatch a.pub.id b.pub.id)
  | .liquid, .bitcoin => .error (.chainMismatch b.pub.id a.pub.id)
  | c, _ =>
    match a.pub.merge b.pub with
    | .error e => .error e
    | .ok p => .ok ⟨c, p⟩

/-- `Anchor<mpc::MerkleBlock, _>`: DBC proof, Merkle root and the known protocol → message entries
(contract id → bundle id), /repo/src/containers/anchors.rs:440-450. -/
structure Anchor where
  proof : Nat
  root : Nat
  known : OMap Nat Nat
  deriving DecidableEq, Repr

inductive AnchorErr where
  | dbcMismatch
  | unrelatedProof
  deriving DecidableEq, Repr

/-- `Anchor::merge_reveal` of the bp-core dependency (not in /repo; called in
/repo/src/containers/anchors.rs:477-502): fails for different DBC proofs or different Merkle roots,
otherwise collects the known entries of both. -/
def Anchor.merge (a b : Anchor) : Except AnchorErr Anchor :=
  if a.proof ≠ b.proof then .error .dbcMismatch
  else if a.root ≠ b.root then .error .unrelatedProof
  else .ok ⟨a.proof, a.root, OMap.extend a.known b.known⟩

/-- `AnchorSet`, /repo/src/containers/anchors.rs:440-450. -/
inductive AnchorSet where
  | tapret (a : Anchor)
  | opret (a : Anchor)
  | double (tapret opret : Anchor)
  deriving DecidableEq, Repr

/-- `AnchorSet::merge_reveal`, /repo/src/containers/anchors.rs:475-504. -/
def AnchorSet.merge : AnchorSet → AnchorSet → Except AnchorErr AnchorSet
  | .tapret a, .tapret b => (a.merge b).map .tapret
  | .opret a, .opret b => (a.merge b).map .opret
  | .tapret t, .opret o => .ok (.double t o)
  | .opret o, .tapret t => .ok (.double t o)
  | .double t o, .tapret t' => (t.merge t').map (fun x => .double x o)
  | .tapret t', .double t o => (t.merge t').map (fun x => .double x o)
  | .double t o, .opret o' => (o.merge o').map (fun x => .double t x)
  | .opret o', .double t o => (o.merge o').map (fun x => .double t x)
  | .double t o, .double t' o' =>
    match t.merge t' with
    | .error e => .error e
    | .ok x => (o.merge o').map (fun y => .double x y)

/-- `AnchorSet::has_tapret`, /repo/src/containers/anchors.rs:471. -/
def AnchorSet.hasTapret : AnchorSet → Bool
  | .tapret _ => true
  | .double _ _ => true
  | .opret _ => false

/-- `AnchorSet::has_opret`, /repo/src/containers/anchors.rs:473. -/
def AnchorSet.hasOpret : AnchorSet → Bool
  | .opret _ => true
  | .double _ _ => true
  | .tapret _ => false

/-- `AnchorSet::known_bundle_ids`, /repo/src/containers/anchors.rs:457-469. -/
def AnchorSet.knownBundleIds : AnchorSet → List Nat
  | .tapret a => OMap.vals a.known
  | .opret a => OMap.vals a.known
  | .double t o => OMap.vals (OMap.extend t.known o.known)

/-! ## Revealing seals -/

/-- Body of the loop in `TypedAssigns::reveal_seal`, /repo/src/contract/assignments.rs:211-229. -/
def Assign.revealSeal (H : Commit) (sl : Seal) : Assign → Assign
  | .confidentialSeal h st =>
    if h = H.sealHash sl then .revealed sl st else .confidentialSeal h st
  | .confidential h t =>
    if h = H.sealHash sl then .confidentialState sl t else .confidential h t
  | a => a

/-- `TypedAssignsExt::reveal_seal`, /repo/src/contract/assignments.rs:205-239. -/
def TypedAssigns.revealSeal (H : Commit) (sl : Seal) (t : TypedAssigns) : TypedAssigns :=
  { t with items := t.items.map (Assign.revealSeal H sl) }

def Op.revealSeal (H : Commit) (sl : Seal) (o : Op) : Op :=
  { o with assigns := OMap.mapVals (TypedAssigns.revealSeal H sl) o.assigns }

/-- `known_transitions.values_mut()…for_each(|a| a.reveal_seal(seal))`,
/repo/src/containers/anchors.rs:251-256. -/
def Bundle.revealSeal (H : Commit) (sl : Seal) (b : Bundle) : Bundle :=
  { b with known := OMap.mapVals (Op.revealSeal H sl) b.known }

/-- `DbcProof`: which closing method, and the proof data; /repo/src/containers/anchors.rs:206-232. -/
structure DbcProof where
  method : CloseMethod
  data : Nat
  deriving DecidableEq, Repr

/-- `ClientBundle`, /repo/src/containers/anchors.rs:285-289. -/
structure ClientBundle where
  mpc : Nat
  dbc : DbcProof
  bundle : Bundle
  deriving DecidableEq, Repr

/-- `ClientBundle::new`, /repo/src/containers/anchors.rs:292-303; `none` is the panic. -/
def ClientBundle.new (mpc : Nat) (dbc : DbcProof) (b : Bundle) : Option ClientBundle :=
  if dbc.method = b.closeMethod then some ⟨mpc, dbc, b⟩ else none

/-- `ClientBundle::reveal_transition`, /repo/src/containers/anchors.rs:307-324.
Simplification: the confinement error of the insertion (line 321, `expect`) is not modelled. -/
def ClientBundle.revealTransition (H : Commit) (c : ClientBundle) (t : Op) :
    Except Nat (Bool × ClientBundle) :=
  let opid := t.id H
  if (OMap.vals c.bundle.inputMap).all (fun i => i ≠ opid) then .error opid
  else if OMap.contains c.bundle.known opid then .ok (false, c)
  else .ok (true, { c with bundle := { c.bundle with known := OMap.insert c.bundle.known opid t } })

/-- `AnchoredBundles`, /repo/src/containers/anchors.rs:334-344. The proof type of each variant is in the
`dbc.method` of its client bundle. -/
inductive AnchoredBundles where
  | tapret (c : ClientBundle)
  | opret (c : ClientBundle)
  | double (tapret opret : ClientBundle)
  deriving DecidableEq, Repr

/-- `From<ClientBundle> for AnchoredBundles`, /repo/src/containers/anchors.rs:350-361. `ClientBundle::new`
is called again there; its assertion holds for every value built with `new`. -/
def AnchoredBundles.of (c : ClientBundle) : AnchoredBundles :=
  match c.dbc.method with
  | .opretFirst => .opret c
  | .tapretFirst => .tapret c

/-- `AnchoredBundles::iter` / `into_iter`, /repo/src/containers/anchors.rs:386-430. -/
def AnchoredBundles.list : AnchoredBundles → List ClientBundle
  | .tapret c => [c]
  | .opret c => [c]
  | .double t o => [t, o]

/-- `AnchoredBundles::bundles`, /repo/src/containers/anchors.rs:364-373. -/
def AnchoredBundles.bundles (a : AnchoredBundles) : List Bundle := a.list.map ClientBundle.bundle

/-- `WitnessBundle`, /repo/src/containers/anchors.rs:180-183; `Eq`/`Ord` compare the witness only. -/
structure WitnessBundle where
  pub : XPubWitness
  anchored : AnchoredBundles
  deriving DecidableEq, Repr

def WitnessBundle.id (w : WitnessBundle) : WitnessId := w.pub.id

inductive DoubleErr where
  | alreadyDouble (w : WitnessId)
  | sameBundleType (w : WitnessId)
  deriving DecidableEq, Repr

/-- `WitnessBundle::with`, /repo/src/containers/anchors.rs:199-204. -/
def WitnessBundle.with_ (p : XPubWitness) (c : ClientBundle) : WitnessBundle := ⟨p, .of c⟩

/-- `WitnessBundle::into_double`, /repo/src/containers/anchors.rs:206-232. -/
def WitnessBundle.intoDouble (w : WitnessBundle) (c : ClientBundle) : Except DoubleErr WitnessBundle :=
  match w.anchored, c.dbc.method with
  | .double _ _, _ => .error (.alreadyDouble w.id)
  | .opret o, .tapretFirst => .ok { w with anchored := .double c o }
  | .tapret t, .opretFirst => .ok { w with anchored := .double t c }
  | _, _ => .error (.sameBundleType w.id)

def ClientBundle.revealSeal (H : Commit) (sl : Seal) (c : ClientBundle) : ClientBundle :=
  { c with bundle := c.bundle.revealSeal H sl }

/-- `WitnessBundle::reveal_seal`, /repo/src/containers/anchors.rs:236-260. -/
def WitnessBundle.revealSeal (H : Commit) (w : WitnessBundle) (bundleId : Nat) (sl : Seal) :
    Bool × WitnessBundle :=
  match w.anchored with
  | .tapret t =>
    if t.bundle.id H = bundleId then (true, { w with anchored := .tapret (t.revealSeal H sl) })
    else (false, w)
  | .opret o =>
    if o.bundle.id H = bundleId then (true, { w with anchored := .opret (o.revealSeal H sl) })
    else (false, w)
  | .double t o =>
    if t.bundle.id H = bundleId then (true, { w with anchored := .double (t.revealSeal H sl) o })
    else if o.bundle.id H = bundleId then
      (true, { w with anchored := .double t (o.revealSeal H sl) })
    else (false, w)

/-- Inner loop of `reveal_terminal_seals`, /repo/src/containers/consignment.rs:296-300; `f` is the
caller's closure, `terminals` the entries (bundle id, secret seal). -/
def WitnessBundle.revealTerminals {ε : Type} (H : Commit) (f : Nat → Except ε (Option Seal)) :
    List (Nat × Nat) → WitnessBundle → Except ε WitnessBundle
  | [], w => .ok w
  | (bid, secret) :: rest, w =>
    match f secret with
    | .error e => .error e
    | .ok none => revealTerminals H f rest w
    | .ok (some sl) => revealTerminals H f rest (w.revealSeal H bid sl).2

/-- Outer loop of `reveal_terminal_seals`, /repo/src/containers/consignment.rs:295-303. The bundles of a
consignment are a set ordered by witness id, and witness ids don't change here, so that pushing to the new
set keeps all of them in the same order. -/
def revealTerminalSeals {ε : Type} (H : Commit) (f : Nat → Except ε (Option Seal))
    (terminals : List (Nat × Nat)) : List WitnessBundle → Except ε (List WitnessBundle)
  | [] => .ok []
  | w :: rest =>
    match w.revealTerminals H f terminals with
    | .error e => .error e
    | .ok w' =>
      match revealTerminalSeals H f terminals rest with
      | .error e => .error e
      | .ok ws => .ok (w' :: ws)

end Rgb
