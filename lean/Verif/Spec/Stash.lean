import Verif.Model.Stash
import Verif.Spec.Merge

/-!
Vocabulary for C30–C33: one object showing everything which another one shows, and a stash keeping
everything which could be read from it.
-/

namespace Rgb

/-- `b` is the same operation as `a` and shows every seal and every state which `a` shows. -/
structure Op.ShownBy (H : Commit) (a b : Op) : Prop where
  id : b.id H = a.id H
  seals : ∀ ty i x, a.sealAt? ty i = some x → b.sealAt? ty i = some x
  states : ∀ ty i x, a.stateAt? ty i = some x → b.stateAt? ty i = some x

/-- `b` is the same bundle as `a`, knows every transition which `a` knows, and shows everything about them. -/
structure Bundle.ShownBy (H : Commit) (a b : Bundle) : Prop where
  id : b.id H = a.id H
  known : ∀ k t, OMap.get? a.known k = some t → ∃ u, OMap.get? b.known k = some u ∧ Op.ShownBy H t u

/-- The contracts which the anchors of one closing method are known to have bundles of. -/
def AnchorSet.knows (s : AnchorSet) (m : CloseMethod) (contract : Nat) : Prop :=
  match m, s with
  | .tapretFirst, .tapret a => contract ∈ OMap.keys a.known
  | .tapretFirst, .double a _ => contract ∈ OMap.keys a.known
  | .opretFirst, .opret a => contract ∈ OMap.keys a.known
  | .opretFirst, .double _ a => contract ∈ OMap.keys a.known
  | _, _ => False

/-- The Merkle block made from a proof of a bundle of a contract knows the contract. -/
structure Mpc.Lawful (M : Mpc) : Prop where
  block : ∀ proof contract bundle p, M.block proof contract bundle = some p → contract ∈ OMap.keys p.2

/-- The anchor of a closing method. -/
def Stock.anchorOf (a : AnchorSet) (m : CloseMethod) : Option Anchor :=
  match a, m with
  | .tapret t, .tapretFirst => some t
  | .double t _, .tapretFirst => some t
  | .opret o, .opretFirst => some o
  | .double _ o, .opretFirst => some o
  | .tapret _, .opretFirst => none
  | .opret _, .tapretFirst => none

/-- `b` is the same witness as `a`, has the transaction if `a` has it, and the anchors of `a`, with the same proofs and Merkle roots. -/
structure SealWitness.ShownBy (a b : SealWitness) : Prop where
  id : b.id = a.id
  tx : a.pub.pub.tx?.isSome = true → b.pub.pub.tx?.isSome = true
  anchors : ∀ m c, a.anchors.knows m c → b.anchors.knows m c
  proofs : ∀ m x, Stock.anchorOf a.anchors m = some x → ∃ y, Stock.anchorOf b.anchors m = some y ∧ y.proof = x.proof ∧ y.root = x.root

/-- Everything readable from the stash `s` is readable from the stash `t`, with the same id, showing at least as much. -/
structure MemStash.Grows (H : Commit) (s t : MemStash) : Prop where
  schema : ∀ i d, s.schema i = some d → ∃ e, t.schema i = some e ∧ e.doc = d.doc ∧
    ∀ n, (OMap.get? d.iimpls n).isSome = true → (OMap.get? e.iimpls n).isSome = true
  iface : ∀ i d, s.ifaceById i = some d → t.ifaceById i = some d
  lib : ∀ i, (s.lib i).isSome = true → (t.lib i).isSome = true
  genesis : ∀ i g, s.genesis i = some g → ∃ g', t.genesis i = some g' ∧ g.ShownBy H g'
  extension : ∀ i g, s.extension i = some g → ∃ g', t.extension i = some g' ∧ g.ShownBy H g'
  bundle : ∀ i b, s.bundle i = some b → ∃ b', t.bundle i = some b' ∧ b.ShownBy H b'
  witness : ∀ i w, s.witness i = some w → ∃ w', t.witness i = some w' ∧ w.ShownBy w'
  seals : ∀ x, x ∈ s.secretSeals → x ∈ t.secretSeals
  types : ∀ x, x ∈ s.types → x ∈ t.types
  supplements : ∀ r x, x ∈ s.supplements r → x ∈ t.supplements r
  attachments : ∀ i, OMap.contains s.attachments i = true → OMap.contains t.attachments i = true
  sigs : ∀ c m i, s.sigsFor c = some m → OMap.contains m i = true →
    ∃ m', t.sigsFor c = some m' ∧ OMap.contains m' i = true

/-- The stored operations and bundles are values of their types, of the right kind, stored under their ids. -/
structure MemStash.Good (H : Commit) (s : MemStash) : Prop where
  genesis : ∀ i g, s.genesis i = some g → g.contractId H = i ∧ g.kind = .genesis ∧ g.WF
  extension : ∀ i g, s.extension i = some g → g.id H = i ∧ g.WF
  bundle : ∀ i b, s.bundle i = some b → b.id H = i ∧ b.WF H
  witness : ∀ i w, s.witness i = some w → w.id = i

/-- The operations and bundles of a consignment are values of their types, of the right kind. -/
structure Consignment.Proper (H : Commit) (c : Consignment) : Prop where
  genesisKind : c.data.genesis.kind = .genesis
  genesis : c.data.genesis.WF
  extensions : ∀ e ∈ c.data.extensions, e.WF
  bundles : ∀ w ∈ c.data.bundles, ∀ b ∈ w.anchored.bundles, b.WF H

end Rgb

namespace Rgb

/-- What the stock does with its stash: consuming a validated consignment, importing a kit, consuming a bundle and a
witness of a fascia, storing a secret seal, setting a trust level;
/repo/src/persistence/stock.rs:1278-1355 and 1402-1407. -/
inductive StashEvent where
  | consignment (c : Consignment)
  | kit (k : Kit)
  | bundle (b : Bundle)
  | witness (w : SealWitness)
  | secretSeal (x : Seal)
  | trust (i : Nat) (t : TrustLevel)

/-- The operations and bundles of the event are values of their types. -/
def StashEvent.Proper (H : Commit) : StashEvent → Prop
  | .consignment c => c.Proper H
  | .bundle b => b.WF H
  | _ => True

def StashEvent.exec (H : Commit) (I : Ids) (M : Mpc) (s : MemStash) : StashEvent → Option MemStash
  | .consignment c => (s.consumeConsignment H I M c).map Prod.fst
  | .kit k => (s.consumeKit I k).map Prod.fst
  | .bundle b => (s.consumeBundle H b).map Prod.fst
  | .witness w => (s.consumeWitness w).map Prod.fst
  | .secretSeal x => (s.addSecretSeal x).map Prod.fst
  | .trust i t => (s.setTrust i t).map Prod.fst

/-- Any history of events, succeeding or failing; `none` if one of them panics. -/
def runStash (H : Commit) (I : Ids) (M : Mpc) : List StashEvent → MemStash → Option MemStash
  | [], s => some s
  | e :: rest, s => (e.exec H I M s).bind (runStash H I M rest)

/-- The signature of content `c` by identity `i`. -/
def MemStash.sig? (s : MemStash) (c i : Nat) : Option Nat := (s.sigsFor c).bind (fun m => OMap.get? m i)

/-- A schema supports a class of interfaces with the given ids: it has an implementation of one of them, or the stash
knows one of them which inherits an implemented one. -/
def MemStash.Supports (I : Ids) (s : MemStash) (ids : List Nat) (si : SchemaIfaces) : Prop :=
  ∃ x ∈ OMap.vals si.iimpls, x.ifaceId ∈ ids ∨
    ∃ i ∈ ids, ∃ d, s.ifaceById i = some d ∧ (x.ifaceId = I.iface d ∨ x.ifaceId ∈ d.inherits)

namespace MemStash

/-- All objects are stored under their ids. -/
structure Addressed (H : Commit) (I : Ids) (s : MemStash) : Prop where
  schema : ∀ i d, s.schema i = some d → I.schema d.doc = i
  iface : ∀ i d, s.ifaceById i = some d → I.iface d = i
  lib : ∀ i l, s.lib i = some l → I.lib l = i
  genesis : ∀ i g, s.genesis i = some g → g.contractId H = i
  extension : ∀ i e, s.extension i = some e → e.id H = i
  bundle : ∀ i b, s.bundle i = some b → b.id H = i
  witness : ∀ i w, s.witness i = some w → w.id = i
  supplements : ∀ r x, x ∈ s.supplements r → x.ref = r

/-- The schema with id `i` has an implementation under the name of the known interface with id `j`. -/
def Implemented (s : MemStash) (i j : Nat) : Prop :=
  ∃ si d, s.schema i = some si ∧ s.ifaceById j = some d ∧ (OMap.get? si.iimpls d.name).isSome = true

/-- What is available in `s` is available in `t`. A schema stays with implementations for the names which it had, maybe others (`C30_implementation_fails`). -/
structure Keeps (s t : MemStash) : Prop where
  schema : ∀ i d, s.schema i = some d → ∃ e, t.schema i = some e ∧ e.doc = d.doc ∧
    ∀ n, (OMap.get? d.iimpls n).isSome = true → (OMap.get? e.iimpls n).isSome = true
  iface : ∀ i d, s.ifaceById i = some d → t.ifaceById i = some d
  lib : ∀ i, (s.lib i).isSome = true → (t.lib i).isSome = true
  genesis : ∀ i, (s.genesis i).isSome = true → (t.genesis i).isSome = true
  extension : ∀ i, (s.extension i).isSome = true → (t.extension i).isSome = true
  bundle : ∀ i, (s.bundle i).isSome = true → (t.bundle i).isSome = true
  witness : ∀ i, (s.witness i).isSome = true → (t.witness i).isSome = true
  supplements : ∀ r x, x ∈ s.supplements r → x ∈ t.supplements r
  types : ∀ x, x ∈ s.types → x ∈ t.types
  seals : ∀ x, x ∈ s.secretSeals → x ∈ t.secretSeals
  sigs : ∀ c i, (s.sig? c i).isSome = true → (t.sig? c i).isSome = true
  attachments : ∀ i, OMap.contains s.attachments i = true → OMap.contains t.attachments i = true

end MemStash

end Rgb
