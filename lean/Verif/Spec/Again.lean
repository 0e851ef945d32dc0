import Verif.Spec.Resume

/-!
Vocabulary for accepting a consignment twice (C84).
-/

namespace Rgb

/-- The entries of an anchor are a map, and they are those of a tree of commitments: `tree root protocol` is the message which the tree with this Merkle root has for the protocol. -/
structure Anchor.In (tree : Nat → Nat → Option Nat) (a : Anchor) : Prop where
  sorted : OMap.Sorted a.known
  agrees : ∀ protocol message, OMap.get? a.known protocol = some message → tree a.root protocol = some message

/-- The same for both anchors of a set. -/
def AnchorSet.In (tree : Nat → Nat → Option Nat) : AnchorSet → Prop
  | .tapret a => a.In tree
  | .opret a => a.In tree
  | .double a b => a.In tree ∧ b.In tree

/-- A Merkle root has one message for a protocol: both what is computed from proofs and what is stored agree with the same trees. -/
structure OneTree (M : Mpc) (s : MemStash) : Prop where
  exists_tree : ∃ tree : Nat → Nat → Option Nat,
    (∀ proof p m root known, M.block proof p m = some (root, known) → OMap.Sorted known ∧ ∀ q n, OMap.get? known q = some n → tree root q = some n) ∧
    (∀ w sw, s.witness w = some sw → sw.anchors.In tree)

/-- The same for the anchors of a fascia. -/
def SameTrees (a : AnchorSet) (s : MemStash) : Prop :=
  ∃ tree : Nat → Nat → Option Nat, a.In tree ∧ ∀ w sw, s.witness w = some sw → sw.anchors.In tree

/-- Signatures of a consignment are maps: one entry of a content, and one signature of a signer for a content. -/
structure Consignment.OneSig (con : Consignment) : Prop where
  contents : (con.signatures.map Prod.fst).Nodup
  signers : ∀ e ∈ con.signatures, (e.2.map Prod.fst).Nodup

/-- There is room in the collections of the stash which are limited to 255 members and to which a consignment adds even what is there: contracts, implementations
of the interfaces by the schema, supplements. -/
structure StashRoom (s : MemStash) (con : Consignment) : Prop where
  geneses : s.geneses.length < 255
  iimpls : ∀ e ∈ con.ifaces, ∀ si, s.schema e.2.schemaId = some si → si.iimpls.length < 255
  suppl : ∀ x ∈ con.supplements, (s.supplements x.ref).length < 255

end Rgb
