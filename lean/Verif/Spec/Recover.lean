import Verif.Spec.Usable

/-!
Vocabulary for C79: what can be read off a stash alone.
-/

namespace Rgb

/-- The anchors of the closing method say that the witness commits to the bundle `i` of the contract. -/
def AnchorSet.Commits (s : AnchorSet) (m : CloseMethod) (contract i : Nat) : Prop :=
  match m, s with
  | .tapretFirst, .tapret a => (contract, i) ∈ a.known
  | .tapretFirst, .double a _ => (contract, i) ∈ a.known
  | .opretFirst, .opret a => (contract, i) ∈ a.known
  | .opretFirst, .double _ a => (contract, i) ∈ a.known
  | _, _ => False

/-- The stash tells of the operation of the contract, with the witness (none for a genesis and for extensions as such): it is the stored genesis;
or it is a transition of a stored bundle, and a stored witness has an anchor for this bundle of the contract; or it is a stored extension,
with the witness of such a transition which has an input from it. -/
inductive MemStash.Tells (H : Commit) (s : MemStash) (c : Nat) : Option WitnessId → Op → Prop
  | genesis (g : Op) (h : s.genesis c = some g) : Tells H s c none g
  | transition (i : Nat) (b : Bundle) (t : Op) (w : WitnessId) (sw : SealWitness) (hb : s.bundle i = some b)
      (ht : OMap.get? b.known (t.id H) = some t) (hw : s.witness w = some sw) (ha : sw.anchors.Commits b.closeMethod c i) : Tells H s c (some w) t
  | extension (e : Op) (he : s.extension (e.id H) = some e) (hc : e.contract = c) : Tells H s c none e
  | redeemed (e t : Op) (w : WitnessId) (he : s.extension (e.id H) = some e) (hc : e.contract = c) (ht : Tells H s c (some w) t)
      (hi : ∃ i ∈ t.inputs, i.op = e.id H) : Tells H s c (some w) e

/-- `C w m c i`: the witness transaction `w` commits with the closing method `m` to the bundle `i` of the contract `c`. It commits to at most one, and
what comes with the events of the history, having passed validation, is what it commits to. -/
structure Commitments (H : Commit) (M : Mpc) (C : WitnessId → CloseMethod → Nat → Nat → Prop) (es : List StockEvent) : Prop where
  one : ∀ w m c i j, C w m c i → C w m c j → i = j
  bundles : ∀ e ∈ es, ∀ c b w, e.Brings H c b w → C w b.closeMethod c (b.id H)
  proofs : ∀ con r, StockEvent.consignment con r ∈ es → ∀ wb ∈ con.data.bundles, ∀ x ∈ wb.anchored.list, ∀ p,
    M.block x.mpc (con.data.genesis.contractId H) (x.bundle.id H) = some p → ∀ c i, (c, i) ∈ p.2 → C wb.id x.dbc.method c i
  anchors : ∀ f r, StockEvent.fascia f r ∈ es → ∀ m c i, f.anchor.Commits m c i → C f.witness.id m c i
  /-- extensions are of the contract they come with -/
  extensions : ∀ con r, StockEvent.consignment con r ∈ es → ∀ e ∈ con.data.extensions, e.contract = con.data.genesis.contractId H

/-- The history went through validation, and whenever a bundle comes, it comes with the same transitions. -/
structure Whole (H : Commit) (es : List StockEvent) : Prop where
  sound : ∀ e ∈ es, e.Sound H
  same : ∀ e ∈ es, ∀ e' ∈ es, ∀ c b w c' b' w', e.Brings H c b w → e'.Brings H c' b' w' → b.id H = b'.id H →
    ∀ o, OMap.contains b.known o = true → OMap.contains b'.known o = true

/-- The operation has its output `o` with the given secret seal, shown or not. -/
def Op.HasSecret (H : Commit) (op : Op) (secret : Nat) (o : Opout) : Prop :=
  o.op = op.id H ∧ ∃ t a, OMap.get? op.assigns o.ty = some t ∧ t.items[o.no]? = some a ∧ a.secret H = secret

end Rgb
