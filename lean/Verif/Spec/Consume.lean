import Verif.Spec.Receive
import Verif.Spec.Payment
import Verif.Spec.Kept

/-!
Vocabulary for C94: when a stock can take a fascia.
-/

namespace Rgb.Stock

/-- The operations in the bundles of a fascia. -/
def Fascia.ops (f : Fascia) : List Op := f.bundles.flatMap (fun e => OMap.vals e.2.known)

/-- How many assignments in the fascia are to the secret seal `s` without showing it. -/
def Fascia.hiddenTo (H : Commit) (f : Fascia) (s : Nat) : Nat := (f.ops.map (Op.hiddenTo H s)).sum

/-- How many times the bundle with the id is in the fascia. -/
def Fascia.timesBundle (H : Commit) (f : Fascia) (b : Nat) : Nat := (f.bundles.filter (fun e => decide (e.2.id H = b))).length

/-- The fascia alone is such that it can be taken. -/
structure Fascia.Coherent (H : Commit) (r : Resolver) (f : Fascia) : Prop where
  /-- the resolver answers for the witness, if there is any transition -/
  resolved : f.ops ≠ [] → (r f.witness.id).isSome = true
  /-- the visible seals have transactions, or are on the chain of the witness -/
  seals : ∀ t ∈ f.ops, ∀ a ∈ t.assigned, ∀ x, a.seal? = some x → (x.toOutputWith f.witness.id).isSome = true
  /-- a bundle is of one contract, -/
  bundles : ∀ e ∈ f.bundles, ∀ e' ∈ f.bundles, e.2.id H = e'.2.id H → e.1 = e'.1
  /-- and no transition is in two bundles -/
  ops : ∀ e ∈ f.bundles, ∀ e' ∈ f.bundles, ∀ o, OMap.contains e.2.known o = true → OMap.contains e'.2.known o = true → e.2.id H = e'.2.id H

/-- The stock knows the contracts of the fascia, and has nothing contradicting it. -/
structure Consistent (H : Commit) (k : Stock) (f : Fascia) : Prop where
  /-- the contracts are in the state, with the global state which the transitions add to, -/
  state : ∀ e ∈ f.bundles, ∃ cs, OMap.get? k.state.contracts e.1 = some cs ∧
    ∀ t ∈ OMap.vals e.2.known, ∀ g ∈ t.globals, OMap.contains cs.global g.1 = true
  /-- and those with transitions assigning anything are in the index -/
  index : ∀ e ∈ f.bundles, (∃ t ∈ OMap.vals e.2.known, t.assigns ≠ []) → OMap.contains k.index.contracts e.1 = true
  /-- bundles aren't known to be of other contracts, nor transitions to be in other bundles -/
  bundles : ∀ e ∈ f.bundles, (∀ c, OMap.get? k.index.bundleContract (e.2.id H) = some c → c = e.1) ∧
    (∀ o i, OMap.contains e.2.known o = true → OMap.get? k.index.opBundle o = some i → i = e.2.id H)
  /-- the witness can be merged with the known one: the transaction isn't known yet or comes again, and known anchors are the same -/
  witness : ∀ sw, k.stash.witness f.witness.id = some sw → (sw.pub.pub.tx? = none ∨ f.witness.pub.tx?.isSome = true) ∧
    ∀ m a a', anchorOf sw.anchors m = some a → anchorOf f.anchor m = some a' → a.proof = a'.proof ∧ a.root = a'.root

/-- The stock has room for the fascia: in the sets of the index which are limited to 255 members. -/
structure Holds (H : Commit) (k : Stock) (f : Fascia) : Prop where
  witnesses : ∀ b, ((OMap.get? k.index.bundleWitness b).getD []).length + f.timesBundle H b ≤ 255
  terminals : ∀ s, ((OMap.get? k.index.terminals s).getD []).length + f.hiddenTo H s ≤ 255

/-- The fascia is made of transitions of the batch: they are in different bundles, which have different ids, and none of the bundles is empty. -/
structure Fascia.MadeOf (H : Commit) (f : Fascia) (b : Batch) : Prop where
  batch : ∀ e ∈ f.bundles, e.2.known ≠ [] ∧ ∀ u ∈ OMap.vals e.2.known, ∃ t ∈ b.transitionsOf e.1, t.op = u
  ids : (f.bundles.map (fun e => e.2.id H)).Nodup
  once : ∀ e ∈ f.bundles, ∀ e' ∈ f.bundles, ∀ o, OMap.contains e.2.known o = true → OMap.contains e'.2.known o = true → e = e'

/-- The index of the stock has neither the bundles nor the transitions of the fascia, and its stash hasn't the witness. -/
structure Unknown (H : Commit) (k : Stock) (f : Fascia) : Prop where
  witness : k.stash.witness f.witness.id = none
  bundles : ∀ e ∈ f.bundles, OMap.get? k.index.bundleContract (e.2.id H) = none
  ops : ∀ e ∈ f.bundles, ∀ o, OMap.contains e.2.known o = true → OMap.get? k.index.opBundle o = none

end Rgb.Stock
