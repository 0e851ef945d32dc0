import Verif.Spec.Receive
import Verif.Spec.StoreTx

/-!
Vocabulary for repeating an interrupted operation (C83).
-/

namespace Rgb

/-- What can be loaded after an operation turning the stock `old` into `new` was stopped before its end: the stores are written in the order index, state, stash
(see `C35_combinations`, which shows that these are the combinations). -/
def Interrupted (old new m : Stock) : Prop := m = old ∨ m = ⟨old.stash, old.state, new.index⟩ ∨ m = ⟨old.stash, new.state, new.index⟩

/-- There is room in the sets of the index which are limited to 255 members: the witnesses of the given bundles and the outputs of the given hidden seals. -/
structure IndexRoom (x : Index) (bundle hidden : Nat → Prop) : Prop where
  witnesses : ∀ b ws, bundle b → OMap.get? x.bundleWitness b = some ws → ws.length < 255
  terminals : ∀ s os, hidden s → OMap.get? x.terminals s = some os → os.length < 255

/-- There is room for the bundles and hidden seals of a consignment. -/
def IndexRoom.consignment (H : Commit) (x : Index) (con : Consignment) : Prop :=
  IndexRoom x (fun b => 0 < con.data.timesBundle H b) (fun s => 0 < con.data.hiddenTo H s)

/-- There is room for the bundles and hidden seals of a fascia. -/
def IndexRoom.fascia (H : Commit) (x : Index) (f : Stock.Fascia) : Prop :=
  IndexRoom x (fun b => ∃ e ∈ f.bundles, e.2.id H = b) (fun s => ∃ e ∈ f.bundles, ∃ t ∈ OMap.vals e.2.known, 0 < t.hiddenTo H s)

/-- What can be loaded after any number of attempts at an action, each of which was stopped before its end. The attempts may have different resolvers. -/
inductive StoppedOften (act : Resolver → Stock → Option (Stock × Option (TxErr StockErr))) (resolves : Resolver → Prop) (k : Stock) : Stock → Prop
  | never : StoppedOften act resolves k k
  | again {m k' m' : Stock} {r : Resolver} (h : StoppedOften act resolves k m) (hr : resolves r) (ha : act r m = some (k', none)) (hi : Interrupted m k' m') :
      StoppedOften act resolves k m'

end Rgb
