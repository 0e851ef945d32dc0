import Verif.Spec.Index
import Verif.Spec.Stock

/-!
Vocabulary for C90: the limits of the collections which a stock is stored in.
-/

namespace Rgb

/-- Every collection of the stock which is limited to 255 items (`TinyOrdMap`, `TinyOrdSet`) has at most so many, and every list of signatures has 1 to 10
(`NonEmptyOrdMap<Identity, SigBlob, 10>`). The format in which stocks are stored, /repo/src/persistence/memory.rs:86-105, 491-500, 717-728, 1194-1214 and
/repo/src/containers/util.rs:118-124, can't hold more. -/
structure Stock.InLimits (k : Stock) : Prop where
  schemata : k.stash.schemata.length ≤ 255
  impls : ∀ i si, k.stash.schema i = some si → si.iimpls.length ≤ 255
  ifaces : k.stash.ifaces.length ≤ 255
  geneses : k.stash.geneses.length ≤ 255
  supplemented : k.stash.suppl.length ≤ 255
  supplements : ∀ r, (k.stash.supplements r).length ≤ 255
  sigs : ∀ c l, k.stash.sigsFor c = some l → 1 ≤ l.length ∧ l.length ≤ 10
  contracts : k.state.contracts.length ≤ 255
  indexed : k.index.contracts.length ≤ 255
  witnesses : ∀ b l, OMap.get? k.index.bundleWitness b = some l → l.length ≤ 255
  terminals : ∀ s l, OMap.get? k.index.terminals s = some l → l.length ≤ 255

/-- Some of these collections is full (those of signatures left out). -/
inductive Stock.Full (k : Stock) : Prop
  | schemata (h : k.stash.schemata.length = 255)
  | impls (i : Nat) (si : SchemaIfaces) (hi : k.stash.schema i = some si) (h : si.iimpls.length = 255)
  | ifaces (h : k.stash.ifaces.length = 255)
  | geneses (h : k.stash.geneses.length = 255)
  | supplemented (h : k.stash.suppl.length = 255)
  | supplements (r : Nat) (h : (k.stash.supplements r).length = 255)
  | contracts (h : k.state.contracts.length = 255)
  | indexed (h : k.index.contracts.length = 255)
  | witnesses (b : Nat) (l : OSet WitnessId) (hb : OMap.get? k.index.bundleWitness b = some l) (h : l.length = 255)

/-- The errors for a lack of room. -/
def StockErr.noRoom : StockErr → Bool
  | .stash .confinement => true
  | .state .confinement => true
  | .index .confinement => true
  | _ => false

/-- The event is refused for a lack of room, and leaves the stock `k'`. -/
def StockEvent.NoRoom (H : Commit) (I : Ids) (M : Mpc) (G : SchemaDoc → SchemaGlobals) (k k' : Stock) : StockEvent → Prop
  | .consignment con r => ∃ e, k.consumeConsignment H I M G r con = some (k', some (.body e)) ∧ e.noRoom = true
  | .fascia f r => ∃ e, k.consumeFascia H r f = some (k', some (.body e)) ∧ e.noRoom = true
  | .kit x => ∃ s, k.stash.consumeKit I x = some (s, .error .confinement) ∧ k' = { k with stash := s }
  | _ => False

/-- The event brings output `o` which is hidden under the secret (after the seals known to the stock are revealed). -/
inductive StockEvent.Hides (H : Commit) (k : Stock) : StockEvent → Nat → Opout → Prop
  | consignment (con con' : Consignment) (r : Resolver) (secret : Nat) (o : Opout) (hc : k.stash.resolveSecrets H con = .ok con')
      (h : IdxOp.Secret H (.consignment con'.data) secret o) : Hides H k (.consignment con r) secret o
  | fascia (f : Stock.Fascia) (r : Resolver) (c : Nat) (b : Bundle) (secret : Nat) (o : Opout) (hb : (c, b) ∈ f.bundles)
      (h : IdxOp.Secret H (.bundle c b f.witness.id) secret o) : Hides H k (.fascia f r) secret o

end Rgb
