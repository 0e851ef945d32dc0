import Verif.Spec.Payable
import Verif.Spec.Source
import Verif.Spec.Issue
import Verif.Spec.Pass
import Verif.Spec.Consume
import Verif.Spec.Onward

/-!
Vocabulary for C97: operations which conform to the schema of their contract, and what the owner of a wallet has to see to for a payment.
-/

namespace Rgb

/-- The state is one which the schema has for the type, and an amount has the asset tag which the genesis gives to the type. -/
def RState.Fits (E : CEnv) (d : SchemaDoc) (g : Op) (ty : Nat) (st : RState) : Prop :=
  (E.schemaOf d).Owns ty st ∧ ∀ v bl t, st = .fungible v bl t → OMap.get? (E.tagsOf g) ty = some t

/-- The visible states of the operation are such. -/
def Op.Fits (t : Op) (E : CEnv) (d : SchemaDoc) (g : Op) : Prop :=
  ∀ ty ta x st, OMap.get? t.assigns ty = some ta → x ∈ ta.items → x.state? = some st → st.Fits E d g ty

/-- The operations of a consignment conform to the schema and the asset tags in it. This is a part of what the validation of RGB Core checks. -/
def Consignment.Fits (con : Consignment) (E : CEnv) : Prop :=
  con.data.genesis.Fits E con.schema con.data.genesis ∧ (∀ t ∈ con.data.extensions, t.Fits E con.schema con.data.genesis) ∧
  ∀ wb ∈ con.data.bundles, ∀ b ∈ wb.anchored.bundles, ∀ t ∈ OMap.vals b.known, t.Fits E con.schema con.data.genesis

/-- All operations of a history conform to the schema and the asset tags of their contract, as given by the consignments of it. This is a part of
what the validation of RGB Core checks. -/
def Conforming (E : CEnv) (es : List StockEvent) : Prop :=
  ∀ c t w, Had E.H es c t w → ∀ con r, .consignment con r ∈ es → con.data.genesis.contractId E.H = c → t.Fits E con.schema con.data.genesis

/-- The id of a genesis commits to the asset tags in it. -/
def CEnv.TagsCommitted (E : CEnv) : Prop := ∀ g g' : Op, g.id E.H = g'.id E.H → E.tagsOf g = E.tagsOf g'

/-- What the owner of a wallet has to see to for a payment of an invoice out of the given outputs. Nothing is said about the documents which the stock has, nor about which state
it has, apart from the amounts of it.
* the invoice names the contract and the interface, isn't expired, and the type of the invoiced state is known;
* the wallet names an output for the beneficiary exactly if the invoice has an address and not a secret seal, and it gives outputs for change and
  for state which is moved;
* there is state of the contract at the outputs, in at most 255 allocations, no operation has state there with two witnesses, and the state suffices;
* for each other contract which assigns state to these outputs: its schema has some interface, and the same about the state;
* there are less than 2²⁴ - 1 of them;
* and `zero_balanced` doesn't fail. -/
structure Stock.Affords (E : CEnv) (W : Wallet) (k : Stock) (inv : Inv.Invoice) (prevs : List OutSeal) (c iface ty : Nat) : Prop where
  contract : inv.contract = some c
  named : ∃ n, inv.iface = some n ∧ iface = E.name n
  fresh : ∀ e, inv.expiry = some e → E.now ≤ e
  typed : k.invoiced E inv = some ty
  vout : W.vout.isSome = true ↔ ∃ p, inv.beneficiary.intoInner = .witnessVout p
  alloc : ∀ site c ty v, (W.alloc site c ty v).isSome = true
  few : ∀ id, id = c ∨ id ∈ k.index.contractsAssigning (prevs.map OutSeal.outpoint) → k.stateAt id prevs ≠ [] ∧ (k.stateAt id prevs).length ≤ 255 ∧
    ∀ a ∈ k.stateAt id prevs, ∀ a' ∈ k.stateAt id prevs, a.opout.op = a'.opout.op → a.witness = a'.witness
  enough : k.Suffices E prevs c ty inv.ownedState
  faced : ∀ id ∈ k.index.contractsAssigning (prevs.map OutSeal.outpoint), id ≠ c → ∀ g si, k.stash.genesis id = some g →
    k.stash.schema (E.I.genesisSchema g) = some si → si.iimpls ≠ []
  count : (k.index.contractsAssigning (prevs.map OutSeal.outpoint)).length < 16777215
  balance : ∀ ins outs, E.B.balance ins outs ≠ none

/-- What the transactions commit to. -/
structure Ledger where
  /-- the id of the bundle of a contract, by closing method -/
  bundle : WitnessId → Nat → CloseMethod → Nat
  /-- the proof of the commitment and the Merkle root which is committed to, by closing method -/
  anchor : WitnessId → CloseMethod → Nat × Nat
  /-- the contract of a transition, and the id of the bundle which it is in -/
  home : Nat → Nat × Nat

/-- The bundles in the event are those to which their witness transactions commit, and each is of one transition only. -/
def StockEvent.OnLedger (H : Commit) (L : Ledger) (e : StockEvent) : Prop :=
  ∀ c b w, e.Brings H c b w → L.bundle w c b.closeMethod = b.id H ∧ ∀ i ∈ OMap.vals b.inputMap, ∀ j ∈ OMap.vals b.inputMap, i = j

/-- The anchor is what the transaction commits to with the closing method, and the bundles which it knows are those of the ledger. -/
structure Ledger.Attests (L : Ledger) (w : WitnessId) (m : CloseMethod) (a : Anchor) : Prop where
  anchor : L.anchor w m = (a.proof, a.root)
  known : ∀ c b, (c, b) ∈ a.known → L.bundle w c m = b

/-- The fascia has the whole transaction and its anchors, and no transition is in two bundles or of two contracts. -/
structure Stock.Fascia.Attested (H : Commit) (L : Ledger) (f : Stock.Fascia) : Prop where
  tx : f.witness.pub.tx?.isSome = true
  anchors : ∀ m a, Stock.anchorOf f.anchor m = some a → L.Attests f.witness.id m a
  homes : ∀ c b, (c, b) ∈ f.bundles → ∀ o, OMap.contains b.known o = true → L.home o = (c, b.id H)

/-- A proof made of a Merkle block for a contract is a proof of the bundle which the block has for the contract, and gives the same root. -/
def Stock.Env.Restores (S : Stock.Env) (M : Mpc) : Prop :=
  ∀ root known c p, S.toProof root known c = some p → ∃ b, OMap.get? known c = some b ∧ M.block p c b = some (root, [(c, b)])

/-- Events which bring no operations: a kit which has the types of its interfaces, making a secret seal, changing a trust level, an update of the witnesses. -/
def StockEvent.NoOps (S : Stock.Env) : StockEvent → Prop
  | .consignment _ _ | .fascia _ _ => False
  | .kit x => ∀ d ∈ x.ifaces, ∀ ty ∈ S.ifaceTypes d, ty ∈ x.types
  | .secretSeal _ | .trust _ _ | .update _ _ => True

/-- Wallets of a network in which contracts are issued, invoices are paid and the payments are transferred, over and over again, by nothing but this library. `L` is what the transactions commit to.
* `new`: a wallet starts with nothing.
* `own`: it does something by which it gets no operations.
* `issued`: it imports a contract with a genesis only, which comes with its documents and conforms to its schema.
* `spent`: it composes a payment of any invoice out of any outputs, makes any fascia of it, for a new transaction, and consumes it.
* `received`: it accepts a transfer which another wallet of the network, or itself at some time, has made, of operations of one contract. -/
inductive Honest (E : CEnv) (M : Mpc) (G : SchemaDoc → SchemaGlobals) (L : Ledger) : List StockEvent → Stock → Prop
  | new : Honest E M G L [] .empty
  | own {es : List StockEvent} {k k' : Stock} {e : StockEvent} (h : Honest E M G L es k) (he : e.NoOps E.S) (hd : e.Done E.H E.I M G k k') : Honest E M G L (es ++ [e]) k'
  | issued {es : List StockEvent} {k k' : Stock} {con : Consignment} {r : Resolver} (h : Honest E M G L es k) (hb : con.data.bundles = [])
      (hc : Furnished E.H E.I E.S [.consignment con r]) (hf : con.Fits E) (hd : StockEvent.Done E.H E.I M G k k' (.consignment con r)) :
      Honest E M G L (es ++ [.consignment con r]) k'
  | spent {es : List StockEvent} {k k' : Stock} {W : Wallet} {inv : Inv.Invoice} {prevs : List OutSeal} {b : Batch} {f : Stock.Fascia} {r : Resolver} (h : Honest E M G L es k)
      (hb : Stock.compose E W k inv prevs = .ok b) (hf : f.MadeOf E.H b) (hu : k.Unknown E.H f) (hs : StockEvent.Sound E.H (.fascia f r)) (hl : StockEvent.OnLedger E.H L (.fascia f r))
      (ha : f.Attested E.H L) (hd : StockEvent.Done E.H E.I M G k k' (.fascia f r)) : Honest E M G L (es ++ [.fascia f r]) k'
  | received {es es₀ : List StockEvent} {k k' k₀ : Stock} {fuel c : Nat} {outputs : List Outpoint} {secret : Option Nat} {con : Consignment} {r : Resolver}
      (h₀ : Honest E M G L es₀ k₀) (ht : k₀.transfer E.H E.I E.S fuel c outputs secret = some (.ok con)) (hoc : k₀.OfContract c outputs secret)
      (h : Honest E M G L es k) (hd : StockEvent.Done E.H E.I M G k k' (.consignment con r)) : Honest E M G L (es ++ [.consignment con r]) k'

end Rgb
