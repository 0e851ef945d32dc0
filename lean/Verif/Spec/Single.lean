import Verif.Spec.Supply
import Verif.Spec.Compose

/-!
Vocabulary for C103: payments which close the seals of what they spend.
-/

namespace Rgb

/-- The fascia is made as the batch says: its transaction is the one which spends the outputs listed with the transitions, and each bundle is committed to with the closing method listed
with its transitions. `closer` tells by which
transaction an output is spent, if any, so that no output is spent by two. -/
def Stock.Fascia.Spends (closer : Outpoint → Option WitnessId) (f : Stock.Fascia) (b : Batch) : Prop :=
  ∀ i ∈ b.toList, ∀ e ∈ f.bundles, i.transition.op ∈ OMap.vals e.2.known → (∀ p ∈ i.inputs, closer p = some f.witness.id) ∧ e.2.closeMethod = i.method

/-- Wallets of a network as of `Honest`, in which moreover each payment is made in this way. -/
inductive Settled (E : CEnv) (M : Mpc) (G : SchemaDoc → SchemaGlobals) (L : Ledger) (closer : Outpoint → Option WitnessId) : List StockEvent → Stock → Prop
  | new : Settled E M G L closer [] .empty
  | own {es : List StockEvent} {k k' : Stock} {e : StockEvent} (h : Settled E M G L closer es k) (he : e.NoOps E.S) (hd : e.Done E.H E.I M G k k') :
      Settled E M G L closer (es ++ [e]) k'
  | issued {es : List StockEvent} {k k' : Stock} {con : Consignment} {r : Resolver} (h : Settled E M G L closer es k) (hb : con.data.bundles = [])
      (hc : Furnished E.H E.I E.S [.consignment con r]) (hf : con.Fits E) (hd : StockEvent.Done E.H E.I M G k k' (.consignment con r)) :
      Settled E M G L closer (es ++ [.consignment con r]) k'
  | spent {es : List StockEvent} {k k' : Stock} {W : Wallet} {inv : Inv.Invoice} {prevs : List OutSeal} {b : Batch} {f : Stock.Fascia} {r : Resolver} (h : Settled E M G L closer es k)
      (hb : Stock.compose E W k inv prevs = .ok b) (hf : f.MadeOf E.H b) (hcl : f.Spends closer b) (hu : k.Unknown E.H f) (hs : StockEvent.Sound E.H (.fascia f r))
      (hl : StockEvent.OnLedger E.H L (.fascia f r)) (ha : f.Attested E.H L) (hd : StockEvent.Done E.H E.I M G k k' (.fascia f r)) :
      Settled E M G L closer (es ++ [.fascia f r]) k'
  | received {es es₀ : List StockEvent} {k k' k₀ : Stock} {fuel c : Nat} {outputs : List Outpoint} {secret : Option Nat} {con : Consignment} {r : Resolver}
      (h₀ : Settled E M G L closer es₀ k₀) (ht : k₀.transfer E.H E.I E.S fuel c outputs secret = some (.ok con)) (hoc : k₀.OfContract c outputs secret)
      (h : Settled E M G L closer es k) (hd : StockEvent.Done E.H E.I M G k k' (.consignment con r)) : Settled E M G L closer (es ++ [.consignment con r]) k'

/-- The bundle closes the seals of what it spends: wherever a wallet of the network shows state at an output which a transition of the bundle spends, there the output is spent by the
transaction `w`, with the closing method of the bundle. -/
def Bundle.Closes (E : CEnv) (M : Mpc) (G : SchemaDoc → SchemaGlobals) (L : Ledger) (closer : Outpoint → Option WitnessId) (c : Nat) (b : Bundle) (w : WitnessId) : Prop :=
  ∀ t ∈ OMap.vals b.known, ∀ es k, Honest E M G L es k → ∀ v kind a, k.state.contractState c = .ok v → a ∈ v.all kind → a.opout ∈ t.inputs →
    closer a.sl.outpoint = some w ∧ a.sl.method = b.closeMethod

end Rgb
