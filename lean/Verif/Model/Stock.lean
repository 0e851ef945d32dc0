import Verif.Model.Stash
import Verif.Model.State
import Verif.Model.StoreTx

/-!
# The stock

Models `Stock` over the in-memory providers (/repo/src/persistence/stock.rs): consuming consignments and fascias, and making
consignments.
-/

namespace Rgb

/-- `Stock<MemStash, MemState, MemIndex>`, /repo/src/persistence/stock.rs:363-371. -/
abbrev Stock := Stores MemStash MemState Index

/-- `StockError` with the errors of fascias and consigning, /repo/src/persistence/stock.rs:69-350. -/
inductive StockErr where
  | stash (e : StashErr)
  | state (e : StErr)
  | index (e : IdxErr)
  | invalidBundle (contract bundle : Nat)
  | bundleAbsent (b : Nat)
  | concealed (b op : Nat)
  | witnessAbsent (w : WitnessId)
  | missedInAnchors (b contract : Nat)
  | witnessMissesContract (w : WitnessId) (b contract : Nat)
  | unrelatedTransition (op : Nat)
  | double (e : DoubleErr)
  | contractAbsent (c : Nat)
  | schemaAbsent (i : Nat)
  | ifaceNameAbsent (n : Nat)
  | libAbsent (i : Nat)
  | typeAbsent (i : Nat)
  | tooManySupplements
  | tooManySignatures
  /-- `assert_eq!(res, None)` at /repo/src/persistence/stock.rs:789 -/
  | panic
  deriving DecidableEq, Repr

/-- The in-memory providers without persistence, /repo/src/persistence/memory.rs:160-172, 531-543, 1255-1267. -/
def memProvider (σ : Type) : TxProvider σ where
  begin_ s := (s, true)
  commit s := (s, true)
  rollback _ := none

namespace Stock

/-- The body of `consume_consignment`, /repo/src/persistence/stock.rs:1310-1315. `G` gives the global state types of a
schema. -/
def consumeBody (H : Commit) (I : Ids) (M : Mpc) (G : SchemaDoc → SchemaGlobals) (r : Resolver) (con : Consignment)
    (k : Stock) : Option (Stock × Option StockErr) :=
  match k.state.updateFromConsignment H (G con.schema) con.data r with
  | none => none
  | some (t, some e) => some ({ k with state := t }, some (.state e))
  | some (t, none) =>
    match k.index.indexConsignment H con.data with
    | (x, some e) => some ({ k with state := t, index := x }, some (.index e))
    | (x, none) =>
      match k.stash.consumeConsignment H I M con with
      | none => none
      | some (s, .error e) => some (⟨s, t, x⟩, some (.stash e))
      | some (s, .ok _) => some (⟨s, t, x⟩, none)

/-- `consume_consignment`, /repo/src/persistence/stock.rs:1302-1318. -/
def consumeConsignment (H : Commit) (I : Ids) (M : Mpc) (G : SchemaDoc → SchemaGlobals) (r : Resolver) (con : Consignment)
    (k : Stock) : Option (Stock × Option (TxErr StockErr)) :=
  match k.stash.resolveSecrets H con with
  | .error e => some (k, some (.body (.stash e)))
  | .ok con =>
    storeTransaction (memProvider _) (memProvider _) (memProvider _) (consumeBody H I M G r con) k

/-- `Fascia`, /repo/src/containers/partials.rs:371-375; the bundles as in `into_bundles` (393-397). -/
structure Fascia where
  witness : XPubWitness
  anchor : AnchorSet
  bundles : List (Nat × Bundle)
  deriving DecidableEq, Repr

/-- The loop of `consume_fascia`, /repo/src/persistence/stock.rs:1337-1352. -/
def fasciaBundles (H : Commit) (r : Resolver) (w : WitnessId) : List (Nat × Bundle) → Stock → Option (Stock × Option StockErr)
  | [], k => some (k, none)
  | (c, b) :: rest, k =>
    if (OMap.keys b.known).all (fun o => decide (o ∈ OMap.vals b.inputMap)) = false then
      some (k, some (.invalidBundle c (b.id H)))
    else
    match k.index.indexBundle H c b w with
    | (x, some e) => some ({ k with index := x }, some (.index e))
    | (x, none) =>
      match k.state.updateFromBundle H c b w r with
      | none => none
      | some (t, some e) => some ({ k with index := x, state := t }, some (.state e))
      | some (t, none) =>
        match k.stash.consumeBundle H b with
        | none => none
        | some (s, .error e) => some (⟨s, t, x⟩, some (.stash e))
        | some (s, .ok _) => fasciaBundles H r w rest ⟨s, t, x⟩

/-- The body of `consume_fascia`, /repo/src/persistence/stock.rs:1333-1354. -/
def fasciaBody (H : Commit) (r : Resolver) (f : Fascia) (k : Stock) : Option (Stock × Option StockErr) :=
  match k.stash.consumeWitness ⟨f.witness, f.anchor⟩ with
  | none => none
  | some (s, .error e) => some ({ k with stash := s }, some (.stash e))
  | some (s, .ok _) => fasciaBundles H r f.witness.id f.bundles { k with stash := s }

/-- `consume_fascia`, /repo/src/persistence/stock.rs:1328-1355. -/
def consumeFascia (H : Commit) (r : Resolver) (f : Fascia) (k : Stock) : Option (Stock × Option (TxErr StockErr)) :=
  storeTransaction (memProvider _) (memProvider _) (memProvider _) (fasciaBody H r f) k

/-! ## Consigning -/

/-- Functions of dependencies used for consigning: `MerkleBlock::to_merkle_proof` (of the root and known entries for a
contract), the type ids used by a schema and an interface, the ids of libraries used by a schema; the contents which supplements and
signatures refer to (`ContentRef` and `ContentId`) as numbers: of a contract, a schema and an interface with these ids, and of an
implementation. -/
structure Env where
  toProof : Nat → OMap Nat Nat → Nat → Option Nat
  schemaTypes : SchemaDoc → List Nat
  ifaceTypes : IfaceDoc → List Nat
  schemaLibs : SchemaDoc → List Nat
  genesisRef : Nat → Nat := fun c => 4 * c
  schemaRef : Nat → Nat := fun i => 4 * i + 1
  ifaceRef : Nat → Nat := fun i => 4 * i + 2
  iimplRef : IimplDoc → Nat := fun x => 4 * x.body + 3

/-- `transition`, /repo/src/persistence/stock.rs:1357-1364. -/
def transition (k : Stock) (op : Nat) : Except StockErr Op :=
  match k.index.bundleIdForOp op with
  | .error e => .error (.index e)
  | .ok b =>
    match k.stash.bundle b with
    | none => .error (.bundleAbsent b)
    | some bundle =>
      match OMap.get? bundle.known op with
      | none => .error (.concealed b op)
      | some t => .ok t

/-- The anchor of the closing method, /repo/src/persistence/stock.rs:1372-1386. -/
def anchorFor (a : AnchorSet) (m : CloseMethod) : Option Anchor :=
  match m, a with
  | .tapretFirst, .tapret t => some t
  | .tapretFirst, .double t _ => some t
  | .opretFirst, .opret o => some o
  | .opretFirst, .double _ o => some o
  | _, _ => none

/-- `client_bundle`, /repo/src/persistence/stock.rs:1366-1400. -/
def clientBundle (E : Env) (k : Stock) (b : Nat) : Except StockErr ClientBundle :=
  match k.index.bundleInfo b with
  | .error e => .error (.index e)
  | .ok (ws, c) =>
    match k.stash.bundle b with
    | none => .error (.bundleAbsent b)
    | some bundle =>
      match k.state.selectValidWitness ws with
      | .error e => .error (.state e)
      | .ok w =>
        match k.stash.witness w with
        | none => .error (.witnessAbsent w)
        | some sw =>
          match anchorFor sw.anchors bundle.closeMethod with
          | none => .error (.missedInAnchors b c)
          | some a =>
            match E.toProof a.root a.known c with
            | none => .error (.witnessMissesContract w b c)
            | some p => .ok ⟨p, ⟨bundle.closeMethod, a.proof⟩, bundle⟩

/-- The local variables of `consign`, /repo/src/persistence/stock.rs:769-771. -/
structure ConsignAcc where
  anchored : OMap Nat ClientBundle := []
  transitions : OMap Nat Op := []
  terminals : OMap Nat Nat := []
  deriving DecidableEq, Repr

/-- The secret form of the seals of all assignments, `to_confidential_seals`, /repo/src/persistence/stock.rs:783-786. -/
def secretSeals (H : Commit) (t : Op) : List Nat :=
  (OMap.vals t.assigns).flatMap (fun a => a.items.map (fun x => x.secret H))

/-- The loop collecting terminals, /repo/src/persistence/stock.rs:783-792; `none` is the failed assertion. -/
def addTerminals (secret : Option Nat) (b : Nat) : List Nat → OMap Nat Nat → Option (OMap Nat Nat)
  | [], m => some m
  | s :: rest, m =>
    if secret = some s then
      if OMap.contains m b then none else addTerminals secret b rest (OMap.insert m b s)
    else addTerminals secret b rest m

/-- Body of the first loop of `consign`, /repo/src/persistence/stock.rs:772-797. -/
def consignOpout (H : Commit) (E : Env) (k : Stock) (c : Nat) (secret : Option Nat) (acc : ConsignAcc) (o : Nat) :
    Except StockErr ConsignAcc :=
  if o = c then .ok acc else
  match k.transition o with
  | .error e => .error e
  | .ok t =>
    match k.index.bundleIdForOp (t.id H) with
    | .error e => .error (.index e)
    | .ok b =>
      match addTerminals secret b (secretSeals H t) acc.terminals with
      | none => .error .panic
      | some terms =>
        if OMap.contains acc.anchored b then
          .ok { anchored := acc.anchored, transitions := OMap.insert acc.transitions o t, terminals := terms }
        else
        match clientBundle E k b with
        | .error e => .error e
        | .ok cb =>
          .ok { anchored := OMap.insert acc.anchored b cb, transitions := OMap.insert acc.transitions o t, terminals := terms }

/-- First loop of `consign`, /repo/src/persistence/stock.rs:772-797. -/
def consignOpouts (H : Commit) (E : Env) (k : Stock) (c : Nat) (secret : Option Nat) :
    List Nat → ConsignAcc → Except StockErr ConsignAcc
  | [], acc => .ok acc
  | o :: rest, acc =>
    match consignOpout H E k c secret acc o with
    | .error e => .error e
    | .ok acc => consignOpouts H E k c secret rest acc

/-- The operations whose outputs are spent, /repo/src/persistence/stock.rs:802, 809. -/
def parents (t : Op) : List Nat := t.inputs.map (fun i => i.op)

/-- Body of the second loop of `consign`, /repo/src/persistence/stock.rs:808-815. Returns also the operations to visit. -/
def consignVisit (H : Commit) (E : Env) (k : Stock) (acc : ConsignAcc) (o : Nat) : Except StockErr (ConsignAcc × List Nat) :=
  match k.transition o with
  | .error e => .error e
  | .ok t =>
    match k.index.bundleIdForOp (t.id H) with
    | .error e => .error (.index e)
    | .ok b =>
      match clientBundle E k b with
      | .error e => .error e
      | .ok new =>
        match ((OMap.get? acc.anchored b).getD new).revealTransition H t with
        | .error o => .error (.unrelatedTransition o)
        | .ok (_, cb) =>
          .ok ({ acc with anchored := OMap.insert acc.anchored b cb, transitions := OMap.insert acc.transitions o t },
            parents t)

/-- Second loop of `consign`, /repo/src/persistence/stock.rs:800-816: a stack of operations without a check whether one was
visited already. The top of the stack is the head of the list. `none`: not finished after `fuel` steps. -/
def consignLoop (H : Commit) (E : Env) (k : Stock) (c : Nat) : Nat → List Nat → ConsignAcc → Option (Except StockErr ConsignAcc)
  | _, [], acc => some (.ok acc)
  | 0, _ :: _, _ => none
  | fuel + 1, o :: st, acc =>
    if o = c then consignLoop H E k c fuel st acc
    else
    match consignVisit H E k acc o with
    | .error e => some (.error e)
    | .ok (acc, ps) => consignLoop H E k c fuel (ps.reverse ++ st) acc

/-- Grouping of bundles by witness, /repo/src/persistence/stock.rs:862-873. -/
def groupBundles (H : Commit) (k : Stock) : List ClientBundle → OMap WitnessId WitnessBundle → Except StockErr (OMap WitnessId WitnessBundle)
  | [], m => .ok m
  | cb :: rest, m =>
    match k.index.bundleInfo (cb.bundle.id H) with
    | .error e => .error (.index e)
    | .ok (ws, _) =>
      match k.state.selectValidWitness ws with
      | .error e => .error (.state e)
      | .ok w =>
        match k.stash.witness w with
        | none => .error (.witnessAbsent w)
        | some sw =>
          match OMap.get? m w with
          | none => groupBundles H k rest (OMap.insert m w (WitnessBundle.with_ sw.pub cb))
          | some wb =>
            match wb.intoDouble cb with
            | .error e => .error (.double e)
            | .ok wb => groupBundles H k rest (OMap.insert (OMap.erase m w) w wb)

/-- Interfaces of the consignment, /repo/src/persistence/stock.rs:832-858: found by the *name* under which an
implementation is stored. -/
def consignIfaces (k : Stock) : OMap Nat IimplDoc → OMap IfaceDoc IimplDoc → Except StockErr (OMap IfaceDoc IimplDoc)
  | [], m => .ok m
  | (name, x) :: rest, m =>
    match k.stash.ifaceByName name with
    | none => .error (.ifaceNameAbsent name)
    | some d => consignIfaces k rest (OMap.insert m d x)

/-- `extract`, /repo/src/persistence/stash.rs:295-318. Of a type only its id is taken, not the types it depends on. -/
def extract (E : Env) (s : MemStash) (sd : SchemaDoc) (ifaces : List IfaceDoc) : Except StockErr (OSet Nat × List Nat) :=
  let ts := E.schemaTypes sd ++ ifaces.flatMap E.ifaceTypes
  match ts.find? (fun t => decide (t ∉ s.types)) with
  | some t => .error (.typeAbsent t)
  | none =>
    match (E.schemaLibs sd).find? (fun i => (s.lib i).isNone) with
    | some i => .error (.libAbsent i)
    | none => .ok (OSet.ofList ts, OMap.vals (OMap.ofList ((E.schemaLibs sd).filterMap (fun i => (s.lib i).map (fun l => (i, l))))))

/-- The operations having the outputs to consign, /repo/src/persistence/stock.rs:756-766. The outputs by the secret seal aren't
filtered by contract. The set is ordered by operation first; only the operations are used. -/
def consignOps (k : Stock) (c : Nat) (outputs : List Outpoint) (secret : Option Nat) : Except StockErr (List Nat) :=
  match k.index.publicOpouts c with
  | .error e => .error (.index e)
  | .ok pub =>
    match k.index.opoutsByOutputs c outputs with
    | .error e => .error (.index e)
    | .ok outs =>
      .ok ((OSet.extend (OSet.extend pub outs) (k.index.opoutsByTerminals secret.toList)).map (fun o => o.op))

/-- The contents for which supplements and signatures are added, /repo/src/persistence/stock.rs:750-760, 820-829, 836-856. An interface is there
with one implementation, since the interfaces are found by different names. -/
def consignContents (I : Ids) (E : Env) (c schema : Nat) (ifaces : OMap IfaceDoc IimplDoc) : List Nat :=
  E.genesisRef c :: E.schemaRef schema :: ifaces.flatMap (fun p => [E.ifaceRef (I.iface p.1), E.iimplRef p.2])

/-- The supplements, /repo/src/persistence/stock.rs:757-760, 827-829, 849-855: of each content only one. -/
def consignSuppl (s : MemStash) (refs : List Nat) : OSet SupplDoc := OSet.ofList (refs.filterMap s.supplement)

/-- The signatures, /repo/src/persistence/stock.rs:751-755, 820-825, 837-847. -/
def consignSigs (s : MemStash) (refs : List Nat) : OMap Nat (OMap Nat Nat) :=
  OMap.ofList (refs.filterMap (fun r => (s.sigsFor r).map (fun m => (r, m))))

/-- The end of `consign`, /repo/src/persistence/stock.rs:818-902. The bundles are in the order of witness ids. The limits on the number of
bundles (2³² - 1), terminals (2¹⁶ - 1) and libraries (lines 871-874, stash.rs:314) aren't modelled. -/
def consignFinish (H : Commit) (I : Ids) (E : Env) (k : Stock) (c : Nat) (acc : ConsignAcc) : Except StockErr Consignment :=
  match k.stash.genesis c with
  | none => .error (.contractAbsent c)
  | some g =>
    match k.stash.schema (I.genesisSchema g) with
    | none => .error (.schemaAbsent (I.genesisSchema g))
    | some si =>
      match consignIfaces k si.iimpls [] with
      | .error e => .error e
      | .ok ifaces =>
        match groupBundles H k (OMap.vals acc.anchored) [] with
        | .error e => .error e
        | .ok bundles =>
          match extract E k.stash si.doc (OMap.keys ifaces) with
          | .error e => .error e
          | .ok (types, scripts) =>
            let refs := consignContents I E c (I.genesisSchema g) ifaces
            if (consignSuppl k.stash refs).length > tinyMax then .error .tooManySupplements
            else if (consignSigs k.stash refs).length > tinyMax then .error .tooManySignatures
            else
            .ok { data := ⟨g, [], OMap.vals bundles⟩, terminals := acc.terminals, schema := si.doc, ifaces := ifaces,
                  supplements := consignSuppl k.stash refs, types := types, scripts := scripts, attachments := [],
                  signatures := consignSigs k.stash refs }

/-- `consign`, /repo/src/persistence/stock.rs:737-902; `none`: the second loop isn't finished after `fuel` steps. -/
def consign (H : Commit) (I : Ids) (E : Env) (fuel : Nat) (k : Stock) (c : Nat) (outputs : List Outpoint) (secret : Option Nat) :
    Option (Except StockErr Consignment) :=
  match consignOps k c outputs secret with
  | .error e => some (.error e)
  | .ok ops =>
    match consignOpouts H E k c secret ops {} with
    | .error e => some (.error e)
    | .ok acc =>
      match consignLoop H E k c fuel ((OMap.vals acc.transitions).flatMap parents).reverse acc with
      | none => none
      | some (.error e) => some (.error e)
      | some (.ok acc) => some (consignFinish H I E k c acc)

/-- `export_contract`, /repo/src/persistence/stock.rs:719-725. -/
def exportContract (H : Commit) (I : Ids) (E : Env) (fuel : Nat) (k : Stock) (c : Nat) : Option (Except StockErr Consignment) :=
  consign H I E fuel k c [] none

/-- `transfer`, /repo/src/persistence/stock.rs:727-735. -/
def transfer (H : Commit) (I : Ids) (E : Env) (fuel : Nat) (k : Stock) (c : Nat) (outputs : List Outpoint) (secret : Option Nat) :
    Option (Except StockErr Consignment) :=
  consign H I E fuel k c outputs secret

end Stock

end Rgb
