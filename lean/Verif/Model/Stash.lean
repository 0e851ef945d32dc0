import Verif.Model.Index

/-!
# The stash

Models `MemStash` (/repo/src/persistence/memory.rs:81-481), the stash-changing methods of `Stash`
(/repo/src/persistence/stash.rs:436-687) and `TrustLevel` (/repo/src/containers/util.rs:66-82).

Schemata, interfaces, implementations, supplements and libraries are documents with the fields which the stash reads; all
their other content is one number. Their ids are hashes: functions in `Ids`.
Size limits: 255 of `TinyOrdMap`/`TinyOrdSet` and 10 of `ContentSigs` are modelled; those of the `Small…`, `Medium…` and
`Large…` collections aren't. `StashProviderError` for an absent object is `none` of the read method.
-/

namespace Rgb

/-- `TrustLevel`, /repo/src/containers/util.rs:69-76. -/
inductive TrustLevel where
  | malicious
  | unknown
  | untrusted
  | trusted
  | ultimate
  deriving DecidableEq, Repr

/-- Discriminants, /repo/src/containers/util.rs:70-75. -/
def TrustLevel.num : TrustLevel → Nat
  | .malicious => 0x10
  | .unknown => 0x20
  | .untrusted => 0x40
  | .trusted => 0x80
  | .ultimate => 0xC0

/-- `#[default]`, /repo/src/containers/util.rs:71-72. -/
def TrustLevel.default : TrustLevel := .unknown

/-- `should_accept`, /repo/src/containers/util.rs:79. -/
def TrustLevel.shouldAccept (t : TrustLevel) : Bool := t.num ≥ TrustLevel.unknown.num

/-- `should_use`, /repo/src/containers/util.rs:80. -/
def TrustLevel.shouldUse (t : TrustLevel) : Bool := t.num ≥ TrustLevel.trusted.num

/-- `must_use`, /repo/src/containers/util.rs:81. -/
def TrustLevel.mustUse (t : TrustLevel) : Bool := t.num ≥ TrustLevel.ultimate.num

/-- `Schema` (rgb-core) as the stash sees it: an opaque document. -/
structure SchemaDoc where
  body : Nat
  deriving DecidableEq, Repr

/-- `Iface`, /repo/src/interface/iface.rs:384-412: name, ids of the inherited interfaces, and the rest. -/
structure IfaceDoc where
  name : Nat
  inherits : List Nat := []
  body : Nat := 0
  deriving DecidableEq, Repr

instance : Key IfaceDoc where
  enc d := d.name :: d.body :: d.inherits
  enc_inj := by intro a b h; cases a; cases b; simp at h; simp [h]

/-- `IfaceImpl`, /repo/src/interface/iimpl.rs:218-235: which schema and interface it is for, and the rest. -/
structure IimplDoc where
  schemaId : Nat
  ifaceId : Nat
  body : Nat := 0
  deriving DecidableEq, Repr

instance : Key IimplDoc where
  enc d := [d.schemaId, d.ifaceId, d.body]
  enc_inj := by intro a b h; cases a; cases b; simp at h; simp [h]

/-- `Supplement`, /repo/src/containers/suppl.rs:201-207: what it supplements, and the rest. -/
structure SupplDoc where
  ref : Nat
  body : Nat := 0
  deriving DecidableEq, Repr

instance : Key SupplDoc where
  enc d := [d.ref, d.body]
  enc_inj := by intro a b h; cases a; cases b; simp at h; simp [h]

instance : Key Seal where
  enc s := [s.chain.num, s.method.num, (match s.txid with | none => 0 | some t => t + 1), s.vout, s.blinding]
  enc_inj := by
    intro a b h
    obtain ⟨c1, m1, t1, v1, b1⟩ := a
    obtain ⟨c2, m2, t2, v2, b2⟩ := b
    simp at h
    obtain ⟨h1, h2, h3, h4, h5⟩ := h
    cases Layer1.num_inj h1; cases CloseMethod.num_inj h2
    cases t1 <;> cases t2 <;> simp at h3 <;> simp [h3, h4, h5]

/-- The ids of documents: `schema_id()`, `iface_id()`, `lib.id()`, and the schema id field of a genesis. -/
structure Ids where
  schema : SchemaDoc → Nat
  iface : IfaceDoc → Nat
  lib : Nat → Nat
  genesisSchema : Op → Nat

/-- `MerkleBlock::with(&proof, protocol, message)` of the bp-core dependency, called in
/repo/src/persistence/stash.rs:570: an error or the Merkle root with the known entries. -/
structure Mpc where
  block : Nat → Nat → Nat → Option (Nat × OMap Nat Nat)

/-- `SchemaIfaces`, /repo/src/persistence/stash.rs:173-176. -/
structure SchemaIfaces where
  doc : SchemaDoc
  iimpls : OMap Nat IimplDoc := []
  deriving DecidableEq, Repr

/-- `SchemaIfaces::get`, /repo/src/persistence/stash.rs:186-188. -/
def SchemaIfaces.get (s : SchemaIfaces) (iface : Nat) : Option IimplDoc :=
  (OMap.vals s.iimpls).find? (fun i => i.ifaceId = iface)

/-- `SealWitness`, /repo/src/containers/anchors.rs:62-65. -/
structure SealWitness where
  pub : XPubWitness
  anchors : AnchorSet
  deriving DecidableEq, Repr

/-- `SealWitness::witness_id`, /repo/src/containers/anchors.rs:75. -/
def SealWitness.id (w : SealWitness) : WitnessId := w.pub.id

/-- `MemStash`, /repo/src/persistence/memory.rs:86-105. The type system is its set of type ids (the type behind an id is
determined by the id). -/
structure MemStash where
  schemata : OMap Nat SchemaIfaces := []
  ifaces : OMap Nat IfaceDoc := []
  geneses : OMap Nat Op := []
  suppl : OMap Nat (OSet SupplDoc) := []
  bundles : OMap Nat Bundle := []
  extensions : OMap Nat Op := []
  witnesses : OMap WitnessId SealWitness := []
  attachments : OMap Nat Nat := []
  secretSeals : OSet Seal := []
  types : OSet Nat := []
  identities : OMap Nat TrustLevel := []
  libs : OMap Nat Nat := []
  sigs : OMap Nat (OMap Nat Nat) := []
  deriving DecidableEq, Repr

inductive StashErr where
  | confinement
  | merge (e : MergeErr)
  | anchors (e : AnchorErr)
  | mpc
  deriving DecidableEq, Repr

/-- Result of a stash-changing method: the changed stash and the returned value. `none` is a panic. -/
abbrev SR (α : Type) := Option (MemStash × Except StashErr α)

/-- The `?` operator. -/
def SR.bind {α β : Type} (x : SR α) (f : MemStash → α → SR β) : SR β :=
  match x with
  | none => none
  | some (s, .error e) => some (s, .error e)
  | some (s, .ok a) => f s a

/-- `for x in l { f(x)?; }`. -/
def SR.each {α β : Type} (f : MemStash → α → SR β) : List α → MemStash → SR Unit
  | [], s => some (s, .ok ())
  | a :: rest, s => SR.bind (f s a) (fun s _ => SR.each f rest s)

namespace MemStash

/-! ## Reading -/

/-- `iface` with `IfaceRef::Id`, /repo/src/persistence/memory.rs:197. -/
def ifaceById (s : MemStash) (i : Nat) : Option IfaceDoc := OMap.get? s.ifaces i

/-- `iface` with `IfaceRef::Name`, /repo/src/persistence/memory.rs:196. -/
def ifaceByName (s : MemStash) (n : Nat) : Option IfaceDoc := (OMap.vals s.ifaces).find? (fun d => d.name = n)

/-- `schema`, /repo/src/persistence/memory.rs:236-243. -/
def schema (s : MemStash) (i : Nat) : Option SchemaIfaces := OMap.get? s.schemata i

/-- `lib`, /repo/src/persistence/memory.rs:182-186. -/
def lib (s : MemStash) (i : Nat) : Option Nat := OMap.get? s.libs i

/-- `genesis`, /repo/src/persistence/memory.rs:282-289. -/
def genesis (s : MemStash) (c : Nat) : Option Op := OMap.get? s.geneses c

/-- `bundle`, /repo/src/persistence/memory.rs:299-306. -/
def bundle (s : MemStash) (b : Nat) : Option Bundle := OMap.get? s.bundles b

/-- `extension`, /repo/src/persistence/memory.rs:312-316. -/
def extension (s : MemStash) (o : Nat) : Option Op := OMap.get? s.extensions o

/-- `witness`, /repo/src/persistence/memory.rs:318-325. -/
def witness (s : MemStash) (w : WitnessId) : Option SealWitness := OMap.get? s.witnesses w

/-- `get_trust`, /repo/src/persistence/memory.rs:245-247. -/
def getTrust (s : MemStash) (i : Nat) : TrustLevel := (OMap.get? s.identities i).getD TrustLevel.default

/-- `supplements`, /repo/src/persistence/memory.rs:253-263. -/
def supplements (s : MemStash) (r : Nat) : List SupplDoc := (OMap.get? s.suppl r).getD []

/-- `supplement`, /repo/src/persistence/memory.rs:249-251: the first of the set. -/
def supplement (s : MemStash) (r : Nat) : Option SupplDoc := (OMap.get? s.suppl r).bind List.head?

/-- `sigs_for`, /repo/src/persistence/memory.rs:265-267. -/
def sigsFor (s : MemStash) (c : Nat) : Option (OMap Nat Nat) := OMap.get? s.sigs c

/-- `seal_secret`, /repo/src/persistence/memory.rs:345-354. -/
def sealSecret (H : Commit) (s : MemStash) (secret : Nat) : Option Seal :=
  s.secretSeals.find? (fun x => H.sealHash x = secret)

/-- `taprets`, /repo/src/persistence/memory.rs:326-341: the witnesses having a tapret anchor, with the Merkle root committed to and the tapret proof,
which has the nonce of the commitment in it. -/
def taprets (s : MemStash) : List (WitnessId × Nat × Nat) :=
  s.witnesses.filterMap (fun e =>
    match e.2.anchors with
    | .tapret a => some (e.1, a.root, a.proof)
    | .double a _ => some (e.1, a.root, a.proof)
    | .opret _ => none)

/-- `Iface::find_abstractable_impl`, /repo/src/interface/iface.rs:444-454. -/
def findAbstractable (I : Ids) (d : IfaceDoc) (si : SchemaIfaces) : Option IimplDoc :=
  (si.get (I.iface d)).or (d.inherits.reverse.findSome? (fun p => si.get p))

/-- `impl_for`, /repo/src/persistence/memory.rs:213-234; `ids` is `C::IFACE_IDS`, which isn't empty (otherwise it panics). -/
def implFor (I : Ids) (s : MemStash) (ids : List Nat) (si : SchemaIfaces) : Option IimplDoc :=
  ((OMap.vals si.iimpls).find? (fun i => ids.contains i.ifaceId)).or
    (ids.findSome? (fun i => (s.ifaceById i).bind (fun d => findAbstractable I d si)))

/-- `schemata_by`, /repo/src/persistence/memory.rs:204-211. -/
def schemataBy (I : Ids) (s : MemStash) (ids : List Nat) : List SchemaIfaces :=
  (OMap.vals s.schemata).filter (fun si => (implFor I s ids si).isSome)

/-- `geneses_by`, /repo/src/persistence/memory.rs:273-280. -/
def genesesBy (I : Ids) (s : MemStash) (ids : List Nat) : List Op :=
  (schemataBy I s ids).flatMap (fun si =>
    (OMap.vals s.geneses).filter (fun g => I.schema si.doc = I.genesisSchema g))

/-! ## Writing -/

/-- `replace_schema`, /repo/src/persistence/memory.rs:362-369. -/
def replaceSchema (I : Ids) (s : MemStash) (d : SchemaDoc) : SR Bool :=
  if OMap.contains s.schemata (I.schema d) then some (s, .ok false)
  else if s.schemata.length ≥ tinyMax then some (s, .error .confinement)
  else some ({ s with schemata := OMap.insert s.schemata (I.schema d) ⟨d, []⟩ }, .ok true)

/-- `replace_iface`, /repo/src/persistence/memory.rs:371-378. -/
def replaceIface (I : Ids) (s : MemStash) (d : IfaceDoc) : SR Bool :=
  if OMap.contains s.ifaces (I.iface d) then some (s, .ok false)
  else if s.ifaces.length ≥ tinyMax then some (s, .error .confinement)
  else some ({ s with ifaces := OMap.insert s.ifaces (I.iface d) d }, .ok true)

/-- `replace_iimpl`, /repo/src/persistence/memory.rs:380-390. The implementation is stored under the *name* of its
interface. Panics if the schema or the interface isn't known. -/
def replaceIimpl (s : MemStash) (x : IimplDoc) : SR Bool :=
  match OMap.get? s.schemata x.schemaId, OMap.get? s.ifaces x.ifaceId with
  | some si, some d =>
    if si.iimpls.length ≥ tinyMax then some (s, .error .confinement)
    else some ({ s with schemata := OMap.insert s.schemata x.schemaId
                          { si with iimpls := OMap.insert si.iimpls d.name x } },
               .ok (!OMap.contains si.iimpls d.name))
  | _, _ => none

/-- `set_trust`, /repo/src/persistence/memory.rs:392-399. -/
def setTrust (s : MemStash) (i : Nat) (t : TrustLevel) : SR Unit :=
  some ({ s with identities := OMap.insert s.identities i t }, .ok ())

/-- `add_supplement`, /repo/src/persistence/memory.rs:401-409. -/
def addSupplement (s : MemStash) (x : SupplDoc) : SR Unit :=
  match OMap.get? s.suppl x.ref with
  | none =>
    if s.suppl.length ≥ tinyMax then some (s, .error .confinement)
    else some ({ s with suppl := OMap.insert s.suppl x.ref [x] }, .ok ())
  | some l =>
    match tinyPush l x with
    | none => some (s, .error .confinement)
    | some l' => some ({ s with suppl := OMap.insert s.suppl x.ref l' }, .ok ())

/-- `replace_genesis`, /repo/src/persistence/memory.rs:411-415. -/
def replaceGenesis (H : Commit) (s : MemStash) (g : Op) : SR Bool :=
  if s.geneses.length ≥ tinyMax then some (s, .error .confinement)
  else some ({ s with geneses := OMap.insert s.geneses (g.contractId H) g },
             .ok (!OMap.contains s.geneses (g.contractId H)))

/-- `replace_extension`, /repo/src/persistence/memory.rs:417-421. -/
def replaceExtension (H : Commit) (s : MemStash) (e : Op) : SR Bool :=
  some ({ s with extensions := OMap.insert s.extensions (e.id H) e }, .ok (!OMap.contains s.extensions (e.id H)))

/-- `replace_bundle`, /repo/src/persistence/memory.rs:423-427. -/
def replaceBundle (H : Commit) (s : MemStash) (b : Bundle) : SR Bool :=
  some ({ s with bundles := OMap.insert s.bundles (b.id H) b }, .ok (!OMap.contains s.bundles (b.id H)))

/-- `replace_witness`, /repo/src/persistence/memory.rs:429-433. -/
def replaceWitness (s : MemStash) (w : SealWitness) : SR Bool :=
  some ({ s with witnesses := OMap.insert s.witnesses w.id w }, .ok (!OMap.contains s.witnesses w.id))

/-- `replace_attachment`, /repo/src/persistence/memory.rs:435-442. -/
def replaceAttachment (s : MemStash) (id blob : Nat) : SR Bool :=
  some ({ s with attachments := OMap.insert s.attachments id blob }, .ok (!OMap.contains s.attachments id))

/-- `consume_types`, /repo/src/persistence/memory.rs:444-446. -/
def consumeTypes (s : MemStash) (ts : List Nat) : SR Unit :=
  some ({ s with types := OSet.extend s.types ts }, .ok ())

/-- `replace_lib`, /repo/src/persistence/memory.rs:448-451. -/
def replaceLib (I : Ids) (s : MemStash) (l : Nat) : SR Bool :=
  some ({ s with libs := OMap.insert s.libs (I.lib l) l }, .ok (!OMap.contains s.libs (I.lib l)))

/-- The closure of the filter, /repo/src/persistence/memory.rs:455-466: the level of the identity (registered with the
default one if it isn't known), then whether to accept it. -/
def acceptSigner (ids : OMap Nat TrustLevel) (i : Nat) : OMap Nat TrustLevel × Bool :=
  match OMap.get? ids i with
  | some l => (ids, l.shouldAccept)
  | none => (OMap.insert ids i TrustLevel.default, TrustLevel.default.shouldAccept)

/-- Limit of `ContentSigs`, /repo/src/containers/util.rs:124. -/
def sigsMax : Nat := 10

/-- Pushing the accepted signatures one by one (`Confined::extend`, `Confined::try_from_iter` of amplify), stopping with an
error when the map is full. The filter is lazy, so identities after the failed one aren't registered. -/
def pushSigs (ids : OMap Nat TrustLevel) (m : OMap Nat Nat) : List (Nat × Nat) → OMap Nat TrustLevel × OMap Nat Nat × Bool
  | [] => (ids, m, true)
  | (i, sg) :: rest =>
    if (acceptSigner ids i).2 then
      if m.length ≥ sigsMax then ((acceptSigner ids i).1, m, false)
      else pushSigs (acceptSigner ids i).1 (OMap.insert m i sg) rest
    else pushSigs (acceptSigner ids i).1 m rest

/-- `import_sigs`, /repo/src/persistence/memory.rs:453-474. A new content gets an entry only if all signatures were
pushed and there is at least one (`NonEmptyOrdMap`). -/
def importSigs (s : MemStash) (c : Nat) (l : List (Nat × Nat)) : SR Unit :=
  match OMap.get? s.sigs c with
  | some prev =>
    let r := pushSigs s.identities prev l
    some ({ s with identities := r.1, sigs := OMap.insert s.sigs c r.2.1 },
          if r.2.2 then .ok () else .error .confinement)
  | none =>
    let r := pushSigs s.identities [] l
    if r.2.2 && !r.2.1.isEmpty then
      some ({ s with identities := r.1, sigs := OMap.insert s.sigs c r.2.1 }, .ok ())
    else some ({ s with identities := r.1 }, .error .confinement)

/-- `add_secret_seal`, /repo/src/persistence/memory.rs:476-480. -/
def addSecretSeal (s : MemStash) (x : Seal) : SR Bool :=
  some ({ s with secretSeals := OSet.insert s.secretSeals x }, .ok (!s.secretSeals.contains x))

end MemStash

/-- All the write methods of the provider, /repo/src/persistence/memory.rs:359-481. -/
inductive StashWrite where
  | schema (d : SchemaDoc)
  | iface (d : IfaceDoc)
  | iimpl (x : IimplDoc)
  | trust (i : Nat) (t : TrustLevel)
  | supplement (x : SupplDoc)
  | genesis (g : Op)
  | extension (e : Op)
  | bundle (b : Bundle)
  | witness (w : SealWitness)
  | attachment (id blob : Nat)
  | types (ts : List Nat)
  | lib (l : Nat)
  | sigs (c : Nat) (l : List (Nat × Nat))
  | secretSeal (x : Seal)
  deriving DecidableEq, Repr

/-- One write; the value returned by the method is dropped. -/
def StashWrite.exec (H : Commit) (I : Ids) (s : MemStash) : StashWrite → Option MemStash
  | .schema d => (s.replaceSchema I d).map Prod.fst
  | .iface d => (s.replaceIface I d).map Prod.fst
  | .iimpl x => (s.replaceIimpl x).map Prod.fst
  | .trust i t => (s.setTrust i t).map Prod.fst
  | .supplement x => (s.addSupplement x).map Prod.fst
  | .genesis g => (s.replaceGenesis H g).map Prod.fst
  | .extension e => (s.replaceExtension H e).map Prod.fst
  | .bundle b => (s.replaceBundle H b).map Prod.fst
  | .witness w => (s.replaceWitness w).map Prod.fst
  | .attachment i b => (s.replaceAttachment i b).map Prod.fst
  | .types ts => (s.consumeTypes ts).map Prod.fst
  | .lib l => (s.replaceLib I l).map Prod.fst
  | .sigs c l => (s.importSigs c l).map Prod.fst
  | .secretSeal x => (s.addSecretSeal x).map Prod.fst

/-- Any sequence of writes, failed or not; `none` if one of them panics. -/
def runWrites (H : Commit) (I : Ids) : List StashWrite → MemStash → Option MemStash
  | [], s => some s
  | w :: rest, s => (w.exec H I s).bind (runWrites H I rest)

/-! ## Consuming containers -/

/-- `Kit`, /repo/src/containers/kit.rs:122-150. Lists are the sets in their order. -/
structure Kit where
  ifaces : List IfaceDoc := []
  schemata : List SchemaDoc := []
  iimpls : List IimplDoc := []
  supplements : List SupplDoc := []
  types : List Nat := []
  scripts : List Nat := []
  signatures : List (Nat × List (Nat × Nat)) := []
  deriving DecidableEq, Repr

/-- `Consignment`, /repo/src/containers/consignment.rs:176-227, without version and kind flag. -/
structure Consignment where
  data : ConsignmentData
  terminals : List (Nat × Nat) := []
  schema : SchemaDoc
  ifaces : List (IfaceDoc × IimplDoc) := []
  supplements : List SupplDoc := []
  types : List Nat := []
  scripts : List Nat := []
  attachments : List (Nat × Nat) := []
  signatures : List (Nat × List (Nat × Nat)) := []
  deriving DecidableEq, Repr

namespace MemStash

/-- The loop importing signatures in `consume_kit`, /repo/src/persistence/stash.rs:470-474: errors are ignored. -/
def importAllSigs : List (Nat × List (Nat × Nat)) → MemStash → SR Unit
  | [], s => some (s, .ok ())
  | (c, l) :: rest, s =>
    match s.importSigs c l with
    | none => none
    | some (s', _) => importAllSigs rest s'

/-- `Stash::consume_kit`, /repo/src/persistence/stash.rs:436-477. -/
def consumeKit (I : Ids) (s : MemStash) (k : Kit) : SR Unit :=
  SR.bind (s.consumeTypes k.types) fun s _ =>
  SR.bind (SR.each (replaceLib I) k.scripts s) fun s _ =>
  SR.bind (SR.each (replaceSchema I) k.schemata s) fun s _ =>
  SR.bind (SR.each (replaceIface I) k.ifaces s) fun s _ =>
  SR.bind (SR.each replaceIimpl k.iimpls s) fun s _ =>
  SR.bind (SR.each addSupplement k.supplements s) fun s _ =>
  importAllSigs k.signatures s

/-- Merging the genesis of a consignment, /repo/src/persistence/stash.rs:497-503. -/
def consumeGenesis (H : Commit) (s : MemStash) (g : Op) : SR Bool :=
  match s.genesis (g.contractId H) with
  | none => s.replaceGenesis H g
  | some old =>
    match old.merge H g with
    | .error e => some (s, .error (.merge e))
    | .ok r => s.replaceGenesis H r

/-- Merging an extension, /repo/src/persistence/stash.rs:506-513. -/
def consumeExtension (H : Commit) (s : MemStash) (e : Op) : SR Bool :=
  match s.extension (e.id H) with
  | none => s.replaceExtension H e
  | some old =>
    match old.merge H e with
    | .error x => some (s, .error (.merge x))
    | .ok r => s.replaceExtension H r

/-- `consume_bundle`, /repo/src/persistence/stash.rs:662-673. -/
def consumeBundle (H : Commit) (s : MemStash) (b : Bundle) : SR Bool :=
  match s.bundle (b.id H) with
  | none => s.replaceBundle H b
  | some old =>
    match old.merge H b with
    | .error e => some (s, .error (.merge e))
    | .ok r => s.replaceBundle H r

/-- `consume_witness`, /repo/src/persistence/stash.rs:647-660. -/
def consumeWitness (s : MemStash) (w : SealWitness) : SR Bool :=
  match s.witness w.id with
  | none => s.replaceWitness w
  | some old =>
    match old.pub.merge w.pub with
    | .error e => some (s, .error (.merge e))
    | .ok p =>
      match old.anchors.merge w.anchors with
      | .error e => some (s, .error (.anchors e))
      | .ok a => s.replaceWitness ⟨p, a⟩

/-- The loop of `consume_witness_bundle`, /repo/src/persistence/stash.rs:561-572: consumes the bundles and collects the
anchors. -/
def consumeAnchored (H : Commit) (M : Mpc) (contract : Nat) :
    List ClientBundle → MemStash → SR (List (CloseMethod × Anchor))
  | [], s => some (s, .ok [])
  | c :: rest, s =>
    SR.bind (s.consumeBundle H c.bundle) fun s _ =>
    match M.block c.mpc contract (c.bundle.id H) with
    | none => some (s, .error .mpc)
    | some (root, known) =>
      SR.bind (consumeAnchored H M contract rest s) fun s as =>
      some (s, .ok ((c.dbc.method, ⟨c.dbc.data, root, known⟩) :: as))

/-- The anchor set of the collected anchors, /repo/src/persistence/stash.rs:574-633; `none` is `unwrap()` of an empty
list (574) or `unreachable!()` (631). -/
def anchorSetOf : List (CloseMethod × Anchor) → Option AnchorSet
  | [(.opretFirst, a)] => some (.opret a)
  | [(.tapretFirst, a)] => some (.tapret a)
  | [(.tapretFirst, t), (.opretFirst, o)] => some (.double t o)
  | [(.opretFirst, o), (.tapretFirst, t)] => some (.double t o)
  | _ => none

/-- `consume_witness_bundle`, /repo/src/persistence/stash.rs:548-645. -/
def consumeWitnessBundle (H : Commit) (M : Mpc) (contract : Nat) (s : MemStash) (w : WitnessBundle) : SR Bool :=
  SR.bind (consumeAnchored H M contract w.anchored.list s) fun s as =>
  match anchorSetOf as with
  | none => none
  | some a => s.consumeWitness ⟨w.pub, a⟩

/-- The kit made of a consignment, /repo/src/persistence/stash.rs:525-545. -/
def kitOf (con : Consignment) : Kit where
  ifaces := OSet.ofList (con.ifaces.map Prod.fst)
  schemata := [con.schema]
  iimpls := OSet.ofList (con.ifaces.map Prod.snd)
  supplements := con.supplements
  types := con.types
  scripts := con.scripts
  signatures := con.signatures

/-- `Stash::consume_consignment`, /repo/src/persistence/stash.rs:491-546. -/
def consumeConsignment (H : Commit) (I : Ids) (M : Mpc) (s : MemStash) (con : Consignment) : SR Unit :=
  SR.bind (s.consumeGenesis H con.data.genesis) fun s _ =>
  SR.bind (SR.each (consumeExtension H) con.data.extensions s) fun s _ =>
  SR.bind (SR.each (consumeWitnessBundle H M (con.data.genesis.contractId H)) con.data.bundles s) fun s _ =>
  SR.bind (SR.each (fun s a => s.replaceAttachment a.1 a.2) con.attachments s) fun s _ =>
  consumeKit I s (kitOf con)

/-- `Stash::resolve_secrets`, /repo/src/persistence/stash.rs:479-489. -/
def resolveSecrets (H : Commit) (s : MemStash) (con : Consignment) : Except StashErr Consignment :=
  match revealTerminalSeals H (fun sec => Except.ok (ε := StashErr) (s.sealSecret H sec)) con.terminals
      con.data.bundles with
  | .error e => .error e
  | .ok ws => .ok { con with data := { con.data with bundles := ws } }

end MemStash

end Rgb
