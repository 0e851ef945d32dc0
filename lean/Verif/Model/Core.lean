import Verif.Model.Base

/-!
# Contract data types

The data types of rgb-core which rgb-std works with (re-exported in /repo/src/lib.rs:36-60 through
`rgbcore`): seals, states, assignments in their four disclosure forms, operations, bundles.
rgb-core itself isn't a part of /repo; the shapes are those visible from their use in /repo/src, as cited.
-/

namespace Rgb

/-- Blockchain layer of a seal or a witness; `XChain::Bitcoin` / `XChain::Liquid` in
/repo/src/containers/anchors.rs:88-105. The `XChain::Other` variant (an uninhabited type there, matched
with `unreachable!()`) is dropped. -/
inductive Layer1 where
  | bitcoin
  | liquid
  deriving DecidableEq, Repr

def Layer1.num : Layer1 → Nat
  | .bitcoin => 0
  | .liquid => 1

theorem Layer1.num_inj {a b : Layer1} (h : a.num = b.num) : a = b := by
  cases a <;> cases b <;> simp [Layer1.num] at h <;> rfl

/-- Closing method of a seal, /repo/src/containers/partials.rs:105-114. -/
inductive CloseMethod where
  | opretFirst
  | tapretFirst
  deriving DecidableEq, Repr

def CloseMethod.num : CloseMethod → Nat
  | .opretFirst => 0
  | .tapretFirst => 1

theorem CloseMethod.num_inj {a b : CloseMethod} (h : a.num = b.num) : a = b := by
  cases a <;> cases b <;> simp [CloseMethod.num] at h <;> rfl

/-- Reference to an operation output: operation id, assignment type, number;
`Opout::new(opid, ty, no)` in /repo/src/contract/assignments.rs:150. -/
structure Opout where
  op : Nat
  ty : Nat
  no : Nat
  deriving DecidableEq, Repr

instance : Key Opout where
  enc o := [o.op, o.ty, o.no]
  enc_inj := by intro a b h; cases a; cases b; simp at h; simp [h]

/-- `XWitnessId = XChain<Txid>`, /repo/src/containers/anchors.rs:80-86. -/
structure WitnessId where
  chain : Layer1
  txid : Nat
  deriving DecidableEq, Repr

instance : Key WitnessId where
  enc w := [w.chain.num, w.txid]
  enc_inj := by
    intro a b h; cases a; cases b; simp at h
    obtain ⟨h1, h2⟩ := h; cases Layer1.num_inj h1; simp [h2]

/-- `XOutpoint`: chain, txid, vout; /repo/src/containers/partials.rs:170. -/
structure Outpoint where
  chain : Layer1
  txid : Nat
  vout : Nat
  deriving DecidableEq, Repr

instance : Key Outpoint where
  enc w := [w.chain.num, w.txid, w.vout]
  enc_inj := by
    intro a b h; cases a; cases b; simp at h
    obtain ⟨h1, h2⟩ := h; cases Layer1.num_inj h1; simp [h2]

/-- `XOutputSeal`: a seal with a definite transaction output;
/repo/src/contract/assignments.rs:95-99, /repo/src/containers/partials.rs:101-103. -/
structure OutSeal where
  chain : Layer1
  method : CloseMethod
  txid : Nat
  vout : Nat
  deriving DecidableEq, Repr

instance : Key OutSeal where
  enc w := [w.chain.num, w.method.num, w.txid, w.vout]
  enc_inj := by
    intro a b h; cases a; cases b; simp at h
    obtain ⟨h1, h2, h3⟩ := h; cases Layer1.num_inj h1; cases CloseMethod.num_inj h2; simp [h3]

/-- `XOutpoint::from(XOutputSeal)`, /repo/src/containers/partials.rs:170. -/
def OutSeal.outpoint (s : OutSeal) : Outpoint := ⟨s.chain, s.txid, s.vout⟩

/-- `XChain<GenesisSeal>` / `XChain<GraphSeal>`: seal definitions. `txid = none` is a seal on the
witness transaction itself (`TxPtr::WitnessTx`). One type for both seal kinds: a genesis seal always has
a txid (rgb-core types, used through `ExposedSeal` in /repo/src/contract/assignments.rs:137-176). -/
structure Seal where
  chain : Layer1
  method : CloseMethod
  txid : Option Nat
  vout : Nat
  blinding : Nat
  deriving DecidableEq, Repr

/-- `to_output_seal()`, used in /repo/src/contract/assignments.rs:163-166: needs an explicit txid. -/
def Seal.toOutput (s : Seal) : Option OutSeal :=
  s.txid.map (fun t => ⟨s.chain, s.method, t, s.vout⟩)

/-- `try_to_output_seal(witness_id)`, used in /repo/src/contract/assignments.rs:151-154: witness-based
seals get the txid of the witness; an error when chains differ. -/
def Seal.toOutputWith (s : Seal) (w : WitnessId) : Option OutSeal :=
  match s.txid with
  | some t => some ⟨s.chain, s.method, t, s.vout⟩
  | none => if s.chain = w.chain then some ⟨s.chain, s.method, w.txid, s.vout⟩ else none

/-- Kinds of state of an assignment, `TypedAssigns` variants in
/repo/src/contract/merge_reveal.rs:152-196. -/
inductive StateKind where
  | declarative
  | fungible
  | structured
  | attachment
  deriving DecidableEq, Repr

/-- Revealed state: `VoidState`, `RevealedFungible` (value, blinding factor, asset tag),
`RevealedData` (value, salt), `RevealedAttach` (file id, media type, salt);
/repo/src/interface/builder.rs:1059-1087. Data values are their strict encoding, as a `Nat`. -/
inductive RState where
  | void
  | fungible (value blinding tag : Nat)
  | data (value salt : Nat)
  | attach (file media salt : Nat)
  deriving DecidableEq, Repr

/-- `Assign<State, Seal>` with its four disclosure forms, /repo/src/contract/merge_reveal.rs:96-146.
The `lock: ReservedBytes` field (always zero) is dropped. Hashes are `Nat`. -/
inductive Assign where
  | confidential (sealHash : Nat) (stateHash : Nat)
  | confidentialSeal (sealHash : Nat) (state : RState)
  | confidentialState (sl : Seal) (stateHash : Nat)
  | revealed (sl : Seal) (state : RState)
  deriving DecidableEq, Repr

/-- `TypedAssigns<Seal>`: assignments of one type, all of one state kind;
/repo/src/contract/merge_reveal.rs:150-198. -/
structure TypedAssigns where
  kind : StateKind
  items : List Assign
  deriving DecidableEq, Repr

/-- `Assignments<Seal>`: map from the assignment type, /repo/src/contract/merge_reveal.rs:200-215. -/
abbrev Assignments := OMap Nat TypedAssigns

inductive OpKind where
  | genesis
  | transition
  | extension
  deriving DecidableEq, Repr

/-- `Genesis`, `Transition`, `Extension` (/repo/src/contract/merge_reveal.rs:257-294,
/repo/src/interface/builder.rs:400-426 and 802-822).
* `contract` – contract id field (unused for genesis: its contract id is its own id);
* `ty` – transition/extension type; `nonce` – of transitions and extensions;
* `globals` – global state values per type; `inputs` – of transitions; `redeemed` – valencies redeemed
  by extensions with the operation they come from;
* `extra` – everything else (version, schema, timestamp, issuer, flags, metadata, valencies, tags…). -/
structure Op where
  kind : OpKind
  contract : Nat := 0
  ty : Nat := 0
  nonce : Nat := 0
  globals : OMap Nat (List Nat) := []
  inputs : OSet Opout := []
  redeemed : OMap Nat Nat := []
  assigns : Assignments := []
  extra : Nat := 0
  deriving DecidableEq, Repr

/-- The hash commitments: arbitrary functions. `sealHash`/`stateHash` are the concealment of seals and
states, `opHash` the commitment id of an operation *in its concealed form*, `bundleHash` the bundle id as a
commitment to the closing method and the input map. -/
structure Commit where
  sealHash : Seal → Nat
  stateHash : RState → Nat
  opHash : Op → Nat
  bundleHash : CloseMethod → OMap Nat Nat → Nat

/-- Collision resistance of the commitments, an explicit hypothesis of the theorems which need it. -/
structure Commit.Binding (H : Commit) : Prop where
  seal_inj : ∀ a b, H.sealHash a = H.sealHash b → a = b
  state_inj : ∀ a b, H.stateHash a = H.stateHash b → a = b
  op_inj : ∀ a b, H.opHash a = H.opHash b → a = b
  bundle_inj : ∀ m n a b, H.bundleHash m a = H.bundleHash n b → m = n ∧ a = b

/-- `Conceal for Assign`: used in /repo/src/contract/merge_reveal.rs:95. -/
def Assign.conceal (H : Commit) : Assign → Assign
  | .confidential s t => .confidential s t
  | .confidentialSeal s st => .confidential s (H.stateHash st)
  | .confidentialState s t => .confidential (H.sealHash s) t
  | .revealed s st => .confidential (H.sealHash s) (H.stateHash st)

def TypedAssigns.conceal (H : Commit) (t : TypedAssigns) : TypedAssigns :=
  { t with items := t.items.map (Assign.conceal H) }

def Assignments.conceal (H : Commit) (a : Assignments) : Assignments :=
  OMap.mapVals (TypedAssigns.conceal H) a

def Op.conceal (H : Commit) (o : Op) : Op := { o with assigns := Assignments.conceal H o.assigns }

/-- `Operation::id()`, used in /repo/src/contract/merge_reveal.rs:259-260: commits to the concealed form. -/
def Op.id (H : Commit) (o : Op) : Nat := H.opHash (o.conceal H)

/-- `contract_id()` of an operation: of a genesis it is its own id. -/
def Op.contractId (H : Commit) (o : Op) : Nat :=
  match o.kind with
  | .genesis => o.id H
  | _ => o.contract

/-- `TransitionBundle`: /repo/src/contract/merge_reveal.rs:217-235. `inputMap`: transaction input number to
the operation spending it; `known`: the known transitions by their id. -/
structure Bundle where
  closeMethod : CloseMethod
  inputMap : OMap Nat Nat
  known : OMap Nat Op
  deriving DecidableEq, Repr

/-- `bundle_id()`, /repo/src/contract/merge_reveal.rs:219: commits to the closing method and inputs and thus
doesn't depend on which transitions are known. -/
def Bundle.id (H : Commit) (b : Bundle) : Nat := H.bundleHash b.closeMethod b.inputMap

/-- Revealed seal at this assignment, `Assign::revealed_seal`,
used in /repo/src/contract/assignments.rs:241-254. -/
def Assign.seal? : Assign → Option Seal
  | .confidentialState s _ => some s
  | .revealed s _ => some s
  | _ => none

/-- Revealed state at this assignment (`as_revealed_state`). -/
def Assign.state? : Assign → Option RState
  | .confidentialSeal _ st => some st
  | .revealed _ st => some st
  | _ => none

/-- `to_confidential_seal()`: used in /repo/src/persistence/index.rs (terminals). -/
def Assign.secret (H : Commit) : Assign → Nat
  | .confidential s _ => s
  | .confidentialSeal s _ => s
  | .confidentialState s _ => H.sealHash s
  | .revealed s _ => H.sealHash s

/-- `TypedAssigns::filter_revealed_seals`, /repo/src/contract/assignments.rs:241-254. -/
def TypedAssigns.revealedSeals (t : TypedAssigns) : List Seal := t.items.filterMap Assign.seal?

end Rgb
